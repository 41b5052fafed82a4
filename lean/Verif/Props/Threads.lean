import Verif.Spec.Threads
import Verif.Props.Recip
import Verif.Lemmas.ZmRat
set_option autoImplicit false

/-!
# Several robots, several threads

C126.
-/

namespace Roki
open Spec
variable {K : Type*} [Field K] [LinearOrder K] [Zm K]

/-- **C126** Whatever calls are made on any number of robots and in whatever order they happen, if none is undefined, each robot is in the
state that its own calls alone bring about, each with the gravity at its time. -/
theorem C126_alone (xs : List (Call K)) (w w' : World K) (h : runCalls xs w = some w') :
    w'.gravity = gravityAfter w.gravity xs ∧ ∀ i, runActs (actsOf i w.gravity xs) (w.robot i) = some (w'.robot i) := by
  induction xs generalizing w with
  | nil => simp only [runCalls, Option.some.injEq] at h; subst h; exact ⟨rfl, fun _ => rfl⟩
  | cons x xs ih =>
    rw [runCalls, Option.bind_eq_some_iff] at h
    obtain ⟨w1, h1, h2⟩ := h
    obtain ⟨a1, a2⟩ := ih w1 h2
    cases x with
    | gravity g =>
      simp only [Call.run, Option.some.injEq] at h1; subst h1
      exact ⟨a1, a2⟩
    | act j a =>
      simp only [Call.run, Option.map_eq_some_iff] at h1
      obtain ⟨c, hc, rfl⟩ := h1
      refine ⟨a1, fun i => ?_⟩
      have := a2 i
      simp only [actsOf]
      by_cases hi : j = i
      · subst hi
        rw [if_pos rfl, runActs, hc, Option.bind_some]
        simpa using this
      · rw [if_neg hi]
        simpa [Ne.symm hi] using this

/-- **C126** No call is undefined if the calls on each robot alone are defined. -/
theorem C126_defined (xs : List (Call K)) (w : World K) (h : ∀ i, (runActs (actsOf i w.gravity xs) (w.robot i)).isSome) : (runCalls xs w).isSome := by
  induction xs generalizing w with
  | nil => rfl
  | cons x xs ih =>
    cases x with
    | gravity g => exact ih { w with gravity := g } h
    | act j a =>
      have hj := h j
      simp only [actsOf, if_pos rfl, runActs] at hj
      obtain ⟨c', hc'⟩ := Option.isSome_iff_exists.1 hj
      obtain ⟨c, hc, -⟩ := Option.bind_eq_some_iff.1 hc'
      rw [runCalls, Call.run, hc, Option.map_some, Option.bind_some]
      refine ih _ fun i => ?_
      have hi := h i
      simp only [actsOf] at hi
      by_cases hji : j = i
      · subst hji
        rw [if_pos rfl, runActs, hc, Option.bind_some] at hi
        simpa using hi
      · rw [if_neg hji] at hi
        simpa [Ne.symm hji] using hi

/-- **C126** Two orders of calls in which each robot sees the same actions with the same gravity, and which leave the same gravity, have the same
effect: the schedule does not matter. -/
theorem C126_schedules (xs ys : List (Call K)) (w : World K) (h : ∀ i, actsOf i w.gravity xs = actsOf i w.gravity ys)
    (hg : gravityAfter w.gravity xs = gravityAfter w.gravity ys) : runCalls xs w = runCalls ys w := by
  have key : ∀ xs ys : List (Call K), (∀ i, actsOf i w.gravity xs = actsOf i w.gravity ys) → gravityAfter w.gravity xs = gravityAfter w.gravity ys →
      ∀ w', runCalls xs w = some w' → runCalls ys w = some w' := by
    intro xs ys h hg w' hw
    obtain ⟨a1, a2⟩ := C126_alone xs w w' hw
    have hs := C126_defined ys w fun i => by rw [← h, a2 i]; rfl
    obtain ⟨w'', hw''⟩ := Option.isSome_iff_exists.1 hs
    obtain ⟨b1, b2⟩ := C126_alone ys w w'' hw''
    rw [hw'']
    have e1 : w''.gravity = w'.gravity := by rw [a1, b1, hg]
    have e2 : w''.robot = w'.robot := by
      funext i
      have := b2 i
      rw [← h, a2 i] at this
      exact (Option.some.inj this).symm
    cases w''; cases w'; simp_all
  cases h1 : runCalls xs w with
  | some w' => exact (key xs ys h hg w' h1).symm
  | none =>
    cases h2 : runCalls ys w with
    | none => rfl
    | some w' => rw [key ys xs (fun i => (h i).symm) hg.symm w' h2] at h1; exact h1.symm

/-- **C126** Threads that use robots of their own and do not change gravity: with any interleaving of their calls, each of them leaves its robot as if
it had run alone. -/
theorem C126_interleaving (thread : ℕ → List (Act K)) (xs : List (Call K)) (w w' : World K) (hg : ∀ g, Call.gravity g ∉ xs)
    (hx : ∀ i, xs.filterMap (fun x => match x with | .act j a => if j = i then some a else none | .gravity _ => none) = thread i)
    (h : runCalls xs w = some w') (i : ℕ) : runActs ((thread i).map (Act.under w.gravity)) (w.robot i) = some (w'.robot i) := by
  have e : ∀ (xs : List (Call K)), (∀ g, Call.gravity g ∉ xs) → ∀ i, actsOf i w.gravity xs =
      (xs.filterMap (fun x => match x with | .act j a => if j = i then some a else none | .gravity _ => none)).map (Act.under w.gravity) := by
    intro xs
    induction xs with
    | nil => intro _ _; rfl
    | cons x xs ih =>
      intro hg i
      have ih := ih (fun g hm => hg g (List.mem_cons_of_mem _ hm)) i
      cases x with
      | gravity g => exact absurd List.mem_cons_self (hg g)
      | act j a =>
        simp only [actsOf, List.filterMap_cons]
        by_cases hj : j = i
        · rw [if_pos hj, if_pos hj, ih]; rfl
        · rw [if_neg hj, if_neg hj, ih]
  have := (C126_alone xs w w' h).2 i
  rw [e xs hg i, hx i] at this
  exact this

/-! ## Cases -/

namespace Sample
/-- Two robots, each of two bodies that slide along the vertical. -/
def pairOf : World ℚ := ⟨10, fun _ => slides⟩
end Sample

/-- The forces that inverse dynamics finds at the joints of robot `i`. -/
noncomputable def forcesOf (i : ℕ) (xs : List (Call ℚ)) : Option (List (List ℚ)) :=
  (runCalls xs Sample.pairOf).map fun w => (w.robot i).link.map fun l => l.joint.prp.getTrq

/-- Two threads that move robots of their own: the hypotheses of `C126_interleaving` hold in two different orders. -/
example :
    forcesOf 0 [.act 0 (.setDis [1, 2]), .act 1 (.setDis [3, 4]), .act 0 .updateFK, .act 0 (.updateID 0), .act 1 .updateFK, .act 1 (.updateID 0)] =
      some [[20], [10]] ∧
    forcesOf 0 [.act 1 (.setDis [3, 4]), .act 1 .updateFK, .act 0 (.setDis [1, 2]), .act 0 .updateFK, .act 1 (.updateID 0), .act 0 (.updateID 0)] =
      some [[20], [10]] := by
  constructor <;> decide +kernel

/-- **C126** Gravity is shared: when another thread changes it between two calls of this thread, the forces of this thread's robot change. -/
theorem C126_gravity_shared :
    forcesOf 0 [.act 0 .updateFK, .act 0 (.updateID 0), .gravity 2] = some [[20], [10]] ∧
    forcesOf 0 [.act 0 .updateFK, .gravity 2, .act 0 (.updateID 0)] = some [[4], [2]] := by
  constructor <;> decide +kernel

end Roki
