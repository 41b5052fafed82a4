import Verif.Props.ABIFails
import Mathlib.Analysis.Real.Sqrt
set_option autoImplicit false

/-!
# Breakable joints (C33)

The property does not hold.  The functions of the rigid joint are never installed by a joint with
nonnegative thresholds, because the table starts with the functions of the free joint, and a free joint
transmits nothing.  The theorems say what the library does instead.
-/

namespace Roki
open Spec LinkArray
variable {K : Type*} [Field K]

/-- **C33, violated** in general: as long as the table has not been exchanged, forward dynamics treats a
breakable joint as a free one, whatever its thresholds: same inertia seen by the joint, same contribution to
the parent, same acceleration. -/
theorem C33_unbroken_is_free_fails [Zm K] (d : FloatPrp K) (m : Mat6 K) (b jac acc : Vec6 K) (f : Frame K)
    (h ih : ℕ → ℕ → K) :
    (Prp.brfloat d).abiAxisInertia false m h ih = (Prp.float d).abiAxisInertia false m h ih ∧
    (Prp.brfloat d).abiABI false m f ih = 0 ∧ (Prp.brfloat d).abiBias false m b f ih = 0 ∧
    ((Prp.brfloat d).abiQAcc false m b jac ih acc).1.getAcc =
      ((Prp.float d).abiQAcc false m b jac ih acc).1.getAcc ∧
    ((Prp.brfloat d).abiQAcc false m b jac ih acc).2 = ((Prp.float d).abiQAcc false m b jac ih acc).2 :=
  ⟨rfl, rfl, rfl, rfl, rfl⟩

/-- After the exchange it is treated as a rigid one: the parent carries the whole inertia and bias, and the link
moves with its parent. -/
theorem C33_broken_is_rigid_fails [Zm K] (d : FloatPrp K) (m : Mat6 K) (b jac acc : Vec6 K) (f : Frame K)
    (ih : ℕ → ℕ → K) :
    (Prp.brfloat d).abiABI true m f ih = (Prp.fixed : Prp K).abiABI true m f ih ∧
    (Prp.brfloat d).abiBias true m b f ih = (Prp.fixed : Prp K).abiBias true m b f ih ∧
    ((Prp.brfloat d).abiQAcc true m b jac ih acc).2 = ((Prp.fixed : Prp K).abiQAcc true m b jac ih acc).2 :=
  ⟨rfl, rfl, rfl⟩

section
variable [LinearOrder K] [IsStrictOrderedRing K] [Zm K] [LawfulZm K]

theorem LTree.brfloat_wrench (T : LTree (Link K)) (pa : Vec6 K) :
    ∀ l ∈ ((T.abiBack false).1.abiFwd false true pa).toList, AxisRegular l →
      (∃ d, l.joint.prp = .brfloat d) → l.joint.wrench = 0 := by
  induction T generalizing pa with
  | nil => intro l hl; simp [LTree.abiBack, LTree.abiFwd, LTree.down, LTree.toList] at hl
  | node l c s ihc ihs =>
    intro m hm hr hd
    simp only [LTree.abiBack] at hm
    rw [LTree.abiFwd_node] at hm
    simp only [LTree.toList, List.mem_cons, List.mem_append] at hm
    rcases hm with rfl | hm | hm
    · obtain ⟨d, hd⟩ := hd
      have hx := LTree.axisOK_back false (l.abiAdd (c.abiBack false).2)
      generalize (l.abiAdd (c.abiBack false).2).abiBackward false = l0 at hr hd hx ⊢
      simp only [LTree.abiStep, if_true] at hr hd ⊢
      have hk : ∃ d', l0.joint.prp = .brfloat d' := by
        cases hp : l0.joint.prp <;>
          simp [Link.abiWrench, Link.abiForward, hp, Prp.abiQAcc] at hd ⊢
        all_goals (try split at hd) <;> simp_all
      have hr0 : AxisRegular l0 := by
        obtain ⟨d', hk⟩ := hk
        simp only [AxisRegular, hd] at hr
        simp only [AxisRegular, hk]
        exact hr
      exact Link.float_balance hx hr0 (.inr ⟨hk, rfl⟩) pa
    · exact ihc _ m hm hr hd
    · exact ihs _ m hm hr hd

/-- A breakable joint with nonnegative thresholds. -/
def Spec.Thresholds (p : Prp K) : Prop :=
  ∀ d, p = .brfloat d → (∀ e, d.epf = some e → 0 ≤ e) ∧ ∀ e, d.ept = some e → 0 ≤ e

/-- **C33 (a breakable joint never transmits a wrench).**  Forward dynamics from a fresh table leaves every
breakable joint with a regular inertia without wrench. -/
theorem C33_no_wrench (c c1 : Chain K) (h : c.WF) (e : c.abiUpdate false true = some c1)
    (hs : jointSize c.link ≠ 0) (l : Link K) (hl : l ∈ c1.link) (hr : AxisRegular l)
    (hd : ∃ d, l.joint.prp = .brfloat d) : l.joint.wrench = 0 := by
  obtain ⟨T, hT⟩ := Chain.gather_exists (ls := c.link) (t := c.shape) (fun i hi => h.mem.1 hi)
  obtain ⟨ls', e', g, n⟩ := h.abiUpdate false true hs hT
  rw [e'] at e
  cases e
  have hp := Chain.gather_perm (t := c.shape) g (n ▸ h.perm)
  exact LTree.brfloat_wrench _ _ l (hp.mem_iff.2 hl) hr hd

/-- **C33, violated** for all histories of a chain with nonnegative thresholds: no step of forward dynamics ever
exchanges the table, so no load ever changes the behaviour of a breakable joint. -/
theorem C33_never_exchanged_fails (c c1 : Chain K) (h : c.WF) (e : c.abiUpdate false true = some c1)
    (hs : jointSize c.link ≠ 0) (hr : ∀ l ∈ c1.link, AxisRegular l)
    (ht : ∀ l ∈ c1.link, Spec.Thresholds l.joint.prp) : c1.abiBreak false = false := by
  simp only [Chain.abiBreak, Bool.false_or, List.any_eq_false]
  intro l hl
  cases hp : l.joint.prp with
  | brfloat d =>
    have hw := C33_no_wrench c c1 h e hs l hl (hr l hl) ⟨d, hp⟩
    have ht := ht l hl d hp
    have sq : sqrNorm (0 : Vec3 K) = 0 := by simp [sqrNorm, dot]
    have key : ∀ t : Option K, (∀ e, t = some e → 0 ≤ e) → Prp.normGt (0 : Vec3 K) t = false := by
      intro t ht
      cases t with
      | none => rfl
      | some e =>
        have := ht e rfl
        simp [Prp.normGt, sq, not_lt.2 this, not_lt.2 (mul_self_nonneg e)]
    rw [hw]
    simp only [Prp.breaks]
    have e1 := key _ ht.1
    have e2 := key _ ht.2
    simp only [Vec6.zero_lin, Vec6.zero_ang, e1, e2]
    simp
  | _ => simp [Prp.breaks]

end

/-- **C33 (thresholds).**  The test for breaking that the code makes is that the magnitude of the force exceeds the threshold
of force or the magnitude of the torque exceeds the threshold of torque; an infinite threshold is never exceeded, and joints
of other types never break. -/
theorem C33_thresholds (p : Prp ℝ) (w : Vec6 ℝ) : p.breaks w = true ↔ ∃ d, p = .brfloat d ∧
    ((∃ e, d.epf = some e ∧ e < √(w.lin.x ^ 2 + w.lin.y ^ 2 + w.lin.z ^ 2)) ∨
      ∃ e, d.ept = some e ∧ e < √(w.ang.x ^ 2 + w.ang.y ^ 2 + w.ang.z ^ 2)) := by
  have key : ∀ (v : Vec3 ℝ) (t : Option ℝ), Prp.normGt v t = true ↔
      ∃ e, t = some e ∧ e < √(v.x ^ 2 + v.y ^ 2 + v.z ^ 2) := by
    intro v t
    have hs : sqrNorm v = v.x ^ 2 + v.y ^ 2 + v.z ^ 2 := by simp only [sqrNorm, dot]; ring
    have h0 : 0 ≤ v.x ^ 2 + v.y ^ 2 + v.z ^ 2 := by positivity
    cases t with
    | none => simp [Prp.normGt]
    | some e =>
      simp only [Prp.normGt, hs, Bool.or_eq_true, decide_eq_true_eq, Option.some.injEq, exists_eq_left']
      rcases lt_or_ge e 0 with he | he
      · exact ⟨fun _ => he.trans_le (Real.sqrt_nonneg _), fun _ => .inl he⟩
      · rw [Real.lt_sqrt he, pow_two e]
        exact ⟨fun h => h.resolve_left (not_lt.2 he), .inr⟩
  cases p <;> simp [Prp.breaks, key]

/-- A force of 5 N breaks a joint that stands 4 N and does not break one that stands 5 N. -/
example : (Prp.brfloat { Sample.flt (0 : Vec6 ℚ) with epf := some 4, ept := none }).breaks ⟨⟨3, 4, 0⟩, 0⟩ = true ∧
    (Prp.brfloat { Sample.flt (0 : Vec6 ℚ) with epf := some 5, ept := none }).breaks ⟨⟨3, 4, 0⟩, 0⟩ = false := by
  decide +kernel

namespace Sample
/-- A breakable joint with the given threshold of force. -/
def breakable (epf : ℚ) : Prp ℚ := .brfloat { flt 0 with epf := some epf, ept := some 1000 }

/-- The accelerations that forward dynamics gives to a chain at rest, and the table after it. -/
noncomputable def fall (fx : Bool) (c : Chain ℚ) : Option (Option (List ℚ) × Bool) :=
  (c.abi fx (List.replicate 6 0) (List.replicate 6 0) (List.replicate 6 0)).map
    fun r => (r.2, r.1.abiBreak fx)
end Sample

/-- **C33, violated**: a body of unit mass that hangs on a breakable joint which should carry 1000 N falls
freely, and the joint is not considered broken. -/
theorem C33_rigid_fails :
    Sample.fall false (Sample.serial [(Sample.breakable 1000, Sample.mp0, Frame.ident)]) =
      some (some [0, 0, -rkG, 0, 0, 0], false) := by decide +kernel

/-- **C33, violated**: a joint that does exchange the table, here because of a negative threshold, changes another
joint, even of another chain: the body of `C33_rigid_fails` no longer falls. -/
theorem C33_shared_fails :
    Sample.fall false (Sample.serial [(Sample.breakable (-1), Sample.mp0, Frame.ident)]) =
      some (some [0, 0, -rkG, 0, 0, 0], true) ∧
    Sample.fall true (Sample.serial [(Sample.breakable 1000, Sample.mp0, Frame.ident)]) =
      some (some [0, 0, 0, 0, 0, 0], true) := by
  constructor <;> decide +kernel

/-- The chain of `C33_rigid_fails` meets the hypotheses of `C33_never_exchanged_fails`. -/
example : ∃ c c1 : Chain ℚ, c.WF ∧ c.abiUpdate false true = some c1 ∧ jointSize c.link ≠ 0 ∧
    (∀ l ∈ c1.link, AxisRegular l) ∧ (∀ l ∈ c1.link, Spec.Thresholds l.joint.prp) ∧
    ∃ l ∈ c1.link, ∃ d, l.joint.prp = .brfloat d := by
  have key : ((Sample.serial [(Sample.breakable 1000, Sample.mp0, Frame.ident)]).abiUpdate false true).map
      (fun c => c.link.map fun l => (l.joint.prp, (List.range 6).all fun i => (List.range 6).all fun k =>
        ∑ j ∈ Finset.range 6, l.abi.axi i j * (if j = k then 1 else 0) = if i = k then 1 else 0)) =
      some [(.brfloat { Sample.flt 0 with epf := some 1000, ept := some 1000, acc := ⟨⟨0, 0, -rkG⟩, 0⟩ }, true)] := by
    decide +kernel
  rw [Option.map_eq_some_iff] at key
  obtain ⟨c1, e, hk⟩ := key
  refine ⟨_, c1, ⟨⟨_, rfl⟩, .refl _⟩, e, by decide +kernel, ?_⟩
  obtain ⟨ls, t, m, w, v, a⟩ := c1
  obtain ⟨l, rfl, hl⟩ := List.map_eq_singleton_iff.1 hk
  rw [Prod.mk.injEq] at hl
  refine ⟨fun x hx => ?_, fun x hx => ?_, l, by simp, _, hl.1⟩
  · obtain rfl := List.mem_singleton.1 hx
    simp only [AxisRegular, hl.1]
    refine ⟨fun i j => if i = j then 1 else 0, fun i hi k hk => ?_⟩
    have := hl.2
    simp only [List.all_eq_true, List.mem_range, decide_eq_true_eq] at this
    exact this i hi k hk
  · obtain rfl := List.mem_singleton.1 hx
    rw [hl.1]
    intro d hd
    cases hd
    simp

end Roki
