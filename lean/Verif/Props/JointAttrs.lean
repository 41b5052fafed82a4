import Verif.Props.JointLimits
import Verif.Lemmas.ZmRat
set_option autoImplicit false

/-!
# C74: each attribute of a joint is what was last set

A history is any sequence of calls of the setters of a joint.
-/

namespace Roki
variable {K : Type*}
open Spec

/-! ## Specification -/

namespace Spec.Attr

/-- A call of a setter with its argument. -/
inductive Call (K : Type*)
  | dis (v : List K)
  | vel (v : List K)
  | acc (v : List K)
  | trq (v : List K)
  | lo (v : List K)
  | hi (v : List K)
  | fric (v : List K)

/-- The argument of a call. -/
def Call.arg : Call K → List K
  | dis v => v
  | vel v => v
  | acc v => v
  | trq v => v
  | lo v => v
  | hi v => v
  | fric v => v

/-- The argument of the last call selected by `sel`, or the initial value if there is none. -/
def last {α : Type*} (sel : Call K → Option α) (init : α) : List (Call K) → α
  | [] => init
  | c :: cs => last sel ((sel c).getD init) cs

/-- Selects the calls of `rkJointSetVel`. -/
def velOf : Call K → Option (List K)
  | .vel v => some v
  | _ => none
/-- Selects the calls of `rkJointSetAcc`. -/
def accOf : Call K → Option (List K)
  | .acc v => some v
  | _ => none
/-- Selects the calls of `rkJointSetTrq`. -/
def trqOf : Call K → Option (List K)
  | .trq v => some v
  | _ => none
/-- Selects the calls of `rkJointSetMin`. -/
def loOf : Call K → Option (List (Option K))
  | .lo v => some (v.map some)
  | _ => none
/-- Selects the calls of `rkJointSetMax`. -/
def hiOf : Call K → Option (List (Option K))
  | .hi v => some (v.map some)
  | _ => none
/-- Selects the calls of `rkJointSetFriction`. -/
def fricOf : Call K → Option (List K)
  | .fric v => some v
  | _ => none
end Spec.Attr

open Spec.Attr

section
variable [Field K] [LinearOrder K] [Zm K]

/-- The effect of a call; the setters are those of the table of the joint, include/roki/rk_joint.h:151-171. -/
def Prp.call (p : Prp K) : Call K → Option (Prp K)
  | .dis v => p.setDis v
  | .vel v => p.setVel v
  | .acc v => p.setAcc v
  | .trq v => p.setTrq v
  | .lo v => p.setMin v
  | .hi v => p.setMax v
  | .fric v => p.setFriction v

/-- The effect of a sequence of calls. -/
def Prp.calls (p : Prp K) : List (Call K) → Option (Prp K)
  | [] => some p
  | c :: cs => (p.call c).bind fun q => q.calls cs

/-- What a call does to each attribute of the joint. -/
structure Effect (p q : Prp K) (c : Call K) : Prop where
  type : q.typeStr = p.typeStr
  size : q.size = p.size
  lim : Limited q ↔ Limited p
  vel : q.getVel = (velOf c).getD p.getVel
  acc : q.getAcc = (accOf c).getD p.getAcc
  trq : q.getTrq = (trqOf c).getD p.getTrq
  lo : Limited p → q.getMin = (loOf c).getD p.getMin
  hi : Limited p → q.getMax = (hiOf c).getD p.getMax
  fric : Limited p → q.getFriction = (fricOf c).getD p.getFriction
  sfric : q.getSFriction = p.getSFriction
  motor : q.getMotor = p.getMotor
  nolo : ¬ Limited p → q.getMin = p.getMin
  nohi : ¬ Limited p → q.getMax = p.getMax
  nofric : ¬ Limited p → q.getFriction = p.getFriction
  dis : (∀ v, c ≠ .dis v) → q.getDis = p.getDis
  pose : (∀ v, c ≠ .dis v) → ∀ f, q.xform f = p.xform f
end

theorem len_one {α : Type*} {l : List α} (h : l.length = 1) : ∃ a, l = [a] := List.length_eq_one_iff.1 h
theorem len_two {α : Type*} {l : List α} (h : l.length = 2) : ∃ a b, l = [a, b] := List.length_eq_two.1 h
theorem len_three {α : Type*} {l : List α} (h : l.length = 3) : ∃ a b c, l = [a, b, c] := List.length_eq_three.1 h
theorem len_six {α : Type*} {l : List α} (h : l.length = 6) : ∃ a b c d e f, l = [a, b, c, d, e, f] := by
  match l, h with
  | [a, b, c, d, e, f], _ => exact ⟨a, b, c, d, e, f, rfl⟩

section
variable [Field K] [LinearOrder K] [Zm K]

theorem Prp.call_effect (p q : Prp K) (c : Call K) (hl : c.arg.length = p.size) (h : p.call c = some q) :
    Effect p q c := by
  cases p with
  | fixed =>
    cases c <;> simp only [Prp.call, Prp.setDis, Prp.setVel, Prp.setAcc, Prp.setTrq, Prp.setMin, Prp.setMax, Prp.setFriction,
      Option.some.injEq] at h <;> subst h <;> simp [Prp.size, Call.arg] at hl <;> subst hl <;>
      constructor <;> simp [Limited, velOf, accOf, trqOf, Prp.getVel, Prp.getAcc, Prp.getTrq]
  | revol d =>
    obtain ⟨a, ha⟩ := len_one hl
    cases c <;> simp only [Call.arg] at ha <;> subst ha <;>
      simp [Prp.call, Prp.setDis, Prp.limDis, Prp.setVel, Prp.setAcc, Prp.setTrq, Prp.setMin, Prp.setMax, Prp.setFriction] at h <;>
      subst h <;> constructor <;>
      simp [Limited, velOf, accOf, trqOf, loOf, hiOf, fricOf, Prp.getVel, Prp.getAcc, Prp.getTrq, Prp.typeStr, Prp.size,
        Prp.getMin, Prp.getMax, Prp.getFriction, Prp.getSFriction, Prp.getMotor, Prp.getDis, Prp.xform]
  | prism d =>
    obtain ⟨a, ha⟩ := len_one hl
    cases c <;> simp only [Call.arg] at ha <;> subst ha <;>
      simp [Prp.call, Prp.setDis, Prp.limDis, Prp.setVel, Prp.setAcc, Prp.setTrq, Prp.setMin, Prp.setMax, Prp.setFriction] at h <;>
      subst h <;> constructor <;>
      simp [Limited, velOf, accOf, trqOf, loOf, hiOf, fricOf, Prp.getVel, Prp.getAcc, Prp.getTrq, Prp.typeStr, Prp.size,
        Prp.getMin, Prp.getMax, Prp.getFriction, Prp.getSFriction, Prp.getMotor, Prp.getDis, Prp.xform]
  | cylin d =>
    obtain ⟨a, b, ha⟩ := len_two hl
    cases c <;> simp only [Call.arg] at ha <;> subst ha <;>
      simp [Prp.call, Prp.setDis, Prp.limDis, Prp.setVel, Prp.setAcc, Prp.setTrq, Prp.setMin, Prp.setMax, Prp.setFriction] at h <;>
      subst h <;> constructor <;>
      simp [Limited, velOf, accOf, trqOf, loOf, hiOf, fricOf, Prp.getVel, Prp.getAcc, Prp.getTrq, Prp.typeStr, Prp.size,
        Prp.getMin, Prp.getMax, Prp.getFriction, Prp.getSFriction, Prp.getMotor, Prp.getDis, Prp.xform]
  | hooke d =>
    obtain ⟨a, b, ha⟩ := len_two hl
    cases c <;> simp only [Call.arg] at ha <;> subst ha <;>
      simp [Prp.call, Prp.setDis, Prp.limDis, Prp.setVel, Prp.setAcc, Prp.setTrq, Prp.setMin, Prp.setMax, Prp.setFriction] at h <;>
      subst h <;> constructor <;>
      simp [Limited, velOf, accOf, trqOf, loOf, hiOf, fricOf, Prp.getVel, Prp.getAcc, Prp.getTrq, Prp.typeStr, Prp.size,
        Prp.getMin, Prp.getMax, Prp.getFriction, Prp.getSFriction, Prp.getMotor, Prp.getDis, Prp.xform]
  | spher d =>
    obtain ⟨x, y, z, ha⟩ := len_three hl
    cases c <;> simp only [Call.arg] at ha <;> subst ha <;>
      simp [Prp.call, Prp.setDis, Prp.limDis, Prp.setVel, Prp.setAcc, Prp.setTrq, Prp.setMin, Prp.setMax, Prp.setFriction,
        Vec3.ofBuf] at h <;>
      subst h <;> constructor <;>
      simp [Limited, velOf, accOf, trqOf, loOf, hiOf, fricOf, Prp.getVel, Prp.getAcc, Prp.getTrq, Prp.typeStr, Prp.size,
        Prp.getMin, Prp.getMax, Prp.getFriction, Prp.getSFriction, Prp.getMotor, Prp.getDis, Prp.xform, Vec3.toBuf]
  | float d =>
    obtain ⟨x, y, z, u, v, w, ha⟩ := len_six hl
    cases c <;> simp only [Call.arg] at ha <;> subst ha <;>
      simp [Prp.call, Prp.setDis, Prp.limDis, Prp.setVel, Prp.setAcc, Prp.setTrq, Prp.setMin, Prp.setMax, Prp.setFriction,
        Vec6.ofBuf] at h <;>
      subst h <;> constructor <;>
      simp [Limited, velOf, accOf, trqOf, loOf, hiOf, fricOf, Prp.getVel, Prp.getAcc, Prp.getTrq, Prp.typeStr, Prp.size,
        Prp.getMin, Prp.getMax, Prp.getFriction, Prp.getSFriction, Prp.getMotor, Prp.getDis, Prp.xform, Vec3.toBuf, Vec6.toBuf]
  | brfloat d =>
    obtain ⟨x, y, z, u, v, w, ha⟩ := len_six hl
    cases c <;> simp only [Call.arg] at ha <;> subst ha <;>
      simp [Prp.call, Prp.setDis, Prp.limDis, Prp.setVel, Prp.setAcc, Prp.setTrq, Prp.setMin, Prp.setMax, Prp.setFriction,
        Vec6.ofBuf] at h <;>
      subst h <;> constructor <;>
      simp [Limited, velOf, accOf, trqOf, loOf, hiOf, fricOf, Prp.getVel, Prp.getAcc, Prp.getTrq, Prp.typeStr, Prp.size,
        Prp.getMin, Prp.getMax, Prp.getFriction, Prp.getSFriction, Prp.getMotor, Prp.getDis, Prp.xform, Vec3.toBuf, Vec6.toBuf]

/-- **C74 (last write).**  After any sequence of calls of the setters, with arguments of the size of the joint, the
velocity, acceleration and torque of the joint are those last set, or the initial ones if none was set.  For the joints
with limits (all but the fixed, spherical and floating ones) so are the minimum, the maximum and the friction; for the others
these never change.  The type, the size, the static friction and the motor never change. -/
theorem C74_last_write (p q : Prp K) (cs : List (Call K)) (hl : ∀ c ∈ cs, c.arg.length = p.size)
    (h : p.calls cs = some q) :
    q.getVel = last velOf p.getVel cs ∧ q.getAcc = last accOf p.getAcc cs ∧ q.getTrq = last trqOf p.getTrq cs ∧
    (Limited p → q.getMin = last loOf p.getMin cs ∧ q.getMax = last hiOf p.getMax cs ∧
      q.getFriction = last fricOf p.getFriction cs) ∧
    (¬ Limited p → q.getMin = p.getMin ∧ q.getMax = p.getMax ∧ q.getFriction = p.getFriction) ∧
    q.typeStr = p.typeStr ∧ q.size = p.size ∧ q.getSFriction = p.getSFriction ∧ q.getMotor = p.getMotor := by
  induction cs generalizing p with
  | nil =>
    simp only [Prp.calls, Option.some.injEq] at h
    subst h
    simp [last]
  | cons c cs ih =>
    simp only [Prp.calls, Option.bind_eq_some_iff] at h
    obtain ⟨r, h1, h2⟩ := h
    have e := Prp.call_effect p r c (hl c (by simp)) h1
    obtain ⟨i1, i2, i3, i4, i5, i6, i7, i8, i9⟩ := ih r (fun d hd => by rw [e.size]; exact hl d (by simp [hd])) h2
    refine ⟨?_, ?_, ?_, ?_, ?_, ?_, ?_, ?_, ?_⟩
    · rw [i1, e.vel]; rfl
    · rw [i2, e.acc]; rfl
    · rw [i3, e.trq]; rfl
    · intro hp
      obtain ⟨j1, j2, j3⟩ := i4 (e.lim.2 hp)
      refine ⟨?_, ?_, ?_⟩
      · rw [j1, e.lo hp]; rfl
      · rw [j2, e.hi hp]; rfl
      · rw [j3, e.fric hp]; rfl
    · intro hp
      obtain ⟨j1, j2, j3⟩ := i5 (fun hr => hp (e.lim.1 hr))
      exact ⟨j1.trans (e.nolo hp), j2.trans (e.nohi hp), j3.trans (e.nofric hp)⟩
    · rw [i6, e.type]
    · rw [i7, e.size]
    · rw [i8, e.sfric]
    · rw [i9, e.motor]

/-- **C74 (displacement).**  A sequence of calls in which the displacement is not set leaves the displacement and the pose of
the joint as they were: new limits do not move a joint. -/
theorem C74_pose_kept (p q : Prp K) (cs : List (Call K)) (hl : ∀ c ∈ cs, c.arg.length = p.size)
    (hd : ∀ c ∈ cs, ∀ v, c ≠ .dis v) (h : p.calls cs = some q) :
    q.getDis = p.getDis ∧ ∀ f, q.xform f = p.xform f := by
  induction cs generalizing p with
  | nil =>
    simp only [Prp.calls, Option.some.injEq] at h
    subst h
    exact ⟨rfl, fun _ => rfl⟩
  | cons c cs ih =>
    simp only [Prp.calls, Option.bind_eq_some_iff] at h
    obtain ⟨r, h1, h2⟩ := h
    have e := Prp.call_effect p r c (hl c (by simp)) h1
    obtain ⟨i1, i2⟩ := ih r (fun d hd => by rw [e.size]; exact hl d (by simp [hd])) (fun d hd' => hd d (by simp [hd'])) h2
    have hc := hd c (by simp)
    exact ⟨i1.trans (e.dis hc), fun f => (i2 f).trans (e.pose hc f)⟩

/-- **C74 (total).**  The setters accept every argument of the size of the joint. -/
theorem C74_total [IsStrictOrderedRing K] (p : Prp K) (cs : List (Call K)) (hl : ∀ c ∈ cs, c.arg.length = p.size) :
    (p.calls cs).isSome := by
  induction cs generalizing p with
  | nil => rfl
  | cons c cs ih =>
    have hc := hl c (by simp)
    have : ∃ r, p.call c = some r := by
      cases p with
      | fixed => cases c <;> exact ⟨_, rfl⟩
      | revol d =>
        obtain ⟨a, ha⟩ := len_one hc
        cases c <;> simp only [Call.arg] at ha <;> subst ha <;> exact ⟨_, rfl⟩
      | prism d =>
        obtain ⟨a, ha⟩ := len_one hc
        cases c <;> simp only [Call.arg] at ha <;> subst ha <;> exact ⟨_, rfl⟩
      | cylin d =>
        obtain ⟨a, b, ha⟩ := len_two hc
        cases c <;> simp only [Call.arg] at ha <;> subst ha <;> exact ⟨_, rfl⟩
      | hooke d =>
        obtain ⟨a, b, ha⟩ := len_two hc
        cases c <;> simp only [Call.arg] at ha <;> subst ha <;> exact ⟨_, rfl⟩
      | spher d =>
        obtain ⟨x, y, z, ha⟩ := len_three hc
        cases c <;> simp only [Call.arg] at ha <;> subst ha <;> exact ⟨_, rfl⟩
      | float d =>
        obtain ⟨x, y, z, u, v, w, ha⟩ := len_six hc
        cases c <;> simp only [Call.arg] at ha <;> subst ha <;> exact ⟨_, rfl⟩
      | brfloat d =>
        obtain ⟨x, y, z, u, v, w, ha⟩ := len_six hc
        cases c <;> simp only [Call.arg] at ha <;> subst ha <;> exact ⟨_, rfl⟩
    obtain ⟨r, hr⟩ := this
    have e := Prp.call_effect p r c hc hr
    simp only [Prp.calls, hr, Option.bind_some]
    exact ih r (fun d hd => by rw [e.size]; exact hl d (by simp [hd]))

/-- **C74 (limits in force).**  The displacement of a joint after `rkJointSetDis` respects the limits that were last set. -/
theorem C74_limits_in_force (p q r : Prp K) (cs : List (Call K)) (hl : ∀ c ∈ cs, c.arg.length = p.size)
    (hp : Limited p) (h : p.calls cs = some q) (v : List K)
    (ho : ∀ (i : ℕ) (l u : K), (last loOf p.getMin cs)[i]? = some (some l) → (last hiOf p.getMax cs)[i]? = some (some u) → l ≤ u)
    (hr : q.setDis v = some r) (i : ℕ) (x : K) (hx : r.getDis[i]? = some x) :
    (∀ l, (last loOf p.getMin cs)[i]? = some (some l) → l ≤ x) ∧
    (∀ u, (last hiOf p.getMax cs)[i]? = some (some u) → x ≤ u) := by
  obtain ⟨-, -, -, k, -⟩ := C74_last_write p q cs hl h
  obtain ⟨k1, k2, -⟩ := k hp
  rw [← k1, ← k2] at ho ⊢
  have hres := (C04_within_limits q r v ho hr).1
  have hlen : q.getMin.length = q.getMax.length := by cases q <;> rfl
  have ex : ∀ (a b : List (Option K)) (y : Option K), a.length = b.length → a[i]? = some y → ∃ z, b[i]? = some z := by
    intro a b y e hy
    have : i < b.length := e ▸ (List.getElem?_eq_some_iff.1 hy).1
    exact ⟨b[i], List.getElem?_eq_getElem this⟩
  constructor
  · intro l hl'
    obtain ⟨z, hz⟩ := ex _ _ _ hlen hl'
    exact (hres i x _ _ hx hl' hz).1 l rfl
  · intro u hu
    obtain ⟨z, hz⟩ := ex _ _ _ hlen.symm hu
    exact (hres i x _ _ hx hz hu).2 u rfl
end

/-- A slider whose limits, velocity and friction are set, its velocity again, and then its displacement, which is cut off. -/
example : ∃ q : Prp ℚ, (Prp.prism (Sample.dof1 0 1 1 0 1 none none)).calls
      [.lo [-2], .vel [3], .hi [2], .fric [5], .vel [4], .dis [7]] = some q ∧
    q.getVel = [4] ∧ q.getMin = [some (-2)] ∧ q.getMax = [some 2] ∧ q.getFriction = [5] ∧ q.getDis = [2] ∧ q.getAcc = [1] :=
  ⟨_, rfl, by decide +kernel⟩

/-- Limits that are set later do not move the joint. -/
example : ∃ q : Prp ℚ, (Prp.prism (Sample.dof1 7 1 1 0 1 none none)).calls [.lo [-2], .hi [2]] = some q ∧ q.getDis = [7] :=
  ⟨_, rfl, by decide +kernel⟩
end Roki
