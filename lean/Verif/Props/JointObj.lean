import Verif.Lemmas.Clone
import Verif.Model.ABI
import Verif.Lemmas.ZmRat
import Verif.Lemmas.ZmReal
import Verif.Spec.Samples
import Mathlib.Tactic.Linarith
import Mathlib.Tactic.NormNum
set_option autoImplicit false

/-! # Friction, types and motors of joints (C31, C32, C34, C35) -/

namespace Roki
variable {K : Type*}

/-! ## C31: friction pivots -/

/-- What the caller sees: store `fp` with `rkJointSetFrictionPivot`, then read into the buffer `buf` with
`rkJointGetFrictionPivot`. -/
def Prp.storeAndRead (p : Prp K) (fp buf : List (FricPivot K)) : Option (List (FricPivot K)) :=
  (p.setFrictionPivot fp).bind fun r => (r.1.getFrictionPivot buf).map Prod.snd

/-- **C31 for revolute joints.**  The pivot that was stored is read back, whatever the buffer held before.
Missing: prismatic, cylindrical and hooke joints, see the theorems below. -/
theorem C31_revol_partial (d : Dof1 K) (f g : FricPivot K) : (Prp.revol d).storeAndRead [f] [g] = some [f] := rfl

/-- **C31, violated** by prismatic, cylindrical and hooke joints, for all pivots: storing leaves the joint as it
was and overwrites the caller's pivots with those of the joint; the buffer read into is returned as it was. -/
theorem C31_store_fails (d : Dof1 K) (e : Dof2 K) (f f' g g' : FricPivot K) :
    (Prp.prism d).setFrictionPivot [f] = some (.prism d, [d.fp]) ∧
    (Prp.cylin e).setFrictionPivot [f, f'] = some (.cylin e, [e.fp0, e.fp1]) ∧
    (Prp.hooke e).setFrictionPivot [f, f'] = some (.hooke e, [e.fp0, e.fp1]) ∧
    (Prp.prism d).storeAndRead [f] [g] = some [g] ∧
    (Prp.cylin e).storeAndRead [f, f'] [g, g'] = some [g, g'] ∧
    (Prp.hooke e).storeAndRead [f, f'] [g, g'] = some [g, g'] := ⟨rfl, rfl, rfl, rfl, rfl, rfl⟩

/-- **C31, violated**: a concrete pivot that is not read back. -/
theorem C31_fails : (Prp.prism (Sample.dof1 (K := ℚ) 0 0 0 0 1 none none)).storeAndRead [⟨1, 2, 3⟩] [⟨0, 0, 0⟩] ≠
    some [⟨1, 2, 3⟩] := by decide +kernel

/-- Pivots belong to one joint: for no type does storing a pivot change the state of the joint. -/
theorem C31_state_kept (p q : Prp K) (fp buf : List (FricPivot K)) (h : p.setFrictionPivot fp = some (q, buf)) :
    q.getDis = p.getDis ∧ q.getVel = p.getVel ∧ q.getTrq = p.getTrq ∧ q.typeStr = p.typeStr := by
  cases p <;> simp only [Prp.setFrictionPivot] at h <;> (try split at h) <;>
    simp only [Option.some.injEq, Prod.mk.injEq, reduceCtorEq] at h <;> obtain ⟨rfl, _⟩ := h <;>
    exact ⟨rfl, rfl, rfl, rfl⟩

/-! ## C32: friction dissipates -/

section
variable [Field K]

/-- The torques of the springs of a joint. -/
def Spec.springTrq : Prp K → List K
  | .revol p => [-p.stiffness * p.dis]
  | .prism p => [-p.stiffness * p.dis]
  | .cylin p => [-p.stiffness0 * p.dis0, -p.stiffness1 * p.dis1]
  | .hooke p => [-p.stiffness0 * p.dis0, -p.stiffness1 * p.dis1]
  | _ => []

/-- The viscosity and Coulomb coefficients of a joint. -/
def Spec.frictionCoef : Prp K → List K
  | .revol p => [p.viscosity, p.coulomb]
  | .prism p => [p.viscosity, p.coulomb]
  | .cylin p => [p.viscosity0, p.viscosity1, p.coulomb0, p.coulomb1]
  | .hooke p => [p.viscosity0, p.viscosity1, p.coulomb0, p.coulomb1]
  | _ => []

variable [LinearOrder K] [IsStrictOrderedRing K] [Zm K] [LawfulZm K]

theorem restTrq_work (s v c d w : K) (hv : 0 ≤ v) (hc : 0 ≤ c) : (Prp.restTrq s v c d w - -s * d) * w ≤ 0 := by
  have h1 : 0 ≤ v * (w * w) := mul_nonneg hv (mul_self_nonneg w)
  have h2 : 0 ≤ c * (Zm.sgn w * w) := mul_nonneg hc (LawfulZm.sgn_mul_self w)
  have : (Prp.restTrq s v c d w - -s * d) * w = -(v * (w * w)) - c * (Zm.sgn w * w) := by
    unfold Prp.restTrq; ring
  rw [this]; linarith

/-- **C32.**  For every joint with nonnegative friction coefficients and every axis of it, the resistance torque
less that of the spring does no positive work on the velocity. -/
theorem C32_dissipative (p : Prp K) (hp : ∀ k ∈ Spec.frictionCoef p, 0 ≤ k) (i : ℕ) (t s v : K)
    (ht : p.getKFriction[i]? = some t) (hs : (Spec.springTrq p)[i]? = some s) (hv : p.getVel[i]? = some v) :
    (t - s) * v ≤ 0 := by
  have two : ∀ {a b x : K}, [a, b][i]? = some x → (i = 0 ∧ x = a) ∨ (i = 1 ∧ x = b) := by
    intro a b x h
    match i, h with
    | 0, h => simp at h; exact .inl ⟨rfl, h.symm⟩
    | 1, h => simp at h; exact .inr ⟨rfl, h.symm⟩
    | _ + 2, h => simp at h
  have one : ∀ {a x : K}, [a][i]? = some x → i = 0 ∧ x = a := by
    intro a x h
    match i, h with
    | 0, h => simp at h; exact ⟨rfl, h.symm⟩
    | _ + 1, h => simp at h
  cases p with
  | revol p =>
    simp only [Spec.frictionCoef, List.mem_cons, List.not_mem_nil, or_false, forall_eq_or_imp, forall_eq] at hp
    obtain ⟨rfl, rfl⟩ := one ht
    obtain ⟨-, rfl⟩ := one hs
    obtain ⟨-, rfl⟩ := one hv
    exact restTrq_work _ _ _ _ _ hp.1 hp.2
  | prism p =>
    simp only [Spec.frictionCoef, List.mem_cons, List.not_mem_nil, or_false, forall_eq_or_imp, forall_eq] at hp
    obtain ⟨rfl, rfl⟩ := one ht
    obtain ⟨-, rfl⟩ := one hs
    obtain ⟨-, rfl⟩ := one hv
    exact restTrq_work _ _ _ _ _ hp.1 hp.2
  | cylin p =>
    simp only [Spec.frictionCoef, List.mem_cons, List.not_mem_nil, or_false, forall_eq_or_imp, forall_eq] at hp
    rcases two ht with ⟨rfl, rfl⟩ | ⟨rfl, rfl⟩ <;> simp [Spec.springTrq, Prp.getVel] at hs hv <;> subst hs hv
    · simpa using restTrq_work p.stiffness0 _ _ p.dis0 p.vel0 hp.1 hp.2.2.1
    · simpa using restTrq_work p.stiffness1 _ _ p.dis1 p.vel1 hp.2.1 hp.2.2.2
  | hooke p =>
    simp only [Spec.frictionCoef, List.mem_cons, List.not_mem_nil, or_false, forall_eq_or_imp, forall_eq] at hp
    rcases two ht with ⟨rfl, rfl⟩ | ⟨rfl, rfl⟩ <;> simp [Spec.springTrq, Prp.getVel] at hs hv <;> subst hs hv
    · simpa using restTrq_work p.stiffness0 _ _ p.dis0 p.vel0 hp.1 hp.2.2.1
    · simpa using restTrq_work p.stiffness1 _ _ p.dis1 p.vel1 hp.2.1 hp.2.2.2
  | fixed => simp [Prp.getKFriction] at ht
  | spher p => simp [Prp.getKFriction] at ht
  | float p => simp [Prp.getKFriction] at ht
  | brfloat p => simp [Prp.getKFriction] at ht

/-- **C32 (every axis has friction).**  The joints of one or two degrees of freedom report one resistance torque
per axis, and at rest at the neutral position without Coulomb friction it is zero. -/
theorem C32_axes (p : Prp K) (h : Spec.frictionCoef p ≠ []) :
    p.getKFriction.length = p.size ∧ (Spec.springTrq p).length = p.size ∧ p.getVel.length = p.size := by
  cases p <;> first | exact ⟨rfl, rfl, rfl⟩ | exact absurd rfl h

/-- A turning joint with a spring, a damper and Coulomb friction meets the hypotheses. -/
example : ∃ p : Prp ℚ, (∀ k ∈ Spec.frictionCoef p, 0 ≤ k) ∧ Spec.springTrq p = [-3] ∧ p.getVel = [2] ∧
    p.getKFriction.length = 1 :=
  ⟨.revol { Sample.dof1 1 2 0 0 1 none none with stiffness := 3, viscosity := 4, coulomb := 5 },
    by simp [Spec.frictionCoef], by simp [Spec.springTrq, Sample.dof1], rfl, rfl⟩
end

/-! ## C34: types by name -/

/-- The joint types and their numbers of degrees of freedom, as documented. -/
def Spec.jointTypes : List (String × ℕ) :=
  [("fixed", 0), ("revolute", 1), ("prismatic", 1), ("cylindrical", 2), ("hooke", 2), ("spherical", 3),
   ("float", 6), ("breakablefloat", 6)]

/-- The motor types. -/
def Spec.motorTypes : List String := ["none", "dc", "trq"]

section
variable [Field K] [LinearOrder K] [IsStrictOrderedRing K] [Zm K] [LawfulZm K]

/-- The name of a joint and its size are a pair of the documented list. -/
theorem C34_types (p : Prp K) : (p.typeStr, p.size) ∈ Spec.jointTypes := by
  cases p <;> simp [Prp.typeStr, Prp.size, Spec.jointTypes]

/-- **C34 (joints, rejection).**  For every string: the null pointer is returned exactly when the string is not a
documented type name, and the call is always defined. -/
theorem C34_joint_reject (j : Joint K) (str : String) :
    j.queryAssign str = some none ↔ str ∉ Spec.jointTypes.map Prod.fst := by
  unfold Joint.queryAssign
  constructor
  · intro h hm
    split at h
    · rename_i p hp
      rw [Option.map_eq_some_iff] at h
      obtain ⟨_, _, h⟩ := h
      cases h
    · rename_i hp
      rw [List.find?_eq_none] at hp
      have : ∃ p ∈ Prp.comArray (K := K), p.typeStr = str := by
        simp only [Spec.jointTypes, List.map_cons, List.map_nil, List.mem_cons, List.not_mem_nil, or_false] at hm
        rcases hm with rfl | rfl | rfl | rfl | rfl | rfl | rfl | rfl <;> simp [Prp.comArray, Prp.typeStr]
      obtain ⟨p, hp1, rfl⟩ := this
      exact hp p hp1 (by simp)
  · intro hm
    split
    · rename_i p hp
      have h1 := List.find?_some hp
      simp only [beq_iff_eq] at h1
      exact absurd (List.mem_map.2 ⟨_, C34_types p, h1⟩) hm
    · rfl

/-- **C34 (joints, selection).**  For every string: a joint that is assigned has the type of that name, the
number of degrees of freedom of that type, displacement, velocity, acceleration and torque zero, no limits, and
leaves frames as they are; the call reports it neutral.  The wrench of the joint stays. -/
theorem C34_joint_select (j j' : Joint K) (str : String) (h : j.queryAssign str = some (some j')) :
    j'.prp.typeStr = str ∧ (str, j'.prp.size) ∈ Spec.jointTypes ∧ j'.prp.isNeutral = true ∧
    j'.prp.getDis = List.replicate j'.prp.size 0 ∧ j'.prp.getVel = List.replicate j'.prp.size 0 ∧
    j'.prp.getAcc = List.replicate j'.prp.size 0 ∧ j'.prp.getTrq = List.replicate j'.prp.size 0 ∧
    j'.prp.getMin = List.replicate j'.prp.size none ∧ j'.prp.getMax = List.replicate j'.prp.size none ∧
    (∀ f, j'.prp.xform f = f) ∧ j'.wrench = j.wrench := by
  have h0 : (Zm.phaseNormalize (0 : K)) = 0 :=
    LawfulZm.phase_id 0 (neg_lt_zero.2 LawfulZm.pi_pos) LawfulZm.pi_pos.le
  unfold Joint.queryAssign at h
  split at h
  · rename_i p hp
    have hs := List.find?_some hp
    simp only [beq_iff_eq] at hs
    subst hs
    clear hp
    simp only [Joint.assign, Option.map_map, Option.map_eq_some_iff, Function.comp_apply] at h
    obtain ⟨q, hq, h⟩ := h
    obtain rfl := Option.some.inj h
    have tz : Zm.tiny (0 : K) = true := LawfulZm.tiny_zero
    have z3 : (0 : Vec3 K) = ⟨0, 0, 0⟩ := rfl
    have hname : q.typeStr = p.typeStr := by
      cases p <;> simp only [Prp.fresh, Prp.neutral] at hq <;> setter_cases hq <;> rfl
    refine ⟨hname, hname ▸ C34_types q, ?_⟩
    cases p <;> simp only [Prp.fresh, Prp.neutral] at hq <;> setter_cases hq <;>
      simp_all [Prp.isNeutral, Prp.getDis, Prp.getVel, Prp.getAcc, Prp.getTrq, Prp.getMin, Prp.getMax, Prp.size,
        Dof1.fresh, Dof2.fresh, limit, Vec3.ofBuf, Vec6.ofBuf, Vec3.toBuf, Vec6.toBuf, Prp.xform,
        LawfulZm.sin_zero, LawfulZm.cos_zero, List.replicate]
    all_goals (try subst_vars)
    all_goals (try rw [← z3])
    all_goals (try simp only [LawfulZm.fromAA_zero])
    all_goals (try refine ⟨⟨tz, tz, tz⟩, by simp, ?_⟩)
    all_goals (try refine ⟨⟨tz, tz, tz, tz, tz, tz⟩, by simp, ?_⟩)
    all_goals (intro f; obtain ⟨⟨_,_,_⟩,⟨⟨_,_,_⟩,⟨_,_,_⟩,⟨_,_,_⟩⟩⟩ := f)
    all_goals (try simp [Prp.rotZ, cat, Prp.zyMat, Mat3.mul, Mat3.mulVec, Frame.xform])
  · cases h

/-- Each documented type can be assigned. -/
theorem C34_joint_all (j : Joint K) (str : String) (n : ℕ) (h : (str, n) ∈ Spec.jointTypes) :
    ∃ j', j.queryAssign str = some (some j') ∧ j'.prp.typeStr = str ∧ j'.prp.size = n := by
  simp only [Spec.jointTypes, List.mem_cons, Prod.mk.injEq, List.not_mem_nil, or_false] at h
  rcases h with ⟨rfl, rfl⟩ | ⟨rfl, rfl⟩ | ⟨rfl, rfl⟩ | ⟨rfl, rfl⟩ | ⟨rfl, rfl⟩ | ⟨rfl, rfl⟩ | ⟨rfl, rfl⟩ | ⟨rfl, rfl⟩ <;>
    exact ⟨_, rfl, rfl, rfl⟩

/-- **C34 (motors).**  For every string: the motor with that type name is found if the name is one of the three
motor types, and nothing otherwise. -/
theorem C34_motor (str : String) :
    ((Motor.queryAssign (K := K) str).isSome ↔ str ∈ Spec.motorTypes) ∧
    ∀ m, Motor.queryAssign (K := K) str = some m → m.typeStr = str := by
  constructor
  · unfold Motor.queryAssign
    rw [List.find?_isSome]
    constructor
    · rintro ⟨m, -, h⟩
      rw [← beq_iff_eq.1 h]
      cases m <;> simp [Motor.typeStr, Spec.motorTypes]
    · intro h
      simp only [Spec.motorTypes, List.mem_cons, List.not_mem_nil, or_false] at h
      rcases h with rfl | rfl | rfl <;> simp [Motor.comArray, Motor.typeStr]
  · intro m hm
    have := List.find?_some hm
    simpa using this

end

/-! ## C35: motors -/

section
variable [LinearOrder K]

/-- The bounds of the command of a motor, `none` for no bound. -/
def Spec.inputRange : Motor K → Option K × Option K
  | .none => (none, none)
  | .dc p => (p.minvol, p.maxvol)
  | .trq p => (p.min, p.max)

/-- The command stored in a motor. -/
def Spec.storedInput : Motor K → Option K
  | .none => none
  | .dc p => some p.e
  | .trq p => some p.input

/-- **C35 (limits).**  After any command, what is stored in the motor is within its bounds, provided they are in
order; a command within the bounds is stored as it is; a command beyond a bound stores that bound. -/
theorem C35_limits (m : Motor K) (v e : K)
    (hr : ∀ lo hi, Spec.inputRange m = (some lo, some hi) → lo ≤ hi)
    (he : Spec.storedInput (m.setInput v) = some e) :
    (∀ hi, (Spec.inputRange m).2 = some hi → e ≤ hi) ∧ (∀ lo, (Spec.inputRange m).1 = some lo → lo ≤ e) ∧
    ((∀ hi, (Spec.inputRange m).2 = some hi → v ≤ hi) → (∀ lo, (Spec.inputRange m).1 = some lo → lo ≤ v) → e = v) ∧
    (∀ hi, (Spec.inputRange m).2 = some hi → hi ≤ v → e = hi) ∧
    (∀ lo, (Spec.inputRange m).1 = some lo → v ≤ lo → e = lo) := by
  have key : ∀ lo hi : Option K, (∀ l h, lo = some l → hi = some h → l ≤ h) →
      (∀ h, hi = some h → limit v lo hi ≤ h) ∧ (∀ l, lo = some l → l ≤ limit v lo hi) ∧
      ((∀ h, hi = some h → v ≤ h) → (∀ l, lo = some l → l ≤ v) → limit v lo hi = v) ∧
      (∀ h, hi = some h → h ≤ v → limit v lo hi = h) ∧ (∀ l, lo = some l → v ≤ l → limit v lo hi = l) := by
    intro lo hi hlh
    cases lo with
    | none => cases hi with
      | none => simp [limit]
      | some h => simp [limit]
    | some l => cases hi with
      | none => simp [limit]
      | some h =>
        have hl := hlh l h rfl rfl
        simp only [limit, Option.some.injEq, forall_eq']
        refine ⟨max_le (min_le_right _ _) hl, le_max_right _ _, fun a b => ?_, fun a => ?_, fun a => ?_⟩
        · rw [min_eq_left a, max_eq_left b]
        · rw [min_eq_right a, max_eq_left hl]
        · exact max_eq_right ((min_le_left _ _).trans a)
  cases m with
  | none => cases he
  | dc p =>
    simp only [Motor.setInput, Spec.storedInput, Option.some.injEq] at he
    subst he
    exact key _ _ fun l h e1 e2 => hr l h (Prod.ext e1 e2)
  | trq p =>
    simp only [Motor.setInput, Spec.storedInput, Option.some.injEq] at he
    subst he
    exact key _ _ fun l h e1 e2 => hr l h (Prod.ext e1 e2)

/-- Setting the command changes nothing else: bounds and type stay. -/
theorem C35_input_only (m : Motor K) (v : K) :
    Spec.inputRange (m.setInput v) = Spec.inputRange m ∧ (m.setInput v).typeStr = m.typeStr := by
  cases m <;> exact ⟨rfl, rfl⟩
end

section
variable [Field K]

/-- **C35 (driving torque).**  The driving torque of a DC motor is the torque of the armature current on the joint
side, less the inertial torque of rotor and gear: the current is the admittance times the terminal voltage less
the back electromotive force, which is the motor constant times the speed of the rotor. -/
theorem C35_driving (p : DCPrp K) (vel acc : K) :
    let rotorSpeed := p.decratio * vel
    let current := p.admit * (p.e - p.k * rotorSpeed)
    (Motor.dc p).drivingTrq vel acc =
      p.decratio * (p.k * current) - p.decratio * ((p.inertia + p.inertiaGear) * (p.decratio * acc)) := by
  simp only [Motor.drivingTrq, Motor.inputTrq, Motor.resistance, Motor.inertia]
  ring

/-- The driving torque of a torque motor is its stored command, and a joint without motor has none. -/
theorem C35_driving_trq (p : TrqPrp K) (vel acc : K) :
    (Motor.trq p).drivingTrq vel acc = p.input ∧ (Motor.none : Motor K).drivingTrq vel acc = 0 := ⟨rfl, rfl⟩

variable [LinearOrder K] [IsStrictOrderedRing K]

/-- **C35 (back EMF).**  With a nonnegative admittance the difference that the speed makes to the driving torque
never does positive work, for every type of motor. -/
theorem C35_backEMF (m : Motor K) (hm : ∀ p, m = .dc p → 0 ≤ p.admit) (vel acc : K) :
    (m.drivingTrq vel acc - m.drivingTrq 0 acc) * vel ≤ 0 := by
  cases m with
  | none => simp [Motor.drivingTrq]
  | trq p => simp [Motor.drivingTrq, Motor.inputTrq]
  | dc p =>
    have h := hm p rfl
    have : ((Motor.dc p).drivingTrq vel acc - (Motor.dc p).drivingTrq 0 acc) * vel =
        -(p.admit * ((p.decratio * p.k * vel) * (p.decratio * p.k * vel))) := by
      simp only [Motor.drivingTrq, Motor.inputTrq, Motor.resistance, Motor.inertia]; ring
    rw [this]
    exact neg_nonpos.2 (mul_nonneg h (mul_self_nonneg _))

/-- The added inertia of a motor is never negative. -/
theorem C35_inertia (m : Motor K) (hm : ∀ p, m = .dc p → 0 ≤ p.inertia ∧ 0 ≤ p.inertiaGear) : 0 ≤ m.inertia := by
  cases m with
  | none => exact le_rfl
  | trq p => exact le_rfl
  | dc p => exact mul_nonneg (mul_self_nonneg _) (add_nonneg (hm p rfl).1 (hm p rfl).2)

/-- The joints with one axis whose motor takes part in forward dynamics: velocity, acceleration, friction and driving force. -/
def Spec.driven : Prp K → Option (Motor K × K × K × K × K)
  | .revol d => some (d.motor, d.vel, d.acc, d.tf, d.u)
  | .prism d => some (d.motor, d.vel, d.acc, d.tf, d.u)
  | .cylin d => some (d.motor, d.vel0, d.acc0, d.tf0, d.u0)
  | _ => none

/-- **C35 (forward dynamics).**  What forward dynamics applies at a driven joint is the driving torque of its motor and the
friction, the inertial torque of the motor being moved to the other side: with the inertia of the motor added to that of
the joint the two agree for every acceleration. -/
theorem C35_forward (p : Prp K) (m m' : Motor K) (v v' a a' f f' u u' : K) (h : Spec.driven p = some (m, v, a, f, u))
    (h' : Spec.driven p.abiDrivingTorque = some (m', v', a', f', u')) :
    m' = m ∧ v' = v ∧ a' = a ∧ f' = f ∧ u' - p.motorInertia * a = m.drivingTrq v a + f := by
  have key : ∀ m : Motor K, m.inputTrq - m.resistance v + f - m.inertia * a = m.drivingTrq v a + f := by
    intro m
    cases m <;> simp only [Motor.drivingTrq, Motor.inputTrq, Motor.resistance, Motor.inertia] <;> ring
  cases p <;> simp only [Spec.driven, Prp.abiDrivingTorque, Option.some.injEq, Prod.mk.injEq, reduceCtorEq] at h h' <;>
    obtain ⟨rfl, rfl, rfl, rfl, rfl⟩ := h <;> obtain ⟨rfl, rfl, rfl, rfl, rfl⟩ := h' <;>
    exact ⟨rfl, rfl, rfl, rfl, key _⟩

/-- The rotation of a cylindrical joint has no motor: only friction acts on it. -/
theorem C35_forward_cylin (d : Dof2 K) : ∃ d', (Prp.cylin d).abiDrivingTorque = .cylin d' ∧ d'.u1 = d.tf1 :=
  ⟨_, rfl, by simp⟩

/-- The default DC motor: a command of 30 V is stored as 24 V. -/
example : ∃ m : Motor ℚ, Motor.queryAssign "dc" = some m ∧
    (∀ lo hi, Spec.inputRange m = (some lo, some hi) → lo ≤ hi) ∧
    Spec.storedInput (m.setInput 30) = some 24 ∧ ∀ p, m = .dc p → 0 ≤ p.admit := by
  refine ⟨_, rfl, ?_, by decide +kernel, ?_⟩
  · intro lo hi h
    simp only [Spec.inputRange, Prod.mk.injEq, Option.some.injEq] at h
    rw [← h.1, ← h.2]; norm_num
  · intro p h
    cases h
    norm_num
end
end Roki
