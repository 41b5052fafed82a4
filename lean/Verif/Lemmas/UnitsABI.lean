import Verif.Lemmas.Units
import Verif.Lemmas.ABIKeep
set_option autoImplicit false

/-! # Lemmas: forward dynamics in other units (C139) -/

namespace Roki
set_option linter.unusedSectionVars false
open Spec LinkArray
namespace Spec.UnitSys
variable {K : Type*} [Field K] {u : UnitSys K}

/-! ## Matrices -/

theorem mat6_add (a b : Mat6 K) : u.mat6 (a + b) = u.mat6 a + u.mat6 b := by
  simp only [mat6]; vec_ring

theorem mat6_mulVec (m : Mat6 K) (v : Vec6 K) : (u.mat6 m).mulVec (u.acc v) = u.wrench (m.mulVec v) := by
  simp only [mat6, acc, wrench, moment, force]; vec_ring

theorem smul_mul (k : K) (a b : Mat3 K) : (k • a).mul b = k • a.mul b := by vec_ring
theorem mul_smul (k : K) (a b : Mat3 K) : a.mul (k • b) = k • a.mul b := by vec_ring
theorem smul_rot (k : K) (a b : Mat3 K) : Mat3.rot a (k • b) = k • Mat3.rot a b := by simp only [Mat3.rot, mul_smul, smul_mul]
theorem skew_smul (k : K) (p : Vec3 K) : Mat3.skew (k • p) = k • Mat3.skew p := by vec_ring
theorem tr_smul (k : K) (a : Mat3 K) : (k • a).tr = k • a.tr := by vec_ring
theorem tr_add (a b : Mat3 K) : (a + b).tr = a.tr + b.tr := by vec_ring
theorem smul_smul3 (k m : K) (a : Mat3 K) : k • (m • a) = (k * m) • a := by vec_ring
theorem smul_add3 (k : K) (a b : Mat3 K) : k • (a + b) = k • a + k • b := by vec_ring
theorem mul_add3 (a b c : Mat3 K) : a.mul (b + c) = a.mul b + a.mul c := by vec_ring

theorem mat6_xform (f : Frame K) (m : Mat6 K) : (u.mat6 m).xform (u.frame f) = u.mat6 (m.xform f) := by
  simp only [mat6, frame, Mat6.xform, smul_mul, mul_smul, smul_rot, skew_smul, tr_smul, tr_add, smul_smul3, smul_add3, mul_add3]
  simp only [mul_comm, mul_left_comm]

theorem colZ (m : Mat6 K) : (u.mat6 m).colZ = ⟨u.mass • m.colZ.lin, (u.mass * u.len) • m.colZ.ang⟩ := by
  simp only [mat6]; vec_ring
theorem rowZ (m : Mat6 K) : (u.mat6 m).rowZ = ⟨u.mass • m.rowZ.lin, (u.mass * u.len) • m.rowZ.ang⟩ := by
  simp only [mat6]; vec_ring
theorem colZA (m : Mat6 K) : (u.mat6 m).colZA = ⟨(u.mass * u.len) • m.colZA.lin, (u.mass * (u.len * u.len)) • m.colZA.ang⟩ := by
  simp only [mat6]; vec_ring
theorem rowZA (m : Mat6 K) : (u.mat6 m).rowZA = ⟨(u.mass * u.len) • m.rowZA.lin, (u.mass * (u.len * u.len)) • m.rowZA.ang⟩ := by
  simp only [mat6]; vec_ring

theorem rowZ_dot (m : Mat6 K) (v : Vec6 K) : (u.mat6 m).rowZ.dot6 (u.acc v) = u.force * m.rowZ.dot6 v := by
  simp only [mat6, acc, force]; vec_unfold; ring
theorem rowZA_dot (m : Mat6 K) (v : Vec6 K) : (u.mat6 m).rowZA.dot6 (u.acc v) = u.moment * m.rowZA.dot6 v := by
  simp only [mat6, acc, moment, force]; vec_unfold; ring

/-- A dyad of vectors that are columns and rows of inertia. -/
theorem dyad (a b k x y : K) (p q : Vec6 K) (h : a * b * k = u.mass) :
    Mat6.dyad ((k * x) • (⟨a • p.lin, (a * u.len) • p.ang⟩ : Vec6 K)) ⟨b • q.lin, (b * u.len) • q.ang⟩ = u.mat6 (Mat6.dyad (x • p) q) := by
  simp only [mat6, ← h]; vec_ring

theorem column (a k x : K) (p : Vec6 K) (h : a * k = u.force) :
    (k * x) • (⟨a • p.lin, (a * u.len) • p.ang⟩ : Vec6 K) = u.wrench (x • p) := by
  simp only [wrench, moment, ← h]; vec_ring

theorem smul_smul6 (k x : K) (v : Vec6 K) : k • (x • v) = (k * x) • v := by vec_ring

/-! ## Joints -/

theorem motor_inertia (f v m : K) (p : Motor K) : (motor f v m p).inertia = m * p.inertia := by
  cases p <;> simp only [motor, Motor.inertia] <;> ring
theorem motor_inputTrq {f v : K} (hf : f ≠ 0) (hv : v ≠ 0) (m : K) (p : Motor K) : (motor f v m p).inputTrq = f * p.inputTrq := by
  cases p <;> simp only [motor, Motor.inputTrq, mul_zero] <;> field_simp
theorem motor_resistance {f v : K} (hf : f ≠ 0) (hv : v ≠ 0) (m : K) (p : Motor K) (x : K) :
    (motor f v m p).resistance (v * x) = f * p.resistance x := by
  cases p <;> simp only [motor, Motor.resistance, mul_zero] <;> field_simp

section
variable [LinearOrder K] [IsStrictOrderedRing K] (hu : u.Proper)
include hu

theorem force_ne : u.force ≠ 0 := mul_ne_zero hu.mass.ne' (mul_ne_zero hu.len.ne' (mul_ne_zero hu.rate hu.rate))
theorem moment_ne : u.moment ≠ 0 := mul_ne_zero (force_ne hu) hu.len.ne'
theorem force_pos : 0 < u.force := mul_pos hu.mass (mul_pos hu.len (mul_self_pos.2 hu.rate))
theorem moment_pos : 0 < u.moment := mul_pos (force_pos hu) hu.len

theorem arm_pos (p : Prp K) (i : ℕ) : 0 < u.arm p i := by
  have : ∀ x ∈ factors 1 u.len p, 0 < x := by cases p <;> simp [factors, hu.len]
  simp only [arm]
  cases h : (factors 1 u.len p)[i]? with
  | some x => exact this x (List.mem_of_getElem? h)
  | none =>
    cases h' : (factors 1 u.len p).getLast? with
    | some x => exact this x (List.mem_of_getLast? h')
    | none => exact one_pos

theorem drivingTorque (p : Prp K) : (u.prp p).abiDrivingTorque = u.prp p.abiDrivingTorque := by
  have hf := force_ne hu
  have hm := moment_ne hu
  have hl : u.len * u.rate ≠ 0 := mul_ne_zero hu.len.ne' hu.rate
  cases p with
  | revol p =>
    simp only [prp, Prp.abiDrivingTorque, turn, motor_inputTrq hm hu.rate, motor_resistance hm hu.rate, Prp.revol.injEq, Dof1.ext_iff, true_and, and_true]
    ring
  | prism p =>
    simp only [prp, Prp.abiDrivingTorque, slide, motor_inputTrq hf hl, motor_resistance hf hl, Prp.prism.injEq, Dof1.ext_iff, true_and, and_true]
    ring
  | cylin p =>
    simp only [prp, Prp.abiDrivingTorque, slide, motor_inputTrq hf hl, motor_resistance hf hl, Prp.cylin.injEq, Dof2.ext_iff, true_and, and_true]
    constructor <;> ring
  | _ => rfl

theorem addABI (fx : Bool) (p : Prp K) (m : Mat6 K) (f : Frame K) (ih : ℕ → ℕ → K) :
    (u.prp p).abiABI fx (u.mat6 m) (u.frame f) (u.joint2Inv p ih) = u.mat6 (p.abiABI fx m f ih) := by
  have z : u.mat6 (0 : Mat6 K) = 0 := by simp only [mat6]; vec_ring
  have hm := hu.mass.ne'
  have hl := hu.len.ne'
  cases p with
  | fixed => exact mat6_xform _ _
  | revol p =>
    simp only [prp, Prp.abiABI]
    rw [← mat6_xform, mat6_add, colZA, rowZA, ← dyad (u.mass * u.len) (u.mass * u.len) (u.mass * (u.len * u.len))⁻¹ _ 0 _ _ (by field_simp)]
    simp [joint2Inv, arm, factors, mul_assoc]
  | prism p =>
    simp only [prp, Prp.abiABI]
    rw [← mat6_xform, mat6_add, colZ, rowZ, ← dyad u.mass u.mass u.mass⁻¹ _ 0 _ _ (by field_simp)]
    simp [joint2Inv, arm, factors]
  | cylin p =>
    simp only [prp, Prp.abiABI]
    rw [← mat6_xform, mat6_add, mat6_add, mat6_add, colZ, rowZ, colZA, rowZA,
      ← dyad u.mass u.mass u.mass⁻¹ _ 0 _ _ (by field_simp),
      ← dyad u.mass (u.mass * u.len) (u.mass * u.len)⁻¹ _ 0 _ _ (by field_simp),
      ← dyad (u.mass * u.len) u.mass (u.mass * u.len)⁻¹ _ 0 _ _ (by field_simp),
      ← dyad (u.mass * u.len) (u.mass * u.len) (u.mass * (u.len * u.len))⁻¹ _ 0 _ _ (by field_simp)]
    simp [joint2Inv, arm, factors, mul_assoc]
  | hooke p => exact z.symm
  | spher p => exact z.symm
  | float p => exact z.symm
  | brfloat p =>
    cases fx with
    | true => exact mat6_xform _ _
    | false => exact z.symm

omit hu in
theorem wrench_zero : u.wrench (0 : Vec6 K) = 0 := by simp only [wrench]; vec_ring
omit hu in
theorem acc_zero : u.acc (0 : Vec6 K) = 0 := by simp only [acc]; vec_ring

theorem addBias (fx : Bool) (p : Prp K) (hp : u.mass = 1 ∨ ∀ d, p ≠ .prism d) (m : Mat6 K) (b : Vec6 K) (f : Frame K) (ih : ℕ → ℕ → K) :
    (u.prp p).abiBias fx (u.mat6 m) (u.wrench b) (u.frame f) (u.joint2Inv p ih) = u.wrench (p.abiBias fx m b f ih) := by
  have hm := hu.mass.ne'
  have hl := hu.len.ne'
  cases p with
  | fixed => exact xform6Ang _ _
  | revol p =>
    simp only [prp, Prp.abiBias]
    rw [← xform6Ang, wrench_sub, colZA]
    have e : u.joint2Inv (.revol p) ih 0 0 = (u.mass * (u.len * u.len))⁻¹ * ih 0 0 := by simp [joint2Inv, arm, factors]
    rw [e]
    congr 2
    rw [smul_smul6, smul_smul6, show u.mass * (u.len * u.len) = u.mass * u.len * u.len by ring,
      ← column (u.mass * u.len) (u.force / (u.mass * u.len)) _ _ (by field_simp)]
    congr 1
    simp only [wrench, moment]
    vec_unfold
    field_simp
  | prism p =>
    have h1 : u.mass = 1 := hp.resolve_right fun h => h p rfl
    simp only [prp, Prp.abiBias]
    rw [← xform6Ang, wrench_sub, colZ, ← column u.mass u.force _ _ (by rw [h1, one_mul])]
    congr 3
    simp only [wrench]
    vec_unfold
    ring
  | cylin p =>
    simp only [prp, Prp.abiBias]
    rw [← xform6Ang, wrench_add, wrench_add, colZ, colZA, ← column u.mass (u.force / u.mass) _ _ (by field_simp),
      show u.mass * (u.len * u.len) = u.mass * u.len * u.len by ring,
      ← column (u.mass * u.len) (u.force / (u.mass * u.len)) _ _ (by field_simp)]
    congr 3
    · congr 1
      simp [joint2Inv, arm, factors, wrench, moment]
      field_simp
    · simp [joint2Inv, arm, factors, wrench, moment]
      field_simp
  | hooke p => exact wrench_zero.symm
  | spher p => exact wrench_zero.symm
  | float p => exact wrench_zero.symm
  | brfloat p =>
    cases fx with
    | true => exact xform6Ang _ _
    | false => exact wrench_zero.symm

omit hu in
theorem mulVec6 (m : Mat3 K) (v : Vec6 K) : m.mulVec6 (u.acc v) = u.acc (m.mulVec6 v) := by
  simp only [acc]; vec_ring
omit hu in
theorem acc_add (v w : Vec6 K) : u.acc (v + w) = u.acc v + u.acc w := by simp only [acc]; vec_ring
omit hu in
theorem acc_sub (v w : Vec6 K) : u.acc (v - w) = u.acc v - u.acc w := by simp only [acc]; vec_ring

theorem floatAcc (p : Prp K) (hp : factors 1 u.len p = [1, 1, 1, u.len, u.len, u.len]) (ih : ℕ → ℕ → K) (b : Vec6 K) :
    Prp.floatAcc (u.joint2Inv p ih) (u.wrench b) = u.acc (Prp.floatAcc ih b) := by
  have hm := hu.mass.ne'
  have hl := hu.len.ne'
  simp only [Prp.floatAcc, Vec6.ofFn, joint2Inv, arm, hp]
  simp only [List.getElem?_cons_zero, List.getElem?_cons_succ, Option.getD_some, wrench, acc, moment, force, one_mul, mul_one]
  vec_unfold
  refine ⟨⟨?_, ?_, ?_⟩, ⟨?_, ?_, ?_⟩⟩ <;> field_simp

theorem qAcc (fx : Bool) (p : Prp K) (m : Mat6 K) (b jac : Vec6 K) (ih : ℕ → ℕ → K) (acc : Vec6 K) :
    (u.prp p).abiQAcc fx (u.mat6 m) (u.wrench b) (u.acc jac) (u.joint2Inv p ih) (u.acc acc) =
      (u.prp (p.abiQAcc fx m b jac ih acc).1, u.acc (p.abiQAcc fx m b jac ih acc).2) := by
  have hm := hu.mass.ne'
  have hl := hu.len.ne'
  cases p with
  | fixed => rfl
  | revol p =>
    have e : u.joint2Inv (.revol p) ih 0 0 * (u.moment * p.u - (u.mat6 m).rowZA.dot6 (u.acc jac) - (u.wrench b).ang.z) =
        u.rate * u.rate * (ih 0 0 * (p.u - m.rowZA.dot6 jac - b.ang.z)) := by
      rw [rowZA_dot]
      simp [joint2Inv, arm, factors, wrench, moment, force]
      field_simp
    simp only [prp, Prp.abiQAcc, e]
    refine Prod.ext rfl ?_
    simp only [UnitSys.acc]
    vec_ring
  | prism p =>
    have e : u.joint2Inv (.prism p) ih 0 0 * (u.force * p.u - (u.mat6 m).rowZ.dot6 (u.acc jac) - (u.wrench b).lin.z) =
        u.len * (u.rate * u.rate) * (ih 0 0 * (p.u - m.rowZ.dot6 jac - b.lin.z)) := by
      rw [rowZ_dot]
      simp [joint2Inv, arm, factors, wrench, force]
      field_simp
    simp only [prp, Prp.abiQAcc, e]
    refine Prod.ext rfl ?_
    simp only [UnitSys.acc]
    vec_ring
  | cylin p =>
    have e0 : u.force * p.u0 - (u.mat6 m).rowZ.dot6 (u.acc jac) + (u.wrench b).lin.z = u.force * (p.u0 - m.rowZ.dot6 jac + b.lin.z) := by
      rw [rowZ_dot]; simp [wrench]; ring
    have e1 : u.moment * p.u1 - (u.mat6 m).rowZA.dot6 (u.acc jac) + (u.wrench b).ang.z = u.moment * (p.u1 - m.rowZA.dot6 jac + b.ang.z) := by
      rw [rowZA_dot]; simp [wrench]; ring
    have f0 : ∀ x y : K, u.force * x * u.joint2Inv (.cylin p) ih 0 0 + u.moment * y * u.joint2Inv (.cylin p) ih 0 1 =
        u.len * (u.rate * u.rate) * (x * ih 0 0 + y * ih 0 1) := by
      intro x y
      simp [joint2Inv, arm, factors, moment, force]
      field_simp
    have f1 : ∀ x y : K, u.force * x * u.joint2Inv (.cylin p) ih 1 0 + u.moment * y * u.joint2Inv (.cylin p) ih 1 1 =
        u.rate * u.rate * (x * ih 1 0 + y * ih 1 1) := by
      intro x y
      simp [joint2Inv, arm, factors, moment, force]
      field_simp
    simp only [prp, Prp.abiQAcc, e0, e1, f0, f1]
    refine Prod.ext rfl ?_
    simp only [UnitSys.acc]
    vec_ring
  | hooke p => rfl
  | spher p => rfl
  | float p =>
    simp only [prp, Prp.abiQAcc]
    rw [floatAcc hu _ rfl, ← acc_sub, mulVec6]
  | brfloat p =>
    cases fx with
    | true => rfl
    | false =>
      simp only [prp, Prp.abiQAcc, Bool.false_eq_true, if_false]
      rw [floatAcc hu _ rfl, ← acc_sub, mulVec6]

section
variable [Zm K] (hz : u.Fine)
include hz

omit hu hz in
theorem elem3 (p : SpherPrp K) (m : Mat3 K) : ((u.mass * (u.len * u.len)) • m).elem = u.joint2 (.spher p) m.elem := by
  funext i j
  rcases i with _ | _ | _ | i <;> rcases j with _ | _ | _ | j <;> simp [Mat3.elem, Vec3.get, joint2, arm, factors]

omit hu hz in
theorem far (i : ℕ) : ¬i + 1 + 1 + 1 + 1 + 1 + 1 < 3 := by omega

omit hu hz in
theorem elem6 (p : Prp K) (hp : factors 1 u.len p = [1, 1, 1, u.len, u.len, u.len]) (m : Mat6 K) : (u.mat6 m).elem = u.joint2 p m.elem := by
  funext i j
  rcases i with _ | _ | _ | _ | _ | _ | i <;> rcases j with _ | _ | _ | _ | _ | _ | j <;>
    simp [Mat6.elem, Mat3.elem, Vec3.get, mat6, joint2, arm, hp, far]

theorem inv2 (n : ℕ) (p : Prp K) (h : ℕ → ℕ → K) : Zm.matInv n (u.joint2 p h) = u.joint2Inv p (Zm.matInv n h) :=
  hz.matInv n p h

omit hu in
theorem invAxis {k : K} (hk : ∀ x : K, Zm.tiny (k * x) = Zm.tiny x) (x : K) : Prp.invAxis (k * x) = k⁻¹ * Prp.invAxis x := by
  simp only [Prp.invAxis, hk x]
  split_ifs
  · rw [mul_zero]
  · rw [one_div, one_div, mul_inv]

theorem axisInertia (fx : Bool) (p : Prp K) (m : Mat6 K) (h ih : ℕ → ℕ → K) :
    (u.prp p).abiAxisInertia fx (u.mat6 m) (u.joint2 p h) (u.joint2Inv p ih) =
      (u.joint2 p (p.abiAxisInertia fx m h ih).1, u.joint2Inv p (p.abiAxisInertia fx m h ih).2) := by
  cases p with
  | fixed => rfl
  | revol p =>
    have e : (u.turn p.motor).inertia + (u.mat6 m).aa.elem 2 2 = u.mass * (u.len * u.len) * (p.motor.inertia + m.aa.elem 2 2) := by
      rw [turn, motor_inertia, mul_add]; rfl
    have c : ∀ a : K, (fun _ _ => u.mass * (u.len * u.len) * a) = u.joint2 (.revol p) fun _ _ => a := by
      intro a; funext i j
      rcases i with _ | i <;> rcases j with _ | j <;> simp [joint2, arm, factors]
    have d : ∀ a : K, (fun _ _ => (u.mass * (u.len * u.len))⁻¹ * a) = u.joint2Inv (.revol p) fun _ _ => a := by
      intro a; funext i j
      rcases i with _ | i <;> rcases j with _ | j <;> simp [joint2Inv, arm, factors]
    simp only [prp, Prp.abiAxisInertia, e, invAxis hz hz.turn, ← c, ← d]
  | prism p =>
    have e : (u.slide p.motor).inertia + (u.mat6 m).ll.elem 2 2 = u.mass * (p.motor.inertia + m.ll.elem 2 2) := by
      rw [slide, motor_inertia, mul_add]; rfl
    have c : ∀ a : K, (fun _ _ => u.mass * a) = u.joint2 (.prism p) fun _ _ => a := by
      intro a; funext i j
      rcases i with _ | i <;> rcases j with _ | j <;> simp [joint2, arm, factors]
    have d : ∀ a : K, (fun _ _ => u.mass⁻¹ * a) = u.joint2Inv (.prism p) fun _ _ => a := by
      intro a; funext i j
      rcases i with _ | i <;> rcases j with _ | j <;> simp [joint2Inv, arm, factors]
    simp only [prp, Prp.abiAxisInertia, e, invAxis hz hz.slide, ← c, ← d]
  | cylin p =>
    have e : mat2 ((u.slide p.motor).inertia + (u.mat6 m).ll.elem 2 2) ((u.mat6 m).la.elem 2 2) ((u.mat6 m).al.elem 2 2) ((u.mat6 m).aa.elem 2 2) =
        u.joint2 (.cylin p) (mat2 (p.motor.inertia + m.ll.elem 2 2) (m.la.elem 2 2) (m.al.elem 2 2) (m.aa.elem 2 2)) := by
      funext i j
      rcases i with _ | _ | i <;> rcases j with _ | _ | j <;>
        simp [mat2, Mat3.elem, Vec3.get, mat6, joint2, arm, factors, slide, motor_inertia, mul_add]
    simp only [prp, Prp.abiAxisInertia, e, inv2 hu hz]
  | hooke p =>
    have e : mat2
        ((u.turn p.motor).inertia + ((u.mat6 m).aa.elem 0 0 * p.s1 * p.s1 - ((u.mat6 m).aa.elem 0 2 + (u.mat6 m).aa.elem 2 0) * p.s1 * p.c1
          + (u.mat6 m).aa.elem 2 2 * p.c1 * p.c1))
        ((u.mat6 m).aa.elem 2 1 * p.c1 - (u.mat6 m).aa.elem 0 1 * p.s1)
        ((u.mat6 m).aa.elem 1 2 * p.c1 - (u.mat6 m).aa.elem 1 0 * p.s1)
        ((u.mat6 m).aa.elem 1 1) = u.joint2 (.hooke p) (mat2
        (p.motor.inertia + (m.aa.elem 0 0 * p.s1 * p.s1 - (m.aa.elem 0 2 + m.aa.elem 2 0) * p.s1 * p.c1 + m.aa.elem 2 2 * p.c1 * p.c1))
        (m.aa.elem 2 1 * p.c1 - m.aa.elem 0 1 * p.s1)
        (m.aa.elem 1 2 * p.c1 - m.aa.elem 1 0 * p.s1)
        (m.aa.elem 1 1)) := by
      funext i j
      rcases i with _ | _ | i <;> rcases j with _ | _ | j <;>
        simp [mat2, Mat3.elem, Vec3.get, mat6, joint2, arm, factors, turn, motor_inertia] <;> ring
    simp only [prp, Prp.abiAxisInertia, e, inv2 hu hz]
  | spher p => simp only [prp, Prp.abiAxisInertia, mat6, elem3 p, inv2 hu hz]
  | float p => simp only [prp, Prp.abiAxisInertia, elem6 (.float p) rfl, inv2 hu hz]
  | brfloat p =>
    cases fx with
    | true => rfl
    | false => simp only [prp, Prp.abiAxisInertia, Bool.false_eq_true, if_false, elem6 (.brfloat p) rfl, inv2 hu hz]
end

/-! ## One link -/

omit hu in
theorem link_prp (l : Link K) {q : Prp K} (hq : q.typeStr = l.joint.prp.typeStr) :
    ({ u.link l with joint := { (u.link l).joint with prp := u.prp q } } : Link K) = u.link { l with joint := { l.joint with prp := q } } := by
  simp only [link, abi_congr hq]

omit hu in
theorem driving_typeStr (p : Prp K) : p.abiDrivingTorque.typeStr = p.typeStr := by cases p <;> rfl

omit hu in
theorem qAcc_typeStr (fx : Bool) (p : Prp K) (m : Mat6 K) (b jac : Vec6 K) (ih : ℕ → ℕ → K) (acc : Vec6 K) :
    (p.abiQAcc fx m b jac ih acc).1.typeStr = p.typeStr := by
  cases p <;> first | rfl | (simp only [Prp.abiQAcc]; split_ifs <;> rfl)

omit hu in
theorem abiInertia (m : MP K) : Link.abiInertia (u.mp m) = u.mat6 (Link.abiInertia m) := by
  simp only [Link.abiInertia, mp, mat6]; vec_ring

omit hu in
theorem abiAlloc (l : Link K) : (u.link l).abiAlloc = u.link l.abiAlloc := by
  have e : (u.link l).body.mp = u.mp l.body.mp := rfl
  have z : u.mat6 (0 : Mat6 K) = 0 := by simp only [mat6]; vec_ring
  have e1 : u.joint2 l.joint.prp (fun _ _ => 0) = fun _ _ => 0 := by funext i j; simp only [joint2, mul_zero]
  have e2 : u.joint2Inv l.joint.prp (fun _ _ => 0) = fun _ _ => 0 := by funext i j; simp only [joint2Inv, mul_zero]
  simp only [Link.abiAlloc, e, abiInertia]
  simp only [link, abi, e1, e2, wrench_zero, acc_zero, List.map_nil, z]

omit hu in
theorem updateInit (hg : u.len * (u.rate * u.rate) = 1) (v : Vec6 K) (l : Link K) : (u.link l).abiUpdateInit (u.vel v) = u.link (l.abiUpdateInit v) := by
  have e1 : (u.link l).body.calcExtWrench = u.wrench l.body.calcExtWrench := net _
  have e2 : WrenchList.net (u.link l).abi.wlist = u.wrench (WrenchList.net l.abi.wlist) := net _
  have e3 : (u.link l).joint.prp.incAccOnVel ((u.link l).adj.att.mulVecT (u.vel v).ang) 0 =
      u.acc (l.joint.prp.incAccOnVel (l.adj.att.mulVecT v.ang) 0) := by
    rw [← incAccOnVel, acc_zero]
    congr 1
    simp only [link, frame, vel]; vec_ring
  have e4 : (⟨(u.link l).body.mp.mass • triple (u.link l).body.vel.ang (u.link l).body.vel.ang (u.link l).body.mp.com,
      cross (u.link l).body.vel.ang ((u.link l).abi.m.aa.mulVec (u.link l).body.vel.ang)⟩ : Vec6 K) =
      u.wrench ⟨l.body.mp.mass • triple l.body.vel.ang l.body.vel.ang l.body.mp.com, cross l.body.vel.ang (l.abi.m.aa.mulVec l.body.vel.ang)⟩ := by
    simp only [link, body, mp, abi, mat6, vel, wrench, moment, force]; vec_ring
  have hf : u.force = u.mass := by rw [force, hg, mul_one]
  have e5 : (u.link l).body.frame.att.mulVecT ⟨0, 0, -rkG * (u.link l).body.mp.mass⟩ =
      u.force • (l.body.frame.att.mulVecT ⟨0, 0, -rkG * l.body.mp.mass⟩) := by
    simp only [hf, link, body, mp, frame]; vec_ring
  have e6 : ∀ (e : Vec6 K) (g : Vec3 K), (⟨(u.wrench e).lin + u.force • g, (u.wrench e).ang + cross (u.link l).body.mp.com (u.force • g)⟩ : Vec6 K) =
      u.wrench ⟨e.lin + g, e.ang + cross l.body.mp.com g⟩ := by
    intro e g
    simp only [link, body, mp, wrench, moment]; vec_ring
  have e7 : ∀ c : Vec6 K, (⟨(u.acc c).lin + (u.link l).adj.att.mulVecT (triple (u.vel v).ang (u.vel v).ang (u.link l).adj.pos), (u.acc c).ang⟩ : Vec6 K) =
      u.acc ⟨c.lin + l.adj.att.mulVecT (triple v.ang v.ang l.adj.pos), c.ang⟩ := by
    intro c
    simp only [link, frame, acc, vel]; vec_ring
  simp only [Link.abiUpdateInit, e1, e2, e3, e4, e5, e6, e7, ← wrench_add]
  rfl

theorem toParentI (fx : Bool) (l : Link K) : (u.link l).abiToParentI fx = u.mat6 (l.abiToParentI fx) := addABI hu _ _ _ _ _

theorem toParentB (fx : Bool) (l : Link K) (hp : u.mass = 1 ∨ ∀ d, l.joint.prp ≠ .prism d) :
    (u.link l).abiToParentB fx = u.wrench (l.abiToParentB fx) := by
  have e : (u.link l).abi.i.mulVec (u.link l).abi.c + (u.link l).abi.b = u.wrench (l.abi.i.mulVec l.abi.c + l.abi.b) := by
    rw [wrench_add, ← mat6_mulVec]; rfl
  simp only [Link.abiToParentB, e]
  exact addBias hu _ _ hp _ _ _ _

omit hu in
theorem abiAdd (l : Link K) (d : Mat6 K × Vec6 K) : (u.link l).abiAdd (u.mat6 d.1, u.wrench d.2) = u.link (l.abiAdd d) := by
  simp only [Link.abiAdd, link, abi, mat6_add, wrench_add]

theorem forward (fx : Bool) (v : Vec6 K) (l : Link K) : (u.link l).abiForward fx (u.acc v) = u.link (l.abiForward fx v) := by
  have e : (u.link l).adj.att.mulVecT6 ((u.acc v).linShift (u.link l).adj.pos) + (u.link l).abi.c =
      u.acc (l.adj.att.mulVecT6 (v.linShift l.adj.pos) + l.abi.c) := by
    simp only [link, abi, frame, acc]; vec_ring
  simp only [Link.abiForward, e]
  have q := qAcc hu fx l.joint.prp l.abi.i l.abi.b (l.adj.att.mulVecT6 (v.linShift l.adj.pos) + l.abi.c) l.abi.iaxi l.body.acc
  rw [show (u.link l).joint.prp.abiQAcc fx (u.link l).abi.i (u.link l).abi.b (u.acc (l.adj.att.mulVecT6 (v.linShift l.adj.pos) + l.abi.c))
    (u.link l).abi.iaxi (u.link l).body.acc = _ from q]
  simp only [link, abi_congr (qAcc_typeStr fx l.joint.prp _ _ _ _ _)]
  rfl

omit hu in
theorem abiWrench (l : Link K) : (u.link l).abiWrench = u.link l.abiWrench := by
  have e : (u.link l).abi.i.mulVec (u.link l).body.acc + (u.link l).abi.b = u.wrench (l.abi.i.mulVec l.body.acc + l.abi.b) := by
    rw [wrench_add, ← mat6_mulVec]; rfl
  simp only [Link.abiWrench, e]
  rfl

omit hu in
theorem subNet (l : Link K) : (u.link l).abiSubNet = u.link l.abiSubNet := by
  have e : (u.link l).abi.wlist = l.abi.wlist.map u.load := rfl
  have e' : (u.link l).abi.b - WrenchList.net (u.link l).abi.wlist = u.wrench (l.abi.b - WrenchList.net l.abi.wlist) := by
    rw [wrench_sub, ← net]; rfl
  simp only [Link.abiSubNet, e']
  by_cases h : l.abi.wlist = []
  · rw [if_pos h, if_pos (by rw [e, h]; rfl)]
  · rw [if_neg h, if_neg (by rw [e]; simpa using h)]
    rfl

omit hu in
theorem resetB (l : Link K) : (u.link l).abiResetB = u.link l.abiResetB := by
  have e : (u.link l).abi.f - (u.link l).abi.w = u.wrench (l.abi.f - l.abi.w) := (wrench_sub _ _).symm
  simp only [Link.abiResetB, e]
  rfl

omit hu in
theorem setPath (l : Link K) (b : Bool) : (u.link l).abiSetPath b = u.link (l.abiSetPath b) := rfl

theorem backward [Zm K] (hz : u.Fine) (fx : Bool) (l : Link K) : (u.link l).abiBackward fx = u.link (l.abiBackward fx) := by
  have e : (u.link l).abi.b - (u.link l).abi.w = u.wrench (l.abi.b - l.abi.w) := (wrench_sub _ _).symm
  have a := axisInertia hu hz fx l.joint.prp l.abi.i l.abi.axi l.abi.iaxi
  simp only [Link.abiBackward, e]
  rw [show (u.link l).joint.prp.abiAxisInertia fx (u.link l).abi.i (u.link l).abi.axi (u.link l).abi.iaxi = _ from a,
    show (u.link l).joint.prp = u.prp l.joint.prp from rfl, drivingTorque hu]
  simp only [link, abi_congr (driving_typeStr l.joint.prp)]
  rfl

/-! ## What the passes keep -/

omit hu in
theorem place_forward (fx : Bool) (v : Vec6 K) (l : Link K) : place (l.abiForward fx v) = place l := by
  simp only [Link.abiForward, place, qAcc_typeStr]

omit hu in
theorem place_step (fx wr : Bool) (l : Link K) (v : Vec6 K) : place (LTree.abiStep fx wr v l) = place l := by
  simp only [LTree.abiStep]
  split_ifs
  · exact place_forward fx v l
  · exact place_forward fx v l

omit hu in
theorem place_backward [Zm K] (fx : Bool) (l : Link K) : place (l.abiBackward fx) = place l := by
  simp only [Link.abiBackward, place, driving_typeStr]

omit hu in
theorem place_subNet (l : Link K) : place l.abiSubNet = place l := by
  simp only [Link.abiSubNet]; split_ifs <;> rfl

/-- The condition `Slides`, for a list of links. -/
def Fits (u : UnitSys K) (ls : List (Link K)) : Prop := u.mass = 1 ∨ ∀ l ∈ ls, ∀ p, l.joint.prp ≠ .prism p

omit hu in
theorem prism_place {p q : Prp K} (h : p.typeStr = q.typeStr) (hq : ∀ d, q ≠ .prism d) (d : Dof1 K) : p ≠ .prism d := by
  rintro rfl
  cases q <;> first | exact hq _ rfl | exact absurd h (by simp [Prp.typeStr])

omit hu in
theorem fits_congr {ls ls' : List (Link K)} (h : ls'.map place = ls.map place) (hf : u.Fits ls) : u.Fits ls' := by
  rcases hf with hf | hf
  · exact .inl hf
  · refine .inr fun l hl => ?_
    have : place l ∈ ls'.map place := List.mem_map_of_mem hl
    rw [h] at this
    obtain ⟨m, hm, e⟩ := List.mem_map.1 this
    simp only [place, Prod.mk.injEq] at e
    exact prism_place e.2.symm (hf m hm)

omit hu in
theorem fits_get {ls : List (Link K)} (hf : u.Fits ls) {i : ℕ} {l : Link K} (h : ls[i]? = some l) : u.mass = 1 ∨ ∀ d, l.joint.prp ≠ .prism d :=
  hf.imp id fun hf => hf l (List.mem_of_getElem? h)

/-! ## Passes over the tree -/
omit hu in
theorem vel_zero : u.vel (0 : Vec6 K) = 0 := by simp only [vel]; vec_ring

omit hu in
theorem initStep (hg : u.len * (u.rate * u.rate) = 1) (t : LTree ℕ) (ls : List (Link K)) (i : ℕ) :
    Chain.abiInitStep t (ls.map u.link) i = (Chain.abiInitStep t ls i).map (·.map u.link) := by
  simp only [Chain.abiInitStep, map_get]
  cases Chain.parentOf t i with
  | none => rfl
  | some q =>
    cases q with
    | none =>
      cases ls[i]? with
      | none => rfl
      | some l =>
        simp only [Option.map_some]
        rw [← vel_zero, updateInit hg, map_set, vel_zero]
    | some p =>
      cases ls[i]? with
      | none => rfl
      | some l =>
        simp only [Option.map_some]
        cases ls[p]? with
        | none => rfl
        | some pl =>
          simp only [Option.map_some]
          rw [show (u.link pl).body.vel = u.vel pl.body.vel from rfl, updateInit hg, map_set]

omit hu in
theorem initAt (hg : u.len * (u.rate * u.rate) = 1) (t : LTree ℕ) (ls : List (Link K)) : Chain.abiInitAt t (ls.map u.link) = (Chain.abiInitAt t ls).map (·.map u.link) := by
  simp only [Chain.abiInitAt, List.length_map]
  generalize List.range ls.length = r
  induction r generalizing ls with
  | nil => rfl
  | cons i r ih =>
    simp only [List.foldlM_cons, initStep hg]
    cases Chain.abiInitStep t ls i with
    | none => rfl
    | some ls1 => exact ih ls1

omit hu in
theorem modifyParent {f g : Link K → Link K} (h : ∀ l, g (u.link l) = u.link (f l)) (par : Option ℕ) (ls : List (Link K)) :
    Chain.modifyParent g par (ls.map u.link) = (Chain.modifyParent f par ls).map (·.map u.link) := by
  cases par with
  | none => rfl
  | some p =>
    simp only [Chain.modifyParent, map_get]
    cases ls[p]? with
    | none => rfl
    | some pl =>
      simp only [Option.map_some]
      rw [h, map_set]

theorem forwardAt (fx wr : Bool) (t : LTree ℕ) : ∀ (v : Vec6 K) (ls : List (Link K)),
    Chain.abiForwardAt fx wr t (u.acc v) (ls.map u.link) = (Chain.abiForwardAt fx wr t v ls).map (·.map u.link) := by
  induction t with
  | nil => intro v ls; rfl
  | node i c s ihc ihs =>
    intro v ls
    simp only [Chain.abiForwardAt, map_get]
    cases ls[i]? with
    | none => rfl
    | some l =>
      simp only [Option.map_some, Option.bind_eq_bind, Option.bind_some]
      have e : (if wr = true then ((u.link l).abiForward fx (u.acc v)).abiWrench else (u.link l).abiForward fx (u.acc v)) =
          u.link (if wr = true then (l.abiForward fx v).abiWrench else l.abiForward fx v) := by
        rw [forward hu]
        split_ifs
        · rw [abiWrench]
        · rfl
      rw [e, map_set, ihs]
      cases Chain.abiForwardAt fx wr s v (ls.set i (if wr = true then (l.abiForward fx v).abiWrench else l.abiForward fx v)) with
      | none => rfl
      | some ls1 =>
        simp only [Option.map_some, Option.bind_some, map_get]
        cases ls1[i]? with
        | none => rfl
        | some li =>
          simp only [Option.map_some, Option.bind_some]
          exact ihc _ _

omit hu in
theorem findPathAt (t : LTree ℕ) : ∀ (par : Option ℕ) (ls : List (Link K)),
    Chain.abiFindPathAt par t (ls.map u.link) = (Chain.abiFindPathAt par t ls).map (·.map u.link) := by
  induction t with
  | nil => intro par ls; rfl
  | node i c s ihc ihs =>
    intro par ls
    simp only [Chain.abiFindPathAt, ihc]
    cases Chain.abiFindPathAt (some i) c ls with
    | none => rfl
    | some ls1 =>
      simp only [Option.map_some, Option.bind_eq_bind, Option.bind_some, ihs]
      cases Chain.abiFindPathAt par s ls1 with
      | none => rfl
      | some ls2 =>
        simp only [Option.map_some, Option.bind_some, map_get]
        cases ls2[i]? with
        | none => rfl
        | some l =>
          simp only [Option.map_some, Option.bind_some]
          have e : ((u.link l).abi.path = true ∨ (u.link l).abi.wlist ≠ []) ↔ (l.abi.path = true ∨ l.abi.wlist ≠ []) := by
            rw [show (u.link l).abi.wlist = l.abi.wlist.map u.load from rfl, show (u.link l).abi.path = l.abi.path from rfl]
            simp
          simp only [e]
          split_ifs
          · exact modifyParent (fun l => setPath l true) par ls2
          · rfl


theorem addExAt (fx : Bool) (t : LTree ℕ) : ∀ (par : Option ℕ) (ls : List (Link K)), u.Fits ls →
    Chain.abiAddExAt fx par t (ls.map u.link) = (Chain.abiAddExAt fx par t ls).map (·.map u.link) := by
  induction t with
  | nil => intro par ls _; rfl
  | node i c s ihc ihs =>
    intro par ls hf
    have z : u.mat6 (0 : Mat6 K) = 0 := by simp only [mat6]; vec_ring
    have rest : ∀ ls1 : List (Link K), u.Fits ls1 → ((ls1.map u.link)[i]?.bind fun l1 =>
        (Chain.modifyParent (fun pl => pl.abiAdd (0, Link.abiToParentB fx l1)) par (ls1.map u.link)).bind fun ls2 =>
          Chain.abiAddExAt fx par s ls2) = (ls1[i]?.bind fun l1 =>
        (Chain.modifyParent (fun pl => pl.abiAdd (0, Link.abiToParentB fx l1)) par ls1).bind fun ls2 =>
          Chain.abiAddExAt fx par s ls2).map (·.map u.link) := by
      intro ls1 hf1
      simp only [map_get]
      cases h1 : ls1[i]? with
      | none => rfl
      | some l1 =>
        simp only [Option.map_some, Option.bind_some]
        rw [modifyParent (u := u) (f := fun pl => pl.abiAdd (0, l1.abiToParentB fx))
          (fun pl => by rw [toParentB hu fx l1 (fits_get hf1 h1), ← abiAdd, z]) par ls1]
        cases h2 : Chain.modifyParent (fun pl => pl.abiAdd (0, l1.abiToParentB fx)) par ls1 with
        | none => rfl
        | some ls2 => exact ihs _ _ (fits_congr (Chain.modifyParent_keep place (f := fun pl => pl.abiAdd (0, l1.abiToParentB fx)) (fun _ => rfl) h2) hf1)
    simp only [Chain.abiAddExAt, map_get]
    cases h0 : ls[i]? with
    | none => rfl
    | some l =>
      have hs1 : u.Fits (ls.set i l.abiResetB.abiSubNet) :=
        fits_congr (set_map_eq place h0 ((place_subNet _).trans rfl)) hf
      have hs2 : u.Fits (ls.set i l.abiSubNet) := fits_congr (set_map_eq place h0 (place_subNet _)) hf
      simp only [Option.map_some, Option.bind_eq_bind, Option.bind_some]
      rw [show (u.link l).abi.path = l.abi.path from rfl, resetB, subNet, subNet, map_set, map_set, ihc _ _ hs1]
      split_ifs
      · cases h1 : Chain.abiAddExAt fx (some i) c (ls.set i l.abiResetB.abiSubNet) with
        | none => rfl
        | some ls1 =>
          exact rest ls1 (fits_congr (Chain.abiAddExAt_keep place place_subNet (fun _ => rfl) (fun _ _ => rfl) h1) hs1)
      · exact rest _ hs2

theorem backwardAt [Zm K] (hz : u.Fine) (fx : Bool) (t : LTree ℕ) : ∀ (par : Option ℕ) (ls : List (Link K)), u.Fits ls →
    Chain.abiBackwardAt fx par t (ls.map u.link) = (Chain.abiBackwardAt fx par t ls).map (·.map u.link) := by
  induction t with
  | nil => intro par ls _; rfl
  | node i c s ihc ihs =>
    intro par ls hf
    simp only [Chain.abiBackwardAt, ihs _ _ hf]
    cases h1 : Chain.abiBackwardAt fx par s ls with
    | none => rfl
    | some ls1 =>
      have hf1 := fits_congr (Chain.abiBackwardAt_keep place (place_backward fx) (fun _ _ => rfl) h1) hf
      simp only [Option.map_some, Option.bind_eq_bind, Option.bind_some, ihc _ _ hf1]
      cases h2 : Chain.abiBackwardAt fx (some i) c ls1 with
      | none => rfl
      | some ls2 =>
        have hf2 := fits_congr (Chain.abiBackwardAt_keep place (place_backward fx) (fun _ _ => rfl) h2) hf1
        simp only [Option.map_some, Option.bind_some, map_get]
        cases h3 : ls2[i]? with
        | none => rfl
        | some l =>
          simp only [Option.map_some, Option.bind_some]
          rw [backward hu hz, map_set]
          have hp : u.mass = 1 ∨ ∀ d, (l.abiBackward fx).joint.prp ≠ .prism d :=
            (fits_get hf2 h3).imp id fun h => prism_place (driving_typeStr _) h
          exact modifyParent (u := u) (fun pl => by rw [toParentB hu fx _ hp, toParentI hu, ← abiAdd]) par _

omit hu in
theorem zeroRate (c : Chain K) : (u.chain c).abiZeroLinkRate = u.chain c.abiZeroLinkRate := by
  simp only [Chain.abiZeroLinkRate, chain, List.map_map]
  congr 1
  apply List.map_congr_left
  intro l _
  simp only [Function.comp, Body.zeroRate, link, body, vel_zero, acc_zero]

omit hu in
theorem size_prp (p : Prp K) : (u.prp p).size = p.size := by cases p <;> rfl

omit hu in
theorem jointSize (ls : List (Link K)) : LinkArray.jointSize (ls.map u.link) = LinkArray.jointSize ls := by
  rw [jointSize_eq, jointSize_eq]
  simp only [sizes, List.map_map, Function.comp_def, Link.size]
  congr 1
  exact List.map_congr_left fun l _ => size_prp _

theorem updateABI [Zm K] (hz : u.Fine) (hg : u.len * (u.rate * u.rate) = 1) (fx wr : Bool) (c : Chain K) (hf : u.Slides c) :
    (u.chain c).abiUpdate fx wr = (c.abiUpdate fx wr).map u.chain := by
  simp only [Chain.abiUpdate, show (u.chain c).link = c.link.map u.link from rfl, jointSize]
  split_ifs
  · rw [zeroRate]; rfl
  · rw [show (u.chain c).shape = c.shape from rfl, initAt hg]
    cases h1 : Chain.abiInitAt c.shape c.link with
    | none => rfl
    | some ls1 =>
      have hf1 : u.Fits ls1 := fits_congr (Chain.abiInitAt_keep place (fun _ _ => rfl) h1) hf
      simp only [Option.map_some, Option.bind_eq_bind, Option.bind_some, backwardAt hu hz _ _ _ _ hf1]
      cases Chain.abiBackwardAt fx none c.shape ls1 with
      | none => rfl
      | some ls2 =>
        have h := forwardAt hu fx wr c.shape 0 ls2
        rw [acc_zero] at h
        simp only [Option.map_some, Option.bind_some, h]
        cases Chain.abiForwardAt fx wr c.shape 0 ls2 <;> rfl

theorem addForces (fx wr : Bool) (c : Chain K) (hf : u.Slides c) :
    (u.chain c).abiUpdateAddEx fx wr = (c.abiUpdateAddEx fx wr).map u.chain := by
  simp only [Chain.abiUpdateAddEx, show (u.chain c).link = c.link.map u.link from rfl, jointSize]
  split_ifs
  · rw [zeroRate]; rfl
  · have e : (c.link.map u.link).map (fun l => l.abiSetPath false) = (c.link.map fun l => l.abiSetPath false).map u.link := by
      simp only [List.map_map]; rfl
    have hf0 : u.Fits (c.link.map fun l => l.abiSetPath false) := fits_congr (by simp only [List.map_map]; rfl) hf
    simp only [show (u.chain c).shape = c.shape from rfl, Chain.abiBackwardAddEx, e, findPathAt]
    cases h1 : Chain.abiFindPathAt none c.shape (c.link.map fun l => l.abiSetPath false) with
    | none => rfl
    | some ls1 =>
      have hf1 : u.Fits ls1 := fits_congr (Chain.abiFindPathAt_keep place (fun _ => rfl) h1) hf0
      simp only [Option.map_some, Option.bind_eq_bind, Option.bind_some, addExAt hu _ _ _ _ hf1]
      cases Chain.abiAddExAt fx none c.shape ls1 with
      | none => rfl
      | some ls2 =>
        have h := forwardAt hu fx wr c.shape 0 ls2
        rw [acc_zero] at h
        simp only [Option.map_some, Option.bind_some, h]
        cases Chain.abiForwardAt fx wr c.shape 0 ls2 <;> rfl

end
end Spec.UnitSys
end Roki
