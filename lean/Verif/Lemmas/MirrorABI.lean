import Verif.Lemmas.Mirror
set_option autoImplicit false

/-! # Lemmas: forward dynamics of the mirror image of a robot (C140) -/

namespace Roki
set_option linter.unusedSectionVars false
open Spec LinkArray
namespace Spec.Mirror
variable {K : Type*} [Field K]

/-! ## Matrices -/

theorem mat6_add (a b : Mat6 K) : mat6 (a + b) = mat6 a + mat6 b := by
  simp only [mat6, mat, pol]; vec_ring

theorem mat6_mulVec (m : Mat6 K) (v : Vec6 K) : (mat6 m).mulVec (vec6 v) = vec6 (m.mulVec v) := by
  simp only [mat6, mat, pol, axi, vec6]; vec_ring

theorem mat_add (a b : Mat3 K) : mat (a + b) = mat a + mat b := by simp only [mat, pol]; vec_ring
theorem mat_neg (a : Mat3 K) : mat (-a) = -mat a := by simp only [mat, pol]; vec_ring
theorem mat_tr (a : Mat3 K) : mat a.tr = (mat a).tr := by simp only [mat, pol]; vec_ring
theorem mat_mul (a b : Mat3 K) : mat (a.mul b) = (mat a).mul (mat b) := by simp only [mat, pol]; vec_ring
theorem mat_rot (a b : Mat3 K) : mat (Mat3.rot a b) = Mat3.rot (mat a) (mat b) := by simp only [Mat3.rot, mat_mul, mat_tr]
theorem mat_skew (p : Vec3 K) : Mat3.skew (pol p) = -mat (Mat3.skew p) := by simp only [mat, pol]; vec_ring
theorem neg_mul (a b : Mat3 K) : (-a).mul b = -a.mul b := by vec_ring
theorem mul_neg (a b : Mat3 K) : a.mul (-b) = -a.mul b := by vec_ring
theorem tr_neg (a : Mat3 K) : (-a).tr = -a.tr := by vec_ring
theorem tr_add (a b : Mat3 K) : (a + b).tr = a.tr + b.tr := by vec_ring
theorem neg_neg3 (a : Mat3 K) : -(-a) = a := by vec_ring
theorem neg_add3 (a b : Mat3 K) : -(a + b) = -a + -b := by vec_ring

theorem mul_add3 (a b c : Mat3 K) : a.mul (b + c) = a.mul b + a.mul c := by vec_ring

theorem mat6_xform (f : Frame K) (m : Mat6 K) : (mat6 m).xform (frame f) = mat6 (m.xform f) := by
  simp only [mat6, frame, Mat6.xform, mat_neg, mat_add, mat_tr, mat_mul, mat_rot, mat_skew, neg_mul, mul_neg, tr_neg, tr_add, neg_add3]
  simp only [Mat3.rot, neg_mul, mul_neg, tr_neg, tr_add, neg_neg3, mul_add3, neg_add3]

theorem mat6_dyad (a b : Vec6 K) : Mat6.dyad (vec6 a) (vec6 b) = mat6 (Mat6.dyad a b) := by
  simp only [mat6, mat, pol, axi, vec6]; vec_ring

theorem smul_vec6 (k : K) (v : Vec6 K) : vec6 (k • v) = k • vec6 v := by
  simp only [vec6, pol, axi]; vec_ring

theorem colZ (m : Mat6 K) : (mat6 m).colZ = vec6 m.colZ := by
  simp only [mat6, mat, pol, axi, vec6]; vec_ring
theorem rowZ (m : Mat6 K) : (mat6 m).rowZ = vec6 m.rowZ := by
  simp only [mat6, mat, pol, axi, vec6]; vec_ring
theorem colZA (m : Mat6 K) : (mat6 m).colZA = -vec6 m.colZA := by
  simp only [mat6, mat, pol, axi, vec6]; vec_ring
theorem rowZA (m : Mat6 K) : (mat6 m).rowZA = -vec6 m.rowZA := by
  simp only [mat6, mat, pol, axi, vec6]; vec_ring

theorem dot6 (a b : Vec6 K) : (vec6 a).dot6 (vec6 b) = a.dot6 b := by
  simp only [vec6, pol, axi]; vec_unfold; ring

theorem neg_smul6 (k : K) (v : Vec6 K) : k • (-v) = (-k) • v := by vec_ring
theorem dyad_neg (k : K) (a b : Vec6 K) : Mat6.dyad (k • -a) (-b) = Mat6.dyad (k • a) b := by vec_ring
theorem dyad_neg_left (k : K) (a b : Vec6 K) : Mat6.dyad (k • -a) b = Mat6.dyad ((-k) • a) b := by vec_ring
theorem dyad_neg_right (k : K) (a b : Vec6 K) : Mat6.dyad (k • a) (-b) = Mat6.dyad ((-k) • a) b := by vec_ring
theorem dot6_neg (a b : Vec6 K) : (-a).dot6 b = -a.dot6 b := by vec_unfold; ring

/-! ## Joints -/

theorem motor_inertia (m : Motor K) : (motor m).inertia = m.inertia := by cases m <;> rfl
theorem motor_inputTrq (m : Motor K) : (motor m).inputTrq = -m.inputTrq := by
  cases m <;> simp only [motor, Motor.inputTrq] <;> ring
theorem motor_resistance (m : Motor K) (v : K) : (motor m).resistance (-v) = -m.resistance v := by
  cases m <;> simp only [motor, Motor.resistance] <;> ring

theorem sign_sq (p : Prp K) (i : ℕ) : sign p i = 1 ∨ sign p i = -1 := by
  have : ∀ x ∈ signs p, x = 1 ∨ x = -1 := by cases p <;> simp [signs]
  simp only [sign]
  cases h : (signs p)[i]? with
  | some x => exact this x (List.mem_of_getElem? h)
  | none =>
    cases h' : (signs p).getLast? with
    | some x => exact this x (List.mem_of_getLast? h')
    | none => exact .inl rfl

theorem drivingTorque (p : Prp K) : (prp p).abiDrivingTorque = prp p.abiDrivingTorque := by
  cases p with
  | revol p =>
    simp only [prp, Prp.abiDrivingTorque, motor_inputTrq, motor_resistance, Prp.revol.injEq, Dof1.ext_iff, true_and, and_true]
    ring
  | prism p => rfl
  | cylin p =>
    simp only [prp, Prp.abiDrivingTorque, Prp.cylin.injEq, Dof2.ext_iff, true_and, and_true]
    ring
  | _ => rfl

theorem typeStr_prp (p : Prp K) : (prp p).typeStr = p.typeStr := by cases p <;> rfl

theorem addABI (fx : Bool) (p : Prp K) (m : Mat6 K) (f : Frame K) (ih : ℕ → ℕ → K) :
    (prp p).abiABI fx (mat6 m) (frame f) (joint2 p ih) = mat6 (p.abiABI fx m f ih) := by
  have z : mat6 (0 : Mat6 K) = 0 := by simp only [mat6, mat, pol]; vec_ring
  cases p with
  | fixed => exact mat6_xform _ _
  | revol p =>
    simp only [prp, Prp.abiABI]
    rw [← mat6_xform, mat6_add, colZA, rowZA, ← mat6_dyad, dyad_neg, smul_vec6]
    simp [joint2, sign, signs]
  | prism p =>
    simp only [prp, Prp.abiABI]
    rw [← mat6_xform, mat6_add, colZ, rowZ, ← mat6_dyad, smul_vec6]
    simp [joint2, sign, signs]
  | cylin p =>
    simp only [prp, Prp.abiABI]
    rw [← mat6_xform, mat6_add, mat6_add, mat6_add, colZ, rowZ, colZA, rowZA, ← mat6_dyad, ← mat6_dyad, ← mat6_dyad, ← mat6_dyad, dyad_neg,
      dyad_neg_left, dyad_neg_right]
    simp [joint2, sign, signs, smul_vec6]
  | hooke p => exact z.symm
  | spher p => exact z.symm
  | float p => exact z.symm
  | brfloat p =>
    cases fx with
    | true => exact mat6_xform _ _
    | false => exact z.symm

theorem vec6_zero : vec6 (0 : Vec6 K) = 0 := by simp only [vec6, pol, axi]; vec_ring

theorem addBias (fx : Bool) (p : Prp K) (m : Mat6 K) (b : Vec6 K) (f : Frame K) (ih : ℕ → ℕ → K) :
    (prp p).abiBias fx (mat6 m) (vec6 b) (frame f) (joint2 p ih) = vec6 (p.abiBias fx m b f ih) := by
  cases p with
  | fixed => exact xform6Ang _ _
  | revol p =>
    simp only [prp, Prp.abiBias]
    rw [← xform6Ang, wrench_sub, colZA, smul_vec6, smul_vec6]
    have e : joint2 (.revol p) ih 0 0 = ih 0 0 := by simp [joint2, sign, signs]
    rw [e]
    congr 2
    simp only [vec6, axi, pol]
    vec_ring
  | prism p =>
    simp only [prp, Prp.abiBias]
    rw [← xform6Ang, wrench_sub, colZ, smul_vec6]
    rfl
  | cylin p =>
    simp only [prp, Prp.abiBias]
    rw [← xform6Ang, wrench_add, wrench_add, colZ, colZA, smul_vec6, smul_vec6]
    congr 2
    · congr 2
      simp [joint2, sign, signs, vec6, axi, pol]
      ring
    · rw [neg_smul6]
      congr 1
      simp [joint2, sign, signs, vec6, axi, pol]
      ring
  | hooke p => exact vec6_zero.symm
  | spher p => exact vec6_zero.symm
  | float p => exact vec6_zero.symm
  | brfloat p =>
    cases fx with
    | true => exact xform6Ang _ _
    | false => exact vec6_zero.symm

theorem mulVec6 (m : Mat3 K) (v : Vec6 K) : (mat m).mulVec6 (vec6 v) = vec6 (m.mulVec6 v) := by
  simp only [mat, vec6, axi, pol]; vec_ring

theorem floatAcc (p : Prp K) (hp : signs p = [1, -1, 1, -1, 1, -1]) (ih : ℕ → ℕ → K) (b : Vec6 K) :
    Prp.floatAcc (joint2 p ih) (vec6 b) = vec6 (Prp.floatAcc ih b) := by
  simp only [Prp.floatAcc, Vec6.ofFn, joint2, sign, hp]
  simp only [List.getElem?_cons_zero, List.getElem?_cons_succ, Option.getD_some, vec6, axi, pol]
  vec_ring

theorem qAcc (fx : Bool) (p : Prp K) (m : Mat6 K) (b jac : Vec6 K) (ih : ℕ → ℕ → K) (acc : Vec6 K) :
    (prp p).abiQAcc fx (mat6 m) (vec6 b) (vec6 jac) (joint2 p ih) (vec6 acc) =
      (prp (p.abiQAcc fx m b jac ih acc).1, vec6 (p.abiQAcc fx m b jac ih acc).2) := by
  cases p with
  | fixed => rfl
  | revol p =>
    have e : joint2 (.revol p) ih 0 0 * (-p.u - (mat6 m).rowZA.dot6 (vec6 jac) - (vec6 b).ang.z) =
        -(ih 0 0 * (p.u - m.rowZA.dot6 jac - b.ang.z)) := by
      rw [rowZA, dot6_neg, dot6]
      simp [joint2, sign, signs, vec6, axi]
      ring
    simp only [prp, Prp.abiQAcc, e]
    simp [vec6, axi, pol]
    ring
  | prism p =>
    have e : joint2 (.prism p) ih 0 0 * (p.u - (mat6 m).rowZ.dot6 (vec6 jac) - (vec6 b).lin.z) =
        ih 0 0 * (p.u - m.rowZ.dot6 jac - b.lin.z) := by
      rw [rowZ, dot6]
      simp [joint2, sign, signs, vec6, pol]
    simp only [prp, Prp.abiQAcc, e]
    simp [vec6, axi, pol]
  | cylin p =>
    have e0 : p.u0 - (mat6 m).rowZ.dot6 (vec6 jac) + (vec6 b).lin.z = p.u0 - m.rowZ.dot6 jac + b.lin.z := by
      rw [rowZ, dot6]; rfl
    have e1 : -p.u1 - (mat6 m).rowZA.dot6 (vec6 jac) + (vec6 b).ang.z = -(p.u1 - m.rowZA.dot6 jac + b.ang.z) := by
      rw [rowZA, dot6_neg, dot6]; simp only [vec6, axi]; ring
    simp only [prp, Prp.abiQAcc, e0, e1]
    simp [joint2, sign, signs, vec6, axi, pol]
    ring_nf
    simp
  | hooke p => rfl
  | spher p => rfl
  | float p =>
    simp only [prp, Prp.abiQAcc]
    rw [floatAcc _ rfl, ← wrench_sub, mulVec6]
  | brfloat p =>
    cases fx with
    | true => rfl
    | false =>
      simp only [prp, Prp.abiQAcc, Bool.false_eq_true, if_false]
      rw [floatAcc _ rfl, ← wrench_sub, mulVec6]

section
variable [Zm K] [Fair K]

theorem elem3 (p : SpherPrp K) (m : Mat3 K) : (mat m).elem = joint2 (.spher p) m.elem := by
  funext i j
  rcases i with _ | _ | _ | i <;> rcases j with _ | _ | _ | j <;> simp [Mat3.elem, Vec3.get, mat, pol, joint2, sign, signs]

theorem far (i : ℕ) : ¬i + 1 + 1 + 1 + 1 + 1 + 1 < 3 := by omega

theorem elem6 (p : Prp K) (hp : signs p = [1, -1, 1, -1, 1, -1]) (m : Mat6 K) : (mat6 m).elem = joint2 p m.elem := by
  funext i j
  rcases i with _ | _ | _ | _ | _ | _ | i <;> rcases j with _ | _ | _ | _ | _ | _ | j <;>
    simp [Mat6.elem, Mat3.elem, Vec3.get, mat6, mat, pol, joint2, sign, hp, far]

theorem inv2 (n : ℕ) (p : Prp K) (h : ℕ → ℕ → K) : Zm.matInv n (joint2 p h) = joint2 p (Zm.matInv n h) :=
  Fair.matInv n (sign p) h (sign_sq p)

theorem axisInertia (fx : Bool) (p : Prp K) (m : Mat6 K) (h ih : ℕ → ℕ → K) :
    (prp p).abiAxisInertia fx (mat6 m) (joint2 p h) (joint2 p ih) =
      (joint2 p (p.abiAxisInertia fx m h ih).1, joint2 p (p.abiAxisInertia fx m h ih).2) := by
  cases p with
  | fixed => rfl
  | revol p =>
    have e : (motor p.motor).inertia + (mat6 m).aa.elem 2 2 = p.motor.inertia + m.aa.elem 2 2 := by
      rw [motor_inertia]; rfl
    have c : ∀ a : K, (fun _ _ => a) = joint2 (.revol p) fun _ _ => a := by
      intro a; funext i j
      rcases i with _ | i <;> rcases j with _ | j <;> simp [joint2, sign, signs]
    simp only [prp, Prp.abiAxisInertia, e, ← c]
  | prism p =>
    have c : ∀ a : K, (fun _ _ => a) = joint2 (.prism p) fun _ _ => a := by
      intro a; funext i j
      rcases i with _ | i <;> rcases j with _ | j <;> simp [joint2, sign, signs]
    simp only [prp, Prp.abiAxisInertia, ← c]
    rfl
  | cylin p =>
    have e : mat2 (p.motor.inertia + (mat6 m).ll.elem 2 2) ((mat6 m).la.elem 2 2) ((mat6 m).al.elem 2 2) ((mat6 m).aa.elem 2 2) =
        joint2 (.cylin p) (mat2 (p.motor.inertia + m.ll.elem 2 2) (m.la.elem 2 2) (m.al.elem 2 2) (m.aa.elem 2 2)) := by
      funext i j
      rcases i with _ | _ | i <;> rcases j with _ | _ | j <;> simp [mat2, Mat3.elem, Vec3.get, mat6, mat, pol, joint2, sign, signs]
    simp only [prp, Prp.abiAxisInertia, e, inv2]
  | hooke p =>
    have e : mat2
        ((motor p.motor).inertia + ((mat6 m).aa.elem 0 0 * p.s1 * p.s1 - ((mat6 m).aa.elem 0 2 + (mat6 m).aa.elem 2 0) * p.s1 * p.c1
          + (mat6 m).aa.elem 2 2 * p.c1 * p.c1))
        ((mat6 m).aa.elem 2 1 * p.c1 - (mat6 m).aa.elem 0 1 * p.s1)
        ((mat6 m).aa.elem 1 2 * p.c1 - (mat6 m).aa.elem 1 0 * p.s1)
        ((mat6 m).aa.elem 1 1) = joint2 (.hooke p) (mat2
        (p.motor.inertia + (m.aa.elem 0 0 * p.s1 * p.s1 - (m.aa.elem 0 2 + m.aa.elem 2 0) * p.s1 * p.c1 + m.aa.elem 2 2 * p.c1 * p.c1))
        (m.aa.elem 2 1 * p.c1 - m.aa.elem 0 1 * p.s1)
        (m.aa.elem 1 2 * p.c1 - m.aa.elem 1 0 * p.s1)
        (m.aa.elem 1 1)) := by
      funext i j
      rcases i with _ | _ | i <;> rcases j with _ | _ | j <;>
        simp [mat2, Mat3.elem, Vec3.get, mat6, mat, pol, joint2, sign, signs, motor_inertia] <;> ring
    simp only [prp, Prp.abiAxisInertia, e, inv2]
  | spher p => simp only [prp, Prp.abiAxisInertia, mat6, elem3 p, inv2]
  | float p => simp only [prp, Prp.abiAxisInertia, elem6 (.float p) rfl, inv2]
  | brfloat p =>
    cases fx with
    | true => rfl
    | false => simp only [prp, Prp.abiAxisInertia, Bool.false_eq_true, if_false, elem6 (.brfloat p) rfl, inv2]
end

/-! ## One link -/

theorem link_prp (l : Link K) {q : Prp K} (hq : q.typeStr = l.joint.prp.typeStr) :
    ({ link l with joint := { (link l).joint with prp := prp q } } : Link K) = link { l with joint := { l.joint with prp := q } } := by
  simp only [link, abi_congr hq]

theorem driving_typeStr (p : Prp K) : p.abiDrivingTorque.typeStr = p.typeStr := by cases p <;> rfl

theorem qAcc_typeStr (fx : Bool) (p : Prp K) (m : Mat6 K) (b jac : Vec6 K) (ih : ℕ → ℕ → K) (acc : Vec6 K) :
    (p.abiQAcc fx m b jac ih acc).1.typeStr = p.typeStr := by
  cases p <;> first | rfl | (simp only [Prp.abiQAcc]; split_ifs <;> rfl)

theorem abiInertia (m : MP K) : Link.abiInertia (mp m) = mat6 (Link.abiInertia m) := by
  simp only [Link.abiInertia, mp, mat6, mat, pol]; vec_ring

theorem joint2_zero (p : Prp K) : joint2 p (fun _ _ => (0 : K)) = fun _ _ => 0 := by
  funext i j; simp only [joint2, mul_zero]

theorem abiAlloc (l : Link K) : (link l).abiAlloc = link l.abiAlloc := by
  have e : (link l).body.mp = mp l.body.mp := rfl
  simp only [Link.abiAlloc, e, abiInertia]
  simp only [link, abi, joint2_zero, vec6_zero, List.map_nil]
  congr 2
  simp only [mat6, mat, pol]
  vec_ring

theorem updateInit (v : Vec6 K) (l : Link K) : (link l).abiUpdateInit (vec6 v) = link (l.abiUpdateInit v) := by
  have e1 : (link l).body.calcExtWrench = vec6 l.body.calcExtWrench := net _
  have e2 : WrenchList.net (link l).abi.wlist = vec6 (WrenchList.net l.abi.wlist) := net _
  have e3 : (link l).joint.prp.incAccOnVel ((link l).adj.att.mulVecT (vec6 v).ang) 0 =
      vec6 (l.joint.prp.incAccOnVel (l.adj.att.mulVecT v.ang) 0) := by
    rw [← incAccOnVel, vec6_zero]
    congr 1
    simp only [link, frame, mat, pol, axi, vec6]; vec_ring
  have e4 : (⟨(link l).body.mp.mass • triple (link l).body.vel.ang (link l).body.vel.ang (link l).body.mp.com,
      cross (link l).body.vel.ang ((link l).abi.m.aa.mulVec (link l).body.vel.ang)⟩ : Vec6 K) =
      vec6 ⟨l.body.mp.mass • triple l.body.vel.ang l.body.vel.ang l.body.mp.com, cross l.body.vel.ang (l.abi.m.aa.mulVec l.body.vel.ang)⟩ := by
    simp only [link, body, mp, abi, mat6, mat, pol, axi, vec6]; vec_ring
  have e5 : (link l).body.frame.att.mulVecT ⟨0, 0, -rkG * (link l).body.mp.mass⟩ = pol (l.body.frame.att.mulVecT ⟨0, 0, -rkG * l.body.mp.mass⟩) := by
    simp only [link, body, mp, frame, mat, pol]; vec_ring
  have e6 : ∀ (e : Vec6 K) (g : Vec3 K), (⟨(vec6 e).lin + pol g, (vec6 e).ang + cross (link l).body.mp.com (pol g)⟩ : Vec6 K) =
      vec6 ⟨e.lin + g, e.ang + cross l.body.mp.com g⟩ := by
    intro e g
    simp only [link, body, mp, pol, axi, vec6]; vec_ring
  have e7 : ∀ c : Vec6 K, (⟨(vec6 c).lin + (link l).adj.att.mulVecT (triple (vec6 v).ang (vec6 v).ang (link l).adj.pos), (vec6 c).ang⟩ : Vec6 K) =
      vec6 ⟨c.lin + l.adj.att.mulVecT (triple v.ang v.ang l.adj.pos), c.ang⟩ := by
    intro c
    simp only [link, frame, mat, pol, axi, vec6]; vec_ring
  simp only [Link.abiUpdateInit, e1, e2, e3, e4, e5, e6, e7, ← wrench_add]
  rfl

theorem toParentI (fx : Bool) (l : Link K) : (link l).abiToParentI fx = mat6 (l.abiToParentI fx) := addABI _ _ _ _ _

theorem toParentB (fx : Bool) (l : Link K) : (link l).abiToParentB fx = vec6 (l.abiToParentB fx) := by
  have e : (link l).abi.i.mulVec (link l).abi.c + (link l).abi.b = vec6 (l.abi.i.mulVec l.abi.c + l.abi.b) := by
    rw [wrench_add, ← mat6_mulVec]; rfl
  simp only [Link.abiToParentB, e]
  exact addBias _ _ _ _ _ _

theorem abiAdd (l : Link K) (d : Mat6 K × Vec6 K) : (link l).abiAdd (mat6 d.1, vec6 d.2) = link (l.abiAdd d) := by
  simp only [Link.abiAdd, link, abi, mat6_add, wrench_add]

theorem forward (fx : Bool) (v : Vec6 K) (l : Link K) : (link l).abiForward fx (vec6 v) = link (l.abiForward fx v) := by
  have e : (link l).adj.att.mulVecT6 ((vec6 v).linShift (link l).adj.pos) + (link l).abi.c =
      vec6 (l.adj.att.mulVecT6 (v.linShift l.adj.pos) + l.abi.c) := by
    simp only [link, abi, frame, mat, pol, axi, vec6]; vec_ring
  simp only [Link.abiForward, e]
  have q := qAcc fx l.joint.prp l.abi.i l.abi.b (l.adj.att.mulVecT6 (v.linShift l.adj.pos) + l.abi.c) l.abi.iaxi l.body.acc
  rw [show (link l).joint.prp.abiQAcc fx (link l).abi.i (link l).abi.b (vec6 (l.adj.att.mulVecT6 (v.linShift l.adj.pos) + l.abi.c))
    (link l).abi.iaxi (link l).body.acc = _ from q]
  simp only [link, abi_congr (qAcc_typeStr fx l.joint.prp _ _ _ _ _)]
  rfl

theorem abiWrench (l : Link K) : (link l).abiWrench = link l.abiWrench := by
  have e : (link l).abi.i.mulVec (link l).body.acc + (link l).abi.b = vec6 (l.abi.i.mulVec l.body.acc + l.abi.b) := by
    rw [wrench_add, ← mat6_mulVec]; rfl
  simp only [Link.abiWrench, e]
  rfl

theorem subNet (l : Link K) : (link l).abiSubNet = link l.abiSubNet := by
  have e : (link l).abi.wlist = l.abi.wlist.map load := rfl
  have e' : (link l).abi.b - WrenchList.net (link l).abi.wlist = vec6 (l.abi.b - WrenchList.net l.abi.wlist) := by
    rw [wrench_sub, ← net]; rfl
  simp only [Link.abiSubNet, e']
  by_cases h : l.abi.wlist = []
  · rw [if_pos h, if_pos (by rw [e, h]; rfl)]
  · rw [if_neg h, if_neg (by rw [e]; simpa using h)]
    rfl

theorem resetB (l : Link K) : (link l).abiResetB = link l.abiResetB := by
  have e : (link l).abi.f - (link l).abi.w = vec6 (l.abi.f - l.abi.w) := (wrench_sub _ _).symm
  simp only [Link.abiResetB, e]
  rfl

theorem setPath (l : Link K) (b : Bool) : (link l).abiSetPath b = link (l.abiSetPath b) := rfl

/-! ## Passes over the tree -/

theorem initStep (t : LTree ℕ) (ls : List (Link K)) (i : ℕ) :
    Chain.abiInitStep t (ls.map link) i = (Chain.abiInitStep t ls i).map (·.map link) := by
  simp only [Chain.abiInitStep, map_get]
  cases Chain.parentOf t i with
  | none => rfl
  | some q =>
    cases q with
    | none =>
      cases ls[i]? with
      | none => rfl
      | some l =>
        simp only [Option.map_some]
        rw [← vec6_zero, updateInit, map_set, vec6_zero]
    | some p =>
      cases ls[i]? with
      | none => rfl
      | some l =>
        simp only [Option.map_some]
        cases ls[p]? with
        | none => rfl
        | some pl =>
          simp only [Option.map_some]
          rw [show (link pl).body.vel = vec6 pl.body.vel from rfl, updateInit, map_set]

theorem initAt (t : LTree ℕ) (ls : List (Link K)) : Chain.abiInitAt t (ls.map link) = (Chain.abiInitAt t ls).map (·.map link) := by
  simp only [Chain.abiInitAt, List.length_map]
  generalize List.range ls.length = r
  induction r generalizing ls with
  | nil => rfl
  | cons i r ih =>
    simp only [List.foldlM_cons, initStep]
    cases Chain.abiInitStep t ls i with
    | none => rfl
    | some ls1 => exact ih ls1

theorem modifyParent {f g : Link K → Link K} (h : ∀ l, g (link l) = link (f l)) (par : Option ℕ) (ls : List (Link K)) :
    Chain.modifyParent g par (ls.map link) = (Chain.modifyParent f par ls).map (·.map link) := by
  cases par with
  | none => rfl
  | some p =>
    simp only [Chain.modifyParent, map_get]
    cases ls[p]? with
    | none => rfl
    | some pl =>
      simp only [Option.map_some]
      rw [h, map_set]

theorem forwardAt (fx wr : Bool) (t : LTree ℕ) : ∀ (v : Vec6 K) (ls : List (Link K)),
    Chain.abiForwardAt fx wr t (vec6 v) (ls.map link) = (Chain.abiForwardAt fx wr t v ls).map (·.map link) := by
  induction t with
  | nil => intro v ls; rfl
  | node i c s ihc ihs =>
    intro v ls
    simp only [Chain.abiForwardAt, map_get]
    cases ls[i]? with
    | none => rfl
    | some l =>
      simp only [Option.map_some, Option.bind_eq_bind, Option.bind_some]
      have e : (if wr = true then ((link l).abiForward fx (vec6 v)).abiWrench else (link l).abiForward fx (vec6 v)) =
          link (if wr = true then (l.abiForward fx v).abiWrench else l.abiForward fx v) := by
        rw [forward]
        split_ifs
        · rw [abiWrench]
        · rfl
      rw [e, map_set, ihs]
      cases Chain.abiForwardAt fx wr s v (ls.set i (if wr = true then (l.abiForward fx v).abiWrench else l.abiForward fx v)) with
      | none => rfl
      | some ls1 =>
        simp only [Option.map_some, Option.bind_some, map_get]
        cases ls1[i]? with
        | none => rfl
        | some li =>
          simp only [Option.map_some, Option.bind_some]
          exact ihc _ _

theorem findPathAt (t : LTree ℕ) : ∀ (par : Option ℕ) (ls : List (Link K)),
    Chain.abiFindPathAt par t (ls.map link) = (Chain.abiFindPathAt par t ls).map (·.map link) := by
  induction t with
  | nil => intro par ls; rfl
  | node i c s ihc ihs =>
    intro par ls
    simp only [Chain.abiFindPathAt, ihc]
    cases Chain.abiFindPathAt (some i) c ls with
    | none => rfl
    | some ls1 =>
      simp only [Option.map_some, Option.bind_eq_bind, Option.bind_some, ihs]
      cases Chain.abiFindPathAt par s ls1 with
      | none => rfl
      | some ls2 =>
        simp only [Option.map_some, Option.bind_some, map_get]
        cases ls2[i]? with
        | none => rfl
        | some l =>
          simp only [Option.map_some, Option.bind_some]
          have e : ((link l).abi.path = true ∨ (link l).abi.wlist ≠ []) ↔ (l.abi.path = true ∨ l.abi.wlist ≠ []) := by
            rw [show (link l).abi.wlist = l.abi.wlist.map load from rfl, show (link l).abi.path = l.abi.path from rfl]
            simp
          simp only [e]
          split_ifs
          · exact modifyParent (fun l => setPath l true) par ls2
          · rfl

theorem addExAt (fx : Bool) (t : LTree ℕ) : ∀ (par : Option ℕ) (ls : List (Link K)),
    Chain.abiAddExAt fx par t (ls.map link) = (Chain.abiAddExAt fx par t ls).map (·.map link) := by
  induction t with
  | nil => intro par ls; rfl
  | node i c s ihc ihs =>
    intro par ls
    have z : mat6 (0 : Mat6 K) = 0 := by simp only [mat6, mat, pol]; vec_ring
    have rest : ∀ ls1 : List (Link K), ((ls1.map link)[i]?.bind fun l1 =>
        (Chain.modifyParent (fun pl => pl.abiAdd (0, Link.abiToParentB fx l1)) par (ls1.map link)).bind fun ls2 =>
          Chain.abiAddExAt fx par s ls2) = (ls1[i]?.bind fun l1 =>
        (Chain.modifyParent (fun pl => pl.abiAdd (0, Link.abiToParentB fx l1)) par ls1).bind fun ls2 =>
          Chain.abiAddExAt fx par s ls2).map (·.map link) := by
      intro ls1
      simp only [map_get]
      cases ls1[i]? with
      | none => rfl
      | some l1 =>
        simp only [Option.map_some, Option.bind_some]
        rw [modifyParent (f := fun pl => pl.abiAdd (0, l1.abiToParentB fx)) (fun pl => by rw [toParentB, ← abiAdd, z]) par ls1]
        cases Chain.modifyParent (fun pl => pl.abiAdd (0, l1.abiToParentB fx)) par ls1 with
        | none => rfl
        | some ls2 => exact ihs _ _
    simp only [Chain.abiAddExAt, map_get]
    cases ls[i]? with
    | none => rfl
    | some l =>
      simp only [Option.map_some, Option.bind_eq_bind, Option.bind_some]
      rw [show (link l).abi.path = l.abi.path from rfl, resetB, subNet, subNet, map_set, map_set, ihc]
      split_ifs
      · cases Chain.abiAddExAt fx (some i) c (ls.set i l.abiResetB.abiSubNet) with
        | none => rfl
        | some ls1 => exact rest ls1
      · exact rest _

section
variable [Zm K] [Fair K]

theorem backward (fx : Bool) (l : Link K) : (link l).abiBackward fx = link (l.abiBackward fx) := by
  have e : (link l).abi.b - (link l).abi.w = vec6 (l.abi.b - l.abi.w) := (wrench_sub _ _).symm
  have a := axisInertia fx l.joint.prp l.abi.i l.abi.axi l.abi.iaxi
  simp only [Link.abiBackward, e]
  rw [show (link l).joint.prp.abiAxisInertia fx (link l).abi.i (link l).abi.axi (link l).abi.iaxi = _ from a,
    show (link l).joint.prp = prp l.joint.prp from rfl, drivingTorque]
  simp only [link, abi_congr (driving_typeStr l.joint.prp)]
  rfl

theorem backwardAt (fx : Bool) (t : LTree ℕ) : ∀ (par : Option ℕ) (ls : List (Link K)),
    Chain.abiBackwardAt fx par t (ls.map link) = (Chain.abiBackwardAt fx par t ls).map (·.map link) := by
  induction t with
  | nil => intro par ls; rfl
  | node i c s ihc ihs =>
    intro par ls
    simp only [Chain.abiBackwardAt, ihs]
    cases Chain.abiBackwardAt fx par s ls with
    | none => rfl
    | some ls1 =>
      simp only [Option.map_some, Option.bind_eq_bind, Option.bind_some, ihc]
      cases Chain.abiBackwardAt fx (some i) c ls1 with
      | none => rfl
      | some ls2 =>
        simp only [Option.map_some, Option.bind_some, map_get]
        cases ls2[i]? with
        | none => rfl
        | some l =>
          simp only [Option.map_some, Option.bind_some]
          rw [backward, map_set]
          exact modifyParent (fun pl => by rw [toParentB, toParentI, ← abiAdd]) par _

theorem zeroRate (c : Chain K) : (chain c).abiZeroLinkRate = chain c.abiZeroLinkRate := by
  simp only [Chain.abiZeroLinkRate, chain, List.map_map]
  congr 1
  apply List.map_congr_left
  intro l _
  simp only [Function.comp, Body.zeroRate, link, body, vec6_zero]

theorem size_prp (p : Prp K) : (prp p).size = p.size := by cases p <;> rfl

theorem jointSize (ls : List (Link K)) : LinkArray.jointSize (ls.map link) = LinkArray.jointSize ls := by
  rw [jointSize_eq, jointSize_eq]
  simp only [sizes, List.map_map, Function.comp_def, Link.size]
  congr 1
  exact List.map_congr_left fun l _ => size_prp _

theorem updateABI (fx wr : Bool) (c : Chain K) : (chain c).abiUpdate fx wr = (c.abiUpdate fx wr).map chain := by
  simp only [Chain.abiUpdate, show (chain c).link = c.link.map link from rfl, jointSize]
  split_ifs
  · rw [zeroRate]; rfl
  · rw [show (chain c).shape = c.shape from rfl, initAt]
    cases Chain.abiInitAt c.shape c.link with
    | none => rfl
    | some ls1 =>
      simp only [Option.map_some, Option.bind_eq_bind, Option.bind_some, backwardAt]
      cases Chain.abiBackwardAt fx none c.shape ls1 with
      | none => rfl
      | some ls2 =>
        have h := forwardAt fx wr c.shape 0 ls2
        rw [vec6_zero] at h
        simp only [Option.map_some, Option.bind_some, h]
        cases Chain.abiForwardAt fx wr c.shape 0 ls2 <;> rfl

theorem addForces (fx wr : Bool) (c : Chain K) : (chain c).abiUpdateAddEx fx wr = (c.abiUpdateAddEx fx wr).map chain := by
  simp only [Chain.abiUpdateAddEx, show (chain c).link = c.link.map link from rfl, jointSize]
  split_ifs
  · rw [zeroRate]; rfl
  · have e : (c.link.map link).map (fun l => l.abiSetPath false) = (c.link.map fun l => l.abiSetPath false).map link := by
      simp only [List.map_map]; rfl
    simp only [show (chain c).shape = c.shape from rfl, Chain.abiBackwardAddEx, e, findPathAt]
    cases Chain.abiFindPathAt none c.shape (c.link.map fun l => l.abiSetPath false) with
    | none => rfl
    | some ls1 =>
      simp only [Option.map_some, Option.bind_eq_bind, Option.bind_some, addExAt]
      cases Chain.abiAddExAt fx none c.shape ls1 with
      | none => rfl
      | some ls2 =>
        have h := forwardAt fx wr c.shape 0 ls2
        rw [vec6_zero] at h
        simp only [Option.map_some, Option.bind_some, h]
        cases Chain.abiForwardAt fx wr c.shape 0 ls2 <;> rfl

end

end Spec.Mirror
end Roki
