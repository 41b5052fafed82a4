import Verif.Lemmas.ABITree
import Verif.Spec.ABI
import Mathlib.Tactic.IntervalCases
import Mathlib.Tactic.LinearCombination
import Mathlib.Algebra.BigOperators.Fin
set_option autoImplicit false

/-! # The articulated-body method solves the equations of motion -/

namespace Roki
open Spec
variable {K : Type*} [Field K]

/-! ## Spatial matrices -/

theorem Mat3.mul_neg' (a b : Mat3 K) : a.mul (-b) = -a.mul b := by vec_ring
theorem Mat3.neg_mul' (a b : Mat3 K) : (-a).mul b = -a.mul b := by vec_ring

namespace Mat6

theorem add_mulVec (m n : Mat6 K) (v : Vec6 K) : (m + n).mulVec v = m.mulVec v + n.mulVec v := by vec_ring
theorem mulVec_add (m : Mat6 K) (v w : Vec6 K) : m.mulVec (v + w) = m.mulVec v + m.mulVec w := by vec_ring
theorem zero_mulVec (v : Vec6 K) : (0 : Mat6 K).mulVec v = 0 := by vec_ring
theorem mulVec_zero (m : Mat6 K) : m.mulVec 0 = 0 := by vec_ring
theorem mulVec_smul (m : Mat6 K) (k : K) (v : Vec6 K) : m.mulVec (k • v) = k • m.mulVec v := by vec_ring
theorem dyad_mulVec (a b v : Vec6 K) : (dyad a b).mulVec v = b.dot6 v • a := by vec_ring

theorem Symm.zero : (0 : Mat6 K).Symm := by vec_ring
theorem Symm.add {m n : Mat6 K} (hm : m.Symm) (hn : n.Symm) : (m + n).Symm := by
  unfold Symm tr at *
  simp only [Mat6.ext_iff] at *
  obtain ⟨a, b, c, d⟩ := hm
  obtain ⟨a', b', c', d'⟩ := hn
  simp only [Mat6.add_ll, Mat6.add_la, Mat6.add_al, Mat6.add_aa, Mat3.tr_add, *]
  exact ⟨trivial, trivial, trivial, trivial⟩
theorem Symm.dyad (k : K) (a : Vec6 K) : (dyad (k • a) a).Symm := by vec_ring

theorem Symm.colZ {m : Mat6 K} (h : m.Symm) : m.colZ = m.rowZ := by
  unfold Symm tr at h
  simp only [Mat6.ext_iff] at h
  obtain ⟨a, b, c, d⟩ := h
  have e1 : m.ll.cz = m.ll.tr.cz := by rw [a]
  have e2 : m.al.cz = m.la.tr.cz := by rw [c]
  simp only [Mat6.colZ, e1, e2]; rfl

theorem Symm.colZA {m : Mat6 K} (h : m.Symm) : m.colZA = m.rowZA := by
  unfold Symm tr at h
  simp only [Mat6.ext_iff] at h
  obtain ⟨a, b, c, d⟩ := h
  have e1 : m.la.cz = m.al.tr.cz := by rw [b]
  have e2 : m.aa.cz = m.aa.tr.cz := by rw [d]
  simp only [Mat6.colZA, e1, e2]; rfl

/-- The transfer of a symmetric inertia is symmetric. -/
theorem Symm.xform {m : Mat6 K} (h : m.Symm) (f : Frame K) : (m.xform f).Symm := by
  have h' := h
  unfold Symm tr at h'
  simp only [Mat6.ext_iff] at h'
  obtain ⟨a, b, c, d⟩ := h'
  unfold Symm tr
  simp only [Mat6.ext_iff, Mat6.xform, Mat3.tr_tr, Mat3.tr_add, Mat3.tr_rot, a, b, c, d, Mat3.tr_mul,
    Mat3.tr_skew, Mat3.mul_add', Mat3.add_mul', Mat3.tr_neg, neg_neg, Mat3.mul_neg', Mat3.neg_mul',
    Mat3.mul_assoc']
  refine ⟨trivial, trivial, trivial, by abel⟩

/-- The transfer of a symmetric inertia is the congruence by the transformation of motions. -/
theorem Symm.xform_mulVec {m : Mat6 K} (h : m.Symm) (f : Frame K) (v : Vec6 K) :
    (m.xform f).mulVec v = f.xform6Ang (m.mulVec (f.xform6Lin v)) := by
  have h' := h
  unfold Symm tr at h'
  simp only [Mat6.ext_iff] at h'
  obtain ⟨a, b, c, d⟩ := h'
  simp only [Mat6.mulVec, Mat6.xform, Frame.xform6Ang, Frame.xform6Lin, Vec6.angShift, Vec6.linShift,
    Mat3.mulVec6, Mat3.mulVecT6, Mat3.tr_add, Mat3.tr_mul, Mat3.tr_rot, Mat3.tr_skew, a, c, b,
    Mat3.add_mulVec, Mat3.mul_mulVec, Mat3.rot_mulVec, Mat3.skew_mulVec, Mat3.neg_mulVec, Mat3.tr_tr,
    Mat3.mulVec_add, Mat3.mulVecT_add, Mat3.mulVec_neg, Vec6.ext_iff, Mat3.mulVecT_neg, cross_anticomm v.ang f.pos, cross_add_right,
    cross_neg_right]
  refine ⟨by abel, by abel⟩
end Mat6

/-! ## The floating joint -/

theorem Vec6.ext_get {v w : Vec6 K} (h : ∀ r < 6, v.get r = w.get r) : v = w := by
  have h0 := h 0 (by norm_num)
  have h1 := h 1 (by norm_num)
  have h2 := h 2 (by norm_num)
  have h3 := h 3 (by norm_num)
  have h4 := h 4 (by norm_num)
  have h5 := h 5 (by norm_num)
  simp [Vec6.get, Vec3.get] at h0 h1 h2 h3 h4 h5
  simp only [Vec6.ext_iff, Vec3.ext_iff]
  exact ⟨⟨h0, h1, h2⟩, h3, h4, h5⟩

theorem Mat6.mulVec_get (m : Mat6 K) (v : Vec6 K) {r : ℕ} (hr : r < 6) :
    (m.mulVec v).get r = ∑ j ∈ Finset.range 6, m.elem r j * v.get j := by
  interval_cases r <;>
    simp [Finset.sum_range_succ, Vec6.get, Vec3.get, Mat6.elem, Mat3.elem, Mat6.mulVec, Mat3.mulVec] <;>
    ring

theorem Prp.floatAcc_get (ih : ℕ → ℕ → K) (b : Vec6 K) {r : ℕ} (hr : r < 6) :
    (Prp.floatAcc ih b).get r = ∑ j ∈ Finset.range 6, ih r j * -b.get j := by
  interval_cases r <;>
    simp [Finset.sum_range_succ, Vec6.get, Vec3.get, Prp.floatAcc, Vec6.ofFn, Vec6.dot6, dot] <;>
    ring

/-- The acceleration of a floating link makes the wrench of its joint vanish. -/
theorem Prp.floatAcc_balance (m : Mat6 K) (ih : ℕ → ℕ → K) (b : Vec6 K)
    (h : ∀ i < 6, ∀ k < 6, ∑ j ∈ Finset.range 6, m.elem i j * ih j k = if i = k then 1 else 0) :
    m.mulVec (Prp.floatAcc ih b) + b = 0 := by
  have e : m.mulVec (Prp.floatAcc ih b) = -b := by
    apply Vec6.ext_get
    intro r hr
    rw [Mat6.mulVec_get _ _ hr]
    have e1 : ∀ j ∈ Finset.range 6, m.elem r j * (Prp.floatAcc ih b).get j =
        ∑ k ∈ Finset.range 6, m.elem r j * ih j k * -b.get k := by
      intro j hj
      rw [Prp.floatAcc_get _ _ (Finset.mem_range.1 hj), Finset.mul_sum]
      exact Finset.sum_congr rfl fun k _ => by ring
    rw [Finset.sum_congr rfl e1, Finset.sum_comm]
    have e2 : ∀ k ∈ Finset.range 6, ∑ j ∈ Finset.range 6, m.elem r j * ih j k * -b.get k =
        if k = r then -b.get r else 0 := by
      intro k hk
      rw [← Finset.sum_mul, h r hr k (Finset.mem_range.1 hk)]
      by_cases hkr : k = r
      · subst hkr; simp
      · rw [if_neg (fun e => hkr e.symm), if_neg hkr, zero_mul]
    rw [Finset.sum_congr rfl e2, Finset.sum_ite_eq' (Finset.range 6) r, if_pos (Finset.mem_range.2 hr)]
    simp only [Vec6.get]
    split_ifs
    · interval_cases r <;> simp [Vec3.get]
    · interval_cases r <;> simp_all [Vec3.get]
  rw [e, neg_add_cancel]

/-! ## One link -/

section
variable [LinearOrder K] [IsStrictOrderedRing K] [Zm K] [LawfulZm K]

/-- The axis inertia and its inverse are those of the articulated inertia. -/
def Link.AxisOK (fx : Bool) (l : Link K) : Prop :=
  ∃ h ih, (l.abi.axi, l.abi.iaxi) = l.joint.prp.abiAxisInertia fx l.abi.i h ih

theorem Link.float_balance {fx : Bool} {l : Link K} (hx : l.AxisOK fx) (hr : AxisRegular l)
    (hp : (∃ p, l.joint.prp = .float p) ∨ (∃ p, l.joint.prp = .brfloat p) ∧ fx = false) (pa : Vec6 K) :
    l.abi.i.mulVec (l.abiForward fx pa).body.acc + l.abi.b = 0 := by
  obtain ⟨h, ih, e⟩ := hx
  have key : (∃ g : ℕ → ℕ → K, ∀ i < 6, ∀ k < 6,
      ∑ j ∈ Finset.range 6, l.abi.i.elem i j * g j k = if i = k then 1 else 0) ∧
      l.abi.iaxi = Zm.matInv 6 l.abi.i.elem ∧
      (l.abiForward fx pa).body.acc = Prp.floatAcc l.abi.iaxi l.abi.b := by
    rcases hp with ⟨p, hp⟩ | ⟨⟨p, hp⟩, rfl⟩
    · simp only [AxisRegular, hp] at hr
      simp only [hp, Prp.abiAxisInertia, Prod.mk.injEq] at e
      simp only [Link.abiForward, hp, Prp.abiQAcc]
      rw [e.1] at hr
      exact ⟨hr, e.2, trivial⟩
    · simp only [AxisRegular, hp] at hr
      simp only [hp, Prp.abiAxisInertia, Prod.mk.injEq, Bool.false_eq_true, if_false] at e
      simp only [Link.abiForward, hp, Prp.abiQAcc, Bool.false_eq_true, if_false]
      rw [e.1] at hr
      exact ⟨hr, e.2, trivial⟩
  obtain ⟨⟨g, hg⟩, e2, e3⟩ := key
  rw [e3, e2]
  exact Prp.floatAcc_balance _ _ _ (LawfulZm.matInv_right 6 _ g hg)

/-- **What a link adds to its parent** is the wrench of its joint, whatever the acceleration of the
parent will be. -/
theorem Link.abi_single {fx : Bool} {l : Link K} (hs : l.abi.i.Symm) (hx : l.AxisOK fx)
    (hr : AxisRegular l) (hg : l.joint.prp.ABIGood) (pa : Vec6 K) :
    (l.abiToParentI fx).mulVec pa + l.abiToParentB fx =
      l.adj.xform6Ang (l.abi.i.mulVec (l.abiForward fx pa).body.acc + l.abi.b) := by
  have rigid : (l.abi.i.xform l.adj).mulVec pa + l.adj.xform6Ang (l.abi.i.mulVec l.abi.c + l.abi.b) =
      l.adj.xform6Ang (l.abi.i.mulVec (l.adj.xform6Lin pa + l.abi.c) + l.abi.b) := by
    rw [hs.xform_mulVec, ← Frame.xform6Ang_add, Mat6.mulVec_add, add_assoc]
  cases hp : l.joint.prp with
  | fixed =>
    simp only [Link.abiToParentI, Link.abiToParentB, Link.abiForward, hp, Prp.abiABI, Prp.abiBias, Prp.abiQAcc]
    exact rigid
  | revol p =>
    simp only [Link.abiToParentI, Link.abiToParentB, Link.abiForward, hp, Prp.abiABI, Prp.abiBias, Prp.abiQAcc]
    have hsym : (Mat6.dyad ((-l.abi.iaxi 0 0) • l.abi.i.colZA) l.abi.i.rowZA + l.abi.i).Symm := by
      rw [hs.colZA]; exact Mat6.Symm.add (Mat6.Symm.dyad _ _) hs
    rw [hsym.xform_mulVec, ← Frame.xform6Ang_add]
    congr 1
    rw [Mat6.add_mulVec, Mat6.dyad_mulVec]
    have e1 : (⟨(l.adj.att.mulVecT6 (pa.linShift l.adj.pos) + l.abi.c).lin,
        ⟨(l.adj.att.mulVecT6 (pa.linShift l.adj.pos) + l.abi.c).ang.x,
         (l.adj.att.mulVecT6 (pa.linShift l.adj.pos) + l.abi.c).ang.y,
         (l.adj.att.mulVecT6 (pa.linShift l.adj.pos) + l.abi.c).ang.z +
          l.abi.iaxi 0 0 * (p.u - l.abi.i.rowZA.dot6 (l.adj.att.mulVecT6 (pa.linShift l.adj.pos) + l.abi.c)
            - l.abi.b.ang.z)⟩⟩ : Vec6 K) =
        (l.adj.xform6Lin pa + l.abi.c) +
        (l.abi.iaxi 0 0 * (p.u - l.abi.i.rowZA.dot6 (l.adj.xform6Lin pa + l.abi.c) - l.abi.b.ang.z)) •
          (⟨0, ⟨0, 0, 1⟩⟩ : Vec6 K) := by
      change _ = (l.adj.att.mulVecT6 (pa.linShift l.adj.pos) + l.abi.c) +
        (l.abi.iaxi 0 0 * (p.u - l.abi.i.rowZA.dot6 (l.adj.att.mulVecT6 (pa.linShift l.adj.pos) + l.abi.c)
            - l.abi.b.ang.z)) • (⟨0, ⟨0, 0, 1⟩⟩ : Vec6 K)
      generalize l.adj.att.mulVecT6 (pa.linShift l.adj.pos) + l.abi.c = j
      generalize l.abi.iaxi 0 0 * (p.u - l.abi.i.rowZA.dot6 j - l.abi.b.ang.z) = q
      vec_ring
    rw [e1]
    have e2 : l.abi.i.mulVec (⟨0, ⟨0, 0, 1⟩⟩ : Vec6 K) = l.abi.i.colZA := by vec_ring
    have e3 : (l.abi.i.mulVec l.abi.c + l.abi.b).ang.z = l.abi.i.rowZA.dot6 l.abi.c + l.abi.b.ang.z := by
      vec_ring
    rw [Mat6.mulVec_add, Mat6.mulVec_smul, e2, e3, Mat6.mulVec_add, Vec6.dot6_add_right]
    generalize l.abi.i.mulVec (l.adj.xform6Lin pa) = A
    generalize l.abi.i.mulVec l.abi.c = B
    module
  | float p =>
    rw [Link.float_balance hx hr (Or.inl ⟨p, hp⟩)]
    simp [Link.abiToParentI, Link.abiToParentB, hp, Prp.abiABI, Prp.abiBias, Mat6.zero_mulVec]
  | brfloat p =>
    cases fx with
    | true =>
      simp only [Link.abiToParentI, Link.abiToParentB, Link.abiForward, hp, Prp.abiABI, Prp.abiBias,
        Prp.abiQAcc, if_true]
      exact rigid
    | false =>
      rw [Link.float_balance hx hr (Or.inr ⟨⟨p, hp⟩, rfl⟩)]
      simp [Link.abiToParentI, Link.abiToParentB, hp, Prp.abiABI, Prp.abiBias, Mat6.zero_mulVec]
  | prism p => rw [hp] at hg; exact absurd hg (by simp [Prp.ABIGood])
  | cylin p => rw [hp] at hg; exact absurd hg (by simp [Prp.ABIGood])
  | hooke p => rw [hp] at hg; exact absurd hg (by simp [Prp.ABIGood])
  | spher p => rw [hp] at hg; exact absurd hg (by simp [Prp.ABIGood])

/-- The generalised force that the joint of a link applies beyond the wrench `w`: zero for all
components. -/
def Prp.JointEq (p : Prp K) (w : Vec6 K) : Prop :=
  match p with
  | .revol p => w.ang.z = p.motor.drivingTrq p.vel p.acc + p.tf
  | .prism p => w.lin.z = p.motor.drivingTrq p.vel p.acc + p.tf
  | _ => True

theorem drivingTrq_eq (m : Motor K) (v a : K) :
    m.drivingTrq v a = m.inputTrq - m.resistance v - m.inertia * a := by
  cases m <;> simp [Motor.drivingTrq, Motor.inputTrq, Motor.resistance, Motor.inertia]

/-- **Equation of motion of a joint.** -/
theorem Link.abi_joint {fx : Bool} {l0 : Link K} (pa : Vec6 K)
    (hr : AxisRegular (l0.abiBackward fx)) :
    ((l0.abiBackward fx).abiForward fx pa).joint.prp.JointEq
      ((l0.abiBackward fx).abi.i.mulVec ((l0.abiBackward fx).abiForward fx pa).body.acc + (l0.abiBackward fx).abi.b) := by
  have inv : ∀ h : K, Zm.tiny h = false → h * (1 / h) = 1 := by
    intro h ht
    have : h ≠ 0 := by rintro rfl; rw [LawfulZm.tiny_zero] at ht; simp at ht
    field_simp
  cases hp : l0.joint.prp with
  | revol p =>
    simp only [Link.abiBackward, hp, Prp.abiDrivingTorque, Prp.abiAxisInertia, AxisRegular] at hr
    have hi := inv _ hr
    simp only [Link.abiForward, Link.abiBackward, hp, Prp.abiDrivingTorque, Prp.abiQAcc, Prp.abiAxisInertia,
      Prp.JointEq, drivingTrq_eq, Prp.invAxis, hr, Bool.false_eq_true, if_false]
    generalize l0.adj.att.mulVecT6 (pa.linShift l0.adj.pos) + l0.abi.c = j
    have e3 : ∀ (q : K) (b : Vec6 K), (l0.abi.i.mulVec ⟨j.lin, ⟨j.ang.x, j.ang.y, j.ang.z + q⟩⟩ + b).ang.z =
        l0.abi.i.rowZA.dot6 j + q * l0.abi.i.aa.elem 2 2 + b.ang.z := by
      intro q b; simp only [Mat3.elem, Vec3.get]; vec_ring
    rw [e3]
    set h := p.motor.inertia + l0.abi.i.aa.elem 2 2 with hh
    have : l0.abi.i.aa.elem 2 2 = h - p.motor.inertia := by rw [hh]; ring
    rw [this]
    linear_combination (p.motor.inputTrq - p.motor.resistance p.vel + p.tf - l0.abi.i.rowZA.dot6 j
      - (l0.abi.b - l0.abi.w).ang.z) * hi
  | prism p =>
    simp only [Link.abiBackward, hp, Prp.abiDrivingTorque, Prp.abiAxisInertia, AxisRegular] at hr
    have hi := inv _ hr
    simp only [Link.abiForward, Link.abiBackward, hp, Prp.abiDrivingTorque, Prp.abiQAcc, Prp.abiAxisInertia,
      Prp.JointEq, drivingTrq_eq, Prp.invAxis, hr, Bool.false_eq_true, if_false]
    generalize l0.adj.att.mulVecT6 (pa.linShift l0.adj.pos) + l0.abi.c = j
    have e3 : ∀ (q : K) (b : Vec6 K), (l0.abi.i.mulVec ⟨⟨j.lin.x, j.lin.y, j.lin.z + q⟩, j.ang⟩ + b).lin.z =
        l0.abi.i.rowZ.dot6 j + q * l0.abi.i.ll.elem 2 2 + b.lin.z := by
      intro q b; simp only [Mat3.elem, Vec3.get]; vec_ring
    rw [e3]
    set h := p.motor.inertia + l0.abi.i.ll.elem 2 2 with hh
    have : l0.abi.i.ll.elem 2 2 = h - p.motor.inertia := by rw [hh]; ring
    rw [this]
    linear_combination (p.motor.inputTrq - p.motor.resistance p.vel + p.tf - l0.abi.i.rowZ.dot6 j
      - (l0.abi.b - l0.abi.w).lin.z) * hi
  | brfloat p =>
    cases fx <;> simp [Link.abiForward, Link.abiBackward, hp, Prp.abiDrivingTorque, Prp.abiQAcc, Prp.JointEq]
  | _ => simp [Link.abiForward, Link.abiBackward, hp, Prp.abiDrivingTorque, Prp.abiQAcc, Prp.JointEq]
end

/-! ## The tree -/

namespace LTree
section
variable [LinearOrder K] [IsStrictOrderedRing K] [Zm K] [LawfulZm K]

theorem abiToParentI_symm {fx : Bool} {l : Link K} (hs : l.abi.i.Symm) (hg : l.joint.prp.ABIGood) :
    (l.abiToParentI fx).Symm := by
  cases hp : l.joint.prp with
  | fixed => simp only [Link.abiToParentI, hp, Prp.abiABI]; exact hs.xform _
  | revol p =>
    simp only [Link.abiToParentI, hp, Prp.abiABI]
    refine Mat6.Symm.xform ?_ _
    rw [hs.colZA]; exact Mat6.Symm.add (Mat6.Symm.dyad _ _) hs
  | float p => simp only [Link.abiToParentI, hp, Prp.abiABI]; exact Mat6.Symm.zero
  | brfloat p =>
    simp only [Link.abiToParentI, hp, Prp.abiABI]
    split_ifs
    · exact hs.xform _
    · exact Mat6.Symm.zero
  | prism p => rw [hp] at hg; exact absurd hg (by simp [Prp.ABIGood])
  | cylin p => rw [hp] at hg; exact absurd hg (by simp [Prp.ABIGood])
  | hooke p => rw [hp] at hg; exact absurd hg (by simp [Prp.ABIGood])
  | spher p => rw [hp] at hg; exact absurd hg (by simp [Prp.ABIGood])

theorem abiGood_drive {p : Prp K} : p.abiDrivingTorque.ABIGood ↔ p.ABIGood := by
  cases p <;> simp [Prp.abiDrivingTorque, Prp.ABIGood]

/-- What the subtrees of a level add to the parent is symmetric. -/
theorem abiBack_symm (fx : Bool) (T : LTree (Link K)) (hs : ∀ l ∈ T.toList, l.abi.i.Symm)
    (hg : ∀ l ∈ T.toList, l.joint.prp.ABIGood) : (T.abiBack fx).2.1.Symm := by
  induction T with
  | nil => exact Mat6.Symm.zero
  | node l c s ihc ihs =>
    simp only [abiBack]
    refine Mat6.Symm.add (ihs (fun m hm => hs m (by simp [toList, hm])) (fun m hm => hg m (by simp [toList, hm]))) ?_
    refine abiToParentI_symm ?_ ?_
    · exact Mat6.Symm.add (hs l (by simp [toList])) (ihc (fun m hm => hs m (by simp [toList, hm]))
        (fun m hm => hg m (by simp [toList, hm])))
    · exact abiGood_drive.2 (hg l (by simp [toList]))

theorem abiFwd_node (fx wr : Bool) (pa : Vec6 K) (l : Link K) (c s : LTree (Link K)) :
    (node l c s).abiFwd fx wr pa =
      node (abiStep fx wr pa l) (c.abiFwd fx wr (abiStep fx wr pa l).body.acc) (s.abiFwd fx wr pa) := rfl

theorem axisOK_back (fx : Bool) (l : Link K) : (l.abiBackward fx).AxisOK fx := by
  refine ⟨l.abi.axi, l.abi.iaxi, ?_⟩
  cases hp : l.joint.prp <;>
    simp [Link.abiBackward, hp, Prp.abiDrivingTorque, Prp.abiAxisInertia]

/-- **What the subtrees of a level add to the parent** is the sum of the wrenches of their joints. -/
theorem abiBack_fwd (fx : Bool) (T : LTree (Link K)) (hs : ∀ l ∈ T.toList, l.abi.i.Symm)
    (hg : ∀ l ∈ T.toList, l.joint.prp.ABIGood) (hr : ∀ l ∈ (T.abiBack fx).1.toList, AxisRegular l)
    (pa : Vec6 K) :
    (T.abiBack fx).2.1.mulVec pa + (T.abiBack fx).2.2 =
      ((T.abiBack fx).1.abiFwd fx true pa).addChildWrench 0 := by
  induction T generalizing pa with
  | nil => simp [abiBack, abiFwd, down, addChildWrench, Mat6.zero_mulVec]
  | node l c s ihc ihs =>
    have hsc := abiBack_symm fx c (fun m hm => hs m (by simp [toList, hm])) (fun m hm => hg m (by simp [toList, hm]))
    have e := Link.abi_single (fx := fx) (l := (l.abiAdd (c.abiBack fx).2).abiBackward fx)
      (Mat6.Symm.add (hs l (by simp [toList])) hsc) (axisOK_back _ _)
      (hr _ (by simp [abiBack, toList])) (abiGood_drive.2 (hg l (by simp [toList]))) pa
    have e2 := ihs (fun m hm => hs m (by simp [toList, hm])) (fun m hm => hg m (by simp [toList, hm]))
      (fun m hm => hr m (by simp [abiBack, toList, hm])) pa
    simp only [abiBack, abiFwd_node, addChildWrench]
    rw [addChildWrench_eq, ← e2]
    simp only [Prod.fst_add, Prod.snd_add, Mat6.add_mulVec, zero_add]
    have e3 : (abiStep fx true pa ((l.abiAdd (c.abiBack fx).2).abiBackward fx)).adj.xform6Ang
        (abiStep fx true pa ((l.abiAdd (c.abiBack fx).2).abiBackward fx)).joint.wrench =
        ((l.abiAdd (c.abiBack fx).2).abiBackward fx).adj.xform6Ang
        (((l.abiAdd (c.abiBack fx).2).abiBackward fx).abi.i.mulVec
          (((l.abiAdd (c.abiBack fx).2).abiBackward fx).abiForward fx pa).body.acc +
          ((l.abiAdd (c.abiBack fx).2).abiBackward fx).abi.b) := rfl
    rw [e3, ← e]
    abel

/-- The acceleration of a link is that of its parent, transferred, plus the velocity terms, plus the
acceleration of the joint. -/
def AccEq (fx : Bool) (pa : Vec6 K) (l : Link K) : Prop :=
  match l.joint.prp with
  | .brfloat _ => if fx then l.body.acc = l.adj.xform6Lin pa + l.abi.c
      else l.body.acc = l.joint.prp.incAcc (l.adj.xform6Lin pa + l.abi.c)
  | _ => l.body.acc = l.joint.prp.incAcc (l.adj.xform6Lin pa + l.abi.c)

/-- The joint transmits no wrench when it is floating. -/
def FloatEq (fx : Bool) (l : Link K) : Prop :=
  match l.joint.prp with
  | .float _ => l.joint.wrench = 0
  | .brfloat _ => fx = false → l.joint.wrench = 0
  | _ => True

/-- The equations that one link satisfies; `c` are its children. -/
structure NodeEq (fx : Bool) (pa : Vec6 K) (l : Link K) (c : LTree (Link K)) : Prop where
  balance : l.joint.wrench = l.abi.m.mulVec l.body.acc + l.abi.f - l.abi.w + c.addChildWrench 0
  joint : l.joint.prp.JointEq l.joint.wrench
  float : FloatEq fx l
  acc : AccEq fx pa l

/-- Every link satisfies the equations. -/
def Dyn (fx : Bool) (pa : Vec6 K) : LTree (Link K) → Prop
  | nil => True
  | node l c s => NodeEq fx pa l c ∧ Dyn fx l.body.acc c ∧ Dyn fx pa s

theorem nodeEq (fx : Bool) (l : Link K) (c : LTree (Link K)) (hi : l.abi.i = l.abi.m) (hb : l.abi.b = l.abi.f)
    (hs : l.abi.i.Symm) (hg : l.joint.prp.ABIRootGood) (hwf : l.joint.prp.WF)
    (hr : AxisRegular ((l.abiAdd (c.abiBack fx).2).abiBackward fx))
    (hsc : ∀ l ∈ c.toList, l.abi.i.Symm)
    (hgc : ∀ l ∈ c.toList, l.joint.prp.ABIGood) (hrc : ∀ l ∈ (c.abiBack fx).1.toList, AxisRegular l)
    (pa : Vec6 K) :
    NodeEq fx pa (abiStep fx true pa ((l.abiAdd (c.abiBack fx).2).abiBackward fx))
      ((c.abiBack fx).1.abiFwd fx true (abiStep fx true pa ((l.abiAdd (c.abiBack fx).2).abiBackward fx)).body.acc) := by
  refine ⟨?_, Link.abi_joint pa hr, ?_, ?_⟩
  · rw [← abiBack_fwd fx c hsc hgc hrc]
    have : ∀ a : Vec6 K, (l.abi.i + (c.abiBack fx).2.1).mulVec a + (l.abi.b + (c.abiBack fx).2.2 - l.abi.w) =
        l.abi.m.mulVec a + l.abi.f - l.abi.w + ((c.abiBack fx).2.1.mulVec a + (c.abiBack fx).2.2) := by
      intro a; rw [Mat6.add_mulVec, hi, hb]; abel
    exact this _
  · cases hp : l.joint.prp with
    | float p =>
      have := Link.float_balance (axisOK_back fx (l.abiAdd (c.abiBack fx).2)) hr
        (Or.inl ⟨p, by simp [Link.abiBackward, Link.abiAdd, hp, Prp.abiDrivingTorque]⟩) pa
      simp only [FloatEq, abiStep, if_true, Link.abiWrench, Link.abiForward, Link.abiBackward, Link.abiAdd,
        hp, Prp.abiDrivingTorque, Prp.abiQAcc] at this ⊢
      exact this
    | brfloat p =>
      cases fx with
      | false =>
        have := Link.float_balance (axisOK_back false (l.abiAdd (c.abiBack false).2)) hr
          (Or.inr ⟨⟨p, by simp [Link.abiBackward, Link.abiAdd, hp, Prp.abiDrivingTorque]⟩, rfl⟩) pa
        simp only [FloatEq, abiStep, if_true, Link.abiWrench, Link.abiForward, Link.abiBackward, Link.abiAdd,
          hp, Prp.abiDrivingTorque, Prp.abiQAcc, Bool.false_eq_true, if_false] at this ⊢
        exact fun _ => this
      | true =>
        simp [FloatEq, abiStep, Link.abiWrench, Link.abiForward, Link.abiBackward, Link.abiAdd,
          hp, Prp.abiDrivingTorque, Prp.abiQAcc]
    | _ => simp [FloatEq, abiStep, Link.abiWrench, Link.abiForward, Link.abiBackward, Link.abiAdd,
          hp, Prp.abiDrivingTorque, Prp.abiQAcc]
  · have rot : ∀ (R : Mat3 K) (a j : Vec6 K), R.IsRot → a = j + R.mulVecT6 (R.mulVec6 (a - j)) := by
      intro R a j hR
      simp only [Vec6.ext_iff, Vec6.add_lin, Vec6.add_ang, Mat3.mulVecT6, Mat3.mulVec6, hR.mulVecT_mulVec]
      refine ⟨?_, ?_⟩ <;> simp
    cases hp : l.joint.prp with
    | fixed => simp [AccEq, abiStep, Link.abiWrench, Link.abiForward, Link.abiBackward, Link.abiAdd,
          hp, Prp.abiDrivingTorque, Prp.abiQAcc, Prp.incAcc, Frame.xform6Lin]
    | revol p => simp [AccEq, abiStep, Link.abiWrench, Link.abiForward, Link.abiBackward, Link.abiAdd,
          hp, Prp.abiDrivingTorque, Prp.abiQAcc, Prp.incAcc, Frame.xform6Lin]
    | prism p => simp [AccEq, abiStep, Link.abiWrench, Link.abiForward, Link.abiBackward, Link.abiAdd,
          hp, Prp.abiDrivingTorque, Prp.abiQAcc, Prp.incAcc, Frame.xform6Lin]
    | cylin p => rw [hp] at hg; exact absurd hg (by simp [Prp.ABIGood, Prp.ABIRootGood])
    | hooke p => rw [hp] at hg; exact absurd hg (by simp [Prp.ABIGood, Prp.ABIRootGood])
    | spher p => rw [hp] at hg; exact absurd hg (by simp [Prp.ABIGood, Prp.ABIRootGood])
    | float p =>
      rw [hp] at hwf
      simp only [AccEq, abiStep, if_true, Link.abiWrench, Link.abiForward, Link.abiBackward, Link.abiAdd,
          hp, Prp.abiDrivingTorque, Prp.abiQAcc, Prp.incAcc, Frame.xform6Lin]
      exact rot _ _ _ hwf
    | brfloat p =>
      rw [hp] at hwf
      cases fx with
      | true => simp [AccEq, abiStep, Link.abiWrench, Link.abiForward, Link.abiBackward, Link.abiAdd,
          hp, Prp.abiDrivingTorque, Prp.abiQAcc, Frame.xform6Lin]
      | false =>
        simp only [AccEq, abiStep, if_true, Link.abiWrench, Link.abiForward, Link.abiBackward, Link.abiAdd,
          hp, Prp.abiDrivingTorque, Prp.abiQAcc, Prp.incAcc, Frame.xform6Lin, Bool.false_eq_true, if_false]
        exact rot _ _ _ hwf

/-- **The forward pass solves the equations of motion.** -/
theorem dyn (fx : Bool) (T : LTree (Link K)) (hi : ∀ l ∈ T.toList, l.abi.i = l.abi.m ∧ l.abi.b = l.abi.f)
    (hs : ∀ l ∈ T.toList, l.abi.i.Symm) (hg : ∀ l ∈ T.toList, l.joint.prp.ABIGood)
    (hwf : ∀ l ∈ T.toList, l.joint.prp.WF) (hr : ∀ l ∈ (T.abiBack fx).1.toList, AxisRegular l) (pa : Vec6 K) :
    Dyn fx pa ((T.abiBack fx).1.abiFwd fx true pa) := by
  induction T generalizing pa with
  | nil => trivial
  | node l c s ihc ihs =>
    simp only [toList, List.mem_cons, List.mem_append, abiBack] at hi hs hg hwf hr
    refine ⟨nodeEq fx l c (hi l (.inl rfl)).1 (hi l (.inl rfl)).2 (hs l (.inl rfl)) ?_ (hwf l (.inl rfl))
      (hr _ (.inl rfl)) (fun m hm => hs m (.inr (.inl hm))) (fun m hm => hg m (.inr (.inl hm)))
      (fun m hm => hr m (.inr (.inl hm))) pa, ?_, ?_⟩
    · have := hg l (.inl rfl)
      cases hp : l.joint.prp <;> simp_all [Prp.ABIRootGood, Prp.ABIGood]
    · exact ihc (fun m hm => hi m (.inr (.inl hm))) (fun m hm => hs m (.inr (.inl hm)))
        (fun m hm => hg m (.inr (.inl hm))) (fun m hm => hwf m (.inr (.inl hm)))
        (fun m hm => hr m (.inr (.inl hm))) _
    · exact ihs (fun m hm => hi m (.inr (.inr hm))) (fun m hm => hs m (.inr (.inr hm)))
        (fun m hm => hg m (.inr (.inr hm))) (fun m hm => hwf m (.inr (.inr hm)))
        (fun m hm => hr m (.inr (.inr hm))) _

/-- The same for a whole chain, whose root may be prismatic. -/
theorem dyn_root (fx : Bool) (l : Link K) (c : LTree (Link K))
    (hi : ∀ m ∈ (node l c nil).toList, m.abi.i = m.abi.m ∧ m.abi.b = m.abi.f)
    (hs : ∀ m ∈ (node l c nil).toList, m.abi.i.Symm) (hg : l.joint.prp.ABIRootGood)
    (hgc : ∀ m ∈ c.toList, m.joint.prp.ABIGood)
    (hwf : ∀ m ∈ (node l c nil).toList, m.joint.prp.WF)
    (hr : ∀ m ∈ ((node l c nil).abiBack fx).1.toList, AxisRegular m) (pa : Vec6 K) :
    Dyn fx pa (((node l c nil).abiBack fx).1.abiFwd fx true pa) := by
  simp only [toList, List.mem_cons, List.mem_append, abiBack] at hi hs hwf hr
  refine ⟨nodeEq fx l c (hi l (.inl rfl)).1 (hi l (.inl rfl)).2 (hs l (.inl rfl)) hg (hwf l (.inl rfl))
      (hr _ (.inl rfl)) (fun m hm => hs m (.inr (.inl hm))) hgc
      (fun m hm => hr m (.inr (.inl hm))) pa, ?_, trivial⟩
  exact dyn fx c (fun m hm => hi m (.inr (.inl hm))) (fun m hm => hs m (.inr (.inl hm)))
        hgc (fun m hm => hwf m (.inr (.inl hm)))
        (fun m hm => hr m (.inr (.inl hm))) _

end
end LTree

theorem Link.abiInertia_symm {mp : MP K} (h : mp.inertia.Symm) : (Link.abiInertia mp).Symm := by
  have h' : mp.inertia.tr = mp.inertia := h
  unfold Mat6.Symm Mat6.tr
  simp only [Link.abiInertia, Mat6.ext_iff, Mat3.tr_sub, Mat3.tr_neg, Mat3.tr_skew, Mat3.tr_mul, h', neg_neg]
  refine ⟨by vec_ring, trivial, trivial, ?_⟩
  congr 1
  vec_ring
