import Verif.Lemmas.ABIDyn
import Verif.Spec.ABIPos
import Mathlib.LinearAlgebra.Matrix.NonsingularInverse
set_option autoImplicit false

/-! # The articulated inertia is never less than the inertia of the link -/

namespace Roki
open Spec
variable {K : Type*} [Field K] [LinearOrder K] [IsStrictOrderedRing K]

namespace Mat6

/-- Positive semidefinite. -/
def Psd (m : Mat6 K) : Prop := ∀ v : Vec6 K, 0 ≤ v.dot6 (m.mulVec v)

theorem Psd.zero : (0 : Mat6 K).Psd := fun v => by rw [zero_mulVec]; simp [Vec6.dot6, dot]
theorem Psd.add {m n : Mat6 K} (hm : m.Psd) (hn : n.Psd) : (m + n).Psd := fun v => by
  rw [add_mulVec, Vec6.dot6_add_right]; exact add_nonneg (hm v) (hn v)
theorem Psd.xform {m : Mat6 K} (hs : m.Symm) (hm : m.Psd) (f : Frame K) : (m.xform f).Psd := fun v => by
  rw [hs.xform_mulVec, ← Frame.dot6_xform6Lin]; exact hm _

/-- The unit rotation about z. -/
def ez : Vec6 K := ⟨0, ⟨0, 0, 1⟩⟩

theorem ez_mulVec (m : Mat6 K) : m.mulVec ez = m.colZA := by simp only [ez]; vec_ring
theorem rowZA_dot (m : Mat6 K) (v : Vec6 K) : m.rowZA.dot6 v = ez.dot6 (m.mulVec v) := by simp only [ez]; vec_ring
theorem ez_self (m : Mat6 K) : ez.dot6 (m.mulVec ez) = m.aa.elem 2 2 := by
  simp only [ez, Mat3.elem, Vec3.get]; vec_ring

theorem Psd.aa22 {m : Mat6 K} (h : m.Psd) : 0 ≤ m.aa.elem 2 2 := by rw [← ez_self]; exact h _

/-- The unit translation along z. -/
def tz : Vec6 K := ⟨⟨0, 0, 1⟩, 0⟩
theorem tz_self (m : Mat6 K) : tz.dot6 (m.mulVec tz) = m.ll.elem 2 2 := by
  simp only [tz, Mat3.elem, Vec3.get]; vec_ring
theorem Psd.ll22 {m : Mat6 K} (h : m.Psd) : 0 ≤ m.ll.elem 2 2 := by rw [← tz_self]; exact h _

/-- Letting the link turn about its axis, against an additional inertia that is not negative, leaves an inertia that is not
negative. -/
theorem Psd.reduce {m : Mat6 K} (hs : m.Symm) (hm : m.Psd) {a : K} (ha : m.aa.elem 2 2 ≤ a) (h0 : 0 < a) :
    (dyad ((-(1 / a)) • m.colZA) m.rowZA + m).Psd := by
  intro v
  set b := m.rowZA.dot6 v with hb
  have h1 := hm (v + (-(b / a)) • ez)
  have hcol : v.dot6 m.colZA = b := by rw [hs.colZA, Vec6.dot6_comm]
  have e1 : (v + (-(b / a)) • ez).dot6 (m.mulVec (v + (-(b / a)) • ez)) =
      v.dot6 (m.mulVec v) - 2 * (b * b / a) + m.aa.elem 2 2 * (b / a * (b / a)) := by
    rw [mulVec_add, mulVec_smul, Vec6.dot6_add_right]
    have f1 : ∀ (k : K) (w : Vec6 K), (v + k • ez).dot6 w = v.dot6 w + k * ez.dot6 w := by
      intro k w; simp only [ez]; vec_ring
    have f2 : ∀ (k : K) (u w : Vec6 K), u.dot6 (k • w) = k * u.dot6 w := by
      intro k u w; vec_ring
    rw [f1, f1, f2, f2, ez_self, ← rowZA_dot, ez_mulVec, hcol, ← hb]
    ring
  have e2 : v.dot6 ((dyad ((-(1 / a)) • m.colZA) m.rowZA + m).mulVec v) = v.dot6 (m.mulVec v) - b * b / a := by
    rw [add_mulVec, dyad_mulVec, Vec6.dot6_add_right, ← hb]
    have f2 : ∀ (k : K) (u w : Vec6 K), u.dot6 (k • w) = k * u.dot6 w := by
      intro k u w; vec_ring
    rw [f2, f2, hcol]
    ring
  rw [e1] at h1
  rw [e2]
  have h3 : m.aa.elem 2 2 * (b / a * (b / a)) ≤ b * b / a := by
    have : b * b / a = a * (b / a * (b / a)) := by field_simp
    rw [this]
    exact mul_le_mul_of_nonneg_right ha (mul_self_nonneg _)
  linarith

end Mat6

/-- The inertia of a link as a quadratic form. -/
theorem Link.abiInertia_dot (mp : MP K) (v : Vec6 K) :
    v.dot6 ((Link.abiInertia mp).mulVec v) = mp.mass * dot (v.lin + cross v.ang mp.com) (v.lin + cross v.ang mp.com) +
      dot v.ang (mp.inertia.mulVec v.ang) := by
  simp only [Link.abiInertia]; vec_ring

theorem Link.abiInertia_psd {mp : MP K} (h : Physical mp) : (Link.abiInertia mp).Psd := fun v => by
  rw [Link.abiInertia_dot]
  refine add_nonneg (mul_nonneg h.mass ?_) (h.inertia _)
  generalize v.lin + cross v.ang mp.com = w
  simp only [dot]
  nlinarith [mul_self_nonneg w.x, mul_self_nonneg w.y, mul_self_nonneg w.z]

theorem Link.abiInertia_aa22 (mp : MP K) : (Link.abiInertia mp).aa.elem 2 2 = momentZ mp := by
  simp only [Link.abiInertia, momentZ, Mat3.elem, Vec3.get]; vec_ring
theorem Link.abiInertia_ll22 (mp : MP K) : (Link.abiInertia mp).ll.elem 2 2 = mp.mass := by
  simp only [Link.abiInertia, Mat3.elem, Vec3.get]; vec_ring

theorem Link.abiInertia_pd {mp : MP K} (hm : 0 < mp.mass) (hI : ∀ w : Vec3 K, w ≠ 0 → 0 < dot w (mp.inertia.mulVec w))
    {v : Vec6 K} (hv : v.dot6 ((Link.abiInertia mp).mulVec v) ≤ 0) : v = 0 := by
  rw [Link.abiInertia_dot] at hv
  have h1 : ∀ w : Vec3 K, 0 ≤ dot w w := by
    intro w
    simp only [dot]
    nlinarith [mul_self_nonneg w.x, mul_self_nonneg w.y, mul_self_nonneg w.z]
  have hw : v.ang = 0 := by
    by_contra hne
    have := hI _ hne
    have := mul_nonneg hm.le (h1 (v.lin + cross v.ang mp.com))
    linarith
  rw [hw, show v.lin + cross 0 mp.com = v.lin by vec_ring, show dot (0 : Vec3 K) (mp.inertia.mulVec 0) = 0 by simp [dot], add_zero] at hv
  have h3 : dot v.lin v.lin = 0 := by
    have := h1 v.lin
    by_contra hne
    have := mul_pos hm (lt_of_le_of_ne this (Ne.symm hne))
    linarith
  simp only [dot] at h3
  have a := mul_self_nonneg v.lin.x
  have b := mul_self_nonneg v.lin.y
  have c := mul_self_nonneg v.lin.z
  rw [Vec6.ext_iff]
  refine ⟨?_, hw⟩
  rw [Vec3.ext_iff]
  exact ⟨mul_self_eq_zero.1 (by linarith), mul_self_eq_zero.1 (by linarith), mul_self_eq_zero.1 (by linarith)⟩

/-- A definite 6x6 matrix has an inverse. -/
theorem Mat6.inverse {m : Mat6 K} (h : ∀ v : Vec6 K, m.mulVec v = 0 → v = 0) :
    ∃ g : ℕ → ℕ → K, ∀ i < 6, ∀ k < 6, ∑ j ∈ Finset.range 6, m.elem i j * g j k = if i = k then 1 else 0 := by
  set A : Matrix (Fin 6) (Fin 6) K := Matrix.of fun i j => m.elem i j with hA
  have hinj : Function.Injective A.mulVec := by
    refine (injective_iff_map_eq_zero A.mulVecLin).2 ?_
    intro x hx
    have hx' : A.mulVec x = 0 := hx
    have hz := h (Vec6.ofFn fun i => if hi : i < 6 then x ⟨i, hi⟩ else 0) (by
      apply Vec6.ext_get
      intro r hr
      rw [Mat6.mulVec_get _ _ hr]
      have := congrFun hx' ⟨r, hr⟩
      simp only [Matrix.mulVec, dotProduct, hA, Matrix.of_apply, Pi.zero_apply, Fin.sum_univ_six] at this
      simp only [Finset.sum_range_succ, Finset.range_zero, Finset.sum_empty, zero_add, Vec6.get, Vec6.ofFn, Vec3.get]
      simp
      exact this.trans (by interval_cases r <;> simp [Vec3.get]))
    funext i
    have := congrArg (fun v : Vec6 K => v.get i) hz
    fin_cases i <;> simpa [Vec6.get, Vec6.ofFn, Vec3.get] using this
  have hu : IsUnit A := Matrix.mulVec_injective_iff_isUnit.1 hinj
  have hmul : A * A⁻¹ = 1 := Matrix.mul_nonsing_inv A ((Matrix.isUnit_iff_isUnit_det A).1 hu)
  refine ⟨fun j k => if hj : j < 6 then if hk : k < 6 then A⁻¹ ⟨j, hj⟩ ⟨k, hk⟩ else 0 else 0, ?_⟩
  intro i hi k hk
  have := congrFun (congrFun hmul ⟨i, hi⟩) ⟨k, hk⟩
  rw [Matrix.mul_apply, Fin.sum_univ_six] at this
  simp only [Finset.sum_range_succ, Finset.range_zero, Finset.sum_empty, zero_add]
  simp only [Matrix.one_apply, Fin.mk.injEq] at this
  rw [← this]
  simp [hk, hA]

section
variable [Zm K] [LawfulZm K]

/-- What a link with an inertia that is not negative adds to its parent is not negative. -/
theorem Link.toParentI_psd {fx : Bool} {l : Link K} (hs : l.abi.i.Symm) (hp : l.abi.i.Psd) (hg : l.joint.prp.ABIGood)
    (hm : ∀ p, l.joint.prp = .revol p → 0 ≤ p.motor.inertia) (hx : l.AxisOK fx) : (l.abiToParentI fx).Psd := by
  obtain ⟨h, ih, e⟩ := hx
  unfold Link.abiToParentI
  cases hq : l.joint.prp with
  | fixed => exact hp.xform hs _
  | revol p =>
    simp only [hq, Prp.abiAxisInertia, Prod.mk.injEq] at e
    simp only [Prp.abiABI, e.2, Prp.invAxis]
    have h0 := hm p hq
    have h1 := hp.aa22
    split_ifs with ht
    · rw [neg_zero]
      refine Mat6.Psd.xform ?_ ?_ _
      · rw [hs.colZA]; exact Mat6.Symm.add (Mat6.Symm.dyad _ _) hs
      · refine Mat6.Psd.add ?_ hp
        intro v
        rw [Mat6.dyad_mulVec]
        have : v.dot6 (l.abi.i.rowZA.dot6 v • (0 : K) • l.abi.i.colZA) = 0 := by vec_ring
        rw [this]
    · have hne : p.motor.inertia + l.abi.i.aa.elem 2 2 ≠ 0 := fun h0 => ht (by rw [h0]; exact LawfulZm.tiny_zero)
      refine Mat6.Psd.xform ?_ ?_ _
      · rw [hs.colZA]; exact Mat6.Symm.add (Mat6.Symm.dyad _ _) hs
      · exact Mat6.Psd.reduce hs hp (by linarith) (lt_of_le_of_ne (by linarith) (Ne.symm hne))
  | float p => exact Mat6.Psd.zero
  | brfloat p =>
    simp only [Prp.abiABI]
    split_ifs
    · exact hp.xform hs _
    · exact Mat6.Psd.zero
  | prism p => rw [hq] at hg; exact absurd hg (by simp [Prp.ABIGood])
  | cylin p => rw [hq] at hg; exact absurd hg (by simp [Prp.ABIGood])
  | hooke p => rw [hq] at hg; exact absurd hg (by simp [Prp.ABIGood])
  | spher p => rw [hq] at hg; exact absurd hg (by simp [Prp.ABIGood])

/-- A link with a heavy joint whose articulated inertia is its own and one that is not negative has a regular joint. -/
theorem Link.regular_of_heavy {fx : Bool} {tol : K} (htol : ∀ x : K, tol < x → Zm.tiny x = false) {l : Link K} {d : Mat6 K × Vec6 K}
    (hi : l.abi.i = Link.abiInertia l.body.mp) (hd : d.1.Psd) (hh : Heavy tol l) (hg : l.joint.prp.ABIRootGood)
    (hfx : fx = true → ∀ p, l.joint.prp ≠ .brfloat p) : AxisRegular ((l.abiAdd d).abiBackward fx) := by
  have fl : 0 < l.body.mp.mass → (∀ w : Vec3 K, w ≠ 0 → 0 < dot w (l.body.mp.inertia.mulVec w)) →
      ∃ g : ℕ → ℕ → K, ∀ i < 6, ∀ k < 6, ∑ j ∈ Finset.range 6, (l.abi.i + d.1).elem i j * g j k = if i = k then 1 else 0 := by
    intro h1 h2
    refine Mat6.inverse fun v hv => ?_
    rw [Mat6.add_mulVec] at hv
    have h3 := congrArg v.dot6 hv
    rw [Vec6.dot6_add_right, hi] at h3
    have h4 := hd v
    refine Link.abiInertia_pd h1 h2 (v := v) ?_
    have : v.dot6 0 = 0 := by vec_ring
    linarith
  cases hq : l.joint.prp with
  | fixed => simp [AxisRegular, Link.abiBackward, Link.abiAdd, hq, Prp.abiDrivingTorque]
  | revol p =>
    simp only [Heavy, hq] at hh
    simp only [AxisRegular, Link.abiBackward, Link.abiAdd, hq, Prp.abiDrivingTorque, Prp.abiAxisInertia]
    refine htol _ ?_
    have : (l.abi.i + d.1).aa.elem 2 2 = momentZ l.body.mp + d.1.aa.elem 2 2 := by
      rw [← Link.abiInertia_aa22, hi]; simp only [Mat3.elem, Vec3.get]; vec_ring
    rw [this]
    have := hd.aa22
    linarith [hh.2]
  | prism p =>
    simp only [Heavy, hq] at hh
    simp only [AxisRegular, Link.abiBackward, Link.abiAdd, hq, Prp.abiDrivingTorque, Prp.abiAxisInertia]
    refine htol _ ?_
    have : (l.abi.i + d.1).ll.elem 2 2 = l.body.mp.mass + d.1.ll.elem 2 2 := by
      rw [← Link.abiInertia_ll22, hi]; simp only [Mat3.elem, Vec3.get]; vec_ring
    rw [this]
    have := hd.ll22
    linarith [hh.2]
  | float p =>
    simp only [Heavy, hq] at hh
    simp only [AxisRegular, Link.abiBackward, Link.abiAdd, hq, Prp.abiDrivingTorque, Prp.abiAxisInertia]
    exact fl hh.1 hh.2
  | brfloat p =>
    simp only [Heavy, hq] at hh
    have : fx = false := by
      cases fx with
      | false => rfl
      | true => exact absurd hq (hfx rfl p)
    simp only [AxisRegular, Link.abiBackward, Link.abiAdd, hq, Prp.abiDrivingTorque, Prp.abiAxisInertia, this, Bool.false_eq_true, if_false]
    exact fl hh.1 hh.2
  | cylin p => rw [hq] at hg; exact absurd hg (by simp [Prp.ABIGood, Prp.ABIRootGood])
  | hooke p => rw [hq] at hg; exact absurd hg (by simp [Prp.ABIGood, Prp.ABIRootGood])
  | spher p => rw [hq] at hg; exact absurd hg (by simp [Prp.ABIGood, Prp.ABIRootGood])

/-- What a link has to meet before the backward pass. -/
structure Link.Sound (tol : K) (fx : Bool) (l : Link K) : Prop where
  i : l.abi.i = Link.abiInertia l.body.mp
  phys : Physical l.body.mp
  heavy : Heavy tol l
  fx : fx = true → ∀ p, l.joint.prp ≠ .brfloat p

theorem ABIGood.root {p : Prp K} (h : p.ABIGood) : p.ABIRootGood := by
  cases p <;> simp_all [Prp.ABIGood, Prp.ABIRootGood]

theorem LTree.back_regular {fx : Bool} {tol : K} (htol : ∀ x : K, tol < x → Zm.tiny x = false) (T : LTree (Link K))
    (hs : ∀ l ∈ T.toList, l.Sound tol fx ∧ l.joint.prp.ABIGood) :
    (T.abiBack fx).2.1.Psd ∧ ∀ l ∈ (T.abiBack fx).1.toList, AxisRegular l := by
  induction T with
  | nil => exact ⟨Mat6.Psd.zero, by simp [LTree.abiBack, LTree.toList]⟩
  | node l c s ihc ihs =>
    have hl := hs l (by simp [LTree.toList])
    have hc : ∀ m ∈ c.toList, m.Sound tol fx ∧ m.joint.prp.ABIGood := fun m hm => hs m (by simp [LTree.toList, hm])
    have hss : ∀ m ∈ s.toList, m.Sound tol fx ∧ m.joint.prp.ABIGood := fun m hm => hs m (by simp [LTree.toList, hm])
    obtain ⟨c1, c2⟩ := ihc hc
    obtain ⟨s1, s2⟩ := ihs hss
    have hsym : ∀ m : Link K, m.Sound tol fx → m.abi.i.Symm := fun m hm => by
      rw [hm.i]; exact Link.abiInertia_symm hm.phys.symm
    have csym := LTree.abiBack_symm fx c (fun m hm => hsym m (hc m hm).1) (fun m hm => (hc m hm).2)
    simp only [LTree.abiBack]
    constructor
    · refine Mat6.Psd.add s1 (Link.toParentI_psd ?_ ?_ ?_ ?_ (LTree.axisOK_back fx _))
      · exact Mat6.Symm.add (hsym l hl.1) csym
      · exact Mat6.Psd.add (by rw [hl.1.i]; exact Link.abiInertia_psd hl.1.phys) c1
      · exact LTree.abiGood_drive.2 hl.2
      · intro p hp
        have hh := hl.1.heavy
        cases hq : l.joint.prp with
        | revol q =>
          simp only [Heavy, hq] at hh
          simp only [Link.abiBackward, Link.abiAdd, hq, Prp.abiDrivingTorque, Prp.revol.injEq] at hp
          rw [← hp]; exact hh.1
        | _ => simp [Link.abiBackward, Link.abiAdd, hq, Prp.abiDrivingTorque] at hp
    · simp only [LTree.toList, List.mem_cons, List.mem_append]
      rintro m (rfl | hm | hm)
      · exact Link.regular_of_heavy htol hl.1.i c1 hl.1.heavy (ABIGood.root hl.2) hl.1.fx
      · exact c2 m hm
      · exact s2 m hm

theorem LTree.root_regular {fx : Bool} {tol : K} (htol : ∀ x : K, tol < x → Zm.tiny x = false) (l : Link K) (c : LTree (Link K))
    (hl : l.Sound tol fx) (hr : l.joint.prp.ABIRootGood)
    (hs : ∀ l ∈ c.toList, l.Sound tol fx ∧ l.joint.prp.ABIGood) :
    ∀ m ∈ ((node l c nil).abiBack fx).1.toList, AxisRegular m := by
  obtain ⟨c1, c2⟩ := LTree.back_regular htol c hs
  simp only [LTree.abiBack, LTree.toList, List.append_nil, List.mem_cons]
  rintro m (rfl | hm)
  · exact Link.regular_of_heavy htol hl.i c1 hl.heavy hr hl.fx
  · exact c2 m hm
end
end Roki
