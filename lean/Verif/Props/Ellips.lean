import Verif.Spec.Ellips
import Verif.Lemmas.Definite
set_option autoImplicit false

/-! # C137: the inertial ellipsoid -/

namespace Roki
open Spec

section
variable {K : Type*} [Field K]

/-- Three unit vectors at right angles, right or left handed, span the space. -/
theorem Spec.IsEig.complete {I : Mat3 K} {e : Eig K} (h : IsEig I e) (u : Vec3 K) :
    u = dot e.e1 u • e.e1 + (dot e.e2 u • e.e2 + dot e.e3 u • e.e3) := by
  obtain ⟨xx, yy, zz, xy, yz, zx, -, -, -⟩ := h
  generalize e.e1 = a at *
  generalize e.e2 = b at *
  generalize e.e3 = c at *
  have hn : dot (cross a b) (cross a b) = 1 := by
    have : dot (cross a b) (cross a b) = dot a a * dot b b - dot a b * dot a b := by vec_ring
    rw [this, xx, yy, xy]; ring
  have hr : Mat3.IsRot ⟨a, b, cross a b⟩ := ⟨xx, yy, hn, xy, by vec_ring, by vec_ring, rfl⟩
  have k : ∀ v : Vec3 K, dot a v • a + (dot b v • b + dot (cross a b) v • cross a b) = v := by
    intro v
    have := hr.mulVec_mulVecT v
    conv_rhs => rw [← this]
    vec_ring
  have hc : c = dot (cross a b) c • cross a b := by
    have := k c
    rw [dot_comm a c, zx, yz] at this
    rw [← this]
    conv_rhs => rw [this]
    vec_ring
  have hs : dot (cross a b) c * dot (cross a b) c = 1 := by
    rw [← zz]
    conv_rhs => rw [hc]
    rw [dot_smul_left, dot_smul_right, hn]
    ring
  have e3 : dot c u • c = dot (cross a b) u • cross a b := by
    conv_lhs => rw [hc]
    rw [dot_smul_left, smul_smul]
    congr 1
    linear_combination (dot (cross a b) u) * hs
  rw [e3, k]

theorem Spec.IsEig.mulVec {I : Mat3 K} {e : Eig K} (h : IsEig I e) (u : Vec3 K) :
    I.mulVec u = (dot e.e1 u * e.v1) • e.e1 + ((dot e.e2 u * e.v2) • e.e2 + (dot e.e3 u * e.v3) • e.e3) := by
  conv_lhs => rw [h.complete u]
  rw [Mat3.mulVec_add, Mat3.mulVec_add, Mat3.mulVec_smul, Mat3.mulVec_smul, Mat3.mulVec_smul, h.h1, h.h2, h.h3,
    smul_smul, smul_smul, smul_smul]

/-- **C137** Whatever principal axes the eigenvalue routine finds, the surface of the ellipsoid that `rkMPInertiaEllips` makes is the image of
the unit sphere under the inertia tensor, about the center of mass: for each unit vector `u`, the angular momentum of the body that turns
with the angular velocity `u`. -/
theorem C137_surface (eig : Mat3 K → Eig K) (mp : MP K) (h : IsEig mp.inertia (eig mp.inertia)) :
    surface (mp.inertiaEllips eig) = {x | ∃ u : Vec3 K, dot u u = 1 ∧ x = mp.com + mp.inertia.mulVec u} := by
  ext x
  have ⟨xx, yy, zz, xy, yz, zx, _, _, _⟩ := h
  simp only [surface, MP.inertiaEllips, Set.mem_setOf_eq]
  constructor
  · rintro ⟨a, b, c, e, rfl⟩
    refine ⟨a • (eig mp.inertia).e1 + (b • (eig mp.inertia).e2 + c • (eig mp.inertia).e3), ?_, ?_⟩
    · simp only [dot_add_left, dot_add_right, dot_smul_left, dot_smul_right, xx, yy, zz, xy, yz, zx,
        dot_comm (eig mp.inertia).e1 (eig mp.inertia).e3, dot_comm (eig mp.inertia).e2 (eig mp.inertia).e1,
        dot_comm (eig mp.inertia).e3 (eig mp.inertia).e2]
      linear_combination e
    · rw [Mat3.mulVec_add, Mat3.mulVec_add, Mat3.mulVec_smul, Mat3.mulVec_smul, Mat3.mulVec_smul, h.h1, h.h2, h.h3,
        smul_smul, smul_smul, smul_smul]
  · rintro ⟨u, e, rfl⟩
    refine ⟨dot (eig mp.inertia).e1 u, dot (eig mp.inertia).e2 u, dot (eig mp.inertia).e3 u, ?_, ?_⟩
    · rw [← e]
      conv_rhs => arg 1; rw [h.complete u]
      simp only [dot_add_left, dot_smul_left]
      ring
    · rw [h.mulVec]

/-- **C137** Therefore the choice among several principal axes and their order do not matter. -/
theorem C137_axes (eig eig' : Mat3 K → Eig K) (mp : MP K) (h : IsEig mp.inertia (eig mp.inertia))
    (h' : IsEig mp.inertia (eig' mp.inertia)) : surface (mp.inertiaEllips eig) = surface (mp.inertiaEllips eig') := by
  rw [C137_surface eig mp h, C137_surface eig' mp h']

/-- **C137** The ellipsoid moves with the body: transforming the mass properties to another frame transforms its points. -/
theorem C137_carried (eig : Mat3 K → Eig K) (mp : MP K) (f : Frame K) (hf : f.att.IsRot) (h : IsEig mp.inertia (eig mp.inertia))
    (h' : IsEig (mp.xform f).inertia (eig (mp.xform f).inertia)) :
    surface ((mp.xform f).inertiaEllips eig) = f.xform '' surface (mp.inertiaEllips eig) := by
  rw [C137_surface eig mp h, C137_surface eig _ h']
  ext x
  simp only [Set.mem_setOf_eq, Set.mem_image, MP.xform, Mat3.rot]
  have htr : ∀ v : Vec3 K, f.att.tr.mulVec v = f.att.mulVecT v := fun v => by vec_ring
  have hx : ∀ p q : Vec3 K, f.xform (p + q) = f.xform p + f.att.mulVec q := fun p q => by vec_ring
  constructor
  · rintro ⟨u, e, rfl⟩
    refine ⟨_, ⟨f.att.mulVecT u, ?_, rfl⟩, ?_⟩
    · rw [← hf.dot_mulVec_mulVec, hf.mulVec_mulVecT, e]
    · rw [hx, Mat3.mul_mulVec, Mat3.mul_mulVec, htr]
  · rintro ⟨-, ⟨u, e, rfl⟩, rfl⟩
    refine ⟨f.att.mulVec u, ?_, ?_⟩
    · rw [hf.dot_mulVec_mulVec, e]
    · rw [hx, Mat3.mul_mulVec, Mat3.mul_mulVec, htr, hf.mulVecT_mulVec]
end

section
variable {K : Type*} [Field K] [LinearOrder K] [IsStrictOrderedRing K]

/-- **C137** The ellipsoid is the textbook one only for a body with the unit inertia tensor: its half axes are the principal moments `I` of
inertia, and those of the textbook are `1 / sqrt I`. -/
theorem C137_momental_iff (eig : Mat3 K → Eig K) (mp : MP K) (h : IsEig mp.inertia (eig mp.inertia))
    (hpos : ∀ w : Vec3 K, w ≠ 0 → 0 < dot w (mp.inertia.mulVec w)) :
    surface (mp.inertiaEllips eig) = momental mp.inertia mp.com ↔ mp.inertia = 1 := by
  constructor
  · intro he
    have key : ∀ (e : Vec3 K) (v : K), dot e e = 1 → mp.inertia.mulVec e = v • e → v = 1 := by
      intro e v hee hv
      have h0 : e ≠ 0 := by rintro rfl; simp [dot] at hee
      have h1 := hpos e h0
      rw [hv, dot_smul_right, hee, mul_one] at h1
      have hm : mp.com + mp.inertia.mulVec e ∈ momental mp.inertia mp.com := by
        rw [← he, C137_surface eig mp h]; exact ⟨e, hee, rfl⟩
      simp only [momental, Set.mem_setOf_eq, add_sub_cancel_left] at hm
      rw [hv, Mat3.mulVec_smul, hv, dot_smul_left, dot_smul_right, dot_smul_right, hee] at hm
      nlinarith [sq_nonneg (v - 1), sq_nonneg (v + 1), mul_pos h1 h1]
    have e1 := key _ _ h.xx h.h1
    have e2 := key _ _ h.yy h.h2
    have e3 := key _ _ h.zz h.h3
    have hall : ∀ u : Vec3 K, mp.inertia.mulVec u = u := by
      intro u
      rw [h.mulVec, e1, e2, e3, mul_one, mul_one, mul_one, ← h.complete u]
    have a1 := hall ⟨1, 0, 0⟩
    have a2 := hall ⟨0, 1, 0⟩
    have a3 := hall ⟨0, 0, 1⟩
    refine Mat3.ext ?_ ?_ ?_
    · refine Eq.trans ?_ (a1.trans rfl); vec_ring
    · refine Eq.trans ?_ (a2.trans rfl); vec_ring
    · refine Eq.trans ?_ (a3.trans rfl); vec_ring
  · intro he
    rw [C137_surface eig mp h]
    ext x
    simp only [Set.mem_setOf_eq, momental, he]
    constructor
    · rintro ⟨u, hu, rfl⟩
      rw [← hu]; vec_ring
    · intro hx
      refine ⟨x - mp.com, ?_, by vec_ring⟩
      rw [← hx]; vec_ring

end

/-- A body with principal moments 1, 2 and 3: the ellipsoid has the half axes 1, 2 and 3, and is not the textbook one. -/
example : let I : Mat3 ℚ := ⟨⟨1, 0, 0⟩, ⟨0, 2, 0⟩, ⟨0, 0, 3⟩⟩
    IsEig I ⟨1, 2, 3, ⟨1, 0, 0⟩, ⟨0, 1, 0⟩, ⟨0, 0, 1⟩⟩ ∧ I ≠ 1 ∧ (∀ w : Vec3 ℚ, w ≠ 0 → 0 < dot w (I.mulVec w)) := by
  refine ⟨by constructor <;> decide +kernel, by decide +kernel, ?_⟩
  rintro ⟨a, b, c⟩ hw
  have e : dot (⟨a, b, c⟩ : Vec3 ℚ) (Mat3.mulVec ⟨⟨1, 0, 0⟩, ⟨0, 2, 0⟩, ⟨0, 0, 3⟩⟩ ⟨a, b, c⟩) = a ^ 2 + 2 * b ^ 2 + 3 * c ^ 2 := by vec_ring
  rw [e]
  by_contra hcon
  have ha : a = 0 := by nlinarith [sq_nonneg a, sq_nonneg b, sq_nonneg c]
  have hb : b = 0 := by nlinarith [sq_nonneg a, sq_nonneg b, sq_nonneg c]
  have hc : c = 0 := by nlinarith [sq_nonneg a, sq_nonneg b, sq_nonneg c]
  exact hw (by rw [ha, hb, hc]; rfl)

end Roki
