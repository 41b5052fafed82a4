import Mathlib.LinearAlgebra.Matrix.NonsingularInverse
import Verif.Lemmas.Vec
import Verif.Model.Zm
import Mathlib.Analysis.SpecialFunctions.Trigonometric.Inverse
import Mathlib.Algebra.Order.ToIntervalMod
import Mathlib.Analysis.Real.Sqrt

/-!
# The external routines over the real numbers

Builds `Zm ℝ` from the real functions and proves `LawfulZm ℝ`: the assumptions made about ZM, Zeo
and libm are satisfied by exact arithmetic, so no theorem that uses them is vacuous.
-/
namespace Roki.ZmReal
/-- Rodrigues form with coefficients. -/
noncomputable def rod (A B : ℝ) (a : Vec3 ℝ) : Mat3 ℝ :=
  1 + A • Mat3.skew a + B • (Mat3.skew a).mul (Mat3.skew a)

theorem rod_isRot (A B : ℝ) (a : Vec3 ℝ) (h : A * A + B * B * dot a a = 2 * B) : (rod A B a).IsRot := by
  constructor <;> simp only [rod] <;> vec_unfold <;> simp only [dot] at h <;>
   (try refine ⟨?_, ?_, ?_⟩) <;> grind

theorem sq3_zero (x y z : ℝ) (h : x * x + y * y + z * z = 0) : x = 0 ∧ y = 0 ∧ z = 0 :=
  ⟨by nlinarith [mul_self_nonneg y, mul_self_nonneg z, mul_self_nonneg x],
   by nlinarith [mul_self_nonneg y, mul_self_nonneg z, mul_self_nonneg x],
   by nlinarith [mul_self_nonneg y, mul_self_nonneg z, mul_self_nonneg x]⟩

section
variable {R : Mat3 ℝ} (h : R.IsRot)
include h
theorem euler1 (c : ℝ) (hc : 2*c = R.cx.x + R.cy.y + R.cz.z - 1) :
   let a : Vec3 ℝ := ⟨R.cy.z - R.cz.y, R.cz.x - R.cx.z, R.cx.y - R.cy.x⟩
   dot a a = 4 * (1 - c*c) := by
  obtain ⟨xx,yy,zz,xy,yz,zx,rh⟩ := h
  simp only [dot, cross, Vec3.ext_iff] at *
  grind
theorem euler2 (c : ℝ) (hc : 2*c = R.cx.x + R.cy.y + R.cz.z - 1) :
   let a : Vec3 ℝ := ⟨R.cy.z - R.cz.y, R.cz.x - R.cx.z, R.cx.y - R.cy.x⟩
   (2 * (1+c)) • (R + R.tr - (2*c) • (1:Mat3 ℝ)) = Mat3.dyad a a := by
  have h1 := h.rh_yz
  have h2 := h.rh_zx
  obtain ⟨xx,yy,zz,xy,yz,zx,rh⟩ := h
  simp only [dot, cross, Vec3.ext_iff] at *
  vec_unfold
  refine ⟨⟨?_,?_,?_⟩,⟨?_,?_,?_⟩,⟨?_,?_,?_⟩⟩ <;> grind

theorem half_turn (ht : R.cx.x + R.cy.y + R.cz.z = -1) :
    ∃ n : Vec3 ℝ, dot n n = 1 ∧ R = rod 0 2 n := by
  have h1 := h.rh_yz
  have h2 := h.rh_zx
  have h3 := euler1 h (-1) (by linarith)
  have rh := h.rh
  clear h
  simp only [dot, cross, Vec3.ext_iff] at h1 h2 h3 rh
  obtain ⟨e1, e2, e3⟩ := sq3_zero _ _ _ (h3.trans (by norm_num))
  obtain ⟨r1, r2, r3⟩ := rh
  obtain ⟨r4, r5, r6⟩ := h1
  obtain ⟨r7, r8, r9⟩ := h2
  have key : 0 < R.cx.x + 1 ∨ 0 < R.cy.y + 1 ∨ 0 < R.cz.z + 1 := by
    by_contra hh; push Not at hh; linarith [hh.1, hh.2.1, hh.2.2]
  have s1 : R.cz.y = R.cy.z := by linarith
  have s2 : R.cx.z = R.cz.x := by linarith
  have s3 : R.cy.x = R.cx.y := by linarith
  simp only [s1, s2, s3] at r1 r2 r3 r4 r5 r6 r7 r8 r9
  have m1 : R.cx.y * R.cx.y = (R.cx.x + 1) * (R.cy.y + 1) := by linarith
  have m2 : R.cz.x * R.cz.x = (R.cx.x + 1) * (R.cz.z + 1) := by linarith
  have m3 : R.cy.z * R.cy.z = (R.cy.y + 1) * (R.cz.z + 1) := by linarith
  have m4 : R.cx.y * R.cz.x = (R.cx.x + 1) * R.cy.z := by linarith
  have m5 : R.cx.y * R.cy.z = (R.cy.y + 1) * R.cz.x := by linarith
  have m6 : R.cz.x * R.cy.z = (R.cz.z + 1) * R.cx.y := by linarith
  have fin : ∀ x y z : ℝ, 2 * (x * x) = R.cx.x + 1 → 2 * (y * y) = R.cy.y + 1 →
      2 * (z * z) = R.cz.z + 1 → 2 * (x * y) = R.cx.y → 2 * (x * z) = R.cz.x →
      2 * (y * z) = R.cy.z → ∃ n : Vec3 ℝ, dot n n = 1 ∧ R = rod 0 2 n := by
    intro x y z a1 a2 a3 a4 a5 a6
    refine ⟨⟨x, y, z⟩, ?_, ?_⟩
    · simp only [dot]; linarith
    · simp only [rod]; vec_unfold
      rw [s1, s2, s3]
      refine ⟨⟨?_,?_,?_⟩,⟨?_,?_,?_⟩,⟨?_,?_,?_⟩⟩ <;> linarith
  rcases key with hk | hk | hk
  · obtain ⟨q, hq0, hq⟩ : ∃ q : ℝ, q ≠ 0 ∧ 2 * (q * q) = R.cx.x + 1 :=
      ⟨Real.sqrt ((R.cx.x + 1)/2), (Real.sqrt_pos.2 (by linarith)).ne',
        by rw [Real.mul_self_sqrt (by linarith)]; ring⟩
    apply fin q (R.cx.y / (2 * q)) (R.cz.x / (2 * q)) hq
    · field_simp; linear_combination m1 - (R.cy.y + 1) * hq
    · field_simp; linear_combination m2 - (R.cz.z + 1) * hq
    · field_simp
    · field_simp
    · field_simp; linear_combination m4 - R.cy.z * hq
  · obtain ⟨q, hq0, hq⟩ : ∃ q : ℝ, q ≠ 0 ∧ 2 * (q * q) = R.cy.y + 1 :=
      ⟨Real.sqrt ((R.cy.y + 1)/2), (Real.sqrt_pos.2 (by linarith)).ne',
        by rw [Real.mul_self_sqrt (by linarith)]; ring⟩
    apply fin (R.cx.y / (2 * q)) q (R.cy.z / (2 * q)) _ hq
    · field_simp; linear_combination m3 - (R.cz.z + 1) * hq
    · field_simp
    · field_simp; linear_combination m5 - R.cz.x * hq
    · field_simp
    · field_simp; linear_combination m1 - (R.cx.x + 1) * hq
  · obtain ⟨q, hq0, hq⟩ : ∃ q : ℝ, q ≠ 0 ∧ 2 * (q * q) = R.cz.z + 1 :=
      ⟨Real.sqrt ((R.cz.z + 1)/2), (Real.sqrt_pos.2 (by linarith)).ne',
        by rw [Real.mul_self_sqrt (by linarith)]; ring⟩
    apply fin (R.cz.x / (2 * q)) (R.cy.z / (2 * q)) q _ _ hq
    · field_simp; linear_combination m6 - R.cx.y * hq
    · field_simp
    · field_simp
    · field_simp; linear_combination m2 - (R.cx.x + 1) * hq
    · field_simp; linear_combination m3 - (R.cy.y + 1) * hq
end

/-- Rotation matrix of an angle-axis vector (Rodrigues). -/
noncomputable def fromAA (a : Vec3 ℝ) : Mat3 ℝ :=
  let t := Real.sqrt (dot a a)
  rod (Real.sin t / t) ((1 - Real.cos t) / (t * t)) a

theorem dot_self_nonneg (a : Vec3 ℝ) : 0 ≤ dot a a := by
  simp only [dot]; nlinarith [sq_nonneg a.x, sq_nonneg a.y, sq_nonneg a.z]

theorem fromAA_isRot (a : Vec3 ℝ) : (fromAA a).IsRot := by
  apply rod_isRot
  have h1 : Real.sqrt (dot a a) * Real.sqrt (dot a a) = dot a a :=
    Real.mul_self_sqrt (dot_self_nonneg a)
  generalize Real.sqrt (dot a a) = t at h1
  rw [← h1]
  have := Real.sin_sq_add_cos_sq t
  by_cases ht : t = 0
  · simp [ht]
  · field_simp; nlinarith

theorem fromAA_zero : fromAA 0 = 1 := by
  simp only [fromAA, rod]; vec_unfold; simp

/-- A unit axis and an angle between 0 and a half turn. -/
theorem fromAA_smul (n : Vec3 ℝ) (hn : dot n n = 1) (t : ℝ) (ht : 0 < t) :
    fromAA (t • n) = rod (Real.sin t) (1 - Real.cos t) n := by
  have : Real.sqrt (dot (t • n) (t • n)) = t := by
    rw [dot_smul_left, dot_smul_right, hn, mul_one, Real.sqrt_mul_self ht.le]
  simp only [fromAA, this, rod]
  vec_unfold
  refine ⟨⟨?_,?_,?_⟩,⟨?_,?_,?_⟩,⟨?_,?_,?_⟩⟩ <;> field_simp <;> ring

/-- Euler's rotation theorem. -/
theorem exists_fromAA {R : Mat3 ℝ} (h : R.IsRot) : ∃ a, fromAA a = R := by
  obtain ⟨c, hc⟩ : ∃ c : ℝ, 2*c = R.cx.x + R.cy.y + R.cz.z - 1 :=
    ⟨(R.cx.x + R.cy.y + R.cz.z - 1)/2, by ring⟩
  have E1 := euler1 h c hc
  have E2 := euler2 h c hc
  set v : Vec3 ℝ := ⟨R.cy.z - R.cz.y, R.cz.x - R.cx.z, R.cx.y - R.cy.x⟩ with hv
  have hcc : c * c ≤ 1 := by have := dot_self_nonneg v; simp only at E1; linarith
  have hc1 : -1 ≤ c := by nlinarith
  have hc2 : c ≤ 1 := by nlinarith
  rcases eq_or_lt_of_le hc1 with e | hlt
  · obtain ⟨n, hn, hR⟩ := half_turn h (by linarith)
    refine ⟨Real.pi • n, ?_⟩
    rw [fromAA_smul n hn _ Real.pi_pos, hR]
    simp only [Real.sin_pi, Real.cos_pi]; norm_num
  rcases eq_or_lt_of_le hc2 with e | hgt
  · refine ⟨0, ?_⟩
    rw [fromAA_zero]
    subst e
    simp only [dot, hv] at E1
    obtain ⟨e1, e2, e3⟩ := sq3_zero _ _ _ (E1.trans (by norm_num))
    simp only [hv] at E2
    revert E2
    vec_unfold
    rintro ⟨⟨a1,a2,a3⟩,⟨a4,a5,a6⟩,⟨a7,a8,a9⟩⟩
    refine ⟨⟨?_,?_,?_⟩,⟨?_,?_,?_⟩,⟨?_,?_,?_⟩⟩ <;> grind
  · have hs : 0 < 1 - c * c := by nlinarith
    set s := Real.sqrt (1 - c * c) with hs'
    have hs0 : 0 < s := Real.sqrt_pos.2 hs
    have hss : s * s = 1 - c * c := Real.mul_self_sqrt hs.le
    refine ⟨Real.arccos c • ((2 * s)⁻¹ • v), ?_⟩
    have hn : dot ((2 * s)⁻¹ • v) ((2 * s)⁻¹ • v) = 1 := by
      rw [dot_smul_left, dot_smul_right]
      simp only at E1
      rw [E1]; field_simp; nlinarith
    rw [fromAA_smul _ hn _ (Real.arccos_pos.2 hgt), Real.cos_arccos hc1 hc2, Real.sin_arccos,
      show (1 - c ^ 2) = 1 - c * c by ring, ← hs']
    have h1c : 1 + c ≠ 0 := by linarith
    simp only [rod]
    revert E2
    simp only [hv]
    vec_unfold
    rintro ⟨⟨a1,a2,a3⟩,⟨a4,a5,a6⟩,⟨a7,a8,a9⟩⟩
    simp only [dot, hv] at E1
    refine ⟨⟨?_,?_,?_⟩,⟨?_,?_,?_⟩,⟨?_,?_,?_⟩⟩ <;> field_simp <;> grind

open Classical in
/-- ZM, Zeo and libm in exact real arithmetic.  The tolerance of `zIsTiny` is `1e-12`
(`zTOL`, ZM). -/
noncomputable instance : Zm ℝ where
  sin := Real.sin
  cos := Real.cos
  pi := Real.pi
  phaseNormalize q := toIocMod (mul_pos two_pos Real.pi_pos) (-Real.pi) q
  fromAA := fromAA
  toAA m := if m = 1 then 0 else if h : ∃ a, fromAA a = m then h.choose else 0
  tiny x := decide (|x| ≤ 1 / 1000000000000)
  sgn x := if 0 < x then 1 else if x < 0 then -1 else 0
  matInv n h i j := if H : i < n ∧ j < n then (Matrix.of fun a b : Fin n => h a b)⁻¹ ⟨i, H.1⟩ ⟨j, H.2⟩ else 0

instance : LawfulZm ℝ where
  sin_sq_add_cos_sq q := by
    have := Real.sin_sq_add_cos_sq q
    simp only [Zm.sin, Zm.cos]; nlinarith
  sin_zero := Real.sin_zero
  cos_zero := Real.cos_zero
  pi_pos := Real.pi_pos
  phase_gt q := (toIocMod_mem_Ioc (mul_pos two_pos Real.pi_pos) (-Real.pi) q).1
  phase_le q := by
    have := (toIocMod_mem_Ioc (mul_pos two_pos Real.pi_pos) (-Real.pi) q).2
    simp only [Zm.phaseNormalize, Zm.pi]; linarith
  phase_id q h1 h2 := by
    simp only [Zm.phaseNormalize, Zm.pi] at *
    rw [toIocMod_eq_self]
    exact ⟨h1, by linarith⟩
  sin_phase q := by
    simp only [Zm.phaseNormalize, Zm.sin, toIocMod, zsmul_eq_mul]
    exact Real.sin_sub_int_mul_two_pi _ _
  cos_phase q := by
    simp only [Zm.phaseNormalize, Zm.cos, toIocMod, zsmul_eq_mul]
    exact Real.cos_sub_int_mul_two_pi _ _
  fromAA_isRot := fromAA_isRot
  fromAA_zero := fromAA_zero
  fromAA_toAA m hm := by
    simp only [Zm.fromAA, Zm.toAA]
    split_ifs with h1 h2
    · rw [h1, fromAA_zero]
    · exact h2.choose_spec
    · exact absurd (exists_fromAA hm) h2
  toAA_one := by simp [Zm.toAA]
  tiny_zero := by simp [Zm.tiny]
  sgn_mul_self v := by
    simp only [Zm.sgn]
    split_ifs with h1 h2 <;> nlinarith
  matInv_right n h g hg i hi k hk := by
    have e : (Matrix.of fun a b : Fin n => h a b) * (Matrix.of fun a b : Fin n => g a b) = 1 := by
      ext a b
      rw [Matrix.mul_apply, Matrix.one_apply]
      simp only [Matrix.of_apply]
      have := hg a a.2 b b.2
      rw [Finset.sum_range] at this
      simp only [Fin.ext_iff]
      exact this
    have f : (Matrix.of fun a b : Fin n => h a b) * (Matrix.of fun a b : Fin n => h a b)⁻¹ = 1 := by
      rw [Matrix.inv_eq_right_inv e, e]
    have := congrFun (congrFun f ⟨i, hi⟩) ⟨k, hk⟩
    rw [Matrix.mul_apply, Matrix.one_apply] at this
    simp only [Matrix.of_apply, Fin.mk.injEq] at this
    rw [← this, Finset.sum_range]
    refine Finset.sum_congr rfl fun a _ => ?_
    simp only [Zm.matInv]
    rw [dif_pos ⟨a.2, hk⟩]

end Roki.ZmReal
