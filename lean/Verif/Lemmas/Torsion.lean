import Verif.Model.Torsion
import Verif.Lemmas.ZmReal
import Verif.Spec.Kinematics
import Mathlib.Analysis.SpecialFunctions.Complex.Arg
set_option autoImplicit false

/-!
# Joint torsion over the real numbers
-/

namespace Roki

/-- `sqrt` in exact real arithmetic. -/
noncomputable instance : ZSqrt ℝ := ⟨Real.sqrt⟩

/-- `atan2` in exact real arithmetic. -/
noncomputable instance : ZAtan ℝ := ⟨fun y x => Complex.arg ⟨x, y⟩⟩

namespace Torsion
open Spec

theorem norm_eq (x y : ℝ) : ‖(⟨x, y⟩ : ℂ)‖ = Real.sqrt (x * x + y * y) := by
  rw [Complex.norm_def, Complex.normSq_mk]

theorem sin_atan2 {r x y : ℝ} (hr : 0 < r) (h : x * x + y * y = r * r) : Real.sin (ZAtan.atan2 y x) = y / r := by
  have e : ‖(⟨x, y⟩ : ℂ)‖ = r := by rw [norm_eq, h, Real.sqrt_mul_self hr.le]
  change Real.sin (Complex.arg ⟨x, y⟩) = _
  rw [Complex.sin_arg, e]

theorem cos_atan2 {r x y : ℝ} (hr : 0 < r) (h : x * x + y * y = r * r) : Real.cos (ZAtan.atan2 y x) = x / r := by
  have e : ‖(⟨x, y⟩ : ℂ)‖ = r := by rw [norm_eq, h, Real.sqrt_mul_self hr.le]
  change Real.cos (Complex.arg ⟨x, y⟩) = _
  have hne : (⟨x, y⟩ : ℂ) ≠ 0 := by
    intro h0; rw [h0, norm_zero] at e; exact hr.ne e
  rw [Complex.cos_arg hne, e]

theorem atan2_mem (y x : ℝ) : -Real.pi < ZAtan.atan2 y x ∧ ZAtan.atan2 y x ≤ Real.pi :=
  ⟨Complex.neg_pi_lt_arg _, Complex.arg_le_pi _⟩

/-- `atan2` gives back an angle. -/
theorem atan2_sin_cos {r q : ℝ} (hr : 0 < r) (h1 : -Real.pi < q) (h2 : q ≤ Real.pi) :
    ZAtan.atan2 (r * Real.sin q) (r * Real.cos q) = q := by
  have := Complex.arg_mul_cos_add_sin_mul_I hr (θ := q) ⟨h1, h2⟩
  have e : (r * (Complex.cos q + Complex.sin q * Complex.I) : ℂ) = ⟨r * Real.cos q, r * Real.sin q⟩ := by
    apply Complex.ext <;> simp [← Complex.ofReal_cos, ← Complex.ofReal_sin]
  rw [e] at this
  exact this

/-- Two rotations with the same third axis differ by a rotation about it. -/
theorem exists_rz {M R : Mat3 ℝ} (hM : M.IsRot) (hR : R.IsRot) (h : M.cz = R.cz) :
    ∃ s c : ℝ, s * s + c * c = 1 ∧ R = M.mul (Rz s c) := by
  refine ⟨dot M.cy R.cx, dot M.cx R.cx, ?_⟩
  have hN : (M.mulT R).IsRot := by
    exact hM.mulT hR
  have hback : M.mul (M.mulT R) = R := by
    rw [Mat3.mulT_eq, ← Mat3.mul_assoc', hM.mul_tr_self, Mat3.one_mul']
  have hz : (M.mulT R).cz = ⟨0, 0, 1⟩ := by
    have : (M.mulT R).cz = M.mulVecT R.cz := rfl
    rw [this, ← h]
    have h1 := hM.zx
    have h2 := hM.yz
    have h3 := hM.zz
    simp only [Mat3.mulVecT, dot, Vec3.mk.injEq] at *
    exact ⟨by linarith, by linarith, by linarith⟩
  have hx : (M.mulT R).cx = ⟨dot M.cx R.cx, dot M.cy R.cx, 0⟩ := by
    have h1 := hN.zx
    rw [hz] at h1
    have e : (M.mulT R).cx = M.mulVecT R.cx := rfl
    rw [e] at h1 ⊢
    simp only [Mat3.mulVecT, dot] at h1 ⊢
    simp only [Vec3.mk.injEq, true_and]
    linarith
  have hy : (M.mulT R).cy = ⟨-dot M.cy R.cx, dot M.cx R.cx, 0⟩ := by
    rw [← hN.rh_zx, hz, hx]; simp [cross]
  refine ⟨?_, ?_⟩
  · have := hN.xx
    rw [hx] at this
    simp only [dot] at this ⊢
    linarith
  · conv_lhs => rw [← hback]
    congr 1
    exact Mat3.ext hx hy hz

theorem vec3Angle_x {M : Mat3 ℝ} (hM : M.IsRot) (s c : ℝ) :
    vec3Angle M.cx (M.mul (Rz s c)).cx M.cz = ZAtan.atan2 s c := by
  have e : (M.mul (Rz s c)).cx = c • M.cx + s • M.cy := by simp only [Rz]; vec_ring
  have d : cross M.cx (M.mul (Rz s c)).cx = s • M.cz := by
    rw [e, ← hM.rh]; vec_ring
  have d1 : dot (s • M.cz) M.cz = s := by rw [dot_smul_left, hM.zz, mul_one]
  have d2 : sqrNorm (s • M.cz) = s * s := by
    rw [sqrNorm, dot_smul_left, dot_smul_right, hM.zz, mul_one]
  have d3 : dot M.cx (M.mul (Rz s c)).cx = c := by
    rw [e, dot_add_right, dot_smul_right, dot_smul_right, hM.xx, hM.xy]; ring
  unfold vec3Angle
  simp only [d, d1, d2, d3]
  congr 1
  change (if s < 0 then -Real.sqrt (s * s) else Real.sqrt (s * s)) = s
  rw [Real.sqrt_mul_self_eq_abs]
  split_ifs with hs
  · rw [abs_of_neg hs]; ring
  · rw [abs_of_nonneg (not_lt.1 hs)]

theorem vec3Angle_y {M : Mat3 ℝ} (hM : M.IsRot) (s c : ℝ) :
    vec3Angle M.cy (M.mul (Rz s c)).cy M.cz = ZAtan.atan2 s c := by
  have e : (M.mul (Rz s c)).cy = (-s) • M.cx + c • M.cy := by simp only [Rz]; vec_ring
  have d : cross M.cy (M.mul (Rz s c)).cy = s • M.cz := by
    rw [e, ← hM.rh]; vec_ring
  have d1 : dot (s • M.cz) M.cz = s := by rw [dot_smul_left, hM.zz, mul_one]
  have d2 : sqrNorm (s • M.cz) = s * s := by
    rw [sqrNorm, dot_smul_left, dot_smul_right, hM.zz, mul_one]
  have d3 : dot M.cy (M.mul (Rz s c)).cy = c := by
    rw [e, dot_add_right, dot_smul_right, dot_smul_right, hM.yy, dot_comm, hM.xy]; ring
  unfold vec3Angle
  simp only [d, d1, d2, d3]
  congr 1
  change (if s < 0 then -Real.sqrt (s * s) else Real.sqrt (s * s)) = s
  rw [Real.sqrt_mul_self_eq_abs]
  split_ifs with hs
  · rw [abs_of_neg hs]; ring
  · rw [abs_of_nonneg (not_lt.1 hs)]

/-- The tolerance of `zIsTiny`. -/
noncomputable def tol : ℝ := 1 / 1000000000000

/-- The rotation that `rkJointRevolTorsionDis` finds takes the z-axis to the third axis of the frame. -/
theorem revol_rm {R : Mat3 ℝ} (hR : R.IsRot) (h1 : R.cz.z ≠ -1) (h2 : R.cz.z = 1 ∨ R.cz.z < Real.cos tol) :
    ∃ aa, (let aa0 : Vec3 ℝ := ⟨-R.cz.y, R.cz.x, 0⟩
      let l : ℝ := ZSqrt.sqrt (aa0.x * aa0.x + aa0.y * aa0.y)
      let angle : ℝ := ZAtan.atan2 l R.cz.z
      if Zm.tiny angle then some 0 else if l = 0 then none else some ((angle / l) • aa0)) = some aa ∧
    (Zm.fromAA aa : Mat3 ℝ).cz = R.cz := by
  have hzz := hR.zz
  simp only [dot] at hzz
  set l : ℝ := Real.sqrt (-R.cz.y * -R.cz.y + R.cz.x * R.cz.x) with hl
  have hpos : 0 ≤ -R.cz.y * -R.cz.y + R.cz.x * R.cz.x := by nlinarith [mul_self_nonneg R.cz.y, mul_self_nonneg R.cz.x]
  have hll : l * l = R.cz.x * R.cz.x + R.cz.y * R.cz.y := by
    rw [hl, Real.mul_self_sqrt hpos]; ring
  have hl0 : 0 ≤ l := Real.sqrt_nonneg _
  set angle : ℝ := ZAtan.atan2 l R.cz.z with ha
  have hs : Real.sin angle = l := by
    rw [ha, sin_atan2 one_pos (by linarith), div_one]
  have hc : Real.cos angle = R.cz.z := by
    rw [ha, cos_atan2 one_pos (by linarith), div_one]
  have ha0 : 0 ≤ angle := Complex.arg_nonneg_iff.2 hl0
  have hapi : angle ≤ Real.pi := (atan2_mem _ _).2
  change ∃ aa, (if decide (|angle| ≤ 1 / 1000000000000) = true then some 0 else if l = 0 then none else
      some ((angle / l) • (⟨-R.cz.y, R.cz.x, 0⟩ : Vec3 ℝ))) = some aa ∧ (ZmReal.fromAA aa).cz = R.cz
  rcases h2 with h2 | h2
  · have hxy : R.cz.x * R.cz.x + R.cz.y * R.cz.y = 0 := by rw [h2] at hzz; linarith
    have hx : R.cz.x = 0 := mul_self_eq_zero.1 (by nlinarith [mul_self_nonneg R.cz.y, mul_self_nonneg R.cz.x])
    have hy : R.cz.y = 0 := mul_self_eq_zero.1 (by nlinarith [mul_self_nonneg R.cz.y, mul_self_nonneg R.cz.x])
    have hl00 : l = 0 := by rw [hxy] at hll; exact mul_self_eq_zero.1 hll
    have hang : angle = 0 := by
      rw [ha, hl00, h2]; exact Complex.arg_one
    refine ⟨0, by rw [hang]; simp, ?_⟩
    rw [ZmReal.fromAA_zero]
    exact Vec3.ext hx.symm hy.symm h2.symm
  · have hbig : ¬|angle| ≤ 1 / 1000000000000 := by
      intro h
      rw [abs_of_nonneg ha0] at h
      have : Real.cos tol ≤ Real.cos angle :=
        Real.cos_le_cos_of_nonneg_of_le_pi ha0 (by unfold tol; linarith [Real.two_le_pi]) h
      rw [hc] at this
      exact absurd h2 (not_lt.2 this)
    have hl1 : l ≠ 0 := by
      intro h0
      rw [h0] at hll
      have : R.cz.z * R.cz.z = 1 := by linarith
      rcases mul_self_eq_one_iff.1 this with h | h
      · rw [h] at h2; exact absurd h2 (not_lt.2 (Real.cos_le_one _))
      · exact h1 h
    refine ⟨_, by rw [if_neg (by simpa using hbig), if_neg hl1], ?_⟩
    have hap : 0 < angle := lt_of_le_of_ne ha0 fun h => hbig (by rw [← h]; simp)
    have hn : dot (l⁻¹ • (⟨-R.cz.y, R.cz.x, 0⟩ : Vec3 ℝ)) (l⁻¹ • (⟨-R.cz.y, R.cz.x, 0⟩ : Vec3 ℝ)) = 1 := by
      rw [dot_smul_left, dot_smul_right]
      simp only [dot]
      rw [show -R.cz.y * -R.cz.y + R.cz.x * R.cz.x + 0 * 0 = l * l by rw [hll]; ring]
      field_simp
    have he : (angle / l) • (⟨-R.cz.y, R.cz.x, 0⟩ : Vec3 ℝ) = angle • (l⁻¹ • (⟨-R.cz.y, R.cz.x, 0⟩ : Vec3 ℝ)) := by
      rw [smul_smul]; rfl
    rw [he, ZmReal.fromAA_smul _ hn _ hap, hs, hc]
    have hz2 : R.cz.z * R.cz.z = 1 - l * l := by linarith
    simp only [ZmReal.rod]
    vec_unfold
    refine ⟨?_, ?_, ?_⟩
    · field_simp; ring
    · field_simp; ring
    · field_simp
      linear_combination (1 - R.cz.z) * hll

/-- `rkJointRevolTorsionDis`: the residual rotation and the displacement make up the attitude. -/
theorem revol_eq {dev : Frame ℝ} (hR : dev.att.IsRot) (h1 : dev.att.cz.z ≠ -1)
    (h2 : dev.att.cz.z = 1 ∨ dev.att.cz.z < Real.cos tol) :
    ∃ (aa : Vec3 ℝ) (q : ℝ), revolTorsionDis dev = some (q, dev.att.mulVecT aa) ∧ -Real.pi < q ∧ q ≤ Real.pi ∧
      (Zm.fromAA aa : Mat3 ℝ).cz = dev.att.cz ∧ (Zm.fromAA aa).mul (Rz (Real.sin q) (Real.cos q)) = dev.att := by
  obtain ⟨aa, e, hz⟩ := revol_rm hR h1 h2
  have hM : (Zm.fromAA aa : Mat3 ℝ).IsRot := ZmReal.fromAA_isRot aa
  obtain ⟨s, c, hsc, hR'⟩ := exists_rz hM hR hz
  refine ⟨aa, ZAtan.atan2 s c, ?_, (atan2_mem _ _).1, (atan2_mem _ _).2, hz, ?_⟩
  · unfold revolTorsionDis
    simp only at e ⊢
    rw [e, Option.map_some, Option.some.injEq]
    congr 1
    have ex : dev.att.cx = ((Zm.fromAA aa : Mat3 ℝ).mul (Rz s c)).cx := by rw [← hR']
    have ey : dev.att.cy = ((Zm.fromAA aa : Mat3 ℝ).mul (Rz s c)).cy := by rw [← hR']
    rw [ex, ey, vec3Angle_x hM, vec3Angle_y hM]
    ring
  · rw [sin_atan2 one_pos (by linarith), cos_atan2 one_pos (by linarith), div_one, div_one, ← hR']

end Torsion
end Roki
