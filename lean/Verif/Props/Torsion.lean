import Verif.Lemmas.Torsion
import Verif.Lemmas.FK
set_option autoImplicit false

/-!
# Joint torsion (C54)
-/

namespace Roki
open Spec Torsion

namespace Spec

/-- The frame a torsion stands for: it is given in the distorted frame `dev`. -/
noncomputable def torsionFrame (dev : Frame ℝ) (t : Vec6 ℝ) : Frame ℝ :=
  ⟨dev.att.mulVec t.lin, Zm.fromAA (dev.att.mulVec t.ang)⟩

/-- The distortions for which the joint has a well-defined torsion: a joint that turns about the z-axis must not be
tilted by a half turn, and its tilt must be zero or above the tolerance of `zIsTiny`; the second axis of a universal joint
must not be along the first axis of the original frame. -/
def Regular (p : Prp ℝ) (r : Mat3 ℝ) : Prop :=
  match p with
  | .revol _ | .cylin _ => r.cz.z ≠ -1 ∧ (r.cz.z = 1 ∨ r.cz.z < Real.cos (1 / 1000000000000))
  | .hooke _ => r.cy.y ≠ 0 ∨ r.cy.z ≠ 0
  | _ => True

end Spec

private theorem phase_id {q : ℝ} (h1 : -Real.pi < q) (h2 : q ≤ Real.pi) : (Zm.phaseNormalize q : ℝ) = q :=
  LawfulZm.phase_id q h1 h2

private theorem toAA_back {m : Mat3 ℝ} (h : m.IsRot) : (Zm.fromAA (Zm.toAA m) : Mat3 ℝ) = m := LawfulZm.fromAA_toAA m h

/-- The factorisation found for a universal joint. -/
theorem hooke_factor {R : Mat3 ℝ} (hR : R.IsRot) (h : R.cy.y ≠ 0 ∨ R.cy.z ≠ 0) :
    let qx : ℝ := ZAtan.atan2 R.cy.z R.cy.y
    let d0 : ℝ := ZAtan.atan2 (-R.cy.x) (Real.cos qx * R.cy.y + Real.sin qx * R.cy.z)
    let d1 : ℝ := ZAtan.atan2 (Real.cos d0 * R.cz.x) (Real.cos d0 * R.cx.x)
    (⟨⟨1, 0, 0⟩, ⟨0, Real.cos qx, Real.sin qx⟩, ⟨0, -Real.sin qx, Real.cos qx⟩⟩ : Mat3 ℝ).mul
      ((Rz (Real.sin d0) (Real.cos d0)).mul (Ry (Real.sin d1) (Real.cos d1))) = R := by
  intro qx d0 d1
  set r : ℝ := Real.sqrt (R.cy.y * R.cy.y + R.cy.z * R.cy.z) with hr
  have hp : 0 < R.cy.y * R.cy.y + R.cy.z * R.cy.z := by
    rcases h with h | h
    · nlinarith [mul_self_pos.2 h, mul_self_nonneg R.cy.z]
    · nlinarith [mul_self_pos.2 h, mul_self_nonneg R.cy.y]
  have hr0 : 0 < r := Real.sqrt_pos.2 hp
  have hrr : r * r = R.cy.y * R.cy.y + R.cy.z * R.cy.z := Real.mul_self_sqrt hp.le
  have hyy := hR.yy
  have hxx := hR.xx
  have hzz := hR.zz
  have hxy := hR.xy
  have hyz := hR.yz
  have hzx := hR.zx
  have htr := hR.tr
  have txx := htr.xx
  have txy := htr.xy
  have tzx := htr.zx
  have h_rh := hR.rh_yz
  have h_rh2 := hR.rh
  have h_rh3 := hR.rh_zx
  simp only [dot, Mat3.tr, cross] at hyy hxx hzz hxy hyz hzx txx txy tzx h_rh h_rh2 h_rh3
  have s1 : Real.sin qx = R.cy.z / r := sin_atan2 hr0 hrr.symm
  have c1 : Real.cos qx = R.cy.y / r := cos_atan2 hr0 hrr.symm
  have e1 : Real.cos qx * R.cy.y + Real.sin qx * R.cy.z = r := by
    rw [s1, c1]; field_simp; linarith
  have hu : r * r + -R.cy.x * -R.cy.x = 1 * 1 := by linarith
  have s2 : Real.sin d0 = -R.cy.x := by
    simp only [d0, e1]; rw [sin_atan2 one_pos hu, div_one]
  have c2 : Real.cos d0 = r := by
    simp only [d0, e1]; rw [cos_atan2 one_pos hu, div_one]
  have hv : (r * R.cx.x) * (r * R.cx.x) + (r * R.cz.x) * (r * R.cz.x) = (r * r) * (r * r) := by
    have : R.cx.x * R.cx.x + R.cz.x * R.cz.x = r * r := by linarith
    linear_combination (r * r) * this
  have hrr0 : 0 < r * r := mul_pos hr0 hr0
  have s3 : Real.sin d1 = R.cz.x / r := by
    simp only [d1, c2]; rw [sin_atan2 hrr0 hv]; field_simp
  have c3 : Real.cos d1 = R.cx.x / r := by
    simp only [d1, c2]; rw [cos_atan2 hrr0 hv]; field_simp
  rw [s1, c1, s2, c2, s3, c3]
  obtain ⟨a1, a2, a3⟩ := Vec3.ext_iff.1 h_rh
  obtain ⟨b1, b2, b3⟩ := Vec3.ext_iff.1 h_rh2
  obtain ⟨c1', c2', c3'⟩ := Vec3.ext_iff.1 h_rh3
  simp only at a1 a2 a3 b1 b2 b3 c1' c2' c3'
  simp only [Rz, Ry]
  vec_unfold
  have hr1 : r ≠ 0 := hr0.ne'
  refine ⟨⟨?_, ?_, ?_⟩, ⟨?_, ?_, ?_⟩, ⟨?_, ?_, ?_⟩⟩ <;> field_simp <;> grind

private theorem rotX (q : ℝ) : (Zm.fromAA (⟨q, 0, 0⟩ : Vec3 ℝ) : Mat3 ℝ) =
    ⟨⟨1, 0, 0⟩, ⟨0, Real.cos q, Real.sin q⟩, ⟨0, -Real.sin q, Real.cos q⟩⟩ := by
  change ZmReal.fromAA _ = _
  rcases lt_trichotomy q 0 with h | h | h
  · have e : (⟨q, 0, 0⟩ : Vec3 ℝ) = (-q) • ⟨-1, 0, 0⟩ := by vec_ring
    rw [e, ZmReal.fromAA_smul _ (by simp [dot]) _ (by linarith), Real.sin_neg, Real.cos_neg]
    simp only [ZmReal.rod]; vec_unfold; norm_num
  · subst h
    have e : (⟨0, 0, 0⟩ : Vec3 ℝ) = 0 := rfl
    rw [e, ZmReal.fromAA_zero]; vec_unfold; simp
  · have e : (⟨q, 0, 0⟩ : Vec3 ℝ) = q • ⟨1, 0, 0⟩ := by vec_ring
    rw [e, ZmReal.fromAA_smul _ (by simp [dot]) _ h]
    simp only [ZmReal.rod]; vec_unfold; norm_num

/-- C54: for every joint and every regular distortion, `rkJointTorsion` splits the relative frame into a torsion and a
joint displacement.  Unless the limits of the joint cut the displacement, setting it and transforming the frame of the
torsion by the joint gives the relative frame.  Missing: the distortions that are not regular, see below. -/
theorem C54_exact_partial (p : Prp ℝ) (dev : Frame ℝ) (hR : dev.att.IsRot) (hg : Regular p dev.att) :
    ∃ t dis, p.torsion dev = some (t, dis) ∧ (p.limDis dis = some dis →
      ∃ p', p.setDis dis = some p' ∧ p'.xform (torsionFrame dev t) = dev) := by
  have hp : dev.att.mulVec (dev.att.mulVecT dev.pos) = dev.pos := hR.mulVec_mulVecT _
  have hdev : ∀ m : Mat3 ℝ, m = dev.att → (⟨dev.pos, m⟩ : Frame ℝ) = dev := fun m h => by rw [h]
  have hz : dev.att.mulVec ⟨(dev.att.mulVecT dev.pos).x, (dev.att.mulVecT dev.pos).y, 0⟩ +
      (dev.att.mulVecT dev.pos).z • dev.att.cz = dev.pos := by
    conv_rhs => rw [← hp]
    generalize dev.att.mulVecT dev.pos = v
    vec_ring
  have one : ∀ v : Vec3 ℝ, (1 : Mat3 ℝ).mulVec v = v := fun v => by vec_ring
  cases p with
  | fixed =>
    refine ⟨_, _, rfl, fun _ => ⟨_, rfl, ?_⟩⟩
    simp only [Prp.xform, torsionFrame, Mat3.mulVecT6, hp, hR.mulVec_mulVecT, toAA_back hR]
  | revol q =>
    obtain ⟨aa, d, e, h1, h2, h3, h4⟩ := revol_eq hR hg.1 hg.2
    refine ⟨⟨dev.att.mulVecT dev.pos, dev.att.mulVecT aa⟩, [d], by simp only [Prp.torsion, e, Option.map_some],
      fun hl => ⟨_, rfl, ?_⟩⟩
    simp only [Prp.limDis, Option.some.injEq, List.cons.injEq, and_true] at hl
    simp only [Prp.xform, torsionFrame, hp, hR.mulVec_mulVecT, hl]
    apply hdev
    rw [← h4]
    change Prp.rotZ (Real.sin d) (Real.cos d) _ = _
    simp only [Prp.rotZ, Rz]; vec_ring
  | prism q =>
    refine ⟨_, _, rfl, fun hl => ⟨_, rfl, ?_⟩⟩
    simp only [Prp.limDis, Option.some.injEq, List.cons.injEq, and_true] at hl
    simp only [Prp.xform, torsionFrame, hR.mulVec_mulVecT, toAA_back hR, hl]
    exact Frame.ext hz rfl
  | cylin q =>
    obtain ⟨aa, d, e, h1, h2, h3, h4⟩ := revol_eq hR hg.1 hg.2
    refine ⟨⟨(prismTorsionDis dev).2, dev.att.mulVecT aa⟩, [(prismTorsionDis dev).1, d],
      by simp only [Prp.torsion, e, Option.map_some], fun hl => ⟨_, rfl, ?_⟩⟩
    simp only [Prp.limDis, Option.some.injEq, List.cons.injEq, and_true] at hl
    simp only [Prp.xform, torsionFrame, hR.mulVec_mulVecT, hl.1, hl.2]
    refine Frame.ext ?_ ?_
    · rw [h3]; exact hz
    · rw [← h4]
      change Prp.rotZ (Real.sin d) (Real.cos d) _ = _
      simp only [Prp.rotZ, Rz]; vec_ring
  | hooke q =>
    have hf := hooke_factor hR hg
    simp only at hf
    refine ⟨_, _, rfl, fun hl => ⟨_, rfl, ?_⟩⟩
    simp only [Prp.limDis, Option.some.injEq, List.cons.injEq, and_true] at hl
    simp only [Prp.xform, torsionFrame, hp, hl.1, hl.2]
    apply hdev
    have e : dev.att.mulVec ((ZAtan.atan2 dev.att.cy.z dev.att.cy.y : ℝ) • dev.att.tr.cx) =
        ⟨ZAtan.atan2 dev.att.cy.z dev.att.cy.y, 0, 0⟩ := by
      rw [Mat3.mulVec_smul]
      have : dev.att.mulVec dev.att.tr.cx = ⟨1, 0, 0⟩ := by
        rw [← hR.mulVec_mulVecT ⟨1, 0, 0⟩]
        congr 1
        vec_ring
      rw [this]; vec_ring
    rw [e, rotX]
    conv_rhs => rw [← hf]
    congr 1
    simp only [Prp.zyMat, Rz, Ry, Zm.sin, Zm.cos]
    vec_ring
  | spher q =>
    refine ⟨_, _, rfl, fun hl => ⟨_, rfl, ?_⟩⟩
    simp only [Prp.xform, torsionFrame, hp]
    apply hdev
    have h0 : dev.att.mulVec 0 = 0 := by vec_ring
    have : (⟨(Zm.toAA dev.att : Vec3 ℝ).x, (Zm.toAA dev.att : Vec3 ℝ).y, (Zm.toAA dev.att : Vec3 ℝ).z⟩ : Vec3 ℝ) =
      Zm.toAA dev.att := rfl
    rw [h0, LawfulZm.fromAA_zero, Mat3.one_mul', this, toAA_back hR]
  | float q =>
    refine ⟨_, _, rfl, fun hl => ⟨_, rfl, ?_⟩⟩
    have h0 : dev.att.mulVec 0 = 0 := by vec_ring
    have h1 : dev.att.mulVec (0 : Vec6 ℝ).lin = 0 := h0
    have h2 : dev.att.mulVec (0 : Vec6 ℝ).ang = 0 := h0
    simp only [Prp.xform, torsionFrame, h1, h2, LawfulZm.fromAA_zero, Frame.xform, one, Mat3.one_mul', add_zero]
    exact hdev _ (toAA_back hR)
  | brfloat q =>
    refine ⟨_, _, rfl, fun hl => ⟨_, rfl, ?_⟩⟩
    have h0 : dev.att.mulVec 0 = 0 := by vec_ring
    have h1 : dev.att.mulVec (0 : Vec6 ℝ).lin = 0 := h0
    have h2 : dev.att.mulVec (0 : Vec6 ℝ).ang = 0 := h0
    simp only [Prp.xform, torsionFrame, h1, h2, LawfulZm.fromAA_zero, Frame.xform, one, Mat3.one_mul', add_zero]
    exact hdev _ (toAA_back hR)

/-- The half turn about the x-axis. -/
private def halfTurn : Mat3 ℝ := ⟨⟨1, 0, 0⟩, ⟨0, -1, 0⟩, ⟨0, 0, -1⟩⟩

private theorem halfTurn_rot : halfTurn.IsRot := by
  constructor <;> simp [halfTurn, dot, cross]

/-- C54 fails for a revolute joint tilted by a half turn: the code divides by zero. -/
theorem C54_half_turn_fails : ∃ (r : Mat3 ℝ), r.IsRot ∧ ∀ (q : Dof1 ℝ) (pos : Vec3 ℝ),
    (Prp.revol q).torsion ⟨pos, r⟩ = none := by
  refine ⟨halfTurn, halfTurn_rot, fun q pos => ?_⟩
  have hl : (ZSqrt.sqrt ((-halfTurn.cz.y) * (-halfTurn.cz.y) + halfTurn.cz.x * halfTurn.cz.x) : ℝ) = 0 := by
    change Real.sqrt _ = 0
    simp [halfTurn]
  have ha : (ZAtan.atan2 (0 : ℝ) halfTurn.cz.z : ℝ) = Real.pi := by
    change Complex.arg ⟨-1, 0⟩ = _
    rw [show (⟨-1, 0⟩ : ℂ) = -1 by apply Complex.ext <;> simp, Complex.arg_neg_one]
  have ht : (Zm.tiny (Real.pi : ℝ)) = false := by
    change decide (|Real.pi| ≤ 1 / 1000000000000) = false
    rw [decide_eq_false_iff_not, abs_of_pos Real.pi_pos]
    have := Real.two_le_pi
    linarith
  simp only [Prp.torsion, revolTorsionDis, hl, ha, ht]
  simp

/-- The cyclic permutation of the axes that takes the second axis to the first. -/
private def cyc : Mat3 ℝ := ⟨⟨0, 0, 1⟩, ⟨1, 0, 0⟩, ⟨0, 1, 0⟩⟩

private theorem cyc_rot : cyc.IsRot := by
  constructor <;> simp [cyc, dot, cross]

/-- C54 fails for a universal joint whose second axis has been turned to the first axis of the original frame: the
displacement and the torsion found do not make up the frame, whatever the position. -/
theorem C54_hooke_fails : ∃ r : Mat3 ℝ, r.IsRot ∧ ∀ (q : Dof2 ℝ) (pos : Vec3 ℝ), q.lo0 = none → q.hi0 = none →
    q.lo1 = none → q.hi1 = none →
    ∃ t dis p', (Prp.hooke q).torsion ⟨pos, r⟩ = some (t, dis) ∧ (Prp.hooke q).limDis dis = some dis ∧
      (Prp.hooke q).setDis dis = some p' ∧ p'.xform (torsionFrame ⟨pos, r⟩ t) ≠ ⟨pos, r⟩ := by
  refine ⟨cyc, cyc_rot, fun q pos l0 u0 l1 u1 => ?_⟩
  have z : (ZAtan.atan2 (0 : ℝ) 0 : ℝ) = 0 := Complex.arg_zero
  have n : (ZAtan.atan2 (-1 : ℝ) 0 : ℝ) = -(Real.pi / 2) := by
    have : Complex.arg ⟨0, -1⟩ = -(Real.pi / 2) := by
      have e : (⟨0, -1⟩ : ℂ) = -Complex.I := by apply Complex.ext <;> simp
      rw [e, Complex.arg_neg_I]
    exact this
  have ht : (Prp.hooke q).torsion ⟨pos, cyc⟩ = some (⟨cyc.mulVecT pos, 0⟩, [-(Real.pi / 2), 0]) := by
    have e1 : cyc.cy.z = 0 := rfl
    have e2 : cyc.cy.y = 0 := rfl
    have e3 : cyc.cy.x = 1 := rfl
    have e4 : cyc.cz.x = 0 := rfl
    have e5 : cyc.cx.x = 0 := rfl
    simp only [Prp.torsion, e1, e2, e3, e4, e5, z, mul_zero, add_zero, n, zero_smul]
  have pi := Real.pi_pos
  have i1 : (Zm.phaseNormalize (-(Real.pi / 2)) : ℝ) = -(Real.pi / 2) := phase_id (by linarith) (by linarith)
  have i2 : (Zm.phaseNormalize (0 : ℝ) : ℝ) = 0 := phase_id (by linarith) (by linarith)
  refine ⟨_, _, _, ht, ?_, rfl, ?_⟩
  · simp only [Prp.limDis, l0, u0, l1, u1, limit, i1, i2]
  · intro h
    have h' := congrArg (fun f => f.att.cx.z) h
    have m0 : cyc.mulVec 0 = 0 := by vec_ring
    simp only [Prp.xform, torsionFrame, m0, LawfulZm.fromAA_zero, Mat3.one_mul', l0, u0, l1, u1, limit, i1, i2] at h'
    simp only [Prp.zyMat, cyc, LawfulZm.sin_zero] at h'
    norm_num at h'

/-- A case for C54: a revolute joint tilted by a right angle about the x-axis. -/
example : ∃ r : Mat3 ℝ, r.IsRot ∧ r ≠ 1 ∧ ∀ q : Dof1 ℝ, Regular (.revol q) r := by
  refine ⟨⟨⟨1, 0, 0⟩, ⟨0, 0, 1⟩, ⟨0, -1, 0⟩⟩, by constructor <;> simp [dot, cross], ?_, fun q => ⟨by norm_num, .inr ?_⟩⟩
  · intro h
    have : (0 : ℝ) = 1 := congrArg (fun m : Mat3 ℝ => m.cy.y) h
    exact zero_ne_one this
  · refine Real.cos_pos_of_mem_Ioo ⟨?_, ?_⟩
    · have := Real.pi_pos; norm_num; linarith
    · have := Real.two_le_pi; linarith

/-- A case for C54: a universal joint at a generic attitude. -/
example : ∃ r : Mat3 ℝ, r.IsRot ∧ r ≠ 1 ∧ ∀ q : Dof2 ℝ, Regular (.hooke q) r :=
  ⟨⟨⟨1, 0, 0⟩, ⟨0, 0, 1⟩, ⟨0, -1, 0⟩⟩, by constructor <;> simp [dot, cross], fun h => by
    have : (0 : ℝ) = 1 := congrArg (fun m : Mat3 ℝ => m.cy.y) h
    exact zero_ne_one this, fun q => .inr (by norm_num)⟩

end Roki
