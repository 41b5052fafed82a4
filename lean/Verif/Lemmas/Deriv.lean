import Verif.Lemmas.Path
import Verif.Spec.Motion
import Mathlib.Analysis.Calculus.Deriv.Mul
import Mathlib.Analysis.Calculus.Deriv.Add
import Mathlib.Analysis.SpecialFunctions.Trigonometric.Deriv

/-! # Derivatives of vectors, rotations and frames -/

namespace Roki
open Spec

theorem vecDeriv_congr {v w : ℝ → Vec3 ℝ} {v' w' : Vec3 ℝ} {t : ℝ} (h : VecDeriv v v' t)
    (h1 : ∀ s, w s = v s) (h2 : w' = v') : VecDeriv w w' t := by
  have : w = v := funext h1
  subst this h2; exact h

theorem vecDeriv_const (v : Vec3 ℝ) (t : ℝ) : VecDeriv (fun _ => v) 0 t :=
  ⟨hasDerivAt_const t _, hasDerivAt_const t _, hasDerivAt_const t _⟩

theorem matDeriv_const (m : Mat3 ℝ) (t : ℝ) : MatDeriv (fun _ => m) 0 t :=
  ⟨vecDeriv_const _ _, vecDeriv_const _ _, vecDeriv_const _ _⟩

theorem Spec.VecDeriv.add {v w : ℝ → Vec3 ℝ} {v' w' : Vec3 ℝ} {t : ℝ} (hv : VecDeriv v v' t)
    (hw : VecDeriv w w' t) : VecDeriv (fun s => v s + w s) (v' + w') t :=
  ⟨hv.1.add hw.1, hv.2.1.add hw.2.1, hv.2.2.add hw.2.2⟩

theorem Spec.VecDeriv.sub {v w : ℝ → Vec3 ℝ} {v' w' : Vec3 ℝ} {t : ℝ} (hv : VecDeriv v v' t)
    (hw : VecDeriv w w' t) : VecDeriv (fun s => v s - w s) (v' - w') t :=
  ⟨hv.1.sub hw.1, hv.2.1.sub hw.2.1, hv.2.2.sub hw.2.2⟩

theorem Spec.VecDeriv.smul {k : ℝ → ℝ} {k' : ℝ} {v : ℝ → Vec3 ℝ} {v' : Vec3 ℝ} {t : ℝ}
    (hk : HasDerivAt k k' t) (hv : VecDeriv v v' t) :
    VecDeriv (fun s => k s • v s) (k' • v t + k t • v') t :=
  ⟨hk.mul hv.1, hk.mul hv.2.1, hk.mul hv.2.2⟩

theorem Spec.VecDeriv.cross {v w : ℝ → Vec3 ℝ} {v' w' : Vec3 ℝ} {t : ℝ} (hv : VecDeriv v v' t)
    (hw : VecDeriv w w' t) :
    VecDeriv (fun s => Roki.cross (v s) (w s)) (Roki.cross v' (w t) + Roki.cross (v t) w') t := by
  obtain ⟨a, b, c⟩ := hv
  obtain ⟨d, e, f⟩ := hw
  refine ⟨((b.mul f).sub (c.mul e)).congr_deriv ?_, ((c.mul d).sub (a.mul f)).congr_deriv ?_,
    ((a.mul e).sub (b.mul d)).congr_deriv ?_⟩ <;> simp [Roki.cross] <;> ring

theorem Spec.MatDeriv.mulVec {m : ℝ → Mat3 ℝ} {m' : Mat3 ℝ} {v : ℝ → Vec3 ℝ} {v' : Vec3 ℝ} {t : ℝ}
    (hm : MatDeriv m m' t) (hv : VecDeriv v v' t) :
    VecDeriv (fun s => (m s).mulVec (v s)) (m'.mulVec (v t) + (m t).mulVec v') t := by
  obtain ⟨⟨a1, a2, a3⟩, ⟨b1, b2, b3⟩, ⟨c1, c2, c3⟩⟩ := hm
  obtain ⟨d, e, f⟩ := hv
  refine ⟨(((d.mul a1).add (e.mul b1)).add (f.mul c1)).congr_deriv ?_,
    (((d.mul a2).add (e.mul b2)).add (f.mul c2)).congr_deriv ?_,
    (((d.mul a3).add (e.mul b3)).add (f.mul c3)).congr_deriv ?_⟩ <;> simp [Mat3.mulVec] <;> ring

theorem Spec.MatDeriv.tr {m : ℝ → Mat3 ℝ} {m' : Mat3 ℝ} {t : ℝ} (hm : MatDeriv m m' t) :
    MatDeriv (fun s => (m s).tr) m'.tr t :=
  ⟨⟨hm.1.1, hm.2.1.1, hm.2.2.1⟩, ⟨hm.1.2.1, hm.2.1.2.1, hm.2.2.2.1⟩,
   ⟨hm.1.2.2, hm.2.1.2.2, hm.2.2.2.2⟩⟩

theorem Spec.MatDeriv.mulVecT {m : ℝ → Mat3 ℝ} {m' : Mat3 ℝ} {v : ℝ → Vec3 ℝ} {v' : Vec3 ℝ} {t : ℝ}
    (hm : MatDeriv m m' t) (hv : VecDeriv v v' t) :
    VecDeriv (fun s => (m s).mulVecT (v s)) (m'.mulVecT (v t) + (m t).mulVecT v') t := by
  have := hm.tr.mulVec hv
  simpa only [Mat3.mulVecT_eq] using this

theorem Spec.MatDeriv.mul {m n : ℝ → Mat3 ℝ} {m' n' : Mat3 ℝ} {t : ℝ}
    (hm : MatDeriv m m' t) (hn : MatDeriv n n' t) :
    MatDeriv (fun s => (m s).mul (n s)) (m'.mul (n t) + (m t).mul n') t :=
  ⟨hm.mulVec hn.1, hm.mulVec hn.2.1, hm.mulVec hn.2.2⟩

/-- The frame `F` moves at time `t` with the twist `v`, expressed in the moving frame. -/
def PoseDeriv (F : ℝ → Frame ℝ) (v : Vec6 ℝ) (t : ℝ) : Prop :=
  MatDeriv (fun s => (F s).att) ((F t).att.mul (Mat3.skew v.ang)) t ∧
  VecDeriv (fun s => (F s).pos) ((F t).att.mulVec v.lin) t

theorem poseDeriv_const (F : Frame ℝ) (t : ℝ) : PoseDeriv (fun _ => F) 0 t := by
  have h1 : F.att.mul (Mat3.skew (0 : Vec6 ℝ).ang) = 0 := by vec_ring
  have h2 : F.att.mulVec (0 : Vec6 ℝ).lin = 0 := by vec_ring
  exact ⟨by rw [h1]; exact matDeriv_const _ _, by rw [h2]; exact vecDeriv_const _ _⟩

/-- Composition of moving frames. -/
theorem PoseDeriv.cascade {F G : ℝ → Frame ℝ} {v w : Vec6 ℝ} {t : ℝ} (hG : (G t).att.IsRot)
    (hF : PoseDeriv F v t) (hw : PoseDeriv G w t) :
    PoseDeriv (fun s => (F s).cascade (G s)) ((G t).xform6Lin v + w) t := by
  have hsk : ∀ a : Vec3 ℝ, (G t).att.mul (Mat3.skew ((G t).att.mulVecT a)) =
      (Mat3.skew a).mul (G t).att := by
    intro a
    apply Mat3.ext_mulVec
    intro u
    rw [Mat3.mul_mulVec, Mat3.mul_mulVec, Mat3.skew_mulVec, Mat3.skew_mulVec, hG.mulVec_cross,
      hG.mulVec_mulVecT]
  have hadd : ∀ a b : Vec3 ℝ, Mat3.skew (a + b) = Mat3.skew a + Mat3.skew b := by
    intro a b; vec_ring
  refine ⟨?_, ?_⟩
  · have h := hF.1.mul hw.1
    have e : ((F t).cascade (G t)).att.mul (Mat3.skew ((G t).xform6Lin v + w).ang) =
        ((F t).att.mul (Mat3.skew v.ang)).mul (G t).att +
          (F t).att.mul ((G t).att.mul (Mat3.skew w.ang)) := by
      show ((F t).att.mul (G t).att).mul (Mat3.skew ((G t).att.mulVecT v.ang + w.ang)) = _
      rw [hadd, Mat3.mul_add', Mat3.mul_assoc', Mat3.mul_assoc', hsk, Mat3.mul_assoc']
    rw [e]
    exact h
  · have h := hF.2.add (hF.1.mulVec hw.2)
    refine vecDeriv_congr h ?_ ?_
    · intro s; rfl
    · show ((F t).att.mul (G t).att).mulVec ((G t).att.mulVecT (v.lin + Roki.cross v.ang (G t).pos) + w.lin) = _
      rw [Mat3.mul_mulVec, Mat3.mulVec_add, hG.mulVec_mulVecT, Mat3.mul_mulVec, Mat3.skew_mulVec,
        Mat3.mulVec_add, Mat3.mulVec_add]
      abel

/-- The twist of a joint in the moving frame. -/
noncomputable def jointTwist (p : Prp ℝ) : Vec6 ℝ := p.incVel 0

theorem incVel_eq (p : Prp ℝ) (v : Vec6 ℝ) : p.incVel v = v + jointTwist p := by
  cases p <;> simp only [jointTwist, Prp.incVel] <;> vec_ring

theorem jointMotion_WF {p : ℝ → Prp ℝ} (h : JointMotion p) (t : ℝ) : (p t).WF := by
  cases h with
  | fixed => trivial
  | revol d h =>
    show (d t).s * (d t).s + (d t).c * (d t).c = 1
    rw [(h t).1, (h t).2.1]; nlinarith [Real.sin_sq_add_cos_sq (d t).dis]
  | prism d h => trivial
  | cylin d h =>
    show (d t).s1 * (d t).s1 + (d t).c1 * (d t).c1 = 1
    rw [(h t).1, (h t).2.1]; nlinarith [Real.sin_sq_add_cos_sq (d t).dis1]
  | hooke d h =>
    show (d t).s0 * (d t).s0 + (d t).c0 * (d t).c0 = 1 ∧ (d t).s1 * (d t).s1 + (d t).c1 * (d t).c1 = 1
    rw [(h t).1, (h t).2.1, (h t).2.2.1, (h t).2.2.2.1]
    constructor <;> nlinarith [Real.sin_sq_add_cos_sq (d t).dis0, Real.sin_sq_add_cos_sq (d t).dis1]
  | spher d h => exact (h t).1
  | float d h => exact (h t).1
  | brfloat d h => exact (h t).1

theorem hasDerivAt_sin' {f s : ℝ → ℝ} {f' : ℝ} {t : ℝ} (h : HasDerivAt f f' t)
    (hs : ∀ u, s u = Real.sin (f u)) : HasDerivAt s (Real.cos (f t) * f') t := by
  have : s = fun u => Real.sin (f u) := funext hs
  rw [this]; exact h.sin

theorem hasDerivAt_cos' {f c : ℝ → ℝ} {f' : ℝ} {t : ℝ} (h : HasDerivAt f f' t)
    (hs : ∀ u, c u = Real.cos (f u)) : HasDerivAt c (-Real.sin (f t) * f') t := by
  have : c = fun u => Real.cos (f u) := funext hs
  rw [this]; exact h.cos

theorem matDeriv_Rz {s c : ℝ → ℝ} {v t : ℝ} (hs : HasDerivAt s (c t * v) t)
    (hc : HasDerivAt c (-s t * v) t) :
    MatDeriv (fun u => Rz (s u) (c u)) ((Rz (s t) (c t)).mul (Mat3.skew ⟨0, 0, v⟩)) t := by
  refine ⟨⟨hc.congr_deriv ?_, hs.congr_deriv ?_, (hasDerivAt_const t _).congr_deriv ?_⟩,
    ⟨hs.neg.congr_deriv ?_, hc.congr_deriv ?_, (hasDerivAt_const t _).congr_deriv ?_⟩,
    ⟨(hasDerivAt_const t _).congr_deriv ?_, (hasDerivAt_const t _).congr_deriv ?_,
      (hasDerivAt_const t _).congr_deriv ?_⟩⟩ <;> simp [Rz, Mat3.mul, Mat3.mulVec, Mat3.skew, mul_comm]

theorem matDeriv_Ry {s c : ℝ → ℝ} {v t : ℝ} (hs : HasDerivAt s (c t * v) t)
    (hc : HasDerivAt c (-s t * v) t) :
    MatDeriv (fun u => Ry (s u) (c u)) ((Ry (s t) (c t)).mul (Mat3.skew ⟨0, v, 0⟩)) t := by
  refine ⟨⟨hc.congr_deriv ?_, (hasDerivAt_const t _).congr_deriv ?_, hs.neg.congr_deriv ?_⟩,
    ⟨(hasDerivAt_const t _).congr_deriv ?_, (hasDerivAt_const t _).congr_deriv ?_,
      (hasDerivAt_const t _).congr_deriv ?_⟩,
    ⟨hs.congr_deriv ?_, (hasDerivAt_const t _).congr_deriv ?_, hc.congr_deriv ?_⟩⟩ <;>
    simp [Ry, Mat3.mul, Mat3.mulVec, Mat3.skew, mul_comm]

theorem skew_mul_eq {R : Mat3 ℝ} (h : R.IsRot) (w : Vec3 ℝ) :
    (Mat3.skew w).mul R = R.mul (Mat3.skew (R.mulVecT w)) := by
  apply Mat3.ext_mulVec
  intro u
  rw [Mat3.mul_mulVec, Mat3.mul_mulVec, Mat3.skew_mulVec, Mat3.skew_mulVec, h.mulVec_cross,
    h.mulVec_mulVecT]

/-- The relative frame of a moving joint moves with the joint twist. -/
theorem jointMotion_pose {p : ℝ → Prp ℝ} (h : JointMotion p) (t : ℝ) :
    PoseDeriv (fun s => jointFrame (p s)) (jointTwist (p t)) t := by
  cases h with
  | fixed => exact poseDeriv_const _ _
  | revol d h =>
    have hs := hasDerivAt_sin' (h t).2.2 fun u => (h u).1
    have hc := hasDerivAt_cos' (h t).2.2 fun u => (h u).2.1
    rw [← (h t).2.1] at hs
    rw [← (h t).1] at hc
    refine ⟨?_, ?_⟩
    · have := matDeriv_Rz (s := fun u => (d u).s) (c := fun u => (d u).c) hs hc
      simpa [jointTwist, jointFrame, Prp.incVel] using this
    · have e : (jointFrame (.revol (d t))).att.mulVec (jointTwist (.revol (d t))).lin = 0 := by
        simp only [jointTwist, jointFrame, Prp.incVel]; vec_ring
      rw [e]; exact vecDeriv_const _ _
  | prism d h =>
    refine ⟨?_, ?_⟩
    · have e : (jointFrame (.prism (d t))).att.mul (Mat3.skew (jointTwist (.prism (d t))).ang) = 0 := by
        simp only [jointTwist, jointFrame, Prp.incVel]; vec_ring
      rw [e]; exact matDeriv_const _ _
    · refine ⟨(hasDerivAt_const t _).congr_deriv ?_, (hasDerivAt_const t _).congr_deriv ?_,
        (h t).congr_deriv ?_⟩ <;> simp [jointTwist, jointFrame, Prp.incVel, Mat3.mulVec]
  | cylin d h =>
    have hs := hasDerivAt_sin' (h t).2.2.2 fun u => (h u).1
    have hc := hasDerivAt_cos' (h t).2.2.2 fun u => (h u).2.1
    rw [← (h t).2.1] at hs
    rw [← (h t).1] at hc
    refine ⟨?_, ?_⟩
    · have := matDeriv_Rz (s := fun u => (d u).s1) (c := fun u => (d u).c1) hs hc
      simpa [jointTwist, jointFrame, Prp.incVel] using this
    · refine ⟨(hasDerivAt_const t _).congr_deriv ?_, (hasDerivAt_const t _).congr_deriv ?_,
        (h t).2.2.1.congr_deriv ?_⟩ <;> simp [jointTwist, jointFrame, Prp.incVel, Mat3.mulVec, Rz]
  | hooke d h =>
    have hs0 := hasDerivAt_sin' (h t).2.2.2.2.1 fun u => (h u).1
    have hc0 := hasDerivAt_cos' (h t).2.2.2.2.1 fun u => (h u).2.1
    have hs1 := hasDerivAt_sin' (h t).2.2.2.2.2 fun u => (h u).2.2.1
    have hc1 := hasDerivAt_cos' (h t).2.2.2.2.2 fun u => (h u).2.2.2.1
    rw [← (h t).2.1] at hs0
    rw [← (h t).1] at hc0
    rw [← (h t).2.2.2.1] at hs1
    rw [← (h t).2.2.1] at hc1
    have hwf : (d t).s1 * (d t).s1 + (d t).c1 * (d t).c1 = 1 :=
      (jointMotion_WF (JointMotion.hooke d h) t).2
    refine ⟨?_, ?_⟩
    · have h1 := (matDeriv_Rz (s := fun u => (d u).s0) (c := fun u => (d u).c0) hs0 hc0).mul
        (matDeriv_Ry (s := fun u => (d u).s1) (c := fun u => (d u).c1) hs1 hc1)
      have e : (jointFrame (.hooke (d t))).att.mul (Mat3.skew (jointTwist (.hooke (d t))).ang) =
          ((Rz (d t).s0 (d t).c0).mul (Mat3.skew ⟨0, 0, (d t).vel0⟩)).mul (Ry (d t).s1 (d t).c1) +
          (Rz (d t).s0 (d t).c0).mul ((Ry (d t).s1 (d t).c1).mul (Mat3.skew ⟨0, (d t).vel1, 0⟩)) := by
        have hR := isRot_Ry hwf
        have e1 : (jointTwist (.hooke (d t))).ang = (Ry (d t).s1 (d t).c1).mulVecT ⟨0, 0, (d t).vel0⟩ +
            ⟨0, (d t).vel1, 0⟩ := by
          simp only [jointTwist, Prp.incVel, Ry]; vec_ring
        have hadd : ∀ a b : Vec3 ℝ, Mat3.skew (a + b) = Mat3.skew a + Mat3.skew b := by
          intro a b; vec_ring
        rw [e1, hadd]
        simp only [jointFrame]
        rw [Mat3.mul_add', Mat3.mul_assoc', ← skew_mul_eq hR, Mat3.mul_assoc', Mat3.mul_assoc']
      rw [e]; exact h1
    · have e : (jointFrame (.hooke (d t))).att.mulVec (jointTwist (.hooke (d t))).lin = 0 := by
        simp only [jointTwist, jointFrame, Prp.incVel]; vec_ring
      rw [e]; exact vecDeriv_const _ _
  | spher d h =>
    refine ⟨?_, ?_⟩
    · have h1 := (h t).2
      unfold RotMotion at h1
      rw [skew_mul_eq (h t).1] at h1
      simpa [jointTwist, jointFrame, Prp.incVel] using h1
    · have e : (jointFrame (.spher (d t))).att.mulVec (jointTwist (.spher (d t))).lin = 0 := by
        simp only [jointTwist, jointFrame, Prp.incVel]; vec_ring
      rw [e]; exact vecDeriv_const _ _
  | float d h =>
    refine ⟨?_, ?_⟩
    · have h1 := (h t).2.1
      unfold RotMotion at h1
      rw [skew_mul_eq (h t).1] at h1
      simpa [jointTwist, jointFrame, Prp.incVel, Mat3.mulVecT6] using h1
    · have e : (jointFrame (.float (d t))).att.mulVec (jointTwist (.float (d t))).lin = (d t).vel.lin := by
        simp [jointTwist, jointFrame, Prp.incVel, Mat3.mulVecT6, (h t).1.mulVec_mulVecT]
      rw [e]; exact (h t).2.2
  | brfloat d h =>
    refine ⟨?_, ?_⟩
    · have h1 := (h t).2.1
      unfold RotMotion at h1
      rw [skew_mul_eq (h t).1] at h1
      simpa [jointTwist, jointFrame, Prp.incVel, Mat3.mulVecT6] using h1
    · have e : (jointFrame (.brfloat (d t))).att.mulVec (jointTwist (.brfloat (d t))).lin = (d t).vel.lin := by
        simp [jointTwist, jointFrame, Prp.incVel, Mat3.mulVecT6, (h t).1.mulVec_mulVecT]
      rw [e]; exact (h t).2.2


/-! ## Along a path -/

/-- A link that moves: fixed original frame, moving joint. -/
structure LinkMotion (m : ℝ → Link ℝ) : Prop where
  org : ∀ s s', (m s).org = (m s').org
  rot : ∀ s, (m s).org.att.IsRot
  joint : JointMotion fun s => (m s).joint.prp

theorem LinkMotion.linkFrame_rot {m : ℝ → Link ℝ} (h : LinkMotion m) (s : ℝ) :
    (linkFrame (m s)).att.IsRot := isRot_linkFrame (h.rot s) (jointMotion_WF h.joint s)

theorem LinkMotion.pose {m : ℝ → Link ℝ} (h : LinkMotion m) (t : ℝ) :
    PoseDeriv (fun s => linkFrame (m s)) (jointTwist (m t).joint.prp) t := by
  have h1 := (poseDeriv_const (m t).org t).cascade (G := fun s => jointFrame (m s).joint.prp)
    (isRot_jointFrame (jointMotion_WF h.joint t)) (jointMotion_pose h.joint t)
  rw [Frame.xform6Lin_zero, zero_add] at h1
  have e : (fun s => linkFrame (m s)) = fun s => (m t).org.cascade (jointFrame (m s).joint.prp) := by
    funext s; simp only [linkFrame, h.org s t]
  rw [e]; exact h1

theorem LinkMotion.step {m : ℝ → Link ℝ} (h : LinkMotion m) {F : ℝ → Frame ℝ} {v : Vec6 ℝ} {t : ℝ}
    (hF : PoseDeriv F v t) :
    PoseDeriv (fun s => (F s).cascade (linkFrame (m s))) (stepVel v (m t)) t := by
  have h1 := hF.cascade (G := fun s => linkFrame (m s)) (h.linkFrame_rot t) (h.pose t)
  rw [stepVel, incVel_eq]
  exact h1

/-- The frames along a path move with the twists computed along it. -/
theorem path_pose (ms : List (ℝ → Link ℝ)) (h : ∀ m ∈ ms, LinkMotion m) {F : ℝ → Frame ℝ}
    {v : Vec6 ℝ} {t : ℝ} (hF : PoseDeriv F v t) :
    PoseDeriv (fun s => (F s).cascade (product (ms.map fun m => linkFrame (m s))))
      (ms.foldl (fun v m => stepVel v (m t)) v) t := by
  induction ms generalizing F v with
  | nil =>
    have e : (fun s => (F s).cascade (product (([] : List (ℝ → Link ℝ)).map fun m => linkFrame (m s)))) = F := by
      funext s; exact Frame.cascade_ident _
    rw [e]; exact hF
  | cons m ms ih =>
    have h1 := ih (fun n hn => h n (by simp [hn])) ((h m (by simp)).step hF)
    simp only [List.map_cons, List.foldl_cons, cascade_product_cons]
    exact h1

/-! ## Accelerations -/

/-- The twist `v`, a function of time, of the frame `F` changes at `t` according to the classical
acceleration `a`, which includes the offset `g` of the root acceleration. -/
def AccDeriv (F : ℝ → Frame ℝ) (v : ℝ → Vec6 ℝ) (a : Vec6 ℝ) (g : Vec3 ℝ) (t : ℝ) : Prop :=
  VecDeriv (fun s => (v s).ang) a.ang t ∧
  VecDeriv (fun s => (v s).lin)
    (a.lin - Roki.cross (v t).ang (v t).lin - (F t).att.mulVecT g) t

theorem rotMotion_mulVecT {R : ℝ → Mat3 ℝ} {w u' : Vec3 ℝ} {u : ℝ → Vec3 ℝ} {t : ℝ} (hR : (R t).IsRot)
    (h : RotMotion R w t) (hu : VecDeriv u u' t) :
    VecDeriv (fun s => (R s).mulVecT (u s))
      ((R t).mulVecT u' - Roki.cross ((R t).mulVecT w) ((R t).mulVecT (u t))) t := by
  refine vecDeriv_congr (Spec.MatDeriv.mulVecT h hu) (fun _ => rfl) ?_
  have e : ((Mat3.skew w).mul (R t)).mulVecT (u t) = -(R t).mulVecT (Roki.cross w (u t)) := by
    vec_ring
  rw [e, hR.mulVecT_cross]
  abel

theorem jointTwist_deriv {p : ℝ → Prp ℝ} (h : JointMotion p) (ha : AccMotion p) (t : ℝ)
    (hf : FloatScrew (p t)) :
    ∃ e : Vec6 ℝ, VecDeriv (fun s => (jointTwist (p s)).ang) e.ang t ∧
      VecDeriv (fun s => (jointTwist (p s)).lin) e.lin t ∧
      ∀ (w : Vec3 ℝ) (a : Vec6 ℝ), (p t).incAcc ((p t).incAccOnVel (w + (jointTwist (p t)).ang) a) =
        a + ⟨(2 : ℝ) • Roki.cross w (jointTwist (p t)).lin +
              Roki.cross (jointTwist (p t)).ang (jointTwist (p t)).lin + e.lin,
             Roki.cross w (jointTwist (p t)).ang + e.ang⟩ := by
  have z : VecDeriv (fun _ => (0 : Vec3 ℝ)) 0 t := vecDeriv_const _ _
  have zc : ∀ x : ℝ, HasDerivAt (fun _ : ℝ => x) 0 t := fun x => hasDerivAt_const t x
  cases h with
  | fixed =>
    refine ⟨0, z, z, ?_⟩
    intro w a
    simp only [Prp.incAcc, Prp.incAccOnVel, jointTwist, Prp.incVel]; vec_ring
  | revol d h =>
    have h0 : HasDerivAt (fun s => (d s).vel) (d t).acc t := ha t 0 (by simp [Prp.size])
    refine ⟨⟨0, ⟨0, 0, (d t).acc⟩⟩, ?_, z, ?_⟩
    · refine ⟨(zc _).congr_deriv rfl, (zc _).congr_deriv rfl, ?_⟩
      simpa [jointTwist, Prp.incVel] using h0
    · intro w a
      simp only [Prp.incAcc, Prp.incAccOnVel, jointTwist, Prp.incVel]; vec_ring
  | prism d h =>
    have h0 : HasDerivAt (fun s => (d s).vel) (d t).acc t := ha t 0 (by simp [Prp.size])
    refine ⟨⟨⟨0, 0, (d t).acc⟩, 0⟩, z, ?_, ?_⟩
    · refine ⟨(zc _).congr_deriv rfl, (zc _).congr_deriv rfl, ?_⟩
      simpa [jointTwist, Prp.incVel] using h0
    · intro w a
      simp only [Prp.incAcc, Prp.incAccOnVel, jointTwist, Prp.incVel]; vec_ring
  | cylin d h =>
    have h0 : HasDerivAt (fun s => (d s).vel0) (d t).acc0 t := ha t 0 (by simp [Prp.size])
    have h1 : HasDerivAt (fun s => (d s).vel1) (d t).acc1 t := ha t 1 (by simp [Prp.size])
    refine ⟨⟨⟨0, 0, (d t).acc0⟩, ⟨0, 0, (d t).acc1⟩⟩, ?_, ?_, ?_⟩
    · refine ⟨(zc _).congr_deriv rfl, (zc _).congr_deriv rfl, ?_⟩
      simpa [jointTwist, Prp.incVel] using h1
    · refine ⟨(zc _).congr_deriv rfl, (zc _).congr_deriv rfl, ?_⟩
      simpa [jointTwist, Prp.incVel] using h0
    · intro w a
      simp only [Prp.incAcc, Prp.incAccOnVel, jointTwist, Prp.incVel]; vec_ring
  | hooke d h =>
    have h0 : HasDerivAt (fun s => (d s).vel0) (d t).acc0 t := ha t 0 (by simp [Prp.size])
    have h1 : HasDerivAt (fun s => (d s).vel1) (d t).acc1 t := ha t 1 (by simp [Prp.size])
    have hs1 := hasDerivAt_sin' (h t).2.2.2.2.2 fun u => (h u).2.2.1
    have hc1 := hasDerivAt_cos' (h t).2.2.2.2.2 fun u => (h u).2.2.2.1
    rw [← (h t).2.2.2.1] at hs1
    rw [← (h t).2.2.1] at hc1
    refine ⟨⟨0, ⟨-((d t).c1 * (d t).vel1) * (d t).vel0 - (d t).s1 * (d t).acc0, (d t).acc1,
      -((d t).s1 * (d t).vel1) * (d t).vel0 + (d t).c1 * (d t).acc0⟩⟩, ?_, z, ?_⟩
    · refine ⟨?_, ?_, ?_⟩
      · have := (hs1.neg.mul h0)
        simp only [jointTwist, Prp.incVel, Vec6.zero_ang, zero_add]
        exact this.congr_deriv (by simp; ring)
      · simpa [jointTwist, Prp.incVel] using h1
      · have := (hc1.mul h0)
        simp only [jointTwist, Prp.incVel, Vec6.zero_ang, zero_add]
        exact this.congr_deriv (by simp)
    · intro w a
      simp only [Prp.incAcc, Prp.incAccOnVel, jointTwist, Prp.incVel]; vec_ring
  | spher d h =>
    have hv : VecDeriv (fun s => (d s).vel) (d t).acc t :=
      ⟨ha t 0 (by simp [Prp.size]), ha t 1 (by simp [Prp.size]), ha t 2 (by simp [Prp.size])⟩
    have h1 := rotMotion_mulVecT (h t).1 (h t).2 hv
    refine ⟨⟨0, (d t).att.mulVecT (d t).acc⟩, ?_, z, ?_⟩
    · refine vecDeriv_congr h1 (fun s => ?_) ?_
      · simp only [jointTwist, Prp.incVel, Vec6.zero_ang, zero_add]
      · rw [cross_self, sub_zero]
    · intro w a
      simp only [Prp.incAcc, Prp.incAccOnVel, jointTwist, Prp.incVel]
      generalize (d t).att.mulVecT (d t).acc = x
      generalize (d t).att.mulVecT (d t).vel = y
      vec_ring
  | float d h =>
    have hl : VecDeriv (fun s => (d s).vel.lin) (d t).acc.lin t :=
      ⟨ha t 0 (by simp [Prp.size]), ha t 1 (by simp [Prp.size]), ha t 2 (by simp [Prp.size])⟩
    have hw : VecDeriv (fun s => (d s).vel.ang) (d t).acc.ang t :=
      ⟨ha t 3 (by simp [Prp.size]), ha t 4 (by simp [Prp.size]), ha t 5 (by simp [Prp.size])⟩
    have h1 := rotMotion_mulVecT (h t).1 (h t).2.1 hl
    have h2 := rotMotion_mulVecT (h t).1 (h t).2.1 hw
    have hc : Roki.cross ((d t).att.mulVecT (d t).vel.lin) ((d t).att.mulVecT (d t).vel.ang) = 0 := by
      rw [← (h t).1.mulVecT_cross, hf (d t) (by simp)]; vec_ring
    refine ⟨⟨(d t).att.mulVecT (d t).acc.lin, (d t).att.mulVecT (d t).acc.ang⟩, ?_, ?_, ?_⟩
    · refine vecDeriv_congr h2 (fun s => ?_) ?_
      · simp only [jointTwist, Prp.incVel, Mat3.mulVecT6, zero_add]
      · rw [cross_self, sub_zero]
    · refine vecDeriv_congr h1 (fun s => ?_) ?_
      · simp only [jointTwist, Prp.incVel, Mat3.mulVecT6, zero_add]
      · rw [cross_anticomm, hc]; vec_ring
    · intro w a
      simp only [Prp.incAcc, Prp.incAccOnVel, jointTwist, Prp.incVel, Mat3.mulVecT6]
      generalize (d t).att.mulVecT (d t).acc.ang = x
      generalize (d t).att.mulVecT (d t).acc.lin = x'
      generalize (d t).att.mulVecT (d t).vel.ang = y at hc ⊢
      generalize (d t).att.mulVecT (d t).vel.lin = y' at hc ⊢
      simp only [Vec3.ext_iff, cross, Vec3.zero_x, Vec3.zero_y, Vec3.zero_z] at hc
      obtain ⟨hx, hy, hz⟩ := hc
      vec_unfold
      refine ⟨⟨?_, ?_, ?_⟩, ?_, ?_, ?_⟩ <;> grind
  | brfloat d h =>
    have hl : VecDeriv (fun s => (d s).vel.lin) (d t).acc.lin t :=
      ⟨ha t 0 (by simp [Prp.size]), ha t 1 (by simp [Prp.size]), ha t 2 (by simp [Prp.size])⟩
    have hw : VecDeriv (fun s => (d s).vel.ang) (d t).acc.ang t :=
      ⟨ha t 3 (by simp [Prp.size]), ha t 4 (by simp [Prp.size]), ha t 5 (by simp [Prp.size])⟩
    have h1 := rotMotion_mulVecT (h t).1 (h t).2.1 hl
    have h2 := rotMotion_mulVecT (h t).1 (h t).2.1 hw
    have hc : Roki.cross ((d t).att.mulVecT (d t).vel.lin) ((d t).att.mulVecT (d t).vel.ang) = 0 := by
      rw [← (h t).1.mulVecT_cross, hf (d t) (by simp)]; vec_ring
    refine ⟨⟨(d t).att.mulVecT (d t).acc.lin, (d t).att.mulVecT (d t).acc.ang⟩, ?_, ?_, ?_⟩
    · refine vecDeriv_congr h2 (fun s => ?_) ?_
      · simp only [jointTwist, Prp.incVel, Mat3.mulVecT6, zero_add]
      · rw [cross_self, sub_zero]
    · refine vecDeriv_congr h1 (fun s => ?_) ?_
      · simp only [jointTwist, Prp.incVel, Mat3.mulVecT6, zero_add]
      · rw [cross_anticomm, hc]; vec_ring
    · intro w a
      simp only [Prp.incAcc, Prp.incAccOnVel, jointTwist, Prp.incVel, Mat3.mulVecT6]
      generalize (d t).att.mulVecT (d t).acc.ang = x
      generalize (d t).att.mulVecT (d t).acc.lin = x'
      generalize (d t).att.mulVecT (d t).vel.ang = y at hc ⊢
      generalize (d t).att.mulVecT (d t).vel.lin = y' at hc ⊢
      simp only [Vec3.ext_iff, cross, Vec3.zero_x, Vec3.zero_y, Vec3.zero_z] at hc
      obtain ⟨hx, hy, hz⟩ := hc
      vec_unfold
      refine ⟨⟨?_, ?_, ?_⟩, ?_, ?_, ?_⟩ <;> grind


theorem poseDeriv_mulVecT {G : ℝ → Frame ℝ} {w : Vec6 ℝ} {u : ℝ → Vec3 ℝ} {u' : Vec3 ℝ} {t : ℝ}
    (h : PoseDeriv G w t) (hu : VecDeriv u u' t) :
    VecDeriv (fun s => (G s).att.mulVecT (u s))
      ((G t).att.mulVecT u' - Roki.cross w.ang ((G t).att.mulVecT (u t))) t := by
  refine vecDeriv_congr (h.1.mulVecT hu) (fun _ => rfl) ?_
  generalize (G t).att = R
  generalize u t = x
  have e : (R.mul (Mat3.skew w.ang)).mulVecT x = -Roki.cross w.ang (R.mulVecT x) := by vec_ring
  rw [e]; abel

theorem LinkMotion.stepAcc {m : ℝ → Link ℝ} (h : LinkMotion m)
    (ha : AccMotion fun s => (m s).joint.prp) {F : ℝ → Frame ℝ} {v : ℝ → Vec6 ℝ} {a : Vec6 ℝ}
    {g : Vec3 ℝ} {t : ℝ} (hf : FloatScrew (m t).joint.prp) (hA : AccDeriv F v a g t) :
    AccDeriv (fun s => (F s).cascade (linkFrame (m s))) (fun s => stepVel (v s) (m s))
      (Roki.stepAcc (v t) a (m t)) g t := by
  obtain ⟨e, he1, he2, hinc⟩ := jointTwist_deriv h.joint ha t hf
  have hG := h.linkFrame_rot t
  have hP := h.pose t
  have hang := (poseDeriv_mulVecT hP hA.1).add he1
  have hlin := (poseDeriv_mulVecT hP (hA.2.add (hA.1.cross hP.2))).add he2
  have hS : ∀ s, stepVel (v s) (m s) = (linkFrame (m s)).xform6Lin (v s) + jointTwist (m s).joint.prp :=
    fun s => by rw [stepVel, incVel_eq]
  have hSa : (stepVel (v t) (m t)).ang =
      (linkFrame (m t)).att.mulVecT (v t).ang + (jointTwist (m t).joint.prp).ang := by rw [hS]; rfl
  have hSl : (stepVel (v t) (m t)).lin =
      (linkFrame (m t)).att.mulVecT ((v t).lin + cross (v t).ang (linkFrame (m t)).pos) +
        (jointTwist (m t).joint.prp).lin := by rw [hS]; rfl
  have hacc : Roki.stepAcc (v t) a (m t) = (linkFrame (m t)).att.mulVecT6 ⟨a.lin +
      cross a.ang (linkFrame (m t)).pos + cross (v t).ang (cross (v t).ang (linkFrame (m t)).pos), a.ang⟩ +
      ⟨(2 : ℝ) • Roki.cross ((linkFrame (m t)).att.mulVecT (v t).ang) (jointTwist (m t).joint.prp).lin +
        Roki.cross (jointTwist (m t).joint.prp).ang (jointTwist (m t).joint.prp).lin + e.lin,
       Roki.cross ((linkFrame (m t)).att.mulVecT (v t).ang) (jointTwist (m t).joint.prp).ang + e.ang⟩ := by
    rw [Roki.stepAcc, hSa]; exact hinc _ _
  refine ⟨?_, ?_⟩
  · refine vecDeriv_congr hang (fun s => by simp only [hS]; rfl) ?_
    rw [hacc]
    simp only [Mat3.mulVecT6, Vec6.add_ang]
    rw [cross_anticomm (jointTwist _).ang]
    abel
  · refine vecDeriv_congr hlin (fun s => by simp only [hS]; rfl) ?_
    have hFG : ((F t).cascade (linkFrame (m t))).att.mulVecT g =
        (linkFrame (m t)).att.mulVecT ((F t).att.mulVecT g) := by
      simp only [Frame.cascade]; generalize (F t).att = A; generalize (linkFrame (m t)).att = B
      vec_ring
    rw [hacc, hSa, hSl, hFG]
    simp only [Mat3.mulVecT6, Vec6.add_lin]
    generalize (F t).att.mulVecT g = gg
    have c1 : ∀ x y, cross ((linkFrame (m t)).att.mulVecT x) ((linkFrame (m t)).att.mulVecT y) =
        (linkFrame (m t)).att.mulVecT (cross x y) := fun x y => (hG.mulVecT_cross x y).symm
    have c2 : cross ((linkFrame (m t)).att.mulVecT (v t).ang) (jointTwist (m t).joint.prp).lin =
        (linkFrame (m t)).att.mulVecT (cross (v t).ang ((linkFrame (m t)).att.mulVec
          (jointTwist (m t).joint.prp).lin)) := by
      rw [hG.mulVecT_cross, hG.mulVecT_mulVec]
    simp only [cross_add_left, cross_add_right, Mat3.mulVecT_add, Mat3.mulVecT_sub, c1, c2, two_smul]
    abel

/-- Velocities and accelerations computed along a path. -/
theorem path_acc (ms : List (ℝ → Link ℝ)) (h : ∀ m ∈ ms, LinkMotion m)
    (ha : ∀ m ∈ ms, AccMotion fun s => (m s).joint.prp) {F : ℝ → Frame ℝ}
    {v : ℝ → Vec6 ℝ} {a : Vec6 ℝ} {g : Vec3 ℝ} {t : ℝ}
    (hf : ∀ m ∈ ms, FloatScrew (m t).joint.prp) (hA : AccDeriv F v a g t) :
    AccDeriv (fun s => (F s).cascade (product (ms.map fun m => linkFrame (m s))))
      (fun s => ms.foldl (fun v m => stepVel v (m s)) (v s))
      (ms.foldl (fun st m => (stepVel st.1 (m t), stepAcc st.1 st.2 (m t))) (v t, a)).2 g t := by
  induction ms generalizing F v a with
  | nil =>
    have e : (fun s => (F s).cascade (product (([] : List (ℝ → Link ℝ)).map fun m => linkFrame (m s)))) = F := by
      funext s; exact Frame.cascade_ident _
    rw [e]; exact hA
  | cons m ms ih =>
    have h1 := ih (fun n hn => h n (by simp [hn])) (fun n hn => ha n (by simp [hn]))
      (fun n hn => hf n (by simp [hn]))
      ((h m (by simp)).stepAcc (ha m (by simp)) (hf m (by simp)) hA)
    simp only [List.map_cons, List.foldl_cons, cascade_product_cons]
    exact h1

end Roki
