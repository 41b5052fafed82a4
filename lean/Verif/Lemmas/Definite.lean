import Verif.Props.VirtualWork
set_option autoImplicit false

/-! # A chain whose links are all at rest has no joint velocity -/

namespace Roki
open Spec
variable {K : Type*} [Field K] [LinearOrder K] [IsStrictOrderedRing K]

theorem Prp.WF_still (p : Prp K) : p.still.WF ↔ p.WF := by cases p <;> simp [Prp.still, Prp.WF]

theorem Mat3.mulVecT_eq_zero {m : Mat3 K} (h : m.IsRot) {v : Vec3 K} (e : m.mulVecT v = 0) : v = 0 := by
  have := h.mulVec_mulVecT v
  rw [e] at this
  rw [← this]; vec_ring

theorem Mat3.mulVec_eq_zero {m : Mat3 K} (h : m.IsRot) {v : Vec3 K} (e : m.mulVec v = 0) : v = 0 := by
  have := h.mulVecT_mulVec v
  rw [e] at this
  rw [← this]; vec_ring

theorem Prp.getVel_zero {p : Prp K} (h : p.WF) (e : p.incVel 0 = 0) : ∀ x ∈ p.getVel, x = 0 := by
  cases p with
  | fixed => simp [Prp.getVel]
  | revol p => simp [Prp.getVel, Prp.incVel, Vec6.ext_iff, Vec3.ext_iff] at e ⊢; exact e
  | prism p => simp [Prp.getVel, Prp.incVel, Vec6.ext_iff, Vec3.ext_iff] at e ⊢; exact e
  | cylin p => simp [Prp.getVel, Prp.incVel, Vec6.ext_iff, Vec3.ext_iff] at e ⊢; exact e
  | hooke p =>
    simp [Prp.incVel, Vec6.ext_iff, Vec3.ext_iff, Prp.WF] at e h
    obtain ⟨e1, e2, e3⟩ := e
    simp only [Prp.getVel, List.mem_cons, List.not_mem_nil, or_false, forall_eq_or_imp, forall_eq]
    refine ⟨?_, e2⟩
    by_contra hv
    have h1 := e1.resolve_right hv
    have h2 := e3.resolve_right hv
    rw [h1, h2] at h
    simp at h
  | spher p =>
    simp only [Prp.incVel, Vec6.ext_iff] at e
    have e2 : p.att.mulVecT p.vel = 0 := by simpa using e.2
    have := Mat3.mulVecT_eq_zero h e2
    simp [Prp.getVel, Vec3.toBuf, this]
  | float p =>
    simp only [Prp.incVel, zero_add, Mat3.mulVecT6, Vec6.ext_iff] at e
    have h1 := Mat3.mulVecT_eq_zero h e.1
    have h2 := Mat3.mulVecT_eq_zero h e.2
    simp [Prp.getVel, Vec6.toBuf, Vec3.toBuf, h1, h2]
  | brfloat p =>
    simp only [Prp.incVel, zero_add, Mat3.mulVecT6, Vec6.ext_iff] at e
    have h1 := Mat3.mulVecT_eq_zero h e.1
    have h2 := Mat3.mulVecT_eq_zero h e.2
    simp [Prp.getVel, Vec6.toBuf, Vec3.toBuf, h1, h2]

theorem LTree.incVel_zero (T : LTree (Link K)) (h : T.VelOK 0) (hz : ∀ l ∈ T.toList, l.body.vel = 0) :
    ∀ l ∈ T.toList, l.joint.prp.incVel 0 = 0 := by
  induction T with
  | nil => simp [LTree.toList]
  | node l c s ihc ihs =>
    obtain ⟨h1, h2, h3⟩ := h
    simp only [LTree.toList, List.mem_cons, List.mem_append] at hz ⊢
    have hl := hz l (Or.inl rfl)
    rw [hl] at h1 h2
    rintro m (rfl | hm | hm)
    · rw [show m.adj.xform6Lin 0 = 0 by vec_ring] at h1
      exact h1.symm
    · exact ihc h2 (fun x hx => hz x (Or.inr (Or.inl hx))) m hm
    · exact ihs h3 (fun x hx => hz x (Or.inr (Or.inr hx))) m hm

theorem Link.angEnergy {l : Link K} (hr : l.body.frame.att.IsRot) :
    dot (angVel l) ((worldInertia l).mulVec (angVel l)) = dot l.body.vel.ang (l.body.mp.inertia.mulVec l.body.vel.ang) := by
  rw [angVel, worldInertia, Mat3.mul_mulVec, Mat3.mul_mulVec,
      show ∀ v : Vec3 K, l.body.frame.att.tr.mulVec v = l.body.frame.att.mulVecT v from fun v => by vec_ring,
      hr.mulVecT_mulVec, hr.dot_mulVec_mulVec]

/-- A link with positive mass and positive definite inertia tensor and without kinetic energy is at rest. -/
theorem Link.vel_zero {l : Link K} (hr : l.body.frame.att.IsRot) (hm : 0 < mass l)
    (hI : ∀ w : Vec3 K, w ≠ 0 → 0 < dot w (l.body.mp.inertia.mulVec w))
    (h : mass l * dot (comVel l) (comVel l) + dot (angVel l) ((worldInertia l).mulVec (angVel l)) = 0) : l.body.vel = 0 := by
  have e1 := Link.angEnergy hr
  have p1 : 0 ≤ dot (comVel l) (comVel l) := by
    simp only [dot]
    nlinarith [mul_self_nonneg (comVel l).x, mul_self_nonneg (comVel l).y, mul_self_nonneg (comVel l).z]
  rw [e1] at h
  have hw : l.body.vel.ang = 0 := by
    by_contra hne
    have := hI _ hne
    have := mul_nonneg hm.le p1
    linarith
  rw [hw] at h
  have h2 : dot (0 : Vec3 K) (l.body.mp.inertia.mulVec 0) = 0 := by simp [dot]
  rw [h2, add_zero] at h
  have h3 := (mul_eq_zero.1 h).resolve_left hm.ne'
  have h4 : comVel l = 0 := by
    simp only [dot] at h3
    have a := mul_self_nonneg (comVel l).x
    have b := mul_self_nonneg (comVel l).y
    have c := mul_self_nonneg (comVel l).z
    simp only [Vec3.ext_iff]
    exact ⟨mul_self_eq_zero.1 (by linarith), mul_self_eq_zero.1 (by linarith), mul_self_eq_zero.1 (by linarith)⟩
  have h5 := Mat3.mulVec_eq_zero hr h4
  rw [hw] at h5
  rw [Vec6.ext_iff]
  refine ⟨?_, hw⟩
  have : l.body.vel.lin + cross 0 l.body.mp.com = l.body.vel.lin := by vec_ring
  rw [← this, h5]; rfl

end Roki
