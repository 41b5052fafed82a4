import Verif.Props.Lagrange
set_option autoImplicit false

/-!
# Jacobians and static torques are derivatives of forward kinematics

C122.
-/

namespace Roki
open Spec LinkArray Filter Topology

section
variable [Zm ℝ] [LawfulZm ℝ] (hsin : ∀ x : ℝ, Zm.sin x = Real.sin x) (hcos : ∀ x : ℝ, Zm.cos x = Real.cos x)

/-- The frame at the end of a path, by the displacements. -/
noncomputable def pathFrame (q : List ℝ) (ms : List (Link ℝ)) : Frame ℝ := product ((ms.map (placed q [] [])).map linkFrame)

theorem pathFrame_eq (q v a : List ℝ) (ms : List (Link ℝ)) : product ((ms.map (placed q v a)).map linkFrame) = pathFrame q ms := by
  rw [pathFrame, List.map_map, List.map_map]
  congr 1
  exact List.map_congr_left fun l _ => placed_frame l q v a [] []

theorem pathFrame_deriv {ms : List (Link ℝ)} (hr : ∀ l ∈ ms, l.org.att.IsRot) (hp : ∀ l ∈ ms, Coord l.joint.prp) {q u : List ℝ}
    (hl : q.length = u.length) : PoseDeriv (fun e => pathFrame (shift q e u) ms) (pathVel q u 0 ms) 0 := by
  have hP := path_pose (ms.map fun l e => placed (shift q e u) u [] l) (by
      intro n hn; obtain ⟨l, hl', rfl⟩ := List.mem_map.1 hn
      exact placed_motion (hr l hl') (hp l hl') (shift_rate hl) fun _ => []) (poseDeriv_const Frame.ident 0)
  have e1 : (fun s => Frame.ident.cascade (product ((ms.map fun l e => placed (shift q e u) u [] l).map fun m => linkFrame (m s)))) =
      fun e => pathFrame (shift q e u) ms := by
    funext s
    rw [Frame.ident_cascade, ← pathFrame_eq _ u [], List.map_map, List.map_map]; rfl
  have e2 : (ms.map fun l e => placed (shift q e u) u [] l).foldl (fun v m => stepVel v (m 0)) 0 = pathVel q u 0 ms := by
    rw [List.foldl_map]; simp only [shift_zero hl]; rfl
  rw [e1, e2] at hP
  exact hP

theorem poseDeriv_point {F : ℝ → Frame ℝ} {w : Vec6 ℝ} {t : ℝ} (h : PoseDeriv F w t) (p : Vec3 ℝ) :
    VecDeriv (fun s => (F s).xform p) ((F t).att.mulVec (w.lin + cross w.ang p)) t := by
  obtain ⟨⟨c1, c2, c3⟩, c4⟩ := h
  beta_reduce at c1 c2 c3 c4
  refine vecDeriv_congr (c4.add (((VecDeriv.smul (hasDerivAt_const t p.x) c1).add (VecDeriv.smul (hasDerivAt_const t p.y) c2)).add
    (VecDeriv.smul (hasDerivAt_const t p.z) c3))) (fun s => by vec_ring) ?_
  generalize (F t).att = R
  vec_ring

theorem poseDeriv_rot {F : ℝ → Frame ℝ} {w : Vec6 ℝ} {t : ℝ} (h : PoseDeriv F w t) (hR : (F t).att.IsRot) :
    RotMotion (fun s => (F s).att) ((F t).att.mulVec w.ang) t := by
  have e : (Mat3.skew ((F t).att.mulVec w.ang)).mul (F t).att = (F t).att.mul (Mat3.skew w.ang) := by
    have hc := fun x => hR.mulVec_cross w.ang x
    have : ∀ x, ((Mat3.skew ((F t).att.mulVec w.ang)).mul (F t).att).mulVec x = ((F t).att.mul (Mat3.skew w.ang)).mulVec x := by
      intro x
      rw [Mat3.mul_mulVec, Mat3.mul_mulVec, Mat3.skew_mulVec, Mat3.skew_mulVec, hc]
    generalize (Mat3.skew ((F t).att.mulVec w.ang)).mul (F t).att = A at this
    generalize (F t).att.mul (Mat3.skew w.ang) = B at this
    have h1 := this ⟨1, 0, 0⟩
    have h2 := this ⟨0, 1, 0⟩
    have h3 := this ⟨0, 0, 1⟩
    simp [Mat3.mulVec, Vec3.ext_iff] at h1 h2 h3
    simp [Mat3.ext_iff, Vec3.ext_iff, h1, h2, h3]
  unfold RotMotion
  beta_reduce
  rw [e]; exact h.1

include hsin hcos in
/-- What forward kinematics leaves in a link, and the velocities of inverse dynamics. -/
theorem Arm.pose {c c1 : Chain ℝ} (h : Arm c) {q u : List ℝ} (hq : q.length = jointSize c.link) (hu : u.length = jointSize c.link)
    (hlim : OffLimits c q) (e1 : c.fk q = some c1) {p : List ℕ} {i : ℕ} (hp : IsPath c.shape (p ++ [i]))
    {ms : List (Link ℝ)} {m : Link ℝ} (hms : OnPath c p ms) (hm : c.link[i]? = some m) :
    ∃ d2 l d, c1.invDyn 0 u (List.replicate u.length 0) = some d2 ∧ c1.link[i]? = some l ∧ d2.link[i]? = some d ∧
      l.body.mp = m.body.mp ∧ l.body.frame = pathFrame q (ms ++ [m]) ∧ l.body.wldCOM = l.body.frame.xform m.body.mp.com ∧
      d.body.frame = l.body.frame ∧ d.body.vel = pathVel q u 0 (ms ++ [m]) := by
  obtain ⟨hpo, hz⟩ := h.posed e1
  have hrep : (List.replicate u.length (0 : ℝ)).length = jointSize c.link := by simp [hu]
  obtain ⟨d2, e2⟩ := hpo.invDyn 0 (hu.trans hz.symm) (hrep.trans hz.symm)
  obtain ⟨d, k1, k2, -, k3, k4, k5, -⟩ := h.run_path hsin hcos hq hu hrep hlim e1 e2 hp hms hm
  obtain ⟨ls, e', hw, hr, o, z⟩ := h.split e1
  obtain ⟨T, hs, -, -, -, hc, -⟩ := Jacobi.rateState hw hr o e' e2 (by rw [hu]; exact z.symm)
  obtain ⟨l, hl, -, -, hf, -, -, hmp⟩ := hs.link k1
  rw [pathFrame_eq] at k3
  refine ⟨d2, l, d, e2, hl, k1, hmp.trans k2, hf.trans k3, ?_, hf.symm, ?_⟩
  · rw [hc l (List.mem_iff_getElem?.2 ⟨i, hl⟩), comPos, hmp, k2]
  · have := congrArg Prod.fst k5
    rw [foldl_pair, foldl_placed] at this
    exact this

variable (c c1 : Chain ℝ) (q u : List ℝ) (h : c.WF) (ho : setOffset c.link = c.link) (hr : ∀ l ∈ c.link, l.org.att.IsRot)
  (hj : ∀ l ∈ c.link, Coord l.joint.prp) (hq : q.length = jointSize c.link) (hu : u.length = jointSize c.link)
  (hl : ∀ᶠ e in 𝓝 0, OffLimits c (shift q e u)) (e1 : c.fk q = some c1)

include hsin hcos in
theorem Arm.pointAt_eq {c : Chain ℝ} (h : Arm c) {q : List ℝ} (hq : q.length = jointSize c.link) (hlim : OffLimits c q) {p : List ℕ}
    {i : ℕ} (hp : IsPath c.shape (p ++ [i])) {ms : List (Link ℝ)} {m : Link ℝ} (hms : OnPath c p ms) (hm : c.link[i]? = some m) :
    (∀ x, pointAt c i x q = some ((pathFrame q (ms ++ [m])).xform x)) ∧ attAt c i q = some (pathFrame q (ms ++ [m])).att := by
  obtain ⟨c1, e1⟩ := h.fk hq
  obtain ⟨d2, l, d, -, f1, -, -, f2, -⟩ := h.pose hsin hcos hq hq hlim e1 hp hms hm
  constructor
  · intro x; rw [pointAt, e1, Option.bind_some, f1, Option.map_some, f2]
  · rw [attAt, e1, Option.bind_some, f1, Option.map_some, f2]

include hsin hcos in
theorem Arm.comAt_eq {c : Chain ℝ} (h : Arm c) {P : ℕ → List (Link ℝ)} {M : ℕ → MP ℝ}
    (hP : ∀ i < c.link.length, ∃ p ms m, IsPath c.shape (p ++ [i]) ∧ OnPath c p ms ∧ c.link[i]? = some m ∧ P i = ms ++ [m] ∧ M i = m.body.mp)
    {q : List ℝ} (hq : q.length = jointSize c.link) (hlim : OffLimits c q) (hM : c.mass ≠ 0) :
    comAt c q = some (c.mass⁻¹ • ((List.range c.link.length).map fun i => (M i).mass • (pathFrame q (P i)).xform (M i).com).sum) := by
  obtain ⟨c1, e1⟩ := h.fk hq
  obtain ⟨ls, e', hw, -⟩ := h.split e1
  obtain ⟨x1, x2⟩ := C15_fk_com _ _ hw e' hM
  have x2 : c1.mass = c.mass := x2
  rw [comAt, e1, Option.map_some]
  congr 1
  have hs : (c1.link.map fun l => mass l • comPos l) =
      (List.range c.link.length).map fun i => (M i).mass • (pathFrame q (P i)).xform (M i).com := by
    refine map_range _ _ (fk_length h.wf e1) _ fun i l hl => ?_
    have hi : i < c.link.length := fk_length h.wf e1 ▸ (List.getElem?_eq_some_iff.1 hl).1
    obtain ⟨p, ms, m, y1, y2, y3, y4, y5⟩ := hP i hi
    obtain ⟨d2, l', d, -, f1, -, f2, f3, -⟩ := h.pose hsin hcos hq hq hlim e1 y1 y2 y3
    rw [hl] at f1; cases f1
    rw [mass, comPos, f2, f3, y4, y5]
  rw [← hs, ← x1, x2, smul_smul, inv_mul_cancel₀ hM, one_smul]

include hsin hcos in
theorem Arm.potential_eq {c : Chain ℝ} (h : Arm c) {P : ℕ → List (Link ℝ)} {M : ℕ → MP ℝ}
    (hP : ∀ i < c.link.length, ∃ p ms m, IsPath c.shape (p ++ [i]) ∧ OnPath c p ms ∧ c.link[i]? = some m ∧ P i = ms ++ [m] ∧ M i = m.body.mp)
    {q : List ℝ} (hq : q.length = jointSize c.link) (hlim : OffLimits c q) (g : Vec3 ℝ) :
    potential g c q = some ((List.range c.link.length).map fun i => (M i).mass * dot g ((pathFrame q (P i)).xform (M i).com)).sum := by
  obtain ⟨c1, e1⟩ := h.fk hq
  rw [potential, e1, Option.map_some]
  congr 2
  refine map_range _ _ (fk_length h.wf e1) _ fun i l hl => ?_
  have hi : i < c.link.length := fk_length h.wf e1 ▸ (List.getElem?_eq_some_iff.1 hl).1
  obtain ⟨p, ms, m, y1, y2, y3, y4, y5⟩ := hP i hi
  obtain ⟨d2, l', d, -, f1, -, f2, f3, f4, -⟩ := h.pose hsin hcos hq hq hlim e1 y1 y2 y3
  rw [hl] at f1; cases f1
  rw [mass, f4, f2, f3, y4, y5]

theorem onPath_mem {c : Chain ℝ} {p : List ℕ} {i : ℕ} {ms : List (Link ℝ)} {m : Link ℝ} (hms : OnPath c p ms) (hm : c.link[i]? = some m) :
    ∀ l ∈ ms ++ [m], l ∈ c.link := by
  intro l hl
  rcases List.mem_append.1 hl with hl | hl
  · have : some l ∈ ms.map some := List.mem_map.2 ⟨l, hl, rfl⟩
    rw [← hms] at this
    obtain ⟨j, -, e⟩ := List.mem_map.1 this
    exact List.mem_iff_getElem?.2 ⟨j, e⟩
  · rw [List.mem_singleton.1 hl]; exact List.mem_iff_getElem?.2 ⟨i, hm⟩

include hsin hcos h ho hr hj hq hu hl e1 in
/-- **C122** The matrix of `rkChainLinkWldLinJacobi` is the derivative of forward kinematics: the derivative of the world position of any
point of any link, as a function of the displacements given to `rkChainFK`, along any direction. -/
theorem C122_linear (i : ℕ) (hi : i < c.link.length) (p : Vec3 ℝ) (m : List (Vec3 ℝ)) (hm : m.length = jointSize c.link) :
    ∃ J x, Jacobi.wldLin c1 i p m = some J ∧ J.length = jointSize c.link ∧
      (∀ᶠ e in 𝓝 0, pointAt c i p (shift q e u) = some (x e)) ∧ VecDeriv x (jacMul J u) 0 := by
  have hA : Arm c := ⟨h, ho, hr, hj⟩
  obtain ⟨P, M, hP⟩ := hA.paths
  obtain ⟨p', ms, k, x1, x2, x3, -, -⟩ := hP i hi
  have hl0 : OffLimits c q := by
    have := hl.self_of_nhds; rwa [shift_zero (hq.trans hu.symm)] at this
  obtain ⟨d2, l, d, y1, y2, y3, y4, y5, -, y6, y7⟩ := hA.pose hsin hcos hq hu hl0 e1 x1 x2 x3
  obtain ⟨ls, e', hw, hr', o, z⟩ := hA.split e1
  obtain ⟨J, j1, j2, j3⟩ := C11_linear_jacobian _ c1 d2 0 u _ hw hr' o (by rw [hu]; exact z.symm) e' y1 m (by rw [hm]; exact z.symm) i d y3 p
  have hmem := onPath_mem x2 x3
  have hD := poseDeriv_point (pathFrame_deriv (fun l hl => hr l (hmem l hl)) (fun l hl => hj l (hmem l hl)) (hq.trans hu.symm)) p
  refine ⟨J, fun e => (pathFrame (shift q e u) (ms ++ [k])).xform p, j1, j2.trans hm, ?_, ?_⟩
  · filter_upwards [hl] with e he
    exact (hA.pointAt_eq hsin hcos ((shift_length (hq.trans hu.symm) e).trans hq) he x1 x2 x3).1 p
  · rw [shift_zero (hq.trans hu.symm)] at hD
    rw [j3, pointVelocity, y6, y5, y7]; exact hD

include hsin hcos h ho hr hj hq hu hl e1 in
/-- **C122** The matrix of `rkChainLinkWldAngJacobi` gives the rotation: moving the displacements along `u` turns every link with the angular
velocity of the Jacobian times `u`. -/
theorem C122_angular (i : ℕ) (hi : i < c.link.length) (m : List (Vec3 ℝ)) (hm : m.length = jointSize c.link) :
    ∃ J R, Jacobi.wldAng c1 i m = some J ∧ J.length = jointSize c.link ∧
      (∀ᶠ e in 𝓝 0, attAt c i (shift q e u) = some (R e)) ∧ RotMotion R (jacMul J u) 0 := by
  have hA : Arm c := ⟨h, ho, hr, hj⟩
  obtain ⟨P, M, hP⟩ := hA.paths
  obtain ⟨p', ms, k, x1, x2, x3, -, -⟩ := hP i hi
  have hl0 : OffLimits c q := by
    have := hl.self_of_nhds; rwa [shift_zero (hq.trans hu.symm)] at this
  obtain ⟨d2, l, d, y1, y2, y3, y4, y5, -, y6, y7⟩ := hA.pose hsin hcos hq hu hl0 e1 x1 x2 x3
  obtain ⟨ls, e', hw, hr', o, z⟩ := hA.split e1
  obtain ⟨J, j1, j2, j3⟩ := C10_angular_jacobian _ c1 d2 0 u _ hw hr' o (by rw [hu]; exact z.symm) e' y1 m (by rw [hm]; exact z.symm) i d y3
  have hmem := onPath_mem x2 x3
  have hR : l.body.frame.att.IsRot := (C06_fk_rotation _ c1 hw e' hr' l (List.mem_iff_getElem?.2 ⟨i, y2⟩)).1
  have hD := pathFrame_deriv (fun l hl => hr l (hmem l hl)) (fun l hl => hj l (hmem l hl)) (hq.trans hu.symm)
  have hD' := poseDeriv_rot hD (by rw [shift_zero (hq.trans hu.symm), ← y5]; exact hR)
  refine ⟨J, fun e => (pathFrame (shift q e u) (ms ++ [k])).att, j1, j2.trans hm, ?_, ?_⟩
  · filter_upwards [hl] with e he
    exact (hA.pointAt_eq hsin hcos ((shift_length (hq.trans hu.symm) e).trans hq) he x1 x2 x3).2
  · rw [shift_zero (hq.trans hu.symm)] at hD'
    rw [j3, angVel, y6, y5, y7]; exact hD'

include hsin hcos h ho hr hj hq hu hl e1 in
/-- **C122** The matrix of `rkChainCOMJacobi` is the derivative of the center of mass that `rkChainFK` computes. -/
theorem C122_com (hM : c.mass ≠ 0) (m : List (Vec3 ℝ)) (hm : m.length = jointSize c.link) :
    ∃ J x, Jacobi.com c1 m = some J ∧ J.length = jointSize c.link ∧
      (∀ᶠ e in 𝓝 0, comAt c (shift q e u) = some (x e)) ∧ VecDeriv x (jacMul J u) 0 := by
  have hA : Arm c := ⟨h, ho, hr, hj⟩
  obtain ⟨P, M, hP⟩ := hA.paths
  have hl0 : OffLimits c q := by
    have := hl.self_of_nhds; rwa [shift_zero (hq.trans hu.symm)] at this
  obtain ⟨hpo, hz⟩ := hA.posed e1
  have hrep : (List.replicate u.length (0 : ℝ)).length = jointSize c.link := by simp [hu]
  obtain ⟨d2, e2⟩ := hpo.invDyn 0 (hu.trans hz.symm) (hrep.trans hz.symm)
  obtain ⟨ls, e', hw, hr', o, z⟩ := hA.split e1
  obtain ⟨J, j1, j2, -, j3⟩ := C13_com_jacobian _ c1 d2 0 u _ hw hr' o (by rw [hu]; exact z.symm) e' e2 m (by rw [hm]; exact z.symm) hM
  have j3 : c.mass • jacMul J u = (d2.link.map fun l => mass l • comVel l).sum := j3
  have nd : d2.link.length = c.link.length := (invDyn_length hpo (hu.trans hz.symm) (hrep.trans hz.symm) e2).trans (fk_length h e1)
  refine ⟨J, fun e => c.mass⁻¹ • ((List.range c.link.length).map fun i => (M i).mass • (pathFrame (shift q e u) (P i)).xform (M i).com).sum,
    j1, j2.trans hm, ?_, ?_⟩
  · filter_upwards [hl] with e he
    exact hA.comAt_eq hsin hcos hP ((shift_length (hq.trans hu.symm) e).trans hq) he hM
  · have hsum := vecDeriv_list_sum (fun i e => (M i).mass • (pathFrame (shift q e u) (P i)).xform (M i).com)
      (fun i => (M i).mass • ((pathFrame q (P i)).att.mulVec ((pathVel q u 0 (P i)).lin + cross (pathVel q u 0 (P i)).ang (M i).com))) 0
      (List.range c.link.length) (fun i hi => by
        obtain ⟨p', ms, k, x1, x2, x3, x4, -⟩ := hP i (List.mem_range.1 hi)
        have hmem := onPath_mem x2 x3
        have hD := poseDeriv_point (pathFrame_deriv (fun l hl => hr l (hmem l hl)) (fun l hl => hj l (hmem l hl)) (hq.trans hu.symm)) (M i).com
        rw [shift_zero (hq.trans hu.symm), ← x4] at hD
        exact vecDeriv_congr (VecDeriv.smul (hasDerivAt_const 0 (M i).mass) hD) (fun _ => rfl) (by vec_ring))
    have hs2 := VecDeriv.smul (hasDerivAt_const 0 c.mass⁻¹) hsum
    refine vecDeriv_congr hs2 (fun _ => rfl) ?_
    have hlist : (d2.link.map fun l => mass l • comVel l) = (List.range c.link.length).map fun i =>
        (M i).mass • ((pathFrame q (P i)).att.mulVec ((pathVel q u 0 (P i)).lin + cross (pathVel q u 0 (P i)).ang (M i).com)) := by
      refine map_range _ _ nd _ fun i d' hd' => ?_
      have hi : i < c.link.length := nd ▸ (List.getElem?_eq_some_iff.1 hd').1
      obtain ⟨p', ms, k, x1, x2, x3, x4, x5⟩ := hP i hi
      obtain ⟨d2', l, d, y1, y2, y3, y4, y5, -, y6, y7⟩ := hA.pose hsin hcos hq hu hl0 e1 x1 x2 x3
      rw [e2] at y1; cases y1
      rw [hd'] at y3; cases y3
      obtain ⟨d3, f1, f2, -⟩ := hA.run_path hsin hcos hq hu hrep hl0 e1 e2 x1 x2 x3
      rw [hd'] at f1; cases f1
      rw [mass, comVel, f2, y6, y5, y7, x4, x5]
    rw [← hlist, ← j3, smul_smul, inv_mul_cancel₀ hM, one_smul]
    vec_ring

include hsin hcos h ho hr hj hq hu hl e1 in
/-- **C122** The joint torques that hold the robot at rest are the gradient of the potential energy: the work on any joint velocities `u` of
the torques of `rkChainID` with zero velocities and accelerations is the derivative along `u` of the potential energy, less the
work of the external wrenches. -/
theorem C122_statics (hI : ∀ l ∈ c.link, l.body.mp.inertia.Symm) (g : Vec3 ℝ) (c2 d2 : Chain ℝ)
    (e2 : c1.invDyn ⟨g, 0⟩ (List.replicate q.length 0) (List.replicate q.length 0) = some c2)
    (e3 : c1.invDyn 0 u (List.replicate u.length 0) = some d2) :
    ∃ τ U, torques c2 = some τ ∧ (∀ᶠ e in 𝓝 0, potential g c (shift q e u) = some (U e)) ∧
      HasDerivAt U (work τ u + (List.zipWith extWork c2.link d2.link).sum) 0 := by
  have hA : Arm c := ⟨h, ho, hr, hj⟩
  obtain ⟨P, M, hP⟩ := hA.paths
  have hl0 : OffLimits c q := by
    have := hl.self_of_nhds; rwa [shift_zero (hq.trans hu.symm)] at this
  have hz : (List.replicate q.length (0 : ℝ)).length = jointSize c.link := by simp [hq]
  have hg : ∀ k, (List.replicate q.length (0 : ℝ)).getD k 0 = 0 := by
    intro k; rw [List.getD_eq_getElem?_getD, List.getElem?_replicate]; split_ifs <;> rfl
  obtain ⟨τ, Pm, Q, t1, t2, ⟨L, t3, t4⟩, t5⟩ := C121_lagrange hsin hcos c c1 c2 d2 g (fun _ => q) (fun _ => List.replicate q.length 0)
    (fun _ => List.replicate q.length 0) u 0 h ho hr hI hj (fun _ => hq) (fun _ => hz) hz hu
    (fun s k => by rw [hg]; exact hasDerivAt_const s _) (fun s k => by rw [hg]; exact hasDerivAt_const s _) (fun _ => hl0) hl e1 e2 e3
  -- the momentum does not change
  have hP0 : ∀ s, Pm s = Pm 0 := by
    intro s
    obtain ⟨L1, a1, b1⟩ := t2 s
    obtain ⟨L2, a2, b2⟩ := t2 0
    have : L1 = L2 := by funext e; have := a1 e; rw [a2 e] at this; exact (Option.some.inj this).symm
    subst this; exact b1.unique b2
  have hd0 : HasDerivAt Pm 0 0 := by
    have : Pm = fun _ => Pm 0 := funext hP0
    rw [this]; exact hasDerivAt_const 0 _
  have hsum := t5.unique hd0
  refine ⟨τ, fun e => ((List.range c.link.length).map fun i => (M i).mass * dot g ((pathFrame (shift q e u) (P i)).xform (M i).com)).sum, t1, ?_, ?_⟩
  · filter_upwards [hl] with e he
    exact hA.potential_eq hsin hcos hP ((shift_length (hq.trans hu.symm) e).trans hq) he g
  · have hv0 : ∀ e ms, (∀ l ∈ ms, Coord l.joint.prp) → pathVel (shift q e u) (List.replicate q.length 0) 0 ms = 0 := by
      intro e ms hms
      have h1 := pathVel_shift hms (shift q e u) (v := List.replicate q.length 0) (u := List.replicate q.length 0) rfl (-1) 0 0
      have h2 : shift (List.replicate q.length 0) (-1) (List.replicate q.length 0) = List.replicate q.length (0 : ℝ) := by
        simp [shift]
      rw [h2, show (0 : Vec6 ℝ) + (-1 : ℝ) • (0 : Vec6 ℝ) = 0 by vec_ring] at h1
      generalize pathVel (shift q e u) (List.replicate q.length 0) 0 ms = V at h1
      rw [h1]; vec_ring
    have hL : L =ᶠ[𝓝 0] fun e => -((List.range c.link.length).map fun i => (M i).mass * dot g ((pathFrame (shift q e u) (P i)).xform (M i).com)).sum := by
      filter_upwards [t3, hl] with e he hle
      rw [hA.lagrangian_eq hsin hcos hP ((shift_length (hq.trans hu.symm) e).trans hq) hz hle g] at he
      rw [← Option.some.inj he]
      have : ∀ i ∈ List.range c.link.length, lag1 g (M i) (P i) (shift q e u) (List.replicate q.length 0) =
          -1 * ((M i).mass * dot g ((pathFrame (shift q e u) (P i)).xform (M i).com)) := by
        intro i hi
        obtain ⟨p', ms, k, x1, x2, x3, x4, -⟩ := hP i (List.mem_range.1 hi)
        have hmem := onPath_mem x2 x3
        rw [← x4] at hmem
        rw [lag1, hv0 e (P i) fun l hl => hj l (hmem l hl)]
        have : polarKE (M i) 0 0 = 0 := by simp only [polarKE, cv]; vec_ring
        rw [this]; unfold pathFrame; ring
      rw [List.map_congr_left this, List.sum_map_mul_left]; ring
    have h5 := (t4.congr_of_eventuallyEq hL.symm).neg
    refine (h5.congr_of_eventuallyEq (Eventually.of_forall fun e => ?_)).congr_deriv ?_
    · simp
    · linarith
end

/-- The hypotheses of C122 are met by a branched robot of six coordinates at every displacement, in every direction. -/
example (q u : List ℝ) (hq : q.length = 6) (hu : u.length = 6) : Sample.branched.WF ∧ setOffset Sample.branched.link = Sample.branched.link ∧
    (∀ l ∈ Sample.branched.link, l.org.att.IsRot) ∧ (∀ l ∈ Sample.branched.link, l.body.mp.inertia.Symm) ∧
    (∀ l ∈ Sample.branched.link, Coord l.joint.prp) ∧ jointSize Sample.branched.link = 6 ∧ Sample.branched.mass ≠ 0 ∧
    (∀ᶠ e in 𝓝 (0 : ℝ), OffLimits Sample.branched (shift q e u)) ∧
    ∃ c1 c2 d2, Sample.branched.fk q = some c1 ∧
      c1.invDyn ⟨⟨0, 0, 9.8⟩, 0⟩ (List.replicate q.length 0) (List.replicate q.length 0) = some c2 ∧
      c1.invDyn 0 u (List.replicate u.length 0) = some d2 := by
  have hw : Sample.branched.WF := ⟨⟨_, rfl⟩, by decide⟩
  have hmem : ∀ l ∈ Sample.branched.link, l.org.att.IsRot ∧ l.body.mp.inertia.Symm ∧ Coord l.joint.prp := by
    intro l hl
    simp only [Sample.branched, List.mem_cons, List.not_mem_nil, or_false] at hl
    rcases hl with rfl | rfl | rfl | rfl | rfl <;> exact ⟨Mat3.isRot_one, rfl, trivial⟩
  have hz : jointSize Sample.branched.link = 6 := rfl
  have hA : Arm Sample.branched := ⟨hw, rfl, fun l hl => (hmem l hl).1, fun l hl => (hmem l hl).2.2⟩
  refine ⟨hw, rfl, hA.rot, fun l hl => (hmem l hl).2.1, hA.coord, hz, by norm_num [Sample.branched], .of_forall fun e => ?_, ?_⟩
  · intro l hl
    simp only [Sample.branched, List.mem_cons, List.not_mem_nil, or_false] at hl
    rcases hl with rfl | rfl | rfl | rfl | rfl <;> simp [Sample.link, Sample.dof1, Sample.dof2, limit]
  · obtain ⟨c1, e1⟩ := hA.fk (q := q) (by simp [hz, hq])
    obtain ⟨hp, h1⟩ := hA.posed e1
    obtain ⟨c2, e2⟩ := hp.invDyn ⟨⟨0, 0, 9.8⟩, 0⟩ (v := List.replicate q.length 0) (a := List.replicate q.length 0) (by simp [h1, hz, hq]) (by simp [h1, hz, hq])
    obtain ⟨d2, e3⟩ := hp.invDyn 0 (v := u) (a := List.replicate u.length 0) (by simp [h1, hz, hu]) (by simp [h1, hz, hu])
    exact ⟨c1, c2, d2, e1, e2, e3⟩

end Roki
