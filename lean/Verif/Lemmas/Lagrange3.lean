import Verif.Lemmas.Lagrange2
import Verif.Props.Laws
set_option autoImplicit false

/-! # Lagrange's equations: the energy of one link -/

namespace Roki
open Spec LinkArray

/-- Velocity of the center of mass in the frame of the body. -/
noncomputable def cv (m : MP ℝ) (V : Vec6 ℝ) : Vec3 ℝ := V.lin + cross V.ang m.com

/-- Polar form of twice the kinetic energy of a body. -/
noncomputable def polarKE (m : MP ℝ) (V D : Vec6 ℝ) : ℝ := dot D.ang (m.inertia.mulVec V.ang) + m.mass * dot (cv m V) (cv m D)

theorem polarKE_symm {m : MP ℝ} (h : m.inertia.Symm) (V D : Vec6 ℝ) : polarKE m V D = polarKE m D V := by
  have e : dot D.ang (m.inertia.mulVec V.ang) = dot V.ang (m.inertia.mulVec D.ang) := by
    rw [Mat3.dot_mulVec, ← show m.inertia.tr.mulVec D.ang = m.inertia.mulVecT D.ang by vec_ring, h, dot_comm]
  rw [polarKE, polarKE, e, dot_comm (cv m V)]

theorem polarKE_add_left (m : MP ℝ) (V W D : Vec6 ℝ) : polarKE m (V + W) D = polarKE m V D + polarKE m W D := by
  simp only [polarKE, cv]; vec_ring

theorem polarKE_sub_right (m : MP ℝ) (V D E : Vec6 ℝ) : polarKE m V (D - E) = polarKE m V D - polarKE m V E := by
  simp only [polarKE, cv]; vec_ring

theorem Vec6Deriv.polarKE {m : MP ℝ} {V D : ℝ → Vec6 ℝ} {V' D' : Vec6 ℝ} {t : ℝ} (hV : Vec6Deriv V V' t) (hD : Vec6Deriv D D' t) :
    HasDerivAt (fun s => Roki.polarKE m (V s) (D s)) (Roki.polarKE m V' (D t) + Roki.polarKE m (V t) D') t := by
  have hI : VecDeriv (fun s => m.inertia.mulVec (V s).ang) (m.inertia.mulVec V'.ang) t := by
    refine vecDeriv_congr (((VecDeriv.smul hV.2.1 (vecDeriv_const m.inertia.cx t)).add
      (VecDeriv.smul hV.2.2.1 (vecDeriv_const m.inertia.cy t))).add (VecDeriv.smul hV.2.2.2 (vecDeriv_const m.inertia.cz t)))
      (fun s => by vec_ring) (by vec_ring)
  have hc : ∀ {V : ℝ → Vec6 ℝ} {V' : Vec6 ℝ}, Vec6Deriv V V' t → VecDeriv (fun s => cv m (V s)) (cv m V') t := by
    intro V V' h
    exact vecDeriv_congr (h.1.add (h.2.cross (vecDeriv_const m.com t))) (fun s => rfl) (by simp only [cv]; vec_ring)
  have h1 := hasDerivAt_dot hD.2 hI
  have h2 := (hasDerivAt_dot (hc hV) (hc hD)).const_mul m.mass
  refine (h1.add h2).congr_deriv ?_
  simp only [Roki.polarKE]; ring

/-- The energy function of one link: `ms` are the links on the path from the root to it. -/
noncomputable def lag1 (g : Vec3 ℝ) (m : MP ℝ) (ms : List (Link ℝ)) (q v : List ℝ) : ℝ :=
  polarKE m (pathVel q v 0 ms) (pathVel q v 0 ms) * (1 / 2) -
    m.mass * dot g ((product ((ms.map (placed q [] [])).map linkFrame)).xform m.com)

section
variable {ms : List (Link ℝ)} (hr : ∀ l ∈ ms, l.org.att.IsRot) (hp : ∀ l ∈ ms, Coord l.joint.prp) (g : Vec3 ℝ) {m : MP ℝ}
  (hI : m.inertia.Symm)

include hp hI in
/-- The derivative of the energy function in the velocities: the momentum. -/
theorem lag1_momentum (q : List ℝ) {v u : List ℝ} (h : v.length = u.length) :
    HasDerivAt (fun e => lag1 g m ms q (shift v e u)) (polarKE m (pathVel q v 0 ms) (pathVel q u 0 ms)) 0 := by
  have e0 : ∀ e : ℝ, pathVel q (shift v e u) 0 ms = pathVel q v 0 ms + e • pathVel q u 0 ms := by
    intro e
    rw [← pathVel_shift hp q h e 0 0]
    congr 1; vec_ring
  have hd : Vec6Deriv (fun e => pathVel q (shift v e u) 0 ms) (pathVel q u 0 ms) 0 := by
    simp only [e0]
    generalize pathVel q v 0 ms = V
    generalize pathVel q u 0 ms = D
    have := hasDerivAt_id (𝕜 := ℝ) 0
    refine ⟨vecDeriv_congr ((vecDeriv_const V.lin 0).add (VecDeriv.smul this (vecDeriv_const D.lin 0))) (fun s => rfl) (by vec_ring),
      vecDeriv_congr ((vecDeriv_const V.ang 0).add (VecDeriv.smul this (vecDeriv_const D.ang 0))) (fun s => rfl) (by vec_ring)⟩
  have h1 := ((hd.polarKE (m := m) hd).mul_const (1 / 2)).sub_const
    (m.mass * dot g ((product ((ms.map (placed q [] [])).map linkFrame)).xform m.com))
  refine h1.congr_deriv ?_
  rw [shift_zero h, polarKE_symm hI (pathVel q v 0 ms)]; ring

include hr hp hI in
/-- Lagrange's equation for one link. -/
theorem lag1_motion {q v a : ℝ → List ℝ} (h1 : Rate q v) (h2 : Rate v a) {u : List ℝ} {t : ℝ} (hl : (q t).length = u.length)
    {l d : Link ℝ} (el : l.body.mp = m)
    (fl : l.body.frame = product ((ms.map (placed (q t) (v t) (a t))).map linkFrame))
    (vl : (l.body.vel, l.body.acc) =
      (ms.map (placed (q t) (v t) (a t))).foldl (fun st m => (stepVel st.1 m, stepAcc st.1 st.2 m)) (0, ⟨g, 0⟩))
    (ed : d.body.mp = m) (fd : d.body.frame = l.body.frame) (vd : d.body.vel = pathVel (q t) u 0 ms) :
    ∃ Q : ℝ, HasDerivAt (fun e => lag1 g m ms (shift (q t) e u) (v t)) Q 0 ∧
      HasDerivAt (fun s => polarKE m (pathVel (q s) (v s) 0 ms) (pathVel (q s) u 0 ms)) (inertialWork l d + Q) t := by
  set ns : List (ℝ → Link ℝ) := ms.map fun l s => placed (q s) (v s) (a s) l with hns
  have hfst : ∀ s (st : Vec6 ℝ × Vec6 ℝ), ((ms.map (placed (q s) (v s) (a s))).foldl (fun st m => (stepVel st.1 m, stepAcc st.1 st.2 m)) st).1
      = pathVel (q s) (v s) st.1 ms := by
    intro s st
    rw [← foldl_placed ms (q s) (v s) (a s)]
    generalize ms.map (placed (q s) (v s) (a s)) = ks
    induction ks generalizing st with
    | nil => rfl
    | cons k ks ih => rw [List.foldl_cons, ih, List.foldl_cons]
  have hlv : l.body.vel = pathVel (q t) (v t) 0 ms := by
    have := congrArg Prod.fst vl; rw [hfst] at this; exact this
  have hla : l.body.acc = ((ms.map (placed (q t) (v t) (a t))).foldl (fun st m => (stepVel st.1 m, stepAcc st.1 st.2 m)) (0, ⟨g, 0⟩)).2 :=
    congrArg Prod.snd vl
  -- accelerations
  have hA0 : AccDeriv (fun _ => Frame.ident) (fun _ => 0) ⟨g, 0⟩ g t := by
    refine ⟨vecDeriv_const _ _, vecDeriv_congr (vecDeriv_const 0 t) (fun _ => rfl) ?_⟩
    simp [Frame.ident]
  have hA := path_acc ns (by
      intro n hn; obtain ⟨l, hl, rfl⟩ := List.mem_map.1 hn; exact placed_motion (hr l hl) (hp l hl) h1 a) (by
      intro n hn; obtain ⟨l, hl, rfl⟩ := List.mem_map.1 hn; exact place_acc (hp l hl) _ _ h2) (t := t) (by
      intro n hn; obtain ⟨l, hl, rfl⟩ := List.mem_map.1 hn; exact place_screw (hp l hl) _ _ _ _) hA0
  have hV : Vec6Deriv (fun s => pathVel (q s) (v s) 0 ms)
      ⟨l.body.acc.lin - cross l.body.vel.ang l.body.vel.lin - l.body.frame.att.mulVecT g, l.body.acc.ang⟩ t := by
    have ev : ∀ s, ns.foldl (fun v m => stepVel v (m s)) 0 = pathVel (q s) (v s) 0 ms := by
      intro s
      rw [← foldl_placed ms (q s) (v s) (a s), hns, List.foldl_map, List.foldl_map]
    have ef : Frame.ident.cascade (product (ns.map fun m => linkFrame (m t))) = l.body.frame := by
      rw [Frame.ident_cascade, fl, hns, List.map_map, List.map_map]; rfl
    have ea : (ns.foldl (fun st m => (stepVel st.1 (m t), stepAcc st.1 st.2 (m t))) ((0 : Vec6 ℝ), (⟨g, 0⟩ : Vec6 ℝ))).2 = l.body.acc := by
      rw [hla, hns, List.foldl_map, List.foldl_map]
    simp only [AccDeriv, ef, ea, ev, ← hlv] at hA
    exact ⟨hA.2, hA.1⟩
  -- the two mixed derivatives
  obtain ⟨x, y, hx, hy, hxy⟩ := path_commute hr hp h1 hl (D0 := fun _ => 0) (W0 := fun _ => 0) (V0 := 0)
    (vec6Deriv_const 0 t) (vec6Deriv_const 0 0) rfl (by simp only [br]; vec_ring)
  -- the displaced frames
  have hP := path_pose (ms.map fun l e => placed (shift (q t) e u) u [] l) (by
      intro n hn; obtain ⟨l, hl', rfl⟩ := List.mem_map.1 hn
      exact placed_motion (hr l hl') (hp l hl') (shift_rate hl) fun _ => []) (poseDeriv_const Frame.ident 0)
  have hfr : ∀ q v a, (ms.map (placed q v a)).map linkFrame = (ms.map (placed q [] [])).map linkFrame := by
    intro q v a
    rw [List.map_map, List.map_map]
    exact List.map_congr_left fun l _ => placed_frame l q v a [] []
  have hP' : PoseDeriv (fun e => product ((ms.map (placed (shift (q t) e u) [] [])).map linkFrame)) d.body.vel 0 := by
    have e1 : (fun s => Frame.ident.cascade (product ((ms.map fun l e => placed (shift (q t) e u) u [] l).map fun m => linkFrame (m s)))) =
        fun e => product ((ms.map (placed (shift (q t) e u) [] [])).map linkFrame) := by
      funext s
      rw [Frame.ident_cascade, ← hfr _ u [], List.map_map, List.map_map]; rfl
    have e2 : (ms.map fun l e => placed (shift (q t) e u) u [] l).foldl (fun v m => stepVel v (m 0)) 0 = d.body.vel := by
      rw [vd, List.foldl_map]; simp only [shift_zero hl]; rfl
    rw [e1, e2] at hP
    exact hP
  have hF0 : product ((ms.map (placed (shift (q t) 0 u) [] [])).map linkFrame) = l.body.frame := by
    rw [shift_zero hl, fl, hfr (q t) (v t) (a t)]
  have hC : VecDeriv (fun e => (product ((ms.map (placed (shift (q t) e u) [] [])).map linkFrame)).xform m.com)
      (l.body.frame.att.mulVec (cv m d.body.vel)) 0 := by
    obtain ⟨⟨c1, c2, c3⟩, c4⟩ := hP'
    beta_reduce at c1 c2 c3 c4
    rw [hF0] at c1 c2 c3 c4
    refine vecDeriv_congr (c4.add (((VecDeriv.smul (hasDerivAt_const 0 m.com.x) c1).add (VecDeriv.smul (hasDerivAt_const 0 m.com.y) c2)).add
      (VecDeriv.smul (hasDerivAt_const 0 m.com.z) c3))) (fun s => by vec_ring) ?_
    simp only [cv]
    generalize l.body.frame.att = R
    generalize d.body.vel = D
    vec_ring
  have hQ := ((hy.polarKE (m := m) hy).mul_const (1 / 2)).sub ((hasDerivAt_dot (vecDeriv_const g 0) hC).const_mul m.mass)
  refine ⟨_, hQ, ?_⟩
  refine (hV.polarKE (m := m) hx).congr_deriv ?_
  have hRot : l.body.frame.att.IsRot := by
    rw [fl]
    refine isRot_product fun f hf => ?_
    obtain ⟨k, hk, rfl⟩ := List.mem_map.1 hf
    obtain ⟨k0, hk0, rfl⟩ := List.mem_map.1 hk
    exact (placed_motion (hr k0 hk0) (hp k0 hk0) h1 a).linkFrame_rot t
  rw [shift_zero hl, hxy, ← hlv, ← vd, polarKE_symm hI y, polarKE_sub_right]
  have hw : inertialWork l d = m.mass * dot (l.body.acc.lin + cross l.body.acc.ang m.com +
      cross l.body.vel.ang (cross l.body.vel.ang m.com)) (cv m d.body.vel) +
      dot d.body.vel.ang (m.inertia.mulVec l.body.acc.ang + cross l.body.vel.ang (m.inertia.mulVec l.body.vel.ang)) := by
    have hin : ∀ x, ((l.body.frame.att.mul m.inertia).mul l.body.frame.att.tr).mulVec (l.body.frame.att.mulVec x) =
        l.body.frame.att.mulVec (m.inertia.mulVec x) := by
      intro x
      rw [Mat3.mul_mulVec, Mat3.mul_mulVec, show ∀ (R : Mat3 ℝ) y, R.tr.mulVec y = R.mulVecT y from fun R y => by vec_ring,
        hRot.mulVecT_mulVec]
    simp only [inertialWork, mass, comAcc, comVel, angVel, angAcc, worldInertia, el, ed, fd, hin, hRot.dot_mulVec_mulVec,
      ← hRot.mulVec_cross, ← Mat3.mulVec_add, cv]
  rw [hw]
  have hg : dot g (l.body.frame.att.mulVec (cv m d.body.vel)) = dot (l.body.frame.att.mulVecT g) (cv m d.body.vel) := Mat3.dot_mulVec _ _ _
  rw [hg]
  rw [dot_zero_left, zero_add]
  generalize l.body.frame.att.mulVecT g = γ
  generalize polarKE m l.body.vel y = Y
  generalize l.body.vel = V
  generalize l.body.acc = A
  generalize d.body.vel = D
  have e1 : ∀ c : Vec3 ℝ, (br V D).lin + cross (br V D).ang c = cross V.ang (D.lin + cross D.ang c) + cross (V.lin + cross V.ang c) D.ang := by
    intro c; simp only [br]; vec_ring
  have e2 : polarKE m V (br V D) = - dot D.ang (cross V.ang (m.inertia.mulVec V.ang)) - m.mass * dot (cross V.ang (cv m V)) (cv m D) := by
    have e3 : cv m (br V D) = cross V.ang (cv m D) + cross (cv m V) D.ang := e1 m.com
    have e4 : (br V D).ang = cross V.ang D.ang := rfl
    rw [polarKE, e3, e4]
    generalize cv m V = a
    generalize cv m D = b
    generalize m.inertia.mulVec V.ang = i
    vec_ring
  rw [e2]
  have e5 : polarKE m ⟨A.lin - cross V.ang V.lin - γ, A.ang⟩ D = dot D.ang (m.inertia.mulVec A.ang) +
      m.mass * dot (A.lin + cross A.ang m.com - cross V.ang V.lin - γ) (cv m D) := by
    simp only [polarKE]
    have : cv m ⟨A.lin - cross V.ang V.lin - γ, A.ang⟩ = A.lin + cross A.ang m.com - cross V.ang V.lin - γ := by
      simp only [cv]; vec_ring
    rw [this]
  rw [e5]
  have e6 : cross V.ang (cv m V) = cross V.ang V.lin + cross V.ang (cross V.ang m.com) := by simp only [cv]; vec_ring
  rw [e6]
  generalize cv m D = b
  generalize m.inertia.mulVec V.ang = i
  generalize m.inertia.mulVec A.ang = j
  generalize cross V.ang (cross V.ang m.com) = k
  generalize cross A.ang m.com = k2
  generalize cross V.ang V.lin = k3
  generalize cross V.ang i = k4
  vec_ring
end

end Roki
