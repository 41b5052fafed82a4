import Verif.Lemmas.Deriv
import Verif.Props.InvDyn
import Mathlib.Tactic.IntervalCases

/-!
# C08, C09: velocities and accelerations of the links are derivatives of their motion
-/

namespace Roki
open Spec

/-- One link of a moving chain. -/
theorem Spec.Motion.linkMotion {c : ℝ → Chain ℝ} (h : Motion c) {i : ℕ} {m : ℝ → Link ℝ}
    (hm : ∀ s, (c s).link[i]? = some (m s)) : LinkMotion m :=
  ⟨fun s s' => (h.const i m hm s s').1, fun s => h.rot s _ (List.mem_iff_getElem?.2 ⟨i, hm s⟩),
    h.joint i m hm⟩

/-- The links of a moving chain on a fixed path. -/
theorem Spec.Motion.path {c : ℝ → Chain ℝ} (h : Motion c) {q : List ℕ}
    (hq : ∀ j ∈ q, j < (c 0).link.length) :
    ∃ ms : List (ℝ → Link ℝ), (∀ m ∈ ms, ∃ j ∈ q, ∀ s, (c s).link[j]? = some (m s)) ∧
      ∀ s, q.map (fun j => (c s).link[j]?) = ms.map fun m => some (m s) := by
  induction q with
  | nil => exact ⟨[], by simp, by simp⟩
  | cons j q ih =>
    obtain ⟨ms, h1, h2⟩ := ih fun k hk => hq k (by simp [hk])
    have hj : ∀ s, j < (c s).link.length := fun s => by
      rw [h.length s 0]; exact hq j (by simp)
    refine ⟨(fun s => (c s).link[j]'(hj s)) :: ms, ?_, ?_⟩
    · intro m hm
      rcases List.mem_cons.1 hm with rfl | hm
      · exact ⟨j, by simp, fun s => List.getElem?_eq_getElem (hj s)⟩
      · obtain ⟨k, hk, hs⟩ := h1 m hm
        exact ⟨k, by simp [hk], hs⟩
    · intro s
      simp only [List.map_cons, h2 s, List.getElem?_eq_getElem (hj s)]

/-- The links of a moving chain after forward kinematics and the rate pass, along the path to the
link `i`. -/
theorem Spec.Motion.rate {c c1 c2 : ℝ → Chain ℝ} {g : Vec6 ℝ} (h : Motion c)
    (e1 : ∀ s, (c s).updateFK = some (c1 s)) (e2 : ∀ s, (c1 s).updateRate g = some (c2 s)) {i : ℕ}
    {l : ℝ → Link ℝ} (hl : ∀ s, (c2 s).link[i]? = some (l s)) :
    ∃ ms : List (ℝ → Link ℝ), (∀ m ∈ ms, LinkMotion m) ∧
      (∀ m ∈ ms, ∃ j : ℕ, ∀ s, (c s).link[j]? = some (m s)) ∧
      (∀ s, (l s).body.frame = product (ms.map fun m => linkFrame (m s))) ∧
      (∀ s, ((l s).body.vel, (l s).body.acc) =
        ms.foldl (fun st m => (stepVel st.1 (m s), stepAcc st.1 st.2 (m s))) (0, g)) ∧
      (∀ s, COMVelCurrent (l s)) ∧ (∀ s, COMAccCurrent (l s)) ∧
      (∀ s s', (l s).body.mp = (l s').body.mp) ∧
      ∀ s, (l s).body.wldCOM = (l s).body.frame.xform (l s).body.mp.com := by
  have hlen : ∀ s, (c2 s).link.length = (c s).link.length := by
    intro s
    obtain ⟨-, -, -, hw, -, n1, -⟩ := (h.wf s).updateFK (e1 s)
    obtain ⟨-, -, -, -, -, n2, -⟩ := hw.updateRate (e2 s)
    rw [n2, n1]
  have hi : i < (c 0).link.length := by
    rw [← hlen 0]; exact (List.getElem?_eq_some_iff.1 (hl 0)).1
  obtain ⟨p, hp0⟩ := LTree.exists_path ((h.wf 0).mem.2 hi)
  have hp : ∀ s, IsPath (c s).shape (p ++ [i]) := fun s => by rw [h.shape s 0]; exact hp0
  obtain ⟨ms, h1, h2⟩ := h.path (q := p ++ [i]) fun j hj => (h.wf 0).mem.1 (hp0.mem j hj)
  have key := fun s => (h.wf s).rate_path (e1 s) (e2 s) (hp s)
  have hms : ∀ s, ∀ (ns : List (Link ℝ)), (p ++ [i]).map (fun j => (c s).link[j]?) = ns.map some →
      ns = ms.map fun m => m s := by
    intro s ns hn
    have : ns.map some = (ms.map fun m => m s).map some := by
      rw [← hn, h2 s, List.map_map]; rfl
    exact (List.map_injective_iff.2 (Option.some_injective _)) this
  have hil : ∀ s, i < (c s).link.length := fun s => by rw [h.length s 0]; exact hi
  have hmpl : ∀ s, (l s).body.mp = ((c s).link[i]'(hil s)).body.mp := by
    intro s
    obtain ⟨ns, n, l', -, an, b, -, -, hmp, -⟩ := key s
    rw [hl s] at b; cases b
    rw [List.getElem?_eq_getElem (hil s)] at an; cases an
    exact hmp
  refine ⟨ms, ?_, ?_, ?_, ?_, ?_, ?_, ?_, ?_⟩
  · intro m hm
    obtain ⟨j, -, hj⟩ := h1 m hm
    exact h.linkMotion hj
  · intro m hm
    obtain ⟨j, -, hj⟩ := h1 m hm
    exact ⟨j, hj⟩
  · intro s
    obtain ⟨ns, n, l', a, -, b, -, -, -, -, hf, -⟩ := key s
    rw [hl s] at b; cases b
    rw [hf, hms s _ a, List.map_map]; rfl
  · intro s
    obtain ⟨ns, n, l', a, -, b, -, -, -, -, hf, -, hv, -⟩ := key s
    rw [hl s] at b; cases b
    rw [hv, hms s _ a, List.foldl_map]
  · intro s
    obtain ⟨ns, n, l', a, -, b, -, -, -, -, hf, -, hv, hc, -⟩ := key s
    rw [hl s] at b; cases b
    exact hc
  · intro s
    obtain ⟨ns, n, l', a, -, b, -, -, -, -, hf, -, hv, -, hc⟩ := key s
    rw [hl s] at b; cases b
    exact hc
  · intro s s'
    rw [hmpl s, hmpl s']
    exact (h.const i (fun s => (c s).link[i]'(hil s)) (fun s => List.getElem?_eq_getElem (hil s)) s s').2
  · intro s
    obtain ⟨ns, n, l', a, -, b, -, -, hmp, -, hf, hw, hv, hc, -⟩ := key s
    rw [hl s] at b; cases b
    rw [hw, hmp]

theorem foldl_fst (ms : List (ℝ → Link ℝ)) (s : ℝ) (v a : Vec6 ℝ) :
    (ms.foldl (fun st m => (stepVel st.1 (m s), stepAcc st.1 st.2 (m s))) (v, a)).1 =
      ms.foldl (fun v m => stepVel v (m s)) v := by
  induction ms generalizing v a with
  | nil => rfl
  | cons m ms ih => simp only [List.foldl_cons, ih]

/-- **C08** Velocities.  A chain moves: the displacements of its joints are functions of time whose
rates of change are the joint velocities.  At every time let forward kinematics be computed and then
the rates.  Then at every time, for every link, the velocity of the link (expressed in its own frame)
is, once turned into the world frame, the derivative of the world position of the link frame, and the
angular velocity is that of its world attitude. -/
theorem C08_link_velocity (c c1 c2 : ℝ → Chain ℝ) (g : Vec6 ℝ) (h : Motion c)
    (e1 : ∀ s, (c s).updateFK = some (c1 s)) (e2 : ∀ s, (c1 s).updateRate g = some (c2 s))
    (i : ℕ) (l : ℝ → Link ℝ) (hl : ∀ s, (c2 s).link[i]? = some (l s)) (t : ℝ) :
    VecDeriv (fun s => (l s).body.frame.pos) ((l t).body.frame.att.mulVec (l t).body.vel.lin) t ∧
    RotMotion (fun s => (l s).body.frame.att) ((l t).body.frame.att.mulVec (l t).body.vel.ang) t := by
  obtain ⟨ms, h1, -, hf, hv, -⟩ := h.rate e1 e2 hl
  have hP := path_pose ms h1 (poseDeriv_const Frame.ident t)
  have ef : (fun s => (l s).body.frame) =
      fun s => Frame.ident.cascade (product (ms.map fun m => linkFrame (m s))) := by
    funext s; rw [hf s, Frame.ident_cascade]
  have ev : (l t).body.vel = ms.foldl (fun v m => stepVel v (m t)) 0 := by
    rw [← foldl_fst ms t 0 g, ← hv t]
  rw [← ev, ← ef] at hP
  have hR : (l t).body.frame.att.IsRot := by
    rw [hf t]
    refine isRot_product fun f hf => ?_
    obtain ⟨m, hm, rfl⟩ := List.mem_map.1 hf
    exact (h1 m hm).linkFrame_rot t
  refine ⟨hP.2, ?_⟩
  unfold RotMotion
  rw [skew_mul_eq hR, hR.mulVecT_mulVec]
  exact hP.1

/-- **C08** The velocity of the center of mass of every link is the derivative of its world
position. -/
theorem C08_com_velocity (c c1 c2 : ℝ → Chain ℝ) (g : Vec6 ℝ) (h : Motion c)
    (e1 : ∀ s, (c s).updateFK = some (c1 s)) (e2 : ∀ s, (c1 s).updateRate g = some (c2 s))
    (i : ℕ) (l : ℝ → Link ℝ) (hl : ∀ s, (c2 s).link[i]? = some (l s)) (t : ℝ) :
    VecDeriv (fun s => (l s).body.wldCOM) ((l t).body.frame.att.mulVec (l t).body.comVel) t := by
  obtain ⟨ms, h1, -, hf, -, hcv, -, hmp, hcom⟩ := h.rate e1 e2 hl
  obtain ⟨hp, hR⟩ := C08_link_velocity c c1 c2 g h e1 e2 i l hl t
  have hRot : (l t).body.frame.att.IsRot := by
    rw [hf t]
    refine isRot_product fun f hf => ?_
    obtain ⟨m, hm, rfl⟩ := List.mem_map.1 hf
    exact (h1 m hm).linkFrame_rot t
  refine vecDeriv_congr (hp.add (hR.mulVec (vecDeriv_const (l t).body.mp.com t))) (fun s => ?_) ?_
  · rw [hcom s, hmp s t, Frame.xform, add_comm]
  · rw [hcv t, Mat3.mulVec_add, Mat3.mul_mulVec, Mat3.skew_mulVec, ← hRot.mulVec_cross,
      Mat3.mulVec_zero]
    abel

/-- The accelerations of a moving chain, in the frame of the link. -/
theorem Spec.Motion.accDeriv {c c1 c2 : ℝ → Chain ℝ} {g : Vec6 ℝ} (h : Motion c)
    (ha : ∀ (i : ℕ) (l : ℝ → Link ℝ), (∀ s, (c s).link[i]? = some (l s)) →
      AccMotion fun s => (l s).joint.prp)
    (hg : g.ang = 0)
    (e1 : ∀ s, (c s).updateFK = some (c1 s)) (e2 : ∀ s, (c1 s).updateRate g = some (c2 s))
    {i : ℕ} {l : ℝ → Link ℝ} (hl : ∀ s, (c2 s).link[i]? = some (l s)) {t : ℝ}
    (hf : ∀ m ∈ (c t).link, FloatScrew m.joint.prp) :
    AccDeriv (fun s => (l s).body.frame) (fun s => (l s).body.vel) (l t).body.acc g.lin t ∧
      (l t).body.frame.att.IsRot := by
  obtain ⟨ms, h1, h2, hfr, hv, -⟩ := h.rate e1 e2 hl
  have hA0 : AccDeriv (fun _ => Frame.ident) (fun _ => 0) g g.lin t := by
    refine ⟨?_, ?_⟩
    · rw [hg]; exact vecDeriv_const _ _
    · refine vecDeriv_congr (vecDeriv_const 0 t) (fun _ => rfl) ?_
      simp [Frame.ident]
  have hA := path_acc ms h1 (fun m hm => by obtain ⟨j, hj⟩ := h2 m hm; exact ha j m hj)
    (fun m hm => by
      obtain ⟨j, hj⟩ := h2 m hm; exact hf _ (List.mem_iff_getElem?.2 ⟨j, hj t⟩)) hA0
  have ef : (fun s => Frame.ident.cascade (product (ms.map fun m => linkFrame (m s)))) =
      fun s => (l s).body.frame := by
    funext s; rw [hfr s, Frame.ident_cascade]
  have ev : (fun s => ms.foldl (fun v m => stepVel v (m s)) 0) = fun s => (l s).body.vel := by
    funext s; rw [← foldl_fst ms s 0 g, ← hv s]
  rw [← hv t, ef, ev] at hA
  refine ⟨hA, ?_⟩
  rw [hfr t]
  refine isRot_product fun f hf => ?_
  obtain ⟨m, hm, rfl⟩ := List.mem_map.1 hf
  exact (h1 m hm).linkFrame_rot t

/-- **C09** Accelerations.  A chain moves, and the joint accelerations are the rates of change of
the joint velocities.  At every time let forward kinematics be computed and then the rates, with the
root accelerated by `g`.  Then, for every link, the derivative of the velocity of the link frame
(itself the derivative of the position) is the linear acceleration of the link turned into the world
frame, less `g`; the derivative of its angular velocity is the angular acceleration.

Missing: floating joints whose linear and angular velocities are not parallel, for which the code is
wrong (`C09_link_acceleration_fails`). -/
theorem C09_link_acceleration_partial (c c1 c2 : ℝ → Chain ℝ) (g : Vec6 ℝ) (h : Motion c)
    (ha : ∀ (i : ℕ) (l : ℝ → Link ℝ), (∀ s, (c s).link[i]? = some (l s)) →
      AccMotion fun s => (l s).joint.prp)
    (hg : g.ang = 0)
    (e1 : ∀ s, (c s).updateFK = some (c1 s)) (e2 : ∀ s, (c1 s).updateRate g = some (c2 s))
    (i : ℕ) (l : ℝ → Link ℝ) (hl : ∀ s, (c2 s).link[i]? = some (l s)) (t : ℝ)
    (hf : ∀ m ∈ (c t).link, FloatScrew m.joint.prp) :
    (∃ v w : ℝ → Vec3 ℝ, (∀ s, VecDeriv (fun u => (l u).body.frame.pos) (v s) s) ∧
      (∀ s, RotMotion (fun u => (l u).body.frame.att) (w s) s) ∧
      VecDeriv v ((l t).body.frame.att.mulVec (l t).body.acc.lin - g.lin) t ∧
      VecDeriv w ((l t).body.frame.att.mulVec (l t).body.acc.ang) t) := by
  obtain ⟨hA, hR⟩ := h.accDeriv ha hg e1 e2 hl hf
  have hV := C08_link_velocity c c1 c2 g h e1 e2 i l hl
  refine ⟨_, _, fun s => (hV s).1, fun s => (hV s).2, ?_, ?_⟩
  · refine vecDeriv_congr (Spec.MatDeriv.mulVec (hV t).2 hA.2) (fun _ => rfl) ?_
    simp only [Mat3.mulVec_sub, hR.mulVec_cross, hR.mulVec_mulVecT, Mat3.mul_mulVec, Mat3.skew_mulVec]
    abel
  · refine vecDeriv_congr (Spec.MatDeriv.mulVec (hV t).2 hA.1) (fun _ => rfl) ?_
    simp only [Mat3.mul_mulVec, Mat3.skew_mulVec, cross_self, zero_add]

/-- The velocity of the center of mass in the frame of the link. -/
theorem Spec.Motion.comDeriv {c c1 c2 : ℝ → Chain ℝ} {g : Vec6 ℝ} (h : Motion c)
    (ha : ∀ (i : ℕ) (l : ℝ → Link ℝ), (∀ s, (c s).link[i]? = some (l s)) →
      AccMotion fun s => (l s).joint.prp)
    (hg : g.ang = 0)
    (e1 : ∀ s, (c s).updateFK = some (c1 s)) (e2 : ∀ s, (c1 s).updateRate g = some (c2 s))
    {i : ℕ} {l : ℝ → Link ℝ} (hl : ∀ s, (c2 s).link[i]? = some (l s)) {t : ℝ}
    (hf : ∀ m ∈ (c t).link, FloatScrew m.joint.prp) :
    VecDeriv (fun s => (l s).body.comVel) ((l t).body.comAcc -
      cross (l t).body.vel.ang (l t).body.comVel - (l t).body.frame.att.mulVecT g.lin) t := by
  obtain ⟨hA, hR⟩ := h.accDeriv ha hg e1 e2 hl hf
  obtain ⟨-, -, -, -, -, hcv, hca, hmp, -⟩ := h.rate e1 e2 hl
  refine vecDeriv_congr (hA.2.add (hA.1.cross (vecDeriv_const (l t).body.mp.com t))) (fun s => ?_) ?_
  · rw [hcv s, hmp s t]
  · have h1 : (l t).body.comAcc = _ := hca t
    have h2 : (l t).body.comVel = _ := hcv t
    rw [h1, h2, triple_eq, cross_add_right, cross_zero_right]
    abel

/-- **C09** The acceleration of the center of mass of every link. -/
theorem C09_com_acceleration_partial (c c1 c2 : ℝ → Chain ℝ) (g : Vec6 ℝ) (h : Motion c)
    (ha : ∀ (i : ℕ) (l : ℝ → Link ℝ), (∀ s, (c s).link[i]? = some (l s)) →
      AccMotion fun s => (l s).joint.prp)
    (hg : g.ang = 0)
    (e1 : ∀ s, (c s).updateFK = some (c1 s)) (e2 : ∀ s, (c1 s).updateRate g = some (c2 s))
    (i : ℕ) (l : ℝ → Link ℝ) (hl : ∀ s, (c2 s).link[i]? = some (l s)) (t : ℝ)
    (hf : ∀ m ∈ (c t).link, FloatScrew m.joint.prp) :
    ∃ v : ℝ → Vec3 ℝ, (∀ s, VecDeriv (fun u => (l u).body.wldCOM) (v s) s) ∧
      VecDeriv v ((l t).body.frame.att.mulVec (l t).body.comAcc - g.lin) t := by
  obtain ⟨hA, hR⟩ := h.accDeriv ha hg e1 e2 hl hf
  have hC := h.comDeriv ha hg e1 e2 hl hf
  have hV := C08_link_velocity c c1 c2 g h e1 e2 i l hl
  refine ⟨_, fun s => C08_com_velocity c c1 c2 g h e1 e2 i l hl s, ?_⟩
  refine vecDeriv_congr (Spec.MatDeriv.mulVec (hV t).2 hC) (fun _ => rfl) ?_
  simp only [Mat3.mulVec_sub, hR.mulVec_cross, hR.mulVec_mulVecT, Mat3.mul_mulVec, Mat3.skew_mulVec]
  abel

/-! ### The code is wrong for a floating joint that turns while it travels -/

/-- A body that flies in a straight line at constant velocity (1,0,0) and turns about z at constant
angular velocity. -/
noncomputable def Sample.flying (s : ℝ) : Chain ℝ :=
  { link := [Sample.link "body" (.float { Sample.flt ⟨⟨1, 0, 0⟩, ⟨0, 0, 1⟩⟩ with
      dis := ⟨⟨s, 0, 0⟩, ⟨0, 0, s⟩⟩, att := Rz (Real.sin s) (Real.cos s) }) Sample.mp1 Frame.ident],
    shape := .node 0 .nil .nil, mass := 1, wldCOM := 0, comVel := 0, comAcc := 0 }

theorem Sample.flying_motion : Motion Sample.flying := by
  have key : ∀ (i : ℕ) (l : ℝ → Link ℝ), (∀ s, (Sample.flying s).link[i]? = some (l s)) →
      l = fun s => Sample.link "body" (.float { Sample.flt ⟨⟨1, 0, 0⟩, ⟨0, 0, 1⟩⟩ with
      dis := ⟨⟨s, 0, 0⟩, ⟨0, 0, s⟩⟩, att := Rz (Real.sin s) (Real.cos s) }) Sample.mp1 Frame.ident := by
    intro i l hl
    funext s
    have := hl s
    rcases i with _ | i
    · simpa [Sample.flying] using this.symm
    · simp [Sample.flying] at this
  refine ⟨fun s => ⟨⟨_, rfl⟩, by simp [Sample.flying, LTree.toList]⟩, fun _ _ => rfl, fun _ _ => rfl, ?_, ?_, ?_⟩
  · intro i l hl s s'
    rw [key i l hl]; exact ⟨rfl, rfl⟩
  · intro s l hl
    simp only [Sample.flying, List.mem_singleton] at hl
    subst hl; exact Mat3.isRot_one
  · intro i l hl
    rw [key i l hl]
    refine JointMotion.float _ fun t => ⟨?_, ?_, ?_⟩
    · refine isRot_Rz ?_
      nlinarith [Real.sin_sq_add_cos_sq t]
    · have hs : HasDerivAt Real.sin (Real.cos t * 1) t := by simpa using Real.hasDerivAt_sin t
      have hc : HasDerivAt Real.cos (-Real.sin t * 1) t := by simpa using Real.hasDerivAt_cos t
      have h := matDeriv_Rz (s := Real.sin) (c := Real.cos) hs hc
      unfold RotMotion
      have e : (Mat3.skew ⟨0, 0, 1⟩).mul (Rz (Real.sin t) (Real.cos t)) =
          (Rz (Real.sin t) (Real.cos t)).mul (Mat3.skew ⟨0, 0, 1⟩) := by
        simp only [Rz]; vec_ring
      simp only [Sample.flt]
      rw [e]; exact h
    · exact ⟨hasDerivAt_id t, hasDerivAt_const t _, hasDerivAt_const t _⟩

/-- **C09** fails for floating joints: a body that flies in a straight line at constant velocity
while it turns is given a non-zero linear acceleration. -/
theorem C09_link_acceleration_fails : ∃ (c c1 c2 : ℝ → Chain ℝ) (l : ℝ → Link ℝ), Motion c ∧
    (∀ (i : ℕ) (l : ℝ → Link ℝ), (∀ s, (c s).link[i]? = some (l s)) → AccMotion fun s => (l s).joint.prp) ∧
    (∀ s, (c s).updateFK = some (c1 s)) ∧ (∀ s, (c1 s).updateRate 0 = some (c2 s)) ∧
    (∀ s, (c2 s).link[0]? = some (l s)) ∧
    (∀ s, VecDeriv (fun u => (l u).body.frame.pos) ⟨1, 0, 0⟩ s) ∧
    ∀ s, (l s).body.frame.att.mulVec (l s).body.acc.lin = ⟨0, 2, 0⟩ := by
  have hM := Sample.flying_motion
  have ex1 : ∀ s, ∃ c1, (Sample.flying s).updateFK = some c1 := fun s => by
    obtain ⟨c1, e, -⟩ := C06_fk_composition _ (hM.wf s); exact ⟨c1, e⟩
  choose c1 e1 using ex1
  have hw1 : ∀ s, (c1 s).WF := fun s => by
    obtain ⟨-, -, -, hw, -⟩ := (hM.wf s).updateFK (e1 s); exact hw
  have ex2 : ∀ s, ∃ c2, (c1 s).updateRate 0 = some c2 := fun s => by
    obtain ⟨ls1, T, hT, e, -⟩ := (hw1 s).downAt (fun st (l : Link ℝ) => l.updateRate1 st.1 st.2)
      (fun l => (l.body.vel, l.body.acc)) (0, 0)
    exact ⟨{ c1 s with link := ls1 }, by simp only [Chain.updateRate, Chain.updateRateAt, e, Option.map_some]⟩
  choose c2 e2 using ex2
  have key := fun s => (hM.wf s).rate_path (e1 s) (e2 s) (p := []) (i := 0) (.here _ _ _)
  choose ms m l h1 h2 h3 h4 h5 h6 h7 h8 h9 h10 h11 h12 using key
  have hms : ∀ s, ms s = [] := fun s => by
    have := congrArg List.length (h1 s)
    simpa using this
  have hm : ∀ s, m s = Sample.link "body" (.float { Sample.flt ⟨⟨1, 0, 0⟩, ⟨0, 0, 1⟩⟩ with
      dis := ⟨⟨s, 0, 0⟩, ⟨0, 0, s⟩⟩, att := Rz (Real.sin s) (Real.cos s) }) Sample.mp1 Frame.ident := fun s => by
    have := h2 s
    simpa [Sample.flying] using this.symm
  refine ⟨Sample.flying, c1, c2, l, hM, ?_, e1, e2, h3, ?_, ?_⟩
  · intro i l hl
    have : l = fun s => Sample.link "body" (.float { Sample.flt ⟨⟨1, 0, 0⟩, ⟨0, 0, 1⟩⟩ with
      dis := ⟨⟨s, 0, 0⟩, ⟨0, 0, s⟩⟩, att := Rz (Real.sin s) (Real.cos s) }) Sample.mp1 Frame.ident := by
      funext s
      have := hl s
      rcases i with _ | i
      · simpa [Sample.flying] using this.symm
      · simp [Sample.flying] at this
    rw [this]
    intro t k hk
    have : k < 6 := hk
    interval_cases k <;>
      simpa [Sample.link, Sample.flt, Prp.getVel, Prp.getAcc, Vec6.toBuf, Vec3.toBuf] using hasDerivAt_const t _
  · intro s
    have hfr : ∀ s, (l s).body.frame.pos = ⟨s, 0, 0⟩ := fun s => by
      rw [h8 s, hms s, hm s]
      simp [Sample.link, linkFrame, jointFrame, product, Frame.cascade, Frame.ident, Mat3.mulVec]
      ext <;> simp
    simp only [hfr]
    exact ⟨hasDerivAt_id s, hasDerivAt_const s _, hasDerivAt_const s _⟩
  · intro s
    have hacc := congrArg Prod.snd (h10 s)
    rw [hms s] at hacc
    simp only [List.nil_append, List.foldl_cons, List.foldl_nil] at hacc
    rw [hacc, h8 s, hms s, hm s]
    have h := Real.sin_sq_add_cos_sq s
    simp only [Sample.link, Sample.flt, stepAcc, stepVel, linkFrame, jointFrame, Prp.incVel, Prp.incAcc,
      Prp.incAccOnVel, List.nil_append, List.map_cons, List.map_nil, product, Rz]
    vec_unfold
    refine ⟨?_, ?_, ?_⟩ <;> grind


/-! ## The whole chain -/

theorem vecDeriv_sum {ι : Type*} (L : List ι) (f : ι → ℝ → Vec3 ℝ) (f' : ι → Vec3 ℝ) {t : ℝ}
    (h : ∀ i ∈ L, VecDeriv (f i) (f' i) t) :
    VecDeriv (fun s => (L.map fun i => f i s).sum) (L.map f').sum t := by
  induction L with
  | nil => exact vecDeriv_const 0 t
  | cons i L ih =>
    simp only [List.map_cons, List.sum_cons]
    exact (h i (by simp)).add (ih fun j hj => h j (by simp [hj]))

theorem hasDerivAt_sum {ι : Type*} (L : List ι) (f : ι → ℝ → ℝ) (f' : ι → ℝ) {t : ℝ}
    (h : ∀ i ∈ L, HasDerivAt (f i) (f' i) t) :
    HasDerivAt (fun s => (L.map fun i => f i s).sum) (L.map f').sum t := by
  induction L with
  | nil => exact hasDerivAt_const t _
  | cons i L ih =>
    simp only [List.map_cons, List.sum_cons]
    exact (h i (by simp)).add (ih fun j hj => h j (by simp [hj]))

/-- `rkChainUpdateID` computes the rates and then changes joint torques and wrenches only. -/
theorem updateID_rate {c c2 : Chain ℝ} {g : Vec6 ℝ} (h : c.WF) (e : c.updateID g = some c2) :
    ∃ c', c.updateRate g = some c' ∧ c2.link.map (·.body) = c'.link.map (·.body) ∧
      c2.wldCOM = c.wldCOM ∧ c2.mass = c.mass ∧ c2.comVel = LinkArray.calcCOMVel c2.mass c2.link ∧
      c2.comAcc = LinkArray.calcCOMAcc c2.mass c2.link ∧ c2.link.length = c.link.length := by
  obtain ⟨ls1, T, hT, e1, g1, n1⟩ := h.downAt (fun st (l : Link ℝ) => l.updateRate1 st.1 st.2)
    (fun l => (l.body.vel, l.body.acc)) (0, g)
  have h1 : Chain.WF { c with link := ls1 } := h.with_link n1
  obtain ⟨ls2, T2, hT2, e2, g2, n2⟩ := h1.updateWrenchAt
  simp only [Chain.updateID, Chain.updateRate, Chain.updateRateAt, e1, Option.map_some,
    Chain.updateWrench, e2, Option.bind_eq_bind, Option.bind_some, Option.pure_def,
    Option.some.injEq] at e
  subst e
  refine ⟨{ c with link := ls1 }, ?_, ?_, rfl, rfl, rfl, rfl, n2.trans n1⟩
  · simp only [Chain.updateRate, Chain.updateRateAt, e1, Option.map_some]
  · refine Chain.map_eq_of_gather g2 hT2 n2 (fun i hi => h1.mem.2 (by omega)) _ ?_
    exact LTree.updateWrench_body T2

/-- The bodies of a list of links, by index. -/
theorem map_body_range {α : Type*} (k : Body ℝ → α) (ls : List (Link ℝ)) (d : Body ℝ) {n : ℕ}
    (hn : ls.length = n) :
    ls.map (fun l => k l.body) = (List.range n).map fun i => k ((ls.map (·.body)).getD i d) := by
  apply List.ext_getElem?
  intro i
  simp only [List.getElem?_map, List.getD_eq_getElem?_getD]
  by_cases hi : i < n
  · simp [hi, hn]
  · simp [hi, hn]

/-- What the bodies of a chain do after forward kinematics and inverse dynamics at every time. -/
theorem Spec.Motion.updateID {c c1 c2 : ℝ → Chain ℝ} {g : Vec6 ℝ} (h : Motion c)
    (e1 : ∀ s, (c s).updateFK = some (c1 s)) (e2 : ∀ s, (c1 s).updateID g = some (c2 s)) :
    ∃ c3 : ℝ → Chain ℝ, (∀ s, (c1 s).updateRate g = some (c3 s)) ∧
      (∀ s, (c2 s).link.map (·.body) = (c3 s).link.map (·.body)) ∧
      (∀ s, (c2 s).link.length = (c 0).link.length) ∧
      ∀ (i : ℕ), i < (c 0).link.length → ∃ l : ℝ → Link ℝ, (∀ s, (c3 s).link[i]? = some (l s)) ∧
        ∀ s, ((c2 s).link.map (·.body)).getD i Body.init = (l s).body := by
  have hw1 : ∀ s, (c1 s).WF ∧ (c1 s).link.length = (c s).link.length := fun s => by
    obtain ⟨-, -, -, hw, -, n, -⟩ := (h.wf s).updateFK (e1 s); exact ⟨hw, n⟩
  have key := fun s => updateID_rate (hw1 s).1 (e2 s)
  choose c3 h1 h2 _ _ _ _ h7 using key
  have hlen : ∀ s, (c2 s).link.length = (c 0).link.length := fun s => by
    rw [h7 s, (hw1 s).2, h.length s 0]
  refine ⟨c3, h1, h2, hlen, fun i hi => ?_⟩
  have hlen3 : ∀ s, i < (c3 s).link.length := fun s => by
    have := congrArg List.length (h2 s)
    simp only [List.length_map] at this
    rw [← this, hlen s]; exact hi
  refine ⟨fun s => (c3 s).link[i]'(hlen3 s), fun s => List.getElem?_eq_getElem (hlen3 s), fun s => ?_⟩
  rw [h2 s, List.getD_eq_getElem?_getD, List.getElem?_map, List.getElem?_eq_getElem (hlen3 s)]
  rfl

/-- The center of mass of the chain after forward kinematics and inverse dynamics. -/
theorem updateID_wldCOM {c c1 c2 : Chain ℝ} {g : Vec6 ℝ} (h : c.WF) (e1 : c.updateFK = some c1)
    (e2 : c1.updateID g = some c2) :
    c2.wldCOM = LinkArray.calcCOM c2.mass c2.link ∧ c2.mass = c.mass := by
  obtain ⟨T, hT, hg, hw, hs, hn, hm⟩ := h.updateFK e1
  obtain ⟨c3, h1, h2, h3, h4, -⟩ := updateID_rate hw e2
  obtain ⟨T3, hT3, hg3, hw3, hs3, hn3, -⟩ := hw.updateRate h1
  have hk : c3.link.map (fun l => (l.body.mp, l.body.wldCOM)) =
      c1.link.map (fun l => (l.body.mp, l.body.wldCOM)) := by
    refine Chain.map_eq_of_gather hg3 hT3 hn3 (fun i hi => hw.mem.2 (by omega)) _ ?_
    rw [LTree.updateRate_eq]
    refine LTree.down_map_inv _ ?_ _ _
    intro _ _; rfl
  have hb : c2.link.map (fun l => (l.body.mp, l.body.wldCOM)) =
      c1.link.map (fun l => (l.body.mp, l.body.wldCOM)) := by
    rw [← hk]
    have := congrArg (List.map fun b : Body ℝ => (b.mp, b.wldCOM)) h2
    simpa [List.map_map, Function.comp_def] using this
  have hc1 : c1.wldCOM = LinkArray.calcCOM c1.mass c1.link := by
    simp only [Chain.updateFK, Option.map_eq_some_iff] at e1
    obtain ⟨c', -, rfl⟩ := e1
    rfl
  refine ⟨?_, h4.trans hm⟩
  rw [h3, hc1, h4]
  have e : ∀ (M : ℝ) (ls : List (Link ℝ)), LinkArray.calcCOM M ls =
      M⁻¹ • ((ls.map fun l => (l.body.mp, l.body.wldCOM)).map fun x => x.1.mass • x.2).sum := by
    intro M ls
    simp only [LinkArray.calcCOM, cat]
    rw [foldl_add_eq, zero_add, List.map_map]; rfl
  rw [e, e, hb]

/-- **C08** The velocity of the center of mass of the chain after `rkChainUpdateFK` and
`rkChainUpdateID` is the derivative of the center of mass of the chain. -/
theorem C08_chain_com_velocity (c c1 c2 : ℝ → Chain ℝ) (g : Vec6 ℝ) (h : Motion c)
    (hm : ∀ s s', (c s).mass = (c s').mass)
    (e1 : ∀ s, (c s).updateFK = some (c1 s)) (e2 : ∀ s, (c1 s).updateID g = some (c2 s)) (t : ℝ) :
    VecDeriv (fun s => (c2 s).wldCOM) (c2 t).comVel t := by
  obtain ⟨c3, h3, hb, hlen, hl⟩ := h.updateID e1 e2
  have hC := fun s => updateID_wldCOM (h.wf s) (e1 s) (e2 s)
  have hv : (c2 t).comVel = LinkArray.calcCOMVel (c2 t).mass (c2 t).link := by
    obtain ⟨-, -, -, hw, -⟩ := (h.wf t).updateFK (e1 t)
    obtain ⟨_, -, -, -, -, hv, -⟩ := updateID_rate hw (e2 t)
    exact hv
  have hS := vecDeriv_sum (List.range (c 0).link.length)
    (fun i s => (c t).mass⁻¹ • ((((c2 s).link.map (·.body)).getD i Body.init).mp.mass •
      (((c2 s).link.map (·.body)).getD i Body.init).wldCOM))
    (fun i => (c t).mass⁻¹ • ((((c2 t).link.map (·.body)).getD i Body.init).mp.mass •
      (((c2 t).link.map (·.body)).getD i Body.init).frame.att.mulVec
        (((c2 t).link.map (·.body)).getD i Body.init).comVel)) (t := t) (by
      intro i hi
      obtain ⟨l, hl1, hl2⟩ := hl i (List.mem_range.1 hi)
      simp only [hl2]
      obtain ⟨-, -, -, -, -, -, -, hmp, -⟩ := h.rate e1 h3 hl1
      have hd := C08_com_velocity c c1 c3 g h e1 h3 i l hl1 t
      have hsm := Spec.VecDeriv.smul (hasDerivAt_const t ((c t).mass⁻¹)) (Spec.VecDeriv.smul (hasDerivAt_const t (l t).body.mp.mass) hd)
      refine vecDeriv_congr hsm (fun s => ?_) ?_
      · rw [hmp s t]
      · simp)
  refine vecDeriv_congr hS (fun s => ?_) ?_
  · rw [(hC s).1, (hC s).2, hm s t]
    simp only [LinkArray.calcCOM, cat]
    rw [foldl_add_eq, zero_add, map_body_range (fun b => b.mp.mass • b.wldCOM) _ Body.init (hlen s),
      smul_sum']
  · rw [hv, (hC t).2]
    simp only [LinkArray.calcCOMVel, cat]
    rw [foldl_add_eq, zero_add, map_body_range (fun b => (b.mp.mass / (c t).mass) •
      b.frame.att.mulVec b.comVel) _ Body.init (hlen t)]
    congr 1
    apply List.map_congr_left
    intro i _
    rw [smul_smul, div_eq_inv_mul]

/-- Mechanical energy of a chain: kinetic energy plus potential energy in the field that
accelerates bodies by `-g`. -/
noncomputable def Spec.energy (g : Vec3 ℝ) (ls : List (Link ℝ)) : ℝ :=
  LinkArray.ke ls + (ls.map fun l => mass l * dot g l.body.wldCOM).sum

/-- `Spec.inertialPower` of a body. -/
noncomputable def bodyPower (b : Body ℝ) : ℝ :=
  inertialPower { Sample.link "" .fixed Sample.mp1 Frame.ident with body := b }

theorem hasDerivAt_dot {u v : ℝ → Vec3 ℝ} {u' v' : Vec3 ℝ} {t : ℝ} (hu : VecDeriv u u' t)
    (hv : VecDeriv v v' t) :
    HasDerivAt (fun s => dot (u s) (v s)) (dot u' (v t) + dot (u t) v') t := by
  obtain ⟨a, b, c⟩ := hu
  obtain ⟨d, e, f⟩ := hv
  exact (((a.mul d).add (b.mul e)).add (c.mul f)).congr_deriv (by simp [dot]; ring)

theorem inertialPower_local (l : Link ℝ) (h : l.body.frame.att.IsRot) (hv : COMVelCurrent l)
    (hc : COMAccCurrent l) : inertialPower l = l.body.mp.mass * dot l.body.comAcc l.body.comVel +
      dot l.body.vel.ang (l.body.mp.inertia.mulVec l.body.acc.ang) := by
  have hc' : l.body.comAcc = _ := hc
  have hv' : l.body.comVel = _ := hv
  simp only [inertialPower, mass, comAcc, comVel, worldInertia, angAcc, angVel,
    Mat3.mul_mulVec, ← Mat3.mulVecT_eq, h.mulVecT_mulVec, h.dot_mulVec_mulVec, hc', hv', triple_eq]
  congr 3
  abel

/-- **C09** Work-energy theorem.  A chain moves, its joint accelerations are the rates of change of
the joint velocities, and at every time forward kinematics and inverse dynamics are computed with the
root accelerated by `g`.  Then the rate of change of the mechanical energy is the power of the
resolved joint torques plus the power of the external wrenches. -/
theorem C09_work_energy_partial (c c1 c2 : ℝ → Chain ℝ) (g : Vec6 ℝ) (h : Motion c)
    (ha : ∀ (i : ℕ) (l : ℝ → Link ℝ), (∀ s, (c s).link[i]? = some (l s)) →
      AccMotion fun s => (l s).joint.prp)
    (hg : g.ang = 0) (hI : ∀ s, ∀ l ∈ (c s).link, l.body.mp.inertia.Symm)
    (e1 : ∀ s, (c s).updateFK = some (c1 s)) (e2 : ∀ s, (c1 s).updateID g = some (c2 s)) (t : ℝ)
    (hf : ∀ m ∈ (c t).link, FloatScrew m.joint.prp) :
    HasDerivAt (fun s => energy g.lin (c2 s).link)
      (((c2 t).link.map jointPower).sum + ((c2 t).link.map extPower).sum) t := by
  obtain ⟨c3, h3, hb, hlen, hl⟩ := h.updateID e1 e2
  have hwf : ∀ l ∈ (c t).link, l.org.att.IsRot ∧ l.joint.prp.WF := by
    intro l hl
    obtain ⟨i, hi⟩ := List.mem_iff_getElem?.1 hl
    have hil : ∀ s, i < (c s).link.length := fun s => by
      rw [h.length s t]; exact (List.getElem?_eq_some_iff.1 hi).1
    have hj := h.joint i (fun s => (c s).link[i]'(hil s)) fun s => List.getElem?_eq_getElem (hil s)
    have := jointMotion_WF hj t
    rw [List.getElem?_eq_getElem (hil t)] at hi
    cases hi
    exact ⟨h.rot t _ (List.getElem_mem _), this⟩
  have hpow := C19_power_balance_update (c t) (c1 t) (c2 t) g (h.wf t) hwf (e1 t) (e2 t)
  have hS := hasDerivAt_sum (List.range (c 0).link.length)
    (fun i s => (((c2 s).link.map (·.body)).getD i Body.init).ke +
      (((c2 s).link.map (·.body)).getD i Body.init).mp.mass *
        dot g.lin (((c2 s).link.map (·.body)).getD i Body.init).wldCOM)
    (fun i => bodyPower (((c2 t).link.map (·.body)).getD i Body.init)) (t := t) (by
      intro i hi
      obtain ⟨l, hl1, hl2⟩ := hl i (List.mem_range.1 hi)
      simp only [hl2]
      obtain ⟨hA, hR⟩ := h.accDeriv ha hg e1 h3 hl1 hf
      have hC := h.comDeriv ha hg e1 h3 hl1 hf
      have hW := C08_com_velocity c c1 c3 g h e1 h3 i l hl1 t
      obtain ⟨-, -, -, -, -, hcv, hca, hmp, -⟩ := h.rate e1 h3 hl1
      have hIs : (l t).body.mp.inertia.Symm := by
        obtain ⟨p, hp⟩ := LTree.exists_path ((h.wf t).mem.2
          (by rw [h.length t 0]; exact List.mem_range.1 hi))
        obtain ⟨ms, m, l', -, hm1, hm2, -, -, hm3, -⟩ := (h.wf t).rate_path (e1 t) (h3 t) hp
        rw [hl1 t] at hm2; cases hm2
        rw [hm3]; exact hI t m (List.mem_iff_getElem?.2 ⟨i, hm1⟩)
      have d1 := hasDerivAt_dot hA.1 (Spec.MatDeriv.mulVec (matDeriv_const (l t).body.mp.inertia t) hA.1)
      have d2 := (hasDerivAt_dot hC hC).const_mul (l t).body.mp.mass
      have d3 := (hasDerivAt_dot (vecDeriv_const g.lin t) hW).const_mul (l t).body.mp.mass
      have d4 := ((d1.add d2).mul_const (1 / 2)).add d3
      have e : bodyPower (l t).body = inertialPower (l t) := rfl
      rw [e, inertialPower_local (l t) hR (hcv t) (hca t)]
      refine (d4.congr_of_eventuallyEq ?_).congr_deriv ?_
      · refine Filter.Eventually.of_forall fun s => ?_
        simp only [Body.ke, sqrNorm, hmp s t, Pi.add_apply]
      · have hsym : dot (l t).body.acc.ang ((l t).body.mp.inertia.mulVec (l t).body.vel.ang) =
            dot (l t).body.vel.ang ((l t).body.mp.inertia.mulVec (l t).body.acc.ang) := by
          rw [Mat3.dot_mulVec, Mat3.mulVecT_eq, show (l t).body.mp.inertia.tr = _ from hIs, dot_comm]
        have hgr : dot g.lin ((l t).body.frame.att.mulVec (l t).body.comVel) =
            dot ((l t).body.frame.att.mulVecT g.lin) (l t).body.comVel := Mat3.dot_mulVec _ _ _
        have hz : (0 : Mat3 ℝ).mulVec (l t).body.vel.ang = 0 := by vec_ring
        rw [hz, hgr, hsym]
        simp only [zero_add]
        generalize (l t).body.frame.att.mulVecT g.lin = G
        generalize dot (l t).body.vel.ang ((l t).body.mp.inertia.mulVec (l t).body.acc.ang) = P
        simp only [dot, cross, Vec3.sub_x, Vec3.sub_y, Vec3.sub_z, Vec3.zero_x, Vec3.zero_y, Vec3.zero_z]
        ring)
  refine (hS.congr_of_eventuallyEq ?_).congr_deriv ?_
  · refine Filter.Eventually.of_forall fun s => ?_
    simp only [energy, LinkArray.ke, mass]
    rw [foldl_add_eq, zero_add, ← sum_map_add', map_body_range (fun b => b.ke + b.mp.mass * dot g.lin b.wldCOM) _
      Body.init (hlen s)]
  · rw [hpow, sum_map_sub', sub_add_cancel,
      ← map_body_range bodyPower (c2 t).link Body.init (hlen t)]
    rfl


/-! ### A case that meets the hypotheses -/

/-- Two links: a fixed root and an arm that turns with unit acceleration. -/
noncomputable def Sample.swing (s : ℝ) : Chain ℝ :=
  { link := [Sample.link "root" .fixed Sample.mp1 Frame.ident,
      Sample.link "arm" (.revol (Sample.dof1 (s * s / 2) s 1 (Real.sin (s * s / 2))
        (Real.cos (s * s / 2)) none none)) Sample.mp1 ⟨⟨1, 0, 0⟩, 1⟩],
    shape := .node 0 (.node 1 .nil .nil) .nil, mass := 2, wldCOM := 0, comVel := 0, comAcc := 0 }

theorem Sample.swing_link {i : ℕ} {l : ℝ → Link ℝ} (h : ∀ s, (Sample.swing s).link[i]? = some (l s)) :
    l = (fun _ => Sample.link "root" .fixed Sample.mp1 Frame.ident) ∨
    l = fun s => Sample.link "arm" (.revol (Sample.dof1 (s * s / 2) s 1 (Real.sin (s * s / 2))
        (Real.cos (s * s / 2)) none none)) Sample.mp1 ⟨⟨1, 0, 0⟩, 1⟩ := by
  rcases i with _ | _ | i
  · left; funext s; simpa [Sample.swing] using (h s).symm
  · right; funext s; simpa [Sample.swing] using (h s).symm
  · simpa [Sample.swing] using h 0

theorem Sample.swing_motion : Motion Sample.swing := by
  refine ⟨fun s => ⟨⟨_, rfl⟩, .refl _⟩, fun _ _ => rfl, fun _ _ => rfl, ?_, ?_, ?_⟩
  · intro i l hl s s'
    rcases Sample.swing_link hl with rfl | rfl <;> exact ⟨rfl, rfl⟩
  · intro s l hl
    simp only [Sample.swing, List.mem_cons, List.not_mem_nil, or_false] at hl
    rcases hl with rfl | rfl <;> exact Mat3.isRot_one
  · intro i l hl
    rcases Sample.swing_link hl with rfl | rfl
    · exact JointMotion.fixed
    · refine JointMotion.revol _ fun t => ⟨rfl, rfl, ?_⟩
      have := ((hasDerivAt_id t).mul (hasDerivAt_id t)).div_const 2
      exact this.congr_deriv (by simp [Sample.dof1])

theorem Sample.swing_acc (i : ℕ) (l : ℝ → Link ℝ) (hl : ∀ s, (Sample.swing s).link[i]? = some (l s)) :
    AccMotion fun s => (l s).joint.prp := by
  rcases Sample.swing_link hl with rfl | rfl
  · intro t k hk; simp [Sample.link, Prp.size] at hk
  · intro t k hk
    have : k < 1 := hk
    have : k = 0 := by omega
    subst this
    exact hasDerivAt_id t

/-- The hypotheses of C08, C09 are met, with non-zero velocity and acceleration. -/
example : Motion Sample.swing ∧
    (∀ (i : ℕ) (l : ℝ → Link ℝ), (∀ s, (Sample.swing s).link[i]? = some (l s)) →
      AccMotion fun s => (l s).joint.prp) ∧
    (∀ s, ∀ m ∈ (Sample.swing s).link, FloatScrew m.joint.prp) ∧
    ∃ c1 c2 : ℝ → Chain ℝ, (∀ s, (Sample.swing s).updateFK = some (c1 s)) ∧
      (∀ s, (c1 s).updateID ⟨⟨0, 0, 10⟩, 0⟩ = some (c2 s)) := by
  refine ⟨Sample.swing_motion, Sample.swing_acc, ?_, ?_⟩
  · intro s m hm d hd
    simp only [Sample.swing, List.mem_cons, List.not_mem_nil, or_false] at hm
    rcases hm with rfl | rfl <;> simp [Sample.link] at hd
  · have ex1 : ∀ s, ∃ c1, (Sample.swing s).updateFK = some c1 := fun s => by
      obtain ⟨c1, e, -⟩ := C06_fk_composition _ (Sample.swing_motion.wf s); exact ⟨c1, e⟩
    choose c1 e1 using ex1
    have ex2 : ∀ s, ∃ c2, (c1 s).updateID ⟨⟨0, 0, 10⟩, 0⟩ = some c2 := fun s => by
      obtain ⟨-, -, -, hw, -⟩ := (Sample.swing_motion.wf s).updateFK (e1 s)
      obtain ⟨ls1, T, hT, e1, g1, n1⟩ := hw.downAt (fun st (l : Link ℝ) => l.updateRate1 st.1 st.2)
        (fun l => (l.body.vel, l.body.acc)) (0, ⟨⟨0, 0, 10⟩, 0⟩)
      have h1 : Chain.WF { c1 s with link := ls1 } := hw.with_link n1
      obtain ⟨ls2, T2, hT2, e2, -⟩ := h1.updateWrenchAt
      refine ⟨({ c1 s with link := ls2 } : Chain ℝ).calcCOMVel.calcCOMAcc, ?_⟩
      simp only [Chain.updateID, Chain.updateRate, Chain.updateRateAt, e1, Option.map_some,
        Chain.updateWrench, e2, Option.bind_eq_bind, Option.bind_some, Option.pure_def]
    choose c2 e2 using ex2
    exact ⟨c1, c2, e1, e2⟩

end Roki
