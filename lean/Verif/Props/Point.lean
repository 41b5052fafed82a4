import Verif.Props.Motion
set_option autoImplicit false

/-!
# C66: velocity and acceleration of a point of a link
-/

namespace Roki
open Spec

/-- **C66** Velocity of a point.  A chain moves; at every time forward kinematics is computed and then the rates.  For every
link and every point `p` fixed to it (given in the link frame), what `rkLinkPointVel` returns, turned into the world frame,
is the derivative of the position of the point in the world. -/
theorem C66_point_velocity (c c1 c2 : ℝ → Chain ℝ) (g : Vec6 ℝ) (h : Motion c)
    (e1 : ∀ s, (c s).updateFK = some (c1 s)) (e2 : ∀ s, (c1 s).updateRate g = some (c2 s))
    (i : ℕ) (l : ℝ → Link ℝ) (hl : ∀ s, (c2 s).link[i]? = some (l s)) (p : Vec3 ℝ) (t : ℝ) :
    VecDeriv (fun s => (l s).body.frame.xform p) ((l t).body.frame.att.mulVec ((l t).pointVel p)) t := by
  obtain ⟨ms, h1, -, hf, -⟩ := h.rate e1 e2 hl
  obtain ⟨hp, hR⟩ := C08_link_velocity c c1 c2 g h e1 e2 i l hl t
  have hRot : (l t).body.frame.att.IsRot := by
    rw [hf t]
    refine isRot_product fun f hf => ?_
    obtain ⟨m, hm, rfl⟩ := List.mem_map.1 hf
    exact (h1 m hm).linkFrame_rot t
  refine vecDeriv_congr (hp.add (hR.mulVec (vecDeriv_const p t))) (fun s => ?_) ?_
  · rw [Frame.xform, add_comm]
  · rw [Link.pointVel, Mat3.mulVec_add, Mat3.mul_mulVec, Mat3.skew_mulVec, ← hRot.mulVec_cross, Mat3.mulVec_zero]
    abel

/-- **C66** Acceleration of a point.  If moreover the joint accelerations are the rates of change of the joint velocities and
the root is accelerated by `g`, then what `rkLinkPointAcc` returns, turned into the world frame, less `g`, is the derivative
of the velocity of the point.

Missing: floating joints whose linear and angular velocities are not parallel, for which the accelerations of the links are
wrong (`C09_link_acceleration_fails`). -/
theorem C66_point_acceleration_partial (c c1 c2 : ℝ → Chain ℝ) (g : Vec6 ℝ) (h : Motion c)
    (ha : ∀ (i : ℕ) (l : ℝ → Link ℝ), (∀ s, (c s).link[i]? = some (l s)) →
      AccMotion fun s => (l s).joint.prp)
    (hg : g.ang = 0)
    (e1 : ∀ s, (c s).updateFK = some (c1 s)) (e2 : ∀ s, (c1 s).updateRate g = some (c2 s))
    (i : ℕ) (l : ℝ → Link ℝ) (hl : ∀ s, (c2 s).link[i]? = some (l s)) (p : Vec3 ℝ) (t : ℝ)
    (hf : ∀ m ∈ (c t).link, FloatScrew m.joint.prp) :
    ∃ v : ℝ → Vec3 ℝ, (∀ s, VecDeriv (fun u => (l u).body.frame.xform p) (v s) s) ∧
      VecDeriv v ((l t).body.frame.att.mulVec ((l t).pointAcc p) - g.lin) t := by
  obtain ⟨hA, hR⟩ := h.accDeriv ha hg e1 e2 hl hf
  have hV := C08_link_velocity c c1 c2 g h e1 e2 i l hl
  refine ⟨_, fun s => C66_point_velocity c c1 c2 g h e1 e2 i l hl p s, ?_⟩
  have hC : VecDeriv (fun s => (l s).pointVel p) ((l t).pointAcc p - cross (l t).body.vel.ang ((l t).pointVel p) -
      (l t).body.frame.att.mulVecT g.lin) t := by
    refine vecDeriv_congr ((hA.1.cross (vecDeriv_const p t)).add hA.2) (fun s => rfl) ?_
    rw [Link.pointAcc, Link.pointVel, triple_eq, cross_add_right, cross_zero_right]
    abel
  refine vecDeriv_congr (Spec.MatDeriv.mulVec (hV t).2 hC) (fun _ => rfl) ?_
  simp only [Mat3.mulVec_sub, hR.mulVec_cross, hR.mulVec_mulVecT, Mat3.mul_mulVec, Mat3.skew_mulVec]
  abel

/-- Concrete case for C66: the swinging chain of two links of `Verif/Props/Motion.lean` meets the hypotheses. -/
example : Motion Sample.swing ∧
    (∀ (i : ℕ) (l : ℝ → Link ℝ), (∀ s, (Sample.swing s).link[i]? = some (l s)) → AccMotion fun s => (l s).joint.prp) ∧
    (∀ s, ∀ m ∈ (Sample.swing s).link, FloatScrew m.joint.prp) ∧
    ∃ c1 c2 : ℝ → Chain ℝ, (∀ s, (Sample.swing s).updateFK = some (c1 s)) ∧
      (∀ s, (c1 s).updateRate ⟨⟨0, 0, 10⟩, 0⟩ = some (c2 s)) := by
  refine ⟨Sample.swing_motion, Sample.swing_acc, ?_, ?_⟩
  · intro s m hm d hd
    simp only [Sample.swing, List.mem_cons, List.not_mem_nil, or_false] at hm
    rcases hm with rfl | rfl <;> simp [Sample.link] at hd
  · have ex1 : ∀ s, ∃ c1, (Sample.swing s).updateFK = some c1 := fun s => by
      obtain ⟨c1, e, -⟩ := C06_fk_composition _ (Sample.swing_motion.wf s); exact ⟨c1, e⟩
    choose c1 e1 using ex1
    have ex2 : ∀ s, ∃ c2, (c1 s).updateRate ⟨⟨0, 0, 10⟩, 0⟩ = some c2 := fun s => by
      obtain ⟨-, -, -, hw, -⟩ := (Sample.swing_motion.wf s).updateFK (e1 s)
      obtain ⟨ls1, T, hT, e1, g1, n1⟩ := hw.downAt (fun st (l : Link ℝ) => l.updateRate1 st.1 st.2)
        (fun l => (l.body.vel, l.body.acc)) (0, ⟨⟨0, 0, 10⟩, 0⟩)
      exact ⟨{ c1 s with link := ls1 }, by simp only [Chain.updateRate, Chain.updateRateAt, e1, Option.map_some]⟩
    choose c2 e2 using ex2
    exact ⟨c1, c2, e1, e2⟩

end Roki
