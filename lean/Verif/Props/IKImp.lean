import Verif.Model.IKImp
import Verif.Props.IKError
set_option autoImplicit false

/-! # C77: the impedance controllers -/

namespace Roki
open Spec

/-- The reference velocity of an impedance controller: the present velocity `v`, changed on each axis by the stiffness times
the error less the damping times the velocity. -/
def Spec.IsImpedance (k d err v u : Vec3 ℝ) : Prop :=
  u.x - v.x = k.x * err.x - d.x * v.x ∧ u.y - v.y = k.y * err.y - d.y * v.y ∧ u.z - v.z = k.z * err.z - d.z * v.z

theorem ikImpSRV_spec (err v k d : Vec3 ℝ) : IsImpedance k d err v (ikImpSRV err v k d) := by
  simp only [IsImpedance, ikImpSRV]
  refine ⟨?_, ?_, ?_⟩ <;> ring

section
variable (c c1 c2 : ℝ → Chain ℝ) (g : Vec3 ℝ) (h : Motion c) (hfk : ∀ s, (c s).updateFK = some (c1 s))
  (hid : ∀ s, (c1 s).updateID ⟨g, 0⟩ = some (c2 s)) (t : ℝ) (a : IKAttr ℝ) (r : Mat3 ℝ) (imp : IKImp ℝ)
include h hfk hid

/-- **C77** Position of a point of a link.  On a moving chain whose state is up to date the controller uses the position `x` of
the point and its true velocity, the derivative of the position. -/
theorem C77_position (hi : a.id < (c 0).link.length) :
    ∃ (l : ℝ → Link ℝ) (v u : Vec3 ℝ), (∀ s, (c2 s).link[a.id]? = some (l s)) ∧
      VecDeriv (fun s => (l s).body.frame.att.mulVec a.ap + (l s).body.frame.pos) v t ∧ imp.wldPos (c2 t) a r = some u ∧
      IsImpedance imp.k imp.c (r.cx - ((l t).body.frame.att.mulVec a.ap + (l t).body.frame.pos)) v u := by
  obtain ⟨-, l, -, h2, -, -, hP, -, -⟩ := h.link hfk hid hi
  refine ⟨l, _, _, h2, hP a.ap t, ?_, ikImpSRV_spec _ _ _ _⟩
  simp only [IKImp.wldPos, h2 t, Option.map_some, Link.pointVel, pointVelocity]
  rw [add_comm (cross _ _)]; rfl

/-- **C77** Attitude of a link.  The velocity is the angular velocity with which the attitude turns, and the error `e` is an
angle-axis vector of the rotation that takes the attitude to the reference. -/
theorem C77_attitude (hr : r.IsRot) (hi : a.id < (c 0).link.length) :
    ∃ (l : ℝ → Link ℝ) (w e u : Vec3 ℝ), (∀ s, (c2 s).link[a.id]? = some (l s)) ∧
      RotMotion (fun s => (l s).body.frame.att) w t ∧ (Zm.fromAA e).mul (l t).body.frame.att = r ∧
      imp.wldAtt (c2 t) a r = some u ∧ IsImpedance imp.k imp.c e w u := by
  obtain ⟨-, l, -, h2, -, hR, -, -, hA⟩ := h.link hfk hid hi
  refine ⟨l, angVel (l t), mat3Error r (l t).body.frame.att, _, h2, hA t, ?_, ?_, ikImpSRV_spec _ _ _ _⟩
  · rw [mat3Error, LawfulZm.fromAA_toAA _ (hr.mul (hR t).tr), Mat3.mul_assoc', (hR t).tr_mul_self, Mat3.mul_one']
  · simp only [IKImp.wldAtt, h2 t, Option.map_some]; rfl

/-- **C77** Center of mass of the chain. -/
theorem C77_com (hM : ∀ s s', (c s).mass = (c s').mass) :
    ∃ v u : Vec3 ℝ, VecDeriv (fun s => (c2 s).wldCOM) v t ∧ imp.wldCOM (c2 t) a r = some u ∧
      IsImpedance imp.k imp.c (r.cx - (c2 t).wldCOM) v u :=
  ⟨_, _, C08_chain_com_velocity c c1 c2 _ h hM hfk hid t, rfl, ikImpSRV_spec _ _ _ _⟩
end

/-- The turning arm, updated with its velocities, meets the hypotheses. -/
example : ∃ c1 c2 : ℝ → Chain ℝ, Motion Sample.tipArm ∧ (∀ s, (Sample.tipArm s).updateFK = some (c1 s)) ∧
    (∀ s, (c1 s).updateID ⟨⟨0, 0, 10⟩, 0⟩ = some (c2 s)) ∧ 1 < (Sample.tipArm 0).link.length := by
  obtain ⟨c1, h, -⟩ := Sample.tipArm_fk
  obtain ⟨c2, h2⟩ := Sample.tipArm_motion.exists_id h ⟨0, 0, 10⟩
  exact ⟨c1, c2, Sample.tipArm_motion, h, h2, by decide⟩

end Roki
