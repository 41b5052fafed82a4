import Verif.Spec.ABI
import Verif.Spec.Mechanics
set_option autoImplicit false

/-! # Chains with physical mass properties (C96) -/

namespace Roki.Spec
variable {K : Type*} [Field K] [LinearOrder K]

/-- Moment of inertia of a link about the z axis of its frame, by the parallel-axis theorem. -/
def momentZ (mp : MP K) : K := mp.inertia.cz.z + mp.mass * (mp.com.x * mp.com.x + mp.com.y * mp.com.y)

/-- Mass and inertia tensor are not negative. -/
structure Physical (mp : MP K) : Prop where
  mass : 0 ≤ mp.mass
  inertia : ∀ w : Vec3 K, 0 ≤ dot w (mp.inertia.mulVec w)
  symm : mp.inertia.Symm

/-- What a link resists to its own joint, the inertia of the motor included: more than `tol` about the axis of a revolute joint
and along the axis of a prismatic joint; the link of a floating joint has mass and inertia. -/
def Heavy (tol : K) (l : Link K) : Prop :=
  match l.joint.prp with
  | .revol p => 0 ≤ p.motor.inertia ∧ tol < p.motor.inertia + momentZ l.body.mp
  | .prism p => 0 ≤ p.motor.inertia ∧ tol < p.motor.inertia + l.body.mp.mass
  | .float _ => 0 < l.body.mp.mass ∧ ∀ w : Vec3 K, w ≠ 0 → 0 < dot w (l.body.mp.inertia.mulVec w)
  | .brfloat _ => 0 < l.body.mp.mass ∧ ∀ w : Vec3 K, w ≠ 0 → 0 < dot w (l.body.mp.inertia.mulVec w)
  | _ => True

end Roki.Spec
