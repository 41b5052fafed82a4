import Verif.Spec.Kinematics
set_option autoImplicit false

/-! # Specification: joints at rest and fixed joints (C129) -/

namespace Roki.Spec
variable {K : Type*} [Field K]

/-- The joint neither moves nor accelerates: all its velocities and accelerations (`rkJointGetVel`, `rkJointGetAcc`) are zero. -/
def AtRest (p : Prp K) : Prop := (∀ x ∈ p.getVel, x = 0) ∧ ∀ x ∈ p.getAcc, x = 0

/-- The link with a fixed joint in place of its joint: it is fixed to its parent where the joint held it. -/
def lock (l : Link K) : Link K := { l with org := linkFrame l, joint := { l.joint with prp := .fixed } }

/-- The chain with the joints of the links `S` replaced by fixed joints. -/
def lockJoints (S : List ℕ) (c : Chain K) : Chain K := { c with link := c.link.mapIdx fun i l => if i ∈ S then lock l else l }

end Roki.Spec
