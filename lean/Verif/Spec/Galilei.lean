import Verif.Model.ABI
import Verif.Spec.Mechanics
set_option autoImplicit false

/-! # Specification: a robot that is watched from a vehicle in uniform motion (C141) -/

namespace Roki.Spec
variable {K : Type*} [Field K]

/-- The velocity `v` added to the velocity of a joint that lets a body float. -/
def drift (v : Vec3 K) : Prp K → Prp K
  | .float p => .float { p with vel := ⟨p.vel.lin + v, p.vel.ang⟩ }
  | .brfloat p => .brfloat { p with vel := ⟨p.vel.lin + v, p.vel.ang⟩ }
  | p => p

/-- A joint that lets a body float. -/
def Floats : Prp K → Prop
  | .float _ => True
  | .brfloat _ => True
  | _ => False

/-- The angular velocity of a joint that lets a body float. -/
def spin : Prp K → Vec3 K
  | .float p => p.vel.ang
  | .brfloat p => p.vel.ang
  | _ => 0

/-- A link that moves with the additional velocity `V` of the world, which its joint gives the part `v`.  Velocities of links are stored in axes of
the link. -/
def moveLink (V v : Vec3 K) (l : Link K) : Link K :=
  { l with
    joint := { l.joint with prp := drift v l.joint.prp }
    body := { l.body with
      vel := ⟨l.body.vel.lin + l.body.frame.att.mulVecT V, l.body.vel.ang⟩, comVel := l.body.comVel + l.body.frame.att.mulVecT V } }

/-- A robot all of whose links move with the additional velocity `V` of the world, which the joint of its root gives by its velocity `v`. -/
def moveChain (V v : Vec3 K) (c : Chain K) : Chain K :=
  { c with link := c.link.mapIdx fun i l => moveLink V (if i = 0 then v else 0) l }

/-- A link with the velocity `v` added to the velocity of its joint. -/
def driftLink (v : Vec3 K) (l : Link K) : Link K := { l with joint := { l.joint with prp := drift v l.joint.prp } }

/-- A robot with the velocity `v` added to the velocity of the joint of its root; nothing else is changed yet. -/
def driftRoot (v : Vec3 K) (c : Chain K) : Chain K :=
  { c with link := c.link.modify 0 (driftLink v) }

/-- A joint vector with `v` added to its first three components. -/
def addFirst (v : Vec3 K) : List K → List K
  | x :: y :: z :: r => (x + v.x) :: (y + v.y) :: (z + v.z) :: r
  | l => l

/-- The momentum of a robot. -/
def linearMomentum (ls : List (Link K)) : Vec3 K := (ls.map fun l => l.body.mp.mass • l.body.frame.att.mulVec l.body.comVel).sum

end Roki.Spec
