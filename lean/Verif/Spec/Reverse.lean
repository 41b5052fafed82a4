import Verif.Spec.History
set_option autoImplicit false

/-! # Specification: a robot whose motion is played backward (C142)

Displacements, accelerations, forces and moments of a motion that is played backward are those of the motion; velocities change their signs. -/

namespace Roki.Spec
variable {K : Type*} [Field K]

/-- A motor that is played backward.  A motor of direct current brakes in proportion to the velocity, and pushes when it is played backward: its
torque constant and its admittance change their signs, the torque of its input does not.  Other motors are kept. -/
def reverseMotor : Motor K → Motor K
  | .dc p => .dc { p with k := -p.k, admit := -p.admit }
  | m => m

/-- A joint with its velocity reversed. -/
def reversePrp : Prp K → Prp K
  | .fixed => .fixed
  | .revol p => .revol { p with vel := -p.vel, motor := reverseMotor p.motor }
  | .prism p => .prism { p with vel := -p.vel, motor := reverseMotor p.motor }
  | .cylin p => .cylin { p with vel0 := -p.vel0, vel1 := -p.vel1, motor := reverseMotor p.motor }
  | .hooke p => .hooke { p with vel0 := -p.vel0, vel1 := -p.vel1, motor := reverseMotor p.motor }
  | .spher p => .spher { p with vel := -p.vel }
  | .float p => .float { p with vel := -p.vel }
  | .brfloat p => .brfloat { p with vel := -p.vel }

/-- A link with its velocities reversed. -/
def reverseLink (l : Link K) : Link K :=
  { l with
    joint := { l.joint with prp := reversePrp l.joint.prp }
    body := { l.body with vel := -l.body.vel, comVel := -l.body.comVel } }

/-- A robot with its velocities reversed. -/
def reverseChain (c : Chain K) : Chain K := { c with link := c.link.map reverseLink, comVel := -c.comVel }

/-- An action with its velocities reversed; a step of time becomes a step backward. -/
def reverseAct : Act K → Act K
  | .setVel v => .setVel (v.map (- ·))
  | .setRate v a => .setRate (v.map (- ·)) a
  | .setDisCNT v dt => .setDisCNT v (-dt)
  | a => a

/-- No motor of direct current. -/
def NoBrake (c : Chain K) : Prop := ∀ l ∈ c.link, ∀ p, l.joint.prp.getMotor ≠ some (.dc p)

end Roki.Spec
