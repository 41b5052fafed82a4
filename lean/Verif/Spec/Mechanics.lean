import Verif.Model.ChainTree

/-!
# Specification of mechanical quantities in world coordinates

Textbook definitions, from the frame of a link, its mass properties and its velocities.
-/

namespace Roki.Spec
variable {K : Type*} [Field K]

/-- Inertia tensor of a body about the point `q`: inertia about the center of mass plus
`m (|d|^2 1 - d d^T)` with `d` from `q` to the center of mass. -/
def inertiaAbout (mp : MP K) (q : Vec3 K) : Mat3 K :=
  let d := mp.com - q
  mp.inertia + mp.mass • (dot d d • (1 : Mat3 K) - Mat3.dyad d d)

/-- Mass of a link. -/
def mass (l : Link K) : K := l.body.mp.mass
/-- World position of the center of mass of a link. -/
def comPos (l : Link K) : Vec3 K := l.body.frame.xform l.body.mp.com
/-- World velocity of the center of mass of a link. -/
def comVel (l : Link K) : Vec3 K :=
  l.body.frame.att.mulVec (l.body.vel.lin + cross l.body.vel.ang l.body.mp.com)
/-- World acceleration of the center of mass of a link. -/
def comAcc (l : Link K) : Vec3 K :=
  l.body.frame.att.mulVec (l.body.acc.lin + cross l.body.acc.ang l.body.mp.com +
    cross l.body.vel.ang (cross l.body.vel.ang l.body.mp.com))
/-- World angular velocity of a link. -/
def angVel (l : Link K) : Vec3 K := l.body.frame.att.mulVec l.body.vel.ang
/-- World angular acceleration of a link. -/
def angAcc (l : Link K) : Vec3 K := l.body.frame.att.mulVec l.body.acc.ang
/-- Inertia tensor of a link about its center of mass in world coordinates. -/
def worldInertia (l : Link K) : Mat3 K :=
  (l.body.frame.att.mul l.body.mp.inertia).mul l.body.frame.att.tr

/-- The velocities of the centers of mass stored in a link are up to date. -/
def COMVelCurrent (l : Link K) : Prop :=
  l.body.comVel = l.body.vel.lin + cross l.body.vel.ang l.body.mp.com

/-- World wrench about the world origin of a force and torque `w` acting at the point `r`. -/
def aboutOrigin (r : Vec3 K) (w : Vec6 K) : Vec6 K := ⟨w.lin, w.ang + cross r w.lin⟩

/-- Sum over the external wrenches of a link, each acting at its point of action, in world
coordinates about the world origin. -/
def extWrench (l : Link K) : Vec6 K :=
  (l.body.extw.map fun w =>
    aboutOrigin (l.body.frame.xform w.p) (l.body.frame.att.mulVec6 w.w)).sum

/-- Rate of change of momentum of a link in world coordinates about the world origin: `m a` acting
at the center of mass, and `I w' + w x I w`. -/
def inertialWrench (l : Link K) : Vec6 K :=
  aboutOrigin (comPos l)
    ⟨mass l • comAcc l,
     (worldInertia l).mulVec (angAcc l) + cross (angVel l) ((worldInertia l).mulVec (angVel l))⟩

end Roki.Spec

namespace Roki.Spec
variable {K : Type*} [Field K]

/-- World velocity of the point of a link with local coordinates `p`. -/
def pointVelocity (l : Link K) (p : Vec3 K) : Vec3 K :=
  l.body.frame.att.mulVec (l.body.vel.lin + cross l.body.vel.ang p)

/-- Power of the external wrenches of a link: force times velocity of the point of action plus
torque times angular velocity, in world coordinates. -/
def extPower (l : Link K) : K :=
  (l.body.extw.map fun w =>
    dot (l.body.frame.att.mulVec w.w.lin) (pointVelocity l w.p) +
    dot (l.body.frame.att.mulVec w.w.ang) (angVel l)).sum

/-- Rate of change of the kinetic energy of a link: `m a . v + w . I w'`. -/
def inertialPower (l : Link K) : K :=
  mass l * dot (comAcc l) (comVel l) + dot (angVel l) ((worldInertia l).mulVec (angAcc l))

/-- Power of a joint: generalised forces times generalised velocities. -/
def jointPower (l : Link K) : K :=
  (List.zipWith (· * ·) l.joint.prp.getTrq l.joint.prp.getVel).sum

end Roki.Spec
