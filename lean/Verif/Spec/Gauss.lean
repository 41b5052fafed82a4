import Verif.Spec.VirtualWork

/-!
# Specification of Gauss's principle of least constraint

The constraint of a motion (Gauss's *Zwang*) is the sum over all particles of `|m a - f|^2 / (2 m)`, where `f` is the force that acts on
the particle.  For a rigid body it is, up to terms that do not depend on the accelerations,
`m |a|^2 / 2 + w' . I w' / 2 + w' . (w x I w)` less the forces times the accelerations of the points where they act.
-/

namespace Roki.Spec
variable {K : Type*} [Field K]

/-- World acceleration of the point of a link with local coordinates `p`. -/
def pointAcc (l : Link K) (p : Vec3 K) : Vec3 K :=
  l.body.frame.att.mulVec (l.body.acc.lin + cross l.body.acc.ang p + cross l.body.vel.ang (cross l.body.vel.ang p))

/-- The external wrenches of a link times the accelerations of their points of action. -/
def extAcc (l : Link K) : K :=
  (l.body.extw.map fun w =>
    dot (l.body.frame.att.mulVec w.w.lin) (pointAcc l w.p) + dot (l.body.frame.att.mulVec w.w.ang) (angAcc l)).sum

/-- Energy of the accelerations of a link (Gibbs and Appell). -/
def accEnergy (l : Link K) : K :=
  (mass l * dot (comAcc l) (comAcc l) + dot (angAcc l) ((worldInertia l).mulVec (angAcc l))) / 2 +
    dot (angAcc l) (cross (angVel l) ((worldInertia l).mulVec (angVel l)))

/-- Constraint of a chain that moves with the joint accelerations `acc` under the joint torques `trq`, less what does not depend on the
accelerations.  The accelerations of its links are less the acceleration of gravity, as inverse dynamics computes them. -/
def constraint (c : Chain K) (trq acc : List K) : K :=
  (c.link.map fun l => accEnergy l - extAcc l).sum - work trq acc

end Roki.Spec
