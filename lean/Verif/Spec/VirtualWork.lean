import Verif.Spec.Mechanics
import Verif.Model.Jacobi

/-!
# Specification: generalised forces of a chain

What a caller gets from `rkChainID` and `rkChainGetJointTrqAll`, and the work of forces on a
virtual motion, in world coordinates.
-/

namespace Roki.Spec
set_option autoImplicit false
variable {K : Type*} [Field K]

/-- Scalar product of two joint vectors. -/
def work (x y : List K) : K := (List.zipWith (· * ·) x y).sum

/-- `rkChainGetJointTrqAll` into a vector of the right size. -/
def torques (c : Chain K) : Option (List K) :=
  LinkArray.getJointAll Prp.getTrq c.link (List.replicate (LinkArray.jointSize c.link) 0)

/-- The joint torques after `rkChainID` with joint velocities `vel` and accelerations `acc`; `g` is
the acceleration given to the root. -/
def idTorque (g : Vec6 K) (vel acc : List K) (c : Chain K) : Option (List K) :=
  (c.invDyn g vel acc).bind torques

/-- Work of the external wrenches of the link `l` on the velocities of the link `m`. -/
def extWork (l m : Link K) : K :=
  (l.body.extw.map fun w =>
    dot (l.body.frame.att.mulVec w.w.lin) (pointVelocity m w.p) +
    dot (l.body.frame.att.mulVec w.w.ang) (angVel m)).sum

/-- Work of the rate of change of the momentum of the link `l` on the velocities of the link `m`. -/
def inertialWork (l m : Link K) : K :=
  mass l * dot (comAcc l) (comVel m) +
    dot (angVel m) ((worldInertia l).mulVec (angAcc l) +
      cross (angVel l) ((worldInertia l).mulVec (angVel l)))

/-- Polar form of twice the kinetic energy of a link: for the velocities of the links `l` and `m`
(the same link of a chain in two motions). -/
def kinetic (l m : Link K) : K :=
  mass l * dot (comVel l) (comVel m) + dot (angVel m) ((worldInertia l).mulVec (angVel l))

/-- The chain with the external wrenches of link `i` replaced by `e i`. -/
def withExt (e : ℕ → WrenchList K) (c : Chain K) : Chain K :=
  { c with link := c.link.mapIdx fun i l => { l with body := { l.body with extw := e i } } }

/-- Column `j` of the Jacobian of the point `p` of link `i` (`rkChainLinkWldLinJacobi`). -/
def linColumn (c : Chain K) (i : ℕ) (p : Vec3 K) (j : ℕ) : Vec3 K :=
  ((Jacobi.wldLin c i p (List.replicate (LinkArray.jointSize c.link) 0)).getD []).getD j 0

/-- Column `j` of the angular Jacobian of link `i` (`rkChainLinkWldAngJacobi`). -/
def angColumn (c : Chain K) (i : ℕ) (j : ℕ) : Vec3 K :=
  ((Jacobi.wldAng c i (List.replicate (LinkArray.jointSize c.link) 0)).getD []).getD j 0

/-- Contribution of link `i` to the inertia between the joint components `j` and `k`: its mass on the
velocities of its center of mass and its inertia tensor on its angular velocities. -/
def linkInertia (c : Chain K) (i j k : ℕ) : K :=
  match c.link[i]? with
  | none => 0
  | some l => mass l * dot (linColumn c i l.body.mp.com j) (linColumn c i l.body.mp.com k) +
      dot (angColumn c i j) ((worldInertia l).mulVec (angColumn c i k))

/-- Inertia between the joint components `j` and `k`. -/
def jointInertia (c : Chain K) (j k : ℕ) : K := ∑ i ∈ Finset.range c.link.length, linkInertia c i j k

end Roki.Spec
