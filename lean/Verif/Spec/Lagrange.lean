import Verif.Spec.VirtualWork
import Verif.Spec.Motion
import Verif.Props.JointVector
set_option autoImplicit false

/-!
# Specification: the Lagrangian of a chain

Kinetic less potential energy as a function of the joint displacements and velocities, as a caller computes it with
`rkChainFK`, `rkChainID` and `rkChainKE`.
-/

namespace Roki.Spec
open LinkArray

/-- The joints whose displacements are coordinates: fixed, revolute, prismatic, cylindrical and universal joints.  (The
displacement of a spherical or floating joint is a rotation vector, the rate of change of which is not its velocity.) -/
def Coord : Prp ℝ → Prop
  | .fixed | .revol _ | .prism _ | .cylin _ | .hooke _ => True
  | _ => False

/-- The displacement `q` is within the limits of all joints: setting it does not cut it off. -/
def OffLimits [Zm ℝ] (c : Chain ℝ) (q : List ℝ) : Prop :=
  ∀ l ∈ c.link, match l.joint.prp with
    | .revol d => limit (Zm.phaseNormalize (q.getD l.offset.toNat 0)) d.lo d.hi =
        Zm.phaseNormalize (q.getD l.offset.toNat 0)
    | .prism d => limit (q.getD l.offset.toNat 0) d.lo d.hi = q.getD l.offset.toNat 0
    | .cylin d => limit (q.getD l.offset.toNat 0) d.lo0 d.hi0 = q.getD l.offset.toNat 0 ∧
        limit (Zm.phaseNormalize (q.getD (l.offset.toNat + 1) 0)) d.lo1 d.hi1 =
          Zm.phaseNormalize (q.getD (l.offset.toNat + 1) 0)
    | .hooke d => limit (Zm.phaseNormalize (q.getD l.offset.toNat 0)) d.lo0 d.hi0 =
        Zm.phaseNormalize (q.getD l.offset.toNat 0) ∧
        limit (Zm.phaseNormalize (q.getD (l.offset.toNat + 1) 0)) d.lo1 d.hi1 =
          Zm.phaseNormalize (q.getD (l.offset.toNat + 1) 0)
    | _ => True

/-- The joint vector `x` moved by `e` along `u`. -/
noncomputable def shift (x : List ℝ) (e : ℝ) (u : List ℝ) : List ℝ := List.zipWith (fun a b => a + e * b) x u

/-- Kinetic energy less potential energy in the field that accelerates bodies by `-g`, at the joint displacements `q` and
velocities `v`: what `rkChainKE` and the world centers of mass give after `rkChainFK(c,q)` and `rkChainID(c,v,0)`. -/
noncomputable def lagrangian [Zm ℝ] (g : Vec3 ℝ) (c : Chain ℝ) (q v : List ℝ) : Option ℝ :=
  (c.fk q).bind fun c1 => (c1.invDyn ⟨g, 0⟩ v (List.replicate v.length 0)).map fun c2 =>
    ke c2.link - (c2.link.map fun l => mass l * dot g l.body.wldCOM).sum

/-- World position of the point `p` of link `i` after `rkChainFK(c,q)`. -/
noncomputable def pointAt [Zm ℝ] (c : Chain ℝ) (i : ℕ) (p : Vec3 ℝ) (q : List ℝ) : Option (Vec3 ℝ) :=
  (c.fk q).bind fun c1 => c1.link[i]?.map fun l => l.body.frame.xform p

/-- World attitude of link `i` after `rkChainFK(c,q)`. -/
noncomputable def attAt [Zm ℝ] (c : Chain ℝ) (i : ℕ) (q : List ℝ) : Option (Mat3 ℝ) :=
  (c.fk q).bind fun c1 => c1.link[i]?.map fun l => l.body.frame.att

/-- Center of mass of the chain after `rkChainFK(c,q)`. -/
noncomputable def comAt [Zm ℝ] (c : Chain ℝ) (q : List ℝ) : Option (Vec3 ℝ) := (c.fk q).map (·.wldCOM)

/-- Potential energy after `rkChainFK(c,q)` in the field that accelerates bodies by `-g`. -/
noncomputable def potential [Zm ℝ] (g : Vec3 ℝ) (c : Chain ℝ) (q : List ℝ) : Option ℝ :=
  (c.fk q).map fun c1 => (c1.link.map fun l => mass l * dot g l.body.wldCOM).sum

end Roki.Spec
