import Verif.Spec.Lagrange
set_option autoImplicit false

/-!
# Vocabulary of reach

How far points of a robot can get from the root, and how far they move when the joints move.
-/

namespace Roki.Spec

/-- Length of a vector. -/
noncomputable def len (v : Vec3 ℝ) : ℝ := Real.sqrt (sqrNorm v)

/-- The longest translation that a joint can make, given its limits; `none` for a joint that can translate without bound. -/
noncomputable def stroke : Prp ℝ → Option ℝ
  | .prism d => match d.lo, d.hi with
    | some l, some h => some (max |l| |h|)
    | _, _ => none
  | .cylin d => match d.lo0, d.hi0 with
    | some l, some h => some (max |l| |h|)
    | _, _ => none
  | .float _ | .brfloat _ => none
  | _ => some 0

/-- How far a joint has translated at the displacements `q`. -/
noncomputable def travel (q : List ℝ) (l : Link ℝ) : ℝ :=
  match l.joint.prp with
  | .prism _ | .cylin _ => |q.getD l.offset.toNat 0|
  | _ => 0

/-- How far the joint of a link can move a point at distance `R` when the displacements change from `q` to `q'`. -/
noncomputable def sway (R : ℝ) (q q' : List ℝ) (l : Link ℝ) : ℝ :=
  let d := fun k => |q.getD (l.offset.toNat + k) 0 - q'.getD (l.offset.toNat + k) 0|
  match l.joint.prp with
  | .revol _ => R * d 0
  | .prism _ => d 0
  | .cylin _ => d 0 + R * d 1
  | .hooke _ => R * (d 0 + d 1)
  | _ => 0

/-- The displacements `q'` are `q` with full turns added to angles of the joint of a link. -/
def Turned (q q' : List ℝ) (l : Link ℝ) : Prop :=
  let turn := fun k => ∃ n : ℤ, q'.getD (l.offset.toNat + k) 0 = q.getD (l.offset.toNat + k) 0 + n * (2 * Real.pi)
  let same := fun k => q'.getD (l.offset.toNat + k) 0 = q.getD (l.offset.toNat + k) 0
  match l.joint.prp with
  | .revol _ => turn 0
  | .prism _ => same 0
  | .cylin _ => same 0 ∧ turn 1
  | .hooke _ => turn 0 ∧ turn 1
  | _ => True

end Roki.Spec
