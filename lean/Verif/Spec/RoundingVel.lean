import Verif.Spec.Rounding
set_option autoImplicit false

/-! # Specification: rounding errors of velocities (C130) -/

namespace Roki.Spec

/-- Two joints of the same type with the same velocities. -/
def SameRates : Prp ℝ → Prp ℝ → Prop
  | .fixed, .fixed => True
  | .revol p, .revol q => q.vel = p.vel
  | .prism p, .prism q => q.vel = p.vel
  | .cylin p, .cylin q => q.vel0 = p.vel0 ∧ q.vel1 = p.vel1
  | .hooke p, .hooke q => q.vel0 = p.vel0 ∧ q.vel1 = p.vel1
  | .spher p, .spher q => q.vel = p.vel
  | .float p, .float q => q.vel = p.vel
  | .brfloat p, .brfloat q => q.vel = p.vel
  | _, _ => False

/-- How fast a joint turns. -/
noncomputable def turning : Prp ℝ → ℝ
  | .fixed => 0
  | .revol p => |p.vel|
  | .prism _ => 0
  | .cylin p => |p.vel1|
  | .hooke p => Real.sqrt (p.vel0 ^ 2 + p.vel1 ^ 2)
  | .spher p => len p.vel
  | .float p => len p.vel.ang
  | .brfloat p => len p.vel.ang

/-- How fast a joint slides. -/
noncomputable def sliding : Prp ℝ → ℝ
  | .fixed => 0
  | .revol _ => 0
  | .prism p => |p.vel|
  | .cylin p => |p.vel0|
  | .hooke _ => 0
  | .spher _ => 0
  | .float p => len p.vel.lin
  | .brfloat p => len p.vel.lin

/-- How fast the links of a path can turn together: the sum of the rates of their joints. -/
noncomputable def turnRate (ms : List (Link ℝ)) : ℝ := (ms.map fun l => turning l.joint.prp).sum

/-- How fast the end of a path can move when its beginning turns at the rate `w`: every link is swept by the joints before it, and slides along its own. -/
noncomputable def sweepRate : ℝ → List (Link ℝ) → ℝ
  | _, [] => 0
  | w, l :: ms => (w * extent l + sliding l.joint.prp) + sweepRate (w + turning l.joint.prp) ms

end Roki.Spec
