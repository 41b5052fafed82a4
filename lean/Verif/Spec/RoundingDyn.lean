import Verif.Model.Arith
import Verif.Spec.Rounding
set_option autoImplicit false

/-!
# Specification: rounding errors of inverse dynamics (C131)

A rounding error is measured against the size of the numbers that were added and multiplied, not against the result, which may be small because large terms
cancel each other.  The size of the terms is what the same computation gives for absolute values, with every difference turned into a sum.
-/

namespace Roki.Spec

/-- The arithmetic in which nothing cancels: differences are sums and a change of sign has no effect. -/
noncomputable def uncancelled : Arith := ⟨fun a b => a + b, fun a b => a + b, fun a b => a * b, fun a b => a / b, fun a => a⟩

/-- The absolute values of the components of a vector. -/
def abs3 (a : Vec3 ℝ) : Vec3 ℝ := ⟨|a.x|, |a.y|, |a.z|⟩
/-- The absolute values of the components of a vector. -/
def abs6 (a : Vec6 ℝ) : Vec6 ℝ := ⟨abs3 a.lin, abs3 a.ang⟩
/-- The absolute values of the components of a matrix. -/
def absM (a : Mat3 ℝ) : Mat3 ℝ := ⟨abs3 a.cx, abs3 a.cy, abs3 a.cz⟩
/-- The absolute values of the components of a frame. -/
def absF (f : Frame ℝ) : Frame ℝ := ⟨abs3 f.pos, absM f.att⟩

/-- The absolute values of the displacement, sine, cosine, attitude, velocity and acceleration of a joint. -/
def absJoint : Prp ℝ → Prp ℝ
  | .fixed => .fixed
  | .revol p => .revol { p with s := |p.s|, c := |p.c|, vel := |p.vel|, acc := |p.acc| }
  | .prism p => .prism { p with dis := |p.dis|, vel := |p.vel|, acc := |p.acc| }
  | .cylin p => .cylin { p with dis0 := |p.dis0|, s1 := |p.s1|, c1 := |p.c1|, vel0 := |p.vel0|, vel1 := |p.vel1|, acc0 := |p.acc0|, acc1 := |p.acc1| }
  | .hooke p => .hooke { p with s0 := |p.s0|, c0 := |p.c0|, s1 := |p.s1|, c1 := |p.c1|, vel0 := |p.vel0|, vel1 := |p.vel1|, acc0 := |p.acc0|, acc1 := |p.acc1| }
  | .spher p => .spher { p with att := absM p.att, vel := abs3 p.vel, acc := abs3 p.acc }
  | .float p => .float { p with dis := abs6 p.dis, att := absM p.att, vel := abs6 p.vel, acc := abs6 p.acc }
  | .brfloat p => .brfloat { p with dis := abs6 p.dis, att := absM p.att, vel := abs6 p.vel, acc := abs6 p.acc }

/-- The absolute values of the original frame, the joint, the mass properties and the external wrenches of a link. -/
def absLink (l : Link ℝ) : Link ℝ :=
  { l with
    org := absF l.org, joint := { l.joint with prp := absJoint l.joint.prp },
    body := { l.body with
      mp := ⟨|l.body.mp.mass|, abs3 l.body.mp.com, absM l.body.mp.inertia⟩,
      extw := l.body.extw.map fun w => { w with w := abs6 w.w, p := abs3 w.p } } }

/-- The robot of the absolute values. -/
def absChain (c : Chain ℝ) : Chain ℝ := { c with mass := |c.mass|, link := c.link.map absLink }

/-- Every component of `a'` is within `e` times that of `A` of that of `a`. -/
def Within3 (e : ℝ) (a' a A : Vec3 ℝ) : Prop := |a'.x - a.x| ≤ e * A.x ∧ |a'.y - a.y| ≤ e * A.y ∧ |a'.z - a.z| ≤ e * A.z
/-- Every component of `a'` is within `e` times that of `A` of that of `a`. -/
def Within6 (e : ℝ) (a' a A : Vec6 ℝ) : Prop := Within3 e a'.lin a.lin A.lin ∧ Within3 e a'.ang a.ang A.ang

end Roki.Spec
