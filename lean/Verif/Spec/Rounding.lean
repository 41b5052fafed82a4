import Verif.Spec.Reach
import Verif.Spec.Kinematics
import Mathlib.Data.Int.Log
import Mathlib.Algebra.Order.Round
set_option autoImplicit false

/-! # Specification: rounding errors (C127) -/

namespace Roki.Spec

/-- `rnd` rounds with a relative error of at most `v`: the standard model of floating-point arithmetic without overflow and underflow. -/
def RelError (rnd : ℝ → ℝ) (v : ℝ) : Prop := ∀ x, |rnd x - x| ≤ v * |x|

/-- The nearest number with 53 significant binary digits, as in the format of `double`, with exponents of any size. -/
noncomputable def nearest (x : ℝ) : ℝ :=
  if x = 0 then 0 else round (x / 2 ^ (Int.log 2 |x| - 52)) * (2 : ℝ) ^ (Int.log 2 |x| - 52)

/-- Two matrices turn a vector into vectors whose distance is at most `e` times its length. -/
def AttError (A B : Mat3 ℝ) (e : ℝ) : Prop := ∀ p, len (A.mulVec p - B.mulVec p) ≤ e * len p

/-- The displacement, sine, cosine or attitude that a joint stores is a rounded one: `p'` is the joint `p` with errors of at most `v` in what
it does to a vector and a relative error of at most `v` in its translation. -/
structure NearJoint (v : ℝ) (p p' : Prp ℝ) : Prop where
  att : AttError (jointFrame p').att (jointFrame p).att v
  pos : len ((jointFrame p').pos - (jointFrame p).pos) ≤ v * len (jointFrame p).pos

/-- Two links that agree but for rounding errors in what their joints store. -/
structure NearLink (v : ℝ) (l l' : Link ℝ) : Prop where
  org : l'.org = l.org
  com : l'.body.mp.com = l.body.mp.com
  joint : NearJoint v l.joint.prp l'.joint.prp

/-- The length of a link: of its original offset and of the translation of its joint. -/
noncomputable def extent (l : Link ℝ) : ℝ := len l.org.pos + len (jointFrame l.joint.prp).pos

end Roki.Spec
