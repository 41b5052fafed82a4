import Verif.Spec.RoundingVel
set_option autoImplicit false

/-! # Specification: rounding errors do not pile up over time (C127, C130) -/

namespace Roki.Spec

/-- Two links with the same constants and with the same joint values: all that was computed for them before may differ. -/
structure SameInput (l l' : Link ℝ) : Prop where
  org : l'.org = l.org
  com : l'.body.mp.com = l.body.mp.com
  joint : l'.joint.prp = l.joint.prp

/-- Two links that are in the same place. -/
structure SamePosture (l l' : Link ℝ) : Prop where
  adj : l'.adj = l.adj
  frame : l'.body.frame = l.body.frame
  wldCOM : l'.body.wldCOM = l.body.wldCOM

/-- Two links that move alike. -/
structure SameSpeed (l l' : Link ℝ) : Prop where
  vel : l'.body.vel = l.body.vel
  comVel : l'.body.comVel = l.body.comVel

end Roki.Spec
