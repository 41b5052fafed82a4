import Verif.Spec.Rounding
set_option autoImplicit false

/-! # Specification: rounding errors of Jacobian matrices (C138) -/

namespace Roki.Spec

/-- Two joints of the same kind. -/
def SameKind : Prp ℝ → Prp ℝ → Prop
  | .fixed, .fixed => True
  | .revol _, .revol _ => True
  | .prism _, .prism _ => True
  | .cylin _, .cylin _ => True
  | .hooke _, .hooke _ => True
  | .spher _, .spher _ => True
  | .float _, .float _ => True
  | .brfloat _, .brfloat _ => True
  | _, _ => False

/-- The same link with rounded joint values: rounding changes neither the kind of the joint nor where its columns are. -/
structure NearLinkJ (v : ℝ) (l l' : Link ℝ) : Prop extends NearLink v l l' where
  kind : SameKind l.joint.prp l'.joint.prp
  offset : l'.offset = l.offset

/-- Two matrices with three rows whose columns are at a distance of at most `e`. -/
def ColError (J' J : List (Vec3 ℝ)) (e : ℝ) : Prop := List.Forall₂ (fun a' a => len (a' - a) ≤ e) J' J

end Roki.Spec
