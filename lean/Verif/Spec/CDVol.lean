import Verif.Model.CDVol
import Verif.Spec.CD
set_option autoImplicit false

/-!
# What a collision volume is to be
-/

namespace Roki.Spec
variable {K : Type*} [Field K] {G : CDGeo K}

/-- The boxes of two cells collide at the poses `W`. -/
def BoxesMeet (W : ℕ → Frame K) (a b : CDCell K G) : Prop :=
  G.colAABB (G.toAABB (seenBox W a)) (G.toAABB (seenBox W b)) = true ∧ G.colBox (seenBox W a) (seenBox W b) = true

/-- `b1` is the boundary of the first polyhedron within the second, `b2` that of the second within the first, and not both are
empty. -/
def Cut (V : VolGeo K) (a b : PH K) (b1 b2 : BRepS K) : Prop :=
  V.trunc (V.ofPH a) b = some b1 ∧ V.trunc (V.ofPH b) a = some b2 ∧ (b1.vert ≠ [] ∨ b2.vert ≠ [])

/-- A polyhedron with at least four vertices and four faces. -/
def Solid (ph : PH K) : Prop := 4 ≤ ph.vert.length ∧ 4 ≤ ph.face.length

/-- The common volume of two boundaries: the convex hull of their vertices. -/
def common (V : VolGeo K) (b1 b2 : BRepS K) : PH K := V.hull (b1.vert ++ b2.vert)

/-- Twice the integral of the normal over a boundary. -/
def areaSum (b : BRepS K) : Vec3 K := (b.tri.map fun t => cross (t.2.1 - t.1) (t.2.2 - t.1)).sum

end Roki.Spec
