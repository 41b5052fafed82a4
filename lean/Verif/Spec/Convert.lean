import Verif.Model.Convert
import Verif.Spec.Geom
set_option autoImplicit false

/-!
# Specification of the converters of shapes (C111)
-/

namespace Roki.Spec.Convert
open Roki.Convert Geom
variable {K σ : Type*} [Field K] [LinearOrder K] [ShapeOps K σ]

/-- The point `p` of space belongs to the robot: to a shape of one of its links, at the frame of the link. -/
def InRobot (S : Solids K σ) (r : Robot K σ) (p : Vec3 K) : Prop :=
  ∃ ss l i s, r.mshape = some ss ∧ l ∈ r.link ∧ i ∈ l.2 ∧ ss[i]? = some s ∧ ∃ q ∈ S.pts s.solid, p = l.1.xform q

/-- The point `p` belongs to one of the shapes. -/
def InShapes (S : Solids K σ) (ss : List (NShape σ)) (p : Vec3 K) : Prop := ∃ s ∈ ss, p ∈ S.pts s.solid

/-- The names of the shapes, link by link, as the robot uses them. -/
def used (r : Robot K σ) : List String := (r.link.flatMap fun l => l.2).filterMap fun i => ((r.mshape.getD [])[i]?).map fun s => s.name

/-- The robot is as `rkChainReadZTK` makes it: every pointer is to a shape of the chain, and the frames are frames. -/
def Valid (r : Robot K σ) : Prop := ∀ l ∈ r.link, l.1.att.IsRot ∧ ∀ i ∈ l.2, ∃ s, (r.mshape.getD [])[i]? = some s

/-- The lines that `gnuplot` draws for a block of data: between neighbours of a row and, since the rows are equally long, between
neighbours of a column. -/
def Line : List (List (Vec3 K)) → Vec3 K → Vec3 K → Prop := fun rows a b =>
  (∃ r ∈ rows, ∃ i : ℕ, r[i]? = some a ∧ r[i + 1]? = some b) ∨
  ∃ (j i : ℕ) (r r' : List (Vec3 K)), rows[j]? = some r ∧ rows[j + 1]? = some r' ∧ r[i]? = some a ∧ r'[i]? = some b

/-- The segment from `a` to `b` is a side of a face of the robot. -/
def Side (face : σ → Option (List (Vec3 K × Vec3 K × Vec3 K))) (r : Robot K σ) (a b : Vec3 K) : Prop :=
  ∃ ss l i s ts t, r.mshape = some ss ∧ l ∈ r.link ∧ i ∈ l.2 ∧ ss[i]? = some s ∧ face s.solid = some ts ∧ t ∈ ts ∧
    ((a = l.1.xform t.1 ∧ b = l.1.xform t.2.1) ∨ (a = l.1.xform t.2.1 ∧ b = l.1.xform t.2.2) ∨ (a = l.1.xform t.1 ∧ b = l.1.xform t.2.2))

/-- The faces of a shape move with it. -/
def FaceMoves (face : σ → Option (List (Vec3 K × Vec3 K × Vec3 K))) : Prop :=
  ∀ (f : Frame K) (s : σ), f.att.IsRot → face (ShapeOps.xform f s) = (face s).map fun ts => ts.map fun t => (f.xform t.1, f.xform t.2.1, f.xform t.2.2)

end Roki.Spec.Convert
