import Verif.Spec.UrdfPlace
set_option autoImplicit false

/-!
# Specification of the shapes and materials of URDF documents

What the elements of a document mean is taken from the URDF standard, what the sections of a ZTK file mean from Zeo.
-/

namespace Roki.Spec.UrdfDoc
open Roki.ZTK Roki.Urdf.Doc
variable {K : Type*}

/-- The solids of URDF. -/
inductive Solid (K : Type*) where
  | box (x y z : K)
  | ball (r : K)
  | cylinder (r l : K)

/-- The tags of the geometries. -/
def geoTags : List String := ["box", "sphere", "cylinder", "mesh"]

/-- The visual element `v` has one geometry, which is this solid. -/
def HasSolid [Field K] [LinearOrder K] (v : Elem K) (s : Solid K) : Prop :=
  ∃ g b, elems v "geometry" = [g] ∧ (g.kids.filter fun k => k.tag ∈ geoTags) = [b] ∧
    match s with
    | .box x y z => b.tag = "box" ∧ b.find "size" = some [.num x, .num y, .num z]
    | .ball r => b.tag = "sphere" ∧ b.find "radius" = some [.num r]
    | .cylinder r l => b.tag = "cylinder" ∧ attr b "radius" = some [.num r] ∧ attr b "length" = some [.num l] ∧ 0 < l

/-- The points of a solid: it is centred at the origin, and a cylinder is along the z axis. -/
def Solid.Has [Field K] [LinearOrder K] : Solid K → Vec3 K → Prop
  | .box x y z, p => |p.x| ≤ x / 2 ∧ |p.y| ≤ y / 2 ∧ |p.z| ≤ z / 2
  | .ball r, p => dot p p ≤ r ^ 2
  | .cylinder r l, p => p.x ^ 2 + p.y ^ 2 ≤ r ^ 2 ∧ |p.z| ≤ l / 2

/-- The values of the fields of a section that have a key. -/
def secVals (key : String) (sec : List (Fld K)) : List (List (Tok K)) := (sec.filter fun x => x.key = key).map fun x => x.val

/-- The points of the solid that Zeo makes of a section before it is placed.  The depth of a box is along the x axis, the width along the y axis,
the height along the z axis, and it is centred at the origin if no center is given; a cylinder has its two ends. -/
inductive ZeoSolid [Field K] [LinearOrder K] (sec : List (Fld K)) : (Vec3 K → Prop) → Prop
  | box (d w h : K) : secVals "type" sec = [[.str "box"]] → secVals "center" sec = [] → secVals "depth" sec = [[.num d]] →
      secVals "width" sec = [[.num w]] → secVals "height" sec = [[.num h]] →
      ZeoSolid sec fun p => |p.x| ≤ d / 2 ∧ |p.y| ≤ w / 2 ∧ |p.z| ≤ h / 2
  | sphere (r : K) : secVals "type" sec = [[.str "sphere"]] → secVals "center" sec = [] → secVals "radius" sec = [[.num r]] →
      ZeoSolid sec fun p => dot p p ≤ r ^ 2
  | cylinder (r : K) (c c' : Vec3 K) : secVals "type" sec = [[.str "cylinder"]] →
      secVals "center" sec = [[.num c.x, .num c.y, .num c.z], [.num c'.x, .num c'.y, .num c'.z]] → secVals "radius" sec = [[.num r]] →
      ZeoSolid sec fun p => ∃ t : K, 0 ≤ t ∧ t ≤ 1 ∧ dot (p - (c + t • (c' - c))) (c' - c) = 0 ∧
        dot (p - (c + t • (c' - c))) (p - (c + t • (c' - c))) ≤ r ^ 2

/-- The frame in which Zeo places the shape of a section. -/
def zeoFrame [Field K] (sec : List (Fld K)) : Frame K where
  pos := match secVals "pos" sec with
    | [[.num x, .num y, .num z]] => ⟨x, y, z⟩
    | _ => 0
  att := match secVals "att" sec with
    | [[.num a, .num b, .num c, .num d, .num e, .num f, .num g, .num h, .num i]] => ⟨⟨a, d, g⟩, ⟨b, e, h⟩, ⟨c, f, i⟩⟩
    | _ => 1

/-- The file without the materials, and with the names of the shapes only. -/
def plain (f : File K) : File K :=
  f.filterMap fun x => if x.1 = "optic" then none else if x.1 = "shape" then some (x.1, x.2.filter fun y => y.key = "name") else some x

/-! ## Materials -/

/-- A material with one colour. -/
def HasColor (e : Elem K) (r g b a : K) : Prop :=
  ∃ c, elems e "color" = [c] ∧ c.find "rgba" = some [.num r, .num g, .num b, .num a]

/-- The element `e` defines a material for visual element `k` of a link, whose name is `n`: it has elements.  It has the
name `m`, or none, and then the shape has the name `m`. -/
def DefinesIn (lname : String) (vs : List (Elem K)) (m : String) (e : Elem K) : Prop :=
  ∃ (k : ℕ) (v : Elem K), vs[k]? = some v ∧ e ∈ elems v "material" ∧ e.kids ≠ [] ∧
    ((e.find "name" = some [.str m] ∧ m ≠ "") ∨
      ((e.find "name" = none ∨ e.find "name" = some [] ∨ e.find "name" = some [.str ""]) ∧ (shapeNames lname 0 vs)[k]? = some m))

/-- The element `e` of the document defines a material with the name `m`. -/
def Defines (doc : Elem K) (m : String) (e : Elem K) : Prop :=
  (e ∈ elems doc "material" ∧ (e.find "name" = some [.str m] ∨ e.find "name" = some [] ∧ m = "")) ∨
    ∃ l ∈ elems doc "link", ∃ n, l.find "name" = some [.str n] ∧ DefinesIn n (elems l "visual") m e

/-- The visual element `v`, whose shape is called `name`, is of the material `m`: it gives its name, or defines it without a name. -/
def Refers (name : String) (v : Elem K) (m : String) : Prop :=
  ∃ b, elems v "material" = [b] ∧ ((b.find "name" = some [.str m] ∧ m ≠ "") ∨
    ((b.find "name" = none ∨ b.find "name" = some [] ∨ b.find "name" = some [.str ""]) ∧ b.kids ≠ [] ∧ m = name))

/-- The visual element `v` has one geometry, which is this mesh. -/
def HasMesh (v : Elem K) (file : List (Tok K)) (scale : Option (List (Tok K))) : Prop :=
  ∃ g b, elems v "geometry" = [g] ∧ (g.kids.filter fun k => k.tag ∈ geoTags) = [b] ∧ b.tag = "mesh" ∧
    attr b "filename" = some file ∧ attr b "scale" = scale

end Roki.Spec.UrdfDoc
