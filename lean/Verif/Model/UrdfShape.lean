import Verif.Model.UrdfFile
set_option autoImplicit false

/-!
# The tool `urdf2ztk`: geometry of shapes and materials, app/urdf2ztk.c

The part of the tool that `Verif/Model/UrdfFile.lean` leaves out, with the same conventions.  The children of an element are its
elements; text is not modelled.  `init` are the colours of `zOpticalInfoInit` (Zeo).  Numbers are single precision in
the colours of the program and exact here.
-/

namespace Roki.Urdf.Doc
open ZTK
variable {K : Type*}

/-- What the geometry and the material of a shape set in `shape_t`: app/urdf2ztk.c:20-24. -/
structure Look (K : Type*) where
  type : Option String
  p1 : Option (List (Tok K))
  p2 : Option (List (Tok K))
  material : Option String

/-- `urdf2ztk_eval_shape_box`: app/urdf2ztk.c:211-216. -/
def evalBox (e : Elem K) (s : Look K) : Look K := { s with type := some e.tag, p1 := e.find "size" }

/-- `urdf2ztk_eval_shape_sphere`: app/urdf2ztk.c:218-223. -/
def evalSphere (e : Elem K) (s : Look K) : Look K := { s with type := some e.tag, p1 := e.find "radius" }

/-- `urdf2ztk_eval_shape_cylinder`: app/urdf2ztk.c:225-235. -/
def evalCylinder (e : Elem K) (s : Look K) : Look K :=
  e.attrs.foldl (fun s a =>
    if a.1 = "radius" then { s with p1 := some a.2 }
    else if a.1 = "length" then { s with p2 := some a.2 }
    else s) { s with type := some e.tag }

/-- `urdf2ztk_eval_shape_mesh`: app/urdf2ztk.c:237-247. -/
def evalMesh (e : Elem K) (s : Look K) : Look K :=
  e.attrs.foldl (fun s a =>
    if a.1 = "filename" then { s with p1 := some a.2 }
    else if a.1 = "scale" then { s with p2 := some a.2 }
    else s) { s with type := some e.tag }

/-- One turn of the loop of `urdf2ztk_eval_shape_geometry`: app/urdf2ztk.c:253-258. -/
def geoKid (s : Look K) (e : Elem K) : Look K :=
  if e.tag = "box" then evalBox e s
  else if e.tag = "sphere" then evalSphere e s
  else if e.tag = "cylinder" then evalCylinder e s
  else if e.tag = "mesh" then evalMesh e s
  else s

/-- `urdf2ztk_eval_shape_geometry`: app/urdf2ztk.c:249-260. -/
def evalGeometry (e : Elem K) (s : Look K) : Look K := e.kids.foldl geoKid s

/-! ## Materials -/

/-- The part of `zOpticalInfo` (Zeo) that is set: the name, `dif` and `alpha`, app/urdf2ztk.c:137. -/
structure Material (K : Type*) where
  name : Option String
  r : K
  g : K
  b : K
  alpha : K
deriving DecidableEq

/-- `urdf2ztk_material_get_rgba`: app/urdf2ztk.c:135-138.  What `sscanf` does not find is left as it is. -/
def getRGBA (ts : List (Tok K)) (m : Material K) : Material K :=
  match ts with
  | .num r :: .num g :: .num b :: .num a :: _ => { m with r := r, g := g, b := b, alpha := a }
  | .num r :: .num g :: .num b :: _ => { m with r := r, g := g, b := b }
  | .num r :: .num g :: _ => { m with r := r, g := g }
  | .num r :: _ => { m with r := r }
  | _ => m

/-- `urdf2ztk_eval_color`: app/urdf2ztk.c:140-144; `sscanf` from a null pointer is undefined. -/
def evalColor (m : Material K) (e : Elem K) : Option (Material K) :=
  if e.tag = "color" then (e.find "rgba").map fun ts => getRGBA ts m else some m

/-- A name as a C string: the empty value is the empty string, e.g. app/urdf2ztk.c:264. -/
def cstr : List (Tok K) → Option String
  | [] => some ""
  | [.str s] => some s
  | _ => none

/-- `urdf2ztk_eval_material`: app/urdf2ztk.c:146-163, for an element whose attribute `name` is `name`. -/
def evalMaterial (init : Material K) (name : Option String) (e : Elem K) : Option (Material K) :=
  e.kids.foldlM evalColor { init with name := name }

/-- The attribute `name` of a material; the outer option is empty for a value that is no string. -/
def matName (e : Elem K) : Option (Option String) :=
  match e.find "name" with
  | none => some none
  | some ts => (cstr ts).map some

/-- `urdf2ztk_eval_shape_material`: app/urdf2ztk.c:262-276; `sname` is the name of the shape. -/
def evalShapeMaterial (init : Material K) (sname : String) (st : Look K × List (Material K)) (e : Elem K) :
    Option (Look K × List (Material K)) :=
  (matName e).bind fun n =>
    if e.kids.isEmpty then some ({ st.1 with material := n }, st.2)
    else
      let n' := match n with
        | none => sname
        | some s => if s = "" then sname else s
      (evalMaterial init (some n') e).map fun m => ({ st.1 with material := some n' }, st.2 ++ [m])

/-- One turn of the loop of `urdf2ztk_eval_link_visual`: app/urdf2ztk.c:312-316, without the origin. -/
def lookKid (init : Material K) (sname : String) (st : Look K × List (Material K)) (e : Elem K) :
    Option (Look K × List (Material K)) :=
  if e.tag = "geometry" then some (evalGeometry e st.1, st.2)
  else if e.tag = "material" then evalShapeMaterial init sname st e
  else some st

/-- The name of a shape: app/urdf2ztk.c:297-304. -/
def visualName (lname : Option String) (k : ℕ) (e : Elem K) : Option String :=
  match e.find "name" with
  | some ts => strTok ts
  | none => lname.map fun n => n ++ "_" ++ toString k

/-- The name of a link: app/urdf2ztk.c:334. -/
def linkName (e : Elem K) : Option (Option String) :=
  match e.find "name" with
  | some ts => (strTok ts).map some
  | none => some none

/-- The look of a shape: `urdf2ztk_eval_link_visual`, app/urdf2ztk.c:281-318. -/
def lookVisual (init : Material K) (lname : Option String) (st : List (Look K) × List (Material K)) (e : Elem K) :
    Option (List (Look K) × List (Material K)) :=
  (visualName lname st.1.length e).bind fun name => (e.kids.foldlM (lookKid init name) (⟨none, none, none, none⟩, st.2)).map fun r => (st.1 ++ [r.1], r.2)

/-- The looks of the shapes of a link: `urdf2ztk_eval_link`, app/urdf2ztk.c:320-341. -/
def lookLink (init : Material K) (st : List (List (Look K)) × List (Material K)) (e : Elem K) :
    Option (List (List (Look K)) × List (Material K)) :=
  (linkName e).bind fun name => ((e.kids.filter fun k => k.tag = "visual").foldlM (lookVisual init name) ([], st.2)).map fun r => (st.1 ++ [r.1], r.2)

/-- A material of the document: app/urdf2ztk.c:453-456. -/
def topMaterial (init : Material K) (e : Elem K) : Option (Material K) := (matName e).bind fun n => evalMaterial init n e

/-- The looks of all shapes and the list of materials after `urdf2ztk_eval_robot`: app/urdf2ztk.c:449-466. -/
def looks (init : Material K) (robot : Elem K) : Option (List (List (Look K)) × List (Material K)) :=
  ((robot.kids.filter fun e => e.tag = "material").mapM (topMaterial init)).bind fun ms =>
    (robot.kids.filter fun e => e.tag = "link").foldlM (lookLink init) ([], ms)

/-! ## Output -/

section
variable [Field K]

/-- `output_ztk_material`: app/urdf2ztk.c:574-582, with the colours that are set; a null pointer cannot be printed. -/
def outMaterial (m : Material K) : Option (List (Fld K)) :=
  m.name.map fun n => [⟨"name", [.str n]⟩, ⟨"diffuse", [.num m.r, .num m.g, .num m.b]⟩, ⟨"alpha", [.num m.alpha]⟩]

/-- `output_ztk_shape_box`: app/urdf2ztk.c:584-593.  A null pointer and numbers that `sscanf` does not find are undefined. -/
def outBox (s : Look K) : Option (List (Fld K)) :=
  match s.p1 with
  | some (.num d :: .num w :: .num h :: _) =>
    some [⟨"type", [.str "box"]⟩, ⟨"depth", [.num d]⟩, ⟨"width", [.num w]⟩, ⟨"height", [.num h]⟩]
  | _ => none

/-- `output_ztk_shape_sphere`: app/urdf2ztk.c:595-602. -/
def outSphere (s : Look K) : Option (List (Fld K)) :=
  match s.p1 with
  | some (.num r :: _) => some [⟨"type", [.str "sphere"]⟩, ⟨"radius", [.num r]⟩]
  | _ => none

/-- `output_ztk_shape_cylinder`: app/urdf2ztk.c:604-614; the minus sign is printed before the number, so that for a negative length
the second center is no number. -/
def outCylinder [LinearOrder K] (s : Look K) : Option (List (Fld K)) :=
  match s.p1, s.p2 with
  | some (.num r :: _), some (.num l :: _) =>
    some [⟨"type", [.str "cylinder"]⟩, ⟨"center", tokVec ⟨0, 0, l / 2⟩⟩,
      ⟨"center", if l < 0 then [.num 0, .num 0, .str "--"] else tokVec ⟨0, 0, -(l / 2)⟩⟩, ⟨"radius", [.num r]⟩]
  | _, _ => none

/-- `output_ztk_shape_mesh`: app/urdf2ztk.c:616-622. -/
def outMesh (s : Look K) : Option (List (Fld K)) := s.p1.map fun ts => [⟨"import", ts ++ s.p2.getD []⟩]

/-- The geometry of a shape: app/urdf2ztk.c:644-649.  Other types are not possible. -/
def outGeo [LinearOrder K] (t : String) (s : Look K) : Option (List (Fld K)) :=
  if t = "box" then outBox s
  else if t = "sphere" then outSphere s
  else if t = "cylinder" then outCylinder s
  else if t = "mesh" then outMesh s
  else some []

variable [LinearOrder K] [Zm K]

/-- One turn of the loop of `output_ztk_shape`: app/urdf2ztk.c:629-650; nothing for a shape without a type. -/
def outShape (x : Shape K × Look K) : Option (List (String × List (Fld K))) :=
  match x.2.type with
  | none => some []
  | some t => (outGeo t x.2).map fun geo =>
    [("shape", [⟨"name", [.str x.1.name]⟩] ++ (if tinyVec x.1.fl.pos then [] else [⟨"pos", tokVec x.1.fl.pos⟩]) ++
      (if tinyMat x.1.fl.att then [] else [⟨"att", tokMat x.1.fl.att⟩]) ++
      optFld "optic" (x.2.material.map fun n => [.str n]) ++ geo)]

/-- `output_ztk`: app/urdf2ztk.c:724-734, all of it. -/
def outputAll (s : Info K) (ls : List (List (Look K))) (ms : List (Material K)) : Option (File K) :=
  s.name.bind fun name => (ms.mapM outMaterial).bind fun os =>
    (((s.link.flatMap fun l => l.shapes).zip ls.flatten).mapM outShape).bind fun ss => (s.link.mapM (outLink s)).map fun lks =>
      ("chain", [⟨"name", [.str name]⟩]) :: os.map (fun o => ("optic", o)) ++ ss.flatten ++ lks.map fun l => ("link", l)

/-- `main`: app/urdf2ztk.c:751-774, with geometry and materials, for a document whose root has the tag `robot`. -/
def urdf2ztkAll (rot : Vec3 K → Mat3 K) (zyx : K → K → K → Mat3 K) (init : Material K) (robot : Elem K) : Option (File K) :=
  (eval zyx robot).bind fun s => (looks init robot).bind fun r => (correctFrame rot s).bind fun s' => outputAll s' r.1 r.2

end
end Roki.Urdf.Doc
