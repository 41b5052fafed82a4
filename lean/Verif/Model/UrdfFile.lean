import Verif.Model.ChainFile
set_option autoImplicit false

/-!
# The tool `urdf2ztk`: from the elements of a URDF file to the sections of a ZTK file, app/urdf2ztk.c

The XML parser is libxml2, behind the functions `zXML...` of ZEDA, outside /repo.  The model starts from the elements of the
document, each with its tag, its attributes and its elements.  The value of an attribute is a list of tokens, as in `ZTK.Tok`.  It is
assumed that `zXMLForEachNode` and `zXMLForEachAttr` go through elements and attributes in the order of the document, that
`zXMLFindNodeAttr` finds the first attribute of a name or returns the null pointer, that a list built with `zListInsertHead` is
visited by `zListForEach` in the order of insertion (as everywhere in this model), and that `zAlloc` gives zeroed memory.

A pointer to a link or joint is its number in the list.  Undefined behaviour and recursion without end are `none`.  Materials and
the geometry of shapes are not modelled: of a shape, there are the name, the frames and whether it has a type.

`rot a` stands for the rotation matrix of the vector that `zVec3DAAError` computes from the z axis and `a` (as in
`Verif.Model.Urdf`), `zyx y p r` for `zMat3DFromZYX`.
-/

namespace Roki.Urdf.Doc
open ZTK
variable {K : Type*}

/-- An element of the document (libxml2 `xmlNode`), as visited at app/urdf2ztk.c:436-443. -/
inductive Elem (K : Type*) where
  | mk (tag : String) (attrs : List (String × List (Tok K))) (kids : List (Elem K))

/-- The tag of an element, e.g. app/urdf2ztk.c:437. -/
def Elem.tag : Elem K → String | .mk t _ _ => t
/-- The attributes of an element, e.g. app/urdf2ztk.c:432. -/
def Elem.attrs : Elem K → List (String × List (Tok K)) | .mk _ a _ => a
/-- The elements of an element, e.g. app/urdf2ztk.c:436. -/
def Elem.kids : Elem K → List (Elem K) | .mk _ _ k => k

/-- `zXMLFindNodeAttr` (ZEDA), e.g. app/urdf2ztk.c:171. -/
def Elem.find (e : Elem K) (k : String) : Option (List (Tok K)) := (e.attrs.find? fun a => a.1 == k).map Prod.snd

/-- A string attribute. -/
def strTok : List (Tok K) → Option String
  | [.str s] => some s
  | _ => none

/-- `shape_t`: app/urdf2ztk.c:18-25; `typed` tells whether the pointer `type` is not null. -/
structure Shape (K : Type*) where
  name : String
  typed : Bool
  fl : Frame K
  fw : Frame K

/-- `link_t`: app/urdf2ztk.c:43-50.  The shapes of a link are with the link: no two links share a shape. -/
structure Link (K : Type*) where
  name : Option String
  mp : MP K
  iw : Mat3 K
  shapes : List (Shape K)
  joint : Option ℕ
  child : Option ℕ

/-- `joint_t`: app/urdf2ztk.c:65-78. -/
structure Joint (K : Type*) where
  name : Option String
  type : Option String
  fl : Frame K
  fw : Frame K
  axis : Vec3 K
  damping : Option (List (Tok K))
  friction : Option (List (Tok K))
  lower : Option (List (Tok K))
  upper : Option (List (Tok K))
  parent : Option ℕ
  child : Option ℕ
  sibling : Option ℕ

/-- `robot_info_t`: app/urdf2ztk.c:80-86, without materials; the list of shapes is that of the shapes of all links. -/
structure Info (K : Type*) where
  name : Option String
  link : List (Link K)
  joint : List (Joint K)

/-! ## Evaluation of the document -/

section
variable [Field K]

/-- `urdf2ztk_get_vec`: app/urdf2ztk.c:108-111.  What `sscanf` does not find is left as it is. -/
def getVec (ts : List (Tok K)) (v : Vec3 K) : Vec3 K :=
  match ts with
  | .num x :: .num y :: .num z :: _ => ⟨x, y, z⟩
  | .num x :: .num y :: _ => ⟨x, y, v.z⟩
  | .num x :: _ => ⟨x, v.y, v.z⟩
  | _ => v

/-- `urdf2ztk_get_att`: app/urdf2ztk.c:113-119.  What `sscanf` does not find is not initialised. -/
def getAtt (zyx : K → K → K → Mat3 K) : List (Tok K) → Option (Mat3 K)
  | .num r :: .num p :: .num y :: _ => some (zyx y p r)
  | _ => none

/-- `urdf2ztk_eval_origin`: app/urdf2ztk.c:121-130. -/
def evalOrigin (zyx : K → K → K → Mat3 K) (e : Elem K) (f : Frame K) : Option (Frame K) :=
  e.attrs.foldlM (fun f a =>
    if a.1 = "xyz" then some { f with pos := getVec a.2 f.pos }
    else if a.1 = "rpy" then (getAtt zyx a.2).map fun m => { f with att := m }
    else some f) f

/-- `atof` (libc), e.g. app/urdf2ztk.c:171: zero for what is not a number; the null pointer and infinity are outside the model. -/
def atof : List (Tok K) → Option K
  | .num x :: _ => some x
  | .inf _ :: _ => none
  | _ => some 0

/-- `urdf2ztk_eval_link_mass`: app/urdf2ztk.c:169-173. -/
def evalMass (e : Elem K) (mp : MP K) : Option (MP K) :=
  (e.find "value").bind fun ts => (atof ts).map fun x => { mp with mass := x }

/-- The six numbers of `urdf2ztk_eval_link_inertia`, app/urdf2ztk.c:178. -/
structure Six (K : Type*) where
  (xx xy xz yy yz zz : K)

/-- `urdf2ztk_eval_link_inertia`: app/urdf2ztk.c:175-191. -/
def evalInertia (e : Elem K) (mp : MP K) : Option (MP K) :=
  (e.attrs.foldlM (fun (s : Six K) a =>
    if a.1 = "ixx" then (atof a.2).map fun x => { s with xx := x }
    else if a.1 = "ixy" then (atof a.2).map fun x => { s with xy := x }
    else if a.1 = "ixz" then (atof a.2).map fun x => { s with xz := x }
    else if a.1 = "iyy" then (atof a.2).map fun x => { s with yy := x }
    else if a.1 = "iyz" then (atof a.2).map fun x => { s with yz := x }
    else if a.1 = "izz" then (atof a.2).map fun x => { s with zz := x }
    else some s) ⟨0, 0, 0, 0, 0, 0⟩).map fun s =>
      { mp with inertia := ⟨⟨s.xx, s.xy, s.xz⟩, ⟨s.xy, s.yy, s.yz⟩, ⟨s.xz, s.yz, s.zz⟩⟩ }

/-- One turn of the loop of `urdf2ztk_eval_link_inertial`: app/urdf2ztk.c:199-203. -/
def evalInertialKid (zyx : K → K → K → Mat3 K) (s : Frame K × MP K) (e : Elem K) : Option (Frame K × MP K) :=
  if e.tag = "origin" then (evalOrigin zyx e s.1).map fun f => (f, s.2)
  else if e.tag = "mass" then (evalMass e s.2).map fun m => (s.1, m)
  else if e.tag = "inertia" then (evalInertia e s.2).map fun m => (s.1, m)
  else some s

/-- `urdf2ztk_eval_link_inertial`: app/urdf2ztk.c:193-207. -/
def evalInertial (zyx : K → K → K → Mat3 K) (e : Elem K) (mp : MP K) : Option (MP K) :=
  (e.kids.foldlM (evalInertialKid zyx) (Frame.ident, mp)).map fun s =>
    { s.2 with com := s.1.pos, inertia := s.1.att.rot s.2.inertia }

/-- Whether `urdf2ztk_eval_shape_geometry`, app/urdf2ztk.c:249-260, sets the type. -/
def hasType (e : Elem K) : Bool :=
  e.kids.any fun g => g.tag == "box" || g.tag == "sphere" || g.tag == "cylinder" || g.tag == "mesh"

/-- One turn of the loop of `urdf2ztk_eval_link_visual`: app/urdf2ztk.c:312-316; the material is not modelled. -/
def evalVisualKid (zyx : K → K → K → Mat3 K) (s : Shape K) (e : Elem K) : Option (Shape K) :=
  if e.tag = "origin" then (evalOrigin zyx e s.fl).map fun f => { s with fl := f }
  else if e.tag = "geometry" then some { s with typed := s.typed || hasType e }
  else some s

/-- `urdf2ztk_eval_link_visual`: app/urdf2ztk.c:281-318. -/
def evalVisual (zyx : K → K → K → Mat3 K) (e : Elem K) (l : Link K) : Option (Link K) :=
  (match e.find "name" with
    | some ts => strTok ts
    | none => l.name.map fun n => n ++ "_" ++ toString l.shapes.length).bind fun name =>
  (e.kids.foldlM (evalVisualKid zyx) ⟨name, false, Frame.ident, Frame.ident⟩).map fun s =>
    { l with shapes := l.shapes ++ [s] }

/-- One turn of the loop of `urdf2ztk_eval_link`: app/urdf2ztk.c:335-339. -/
def evalLinkKid (zyx : K → K → K → Mat3 K) (l : Link K) (e : Elem K) : Option (Link K) :=
  if e.tag = "inertial" then (evalInertial zyx e l.mp).map fun m => { l with mp := m }
  else if e.tag = "visual" then evalVisual zyx e l
  else some l

/-- `urdf2ztk_eval_link`: app/urdf2ztk.c:320-341. -/
def evalLink (zyx : K → K → K → Mat3 K) (s : Info K) (e : Elem K) : Option (Info K) :=
  (match e.find "name" with
    | some ts => (strTok ts).map some
    | none => some none).bind fun name =>
  (e.kids.foldlM (evalLinkKid zyx) ⟨name, ⟨0, 0, 0⟩, 0, [], none, none⟩).map fun l => { s with link := s.link ++ [l] }

/-- `link_list_find`: app/urdf2ztk.c:5-12 and 52.  The name of a link that is looked at must not be null.  The inner option tells
whether a link is found. -/
def findFrom (name : String) : ℕ → List (Link K) → Option (Option ℕ)
  | _, [] => some none
  | i, l :: ls => l.name.bind fun n => if n = name then some (some i) else findFrom name (i + 1) ls

/-- The same for the whole list. -/
def findLink (s : Info K) (name : String) : Option (Option ℕ) := findFrom name 0 s.link

/-- `urdf2ztk_add_joint_sibling`: app/urdf2ztk.c:345-349, with a bound on the depth of the recursion: it ends within as many calls
as there are joints or never. -/
def addSibling : ℕ → List (Joint K) → ℕ → ℕ → Option (List (Joint K))
  | 0, _, _, _ => none
  | fuel + 1, js, j, k => js[j]?.bind fun x => match x.sibling with
    | none => some (js.set j { x with sibling := some k })
    | some m => addSibling fuel js m k

/-- `urdf2ztk_add_link_child`: app/urdf2ztk.c:351-355. -/
def addLinkChild (s : Info K) (l k : ℕ) : Option (Info K) :=
  s.link[l]?.bind fun x => match x.child with
    | none => some { s with link := s.link.set l { x with child := some k } }
    | some j => (addSibling s.joint.length s.joint j k).map fun js => { s with joint := js }

/-- Change a joint. -/
def modJoint (s : Info K) (j : ℕ) (f : Joint K → Joint K) : Option (Info K) :=
  s.joint[j]?.map fun x => { s with joint := s.joint.set j (f x) }

/-- `urdf2ztk_eval_joint_parent` with `urdf2ztk_bind_joint_parent`: app/urdf2ztk.c:369-373 and 357-361.  A link that is not found is a
null pointer, which is followed at line 353. -/
def evalParent (j : ℕ) (s : Info K) (e : Elem K) : Option (Info K) :=
  ((e.find "link").bind strTok).bind fun n => (findLink s n).bind fun l =>
    (modJoint s j fun x => { x with parent := l }).bind fun s => l.bind fun l => addLinkChild s l j

/-- `urdf2ztk_eval_joint_child` with `urdf2ztk_bind_joint_child`: app/urdf2ztk.c:375-379 and 363-367. -/
def evalChild (j : ℕ) (s : Info K) (e : Elem K) : Option (Info K) :=
  ((e.find "link").bind strTok).bind fun n => (findLink s n).bind fun l =>
    (modJoint s j fun x => { x with child := l }).bind fun s => match l with
      | none => some s
      | some l => s.link[l]?.map fun x => { s with link := s.link.set l { x with joint := some j } }

/-- One turn of the loop of `urdf2ztk_eval_joint_dynamic`: app/urdf2ztk.c:391-394. -/
def dynamicAttr (x : Joint K) (a : String × List (Tok K)) : Joint K :=
  if a.1 = "damping" then { x with damping := some a.2 }
  else if a.1 = "friction" then { x with friction := some a.2 } else x

/-- One turn of the loop of `urdf2ztk_eval_joint_limit`: app/urdf2ztk.c:402-406. -/
def limitAttr (x : Joint K) (a : String × List (Tok K)) : Joint K :=
  if a.1 = "lower" then { x with lower := some a.2 }
  else if a.1 = "upper" then { x with upper := some a.2 } else x

/-- One turn of the second loop of `urdf2ztk_eval_joint`: app/urdf2ztk.c:436-443, with `urdf2ztk_eval_joint_axis`, 381-385,
`urdf2ztk_eval_joint_dynamic`, 387-396, and `urdf2ztk_eval_joint_limit`, 398-408. -/
def evalJointKid (zyx : K → K → K → Mat3 K) (j : ℕ) (s : Info K) (e : Elem K) : Option (Info K) :=
  if e.tag = "origin" then s.joint[j]?.bind fun x => (evalOrigin zyx e x.fl).bind fun f =>
    modJoint s j fun x => { x with fl := f }
  else if e.tag = "parent" then evalParent j s e
  else if e.tag = "child" then evalChild j s e
  else if e.tag = "axis" then (e.find "xyz").bind fun ts => modJoint s j fun x => { x with axis := getVec ts x.axis }
  else if e.tag = "dynamic" then modJoint s j fun x => e.attrs.foldl dynamicAttr x
  else if e.tag = "limit" then modJoint s j fun x => e.attrs.foldl limitAttr x
  else some s

/-- One turn of the first loop of `urdf2ztk_eval_joint`: app/urdf2ztk.c:432-435. -/
def jointAttr (x : Joint K) (a : String × List (Tok K)) : Joint K :=
  if a.1 = "name" then { x with name := strTok a.2 }
  else if a.1 = "type" then { x with type := strTok a.2 } else x

/-- The joint before its attributes are read: app/urdf2ztk.c:420-430. -/
def newJoint : Joint K :=
  ⟨none, none, Frame.ident, Frame.ident, ⟨1, 0, 0⟩, none, none, none, none, none, none, none⟩

/-- `urdf2ztk_eval_joint`: app/urdf2ztk.c:410-445. -/
def evalJoint (zyx : K → K → K → Mat3 K) (s : Info K) (e : Elem K) : Option (Info K) :=
  e.kids.foldlM (evalJointKid zyx s.joint.length) { s with joint := s.joint ++ [e.attrs.foldl jointAttr newJoint] }

/-- `urdf2ztk_eval` with `urdf2ztk_eval_robot`: app/urdf2ztk.c:468-476 and 449-466.  The argument is the element with the tag `robot`;
the loop over the materials is not modelled. -/
def eval (zyx : K → K → K → Mat3 K) (robot : Elem K) : Option (Info K) :=
  ((robot.kids.filter fun e => e.tag = "link").foldlM (evalLink zyx) ⟨(robot.find "name").bind strTok, [], []⟩).bind fun s =>
    (robot.kids.filter fun e => e.tag = "joint").foldlM (evalJoint zyx) s

/-! ## Correction of the frames -/

/-- Body of `urdf2ztk_xform`: app/urdf2ztk.c:488-495, for joint `j` with child link `c`. -/
def xform1 (s : Info K) (j c : ℕ) (x : Joint K) (par l : Link K) : Option (Info K) :=
  (match par.joint with
    | none => some x.fl
    | some q => s.joint[q]?.map fun (y : Joint K) => y.fw.cascade x.fl : Option (Frame K)).map fun fw =>
  { s with joint := s.joint.set j { x with fw := fw },
           link := s.link.set c { l with
              iw := fw.att.rot l.mp.inertia, shapes := l.shapes.map fun p => { p with fw := fw.cascade p.fl } } }

/-- Body of `urdf2ztk_xform_inv`: app/urdf2ztk.c:509-516. -/
def xformInv1 (s : Info K) (j c : ℕ) (x : Joint K) (par l : Link K) : Option (Info K) :=
  (match par.joint with
    | none => some x.fw
    | some q => s.joint[q]?.map fun (y : Joint K) => y.fw.xformF x.fw : Option (Frame K)).map fun fl =>
  { s with joint := s.joint.set j { x with fl := fl },
           link := s.link.set c { l with
              mp := { l.mp with inertia := fl.att.rotInv l.iw }
              shapes := l.shapes.map fun p => { p with fl := x.fw.xformF p.fw } } }

/-- The recursion of `urdf2ztk_xform` and `urdf2ztk_xform_inv`: app/urdf2ztk.c:480-499 and 501-520: the joint, then the joints attached to its
child link, then its sibling.  The result tells whether the function returned `true`. -/
def descend (body : Info K → ℕ → ℕ → Joint K → Link K → Link K → Option (Info K)) : ℕ → Info K → ℕ → Option (Bool × Info K)
  | 0, _, _ => none
  | fuel + 1, s, j => s.joint[j]?.bind fun x => match x.parent, x.child with
    | some p, some c => s.link[p]?.bind fun par => s.link[c]?.bind fun l => (body s j c x par l).bind fun s =>
        (match l.child with
          | none => some (true, s)
          | some k => descend body fuel s k).bind fun r =>
        if r.1 then match x.sibling with
          | none => some (true, r.2)
          | some k => descend body fuel r.2 k
        else some (false, r.2)
    | _, _ => some (false, s)

/-- `urdf2ztk_joint_is_revol` or `urdf2ztk_joint_is_prism`: app/urdf2ztk.c:536-544.  The type must not be null. -/
def hasAxis (t : String) : Bool := t == "revolute" || t == "continuous" || t == "prismatic"

/-- Body of the loop of `urdf2ztk_correct_frame`: app/urdf2ztk.c:562-567. -/
def realign (rot : Vec3 K → Mat3 K) (x : Joint K) : Option (Joint K) :=
  x.type.map fun t => if hasAxis t then { x with fw := ⟨x.fw.pos, (rot x.axis).mul x.fw.att⟩ } else x

/-- `urdf2ztk_correct_frame`: app/urdf2ztk.c:551-570, with `urdf2ztk_find_root`, 522-529.  The results of lines 561 and 568 are not
looked at, nor is that of this function at line 766. -/
def correctFrame (rot : Vec3 K → Mat3 K) (s : Info K) : Option (Info K) :=
  match s.link.find? fun l => l.joint.isNone with
  | none => some s
  | some root =>
    (match root.child with
      | none => some s
      | some k => (descend xform1 (s.joint.length + 1) s k).map Prod.snd).bind fun s =>
    (s.joint.mapM (realign rot)).bind fun js =>
    (match root.child with
      | none => some { s with joint := js }
      | some k => (descend xformInv1 (s.joint.length + 1) { s with joint := js } k).map Prod.snd)

/-! ## Output -/

variable [LinearOrder K] [Zm K]

/-- `zVec3DIsTiny` (Zeo): app/urdf2ztk.c:686. -/
def tinyVec (v : Vec3 K) : Bool := Zm.tiny v.x && Zm.tiny v.y && Zm.tiny v.z

/-- `zMat3DIsIdent` (Zeo): app/urdf2ztk.c:690. -/
def tinyMat (m : Mat3 K) : Bool :=
  Zm.tiny (m.cx.x - 1) && Zm.tiny m.cx.y && Zm.tiny m.cx.z && Zm.tiny m.cy.x && Zm.tiny (m.cy.y - 1) && Zm.tiny m.cy.z &&
    Zm.tiny m.cz.x && Zm.tiny m.cz.y && Zm.tiny (m.cz.z - 1)

/-- The type that `output_ztk_joint` writes: app/urdf2ztk.c:668-682. -/
def ztkType (t : String) : String :=
  if t = "revolute" ∨ t = "continuous" then "revolute" else if t = "prismatic" then "prismatic"
  else if t = "float" then "float" else "fixed"

/-- A limit that `output_ztk_joint` writes: app/urdf2ztk.c:666-677. -/
def ztkLimit (type : Option String) (ts : List (Tok K)) : Option K :=
  match type with
  | none => some 0
  | some t =>
    if t = "revolute" ∨ t = "continuous" then (atof ts).map rad2deg
    else if t = "prismatic" then atof ts else some 0

/-- A line of the file that is written if there is a value. -/
def optFld (key : String) : Option (List (Tok K)) → List (Fld K)
  | none => []
  | some ts => [⟨key, ts⟩]

/-- `output_ztk_joint`: app/urdf2ztk.c:662-695. -/
def outJoint (x : Joint K) : Option (List (Fld K)) :=
  (match x.lower with
    | none => some none
    | some ts => (ztkLimit x.type ts).map fun v => some [Tok.num v]).bind fun lo =>
  (match x.upper with
    | none => some none
    | some ts => (ztkLimit x.type ts).map fun v => some [Tok.num v]).map fun hi =>
  optFld "jointtype" (x.type.map fun t => [.str (ztkType t)]) ++ optFld "min" lo ++ optFld "max" hi ++
    optFld "viscosity" x.damping ++ optFld "coulomb" x.friction ++
    (if tinyVec x.fl.pos then [] else [(⟨"pos", tokVec x.fl.pos⟩ : Fld K)]) ++
    (if tinyMat x.fl.att then [] else [(⟨"att", tokMat x.fl.att⟩ : Fld K)])

/-- The lines of the mass properties: app/urdf2ztk.c:707-714. -/
def outMass (mp : MP K) : List (Fld K) :=
  if mp.mass = 0 then [] else
    [(⟨"mass", [.num mp.mass]⟩ : Fld K)] ++ (if tinyVec mp.com then [] else [(⟨"COM", tokVec mp.com⟩ : Fld K)]) ++
      [⟨"inertia", tokMat mp.inertia⟩]

/-- The parent that `output_ztk_link` writes: app/urdf2ztk.c:718-719. -/
def outParent (s : Info K) (x : Joint K) : Option (List (Fld K)) :=
  match x.parent with
  | none => some []
  | some p => s.link[p]?.bind fun l => l.name.map fun n => [⟨"parent", [.str n]⟩]

/-- Body of the loop of `output_ztk_link`: app/urdf2ztk.c:703-720. -/
def outLink (s : Info K) (l : Link K) : Option (List (Fld K)) :=
  let rest := outMass l.mp ++ l.shapes.map fun p => ⟨"shape", [.str p.name]⟩
  let name := optFld "name" (l.name.map fun n => [.str n])
  match l.joint with
  | none => some (name ++ rest)
  | some j => s.joint[j]?.bind fun x => (outJoint x).bind fun a => (outParent s x).map fun b => name ++ a ++ rest ++ b

/-- `output_ztk`: app/urdf2ztk.c:724-734, without the materials.  Of a shape, only the name is kept; a shape without a type is
left out, line 630. -/
def output (s : Info K) : Option (File K) :=
  s.name.bind fun name => (s.link.mapM (outLink s)).map fun ls =>
    ("chain", [⟨"name", [.str name]⟩]) ::
      (((s.link.flatMap fun l => l.shapes).filter fun p => p.typed).map fun p => ("shape", [⟨"name", [.str p.name]⟩])) ++
      ls.map fun l => ("link", l)

/-- `main`: app/urdf2ztk.c:751-774, for a document whose root has the tag `robot`. -/
def urdf2ztk (rot : Vec3 K → Mat3 K) (zyx : K → K → K → Mat3 K) (robot : Elem K) : Option (File K) :=
  (eval zyx robot).bind fun s => (correctFrame rot s).bind output

end
end Roki.Urdf.Doc
