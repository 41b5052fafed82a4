import Verif.Model.Body
set_option autoImplicit false

/-!
# The tool `cad2ztk`: app/cad2ztk.c

Files are lists of records: a row of a CSV file is a record of its fields, and an output file is the list of the records
printed into it.  The limit of 255 characters of a field, quoting of names and the digits of numbers are not modelled.
-/

namespace Roki.Cad
variable {K : Type*} [Field K]

/-- A row of the link CSV file, in the order of the fields read at app/cad2ztk.c:60-73.  The nine numbers of the attitude
are the three base vectors, the columns of the matrix. -/
structure LinkRow (K : Type*) where
  name : String
  parentname : String
  jointtype : String
  pos : Vec3 K
  att : Mat3 K
  mass : K
  com : Vec3 K
  xx : K
  xy : K
  xz : K
  yy : K
  yz : K
  zz : K
deriving DecidableEq

/-- A row of the shape CSV file: app/cad2ztk.c:111-119. -/
structure ShapeRow (K : Type*) where
  name : String
  stlname : String
  linkname : String
  pos : Vec3 K
  att : Mat3 K
deriving DecidableEq

/-- `link_t`: app/cad2ztk.c:7-14; the parent is an index into the array. -/
structure LinkT (K : Type*) where
  name : String
  parentname : String
  jointtype : String
  parent : Option ℕ
  frame : Frame K
  mp : MP K

/-- `shape_t`: app/cad2ztk.c:85-90. -/
structure ShapeT (K : Type*) where
  name : String
  stlname : String
  link : Option ℕ
  frame : Frame K

/-- `link_array_find_link`: app/cad2ztk.c:18-25. -/
def findLink (la : List (LinkT K)) (name : String) : Option ℕ := la.findIdx? (·.name == name)

/-- Body of the loop of `link_array_assoc_parent`: app/cad2ztk.c:33-41. -/
def assocLink (la : List (LinkT K)) (l : LinkT K) : LinkT K × Bool :=
  if l.parentname = "nil" then ({ l with parent := none }, true)
  else ({ l with parent := findLink la l.parentname }, (findLink la l.parentname).isSome)

/-- `link_array_assoc_parent`: app/cad2ztk.c:27-43.  The names that are searched are not changed by the loop. -/
def assocParent (la : List (LinkT K)) : List (LinkT K) × Bool :=
  (la.map fun l => (assocLink la l).1, la.all fun l => (assocLink la l).2)

/-- Body of the loop of `link_array_read_csv`: app/cad2ztk.c:59-76. -/
def readLink (r : LinkRow K) : LinkT K :=
  { name := r.name, parentname := r.parentname, jointtype := r.jointtype, parent := none, frame := ⟨r.pos, r.att⟩,
    mp := ⟨r.mass, r.com, ⟨⟨r.xx, r.xy, r.xz⟩, ⟨r.xy, r.yy, r.yz⟩, ⟨r.xz, r.yz, r.zz⟩⟩⟩ }

/-- Body of the loop of `shape_array_read_csv`: app/cad2ztk.c:110-121.  `none` is the access to the name of a null link at
line 121. -/
def readShape (la : List (LinkT K)) (r : ShapeRow K) : Option (ShapeT K) :=
  (findLink la r.linkname).map fun i => { name := r.name, stlname := r.stlname, link := some i, frame := ⟨r.pos, r.att⟩ }

/-- `shape_array_read_csv`: app/cad2ztk.c:94-124. -/
def readShapes (la : List (LinkT K)) (rows : List (ShapeRow K)) : Option (List (ShapeT K)) := rows.mapM (readShape la)

/-- Frame of a link from its parent, in metres: app/cad2ztk.c:420-424, and 344-348 for URDF. -/
def relFrame (la : List (LinkT K)) (l : LinkT K) : Option (Frame K) :=
  (match l.parent with
    | some j => (la[j]?).map fun p : LinkT K => p.frame.xformF l.frame
    | none => some l.frame).map fun f : Frame K => ⟨(1 / 1000 : K) • f.pos, f.att⟩

/-- Mass properties of a link with respect to its frame: app/cad2ztk.c:426-427, and 318-319 for URDF. -/
def relMP (l : LinkT K) : MP K := (l.mp.xformInv l.frame).gmm2kgm

/-- Names of the shapes of a link: app/cad2ztk.c:395-405. -/
def linkShapes (sa : List (ShapeT K)) (i : ℕ) : List String := (sa.filter (·.link == some i)).map (·.name)

/-- A section `[link]` of a ZTK file. -/
structure OutLink (K : Type*) where
  name : String
  jointtype : String
  frame : Frame K
  mp : MP K
  shapes : List String
  parent : Option String

/-- The line `parent` of a link: app/cad2ztk.c:430-431. -/
def parentName (la : List (LinkT K)) (l : LinkT K) : Option (Option String) :=
  match l.parent with
  | some j => (la[j]?).map fun p : LinkT K => some p.name
  | none => some none

/-- Body of the loop of `cad2ztk_output_ztk_link`: app/cad2ztk.c:415-432. -/
def outLink (la : List (LinkT K)) (sa : List (ShapeT K)) (i : ℕ) : Option (OutLink K) :=
  (la[i]?).bind fun l => (relFrame la l).bind fun f => (parentName la l).map fun parent =>
    { name := l.name, jointtype := l.jointtype, frame := f, mp := relMP l, shapes := linkShapes sa i, parent := parent }

/-- `cad2ztk_output_ztk_link`: app/cad2ztk.c:407-434. -/
def outZtk (la : List (LinkT K)) (sa : List (ShapeT K)) : Option (List (OutLink K)) :=
  (List.range la.length).mapM (outLink la sa)

/-- `cad2ztk_output_urdf_jointtype`: app/cad2ztk.c:274-289. -/
def urdfType (s : String) : Option String := ["fixed", "revolute", "prismatic", "float"].find? (· == s)

/-- A `joint` element of a URDF file. -/
structure OutJoint (K : Type*) where
  name : String
  type : String
  parent : String
  child : String
  xyz : Vec3 K
  rpy : Vec3 K

/-- Body of the loop of `cad2ztk_output_urdf_joint`: app/cad2ztk.c:340-356.  `none` is the printing of a null string at line
341.  `toZYX` is `zMat3DToZYX`. -/
def outJoint (toZYX : Mat3 K → Vec3 K) (la : List (LinkT K)) (l : LinkT K) : Option (OutJoint K) :=
  (urdfType l.jointtype).bind fun t => (relFrame la l).map fun f =>
    { name := l.name, type := t, parent := l.parentname, child := l.name, xyz := f.pos, rpy := toZYX f.att }

/-- The options: app/cad2ztk.c:161-184, after `zOptionRead`; `name` is the argument or the option of that name.  The names of
the directories have defaults. -/
structure Cmd where
  argc : ℕ
  help : Bool
  doc : Bool
  urdf : Bool
  name : Option String
  dir : String := "STL"
  orgdir : String := "STL_org"

/-- A file of a shape: app/cad2ztk.c:152-153, 301 and 391. -/
def stlFile (dir name : String) : String := dir ++ "/" ++ name ++ ".STL"

/-- A line of the script that converts the files of the shapes, app/cad2ztk.c:149-153: the frame that is printed (144-148, the
attitude row by row), whether `--` comes before the position and before the attitude, and the two files. -/
structure ScriptLine (K : Type*) where
  tneg : Bool
  rneg : Bool
  frame : Frame K
  src : String
  dst : String

/-- Body of the loop of `shape_array_output_stlconv_sh`: app/cad2ztk.c:142-153.  A printed number begins with `-` if it is negative
(zero with a sign is not modelled).  `none` is the access to the frame of a null link. -/
def scriptLine [LinearOrder K] (cmd : Cmd) (la : List (LinkT K)) (s : ShapeT K) : Option (ScriptLine K) :=
  (s.link.bind fun i => la[i]?).map fun l =>
    let f := l.frame.xformF s.frame
    { tneg := decide (f.pos.x < 0), rneg := decide (f.att.cx.x < 0), frame := f,
      src := stlFile cmd.orgdir s.stlname, dst := stlFile cmd.dir s.name }

/-- `shape_array_output_stlconv_sh`: app/cad2ztk.c:126-157.  The file can be opened; the two lines before the loop, which only
look for one directory and make the other, are left out. -/
def script [LinearOrder K] (cmd : Cmd) (la : List (LinkT K)) (sa : List (ShapeT K)) : Option (List (ScriptLine K)) :=
  sa.mapM (scriptLine cmd la)

/-- `cad2ztk_output_ztk_shape`: app/cad2ztk.c:381-393: the name of each shape and the file it is imported from. -/
def outShapes (cmd : Cmd) (sa : List (ShapeT K)) : List (String × String) :=
  sa.map fun s => (s.name, stlFile cmd.dir s.name)

/-- The meshes of a link in a URDF file: app/cad2ztk.c:291-306. -/
def linkMeshes (cmd : Cmd) (sa : List (ShapeT K)) (i : ℕ) : List String :=
  (sa.filter (·.link == some i)).map fun s => stlFile cmd.dir s.name

/-- `cad2ztk_output_urdf`: app/cad2ztk.c:360-377: names of the `link` elements with their mass properties (308-330) and meshes, and
the `joint` elements. -/
def outUrdf (toZYX : Mat3 K → Vec3 K) (cmd : Cmd) (la : List (LinkT K)) (sa : List (ShapeT K)) :
    Option (List (String × MP K × List String) × List (OutJoint K)) := do
  let js ← la.mapM (outJoint toZYX la)
  some ((List.range la.length).zipWith (fun i l => (l.name, relMP l, linkMeshes cmd sa i)) la, js)

/-- What has been written when the program ends. -/
inductive Output (K : Type*)
  | nothing
  | ztk (script : List (ScriptLine K)) (name : String) (shapes : List (String × String)) (links : List (OutLink K))
  | urdf (script : List (ScriptLine K)) (name : String) (links : List (String × MP K × List String)) (joints : List (OutJoint K))

/-- How the program ends. -/
inductive Result (K : Type*)
  | exit (code : ℕ) (out : Output K)
  | undefined

/-- `cad2ztk_how_to_use`: app/cad2ztk.c:193-244.  `some code` is a call of `exit` with that code (line 243), `none` a
return to the caller. -/
def howToUse : Option ℕ := some 0

/-- `main` from line 468 on: app/cad2ztk.c:468-491, with `cad2ztk_read_cmdarg`, app/cad2ztk.c:246-265.  The CSV files are
null if they cannot be opened.  Output files can be opened. -/
def convert [LinearOrder K] (toZYX : Mat3 K → Vec3 K) (cmd : Cmd) (links : Option (List (LinkRow K)))
    (shapes : Option (List (ShapeRow K))) : Result K :=
  if cmd.argc < 2 then .exit 0 .nothing
  else if cmd.help then .exit 0 .nothing
  else match (if cmd.doc then howToUse else none) with
  | some code => .exit code .nothing
  | none => match cmd.name with
  | none => .exit 1 .nothing
  | some name => match links with
    | none => .exit 1 .nothing
    | some [] => .exit 1 .nothing
    | some rows =>
      let (la, ok) := assocParent (rows.map readLink)
      if !ok then .exit 0 .nothing
      else match shapes with
      | none => .exit 1 .nothing
      | some srows => match readShapes la srows with
        | none => .undefined
        | some sa => match script cmd la sa with
          | none => .undefined
          | some sc =>
            if cmd.urdf then match outUrdf toZYX cmd la sa with
              | none => .undefined
              | some (ls, js) => .exit 0 (.urdf sc name ls js)
            else match outZtk la sa with
              | none => .undefined
              | some ls => .exit 0 (.ztk sc name (outShapes cmd sa) ls)

/-- `main`: app/cad2ztk.c:460-492.  Line 466 calls `cad2ztk_how_to_use`. -/
def main [LinearOrder K] (toZYX : Mat3 K → Vec3 K) (cmd : Cmd) (links : Option (List (LinkRow K)))
    (shapes : Option (List (ShapeRow K))) : Result K :=
  match howToUse with
  | some code => .exit code .nothing
  | none => convert toZYX cmd links shapes

end Roki.Cad
