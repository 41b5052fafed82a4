import Verif.Model.Geom
set_option autoImplicit false

/-!
# The tools `chain2mshape`, `mshape2chain` and `chain2gp`

Files are given by what is read from them.  Of a robot this is the set of shapes of the chain, which may be missing, and for every
link its frame after `rkChainReadZTK` (which ends with forward kinematics) and its list of pointers to shapes, given by the places of the
shapes in the set.  Optical properties are not modelled.  `zShape3DClone` (Zeo) keeps the name of a shape.
-/

namespace Roki.Convert
variable {K σ : Type*} [Field K]

/-- A shape with its name. -/
structure NShape (σ : Type*) where
  name : String
  solid : σ
deriving DecidableEq

/-- A robot as the tools see it: `rkChainShape` and, for every link, `rkLinkWldFrame` and `rkLinkShapeList`. -/
structure Robot (K σ : Type*) where
  mshape : Option (List (NShape σ))
  link : List (Frame K × List ℕ)

section
variable [ShapeOps K σ]

/-- The clone of the shape with the index `i`, moved by `f`: app/chain2mshape.c:27-28. -/
def moved (ss : List (NShape σ)) (f : Frame K) (i : ℕ) : Option (NShape σ) :=
  ss[i]?.map fun s => ⟨s.name, ShapeOps.xform f s.solid⟩

/-- The loop over the shapes of a link: app/chain2mshape.c:26-32. -/
def writeShapes (ss : List (NShape σ)) (f : Frame K) : List ℕ → Option (List (NShape σ))
  | [] => some []
  | i :: is => do
    let s ← moved ss f i
    let r ← writeShapes ss f is
    pure (s :: r)

/-- The loop over the links: app/chain2mshape.c:24-33. -/
def writeLinks (ss : List (NShape σ)) : List (Frame K × List ℕ) → Option (List (NShape σ))
  | [] => some []
  | l :: ls => do
    let a ← writeShapes ss l.1 l.2
    let b ← writeLinks ss ls
    pure (a ++ b)

/-- `chain2mshapeConvert`: app/chain2mshape.c:9-37, the shapes in the file that it writes.  `none` if the behaviour is undefined: the number
of optical infos of a null pointer is asked for at line 20. -/
def chain2mshape (r : Robot K σ) : Option (List (NShape σ)) := r.mshape.bind fun ss => writeLinks ss r.link

end

/-- A robot file with one link, as `mshape2chain` writes it: the name of the chain, the shapes, the name of the link and the names of its
shapes. -/
structure RobotText (σ : Type*) where
  chain : String
  shapes : List (NShape σ)
  link : String
  use : List String

/-- `mshape2chainConvert`: app/mshape2chain.c:9-27. -/
def mshape2chain (basename : String) (ss : List (NShape σ)) : RobotText σ := ⟨basename, ss, "base", ss.map fun s => s.name⟩

/-- How `rkChainReadZTK` reads such a file: `_rkLinkShapeFromZTK` (src/rk_link.c:299-307) looks for the first shape with the name; the link has
no `frame` and no `jointtype`, so that it stays at the origin.  There is no set of shapes if the file has none (src/rk_chain.c:760-766), and a
name that is not found is an error. -/
def readRobot (t : RobotText σ) : Option (Robot K σ) :=
  (t.use.mapM fun n => t.shapes.findIdx? fun s => s.name == n).map fun is =>
    ⟨if t.shapes.isEmpty then none else some t.shapes, [(Frame.ident, is)]⟩

/-- What is in a file. -/
inductive Text (K σ : Type*)
  | robot (r : Robot K σ)
  | mshape (ss : List (NShape σ))
  | text (t : RobotText σ)

section
variable [ShapeOps K σ]

/-- `main` of `chain2mshape`: app/chain2mshape.c:39-51.  `fs` are the files by their names; `base` is `zGetBasename` (ZEDA) and `ztk` the name
of the file that `zOpenZTKFile` (ZEDA) opens.  The result are the files afterwards; `none` if the behaviour is undefined.  A file that is not
there or is not that of a robot is refused. -/
def chain2mshapeMain (base ztk : String → String) (fs : String → Option (Text K σ)) (arg : String) : Option (String → Option (Text K σ)) :=
  match fs arg with
  | some (.robot r) => (chain2mshape r).map fun ss => Function.update fs (ztk (base arg)) (some (.mshape ss))
  | _ => some fs

end

/-- `main` of `mshape2chain`: app/mshape2chain.c:29-41, as `chain2mshapeMain`. -/
def mshape2chainMain (base ztk : String → String) (fs : String → Option (Text K σ)) (arg : String) : String → Option (Text K σ) :=
  match fs arg with
  | some (.mshape ss) => Function.update fs (ztk (base arg)) (some (.text (mshape2chain (base arg) ss)))
  | _ => fs

/-- What `chain2gp` prints for a face: rows of points, app/chain2gp.c:14-19. -/
def gpFace (t : Vec3 K × Vec3 K × Vec3 K) : List (List (Vec3 K)) := [[t.1, t.2.1], [t.2.2, t.2.2]]

section
variable [ShapeOps K σ]

/-- `output_shape`: app/chain2gp.c:9-21.  `face` are the faces (`zShape3DFaceVert`) of a polyhedron; for another shape the macros read it
as if it were one, which is undefined. -/
def gpShape (face : σ → Option (List (Vec3 K × Vec3 K × Vec3 K))) (s : σ) : Option (List (List (List (Vec3 K)))) :=
  (face s).map fun ts => ts.map gpFace

/-- The loop over the shapes of a link: app/chain2gp.c:36-41. -/
def gpShapes (face : σ → Option (List (Vec3 K × Vec3 K × Vec3 K))) (ss : List (NShape σ)) (f : Frame K) :
    List ℕ → Option (List (List (List (Vec3 K))))
  | [] => some []
  | i :: is => (moved ss f i).bind fun s => (gpShape face s.solid).bind fun a => (gpShapes face ss f is).map fun b => a ++ b

/-- The loop over the links: app/chain2gp.c:33-42. -/
def gpLinks (face : σ → Option (List (Vec3 K × Vec3 K × Vec3 K))) (ss : List (NShape σ)) :
    List (Frame K × List ℕ) → Option (List (List (List (Vec3 K))))
  | [] => some []
  | l :: ls => do
    let a ← gpShapes face ss l.1 l.2
    let b ← gpLinks face ss ls
    pure (a ++ b)

/-- `conv_chain`: app/chain2gp.c:23-44.  The lists of shapes of a chain without shapes are empty. -/
def chain2gp (face : σ → Option (List (Vec3 K × Vec3 K × Vec3 K))) (r : Robot K σ) : Option (List (List (List (Vec3 K)))) :=
  gpLinks face (r.mshape.getD []) r.link

end
end Roki.Convert
