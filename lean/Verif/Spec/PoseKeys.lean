import Verif.Model.PoseKeys
set_option autoImplicit false

/-!
# What the lines of a section say about the place of a link

Independent of the tables of the program: the meaning of each line, one after the other.
-/

namespace Roki.Spec
variable {K : Type*} [Field K] [LinearOrder K] [Zm K]
open Roki.ZTK

/-- The keys that place a link. -/
def poseKeys : List String := ["pos", "att", "rot", "frame", "DH"]

/-- What one line does to the frame: `pos` and `att` give its parts, `rot` turns it, `frame` and `DH` give all of it; other lines
leave it.  `none`: the values cannot be read. -/
def place (z : PoseZeo K) (F : Frame K) (f : Fld K) : Option (Frame K) :=
  if f.key = "pos" then (vecTok f.val).map fun v => { F with pos := v }
  else if f.key = "att" then (matTok f.val).map fun m => { F with att := m }
  else if f.key = "rot" then (z.aa f.val).map fun a => { F with att := (Zm.fromAA a).mul F.att }
  else if f.key = "frame" then z.frame f.val
  else if f.key = "DH" then z.dh f.val
  else some F

/-- The lines one after the other. -/
def placeAll (z : PoseZeo K) : List (Fld K) → Frame K → Option (Frame K)
  | [], F => some F
  | f :: l, F => (place z F f).bind (placeAll z l)

/-- The lines in the order in which they are met: that of the file, or key by key. -/
def poseLines (o : Order) (sec : List (Fld K)) : List (Fld K) :=
  match o with
  | .file => sec
  | .table => poseKeys.flatMap fun k => sec.filter fun f => f.key == k

/-- A section without the lines that place the link. -/
def noPose (sec : List (Fld K)) : List (Fld K) := sec.filter fun f => f.key ∉ poseKeys

/-- A section with no other key for the place than `pos` and `att`, as the program writes them. -/
def Plain (sec : List (Fld K)) : Prop := ∀ f ∈ sec, f.key ≠ "rot" ∧ f.key ≠ "frame" ∧ f.key ≠ "DH"

/-- The link with another place. -/
def setOrg (s : FLink K) (F : Frame K) : FLink K := { s with link := { s.link with org := F } }

/-- The keys that place the base in the section of the pose. -/
def baseKeys : List String := ["pos", "att", "frame"]

/-- The lines that place the base in the order in which they are met. -/
def baseLines (o : Order) (sec : List (Fld K)) : List (Fld K) :=
  match o with
  | .file => sec.filter fun f => f.key ∈ baseKeys
  | .table => baseKeys.flatMap fun k => sec.filter fun f => f.key == k

end Roki.Spec
