import Verif.Model.Body
import Verif.Model.Link
set_option autoImplicit false

/-!
# The tool `urdf2ztk`: correction of the frames, app/urdf2ztk.c

The joints below the root link form a tree: the first child of a joint is the first joint attached to its child link
(`joint->child->child`) and its sibling is the next joint attached to the same parent link.  A joint carries its child link.
Reading the XML file, materials, geometries and printing are not modelled.  Joints that are not connected to the root link
and joints without a child link are not in the tree.

`rot a` stands for the rotation matrix of the angle-axis vector that `zVec3DAAError` computes from the z axis and `a`.
-/

namespace Roki.Urdf
variable {K : Type*} [Field K]

/-- `shape_t`: app/urdf2ztk.c:18-25, only the name and the frames with respect to the link and to the world. -/
structure Shape (K : Type*) where
  name : String
  fl : Frame K
  fw : Frame K
deriving DecidableEq

/-- `joint_t` and the link at its child end: app/urdf2ztk.c:43-50 and 65-78.  `iw` is the member `_iw` of the link. -/
structure Joint (K : Type*) where
  name : String
  type : String
  fl : Frame K
  fw : Frame K
  axis : Vec3 K
  mp : MP K
  iw : Mat3 K
  shapes : List (Shape K)
deriving DecidableEq

/-- Body of `urdf2ztk_xform`: app/urdf2ztk.c:488-495.  `par` is the frame of the joint of the parent link, which the root
link does not have. -/
def xform1 (par : Option (Frame K)) (j : Joint K) : Joint K :=
  let fw := match par with
    | none => j.fl
    | some f => f.cascade j.fl
  { j with fw := fw, iw := fw.att.rot j.mp.inertia, shapes := j.shapes.map fun s => { s with fw := fw.cascade s.fl } }

/-- `urdf2ztk_xform`: app/urdf2ztk.c:480-499: the joint, then the joints attached to its child link, then its sibling. -/
def xform (par : Option (Frame K)) : LTree (Joint K) → LTree (Joint K)
  | .nil => .nil
  | .node j c s => .node (xform1 par j) (xform (some (xform1 par j).fw) c) (xform par s)

/-- Body of `urdf2ztk_xform_inv`: app/urdf2ztk.c:509-516.  The attitude used for the inertia tensor is that of the frame
with respect to the parent. -/
def xformInv1 (par : Option (Frame K)) (j : Joint K) : Joint K :=
  let fl := match par with
    | none => j.fw
    | some f => f.xformF j.fw
  { j with fl := fl, mp := { j.mp with inertia := fl.att.rotInv j.iw },
           shapes := j.shapes.map fun s => { s with fl := j.fw.xformF s.fw } }

/-- `urdf2ztk_xform_inv`: app/urdf2ztk.c:501-520. -/
def xformInv (par : Option (Frame K)) : LTree (Joint K) → LTree (Joint K)
  | .nil => .nil
  | .node j c s => .node (xformInv1 par j) (xformInv (some (xformInv1 par j).fw) c) (xformInv par s)

/-- `urdf2ztk_joint_is_revol`: app/urdf2ztk.c:536-539. -/
def isRevol (j : Joint K) : Bool := j.type == "revolute" || j.type == "continuous"

/-- `urdf2ztk_joint_is_prism`: app/urdf2ztk.c:541-544. -/
def isPrism (j : Joint K) : Bool := j.type == "prismatic"

/-- Body of the loop of `urdf2ztk_correct_frame` over the joints: app/urdf2ztk.c:562-567.  `zMat3DRotDRC` multiplies by the
rotation from the left, i.e. rotates about an axis in the world. -/
def realign (rot : Vec3 K → Mat3 K) (j : Joint K) : Joint K :=
  if isRevol j || isPrism j then { j with fw := ⟨j.fw.pos, (rot j.axis).mul j.fw.att⟩ } else j

/-- `urdf2ztk_correct_frame`: app/urdf2ztk.c:551-570, for the tree below the root link. -/
def correctFrame (rot : Vec3 K → Mat3 K) (T : LTree (Joint K)) : LTree (Joint K) :=
  xformInv none ((xform none T).map (realign rot))

end Roki.Urdf
