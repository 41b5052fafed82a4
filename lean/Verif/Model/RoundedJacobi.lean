import Verif.Model.Rounded
import Verif.Model.Jacobi
set_option autoImplicit false

/-!
# Jacobian matrices with rounding

The functions of `Verif.Model.Jacobi` and the axes of joints of `Verif.Model.Joint` with the result of every addition and every multiplication rounded by a function
`rnd`, under the simplifications of `Verif.Model.Rounded`.  The loops over the links and columns, which do no arithmetic, are those of `Verif.Model.Jacobi`.
-/

namespace Roki.Rounded
variable (rnd : ℝ → ℝ)

/-- `zVec3DSub` (Zeo). -/
def sub (v w : Vec3 ℝ) : Vec3 ℝ := ⟨rnd (v.x - w.x), rnd (v.y - w.y), rnd (v.z - w.z)⟩

/-- Row `i` of an attitude matrix seen from frame `f`: `_rkJointSpherAxis` rk_joint_spher.c:145-149, `_rkJointFloatAxis` rk_joint_float.c:151-155,
`_rkJointBrFloatAxis` rk_joint_brfloat.c:161-165. -/
def rowAxis (att : Mat3 ℝ) (f : Frame ℝ) (i : ℕ) : Vec3 ℝ :=
  mulVec rnd f.att (match i with | 0 => att.tr.cx | 1 => att.tr.cy | _ => att.tr.cz)

/-- `rkJointAngAxis`: tables `_rk_joint_*_axis_ang` of each joint file (rk_joint_revol.c:137-139, rk_joint_prism.c:131-133, rk_joint_cylin.c:151-154,
rk_joint_hooke.c:168-180, rk_joint_spher.c:163-167, rk_joint_float.c:169-176, rk_joint_brfloat.c). -/
def angAxis (p : Prp ℝ) (i : ℕ) (f : Frame ℝ) : Option (Vec3 ℝ) :=
  match p, i with
  | .revol _, 0 => some f.att.cz
  | .cylin _, 1 => some f.att.cz
  | .hooke p, 0 => some (cat rnd (smul rnd (-p.s1) f.att.cx) p.c1 f.att.cz)
  | .hooke _, 1 => some f.att.cy
  | .spher p, 0 => some (rowAxis rnd p.att f 0)
  | .spher p, 1 => some (rowAxis rnd p.att f 1)
  | .spher p, 2 => some (rowAxis rnd p.att f 2)
  | .float p, 3 => some (rowAxis rnd p.att f 0)
  | .float p, 4 => some (rowAxis rnd p.att f 1)
  | .float p, 5 => some (rowAxis rnd p.att f 2)
  | .brfloat p, 3 => some (rowAxis rnd p.att f 0)
  | .brfloat p, 4 => some (rowAxis rnd p.att f 1)
  | .brfloat p, 5 => some (rowAxis rnd p.att f 2)
  | _, _ => none

/-- `rkJointLinAxis`: tables `_rk_joint_*_axis_lin` of each joint file. -/
def linAxis (p : Prp ℝ) (i : ℕ) (f : Frame ℝ) : Option (Vec3 ℝ) :=
  match p, i with
  | .prism _, 0 => some f.att.cz
  | .cylin _, 0 => some f.att.cz
  | .float p, 0 => some (rowAxis rnd p.att f 0)
  | .float p, 1 => some (rowAxis rnd p.att f 1)
  | .float p, 2 => some (rowAxis rnd p.att f 2)
  | .brfloat p, 0 => some (rowAxis rnd p.att f 0)
  | .brfloat p, 1 => some (rowAxis rnd p.att f 1)
  | .brfloat p, 2 => some (rowAxis rnd p.att f 2)
  | _, _ => none

/-- `_rkJacobiLinCol`, src/rk_jacobi.c:48-58, with the world frame of the link. -/
def linCol (l : Link ℝ) (p : Vec3 ℝ) (i : ℕ) : Option (Vec3 ℝ) :=
  match linAxis rnd l.joint.prp i l.body.frame with
  | some s => some s
  | none =>
    match angAxis rnd l.joint.prp i l.body.frame with
    | some a => some (outer rnd a (sub rnd p l.body.frame.pos))
    | none => none

/-- `rkJointAngAxis( rkLinkJoint(l), i, rkLinkWldFrame(l), s )`. -/
def angCol (l : Link ℝ) (i : ℕ) : Option (Vec3 ℝ) := angAxis rnd l.joint.prp i l.body.frame

/-- `rkChainLinkWldAngJacobi`, src/rk_jacobi.c:69-80. -/
noncomputable def wldAng (c : Chain ℝ) (id : ℕ) (m : Jacobi.Mat ℝ) : Option (Jacobi.Mat ℝ) :=
  (c.shape.pathUp id).bind fun p => Jacobi.walk (fun l m => Jacobi.colLoop Jacobi.opSet l (angCol rnd l) m) c.link p (Jacobi.zero m)

/-- `rkChainLinkWldLinJacobi`, src/rk_jacobi.c:83-95. -/
noncomputable def wldLin (c : Chain ℝ) (id : ℕ) (p : Vec3 ℝ) (m : Jacobi.Mat ℝ) : Option (Jacobi.Mat ℝ) := do
  let l : Link ℝ ← c.link[id]?
  let tp := xform rnd l.body.frame p
  (c.shape.pathUp id).bind fun path => Jacobi.walk (fun l m => Jacobi.colLoop Jacobi.opSet l (linCol rnd l tp) m) c.link path (Jacobi.zero m)

end Roki.Rounded
