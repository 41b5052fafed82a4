import Verif.Model.ChainTree
import Mathlib.Data.Real.Basic
set_option autoImplicit false

/-!
# Forward kinematics and velocities with rounding

The functions of `Verif.Model.Link` and `Verif.Model.Joint` that forward kinematics and the update of velocities use, with the result of every addition and every multiplication
rounded by a function `rnd`.  Simplification: rounding is a function of the exact result (no extended precision, no fused multiply-add); changing the sign
is exact.  Sums of three terms are added from left to right; Zeo, which does these sums, is not part of the repository.
-/

namespace Roki.Rounded
variable (rnd : ℝ → ℝ)

/-- `zVec3DMul` (Zeo). -/
def smul (k : ℝ) (v : Vec3 ℝ) : Vec3 ℝ := ⟨rnd (k * v.x), rnd (k * v.y), rnd (k * v.z)⟩

/-- `zVec3DAdd` (Zeo). -/
def add (v w : Vec3 ℝ) : Vec3 ℝ := ⟨rnd (v.x + w.x), rnd (v.y + w.y), rnd (v.z + w.z)⟩

/-- `zMulMat3DVec3D` (Zeo). -/
def mulVec (A : Mat3 ℝ) (p : Vec3 ℝ) : Vec3 ℝ := add rnd (add rnd (smul rnd p.x A.cx) (smul rnd p.y A.cy)) (smul rnd p.z A.cz)

/-- `zMulMat3DMat3D` (Zeo). -/
def mul (A B : Mat3 ℝ) : Mat3 ℝ := ⟨mulVec rnd A B.cx, mulVec rnd A B.cy, mulVec rnd A B.cz⟩

/-- `zXform3D` (Zeo). -/
def xform (f : Frame ℝ) (p : Vec3 ℝ) : Vec3 ℝ := add rnd (mulVec rnd f.att p) f.pos

/-- `zFrame3DCascade` (Zeo). -/
def cascade (f g : Frame ℝ) : Frame ℝ := ⟨xform rnd f g.pos, mul rnd f.att g.att⟩

/-- `zVec3DCat` (Zeo). -/
def cat (a : Vec3 ℝ) (k : ℝ) (b : Vec3 ℝ) : Vec3 ℝ := add rnd a (smul rnd k b)

/-- The rotation in src/rk_joint_revol.c:98-109 and src/rk_joint_cylin.c:106-117. -/
def rotZ (s c : ℝ) (m : Mat3 ℝ) : Mat3 ℝ :=
  ⟨add rnd (smul rnd c m.cx) (smul rnd s m.cy), add rnd (smul rnd (-s) m.cx) (smul rnd c m.cy), m.cz⟩

/-- The matrix of src/rk_joint_hooke.c:111-120. -/
def zyMat (s0 c0 s1 c1 : ℝ) : Mat3 ℝ :=
  ⟨⟨rnd (c0 * c1), rnd (s0 * c1), -s1⟩, ⟨-s0, c0, 0⟩, ⟨rnd (c0 * s1), rnd (s0 * s1), c1⟩⟩

/-- `rkJointXform`: rk_joint_fixed.c:25-29, rk_joint_revol.c:98-109, rk_joint_prism.c:96-101, rk_joint_cylin.c:106-117,
rk_joint_hooke.c:111-120, rk_joint_spher.c:105-109, rk_joint_float.c:106-112, rk_joint_brfloat.c:115-121. -/
def jointXform (p : Prp ℝ) (fo : Frame ℝ) : Frame ℝ :=
  match p with
  | .fixed => fo
  | .revol p => ⟨fo.pos, rotZ rnd p.s p.c fo.att⟩
  | .prism p => ⟨cat rnd fo.pos p.dis fo.att.cz, fo.att⟩
  | .cylin p => ⟨cat rnd fo.pos p.dis0 fo.att.cz, rotZ rnd p.s1 p.c1 fo.att⟩
  | .hooke p => ⟨fo.pos, mul rnd fo.att (zyMat rnd p.s0 p.c0 p.s1 p.c1)⟩
  | .spher p => ⟨fo.pos, mul rnd fo.att p.att⟩
  | .float p => ⟨xform rnd fo p.dis.lin, mul rnd fo.att p.att⟩
  | .brfloat p => ⟨xform rnd fo p.dis.lin, mul rnd fo.att p.att⟩

/-- The work of `rkLinkUpdateFrame` on one link, src/rk_link.c:120-122. -/
noncomputable def updateFrame1 (l : Link ℝ) (pwf : Frame ℝ) : Link ℝ :=
  let adj := jointXform rnd l.joint.prp l.org
  let frame := cascade rnd pwf adj
  { l with adj := adj, body := { l.body with frame := frame, wldCOM := xform rnd frame l.body.mp.com } }

/-- `rkChainUpdateFrame` (include/roki/rk_chain.h) by `rkLinkUpdateFrame`, src/rk_link.c:118-128. -/
noncomputable def updateFrame (c : Chain ℝ) : Option (Chain ℝ) :=
  (Chain.downAt (fun pwf l => updateFrame1 rnd l pwf) (fun l => l.body.frame) none c.shape Frame.ident c.link).map fun ls => { c with link := ls }

/-! ## Velocities -/

/-- `zVec3DOuterProd` (Zeo). -/
def outer (a b : Vec3 ℝ) : Vec3 ℝ :=
  ⟨rnd (rnd (a.y * b.z) - rnd (a.z * b.y)), rnd (rnd (a.z * b.x) - rnd (a.x * b.z)), rnd (rnd (a.x * b.y) - rnd (a.y * b.x))⟩

/-- `zVec3DInnerProd` (Zeo). -/
def inner (a b : Vec3 ℝ) : ℝ := rnd (rnd (rnd (a.x * b.x) + rnd (a.y * b.y)) + rnd (a.z * b.z))

/-- `zMulMat3DTVec3D` (Zeo). -/
def mulVecT (A : Mat3 ℝ) (p : Vec3 ℝ) : Vec3 ℝ := ⟨inner rnd A.cx p, inner rnd A.cy p, inner rnd A.cz p⟩

/-- `zXform6DLin` (Zeo). -/
def xform6Lin (f : Frame ℝ) (u : Vec6 ℝ) : Vec6 ℝ := ⟨mulVecT rnd f.att (add rnd u.lin (outer rnd u.ang f.pos)), mulVecT rnd f.att u.ang⟩

/-- `rkJointIncVel`: rk_joint_fixed.c:32, rk_joint_revol.c:112-114, rk_joint_prism.c:104-106, rk_joint_cylin.c:120-123, rk_joint_hooke.c:123-127,
rk_joint_spher.c:112-116, rk_joint_float.c:115-119, rk_joint_brfloat.c:124-128. -/
def incVel (p : Prp ℝ) (u : Vec6 ℝ) : Vec6 ℝ :=
  match p with
  | .fixed => u
  | .revol p => ⟨u.lin, ⟨u.ang.x, u.ang.y, rnd (u.ang.z + p.vel)⟩⟩
  | .prism p => ⟨⟨u.lin.x, u.lin.y, rnd (u.lin.z + p.vel)⟩, u.ang⟩
  | .cylin p => ⟨⟨u.lin.x, u.lin.y, rnd (u.lin.z + p.vel0)⟩, ⟨u.ang.x, u.ang.y, rnd (u.ang.z + p.vel1)⟩⟩
  | .hooke p => ⟨u.lin, add rnd u.ang ⟨rnd (-p.s1 * p.vel0), p.vel1, rnd (p.c1 * p.vel0)⟩⟩
  | .spher p => ⟨u.lin, add rnd u.ang (mulVecT rnd p.att p.vel)⟩
  | .float p => ⟨add rnd u.lin (mulVecT rnd p.att p.vel.lin), add rnd u.ang (mulVecT rnd p.att p.vel.ang)⟩
  | .brfloat p => ⟨add rnd u.lin (mulVecT rnd p.att p.vel.lin), add rnd u.ang (mulVecT rnd p.att p.vel.ang)⟩

/-- `_rkLinkUpdateVel`, src/rk_link.c:130-138, with `rkBodyUpdateCOMVel`, src/rk_body.c:222-229. -/
noncomputable def updateVel1 (l : Link ℝ) (pvel : Vec6 ℝ) : Link ℝ :=
  let vel := incVel rnd l.joint.prp (xform6Lin rnd l.adj pvel)
  { l with body := { l.body with vel := vel, comVel := add rnd vel.lin (outer rnd vel.ang l.body.mp.com) } }

/-- `rkChainUpdateVel` (include/roki/rk_chain.h:261-262) by `rkLinkUpdateVel`, src/rk_link.c:140-147. -/
noncomputable def updateVel (c : Chain ℝ) : Option (Chain ℝ) :=
  (Chain.downAt (fun pvel l => updateVel1 rnd l pvel) (fun l => l.body.vel) none c.shape 0 c.link).map fun ls => { c with link := ls }

end Roki.Rounded
