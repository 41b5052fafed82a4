import Verif.Model.ChainTree
import Mathlib.Data.Real.Basic
set_option autoImplicit false

/-!
# Inverse dynamics in an arithmetic of one's own

The functions of `Verif.Model.Vec`, `Verif.Model.Joint`, `Verif.Model.Body`, `Verif.Model.Link` and `Verif.Model.ChainTree` that forward kinematics and inverse
dynamics use, with the sum, the difference, the product, the quotient and the change of sign as parameters.  Simplifications as in `Verif.Model.Rounded`: an operation is a
function of its operands (no extended precision, no fused multiply-add), and sums of three terms are added from left to right, as Zeo, which does these sums,
is not part of the repository.
-/

namespace Roki

/-- The operations `+`, `-`, `*`, `/` and the change of sign on numbers. -/
structure Arith where
  add : ℝ → ℝ → ℝ
  sub : ℝ → ℝ → ℝ
  mul : ℝ → ℝ → ℝ
  div : ℝ → ℝ → ℝ
  neg : ℝ → ℝ

namespace Arith

/-- Exact arithmetic. -/
noncomputable def exact : Arith := ⟨fun a b => a + b, fun a b => a - b, fun a b => a * b, fun a b => a / b, fun a => -a⟩

/-- Every result is rounded; a change of sign is exact. -/
noncomputable def rounded (rnd : ℝ → ℝ) : Arith := ⟨fun a b => rnd (a + b), fun a b => rnd (a - b), fun a b => rnd (a * b), fun a b => rnd (a / b), fun a => -a⟩

variable (A : Arith)

/-- `zVec3DAdd` (Zeo). -/
def vadd (a b : Vec3 ℝ) : Vec3 ℝ := ⟨A.add a.x b.x, A.add a.y b.y, A.add a.z b.z⟩
/-- `zVec3DSub` (Zeo). -/
def vsub (a b : Vec3 ℝ) : Vec3 ℝ := ⟨A.sub a.x b.x, A.sub a.y b.y, A.sub a.z b.z⟩
/-- `zVec3DMul` (Zeo). -/
def smul (k : ℝ) (a : Vec3 ℝ) : Vec3 ℝ := ⟨A.mul k a.x, A.mul k a.y, A.mul k a.z⟩
/-- `zVec3DInnerProd` (Zeo). -/
def dot (a b : Vec3 ℝ) : ℝ := A.add (A.add (A.mul a.x b.x) (A.mul a.y b.y)) (A.mul a.z b.z)
/-- `zVec3DOuterProd` (Zeo). -/
def cross (a b : Vec3 ℝ) : Vec3 ℝ :=
  ⟨A.sub (A.mul a.y b.z) (A.mul a.z b.y), A.sub (A.mul a.z b.x) (A.mul a.x b.z), A.sub (A.mul a.x b.y) (A.mul a.y b.x)⟩
/-- `zVec3DCat` (Zeo). -/
def cat (a : Vec3 ℝ) (k : ℝ) (b : Vec3 ℝ) : Vec3 ℝ := A.vadd a (A.smul k b)
/-- `zMulMat3DVec3D` (Zeo). -/
def mulVec (m : Mat3 ℝ) (v : Vec3 ℝ) : Vec3 ℝ := A.vadd (A.vadd (A.smul v.x m.cx) (A.smul v.y m.cy)) (A.smul v.z m.cz)
/-- `zMulMat3DTVec3D` (Zeo). -/
def mulVecT (m : Mat3 ℝ) (v : Vec3 ℝ) : Vec3 ℝ := ⟨A.dot m.cx v, A.dot m.cy v, A.dot m.cz v⟩
/-- `zMulMat3DMat3D` (Zeo). -/
def mmul (m n : Mat3 ℝ) : Mat3 ℝ := ⟨A.mulVec m n.cx, A.mulVec m n.cy, A.mulVec m n.cz⟩
/-- `zVec6DAdd` (Zeo). -/
def add6 (a b : Vec6 ℝ) : Vec6 ℝ := ⟨A.vadd a.lin b.lin, A.vadd a.ang b.ang⟩
/-- `zVec6DSub` (Zeo). -/
def sub6 (a b : Vec6 ℝ) : Vec6 ℝ := ⟨A.vsub a.lin b.lin, A.vsub a.ang b.ang⟩
/-- `zMulMat3DVec6D` (Zeo). -/
def mulVec6 (m : Mat3 ℝ) (v : Vec6 ℝ) : Vec6 ℝ := ⟨A.mulVec m v.lin, A.mulVec m v.ang⟩
/-- `zMulMat3DTVec6D` (Zeo). -/
def mulVecT6 (m : Mat3 ℝ) (v : Vec6 ℝ) : Vec6 ℝ := ⟨A.mulVecT m v.lin, A.mulVecT m v.ang⟩
/-- `zVec6DLinShift` (Zeo). -/
def linShift (v : Vec6 ℝ) (p : Vec3 ℝ) : Vec6 ℝ := ⟨A.vadd v.lin (A.cross v.ang p), v.ang⟩
/-- `zVec6DAngShift` (Zeo). -/
def angShift (w : Vec6 ℝ) (p : Vec3 ℝ) : Vec6 ℝ := ⟨w.lin, A.vadd w.ang (A.cross p w.lin)⟩
/-- `zFrame3DCascade` (Zeo). -/
def cascade (f g : Frame ℝ) : Frame ℝ := ⟨A.vadd f.pos (A.mulVec f.att g.pos), A.mmul f.att g.att⟩
/-- `zXform3D` (Zeo). -/
def xform (f : Frame ℝ) (p : Vec3 ℝ) : Vec3 ℝ := A.vadd (A.mulVec f.att p) f.pos
/-- `zXform3DInv` (Zeo). -/
def xformInv (f : Frame ℝ) (p : Vec3 ℝ) : Vec3 ℝ := A.mulVecT f.att (A.vsub p f.pos)
/-- `zXform6DLin` (Zeo). -/
def xform6Lin (f : Frame ℝ) (v : Vec6 ℝ) : Vec6 ℝ := A.mulVecT6 f.att (A.linShift v f.pos)
/-- `zXform6DAng` (Zeo). -/
def xform6Ang (f : Frame ℝ) (w : Vec6 ℝ) : Vec6 ℝ := A.angShift (A.mulVec6 f.att w) f.pos

/-! ## Joints -/

/-- The rotation in src/rk_joint_revol.c:98-109 and src/rk_joint_cylin.c:106-117. -/
def rotZ (s c : ℝ) (m : Mat3 ℝ) : Mat3 ℝ :=
  ⟨A.vadd (A.smul c m.cx) (A.smul s m.cy), A.vadd (A.smul (A.neg s) m.cx) (A.smul c m.cy), m.cz⟩

/-- The matrix of src/rk_joint_hooke.c:111-120. -/
def zyMat (s0 c0 s1 c1 : ℝ) : Mat3 ℝ :=
  ⟨⟨A.mul c0 c1, A.mul s0 c1, A.neg s1⟩, ⟨A.neg s0, c0, 0⟩, ⟨A.mul c0 s1, A.mul s0 s1, c1⟩⟩

/-- `rkJointXform`: rk_joint_fixed.c:25-29, rk_joint_revol.c:98-109, rk_joint_prism.c:96-101, rk_joint_cylin.c:106-117,
rk_joint_hooke.c:111-120, rk_joint_spher.c:105-109, rk_joint_float.c:106-112, rk_joint_brfloat.c:115-121. -/
def jointXform (p : Prp ℝ) (fo : Frame ℝ) : Frame ℝ :=
  match p with
  | .fixed => fo
  | .revol p => ⟨fo.pos, A.rotZ p.s p.c fo.att⟩
  | .prism p => ⟨A.cat fo.pos p.dis fo.att.cz, fo.att⟩
  | .cylin p => ⟨A.cat fo.pos p.dis0 fo.att.cz, A.rotZ p.s1 p.c1 fo.att⟩
  | .hooke p => ⟨fo.pos, A.mmul fo.att (A.zyMat p.s0 p.c0 p.s1 p.c1)⟩
  | .spher p => ⟨fo.pos, A.mmul fo.att p.att⟩
  | .float p => ⟨A.xform fo p.dis.lin, A.mmul fo.att p.att⟩
  | .brfloat p => ⟨A.xform fo p.dis.lin, A.mmul fo.att p.att⟩

/-- `rkJointIncVel`: rk_joint_fixed.c:32, rk_joint_revol.c:112-114, rk_joint_prism.c:104-106, rk_joint_cylin.c:120-123, rk_joint_hooke.c:123-127,
rk_joint_spher.c:112-116, rk_joint_float.c:115-119, rk_joint_brfloat.c:124-128. -/
def incVel (p : Prp ℝ) (u : Vec6 ℝ) : Vec6 ℝ :=
  match p with
  | .fixed => u
  | .revol p => ⟨u.lin, ⟨u.ang.x, u.ang.y, A.add u.ang.z p.vel⟩⟩
  | .prism p => ⟨⟨u.lin.x, u.lin.y, A.add u.lin.z p.vel⟩, u.ang⟩
  | .cylin p => ⟨⟨u.lin.x, u.lin.y, A.add u.lin.z p.vel0⟩, ⟨u.ang.x, u.ang.y, A.add u.ang.z p.vel1⟩⟩
  | .hooke p => ⟨u.lin, A.vadd u.ang ⟨A.mul (A.neg p.s1) p.vel0, p.vel1, A.mul p.c1 p.vel0⟩⟩
  | .spher p => ⟨u.lin, A.vadd u.ang (A.mulVecT p.att p.vel)⟩
  | .float p => A.add6 u (A.mulVecT6 p.att p.vel)
  | .brfloat p => A.add6 u (A.mulVecT6 p.att p.vel)

/-- `rkJointIncAccOnVel`: rk_joint_fixed.c:33, rk_joint_revol.c:116-119, rk_joint_prism.c:108-111, rk_joint_cylin.c:125-130, rk_joint_hooke.c:129-138,
rk_joint_spher.c:118-123, rk_joint_float.c:121-130, rk_joint_brfloat.c:130-140. -/
def incAccOnVel (p : Prp ℝ) (w : Vec3 ℝ) (a : Vec6 ℝ) : Vec6 ℝ :=
  match p with
  | .fixed => a
  | .revol p => ⟨a.lin, ⟨A.add a.ang.x (A.mul p.vel w.y), A.sub a.ang.y (A.mul p.vel w.x), a.ang.z⟩⟩
  | .prism p => ⟨⟨A.add a.lin.x (A.mul (A.mul 2 p.vel) w.y), A.sub a.lin.y (A.mul (A.mul 2 p.vel) w.x), a.lin.z⟩, a.ang⟩
  | .cylin p =>
    ⟨⟨A.add a.lin.x (A.mul (A.mul 2 p.vel0) w.y), A.sub a.lin.y (A.mul (A.mul 2 p.vel0) w.x), a.lin.z⟩,
     ⟨A.add a.ang.x (A.mul p.vel1 w.y), A.sub a.ang.y (A.mul p.vel1 w.x), a.ang.z⟩⟩
  | .hooke p =>
    ⟨a.lin, A.vadd (A.vadd a.ang (A.cross w ⟨A.mul (A.neg p.s1) p.vel0, p.vel1, A.mul p.c1 p.vel0⟩))
      ⟨A.mul (A.neg p.c1) (A.mul p.vel0 p.vel1), 0, A.mul (A.neg p.s1) (A.mul p.vel0 p.vel1)⟩⟩
  | .spher p => ⟨a.lin, A.vadd a.ang (A.cross w (A.mulVecT p.att p.vel))⟩
  | .float p => ⟨A.cat a.lin 2 (A.cross w (A.mulVecT p.att p.vel.lin)), A.vadd a.ang (A.cross w (A.mulVecT p.att p.vel.ang))⟩
  | .brfloat p => ⟨A.cat a.lin 2 (A.cross w (A.mulVecT p.att p.vel.lin)), A.vadd a.ang (A.cross w (A.mulVecT p.att p.vel.ang))⟩

/-- `rkJointIncAcc`: rk_joint_fixed.c:34, rk_joint_revol.c:122-124, rk_joint_prism.c:114-116, rk_joint_cylin.c:133-136, rk_joint_hooke.c:140-144,
rk_joint_spher.c:126-130, rk_joint_float.c:133-137, rk_joint_brfloat.c:143-147. -/
def incAcc (p : Prp ℝ) (a : Vec6 ℝ) : Vec6 ℝ :=
  match p with
  | .fixed => a
  | .revol p => ⟨a.lin, ⟨a.ang.x, a.ang.y, A.add a.ang.z p.acc⟩⟩
  | .prism p => ⟨⟨a.lin.x, a.lin.y, A.add a.lin.z p.acc⟩, a.ang⟩
  | .cylin p => ⟨⟨a.lin.x, a.lin.y, A.add a.lin.z p.acc0⟩, ⟨a.ang.x, a.ang.y, A.add a.ang.z p.acc1⟩⟩
  | .hooke p => ⟨a.lin, A.vadd a.ang ⟨A.mul (A.neg p.s1) p.acc0, p.acc1, A.mul p.c1 p.acc0⟩⟩
  | .spher p => ⟨a.lin, A.vadd a.ang (A.mulVecT p.att p.acc)⟩
  | .float p => A.add6 a (A.mulVecT6 p.att p.acc)
  | .brfloat p => A.add6 a (A.mulVecT6 p.att p.acc)

/-- `rkJointCalcTrq`: rk_joint_fixed.c:37, rk_joint_revol.c:127-129, rk_joint_prism.c:119-121, rk_joint_cylin.c:139-142, rk_joint_hooke.c:147-150,
rk_joint_spher.c:133-135, rk_joint_float.c:140-142, rk_joint_brfloat.c:150-152. -/
def calcTrq (p : Prp ℝ) (f : Vec6 ℝ) : Prp ℝ :=
  match p with
  | .fixed => .fixed
  | .revol p => .revol { p with trq := f.ang.z }
  | .prism p => .prism { p with trq := f.lin.z }
  | .cylin p => .cylin { p with trq0 := f.lin.z, trq1 := f.ang.z }
  | .hooke p => .hooke { p with trq0 := A.add (A.mul (A.neg p.s1) f.ang.x) (A.mul p.c1 f.ang.z), trq1 := f.ang.y }
  | .spher p => .spher { p with trq := A.mulVec p.att f.ang }
  | .float p => .float { p with trq := A.mulVec6 p.att f }
  | .brfloat p => .brfloat { p with trq := A.mulVec6 p.att f }

/-! ## Bodies and links -/

/-- `rkBodyUpdateCOMVel`, src/rk_body.c:222-229. -/
def comVel (b : Body ℝ) : Vec3 ℝ := A.vadd b.vel.lin (A.cross b.vel.ang b.mp.com)

/-- `rkBodyUpdateCOMAcc`, src/rk_body.c:232-241. -/
def comAcc (b : Body ℝ) : Vec3 ℝ :=
  A.vadd (A.vadd (A.cross b.vel.ang (A.cross b.vel.ang b.mp.com)) (A.cross b.acc.ang b.mp.com)) b.acc.lin

/-- `rkBodyNetWrench`, src/rk_body.c:251-261. -/
def netWrench (b : Body ℝ) : Vec6 ℝ :=
  ⟨A.smul b.mp.mass b.comAcc, A.vadd (A.cross b.vel.ang (A.mulVec b.mp.inertia b.vel.ang)) (A.mulVec b.mp.inertia b.acc.ang)⟩

/-- `rkWrenchListNet`, src/rk_force.c:31-42, with `rkWrenchShift`, src/rk_force.c:25-28. -/
def extWrench (l : WrenchList ℝ) : Vec6 ℝ := l.foldl (fun w c => A.add6 w (A.angShift c.w c.p)) 0

/-- The work of `rkLinkUpdateFrame` on one link, src/rk_link.c:120-122. -/
def updateFrame1 (l : Link ℝ) (pwf : Frame ℝ) : Link ℝ :=
  let adj := A.jointXform l.joint.prp l.org
  let frame := A.cascade pwf adj
  { l with adj := adj, body := { l.body with frame := frame, wldCOM := A.xform frame l.body.mp.com } }

/-- `_rkLinkUpdateVel`, src/rk_link.c:130-138. -/
def updateVel1 (l : Link ℝ) (pvel : Vec6 ℝ) : Link ℝ :=
  let b : Body ℝ := { l.body with vel := A.incVel l.joint.prp (A.xform6Lin l.adj pvel) }
  { l with body := { b with comVel := A.comVel b } }

/-- `_rkLinkUpdateAcc`, src/rk_link.c:149-165. -/
def updateAcc1 (l : Link ℝ) (pvel pacc : Vec6 ℝ) : Link ℝ :=
  let a0 := A.linShift pacc l.adj.pos
  let wp := A.cross pvel.ang l.adj.pos
  let a1 : Vec6 ℝ := ⟨A.vadd a0.lin (A.cross pvel.ang wp), a0.ang⟩
  let a2 := A.mulVecT6 l.adj.att a1
  let a3 := A.incAccOnVel l.joint.prp l.body.vel.ang a2
  let b : Body ℝ := { l.body with acc := A.incAcc l.joint.prp a3 }
  { l with body := { b with comAcc := A.comAcc b } }

/-- `rkLinkUpdateRate` on one link, src/rk_link.c:179-180. -/
def updateRate1 (l : Link ℝ) (pvel pacc : Vec6 ℝ) : Link ℝ := A.updateAcc1 (A.updateVel1 l pvel) pvel pacc

/-- The loop over the children of src/rk_link.c:199-202. -/
def addChildWrenchAt (w : Vec6 ℝ) (ls : List (Link ℝ)) : LTree ℕ → Option (Vec6 ℝ)
  | .nil => some w
  | .node i _ s =>
    match ls[i]? with
    | some l => addChildWrenchAt (A.add6 w (A.xform6Ang l.adj l.joint.wrench)) ls s
    | none => none

/-- `rkLinkUpdateWrench`, src/rk_link.c:188-211. -/
def updateWrenchAt : LTree ℕ → List (Link ℝ) → Option (List (Link ℝ))
  | .nil, ls => some ls
  | .node i c s, ls => do
    let l : Link ℝ ← ls[i]?
    let w0 := A.angShift (A.netWrench l.body) l.body.mp.com
    let ls1 ← updateWrenchAt c (ls.set i { l with joint := { l.joint with wrench := w0 } })
    let l1 : Link ℝ ← ls1[i]?
    let w1 ← A.addChildWrenchAt l1.joint.wrench ls1 c
    let w2 := A.sub6 w1 (A.extWrench l1.body.extw)
    updateWrenchAt s (ls1.set i { l1 with joint := ⟨A.calcTrq l1.joint.prp w2, w2⟩ })

/-- The joint torques of a robot: `rkChainUpdateFrame` (include/roki/rk_chain.h:259-260), as `rkChainUpdateFK` (src/rk_chain.c:353-357) does, then
`rkChainUpdateRate` and `rkChainUpdateWrench` (include/roki/rk_chain.h:265-268), as `rkChainUpdateID` (src/rk_chain.c:367-373) does.
The center of mass of the whole robot is left out. -/
noncomputable def invDyn (g : Vec6 ℝ) (c : Chain ℝ) : Option (Chain ℝ) := do
  let ls1 ← Chain.downAt (fun pwf l => A.updateFrame1 l pwf) (fun l => l.body.frame) none c.shape Frame.ident c.link
  let ls2 ← Chain.downAt (fun st l => A.updateRate1 l st.1 st.2) (fun l => (l.body.vel, l.body.acc)) none c.shape (0, g) ls1
  let ls3 ← A.updateWrenchAt c.shape ls2
  pure { c with link := ls3 }

/-! ## The whole robot -/

/-- `rkBodyAM`, src/rk_body.c:264-273. -/
def bodyAM (b : Body ℝ) (p : Vec3 ℝ) : Vec3 ℝ :=
  A.vadd (A.smul b.mp.mass (A.cross (A.vsub b.mp.com p) b.comVel)) (A.mulVec b.mp.inertia b.vel.ang)

/-- `rkBodyKE`, src/rk_body.c:276-285. -/
noncomputable def bodyKE (b : Body ℝ) : ℝ :=
  A.mul (A.add (A.dot b.vel.ang (A.mulVec b.mp.inertia b.vel.ang)) (A.mul b.mp.mass (A.dot b.comVel b.comVel))) (1 / 2)

/-- `rkChainCalcCOM`, src/rk_chain.c:402-411; `mass` is the stored total mass.  `zVec3DDivDRC` (Zeo) multiplies by the inverse. -/
def calcCOM (mass : ℝ) (ls : List (Link ℝ)) : Vec3 ℝ :=
  A.smul (A.div 1 mass) (ls.foldl (fun p l => A.cat p l.body.mp.mass l.body.wldCOM) 0)

/-- `rkChainCalcCOMVel`, src/rk_chain.c:414-428. -/
def calcCOMVel (mass : ℝ) (ls : List (Link ℝ)) : Vec3 ℝ :=
  ls.foldl (fun p l => A.cat p (A.div l.body.mp.mass mass) (A.mulVec l.body.frame.att l.body.comVel)) 0

/-- `rkChainCalcCOMAcc`, src/rk_chain.c:431-445. -/
def calcCOMAcc (mass : ℝ) (ls : List (Link ℝ)) : Vec3 ℝ :=
  ls.foldl (fun p l => A.cat p (A.div l.body.mp.mass mass) (A.mulVec l.body.frame.att l.body.comAcc)) 0

/-- `rkChainAM`, src/rk_chain.c:472-485. -/
def chainAM (ls : List (Link ℝ)) (p : Vec3 ℝ) : Vec3 ℝ :=
  ls.foldl (fun am l => A.vadd am (A.mulVec l.body.frame.att (A.bodyAM l.body (A.xformInv l.body.frame p)))) 0

/-- `rkChainKE`, src/rk_chain.c:488-496. -/
noncomputable def chainKE (ls : List (Link ℝ)) : ℝ := ls.foldl (fun e l => A.add e (A.bodyKE l.body)) 0

end Arith
end Roki
