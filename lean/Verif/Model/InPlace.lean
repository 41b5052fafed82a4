import Verif.Model.ABI
set_option autoImplicit false

/-!
# Functions that write their result through a pointer, statement by statement

The other models of these functions are functions from the operands to the result, which presumes that the result is written to an
object other than the operands.  Here objects live in a store, and a function is the sequence of the writes of its statements, each of
which sees the writes before.  A call of Zeo (`zVec3DMul`, `zXform3D`, `zMulMat3DMat3D`, ...) is one statement: it reads its operands
before it writes its result.
-/

namespace Roki.InPlace
variable {K : Type*} [Field K]

/-- Objects of one type by their addresses. -/
abbrev Store (α : Type*) := ℕ → α

/-- A write to a member of the object at `a`. -/
def Store.mod {α : Type*} (s : Store α) (a : ℕ) (g : α → α) : Store α := fun x => if x = a then g (s x) else s x

/-- Writes of the members of a frame. -/
def setPos (s : Store (Frame K)) (a : ℕ) (v : Vec3 K) : Store (Frame K) := s.mod a fun F => { F with pos := v }
/-- See `setPos`. -/
def setAtt (s : Store (Frame K)) (a : ℕ) (m : Mat3 K) : Store (Frame K) := s.mod a fun F => { F with att := m }
/-- See `setPos`: `v[0]` of the attitude. -/
def setX (s : Store (Frame K)) (a : ℕ) (v : Vec3 K) : Store (Frame K) := s.mod a fun F => { F with att := { F.att with cx := v } }
/-- See `setPos`: `v[1]` of the attitude. -/
def setY (s : Store (Frame K)) (a : ℕ) (v : Vec3 K) : Store (Frame K) := s.mod a fun F => { F with att := { F.att with cy := v } }
/-- See `setPos`: `v[2]` of the attitude. -/
def setZ (s : Store (Frame K)) (a : ℕ) (v : Vec3 K) : Store (Frame K) := s.mod a fun F => { F with att := { F.att with cz := v } }

/-- The five statements src/rk_joint_revol.c:103-107, which are also src/rk_joint_cylin.c:108-112. -/
def turnAt (sn cs : K) (fo f : ℕ) (s : Store (Frame K)) : Store (Frame K) :=
  let s := setX s f (cs • (s fo).att.cx)
  let s := setX s f (cat (s f).att.cx sn (s fo).att.cy)
  let s := setY s f (-sn • (s fo).att.cx)
  let s := setY s f (cat (s f).att.cy cs (s fo).att.cy)
  setZ s f (s fo).att.cz

/-- `rkJointXform`: src/rk_joint_fixed.c:25-29, src/rk_joint_revol.c:98-109, src/rk_joint_prism.c:96-101, src/rk_joint_cylin.c:106-117,
src/rk_joint_hooke.c:111-120, src/rk_joint_spher.c:105-109, src/rk_joint_float.c:106-112, src/rk_joint_brfloat.c:115-121. -/
def jointXform (p : Prp K) (fo f : ℕ) (s : Store (Frame K)) : Store (Frame K) :=
  match p with
  | .fixed => s.mod f fun _ => s fo
  | .revol d => turnAt d.s d.c fo f (setPos s f (s fo).pos)
  | .prism d =>
    let s := setPos s f (cat (s fo).pos d.dis (s fo).att.cz)
    setAtt s f (s fo).att
  | .cylin d =>
    let s := turnAt d.s1 d.c1 fo f s
    setPos s f (cat (s fo).pos d.dis0 (s fo).att.cz)
  | .hooke d =>
    let s := setPos s f (s fo).pos
    setAtt s f ((s fo).att.mul (Prp.zyMat d.s0 d.c0 d.s1 d.c1))
  | .spher d =>
    let s := setPos s f (s fo).pos
    setAtt s f ((s fo).att.mul d.att)
  | .float d =>
    let s := setPos s f ((s fo).xform d.dis.lin)
    setAtt s f ((s fo).att.mul d.att)
  | .brfloat d =>
    let s := setPos s f ((s fo).xform d.dis.lin)
    setAtt s f ((s fo).att.mul d.att)

/-- Writes of the members of mass properties. -/
def setMass (s : Store (MP K)) (a : ℕ) (m : K) : Store (MP K) := s.mod a fun p => { p with mass := m }
/-- See `setMass`. -/
def setCom (s : Store (MP K)) (a : ℕ) (v : Vec3 K) : Store (MP K) := s.mod a fun p => { p with com := v }
/-- See `setMass`. -/
def setInertia (s : Store (MP K)) (a : ℕ) (m : Mat3 K) : Store (MP K) := s.mod a fun p => { p with inertia := m }

/-- `rkMPXform`, src/rk_body.c:24-30. -/
def mpXform (src : ℕ) (F : Frame K) (dest : ℕ) (s : Store (MP K)) : Store (MP K) :=
  let s := setMass s dest (s src).mass
  let s := setCom s dest (F.xform (s src).com)
  setInertia s dest (Mat3.rot F.att (s src).inertia)

/-- `rkMPXformInv`, src/rk_body.c:33-39. -/
def mpXformInv (src : ℕ) (F : Frame K) (dest : ℕ) (s : Store (MP K)) : Store (MP K) :=
  let s := setMass s dest (s src).mass
  let s := setCom s dest (F.xformInv (s src).com)
  setInertia s dest (Mat3.rotInv F.att (s src).inertia)

/-- `rkMPCombine`, src/rk_body.c:62-80. -/
def mpCombine (p1 p2 p : ℕ) (s : Store (MP K)) : Store (MP K) :=
  let s := setMass s p ((s p1).mass + (s p2).mass)
  let r1 := ((s p1).mass / (s p).mass) • (s p1).com
  let r2 := ((s p2).mass / (s p).mass) • (s p2).com
  let s := setCom s p (r1 + r2)
  let r1 := (s p1).com - (s p).com
  let i1 := MP.shiftInertia (s p1).inertia (s p1).mass r1
  let r2 := (s p2).com - (s p).com
  let i2 := MP.shiftInertia (s p2).inertia (s p2).mass r2
  setInertia s p (i1 + i2)

/-- The frame argument of `rkBodyCombine`: an object of the caller, or the frame of a body. -/
inductive FrameArg (K : Type*)
  | own (F : Frame K)
  | body (a : ℕ)

/-- What the pointer to the frame points to. -/
def FrameArg.read (s : Store (Body K)) : FrameArg K → Frame K
  | .own F => F
  | .body a => (s a).frame

/-- `rkBodyCombine`, src/rk_body.c:188-200.  `mp1`, `mp2` and `df` are local. -/
def bodyCombine (b1 b2 : ℕ) (f : FrameArg K) (b : ℕ) (s : Store (Body K)) : Store (Body K) :=
  let mp1 := (s b1).mp.xform ((f.read s).xformF (s b1).frame)
  let mp2 := (s b2).mp.xform ((f.read s).xformF (s b2).frame)
  let s := s.mod b fun x => { x with mp := MP.combine mp1 mp2 }
  s.mod b fun x => { x with frame := f.read s }

/-- `rkBodyCombineDRC`, src/rk_body.c:203-213. -/
def bodyCombineDRC (b sb : ℕ) (s : Store (Body K)) : Store (Body K) :=
  let mp1 := (s b).mp
  let mp2 := (s sb).mp.xform ((s b).frame.xformF (s sb).frame)
  s.mod b fun x => { x with mp := MP.combine mp1 mp2 }

/-- `rkBodyCopyState`, src/rk_body.c:176-185. -/
def copyState (src dst : ℕ) (s : Store (Body K)) : Store (Body K) :=
  let s := s.mod dst fun x => { x with frame := (s src).frame }
  let s := s.mod dst fun x => { x with vel := (s src).vel }
  let s := s.mod dst fun x => { x with acc := (s src).acc }
  let s := s.mod dst fun x => { x with wldCOM := (s src).wldCOM }
  let s := s.mod dst fun x => { x with comVel := (s src).comVel }
  s.mod dst fun x => { x with comAcc := (s src).comAcc }

/-- A write of a vector. -/
def setVec (s : Store (Vec3 K)) (a : ℕ) (v : Vec3 K) : Store (Vec3 K) := s.mod a fun _ => v

/-- `rkLinkPointVel`, src/rk_link.c:94-98. -/
def pointVel (l : Link K) (p v : ℕ) (s : Store (Vec3 K)) : Store (Vec3 K) :=
  let s := setVec s v (cross l.body.vel.ang (s p))
  setVec s v (s v + l.body.vel.lin)

/-- `rkLinkPointAcc`, src/rk_link.c:101-109. -/
def pointAcc (l : Link K) (p a : ℕ) (s : Store (Vec3 K)) : Store (Vec3 K) :=
  let s := setVec s a (triple l.body.vel.ang l.body.vel.ang (s p))
  let tmp := cross l.body.acc.ang (s p)
  let s := setVec s a (s a + tmp)
  setVec s a (s a + l.body.acc.lin)

/-- `rkBodyAM`, src/rk_body.c:264-273. -/
def bodyAM (b : Body K) (p am : ℕ) (s : Store (Vec3 K)) : Store (Vec3 K) :=
  let tmp := b.mp.com - s p
  let s := setVec s am (cross tmp b.comVel)
  let s := setVec s am (b.mp.mass • s am)
  let tmp := b.mp.inertia.mulVec b.vel.ang
  setVec s am (s am + tmp)

/-- One turn of the loop of `rkChainAM`, src/rk_chain.c:479-482; `tp` and `tmp` are local. -/
def chainAM1 (p am : ℕ) (s : Store (Vec3 K)) (l : Link K) : Store (Vec3 K) :=
  let tp := l.body.frame.xformInv (s p)
  let tmp := l.body.frame.att.mulVec (l.body.am tp)
  setVec s am (s am + tmp)

/-- `rkChainAM`, src/rk_chain.c:472-485. -/
def chainAM (ls : List (Link K)) (p am : ℕ) (s : Store (Vec3 K)) : Store (Vec3 K) :=
  ls.foldl (chainAM1 p am) (setVec s am 0)

/-- `rkJointXformMat6D`, src/rk_joint.c:138-156. -/
def xformMat6 (f : Frame K) (i m : ℕ) (s : Store (Mat6 K)) : Store (Mat6 K) :=
  let s := s.mod m fun x => { x with ll := Mat3.rot f.att (s i).ll }
  let s := s.mod m fun x => { x with al := Mat3.rot f.att (s i).al }
  let s := s.mod m fun x => { x with aa := Mat3.rot f.att (s i).aa }
  let tmpm := (Mat3.skew f.pos).mul (s m).ll
  let tmpm2 := (s m).al.tr
  let s := s.mod m fun x => { x with al := (s m).al + tmpm }
  let s := s.mod m fun x => { x with la := (s m).al.tr }
  let tmpm := (Mat3.skew f.pos).mul (s m).la
  let s := s.mod m fun x => { x with aa := (s m).aa + tmpm }
  let tmpm := (Mat3.skew f.pos).mul tmpm2
  let tmpm := tmpm.tr
  s.mod m fun x => { x with aa := (s m).aa + tmpm }

end Roki.InPlace
