import Verif.Model.Joint

/-!
# Wrench lists, mass properties and rigid bodies: src/rk_force.c and src/rk_body.c
-/

namespace Roki

/-! ## Wrenches -/

/-- `rkWrenchData`, include/roki/rk_force.h:20-23: force and torque, and the point of action. -/
@[ext] structure Wrench (K : Type*) where
  w : Vec6 K
  p : Vec3 K
deriving DecidableEq, Repr

/-- `rkWrenchList`, include/roki/rk_force.h:24.  The list is in the order of `zListForEach`, from
the tail of the Z list to its head; `zListInsertTail` is `List.cons`. -/
abbrev WrenchList (K : Type*) := List (Wrench K)

namespace Wrench
variable {K : Type*} [Field K]
/-- `rkWrenchShift`, src/rk_force.c:25-28. -/
def shift (c : Wrench K) : Vec6 K := c.w.angShift c.p
end Wrench

namespace WrenchList
variable {K : Type*}
/-- `rkWrenchListPush` (macro `zListInsertTail`), include/roki/rk_force.h. -/
def push (l : WrenchList K) (w : Wrench K) : WrenchList K := w :: l

/-- `rkWrenchListPop`, src/rk_force.c:15-22: null on an empty list, otherwise `zListDeleteTail`. -/
def pop (l : WrenchList K) : Option (Wrench K) × WrenchList K :=
  match l with
  | [] => (none, [])
  | w :: l => (some w, l)

/-- `rkWrenchListNet`, src/rk_force.c:31-42. -/
def net [Field K] (l : WrenchList K) : Vec6 K := l.foldl (fun w c => w + c.shift) 0
end WrenchList

/-! ## Mass properties -/

/-- `rkMP`, include/roki/rk_body.h: mass, center of mass, inertia tensor about the center of
mass. -/
@[ext] structure MP (K : Type*) where
  mass : K
  com : Vec3 K
  inertia : Mat3 K
deriving DecidableEq, Repr

namespace MP
variable {K : Type*} [Field K]

/-- `rkMPgmm2kgm`, src/rk_body.c:15-21. -/
def gmm2kgm (mp : MP K) : MP K :=
  ⟨mp.mass * (1 / 1000), (1 / 1000 : K) • mp.com, (1 / 1000000000 : K) • mp.inertia⟩

/-- `rkMPXform`, src/rk_body.c:24-30. -/
def xform (src : MP K) (f : Frame K) : MP K :=
  ⟨src.mass, f.xform src.com, Mat3.rot f.att src.inertia⟩

/-- `rkMPXformInv`, src/rk_body.c:33-39. -/
def xformInv (src : MP K) (f : Frame K) : MP K :=
  ⟨src.mass, f.xformInv src.com, Mat3.rotInv f.att src.inertia⟩

/-- `_rkMPShiftInertia`, src/rk_body.c:43-59. -/
def shiftInertia (src : Mat3 K) (m : K) (s : Vec3 K) : Mat3 K :=
  let xx := s.x * s.x
  let yy := s.y * s.y
  let zz := s.z * s.z
  let xy := s.x * s.y
  let yz := s.y * s.z
  let zx := s.z * s.x
  src + m • (⟨⟨yy + zz, -xy, -zx⟩, ⟨-xy, zz + xx, -yz⟩, ⟨-zx, -yz, xx + yy⟩⟩ : Mat3 K)

/-- `rkMPCombine`, src/rk_body.c:62-80.  Division by a zero total mass gives `inf`/`nan` in C; here
the field convention `x / 0 = 0` is used, and the theorems about the result exclude that case. -/
def combine (mp1 mp2 : MP K) : MP K :=
  let m := mp1.mass + mp2.mass
  let com := (mp1.mass / m) • mp1.com + (mp2.mass / m) • mp2.com
  ⟨m, com, shiftInertia mp1.inertia mp1.mass (mp1.com - com)
         + shiftInertia mp2.inertia mp2.mass (mp2.com - com)⟩

/-- `rkMPOrgInertia`, src/rk_body.c:83-86. -/
def orgInertia (mp : MP K) : Mat3 K := shiftInertia mp.inertia mp.mass mp.com
end MP

/-! ## Bodies -/

/-- `rkBody`, include/roki/rk_body.h.  The shape list is not part of this structure (collision
shapes are modelled in `Verif/Model/CD.lean`). -/
@[ext] structure Body (K : Type*) where
  mp : MP K
  frame : Frame K
  vel : Vec6 K
  acc : Vec6 K
  wldCOM : Vec3 K
  comVel : Vec3 K
  comAcc : Vec3 K
  extw : WrenchList K
  stuff : Option String
deriving DecidableEq, Repr

namespace Body
variable {K : Type*} [Field K]

/-- `rkBodyInit`, src/rk_body.c:114-130. -/
def init : Body K :=
  { mp := ⟨0, 0, 0⟩, frame := Frame.ident, vel := 0, acc := 0, wldCOM := 0, comVel := 0,
    comAcc := 0, extw := [], stuff := none }

/-- `rkBodyClone`, src/rk_body.c:142-166 into an initialised body: mass properties, wrench list,
stuff.  The wrench list is traversed tail to head and each copy is pushed at the tail, so the copy
is in reverse order. -/
def clone (org cln : Body K) : Body K :=
  { cln with
    mp := org.mp
    extw := org.extw.foldl (fun l w => WrenchList.push l w) []
    stuff := match org.stuff with | none => cln.stuff | some s => some s }

/-- `rkBodyZeroRate`, src/rk_body.c:169-173. -/
def zeroRate (b : Body K) : Body K := { b with vel := 0, acc := 0 }

/-- `rkBodyCopyState`, src/rk_body.c:176-185. -/
def copyState (src dst : Body K) : Body K :=
  { dst with frame := src.frame, vel := src.vel, acc := src.acc, wldCOM := src.wldCOM,
             comVel := src.comVel, comAcc := src.comAcc }

/-- `rkBodyCombine`, src/rk_body.c:188-200. -/
def combine (b1 b2 : Body K) (f : Frame K) (b : Body K) : Body K :=
  let mp1 := b1.mp.xform (f.xformF b1.frame)
  let mp2 := b2.mp.xform (f.xformF b2.frame)
  { b with mp := MP.combine mp1 mp2, frame := f }

/-- `rkBodyCombineDRC`, src/rk_body.c:203-213. -/
def combineDRC (b sb : Body K) : Body K :=
  { b with mp := MP.combine b.mp (sb.mp.xform (b.frame.xformF sb.frame)) }

/-- `rkBodyUpdateCOM`, src/rk_body.c:216-219. -/
def updateCOM (b : Body K) : Body K := { b with wldCOM := b.frame.xform b.mp.com }

/-- `rkBodyUpdateCOMVel`, src/rk_body.c:222-229. -/
def updateCOMVel (b : Body K) : Body K :=
  { b with comVel := b.vel.lin + cross b.vel.ang b.mp.com }

/-- `rkBodyUpdateCOMAcc`, src/rk_body.c:232-241. -/
def updateCOMAcc (b : Body K) : Body K :=
  { b with comAcc := triple b.vel.ang b.vel.ang b.mp.com + cross b.acc.ang b.mp.com + b.acc.lin }

/-- `rkBodyNetWrench`, src/rk_body.c:251-261. -/
def netWrench (b : Body K) : Vec6 K :=
  ⟨b.mp.mass • b.comAcc,
   cross b.vel.ang (b.mp.inertia.mulVec b.vel.ang) + b.mp.inertia.mulVec b.acc.ang⟩

/-- `rkBodyAM`, src/rk_body.c:264-273. -/
def am (b : Body K) (p : Vec3 K) : Vec3 K :=
  b.mp.mass • cross (b.mp.com - p) b.comVel + b.mp.inertia.mulVec b.vel.ang

/-- `rkBodyKE`, src/rk_body.c:276-285. -/
def ke (b : Body K) : K :=
  (dot b.vel.ang (b.mp.inertia.mulVec b.vel.ang) + b.mp.mass * sqrNorm b.comVel) * (1 / 2)

/-- `rkBodyCalcExtWrench` (macro), include/roki/rk_body.h:271. -/
def calcExtWrench (b : Body K) : Vec6 K := WrenchList.net b.extw
end Body
end Roki
