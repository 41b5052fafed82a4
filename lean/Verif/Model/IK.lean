import Verif.Model.ABI
set_option autoImplicit false

/-!
# Inverse kinematics: src/rk_ik.c, src/rk_ik_cell.c, src/rk_ik_imp.c

A solver holds a pointer to a chain, switches and weights of the cooperating joints, a list of
constraint cells and work space.  Memory allocation succeeds.  Reading through a null pointer, or
outside of a buffer, is the outcome `none`.
-/

namespace Roki
open Jacobi (Mat)

/-- `sqrt` of libm. -/
class ZSqrt (K : Type*) where
  sqrt : K → K

/-! ## Cells -/

/-- `rkIKCellAttr`, include/roki/rk_ik_cell.h:40-46.  The bits `RK_IK_CELL_XON`, `YON`, `ZON`,
`FORCE` (48-51) of `mode` are four flags. -/
structure IKAttr (K : Type*) where
  id : ℕ
  idSub : ℕ
  ap : Vec3 K
  xon : Bool
  yon : Bool
  zon : Bool
  force : Bool
  w : Vec3 K
deriving DecidableEq, Repr

/-- The mask of attributes `RK_IK_CELL_ATTR_*`, include/roki/rk_ik_cell.h:33-38. -/
structure IKMask where
  id : Bool
  idSub : Bool
  ap : Bool
  force : Bool
  weight : Bool
deriving DecidableEq, Repr

/-- `rkIKAcm`, include/roki/rk_ik_cell.h:24-30: the union `ae` of a vector and an Euler parameter as
its four numbers.  `e_old` and `h_old` are never read. -/
structure IKAcm (K : Type*) where
  p : Vec3 K
  e3 : K
deriving DecidableEq, Repr

/-- The five function pointers of a cell, include/roki/rk_ik_cell.h:64-68.  The reference `rkIKRef`
is the union of a matrix and a vector, which is the first column of the matrix; it is represented by
the matrix.  The utility pointer is part of the functions. -/
structure IKFns (K : Type*) where
  ref : Mat3 K → K → K → K → Mat3 K
  cmat : Chain K → IKAttr K → Mat K → Option (Mat K)
  srv : Chain K → IKAttr K → Mat3 K → Option (Vec3 K)
  bind : Chain K → IKAttr K → Mat3 K → Option (Mat3 K)
  acm : IKAcm K → Vec3 K → IKAcm K × Vec3 K

/-- `rkIKCell`, include/roki/rk_ik_cell.h:70-87; `ptr` is the address of the cell. -/
structure IKCell (K : Type*) where
  ptr : ℕ
  id : ℕ
  attr : IKAttr K
  ref : Mat3 K
  acm : IKAcm K
  eval : K
  fns : IKFns K

namespace IKAttr
variable {K : Type*}
/-- `rkIKCellAttrEnable`, include/roki/rk_ik_cell.h:57. -/
def enable (a : IKAttr K) : IKAttr K := { a with xon := true, yon := true, zon := true }
/-- `rkIKCellAttrDisable`, include/roki/rk_ik_cell.h:58. -/
def disable (a : IKAttr K) : IKAttr K := { a with xon := false, yon := false, zon := false }
/-- `rkIKCellAttrForce`, include/roki/rk_ik_cell.h:59. -/
def forced (a : IKAttr K) : IKAttr K := { a.enable with force := true }
/-- `rkIKCellIsDisabled`, include/roki/rk_ik_cell.h:99. -/
def isDisabled (a : IKAttr K) : Bool := !(a.xon || a.yon || a.zon)
/-- `( RK_IK_CELL_XON << s ) & mode`, src/rk_ik.c:252. -/
def axisOn (a : IKAttr K) : ℕ → Bool
  | 0 => a.xon
  | 1 => a.yon
  | _ => a.zon
end IKAttr

namespace IKCell
variable {K : Type*} [Field K]

/-- `rkIKCellAcmZero`, src/rk_ik_cell.c:45-50.  The fourth number of the union keeps its value. -/
def acmZero (c : IKCell K) : IKCell K := { c with acm := { c.acm with p := 0 } }

/-- `rkIKCellInit`, src/rk_ik_cell.c:17-43, on a cell from `zAlloc`; the null pointer for `attr` is
`none`, for which every attribute takes its default.  The identifier is set by the caller. -/
def init (ptr : ℕ) (attr : Option (IKAttr K)) (mask : IKMask) (fns : IKFns K) : IKCell K :=
  let a : IKAttr K := attr.getD ⟨0, 0, 0, false, false, false, false, ⟨1, 1, 1⟩⟩
  { ptr := ptr, id := 0,
    attr := ({ id := if mask.id then a.id else 0, idSub := if mask.idSub then a.idSub else 0,
               ap := if mask.ap then a.ap else 0, xon := false, yon := false, zon := false,
               force := mask.force, w := if mask.weight then a.w else ⟨1, 1, 1⟩ } : IKAttr K).disable,
    ref := 0, acm := ⟨0, 0⟩, eval := 0, fns := fns }

/-- `rkIKCellSetWeight`, include/roki/rk_ik_cell.h:62,103. -/
def setWeight (c : IKCell K) (w : Vec3 K) : IKCell K := { c with attr := { c.attr with w := w } }

/-- `rkIKCellSetRef`, include/roki/rk_ik_cell.h:105-108. -/
def setRef (c : IKCell K) (v1 v2 v3 : K) : IKCell K :=
  { c with attr := c.attr.enable, ref := c.fns.ref c.ref v1 v2 v3 }

/-- `rkIKCellSetRefForce`, include/roki/rk_ik_cell.h:112-115. -/
def setRefForce (c : IKCell K) (v1 v2 v3 : K) : IKCell K :=
  { c with attr := c.attr.forced, ref := c.fns.ref c.ref v1 v2 v3 }

/-- `rkIKCellBind`, include/roki/rk_ik_cell.h:125-128. -/
def bind (c : IKCell K) (chain : Chain K) : Option (IKCell K) :=
  (c.fns.bind chain c.attr.enable c.ref).map fun r => { c with attr := c.attr.enable, ref := r }
end IKCell

/-! ## The built-in kinds of cells -/

namespace IKFns
variable {K : Type*} [Field K]

/-- `ref->pos` of the union: the first column. -/
def setPos (m : Mat3 K) (p : Vec3 K) : Mat3 K := { m with cx := p }

/-- `rkIKRefSetPos`, src/rk_ik_cell.c:54-57. -/
def refPos (m : Mat3 K) (x y z : K) : Mat3 K := setPos m ⟨x, y, z⟩

/-- `rkIKAcmPos`, src/rk_ik_cell.c:207-210. -/
def acmPos (a : IKAcm K) (srv : Vec3 K) : IKAcm K × Vec3 K :=
  let ae := cat a.p 1 srv
  ({ a with p := ae }, srv + ae)

/-- `rkIKRefSetAA`, src/rk_ik_cell.c:69-74. -/
def refAA [Zm K] (_ : Mat3 K) (x y z : K) : Mat3 K := Zm.fromAA ⟨x, y, z⟩

/-- Rotation matrix about the `x` axis by the angle with the given sine and cosine. -/
def rotX (s c : K) : Mat3 K := ⟨⟨1, 0, 0⟩, ⟨0, c, s⟩, ⟨0, -s, c⟩⟩
/-- Rotation about the `y` axis. -/
def rotY (s c : K) : Mat3 K := ⟨⟨c, 0, -s⟩, ⟨0, 1, 0⟩, ⟨s, 0, c⟩⟩
/-- Rotation about the `z` axis. -/
def rotZ (s c : K) : Mat3 K := ⟨⟨c, s, 0⟩, ⟨-s, c, 0⟩, ⟨0, 0, 1⟩⟩

/-- `rkIKRefSetZYX`, src/rk_ik_cell.c:59-62, with `zMat3DFromZYX` of Zeo. -/
def refZYX [Zm K] (_ : Mat3 K) (azim elev tilt : K) : Mat3 K :=
  ((rotZ (Zm.sin azim) (Zm.cos azim)).mul (rotY (Zm.sin elev) (Zm.cos elev))).mul
    (rotX (Zm.sin tilt) (Zm.cos tilt))

/-- `rkIKRefSetZYZ`, src/rk_ik_cell.c:64-67, with `zMat3DFromZYZ` of Zeo. -/
def refZYZ [Zm K] (_ : Mat3 K) (heading pitch bank : K) : Mat3 K :=
  ((rotZ (Zm.sin heading) (Zm.cos heading)).mul (rotY (Zm.sin pitch) (Zm.cos pitch))).mul
    (rotZ (Zm.sin bank) (Zm.cos bank))

/-- `rkIKJacobiLinkWldLin` (src/rk_ik_cell.c:78-81), `rkIKLinkWldPosErr` (115-121),
`rkIKBindLinkWldPos` (166-169): the table of `rkIKCellRegWldPos`, src/rk_ik.c:374-377. -/
def wldPos : IKFns K where
  ref := refPos
  cmat c a m := Jacobi.wldLin c a.id a.ap m
  srv c a r := c.link[a.id]?.map fun l => r.cx - l.body.frame.xform a.ap
  bind c a r := c.link[a.id]?.map fun l => setPos r (l.body.frame.xform a.ap)
  acm := acmPos

/-- `rkIKJacobiLinkWldAng` (src/rk_ik_cell.c:83-86), `rkIKLinkWldAttErr` (123-126),
`rkIKBindLinkWldAtt` (171-174): the table of `rkIKCellRegWldAtt`, src/rk_ik.c:379-382.  `acm` is
`rkIKAcmAtt` (212-220), which goes through the Euler parameters of Zeo. -/
def wldAtt [Zm K] (acm : IKAcm K → Vec3 K → IKAcm K × Vec3 K) : IKFns K where
  ref := refZYX
  cmat c a m := Jacobi.wldAng c a.id m
  srv c a r := c.link[a.id]?.map fun l => mat3Error r l.body.frame.att
  bind c a _ := c.link[a.id]?.map fun l => l.body.frame.att
  acm := acm

/-- `rkIKJacobiLinkL2LLin` (src/rk_ik_cell.c:88-91), `rkIKLinkL2LPosErr` (128-135),
`rkIKBindLinkL2LPos` (176-182): the table of `rkIKCellRegL2LPos`, src/rk_ik.c:384-387. -/
def l2lPos : IKFns K where
  ref := refPos
  cmat c a m := Jacobi.linkToLinkLin c a.id a.idSub a.ap m
  srv c a r := do
    let ls : Link K ← c.link[a.idSub]?
    let l : Link K ← c.link[a.id]?
    pure (r.cx - (ls.body.frame.xform a.ap - l.body.frame.pos))
  bind c a r := do
    let ls : Link K ← c.link[a.idSub]?
    let l : Link K ← c.link[a.id]?
    pure (setPos r (ls.body.frame.xform a.ap - l.body.frame.pos))
  acm := acmPos

/-- `rkIKJacobiLinkL2LAng` (src/rk_ik_cell.c:93-96), `rkIKLinkL2LAttErr` (137-145),
`rkIKBindLinkL2LAtt` (184-187): the table of `rkIKCellRegL2LAtt`, src/rk_ik.c:389-392. -/
def l2lAtt [Zm K] (acm : IKAcm K → Vec3 K → IKAcm K × Vec3 K) : IKFns K where
  ref := refZYX
  cmat c a m := Jacobi.linkToLinkAng c a.id a.idSub m
  srv c a r := do
    let l : Link K ← c.link[a.id]?
    let ls : Link K ← c.link[a.idSub]?
    pure (l.body.frame.att.mulVec (mat3Error r (l.body.frame.att.mulT ls.body.frame.att)))
  bind c a _ := do
    let l : Link K ← c.link[a.id]?
    let ls : Link K ← c.link[a.idSub]?
    pure (l.body.frame.att.mulT ls.body.frame.att)
  acm := acm

/-- `rkIKJacobiCOM` (src/rk_ik_cell.c:98-101), `rkIKCOMErr` (147-150), `rkIKBindCOM` (189-193): the
table of `rkIKCellRegCOM`, src/rk_ik.c:394-397. -/
def com [DecidableEq K] : IKFns K where
  ref := refPos
  cmat c _ m := Jacobi.com c m
  srv c _ r := some (r.cx - c.wldCOM)
  bind c _ r := some (setPos r c.wldCOM)
  acm := acmPos

/-- `rkIKJacobiAM` (src/rk_ik_cell.c:103-106), `rkIKAMErr` (152-156), `rkIKBindAM` (195-198): the
table of `rkIKCellRegAM`, src/rk_ik.c:399-402. -/
def am (acm : IKAcm K → Vec3 K → IKAcm K × Vec3 K) : IKFns K where
  ref := refPos
  cmat c a m := Jacobi.am c a.ap m
  srv c a _ := some (-LinkArray.am c.link a.ap)
  bind c a r := some (setPos r (LinkArray.am c.link a.ap))
  acm := acm

/-- `rkIKJacobiAMCOM` (src/rk_ik_cell.c:108-111), `rkIKAMCOMErr` (158-162), `rkIKBindAMCOM` (200-203): the
table of `rkIKCellRegAMCOM`, src/rk_ik.c:404-407. -/
def amCOM (acm : IKAcm K → Vec3 K → IKAcm K × Vec3 K) : IKFns K where
  ref := refPos
  cmat c _ m := Jacobi.amCOM c m
  srv c _ _ := some (-LinkArray.am c.link c.wldCOM)
  bind c _ r := some (setPos r (LinkArray.am c.link c.wldCOM))
  acm := acm
end IKFns

/-- `_rkIKImpSRV`, src/rk_ik_imp.c:13-22: reference velocity of the impedance controllers. -/
def ikImpSRV {K : Type*} [Field K] (err v k c : Vec3 K) : Vec3 K :=
  ⟨err.x * k.x - v.x * c.x + v.x, err.y * k.y - v.y * c.y + v.y, err.z * k.z - v.z * c.z + v.z⟩

/-! ## The solver -/

/-- `rkIK`, include/roki/rk_ik.h:78-102.  `cmat` is the buffer of `_c_mat` by rows, `csrv` and `cwe`
the buffers of `_c_srv` and `_c_we`; `rows` is the size set on them by `rkIKEq`.  `jv` is the
function `_jv`, which writes the components of `_j_vel` from `_c_mat`, `_c_srv`, `_j_wn`, `_c_we` and
the old contents of `_j_vel`. -/
structure IK (K : Type*) where
  chain : Chain K
  sw : List Bool
  weight : List K
  vel : List K
  eval : K
  clist : List (IKCell K)
  matCell : Mat K
  jidx : Option (List ℕ)
  jofs : List ℤ
  jvel : List K
  jwn : List K
  cmat : Option (List (List K))
  csrv : List K
  cwe : List K
  rows : ℕ
  jv : List (List K) → List K → List K → List K → List K → ℕ → K

namespace IK
variable {K : Type*} [Field K]

/-- `rkIKCreate`, src/rk_ik.c:42-57. -/
def create (c : Chain K) (jv : List (List K) → List K → List K → List K → List K → ℕ → K) : IK K :=
  { chain := c, sw := List.replicate c.link.length false, weight := List.replicate c.link.length 0,
    vel := List.replicate (LinkArray.jointSize c.link) 0, eval := 0, clist := [],
    matCell := List.replicate (LinkArray.jointSize c.link) 0, jidx := none,
    jofs := List.replicate c.link.length 0, jvel := [], jwn := [], cmat := none, csrv := [], cwe := [],
    rows := 0, jv := jv }

/-- `_rkIKAllocCMat`, src/rk_ik.c:83-93. -/
def allocCMat (ik : IK K) : Option (IK K) :=
  if ik.clist.length = 0 then some ik
  else
    match ik.jidx with
    | none => none
    | some [] => some ik
    | some (_ :: _) =>
      some { ik with cmat := some (List.replicate (ik.clist.length * 3)
                                     (List.replicate ik.jvel.length 0)) }

/-- The first loop of `_rkIKAllocJointIndex`, src/rk_ik.c:102-106: joints without degree of freedom
are switched off. -/
def clearSw : List (Link K) → List Bool → List Bool
  | l :: ls, b :: sw => (if l.size = 0 then false else b) :: clearSw ls sw
  | _, _ => []

/-- The index of the second loop, src/rk_ik.c:113-119, from link `i` on. -/
def indexFrom (i : ℕ) : List Bool → List ℕ
  | [] => []
  | b :: sw => if b then i :: indexFrom (i + 1) sw else indexFrom (i + 1) sw

/-- The reverse index of the second loop, src/rk_ik.c:113-119, with the running offset. -/
def offsetsFrom (ofs : ℕ) : List (Link K) → List Bool → List ℤ
  | l :: ls, b :: sw =>
    if b then (ofs : ℤ) :: offsetsFrom (ofs + l.size) ls sw else -1 :: offsetsFrom ofs ls sw
  | _, _ => []

/-- The last loop, src/rk_ik.c:131-133: the weight of a joint for each of its components. -/
def weights (ls : List (Link K)) (weight : List K) : List ℕ → Option (List K)
  | [] => some []
  | i :: idx => do
    let l : Link K ← ls[i]?
    let w ← weight[i]?
    let r ← weights ls weight idx
    pure (List.replicate l.size w ++ r)

/-- `_rkIKAllocJointIndex`, src/rk_ik.c:96-135. -/
def allocJointIndex (ik : IK K) : Option (IK K) :=
  let sw := clearSw ik.chain.link ik.sw
  if sw.count true = 0 then some { ik with sw := sw }
  else
    let idx := indexFrom 0 sw
    (LinkArray.jointIndexSize ik.chain.link idx).bind fun n =>
    (weights ik.chain.link ik.weight idx).bind fun wn =>
    allocCMat { ik with sw := sw, jidx := some idx, jofs := offsetsFrom 0 ik.chain.link sw,
                        jvel := List.replicate n 0, jwn := wn }

/-- `_rkIKJointReg`, src/rk_ik.c:137-146; the flag is the result. -/
def jointReg' (ik : IK K) (id : ℤ) (sw : Bool) (weight : K) : Option (Bool × IK K) :=
  if id < 0 ∨ ik.chain.link.length ≤ id then some (false, ik)
  else
    (allocJointIndex { ik with sw := ik.sw.set id.toNat sw,
                               weight := ik.weight.set id.toNat weight }).map fun ik' => (true, ik')

/-- `rkIKJointReg`, src/rk_ik.c:147-149. -/
def jointReg (ik : IK K) (id : ℤ) (weight : K) : Option (Bool × IK K) := ik.jointReg' id true weight
/-- `rkIKJointUnreg`, src/rk_ik.c:150-152. -/
def jointUnreg (ik : IK K) (id : ℤ) : Option (Bool × IK K) := ik.jointReg' id false 0

/-- The loop of `rkIKJointRegAll`, src/rk_ik.c:155-163. -/
def jointRegAllFrom (weight : K) : List ℕ → IK K → Option (Bool × IK K)
  | [], ik => some (true, ik)
  | i :: is, ik => do
    let l : Link K ← ik.chain.link[i]?
    if 0 < l.size then do
      let (ok, ik') ← ik.jointReg i weight
      if ok then jointRegAllFrom weight is ik' else some (false, ik')
    else jointRegAllFrom weight is ik

/-- `rkIKJointRegAll`, src/rk_ik.c:155-163. -/
def jointRegAll (ik : IK K) (weight : K) : Option (Bool × IK K) :=
  jointRegAllFrom weight (List.range ik.chain.link.length) ik

/-- `_rkIKAllocSRV`, src/rk_ik.c:166-179. -/
def allocSRV (ik : IK K) : Option (IK K) :=
  if ik.clist.length = 0 then some ik
  else allocCMat { ik with csrv := List.replicate (ik.clist.length * 3) 0,
                           cwe := List.replicate (ik.clist.length * 3) 0 }

/-- The search of `rkIKCellReg`, src/rk_ik.c:194-199, on a non-empty list: the first cell that is the
last one or whose successor does not have the next identifier. -/
def insertAfter (c : IKCell K) : List (IKCell K) → List (IKCell K)
  | [] => []
  | [a] => [a, { c with id := a.id + 1 }]
  | a :: b :: l =>
    if b.id ≠ a.id + 1 then a :: { c with id := a.id + 1 } :: b :: l
    else a :: insertAfter c (b :: l)

/-- The insertion of `rkIKCellReg`, src/rk_ik.c:189-200.  The list is in the order of
`zListForEach`. -/
def insertCell (c : IKCell K) : List (IKCell K) → List (IKCell K)
  | [] => [{ c with id := 0 }]
  | a :: l => if a.id ≠ 0 then { c with id := 0 } :: a :: l else insertAfter c (a :: l)

/-- `rkIKCellReg`, src/rk_ik.c:180-202; `ptr` is the address given by the allocator. -/
def cellReg (ik : IK K) (ptr : ℕ) (attr : Option (IKAttr K)) (mask : IKMask) (fns : IKFns K) :
    Option (IK K) :=
  allocSRV { ik with clist := insertCell (IKCell.init ptr attr mask fns) ik.clist }

/-- `rkIKCellUnreg`, src/rk_ik.c:203-208; purging a cell that is not in the list is undefined. -/
def cellUnreg (ik : IK K) (ptr : ℕ) : Option (IK K) :=
  if ik.clist.any (fun c => c.ptr == ptr) then
    allocSRV { ik with clist := ik.clist.eraseP (fun c => c.ptr == ptr) }
  else none

/-- `rkIKFindCell`, src/rk_ik.c:211-218. -/
def findCell (ik : IK K) (id : ℕ) : Option (IKCell K) := ik.clist.find? (fun c => c.id == id)

/-- A change of the cell at an address through its pointer, as by the macros `rkIKCellSetRef`,
`rkIKCellSetWeight`, `rkIKCellEnable` and so on. -/
def modifyCell (ik : IK K) (ptr : ℕ) (f : IKCell K → IKCell K) : IK K :=
  { ik with clist := ik.clist.map fun c => if c.ptr = ptr then f c else c }

/-- `rkIKDeactivate`, src/rk_ik.c:221-227. -/
def deactivate (ik : IK K) : IK K :=
  { ik with clist := ik.clist.map fun c => { c with attr := c.attr.disable } }

/-- `rkIKBind`, src/rk_ik.c:230-236. -/
def bind (ik : IK K) : Option (IK K) :=
  (ik.clist.mapM fun c : IKCell K => c.bind ik.chain).map fun l => { ik with clist := l }

/-- `rkIKAcmZero`, src/rk_ik.c:239-245. -/
def acmZero (ik : IK K) : IK K := { ik with clist := ik.clist.map IKCell.acmZero }

/-- The inner loops of `_rkIKCellEq`, src/rk_ik.c:256-264, for one link: the first loop writes into
the row, the second subtracts from the component of the vector. -/
def eqJoint (ik : IK K) (s : ℕ) (i : ℕ) (st : List K × K) : Option (List K × K) := do
  let l : Link K ← ik.chain.link[i]?
  ik.sw[i]?.bind fun sw =>
  if sw then
    ik.jofs[i]?.bind fun ofs =>
    (List.range l.size).foldlM (fun (st : List K × K) (j : ℕ) =>
      (ik.matCell[(l.offset + j).toNat]?).bind fun v =>
        if 0 ≤ ofs ∧ ofs + j < st.1.length then some (st.1.set (ofs + j).toNat (v.get s), st.2)
        else none) st
  else
    (List.range l.size).foldlM (fun (st : List K × K) (j : ℕ) =>
      (ik.matCell[(l.offset + j).toNat]?).bind fun v =>
      (ik.vel[(l.offset + j).toNat]?).bind fun q => some (st.1, st.2 - v.get s * q)) st

/-- `_rkIKCellEq`, src/rk_ik.c:248-267; `srv` is `_c_srv_cell`. -/
def cellEq (ik : IK K) (cell : IKCell K) (srv : Vec3 K) (s row : ℕ) : Option (IK K × ℕ) :=
  if !cell.attr.axisOn s then some (ik, 0)
  else do
    let m ← ik.cmat
    let r ← m[row]?
    if row < ik.csrv.length ∧ row < ik.cwe.length then do
      let (r', e) ← (List.range ik.chain.link.length).foldlM (fun st i => ik.eqJoint s i st)
        (r, srv.get s)
      pure ({ ik with cmat := some (m.set row r'), csrv := ik.csrv.set row e,
                      cwe := ik.cwe.set row (cell.attr.w.get s) }, 1)
    else none

/-- The body of the loop of `rkIKEq`, src/rk_ik.c:275-286, for an enabled cell: the changed cell, the
solver and the next row. -/
def eqCell [ZSqrt K] (ik : IK K) (cell : IKCell K) (row : ℕ) : Option (IKCell K × IK K × ℕ) := do
  let mc ← cell.fns.cmat ik.chain cell.attr ik.matCell
  let srv ← cell.fns.srv ik.chain cell.attr cell.ref
  let w := cell.attr.w
  let e := w.x * srv.x * srv.x + w.y * srv.y * srv.y + w.z * srv.z * srv.z
  let (acm, srv') := if cell.attr.force then cell.fns.acm cell.acm srv else (cell.acm, srv)
  let ik1 := { ik with matCell := mc, eval := ik.eval + e }
  let (ik2, n0) ← ik1.cellEq cell srv' 0 row
  let (ik3, n1) ← ik2.cellEq cell srv' 1 (row + n0)
  let (ik4, n2) ← ik3.cellEq cell srv' 2 (row + n0 + n1)
  pure ({ cell with eval := ZSqrt.sqrt e, acm := acm }, ik4, row + n0 + n1 + n2)

/-- The loop of `rkIKEq` over the cells, src/rk_ik.c:275-286. -/
def eqCells [ZSqrt K] : List (IKCell K) → IK K → ℕ → Option (List (IKCell K) × IK K × ℕ)
  | [], ik, row => some ([], ik, row)
  | c :: cs, ik, row =>
    if c.attr.isDisabled then do
      let (cs', ik', row') ← eqCells cs ik row
      pure (c :: cs', ik', row')
    else do
      let (c', ik1, row1) ← ik.eqCell c row
      let (cs', ik', row') ← eqCells cs ik1 row1
      pure (c' :: cs', ik', row')

/-- `rkIKEq`, src/rk_ik.c:268-292. -/
def eq [ZSqrt K] (ik : IK K) : Option (IK K) := do
  let (cs, ik', row) ← eqCells ik.clist { ik with eval := 0 } 0
  let _ ← ik'.cmat
  pure { ik' with clist := cs, eval := ZSqrt.sqrt ik'.eval, rows := row }

/-- `rkIKJointVelAD`, src/rk_ik.c:310-323: the components of the solution of the normal equation.
`gauss n m v` is `zLESolveGaussDST`, which leaves the answer unchanged when the matrix is singular. -/
def jointVelAD (gauss : ℕ → (ℕ → ℕ → K) → (ℕ → K) → Option (ℕ → K))
    (cmat : List (List K)) (csrv jwn cwe jvel : List K) : ℕ → K :=
  let n := jvel.length
  let wc := List.zipWith (fun a b => a * b) csrv cwe
  let v := fun j => (List.zipWith (fun (r : List K) c => r.getD j 0 * c) cmat wc).sum
  let m := fun i j => (List.zipWith (fun (r : List K) w => r.getD i 0 * w * r.getD j 0) cmat cwe).sum
  let e := (List.zipWith (fun a b => a * b) csrv wc).sum
  (gauss n (fun i j => if i = j then m i j + (jwn.getD i 0 + e) else m i j) v).getD
    (fun i => jvel.getD i 0)

/-- The loop of `rkIKSolveRate`, src/rk_ik.c:333-337: scatter the components of `_j_vel` to the
joint velocity. -/
def scatter (ls : List (Link K)) : List ℕ → List K → List K → Option (List K)
  | [], _, vel => some vel
  | k :: idx, vp, vel => do
    let l : Link K ← ls[k]?
    if l.size = 0 then scatter ls idx vp vel
    else if 0 ≤ l.offset ∧ l.size ≤ vp.length then do
      let vel' ← LinkArray.writeAt vel l.offset.toNat (vp.take l.size)
      scatter ls idx (vp.drop l.size) vel'
    else none

/-- `rkIKSolveRate`, src/rk_ik.c:326-339. -/
def solveRate [ZSqrt K] (ik : IK K) : Option (IK K) := do
  let ik1 ← ik.eq
  let m ← ik1.cmat
  let f := ik1.jv (m.take ik1.rows) (ik1.csrv.take ik1.rows) ik1.jwn (ik1.cwe.take ik1.rows) ik1.jvel
  let jvel := (List.range ik1.jvel.length).map f
  let vel ← ik1.jidx.bind fun idx => scatter ik1.chain.link idx jvel ik1.vel
  pure { ik1 with jvel := jvel, vel := vel }

variable [LinearOrder K] [Zm K]

/-- `rkIKSolveOne`, src/rk_ik.c:342-350. -/
def solveOne [ZSqrt K] (ik : IK K) (dis : List K) (dt : K) : Option (IK K × List K) := do
  let ik1 ← ik.solveRate
  let dis1 ← LinkArray.catJointDisAll dt ik1.vel ik1.chain.link dis
  let ls ← LinkArray.setJointAll Prp.setDis dis1 ik1.chain.link
  let dis2 ← LinkArray.getJointAll Prp.getDis ls dis1
  let c ← Chain.updateFK { ik1.chain with link := ls }
  pure ({ ik1 with chain := c }, dis2)

/-- The loop of `rkIKSolve`, src/rk_ik.c:361-366, with `n` iterations left; `rest` is `none` for
`HUGE_VAL`.  `zIsTol(x,tol)` is `|x| ≤ tol`. -/
def solveLoop [ZSqrt K] (tol : K) : ℕ → ℕ → Option K → IK K → List K → Option (ℤ × IK K × List K)
  | 0, _, _, ik, dis => some (-1, ik, dis)
  | n + 1, i, rest, ik, dis => do
    let (ik', dis') ← ik.solveOne dis 1
    match rest with
    | none => solveLoop tol n (i + 1) (some ik'.eval) ik' dis'
    | some r =>
      if |ik'.eval - r| ≤ tol then some ((i : ℤ), ik', dis')
      else solveLoop tol n (i + 1) (some ik'.eval) ik' dis'

/-- `rkIKSolve`, src/rk_ik.c:353-368; `maxIter` is the default of `ZITERINIT`. -/
def solve [ZSqrt K] (maxIter : ℕ) (ik : IK K) (dis : List K) (tol : K) (iter : ℤ) :
    Option (ℤ × IK K × List K) := do
  let dis0 ← LinkArray.getJointAll Prp.getDis ik.chain.link dis
  let iter := if iter = 0 then maxIter else iter.toNat
  solveLoop tol iter 0 none ik.acmZero dis0

end IK
end Roki
