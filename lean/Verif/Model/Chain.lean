import Verif.Model.Link

/-!
# Kinematic chains: the functions of src/rk_chain.c that loop over the link array

The link array of a chain is a list of links in index order.
-/

namespace Roki
namespace LinkArray
variable {K : Type*}

/-- `rkChainJointSize`, src/rk_chain.c:92-99. -/
def jointSize (ls : List (Link K)) : ℕ := ls.foldl (fun size l => size + l.size) 0

/-- The loop of `rkChainSetOffset`, src/rk_chain.c:525-535, with the running total `s`. -/
def setOffsetFrom (s : ℕ) : List (Link K) → List (Link K)
  | [] => []
  | l :: ls =>
    if 0 < l.size then { l with offset := s } :: setOffsetFrom (s + l.size) ls
    else { l with offset := -1 } :: setOffsetFrom s ls

/-- `rkChainSetOffset`, src/rk_chain.c:525-535. -/
def setOffset (ls : List (Link K)) : List (Link K) := setOffsetFrom 0 ls

/-- The second loop of `rkChainCreateDefaultJointIndex` from link `i` on. -/
def defaultJointIndexFrom (i : ℕ) : List (Link K) → List ℕ
  | [] => []
  | l :: ls => if 0 < l.size then i :: defaultJointIndexFrom (i + 1) ls
               else defaultJointIndexFrom (i + 1) ls

/-- `rkChainCreateDefaultJointIndex`, src/rk_chain.c:102-119 (allocation succeeds). -/
def createDefaultJointIndex (ls : List (Link K)) : List ℕ := defaultJointIndexFrom 0 ls

/-- `rkChainJointIndexSize`, src/rk_chain.c:122-129; `none` for an index outside the array. -/
def jointIndexSize (ls : List (Link K)) : List ℕ → Option ℕ
  | [] => some 0
  | i :: idx =>
    match ls[i]?, jointIndexSize ls idx with
    | some l, some s => some (l.size + s)
    | _, _ => none

/-- One of the joint setters applied to a link. -/
def _root_.Roki.Link.setWith (set : Prp K → List K → Option (Prp K)) (l : Link K) (buf : List K) :
    Option (Link K) :=
  (set l.joint.prp buf).map fun p => { l with joint := { l.joint with prp := p } }

/-- The common loop of `rkChainSetJointDis` (src/rk_chain.c:132-141), `rkChainSetJointDisCNT`
(144-153) and `rkChainSetJointVel` (156-165): `buf` is what the moving pointer `dp` points to. -/
def setJoint (set : Prp K → List K → Option (Prp K)) :
    List ℕ → List K → List (Link K) → Option (List (Link K))
  | [], _, ls => some ls
  | i :: idx, buf, ls => do
    let l : Link K ← ls[i]?
    let l' : Link K ← l.setWith set buf
    setJoint set idx (buf.drop l'.size) (ls.set i l')

/-- `rkChainSetJointRate`, src/rk_chain.c:168-179. -/
def setJointRate : List ℕ → List K → List K → List (Link K) → Option (List (Link K))
  | [], _, _, ls => some ls
  | i :: idx, vp, ap, ls => do
    let l : Link K ← ls[i]?
    let l' : Link K ← l.setWith Prp.setVel vp
    let l'' : Link K ← l'.setWith Prp.setAcc ap
    setJointRate idx (vp.drop l''.size) (ap.drop l''.size) (ls.set i l'')

/-- Write `vals` into `buf` at position `pos`; `none` if this runs past the end. -/
def writeAt (buf : List K) (pos : ℕ) (vals : List K) : Option (List K) :=
  if pos + vals.length ≤ buf.length then
    some (buf.take pos ++ vals ++ buf.drop (pos + vals.length))
  else none

/-- The common loop of `rkChainGetJointDis` (src/rk_chain.c:182-192), `rkChainGetJointVel`
(195-205) and `rkChainGetJointAcc` (208-218). -/
def getJoint (get : Prp K → List K) (ls : List (Link K)) :
    List ℕ → ℕ → List K → Option (List K)
  | [], _, buf => some buf
  | i :: idx, pos, buf => do
    let l : Link K ← ls[i]?
    let buf' ← writeAt buf pos (get l.joint.prp)
    getJoint get ls idx (pos + l.size) buf'

/-- The body of the loops of `rkChainSet*All`: nothing unless the offset is nonnegative. -/
def _root_.Roki.Link.setAtOffset (set : Prp K → List K → Option (Prp K)) (v : List K) (l : Link K) :
    Option (Link K) :=
  if 0 ≤ l.offset then l.setWith set (v.drop l.offset.toNat) else some l

/-- The common loop of `rkChainSetJointDisAll` (src/rk_chain.c:221-228),
`rkChainSetJointDisCNTAll` (251-258) and `rkChainSetJointVelAll` (261-268). -/
def setJointAll (set : Prp K → List K → Option (Prp K)) (v : List K) :
    List (Link K) → Option (List (Link K))
  | [] => some []
  | l :: ls => do
    let l' : Link K ← l.setAtOffset set v
    let ls' ← setJointAll set v ls
    pure (l' :: ls')

/-- `rkChainSetJointRateAll`, src/rk_chain.c:271-280. -/
def setJointRateAll (vel acc : List K) : List (Link K) → Option (List (Link K))
  | [] => some []
  | l :: ls => do
    let l' : Link K ← l.setAtOffset Prp.setVel vel
    let l'' : Link K ← l'.setAtOffset Prp.setAcc acc
    let ls' ← setJointRateAll vel acc ls
    pure (l'' :: ls')

/-- The common loop of `rkChainGetJointDisAll` (src/rk_chain.c:283-291), `GetJointVelAll`
(294-302), `GetJointAccAll` (305-313) and `GetJointTrqAll` (316-324). -/
def getJointAll (get : Prp K → List K) : List (Link K) → List K → Option (List K)
  | [], buf => some buf
  | l :: ls, buf =>
    if 0 ≤ l.offset then do
      let buf' ← writeAt buf l.offset.toNat (get l.joint.prp)
      getJointAll get ls buf'
    else getJointAll get ls buf

/-- `rkChainCatJointDisAll`, src/rk_chain.c:231-238: updates the vector `dis` in place. -/
def catJointDisAll [Field K] [Zm K] (k : K) (v : List K) : List (Link K) → List K → Option (List K)
  | [], dis => some dis
  | l :: ls, dis =>
    if 0 ≤ l.offset then do
      let d ← l.joint.prp.catDis (dis.drop l.offset.toNat) k (v.drop l.offset.toNat)
      let dis' ← writeAt dis l.offset.toNat d
      catJointDisAll k v ls dis'
    else catJointDisAll k v ls dis

/-- `rkChainSubJointDisAll`, src/rk_chain.c:241-248: updates the vector `dis` in place. -/
def subJointDisAll [Field K] [Zm K] (sdis : List K) : List (Link K) → List K → Option (List K)
  | [], dis => some dis
  | l :: ls, dis =>
    if 0 ≤ l.offset then do
      let d ← l.joint.prp.subDis (dis.drop l.offset.toNat) (sdis.drop l.offset.toNat)
      let dis' ← writeAt dis l.offset.toNat d
      subJointDisAll sdis ls dis'
    else subJointDisAll sdis ls dis

section
variable [Field K]

/-- `rkChainCalcMass`, src/rk_chain.c:391-399. -/
def calcMass (ls : List (Link K)) : K := ls.foldl (fun m l => m + l.body.mp.mass) 0

/-- `rkChainCalcCOM`, src/rk_chain.c:402-411; `mass` is the stored total mass. -/
def calcCOM (mass : K) (ls : List (Link K)) : Vec3 K :=
  mass⁻¹ • ls.foldl (fun p l => cat p l.body.mp.mass l.body.wldCOM) 0

/-- `rkChainCalcCOMVel`, src/rk_chain.c:414-428. -/
def calcCOMVel (mass : K) (ls : List (Link K)) : Vec3 K :=
  ls.foldl (fun p l => cat p (l.body.mp.mass / mass) (l.body.frame.att.mulVec l.body.comVel)) 0

/-- `rkChainCalcCOMAcc`, src/rk_chain.c:431-445. -/
def calcCOMAcc (mass : K) (ls : List (Link K)) : Vec3 K :=
  ls.foldl (fun p l => cat p (l.body.mp.mass / mass) (l.body.frame.att.mulVec l.body.comAcc)) 0

/-- `rkChainAM`, src/rk_chain.c:472-485. -/
def am (ls : List (Link K)) (p : Vec3 K) : Vec3 K :=
  ls.foldl (fun am l => am + l.body.frame.att.mulVec (l.body.am (l.body.frame.xformInv p))) 0

/-- `rkChainKE`, src/rk_chain.c:488-496. -/
def ke (ls : List (Link K)) : K := ls.foldl (fun e l => e + l.body.ke) 0

/-- `zVec6DEqual(ew, ZVEC6DZERO)`: every component is tiny. -/
def tiny6 [Zm K] (w : Vec6 K) : Bool :=
  Zm.tiny w.lin.x && Zm.tiny w.lin.y && Zm.tiny w.lin.z &&
  Zm.tiny w.ang.x && Zm.tiny w.ang.y && Zm.tiny w.ang.z

/-- `rkChainCalcExtWrench`, src/rk_chain.c:499-513. -/
def calcExtWrench [Zm K] (ls : List (Link K)) : Vec6 K :=
  ls.foldl (fun w l =>
    let ew := l.body.calcExtWrench
    if tiny6 ew then w
    else w + (l.body.frame.att.mulVec6 ew).angShift l.body.frame.pos) 0

/-- `rkChainExtWrenchDestroy`, src/rk_chain.c:516-522. -/
def extWrenchDestroy (ls : List (Link K)) : List (Link K) :=
  ls.map fun l => { l with body := { l.body with extw := [] } }

/-- `rkChainGravityDir`, src/rk_chain.c:347-350, from the root link. -/
def gravityDir (root : Link K) : Vec3 K := root.body.frame.att.tr.cz

/-- `rkChainZMP`, src/rk_chain.c:448-460, from the root link. -/
def zmp [Zm K] (root : Link K) (z : K) : Option (Vec3 K) :=
  let dz := gravityDir root
  let f := dot dz root.joint.wrench.lin
  if Zm.tiny f then none
  else
    let p := cat (cross dz root.joint.wrench.ang) (z - root.body.frame.pos.z) root.joint.wrench.lin
    some (root.body.frame.xform (f⁻¹ • p))

/-- `rkChainYawTorque`, src/rk_chain.c:463-469, from the root link. -/
def yawTorque (root : Link K) : K :=
  let dz := gravityDir root
  dot root.joint.wrench.ang root.joint.wrench.lin / dot root.joint.wrench.ang dz
end
end LinkArray
end Roki
