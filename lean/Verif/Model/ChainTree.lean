import Verif.Model.Chain

/-!
# Kinematic chains: the recursive functions, as updates of the link array

`rkChain` holds an array of links; each link has pointers `parent`, `child`, `sibl` into the same
array.  Here the pointers are an index tree `shape`: the node of link `i` has the subtree of its
first child and the tree of its next sibling; the `parent` of a link is passed down.  The passes
read and write the array entries in the order of the C code.  A null dereference or an index
outside the array is the outcome `none`.
-/

namespace Roki

/-- `rkChain`, include/roki/rk_chain.h (struct), without its name. -/
structure Chain (K : Type*) where
  link : List (Link K)
  shape : LTree ℕ
  mass : K
  wldCOM : Vec3 K
  comVel : Vec3 K
  comAcc : Vec3 K

namespace LTree
/-- Null pointer test. -/
def isNil {α : Type*} : LTree α → Bool
  | nil => true
  | node _ _ _ => false
end LTree

namespace Chain
variable {K : Type*}

/-- The common form of the recursive functions that go from parents to children,
`rkLinkUpdateFrame` (src/rk_link.c:118-128), `rkLinkUpdateVel` (140-147), `rkLinkUpdateAcc`
(167-174) and `rkLinkUpdateRate` (177-185): update the link from what it gets from its parent, then
its first child with its own values, then its sibling with the values of its parent, read again
from the parent link. -/
def downAt {σ : Type*} (f : σ → Link K → Link K) (g : Link K → σ) (par : Option ℕ) :
    LTree ℕ → σ → List (Link K) → Option (List (Link K))
  | .nil, _, ls => some ls
  | .node i c s, st, ls => do
    let l : Link K ← ls[i]?
    let l' := f st l
    let ls1 ← downAt f g (some i) c (g l') (ls.set i l')
    if s.isNil then some ls1
    else
      match par with
      | none => none
      | some p =>
        match ls1[p]? with
        | none => none
        | some pl => downAt f g par s (g pl) ls1

section
variable [Field K]

/-- `rkLinkUpdateFrame`, src/rk_link.c:118-128. -/
def updateFrameAt := downAt (K := K) (fun pwf l => l.updateFrame1 pwf) (fun l => l.body.frame)
/-- `rkLinkUpdateVel`, src/rk_link.c:140-147. -/
def updateVelAt := downAt (K := K) (fun pvel l => l.updateVel1 pvel) (fun l => l.body.vel)
/-- `rkLinkUpdateAcc`, src/rk_link.c:167-174. -/
def updateAccAt := downAt (K := K) (fun st l => l.updateAcc1 st.1 st.2)
  (fun l => (l.body.vel, l.body.acc))
/-- `rkLinkUpdateRate`, src/rk_link.c:177-185. -/
def updateRateAt := downAt (K := K) (fun st l => l.updateRate1 st.1 st.2)
  (fun l => (l.body.vel, l.body.acc))

/-- The loop over the children of src/rk_link.c:199-202. -/
def addChildWrenchAt (w : Vec6 K) (ls : List (Link K)) : LTree ℕ → Option (Vec6 K)
  | .nil => some w
  | .node i _ s =>
    match ls[i]? with
    | some l => addChildWrenchAt (w + l.adj.xform6Ang l.joint.wrench) ls s
    | none => none

/-- `rkLinkUpdateWrench`, src/rk_link.c:188-211: the link gets its own inertial wrench, then the
children are updated and their wrenches added, then the external wrench is subtracted and the joint
torque resolved, then the sibling is updated. -/
def updateWrenchAt : LTree ℕ → List (Link K) → Option (List (Link K))
  | .nil, ls => some ls
  | .node i c s, ls => do
    let l : Link K ← ls[i]?
    let w0 := l.body.netWrench.angShift l.body.mp.com
    let ls1 ← updateWrenchAt c (ls.set i { l with joint := { l.joint with wrench := w0 } })
    let l1 : Link K ← ls1[i]?
    let w1 ← addChildWrenchAt l1.joint.wrench ls1 c
    let w2 := w1 - l1.body.calcExtWrench
    updateWrenchAt s (ls1.set i { l1 with joint := ⟨l1.joint.prp.calcTrq w2, w2⟩ })

/-- `rkChainUpdateFrame` (macro), include/roki/rk_chain.h:259-260. -/
def updateFrame (c : Chain K) : Option (Chain K) :=
  (updateFrameAt none c.shape Frame.ident c.link).map fun ls => { c with link := ls }
/-- `rkChainUpdateVel` (macro), include/roki/rk_chain.h:261-262. -/
def updateVel (c : Chain K) : Option (Chain K) :=
  (updateVelAt none c.shape 0 c.link).map fun ls => { c with link := ls }
/-- `rkChainUpdateAcc` (macro), include/roki/rk_chain.h:263-264; `g` is the value of the global
`RK_GRAVITY6D`. -/
def updateAcc (g : Vec6 K) (c : Chain K) : Option (Chain K) :=
  (updateAccAt none c.shape (0, g) c.link).map fun ls => { c with link := ls }
/-- `rkChainUpdateRate` (macro), include/roki/rk_chain.h:265-266. -/
def updateRate (g : Vec6 K) (c : Chain K) : Option (Chain K) :=
  (updateRateAt none c.shape (0, g) c.link).map fun ls => { c with link := ls }
/-- `rkChainUpdateWrench` (macro), include/roki/rk_chain.h:267-268. -/
def updateWrench (c : Chain K) : Option (Chain K) :=
  (updateWrenchAt c.shape c.link).map fun ls => { c with link := ls }

/-- `rkChainCalcCOM`, src/rk_chain.c:402-411, storing the result in the chain. -/
def calcCOM (c : Chain K) : Chain K := { c with wldCOM := LinkArray.calcCOM c.mass c.link }
/-- `rkChainCalcCOMVel`, src/rk_chain.c:414-428. -/
def calcCOMVel (c : Chain K) : Chain K := { c with comVel := LinkArray.calcCOMVel c.mass c.link }
/-- `rkChainCalcCOMAcc`, src/rk_chain.c:431-445. -/
def calcCOMAcc (c : Chain K) : Chain K := { c with comAcc := LinkArray.calcCOMAcc c.mass c.link }
/-- `rkChainCalcMass`, src/rk_chain.c:391-399. -/
def calcMass (c : Chain K) : Chain K := { c with mass := LinkArray.calcMass c.link }

/-- `rkChainUpdateFK`, src/rk_chain.c:353-357. -/
def updateFK (c : Chain K) : Option (Chain K) := c.updateFrame.map calcCOM

/-- `rkChainUpdateID`, src/rk_chain.c:367-373. -/
def updateID (g : Vec6 K) (c : Chain K) : Option (Chain K) := do
  let c1 ← c.updateRate g
  let c2 ← c1.updateWrench
  pure c2.calcCOMVel.calcCOMAcc

/-- `rkChainID`, src/rk_chain.c:376-380. -/
def invDyn (g : Vec6 K) (vel acc : List K) (c : Chain K) : Option (Chain K) := do
  let ls ← LinkArray.setJointRateAll vel acc c.link
  updateID g { c with link := ls }

variable [LinearOrder K] [Zm K]

/-- `rkChainFK`, src/rk_chain.c:360-364. -/
def fk (dis : List K) (c : Chain K) : Option (Chain K) := do
  let ls ← LinkArray.setJointAll Prp.setDis dis c.link
  updateFK { c with link := ls }

/-- `rkChainFKCNT`, src/rk_chain.c:383-388. -/
def fkCNT (g : Vec6 K) (dis : List K) (dt : K) (c : Chain K) : Option (Chain K) := do
  let ls ← LinkArray.setJointAll (fun p v => p.setDisCNT v dt) dis c.link
  let c1 ← updateFK { c with link := ls }
  c1.updateID g
end

/-- The links form one tree that contains every entry of the array once and whose root is link 0:
what `rkChainFromZTK` and `rkChainClone` establish when every link but the first has a parent. -/
structure WF (c : Chain K) : Prop where
  root : ∃ t, c.shape = .node 0 t .nil
  perm : c.shape.toList.Perm (List.range c.link.length)

end Chain
end Roki
