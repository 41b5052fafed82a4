import Verif.Model.Body

/-!
# Links and the recursive passes over the link tree: src/rk_link.c

A link has pointers `parent`, `child` (first child) and `sibl` (next sibling).  The recursive
functions follow `child` and `sibl`, so their data structure is the first-child/next-sibling tree
`LTree`.  That the pointers built by `rkLinkAddChild` form such a tree is the subject of
`Verif/Model/LinkHeap.lean`.  `Verif/Model/Imp.lean` has the same passes as updates of the link
array.
-/

namespace Roki

/-- First-child / next-sibling tree. -/
inductive LTree (α : Type*) where
  | nil
  | node (a : α) (child sibl : LTree α)
deriving DecidableEq, Repr

namespace LTree
variable {α β : Type*}

/-- Apply a function to every element. -/
def map (f : α → β) : LTree α → LTree β
  | nil => nil
  | node a c s => node (f a) (c.map f) (s.map f)

/-- All elements: an element, its descendants, then its siblings. -/
def toList : LTree α → List α
  | nil => []
  | node a c s => a :: (c.toList ++ s.toList)

/-- The siblings at the top level. -/
def sibls : LTree α → List α
  | nil => []
  | node a _ s => a :: s.sibls

end LTree

/-- `rkABIPrp`, include/roki/rk_link.h:20-36.  `axi` and `iaxi` (`zMat`) are given by their
elements. -/
structure ABIPrp (K : Type*) where
  m : Mat6 K
  i : Mat6 K
  f : Vec6 K
  b : Vec6 K
  c : Vec6 K
  wlist : WrenchList K
  w : Vec6 K
  w0 : Vec6 K
  b0 : Vec6 K
  a0 : Vec6 K
  path : Bool
  axi : ℕ → ℕ → K
  iaxi : ℕ → ℕ → K

/-- `rkLink`, include/roki/rk_link.h:38-57, without the three pointers, which are the structure of
the tree, and without the utility pointer. -/
structure Link (K : Type*) where
  name : String
  joint : Joint K
  body : Body K
  offset : ℤ
  org : Frame K
  adj : Frame K
  abi : ABIPrp K

namespace Link
variable {K : Type*}

/-- `rkLinkWrench`, include/roki/rk_link.h: the wrench of the joint. -/
abbrev wrench (l : Link K) : Vec6 K := l.joint.wrench
/-- `rkLinkJointSize`. -/
abbrev size (l : Link K) : ℕ := l.joint.prp.size

section
variable [Field K]

/-- `rkLinkPointVel`, src/rk_link.c:94-98. -/
def pointVel (l : Link K) (p : Vec3 K) : Vec3 K := cross l.body.vel.ang p + l.body.vel.lin

/-- `rkLinkPointAcc`, src/rk_link.c:101-109. -/
def pointAcc (l : Link K) (p : Vec3 K) : Vec3 K :=
  triple l.body.vel.ang l.body.vel.ang p + cross l.body.acc.ang p + l.body.acc.lin

/-- `rkLinkWldInertia`, src/rk_link.c:112-115. -/
def wldInertia (l : Link K) : Mat3 K := Mat3.rot l.body.frame.att l.body.mp.inertia

/-- The work of `rkLinkUpdateFrame` on one link, src/rk_link.c:120-122. -/
def updateFrame1 (l : Link K) (pwf : Frame K) : Link K :=
  let adj := l.joint.prp.xform l.org
  { l with adj := adj, body := { l.body with frame := pwf.cascade adj }.updateCOM }

/-- `_rkLinkUpdateVel`, src/rk_link.c:130-138. -/
def updateVel1 (l : Link K) (pvel : Vec6 K) : Link K :=
  let vel := l.joint.prp.incVel (l.adj.xform6Lin pvel)
  { l with body := { l.body with vel := vel }.updateCOMVel }

/-- `_rkLinkUpdateAcc`, src/rk_link.c:149-165. -/
def updateAcc1 (l : Link K) (pvel pacc : Vec6 K) : Link K :=
  let a0 := pacc.linShift l.adj.pos
  let wp := cross pvel.ang l.adj.pos
  let a1 : Vec6 K := ⟨a0.lin + cross pvel.ang wp, a0.ang⟩
  let a2 := l.adj.att.mulVecT6 a1
  let a3 := l.joint.prp.incAccOnVel l.body.vel.ang a2
  let a4 := l.joint.prp.incAcc a3
  { l with body := { l.body with acc := a4 }.updateCOMAcc }

/-- `rkLinkUpdateRate` on one link, src/rk_link.c:179-180. -/
def updateRate1 (l : Link K) (pvel pacc : Vec6 K) : Link K :=
  (l.updateVel1 pvel).updateAcc1 pvel pacc
end
end Link

namespace LTree
variable {K : Type*} [Field K]

/-- `rkLinkUpdateFrame`, src/rk_link.c:118-128.  The sibling is updated with the world frame of the
parent, which is `pwf`. -/
def updateFrame (pwf : Frame K) : LTree (Link K) → LTree (Link K)
  | nil => nil
  | node l c s =>
    let l' := l.updateFrame1 pwf
    node l' (updateFrame l'.body.frame c) (updateFrame pwf s)

/-- `rkLinkUpdateVel`, src/rk_link.c:140-147. -/
def updateVel (pvel : Vec6 K) : LTree (Link K) → LTree (Link K)
  | nil => nil
  | node l c s =>
    let l' := l.updateVel1 pvel
    node l' (updateVel l'.body.vel c) (updateVel pvel s)

/-- `rkLinkUpdateAcc`, src/rk_link.c:167-174. -/
def updateAcc (pvel pacc : Vec6 K) : LTree (Link K) → LTree (Link K)
  | nil => nil
  | node l c s =>
    let l' := l.updateAcc1 pvel pacc
    node l' (updateAcc l'.body.vel l'.body.acc c) (updateAcc pvel pacc s)

/-- `rkLinkUpdateRate`, src/rk_link.c:177-185. -/
def updateRate (pvel pacc : Vec6 K) : LTree (Link K) → LTree (Link K)
  | nil => nil
  | node l c s =>
    let l' := l.updateRate1 pvel pacc
    node l' (updateRate l'.body.vel l'.body.acc c) (updateRate pvel pacc s)

/-- The loop over the children of src/rk_link.c:199-202: add the wrench of each of the siblings to
the accumulator. -/
def addChildWrench (w : Vec6 K) : LTree (Link K) → Vec6 K
  | nil => w
  | node l _ s => addChildWrench (w + l.adj.xform6Ang l.joint.wrench) s

/-- `rkLinkUpdateWrench`, src/rk_link.c:188-211. -/
def updateWrench : LTree (Link K) → LTree (Link K)
  | nil => nil
  | node l c s =>
    let w0 := l.body.netWrench.angShift l.body.mp.com
    let c' := updateWrench c
    let w1 := addChildWrench w0 c'
    let w2 := w1 - l.body.calcExtWrench
    let l' := { l with joint := ⟨l.joint.prp.calcTrq w2, w2⟩ }
    node l' c' (updateWrench s)

end LTree
end Roki
