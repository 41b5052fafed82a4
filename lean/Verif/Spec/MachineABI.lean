import Verif.Spec.Machine
import Verif.Spec.ABI
set_option autoImplicit false

/-! # Specification: forward dynamics of one mechanism described by different links (C135) -/

namespace Roki.Spec
variable {K : Type*} [Field K]

/-- `T` is the tree of the links of the chain once its joints have been given the displacements `dis` and the velocities `vel`. -/
def PosedTree [Zm K] [LinearOrder K] (c : Chain K) (dis vel : List K) (T : LTree (Link K)) : Prop :=
  ∃ ls ls', LinkArray.setJointAll Prp.setDis dis c.link = some ls ∧ LinkArray.setJointAll Prp.setVel vel ls = some ls' ∧
    HasTree { c with link := ls' } T

/-- The link is ready for forward dynamics: it has been prepared by `rkChainABIAlloc`, no additional forces are attached to it, its inertia tensor is
symmetric, and its joint is of a type that forward dynamics handles (fixed, revolute or floating). -/
structure Ready (l : Link K) : Prop where
  m : l.abi.m = Link.abiInertia l.body.mp
  wlist : l.abi.wlist = []
  symm : l.body.mp.inertia.Symm
  good : l.joint.prp.ABIGood

/-- The joint accelerations of the links of a tree, joint by joint, from the root. -/
def accsOf (T : LTree (Link K)) : List K := T.toList.flatMap fun l => l.joint.prp.getAcc

end Roki.Spec
