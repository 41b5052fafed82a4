import Verif.Model.IK
import Verif.Spec.Clone
set_option autoImplicit false

/-! # Inverse kinematics: histories of calls, and what they should leave behind -/

namespace Roki
variable {K : Type*} [Field K] [LinearOrder K] [Zm K] [ZSqrt K]

/-- The calls a program can make on a solver and on the chain it works on. -/
inductive IK.Op (K : Type*) where
  | jointReg (id : ℤ) (w : K)
  | jointUnreg (id : ℤ)
  | jointRegAll (w : K)
  | cellReg (ptr : ℕ) (attr : Option (IKAttr K)) (mask : IKMask) (fns : IKFns K)
  | cellUnreg (ptr : ℕ)
  | setRef (ptr : ℕ) (v1 v2 v3 : K)
  | setRefForce (ptr : ℕ) (v1 v2 v3 : K)
  | setWeight (ptr : ℕ) (w : Vec3 K)
  | enable (ptr : ℕ)
  | disable (ptr : ℕ)
  | setAttr (ptr : ℕ) (a : IKAttr K)
  | deactivate
  | bind
  | chain (o : Chain.Op K)
  | eq
  | solveRate
  | solveOne (dis : List K) (dt : K)
  | solve (maxIter : ℕ) (dis : List K) (tol : K) (iter : ℤ)

/-- One call; `none` if it runs into undefined behaviour. -/
def IK.Op.run (ik : IK K) : IK.Op K → Option (IK K)
  | .jointReg id w => (ik.jointReg id w).map Prod.snd
  | .jointUnreg id => (ik.jointUnreg id).map Prod.snd
  | .jointRegAll w => (ik.jointRegAll w).map Prod.snd
  | .cellReg ptr attr mask fns => ik.cellReg ptr attr mask fns
  | .cellUnreg ptr => ik.cellUnreg ptr
  | .setRef ptr v1 v2 v3 => some (ik.modifyCell ptr fun c => c.setRef v1 v2 v3)
  | .setRefForce ptr v1 v2 v3 => some (ik.modifyCell ptr fun c => c.setRefForce v1 v2 v3)
  | .setWeight ptr w => some (ik.modifyCell ptr fun c => c.setWeight w)
  | .enable ptr => some (ik.modifyCell ptr fun c => { c with attr := c.attr.enable })
  | .disable ptr => some (ik.modifyCell ptr fun c => { c with attr := c.attr.disable })
  | .setAttr ptr a => some (ik.modifyCell ptr fun c => { c with attr := a })
  | .deactivate => some ik.deactivate
  | .bind => ik.bind
  | .chain o => (o.run ik.chain).map fun c => { ik with chain := c }
  | .eq => ik.eq
  | .solveRate => ik.solveRate
  | .solveOne dis dt => (ik.solveOne dis dt).map Prod.fst
  | .solve n dis tol iter => (ik.solve n dis tol iter).map fun r => r.2.1

/-- A history of calls, oldest first. -/
def IK.runAll (ik : IK K) : List (IK.Op K) → Option (IK K)
  | [] => some ik
  | o :: os => (o.run ik).bind fun ik' => ik'.runAll os

namespace Spec

/-- The least natural number that is not in a list. -/
noncomputable def leastUnused (l : List ℕ) : ℕ := sInf {n | n ∉ l}

/-- The table of the registered constraints, address and identifier, after a call: a new constraint
takes the least identifier that is not in use. -/
noncomputable def ikTableStep {K : Type*} (t : List (ℕ × ℕ)) : IK.Op K → List (ℕ × ℕ)
  | .cellReg ptr _ _ _ => (ptr, leastUnused (t.map Prod.snd)) :: t
  | .cellUnreg ptr => t.filter (fun e => e.1 ≠ ptr)
  | _ => t

/-- The table of the constraints that a history has registered and not unregistered. -/
noncomputable def ikTable {K : Type*} (ops : List (IK.Op K)) : List (ℕ × ℕ) := ops.foldl ikTableStep []

/-- The allocator gives every new constraint an address that is not in use. -/
def FreshFrom {K : Type*} (t : List (ℕ × ℕ)) : List (IK.Op K) → Prop
  | [] => True
  | o :: os => (∀ ptr attr mask fns, o = .cellReg ptr attr mask fns → ∀ e ∈ t, e.1 ≠ ptr) ∧
      FreshFrom (ikTableStep t o) os

/-- A joint that can be registered: link `i` exists and its joint is movable. -/
def Movable {K : Type*} (ls : List (Link K)) (i : ℕ) : Prop :=
  ∃ l, ls[i]? = some l ∧ 0 < l.joint.prp.size

open Classical in
/-- The registered joints after a call, each with its weight. -/
noncomputable def ikJointsStep {K : Type*} (ls : List (Link K)) (reg : ℕ → Option K) :
    IK.Op K → ℕ → Option K
  | .jointReg id w, i => if (i : ℤ) = id ∧ Movable ls i then some w else reg i
  | .jointUnreg id, i => if (i : ℤ) = id then none else reg i
  | .jointRegAll w, i => if Movable ls i then some w else reg i
  | _, i => reg i

/-- The joints that a history has registered and not unregistered, each with its latest weight. -/
noncomputable def ikJoints {K : Type*} (ls : List (Link K)) (ops : List (IK.Op K)) : ℕ → Option K :=
  ops.foldl (ikJointsStep ls) (fun _ => none)

/-- The joint of link `i` is registered somewhere in a history. -/
def ikEver {K : Type*} (ops : List (IK.Op K)) (i : ℕ) : Prop :=
  ∃ w, IK.Op.jointReg (i : ℤ) w ∈ ops ∨ IK.Op.jointRegAll w ∈ ops

/-- The position of a joint among the components of the registered joints: the number of components
of the registered joints before it. -/
def ikOfs {K : Type*} (ls : List (Link K)) (reg : ℕ → Option K) (i : ℕ) : ℕ :=
  (((List.range i).filter fun j => (reg j).isSome).map fun j => (ls[j]?.map fun l => l.joint.prp.size).getD 0).sum

end Spec
end Roki
