import Verif.Model.ChainMem
import Verif.Spec.Mem
import Mathlib.Data.Multiset.AddSub
import Mathlib.Algebra.Order.Group.Multiset
import Mathlib.Algebra.BigOperators.Group.List.Basic
set_option autoImplicit false

/-! # What a chain should do with memory (C98) -/

namespace Roki.Spec
open Mem

/-- The block a pointer refers to. -/
def pts : Option ℕ → Multiset ℕ
  | none => 0
  | some b => {b}

/-- The name and the properties of a motor. -/
def motorBlocks (m : MMotor) : Multiset ℕ := pts m.name + pts m.prp

/-- The blocks of a link that `rkLinkDestroy` releases: name, properties of the joint, lists of wrenches and shapes. -/
def linkCore (l : MLink) : Multiset ℕ := pts l.name + pts l.joint.prp + (l.wrenches : Multiset ℕ) + (l.shapes : Multiset ℕ)

/-- The other blocks of a link: material, and name and properties of the motor of the joint. -/
def linkExtra (l : MLink) : Multiset ℕ := pts l.stuff + motorBlocks l.joint.motor

/-- The blocks of a link for forward dynamics. -/
def linkABI (l : MLink) : Multiset ℕ := pts l.axi + pts l.iaxi + (l.wlist : Multiset ℕ)

/-- The blocks of the array of motors. -/
def motorsCore : Option MMotors → Multiset ℕ
  | none => 0
  | some mo => pts mo.buf + {mo.self}

/-- The blocks of the motors in the array. -/
def motorsExtra : Option MMotors → Multiset ℕ
  | none => 0
  | some mo => (mo.elem.map motorBlocks).sum

/-- The blocks of a chain that `rkChainDestroy` releases. -/
def chainCore (c : MChain) : Multiset ℕ := pts c.name + (c.links.map linkCore).sum + pts c.arr + pts c.shape + motorsCore c.motors

/-- The blocks of a chain that nothing releases. -/
def chainExtra (c : MChain) : Multiset ℕ := (c.links.map linkExtra).sum + motorsExtra c.motors

/-- The blocks of a chain for forward dynamics. -/
def chainABI (c : MChain) : Multiset ℕ := (c.links.map linkABI).sum

/-- A motor has properties exactly if its type has. -/
def MotorOK (m : MMotor) : Prop := m.prp.isSome ↔ m.kind ≠ .none

/-- A joint has properties exactly if it is not fixed, and a motor only if its type has one. -/
structure JointOK (j : MJoint) : Prop where
  prp : j.prp.isSome ↔ j.kind ≠ .fixed
  motor : MotorOK j.motor
  none : j.kind.motored = false → j.motor = MMotor.init

/-- A chain that the functions of the library have made. -/
structure ChainOK (c : MChain) : Prop where
  joint : ∀ l ∈ c.links, JointOK l.joint
  motor : ∀ mo ∈ c.motors, ∀ m ∈ mo.elem, MotorOK m
  empty : c.links = [] → c = MChain.init

/-- What a clone of a link has in common with the original. -/
structure LinkLike (l l' : MLink) : Prop where
  kind : l'.joint.kind = l.joint.kind
  motor : l'.joint.motor.kind = l.joint.motor.kind
  wrenches : l'.wrenches.length = l.wrenches.length
  shapes : l'.shapes.length = l.shapes.length
  stuff : l'.stuff.isSome = l.stuff.isSome

/-- What a clone of a chain has in common with the original. -/
structure ChainLike (c c' : MChain) : Prop where
  links : List.Forall₂ LinkLike c.links c'.links
  shape : c'.shape.isSome = c.shape.isSome
  motors : c'.motors.map (fun mo => mo.elem.map (·.kind)) = c.motors.map (fun mo => mo.elem.map (·.kind))

/-- The blocks of the motor of a clone: a name, and properties if its type has them. -/
def motorCost (k : MotKind) : ℕ := if k = .none then 1 else 2

/-- The number of blocks of a clone that are not released with it. -/
def cloneCost (c : MChain) : ℕ :=
  (c.links.map fun l => (if l.stuff.isSome then 1 else 0) + (if l.joint.kind.motored then motorCost l.joint.motor.kind else 0)).sum +
  (match c.motors with
   | none => 0
   | some mo => (mo.elem.map fun m => motorCost m.kind).sum)

/-- The memory for forward dynamics is obtained only if it is not held, released only if it is held, and not held any more when
the chain is destroyed.  `held` says of which chains it is held. -/
def Orderly : List Bool → List MChain.Op → Prop
  | _, [] => True
  | held, .clone i :: os => if i < held.length then Orderly (held ++ [false]) os else Orderly held os
  | held, .destroy i :: os => held[i]? ≠ some true ∧ Orderly held os
  | held, .abiAlloc i :: os => held[i]? ≠ some true ∧ Orderly (held.set i true) os
  | held, .abiDestroy i :: os => held[i]? ≠ some false ∧ Orderly (held.set i false) os
  | held, .push _ _ :: os => Orderly held os
  | held, .wrenchDestroy _ :: os => Orderly held os

/-- Of which chains the memory for forward dynamics is held after the calls. -/
def heldAfter : List Bool → List MChain.Op → List Bool
  | held, [] => held
  | held, .clone i :: os => if i < held.length then heldAfter (held ++ [false]) os else heldAfter held os
  | held, .abiAlloc i :: os => heldAfter (held.set i true) os
  | held, .abiDestroy i :: os => heldAfter (held.set i false) os
  | held, .destroy _ :: os => heldAfter held os
  | held, .push _ _ :: os => heldAfter held os
  | held, .wrenchDestroy _ :: os => heldAfter held os

/-- The blocks of a chain; those for forward dynamics count if they are held. -/
def blocks (x : MChain × Bool) : Multiset ℕ := chainCore x.1 + chainExtra x.1 + (if x.2 then chainABI x.1 else 0)

/-- The number of blocks that a program loses.  `cost` says of each chain how many blocks are lost with it, and how many with a
clone of it. -/
def lost : List (ℕ × ℕ) → List MChain.Op → ℕ
  | _, [] => 0
  | cost, .clone i :: os =>
    match cost[i]? with
    | none => lost cost os
    | some k => lost (cost ++ [(k.2, k.2)]) os
  | cost, .destroy i :: os =>
    match cost[i]? with
    | none => lost cost os
    | some k => k.1 + lost (cost.set i (0, 0)) os
  | cost, .abiAlloc _ :: os => lost cost os
  | cost, .abiDestroy _ :: os => lost cost os
  | cost, .push _ _ :: os => lost cost os
  | cost, .wrenchDestroy _ :: os => lost cost os

end Roki.Spec
