import Verif.Model.ABI
import Mathlib.Algebra.BigOperators.Group.Finset.Basic
set_option autoImplicit false

/-! # Vocabulary for the statements about forward dynamics -/

namespace Roki
variable {K : Type*}

/-- The caller attaches the list `W i` of additional forces to link `i`, by
`rkWrenchListPush( &rkLinkABIPrp(link)->wlist, w )`; nothing else changes. -/
def Chain.withForces (W : ℕ → WrenchList K) (c : Chain K) : Chain K :=
  { c with link := c.link.mapIdx fun i l => { l with abi := { l.abi with wlist := W i } } }

/-- The lists of additional forces when each of two optional forces acts on its link and no other
force is attached. -/
def forcesTwo (a b : Option (ℕ × Wrench K)) (i : ℕ) : WrenchList K :=
  (match b with | some (j, w) => if j = i then [w] else [] | none => []) ++
  (match a with | some (j, w) => if j = i then [w] else [] | none => [])

end Roki

namespace Roki.Spec
variable {K : Type*} [Field K]

/-- The inertia seen by the joint of `l`, as left by the update of forward dynamics, is not singular:
not tiny for joints with one degree of freedom, invertible for floating joints. -/
def AxisRegular [Zm K] (l : Link K) : Prop :=
  match l.joint.prp with
  | .revol _ => Zm.tiny (l.abi.axi 0 0) = false
  | .prism _ => Zm.tiny (l.abi.axi 0 0) = false
  | .float _ => ∃ g : ℕ → ℕ → K, ∀ i < 6, ∀ k < 6,
      ∑ j ∈ Finset.range 6, l.abi.axi i j * g j k = if i = k then 1 else 0
  | .brfloat _ => ∃ g : ℕ → ℕ → K, ∀ i < 6, ∀ k < 6,
      ∑ j ∈ Finset.range 6, l.abi.axi i j * g j k = if i = k then 1 else 0
  | _ => True

end Roki.Spec

namespace Roki
variable {K : Type*} [Field K]

/-- The joint types for which the articulated-body formulas of the library are complete: fixed,
revolute, floating and breakable. -/
def Prp.ABIGood : Prp K → Prop
  | .fixed | .revol _ | .float _ | .brfloat _ => True
  | _ => False

/-- A prismatic joint is in order at the root, where it adds nothing to a parent. -/
def Prp.ABIRootGood : Prp K → Prop
  | .prism _ => True
  | p => p.ABIGood

/-- The generalised forces that motor, friction and inertia of the motor apply to a joint with its
current velocity and acceleration; nothing acts on a floating joint. -/
def Spec.appliedTrq (p : Prp K) : List K :=
  match p with
  | .revol p => [p.motor.drivingTrq p.vel p.acc + p.tf]
  | .prism p => [p.motor.drivingTrq p.vel p.acc + p.tf]
  | .float _ => [0, 0, 0, 0, 0, 0]
  | .brfloat _ => [0, 0, 0, 0, 0, 0]
  | _ => []

end Roki
