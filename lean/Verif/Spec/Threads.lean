import Verif.Spec.History
set_option autoImplicit false

/-! # Specification: several robots used by several threads (C126) -/

namespace Roki.Spec
variable {K : Type*} [Field K] [LinearOrder K] [Zm K]

/-- The state of a program: its robots, and the one variable of the library that is not part of a robot, the acceleration of gravity
`rk_gravity6D` (src/rk_g3d.c:13), of which `rkGravitySet` (include/roki/rk_g3d.h:25) writes the vertical component. -/
structure World (K : Type*) where
  gravity : K
  robot : ℕ → Chain K

/-- A call: an action on a robot, or a change of gravity. -/
inductive Call (K : Type*) where
  | act (i : ℕ) (a : Act K)
  | gravity (g : K)

/-- `rkChainUpdateID` takes the gravity of the library (include/roki/rk_chain.h:264-266). -/
def Act.under (g : K) : Act K → Act K
  | .updateID _ => .updateID ⟨⟨0, 0, g⟩, 0⟩
  | a => a

/-- The effect of a call; `none` is undefined behaviour. -/
def Call.run (w : World K) : Call K → Option (World K)
  | .act i a => ((a.under w.gravity).run (w.robot i)).map fun c => { w with robot := fun j => if j = i then c else w.robot j }
  | .gravity g => some { w with gravity := g }

/-- The calls of all threads in the order in which they happen. -/
def runCalls : List (Call K) → World K → Option (World K)
  | [], w => some w
  | x :: xs, w => (x.run w).bind (runCalls xs)

/-- The actions on robot `i` alone, in their order, each with the gravity at its time. -/
def actsOf (i : ℕ) : K → List (Call K) → List (Act K)
  | _, [] => []
  | g, .act j a :: xs => if j = i then a.under g :: actsOf i g xs else actsOf i g xs
  | _, .gravity g :: xs => actsOf i g xs

/-- The gravity at the end. -/
def gravityAfter : K → List (Call K) → K
  | g, [] => g
  | g, .act _ _ :: xs => gravityAfter g xs
  | _, .gravity g :: xs => gravityAfter g xs

end Roki.Spec
