import Verif.Model.Mem
set_option autoImplicit false

/-! # What a solver should do with memory (C94) -/

namespace Roki.Spec
open Mem

/-- A heap that a program can have: no block twice, and the next one is new. -/
structure HeapOK (h : Heap) : Prop where
  nodup : h.live.Nodup
  lt : ∀ b ∈ h.live, b < h.next

/-- Every request is granted. -/
def Granted (h : Heap) : Prop := ∀ n, h.ok n = true

/-- Before the first constraint, a joint with coordinates is registered. -/
def JointsFirst (size : List ℕ) (ops : List IK.Op) : Prop :=
  ∀ k : ℕ, ops[k]? = some .cellReg →
    ∃ (j i n : ℕ), j < k ∧ ops[j]? = some (.jointReg i) ∧ size[i]? = some n ∧ n ≠ 0

/-- The number of calls that register or unregister a constraint and leave some constraint registered, if `n` are registered
before. -/
def changes : ℕ → List IK.Op → ℕ
  | _, [] => 0
  | n, .cellReg :: os => 1 + changes (n + 1) os
  | n, .cellUnreg k :: os => if k < n then (if n = 1 then 0 else 1) + changes (n - 1) os else changes n os
  | n, .jointReg _ :: os => changes n os
  | n, .jointUnreg _ :: os => changes n os

/-- A call that registers or removes a joint, but does not register one that has coordinates. -/
def Unmoving (size : List ℕ) : IK.Op → Prop
  | .jointReg id => 0 ≤ id → ∀ n, size[id.toNat]? = some n → n = 0
  | .jointUnreg _ => True
  | _ => False

end Roki.Spec
