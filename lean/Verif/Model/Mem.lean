import Mathlib.Data.List.Basic
import Mathlib.Data.Int.Notation
set_option autoImplicit false

/-!
# Memory of the inverse kinematics solver

The blocks that `rkIKCreate`, `rkIKJointReg`, `rkIKCellReg` and the functions they call obtain and release.  A block is a
number.  Every object of a library (vector, matrix, index, array) is one block.  A request may be denied: the heap says
which ones are.
-/

namespace Roki.Mem

/-- The live blocks, the number of requests so far, and which requests are granted. -/
structure Heap where
  live : List ℕ
  next : ℕ
  ok : ℕ → Bool

/-- A computation on the heap; `none` is undefined behaviour. -/
abbrev M := StateT Heap Option

/-- `zAlloc`, `zVecAlloc`, `zMatAlloc`, `zIndexCreate`: a new block, or a null pointer if the request is denied
(all of ZEDA and ZM, called at src/rk_ik.c:46-50, 88, 109, 125-127, 171-173, 184). -/
def alloc : M (Option ℕ) := fun h =>
  if h.ok h.next then some (some h.next, { h with live := h.next :: h.live, next := h.next + 1 })
  else some (none, { h with next := h.next + 1 })

/-- `free`: nothing for a null pointer, undefined for a block that is not live (src/rk_ik.c:63-79). -/
def free (p : Option ℕ) : M Unit := fun h =>
  match p with
  | none => some ((), h)
  | some b => if b ∈ h.live then some ((), { h with live := h.live.erase b }) else none

/-- Access through a pointer: undefined if it is null or the block is not live. -/
def deref (p : Option ℕ) : M Unit := fun h =>
  match p with
  | none => none
  | some b => if b ∈ h.live then some ((), h) else none

/-- What remains in a pointer that was passed to `zVecFree`, `zMatFree` or `zIndexFree` (src/rk_ik.c:87, 108, 121-123, 169-170).
The functions get the pointer by value, so it remains (`nul = false`); if they were macros like `zFree`, they would
reset it. -/
def after (nul : Bool) (p : Option ℕ) : Option ℕ := if nul then none else p

/-- `rkIK`, include/roki/rk_ik.h: the joint sizes of the links of the chain, the switches, and the pointers.  `cells` is the
list of registered constraints. -/
structure IK where
  size : List ℕ
  sw : List Bool
  jointSw : Option ℕ
  jointWeight : Option ℕ
  jointVel : Option ℕ
  cMatCell : Option ℕ
  jIdx : Option ℕ
  jOfs : Option ℕ
  jVel : Option ℕ
  jWn : Option ℕ
  cMat : Option ℕ
  cSrv : Option ℕ
  cWe : Option ℕ
  cc : Option ℕ
  wm : Option ℕ
  wv : Option ℕ
  ws : Option ℕ
  widx : Option ℕ
  cells : List ℕ
deriving DecidableEq

namespace IK

/-- `_rkIKInit`, src/rk_ik.c:15-39. -/
def init (size : List ℕ) : IK :=
  ⟨size, size.map fun _ => false, none, none, none, none, none, none, none, none, none, none, none, none, none, none, none, none, []⟩

/-- `rkIKCreate`, src/rk_ik.c:42-57.  `_j_ofs` is not among the pointers that are tested. -/
def create (size : List ℕ) : M (Bool × IK) := do
  let sw ← alloc
  let weight ← alloc
  let vel ← alloc
  let ofs ← alloc
  let cell ← alloc
  let ik := { init size with jointSw := sw, jointWeight := weight, jointVel := vel, jOfs := ofs, cMatCell := cell }
  pure (sw.isSome && weight.isSome && vel.isSome && cell.isSome, ik)

/-- Release of the list of constraints, `zListDestroy` at src/rk_ik.c:67. -/
def freeAll : List ℕ → M Unit
  | [] => pure ()
  | b :: l => do
    free (some b)
    freeAll l

/-- The pointers that `rkIKDestroy` leaves, src/rk_ik.c:60-80. -/
def released (nul : Bool) (ik : IK) : IK :=
  { ik with
    jointSw := none, jointWeight := none, jointVel := after nul ik.jointVel, cells := [], cMatCell := after nul ik.cMatCell,
    jIdx := after nul ik.jIdx, jOfs := after nul ik.jOfs, jVel := after nul ik.jVel, jWn := after nul ik.jWn,
    cMat := after nul ik.cMat, cSrv := after nul ik.cSrv, cWe := after nul ik.cWe, cc := after nul ik.cc,
    wm := after nul ik.wm, wv := after nul ik.wv, ws := after nul ik.ws, widx := after nul ik.widx }

/-- `rkIKDestroy`, src/rk_ik.c:60-80. -/
def destroy (nul : Bool) (ik : IK) : M IK := do
  free ik.jointSw
  free ik.jointWeight
  free ik.jointVel
  freeAll ik.cells
  free ik.cMatCell
  free ik.jIdx
  free ik.jOfs
  free ik.jVel
  free ik.jWn
  free ik.cMat
  free ik.cSrv
  free ik.cWe
  free ik.cc
  free ik.wm
  free ik.wv
  free ik.ws
  free ik.widx
  pure (ik.released nul)

/-- `_rkIKAllocCMat`, src/rk_ik.c:83-93.  `_j_idx` is only allocated with a positive size. -/
def allocCMat (ik : IK) : M (Bool × IK) :=
  if ik.cells.length = 0 then pure (true, ik)
  else do
    deref ik.jIdx
    free ik.cMat
    deref ik.jVel
    let m ← alloc
    pure (m.isSome, { ik with cMat := m })

/-- The switches after src/rk_ik.c:102-106: off for links without joint coordinates. -/
def clearSw : List ℕ → List Bool → List Bool
  | n :: ns, b :: bs => (b && n != 0) :: clearSw ns bs
  | _, bs => bs

/-- The second half of `_rkIKAllocJointIndex`, src/rk_ik.c:110-135, after `_j_idx` was created. -/
def allocJointVec (nul : Bool) (ik : IK) : M (Bool × IK) := do
  deref ik.jOfs
  free ik.jVel
  free ik.jWn
  free ik.wm
  free ik.wv
  free ik.ws
  free ik.widx
  let ik := { ik with jVel := after nul ik.jVel, jWn := after nul ik.jWn, wm := after nul ik.wm,
                      wv := after nul ik.wv, ws := after nul ik.ws, widx := after nul ik.widx }
  let v ← alloc
  let ik := { ik with jVel := v }
  if v.isNone then pure (false, ik)
  else do
    let n ← alloc
    let ik := { ik with jWn := n }
    if n.isNone then pure (false, ik)
    else do
      let m ← alloc
      let w ← alloc
      let s ← alloc
      let x ← alloc
      let ik := { ik with wm := m, wv := w, ws := s, widx := x }
      if m.isSome && w.isSome && s.isSome && x.isSome then do
        deref ik.jointWeight
        ik.allocCMat
      else pure (false, ik)

/-- `_rkIKAllocJointIndex`, src/rk_ik.c:96-135. -/
def allocJointIndex (nul : Bool) (ik : IK) : M (Bool × IK) := do
  deref ik.jointSw
  let ik := { ik with sw := clearSw ik.size ik.sw }
  if ik.sw.countP (·) = 0 then pure (true, ik)
  else do
    free ik.jIdx
    let x ← alloc
    let ik := { ik with jIdx := x }
    if x.isNone then pure (false, ik) else ik.allocJointVec nul

/-- `rkIKJointReg`, `rkIKJointUnreg`, src/rk_ik.c:137-150. -/
def jointReg (nul : Bool) (ik : IK) (id : ℤ) (sw : Bool) : M (Bool × IK) :=
  if id < 0 || id ≥ ik.size.length then pure (false, ik)
  else do
    deref ik.jointSw
    deref ik.jointWeight
    allocJointIndex nul { ik with sw := ik.sw.set id.toNat sw }

/-- `_rkIKAllocSRV`, src/rk_ik.c:165-178.  The former `__c` is not released. -/
def allocSRV (ik : IK) : M (Bool × IK) :=
  if ik.cells.length = 0 then pure (true, ik)
  else do
    free ik.cSrv
    free ik.cWe
    let s ← alloc
    let w ← alloc
    let c ← alloc
    let ik := { ik with cSrv := s, cWe := w, cc := c }
    if s.isSome && w.isSome && c.isSome then ik.allocCMat else pure (false, ik)

/-- `rkIKCellReg`, src/rk_ik.c:180-201; the place of the new cell in the list is of no concern here. -/
def cellReg (ik : IK) : M (Bool × IK) := do
  let c ← alloc
  match c with
  | none => pure (false, ik)
  | some b => allocSRV { ik with cells := b :: ik.cells }

/-- `rkIKCellUnreg` for the `k`-th cell of the list, src/rk_ik.c:202-207; nothing if there is no such cell. -/
def cellUnreg (ik : IK) (k : ℕ) : M (Bool × IK) :=
  match ik.cells[k]? with
  | none => pure (true, ik)
  | some b => do
    free (some b)
    allocSRV { ik with cells := ik.cells.eraseIdx k }

/-- One call. -/
inductive Op
  | jointReg (id : ℤ)
  | jointUnreg (id : ℤ)
  | cellReg
  | cellUnreg (k : ℕ)

/-- A call on a solver, src/rk_ik.c:145-150, 180-207. -/
def step (nul : Bool) (ik : IK) : Op → M (Bool × IK)
  | .jointReg id => ik.jointReg nul id true
  | .jointUnreg id => ik.jointReg nul id false
  | .cellReg => ik.cellReg
  | .cellUnreg k => ik.cellUnreg k

/-- A history of calls on a solver that was created; what they return is ignored. -/
def run (nul : Bool) : List Op → IK → M IK
  | [], ik => pure ik
  | o :: os, ik => do
    let r ← ik.step nul o
    run nul os r.2

/-- A solver from its creation to its destruction.  The pointer that `rkIKCreate` returns is not tested. -/
def life (nul : Bool) (size : List ℕ) (ops : List Op) : M IK := do
  let r ← create size
  let ik ← run nul ops r.2
  ik.destroy nul

/-- A history of calls that ends at the first one that reports a failure. -/
def runStop (nul : Bool) : List Op → IK → M IK
  | [], ik => pure ik
  | o :: os, ik => do
    let r ← ik.step nul o
    if r.1 then runStop nul os r.2 else pure r.2

/-- A solver that is destroyed after the first call that reports a failure. -/
def lifeStop (nul : Bool) (size : List ℕ) (ops : List Op) : M IK := do
  let r ← create size
  let ik ← if r.1 then runStop nul ops r.2 else pure r.2
  ik.destroy nul

end IK
end Roki.Mem
