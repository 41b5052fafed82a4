import Verif.Model.CDMem
import Verif.Spec.ChainMem
set_option autoImplicit false

/-! # What a collision detector should do with memory (C99) -/

namespace Roki.Spec
open Mem

/-- A cell and its polyhedron. -/
def cellBlocks (c : Cell) : Multiset ℕ := {c.blk} + pts c.ph

/-- A pair, its contact vertices, its planes and its collision volume. -/
def pairBlocks (p : CPair) : Multiset ℕ := {p.blk} + (p.verts.map (·.blk) : List ℕ) + (p.planes : Multiset ℕ) + pts p.vol

/-- The blocks of a detector. -/
def cdBlocks (cd : CD) : Multiset ℕ := (cd.cells.map cellBlocks).sum + (cd.pairs.map pairBlocks).sum

/-- The pointers of a detector lead to live parts of it: every cell has a polyhedron, the cells of a pair are registered, and a
contact vertex points into the polyhedron of a cell of its pair. -/
structure CDSound (cd : CD) : Prop where
  ph : ∀ c ∈ cd.cells, c.ph.isSome
  pair : ∀ p ∈ cd.pairs, (∃ c ∈ cd.cells, c.blk = p.c0) ∧ (∃ c ∈ cd.cells, c.blk = p.c1)
  vert : ∀ p ∈ cd.pairs, ∀ v ∈ p.verts, ∃ c ∈ cd.cells, (c.blk = p.c0 ∨ c.blk = p.c1) ∧ v.ph = c.ph

/-- The number of calls that register a chain. -/
def regs : List CD.Op → ℕ
  | [] => 0
  | .chainReg _ _ _ :: os => 1 + regs os
  | _ :: os => regs os

end Roki.Spec
