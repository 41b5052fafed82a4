import Verif.Lemmas.CDMem2
import Verif.Props.ChainMem
set_option autoImplicit false

/-!
# Memory of the collision detector (C99)
-/

namespace Roki
open Mem Spec

/-- **C99**, all histories.  Whatever calls are made (chains and pairs registered and unregistered, queries except
`rkCDColChkOBBVert`, resets, planes added, destruction), and whatever requests for memory are denied: no call is undefined (no
access to released memory, nothing released twice), all pointers of the detector lead to live parts of it, and the live blocks
are each block of the detector once, those of before, and `L`: at most one block for each call that registered a chain, and none
at all if no request was denied. -/
theorem C99_history_partial (ops : List CD.Op) (h : Heap) (w : HeapOK h) :
    ∃ cd h' L, CD.run ops CD.create h = some (cd, h') ∧ HeapOK h' ∧ (h'.live : Multiset ℕ) = cdBlocks cd + (L + h.live) ∧
      CDSound cd ∧ L.card ≤ regs ops ∧ (Granted h → L = 0) := by
  obtain ⟨cd, h', L, e, o, -, q1, q2, q3⟩ := CD.run_spec ops CD.create (own_of_heapOK w (s := cdBlocks CD.create + h.live)
    (by simp [cdBlocks, CD.create])) CD.sound_create
  exact ⟨cd, h', L, e, o.heapOK.1, o.heapOK.2, q1, q2, q3⟩

theorem CD.run_append (xs ys : List CD.Op) (cd : CD) (h : Heap) :
    CD.run (xs ++ ys) cd h = (CD.run xs cd h).bind fun r => CD.run ys r.1 r.2 := by
  induction xs generalizing cd h with
  | nil => rfl
  | cons x xs ih =>
    show (CD.step cd x h).bind (fun r => CD.run (xs ++ ys) r.1 r.2) = ((CD.step cd x h).bind fun r => CD.run xs r.1 r.2).bind _
    cases CD.step cd x h with
    | none => rfl
    | some r => exact ih r.1 r.2

/-- **C99**, destruction.  A detector that is destroyed has returned everything, whatever happened before, if no request was
denied; it can then be used again. -/
theorem C99_destroy (ops : List CD.Op) (h : Heap) (w : HeapOK h) (g : Granted h) :
    ∃ h', CD.run (ops ++ [.destroy]) CD.create h = some (CD.create, h') ∧ HeapOK h' ∧ (h'.live : Multiset ℕ) = h.live := by
  obtain ⟨cd, h1, L, e1, w1, l1, -, -, z⟩ := C99_history_partial ops h w
  rw [z g, zero_add] at l1
  obtain ⟨h2, e2, o2, -⟩ := CD.destroy_spec cd (own_of_heapOK w1 l1)
  refine ⟨h2, ?_, o2.heapOK.1, o2.heapOK.2⟩
  rw [CD.run_append, e1]
  show (CD.step cd .destroy >>= fun cd' => CD.run [] cd') h1 = _
  have e3 : CD.step cd .destroy h1 = some (CD.create, h2) := e2
  rw [bind_eq e3]; rfl

/-- **C99**, contact vertices.  Each contact vertex found by a query points into a polyhedron that is live, that of a registered
cell of its pair. -/
theorem C99_vertices_partial (ops : List CD.Op) (h : Heap) (w : HeapOK h) :
    ∃ cd h', CD.run ops CD.create h = some (cd, h') ∧
      ∀ p ∈ cd.pairs, ∀ v ∈ p.verts, v.blk ∈ h'.live ∧ ∃ c ∈ cd.cells, (c.blk = p.c0 ∨ c.blk = p.c1) ∧ ∃ b, v.ph = some b ∧ c.ph = some b ∧ b ∈ h'.live := by
  obtain ⟨cd, h', L, e, -, l, q, -⟩ := C99_history_partial ops h w
  refine ⟨cd, h', e, fun p hp v hv => ⟨?_, ?_⟩⟩
  · have : v.blk ∈ (h'.live : Multiset ℕ) := by
      rw [l, cdBlocks]
      refine Multiset.mem_add.2 (Or.inl (Multiset.mem_add.2 (Or.inr (Multiset.mem_of_le (CD.le_sum pairBlocks hp) ?_))))
      simp only [pairBlocks, Multiset.mem_add, Multiset.mem_coe, List.mem_map]
      exact Or.inl (Or.inl (Or.inr ⟨v, hv, rfl⟩))
    simpa using this
  · obtain ⟨c, hc, hx, hph⟩ := q.vert p hp v hv
    obtain ⟨b, hb⟩ := Option.isSome_iff_exists.1 (q.ph c hc)
    refine ⟨c, hc, hx, b, by rw [hph, hb], hb, ?_⟩
    have : b ∈ (h'.live : Multiset ℕ) := by
      rw [l, cdBlocks]
      refine Multiset.mem_add.2 (Or.inl (Multiset.mem_add.2 (Or.inl (Multiset.mem_of_le (CD.le_sum cellBlocks hc) ?_))))
      simp [cellBlocks, hb]
    simpa using this

/-- **C99**, `rkCDColChkOBBVert` after any history: if no request is denied it is defined, loses and releases nothing that it
should not, and keeps the cells.  Missing: that the contact vertices of all pairs point to live polyhedra, which is false. -/
theorem C99_obb_partial (ops : List CD.Op) (os : List Outcome) (h : Heap) (w : HeapOK h) (g : Granted h) :
    ∃ cd h1 cd' h', CD.run ops CD.create h = some (cd, h1) ∧ CD.obbVert os cd h1 = some (cd', h') ∧ HeapOK h' ∧
      (h'.live : Multiset ℕ) = cdBlocks cd' + h.live ∧
      (∀ c ∈ cd'.cells, c.ph.isSome) ∧ (∀ p ∈ cd'.pairs, (∃ c ∈ cd'.cells, c.blk = p.c0) ∧ (∃ c ∈ cd'.cells, c.blk = p.c1)) := by
  obtain ⟨cd, h1, L, e1, o1, k1, q1, -, z⟩ := CD.run_spec ops CD.create (own_of_heapOK w (s := cdBlocks CD.create + h.live)
    (by simp [cdBlocks, CD.create])) CD.sound_create
  rw [z g, zero_add] at o1
  obtain ⟨cd', h', e2, o2, -, q2, q3⟩ := CD.obbVert_spec os cd o1 (fun n => by rw [k1]; exact g n) q1.ph q1.pair
  exact ⟨cd, h1, cd', h', e1, e2, o2.heapOK.1, o2.heapOK.2, q2, q3⟩

namespace Sample.CDMem

/-- A moving chain with one shape, then another with one, then a third. -/
def reg3 : List CD.Op := [.chainReg 0 false [(0, [])], .chainReg 1 false [(1, [])], .chainReg 2 false [(2, [])]]

/-- A collision with one vertex of the first cell and one of the second inside the other. -/
def hit : Outcome := ⟨true, [(false, true), (true, true)], true, true, true⟩

/-- Registration, queries, a plane, a pair unregistered and registered again, a chain unregistered. -/
def prog : List CD.Op := reg3 ++ [.query .vert [hit, hit, hit], .query .vol [hit, hit], .addPlane 0, .pairUnreg 0 1, .pairReg 0 1,
  .query .brepVert [hit], .query .vert [hit], .chainUnreg 2]

def heap : Heap := ⟨[], 0, fun _ => true⟩

/-- All requests but the second are granted. -/
def poor : Heap := ⟨[], 0, fun n => n != 1⟩

theorem heapOK (ok : ℕ → Bool) : HeapOK ⟨[], 0, ok⟩ := ⟨by simp, by simp⟩

end Sample.CDMem
open Sample.CDMem

/-- The sample is not trivial: after it there are two cells and one pair, with a contact vertex. -/
example : ((CD.run prog CD.create heap).map fun r => (r.1.cells.length, r.1.pairs.map fun p => p.verts.length)) = some (2, [2]) := by decide +kernel

example : HeapOK heap ∧ Granted heap := ⟨heapOK _, fun _ => rfl⟩

/-- **C99** fails when a request is denied: if there is no memory for the copy of the polyhedron, the cell is lost — it belongs to
no list, and stays live when the detector is destroyed. -/
theorem C99_denied_fails :
    ¬ ∀ (ops : List CD.Op) (h : Heap), HeapOK h → ∃ h', CD.run (ops ++ [.destroy]) CD.create h = some (CD.create, h') ∧
      (h'.live : Multiset ℕ) = h.live := by
  intro hh
  obtain ⟨h', e, l⟩ := hh [.chainReg 0 false [(0, [])]] poor (heapOK _)
  have hx : ((CD.run ([.chainReg 0 false [(0, [])]] ++ [.destroy]) CD.create poor).map fun r => r.2.live) = some [0] := by decide +kernel
  rw [e] at hx
  simp only [Option.map_some, Option.some.injEq] at hx
  rw [hx] at l
  exact absurd (congrArg Multiset.card l) (by decide)

/-- **C99** fails for `rkCDColChkOBBVert`: when a cell is in two colliding pairs, its polyhedron is released and made anew for the
second of them, and the contact vertices of the first are left pointing to released memory. -/
theorem C99_obb_fails :
    ∃ cd h1 cd' h', CD.run reg3 CD.create heap = some (cd, h1) ∧ CD.obbVert [hit, hit, hit] cd h1 = some (cd', h') ∧
      ∃ p ∈ cd'.pairs, ∃ v ∈ p.verts, ∃ b, v.ph = some b ∧ b ∉ h'.live := by
  have hx : ((CD.run reg3 CD.create heap).bind fun r => (CD.obbVert [hit, hit, hit] r.1 r.2).map fun q =>
      q.1.pairs.any fun p => p.verts.any fun v => v.ph.any fun b => !(q.2.live.contains b)) = some true := by decide +kernel
  obtain ⟨cd, h1, cd', h', e1, e2, -⟩ := C99_obb_partial reg3 [hit, hit, hit] heap (heapOK _) (fun _ => rfl)
  refine ⟨cd, h1, cd', h', e1, e2, ?_⟩
  rw [e1] at hx
  simp only [Option.bind_some] at hx
  rw [e2] at hx
  simp only [Option.map_some, Option.some.injEq, List.any_eq_true, Option.any_eq_true, Bool.not_eq_true', List.contains_iff_mem,
    ← Bool.not_eq_true] at hx
  obtain ⟨p, hp, v, hv, b, hb, hn⟩ := hx
  exact ⟨p, hp, v, hv, b, hb, by simpa using hn⟩

end Roki
