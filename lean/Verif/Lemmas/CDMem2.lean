import Verif.Lemmas.CDMem
set_option autoImplicit false

/-! # Memory of the collision detector: the query that replaces polyhedra -/

namespace Roki.Mem.CD
open Spec

theorem map_unique {cs : List Cell} {h : Heap} {s : Multiset ℕ} (o : Own h ((cs.map cellBlocks).sum + s)) {c : Cell} (hc : c ∈ cs) (q : Option ℕ) :
    ((cs.map fun d => if d.blk = c.blk then { d with ph := q } else d).map cellBlocks).sum + pts c.ph = (cs.map cellBlocks).sum + pts q := by
  obtain ⟨l1, l2, rfl⟩ := List.append_of_mem hc
  have hn : (((l1 ++ c :: l2).map cellBlocks).sum).Nodup := Multiset.nodup_of_le (Multiset.le_add_right _ _) o.nodup
  rw [List.map_append, List.sum_append, List.map_cons, List.sum_cons] at hn
  have hn' : (cellBlocks c + ((l1.map cellBlocks).sum + (l2.map cellBlocks).sum)).Nodup := by
    convert hn using 1; abel
  rw [Multiset.nodup_add] at hn'
  have key : ∀ x ∈ l1 ++ l2, x.blk ≠ c.blk := by
    intro x hx he
    refine Multiset.disjoint_left.1 hn'.2.2 (show c.blk ∈ cellBlocks c by simp [cellBlocks]) ?_
    have h1 : c.blk ∈ cellBlocks x := by simp [cellBlocks, he]
    rcases List.mem_append.1 hx with hx | hx
    · exact Multiset.mem_add.2 (Or.inl (Multiset.mem_of_le (le_sum cellBlocks hx) h1))
    · exact Multiset.mem_add.2 (Or.inr (Multiset.mem_of_le (le_sum cellBlocks hx) h1))
  have e1 : (l1.map fun d => if d.blk = c.blk then { d with ph := q } else d) = l1 := by
    conv_rhs => rw [← List.map_id l1]
    exact List.map_congr_left fun x hx => if_neg (key x (List.mem_append_left _ hx))
  have e2 : (l2.map fun d => if d.blk = c.blk then { d with ph := q } else d) = l2 := by
    conv_rhs => rw [← List.map_id l2]
    exact List.map_congr_left fun x hx => if_neg (key x (List.mem_append_right _ hx))
  rw [List.map_append, List.map_cons, e1, e2, if_pos rfl]
  simp only [List.map_append, List.map_cons, List.sum_append, List.sum_cons, cellBlocks]
  abel

/-- The cells are those of before; they have polyhedra. -/
structure SameCells (cd cd' : CD) : Prop where
  blk : cd'.cells.map (·.blk) = cd.cells.map (·.blk)
  pairs : cd'.pairs = cd.pairs
  ph : ∀ c ∈ cd'.cells, c.ph.isSome

theorem SameCells.has {cd cd' : CD} (k : SameCells cd cd') {b : ℕ} (hb : ∃ c ∈ cd.cells, c.blk = b) : ∃ c ∈ cd'.cells, c.blk = b := by
  have : b ∈ cd'.cells.map (·.blk) := by rw [k.blk]; simpa using hb
  simpa using this

theorem SameCells.trans {a b c : CD} (h : SameCells a b) (k : SameCells b c) : SameCells a c :=
  ⟨by rw [k.blk, h.blk], by rw [k.pairs, h.pairs], k.ph⟩

theorem reshape_spec (cd : CD) (b : ℕ) (hb : ∃ c ∈ cd.cells, c.blk = b) (hph : ∀ c ∈ cd.cells, c.ph.isSome) {h : Heap} {s : Multiset ℕ}
    (o : Own h ((cd.cells.map cellBlocks).sum + s)) (g : Granted h) :
    ∃ cd' h', reshape cd b h = some (cd', h') ∧ Own h' ((cd'.cells.map cellBlocks).sum + s) ∧ Granted h' ∧ SameCells cd cd' := by
  obtain ⟨c, hc, rfl, e1⟩ := getCell_spec cd b o (Multiset.le_add_right _ _) hb
  have hsum := fun q => map_unique o hc q
  have h0 := hsum none
  simp only [pts_none, add_zero] at h0
  obtain ⟨h1, e2, o2, k2⟩ := Own.free' (p := c.ph)
    (s := ((cd.cells.map fun d => if d.blk = c.blk then { d with ph := none } else d).map cellBlocks).sum + s)
    (o.congr (by rw [← h0]; abel))
  obtain ⟨q, h2, e3, o3, k3, n3⟩ := Own.alloc' o2
  refine ⟨{ cd with cells := cd.cells.map fun d => if d.blk = c.blk then { d with ph := q } else d }, h2, ?_, o3.congr ?_,
    fun n => by rw [k3, k2]; exact g n, ⟨?_, rfl, ?_⟩⟩
  · unfold reshape; rw [bind_eq e1, bind_eq e2, bind_eq e3]; rfl
  · have := hsum q
    rw [← h0] at this
    have h4 : ((cd.cells.map fun d => if d.blk = c.blk then { d with ph := q } else d).map cellBlocks).sum =
        pts q + ((cd.cells.map fun d => if d.blk = c.blk then { d with ph := none } else d).map cellBlocks).sum := by
      refine add_right_cancel (b := pts c.ph) ?_
      rw [this]; abel
    dsimp only
    rw [h4]; abel
  · dsimp only
    rw [List.map_map]
    exact List.map_congr_left fun x _ => by dsimp only [Function.comp]; split <;> rfl
  · intro x hx
    obtain ⟨y, hy, rfl⟩ := List.mem_map.1 hx
    split
    · exact n3 (by rw [k2]; exact g)
    · exact hph y hy

theorem obbPairs_spec : ∀ (ps : List CPair) (os : List Outcome) (cd : CD) {h : Heap} {s : Multiset ℕ},
    Own h ((cd.cells.map cellBlocks).sum + ((ps.map pairBlocks).sum + s)) → Granted h →
    (∀ p ∈ ps, (∃ c ∈ cd.cells, c.blk = p.c0) ∧ (∃ c ∈ cd.cells, c.blk = p.c1)) → (∀ c ∈ cd.cells, c.ph.isSome) →
    ∃ r h', obbPairs ps os cd h = some (r, h') ∧ Own h' ((r.1.cells.map cellBlocks).sum + ((r.2.map pairBlocks).sum + s)) ∧ Granted h' ∧
      SameCells cd r.1 ∧ r.2.map (fun p => (p.blk, p.c0, p.c1)) = ps.map (fun p => (p.blk, p.c0, p.c1))
  | [], os, cd, h, s, o, g, hp, hph => ⟨(cd, []), h, rfl, o, g, ⟨rfl, rfl, hph⟩, rfl⟩
  | p :: ps, os, cd, h, s, o, g, hp, hph => by
    unfold obbPairs
    cases hcol : (os.headD Outcome.none).col with
    | true =>
      rw [if_pos rfl]
      obtain ⟨c1, g1, e1, o1, k1, q1⟩ := reshape_spec cd p.c0 (hp p (by simp)).1 hph o g
      obtain ⟨c2, g2, e2, o2, k2, q2⟩ := reshape_spec c1 p.c1 (q1.has (hp p (by simp)).2) q1.ph o1 k1
      have q := q1.trans q2
      obtain ⟨a, ha, -, e3⟩ := getCell_spec c2 p.c0 o2 (Multiset.le_add_right _ _) (q.has (hp p (by simp)).1)
      obtain ⟨b, hb, -, e4⟩ := getCell_spec c2 p.c1 o2 (Multiset.le_add_right _ _) (q.has (hp p (by simp)).2)
      obtain ⟨vs, g5, e5, o5, k5, -⟩ := vertRegs_spec c2 q.ph a b ha hb (os.headD Outcome.none).verts o2 (Multiset.le_add_right _ _)
      obtain ⟨g6, e6, o6, k6⟩ := IK.freeAll_spec (p.verts.map (·.blk))
        (s := (c2.cells.map cellBlocks).sum + ((ps.map pairBlocks).sum + (pairBlocks { p with verts := vs } + s)))
        (o5.congr (by simp only [List.map_cons, List.sum_cons, pairBlocks]; abel))
      obtain ⟨r, g7, e7, o7, k7, q7, z7⟩ := obbPairs_spec ps os.tail c2 o6 (fun n => by rw [k6, k5]; exact k2 n)
        (fun x hx => ⟨q.has (hp x (by simp [hx])).1, q.has (hp x (by simp [hx])).2⟩) q.ph
      refine ⟨(r.1, { p with verts := vs } :: r.2), g7, ?_, o7.congr (by simp only [List.map_cons, List.sum_cons]; abel), k7, q.trans q7, ?_⟩
      · rw [bind_eq e1, bind_eq e2, bind_eq e3, bind_eq e4, bind_eq e5, bind_eq e6, bind_eq e7]; rfl
      · simp only [List.map_cons, z7]
    | false =>
      rw [if_neg (by simp)]
      obtain ⟨p', g1, e1, o1, k1, q1⟩ := dropVerts_spec cd p (s := (cd.cells.map cellBlocks).sum + ((ps.map pairBlocks).sum + s))
        (o.congr (by simp only [List.map_cons, List.sum_cons]; abel))
      obtain ⟨r, g7, e7, o7, k7, q7, z7⟩ := obbPairs_spec ps os.tail cd (s := pairBlocks p' + s) (o1.congr (by abel))
        (fun n => by rw [k1]; exact g n) (fun x hx => hp x (by simp [hx])) hph
      have hb : p'.blk = p.blk := by
        have e2 : dropVerts p h = some ({ p with verts := [] }, g1) := by
          unfold dropVerts at e1 ⊢
          obtain ⟨g2, e3, -, -⟩ := IK.freeAll_spec (p.verts.map (·.blk))
            (s := {p.blk} + (p.planes : Multiset ℕ) + pts p.vol + ((cd.cells.map cellBlocks).sum + ((ps.map pairBlocks).sum + s)))
            (o.congr (by simp only [List.map_cons, List.sum_cons, pairBlocks]; abel))
          rw [bind_eq e3] at e1 ⊢
          have e4 : some (({ p with verts := [] } : CPair), g2) = some (p', g1) := e1
          injection e4 with e4
          injection e4 with e4 e5
          rw [← e5]; rfl
        rw [e1] at e2
        injection e2 with e2
        injection e2 with e2 _
        rw [e2]
      refine ⟨(r.1, p' :: r.2), g7, ?_, o7.congr (by simp only [List.map_cons, List.sum_cons]; abel), k7, q7, ?_⟩
      · rw [bind_eq e1, bind_eq e7]; rfl
      · simp only [List.map_cons, z7, hb, q1.c0, q1.c1]

theorem obbVert_spec (os : List Outcome) (cd : CD) {h : Heap} {s : Multiset ℕ} (o : Own h (cdBlocks cd + s)) (g : Granted h)
    (hph : ∀ c ∈ cd.cells, c.ph.isSome) (hp : ∀ p ∈ cd.pairs, (∃ c ∈ cd.cells, c.blk = p.c0) ∧ (∃ c ∈ cd.cells, c.blk = p.c1)) :
    ∃ cd' h', obbVert os cd h = some (cd', h') ∧ Own h' (cdBlocks cd' + s) ∧ Granted h' ∧ (∀ c ∈ cd'.cells, c.ph.isSome) ∧
      (∀ p ∈ cd'.pairs, (∃ c ∈ cd'.cells, c.blk = p.c0) ∧ (∃ c ∈ cd'.cells, c.blk = p.c1)) := by
  obtain ⟨g1, e1, o1, k1⟩ := resetPairs_spec cd.pairs (s := (cd.cells.map cellBlocks).sum + s) (o.congr (by rw [cdBlocks]; abel))
  have er : reset cd h = some ({ cd with pairs := cd.pairs.map fun p => { p with planes := [], vol := none } }, g1) := by
    unfold reset; rw [bind_eq e1]; rfl
  obtain ⟨r, g2, e2, o2, k2, q2, z2⟩ := obbPairs_spec (cd.pairs.map fun p => { p with planes := [], vol := none }) os
    { cd with pairs := cd.pairs.map fun p => { p with planes := [], vol := none } } (s := s) (o1.congr (by abel))
    (fun n => by rw [k1]; exact g n) (by
      intro p hp'
      obtain ⟨q, hq, rfl⟩ := List.mem_map.1 hp'
      exact hp q hq) hph
  refine ⟨{ r.1 with pairs := r.2 }, g2, by unfold obbVert; rw [bind_eq er, bind_eq e2]; rfl, o2.congr (by rw [cdBlocks, add_assoc]), k2, q2.ph, ?_⟩
  intro p hp'
  have hm : (p.blk, p.c0, p.c1) ∈ r.2.map (fun p => (p.blk, p.c0, p.c1)) := List.mem_map.2 ⟨p, hp', rfl⟩
  rw [z2, List.map_map] at hm
  obtain ⟨q, hq, e⟩ := List.mem_map.1 hm
  simp only [Function.comp, Prod.mk.injEq] at e
  rw [← e.2.1, ← e.2.2]
  exact ⟨q2.has (hp q hq).1, q2.has (hp q hq).2⟩

end Roki.Mem.CD
