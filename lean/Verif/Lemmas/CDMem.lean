import Verif.Spec.CDMem
import Verif.Lemmas.ChainMem2
set_option autoImplicit false

/-! # Memory of the collision detector: what each function does with the blocks -/

namespace Roki.Mem.CD
open Spec

theorem le_sum {α : Type} (f : α → Multiset ℕ) {l : List α} {x : α} (hx : x ∈ l) : f x ≤ (l.map f).sum := by
  induction l with
  | nil => simp at hx
  | cons a l ih =>
    rw [List.map_cons, List.sum_cons]
    rcases List.mem_cons.1 hx with rfl | hx
    · exact Multiset.le_add_right _ _
    · exact le_trans (ih hx) (Multiset.le_add_left _ _)

theorem le_of_add {a b c : Multiset ℕ} (d : Multiset ℕ) (h : b = a + d) (hb : b ≤ c) : a ≤ c :=
  le_trans (by rw [h]; exact Multiset.le_add_right _ _) hb

theorem Own.alloc' {h : Heap} {s : Multiset ℕ} (o : Own h s) :
    ∃ p h', Mem.alloc h = some (p, h') ∧ Own h' (pts p + s) ∧ h'.ok = h.ok ∧ ((∀ n, h.ok n = true) → p.isSome) := by
  obtain ⟨p, h', e, o', k, -, hs⟩ := o.alloc
  exact ⟨p, h', e, o'.congr (by rw [pts_eq]), k, fun hk => by rw [hs, hk]⟩

theorem Own.free' {h : Heap} {s : Multiset ℕ} {p : Option ℕ} (o : Own h (pts p + s)) :
    ∃ h', Mem.free p h = some ((), h') ∧ Own h' s ∧ h'.ok = h.ok := by
  obtain ⟨h', e, o', k, -⟩ := Own.free (o.congr (by rw [pts_eq]))
  exact ⟨h', e, o', k⟩

theorem getCell_spec (cd : CD) (b : ℕ) {h : Heap} {s : Multiset ℕ} (o : Own h s) (hs : (cd.cells.map cellBlocks).sum ≤ s)
    (hb : ∃ c ∈ cd.cells, c.blk = b) : ∃ c ∈ cd.cells, c.blk = b ∧ cd.getCell b h = some (c, h) := by
  obtain ⟨c, hc, rfl⟩ := hb
  have hm : c.blk ∈ s := by
    refine Multiset.mem_of_le (le_trans (le_sum cellBlocks hc) hs) ?_
    simp [cellBlocks]
  have hd : deref (some c.blk) h = some ((), h) := o.deref hm
  unfold getCell
  rw [bind_eq hd]
  cases hf : cd.cells.find? fun d => d.blk = c.blk with
  | none => exact absurd (List.find?_eq_none.1 hf c hc) (by simp)
  | some d =>
    refine ⟨d, List.mem_of_find?_eq_some hf, by simpa using List.find?_some hf, rfl⟩

theorem deref_ph {cd : CD} {c : Cell} (hc : c ∈ cd.cells) (hp : c.ph.isSome) {h : Heap} {s : Multiset ℕ} (o : Own h s)
    (hs : (cd.cells.map cellBlocks).sum ≤ s) : deref c.ph h = some ((), h) :=
  o.deref_pts hp (le_trans (le_trans (Multiset.le_add_left _ _) (le_sum cellBlocks hc)) hs)

theorem freePair_spec (p : CPair) {h : Heap} {s : Multiset ℕ} (o : Own h (pairBlocks p + s)) :
    ∃ h', freePair p h = some ((), h') ∧ Own h' s ∧ h'.ok = h.ok := by
  obtain ⟨h1, e1, o1, k1⟩ := IK.freeAll_spec (p.verts.map (·.blk)) (s := (p.planes : Multiset ℕ) + (pts p.vol + (pts (some p.blk) + s)))
    (o.congr (by simp only [pairBlocks, pts_some]; abel))
  obtain ⟨h2, e2, o2, k2⟩ := IK.freeAll_spec p.planes o1
  obtain ⟨h3, e3, o3, k3⟩ := Own.free' o2
  obtain ⟨h4, e4, o4, k4⟩ := Own.free' o3
  exact ⟨h4, by unfold freePair; rw [bind_eq e1, bind_eq e2, bind_eq e3, e4], o4, by rw [k4, k3, k2, k1]⟩

theorem freeCell_spec (c : Cell) {h : Heap} {s : Multiset ℕ} (o : Own h (cellBlocks c + s)) :
    ∃ h', freeCell c h = some ((), h') ∧ Own h' s ∧ h'.ok = h.ok := by
  obtain ⟨h3, e3, o3, k3⟩ := Own.free' (p := c.ph) (s := pts (some c.blk) + s) (o.congr (by simp only [cellBlocks, pts_some]; abel))
  obtain ⟨h4, e4, o4, k4⟩ := Own.free' o3
  exact ⟨h4, by unfold freeCell; rw [bind_eq e3, e4], o4, by rw [k4, k3]⟩

theorem freePairs_spec : ∀ (ps : List CPair) {h : Heap} {s : Multiset ℕ}, Own h ((ps.map pairBlocks).sum + s) →
    ∃ h', freePairs ps h = some ((), h') ∧ Own h' s ∧ h'.ok = h.ok
  | [], h, s, o => ⟨h, rfl, o.congr (by simp), rfl⟩
  | p :: ps, h, s, o => by
    obtain ⟨h1, e1, o1, k1⟩ := freePair_spec p (o.congr (by rw [List.map_cons, List.sum_cons, add_assoc]))
    obtain ⟨h2, e2, o2, k2⟩ := freePairs_spec ps o1
    exact ⟨h2, by unfold freePairs; rw [bind_eq e1, e2], o2, by rw [k2, k1]⟩

theorem freeCells_spec : ∀ (cs : List Cell) {h : Heap} {s : Multiset ℕ}, Own h ((cs.map cellBlocks).sum + s) →
    ∃ h', freeCells cs h = some ((), h') ∧ Own h' s ∧ h'.ok = h.ok
  | [], h, s, o => ⟨h, rfl, o.congr (by simp), rfl⟩
  | p :: ps, h, s, o => by
    obtain ⟨h1, e1, o1, k1⟩ := freeCell_spec p (o.congr (by rw [List.map_cons, List.sum_cons, add_assoc]))
    obtain ⟨h2, e2, o2, k2⟩ := freeCells_spec ps o1
    exact ⟨h2, by unfold freeCells; rw [bind_eq e1, e2], o2, by rw [k2, k1]⟩

theorem destroy_spec (cd : CD) {h : Heap} {s : Multiset ℕ} (o : Own h (cdBlocks cd + s)) :
    ∃ h', cd.destroy h = some (create, h') ∧ Own h' s ∧ h'.ok = h.ok := by
  obtain ⟨h1, e1, o1, k1⟩ := freeCells_spec cd.cells (o.congr (by rw [cdBlocks, add_assoc]))
  obtain ⟨h2, e2, o2, k2⟩ := freePairs_spec cd.pairs o1
  exact ⟨h2, by unfold destroy; rw [bind_eq e1, bind_eq e2]; rfl, o2, by rw [k2, k1]⟩

theorem pairAll_spec (cd : CD) (c : Cell) (hcc : c ∈ cd.cells) (hph : ∀ d ∈ cd.cells, d.ph.isSome) :
    ∀ (ds : List Cell) (perm : List Bool) {h : Heap} {s : Multiset ℕ}, Own h s → (cd.cells.map cellBlocks).sum ≤ s → (∀ d ∈ ds, d ∈ cd.cells) →
    ∃ ps h', pairAll c ds perm h = some (ps, h') ∧ Own h' ((ps.map pairBlocks).sum + s) ∧ h'.ok = h.ok ∧
      ∀ p ∈ ps, p.verts = [] ∧ (∃ d ∈ cd.cells, d.blk = p.c0) ∧ (∃ d ∈ cd.cells, d.blk = p.c1)
  | [], perm, h, s, o, hs, hd => ⟨[], h, rfl, o.congr (by simp), rfl, by simp⟩
  | d :: ds, perm, h, s, o, hs, hd => by
    have hd' : ∀ x ∈ ds, x ∈ cd.cells := fun x hx => hd x (by simp [hx])
    unfold pairAll
    by_cases h1 : ((d.stat && c.stat) || d.link == c.link) = true
    · rw [if_pos h1]
      exact pairAll_spec cd c hcc hph ds perm.tail o hs hd'
    · rw [if_neg h1]
      have hdc := hd d (by simp)
      rw [bind_eq (deref_ph hdc (hph d hdc) o hs), bind_eq (deref_ph hcc (hph c hcc) o hs)]
      by_cases h2 : (d.chain == c.chain && perm.headD false) = true
      · rw [if_pos h2]
        exact pairAll_spec cd c hcc hph ds perm.tail o hs hd'
      · rw [if_neg h2]
        obtain ⟨p, g1, e1, o1, k1, -⟩ := Own.alloc' o
        rw [bind_eq e1]
        cases p with
        | none => exact ⟨[], g1, rfl, o1.congr (by simp), k1, by simp⟩
        | some b =>
          obtain ⟨ps, g2, e2, o2, k2, q⟩ := pairAll_spec cd c hcc hph ds perm.tail o1 (le_trans hs (Multiset.le_add_left _ _)) hd'
          refine ⟨ps ++ [⟨b, d.blk, c.blk, [], [], none⟩], g2, ?_, o2.congr ?_, by rw [k2, k1], ?_⟩
          · dsimp only
            rw [bind_eq e2]; rfl
          · simp only [List.map_append, List.sum_append, List.map_cons, List.map_nil, List.sum_cons, List.sum_nil, pairBlocks, pts_some, pts_none,
              Multiset.coe_nil, add_zero]
            abel
          · intro p hp
            rcases List.mem_append.1 hp with hp | hp
            · exact q p hp
            · obtain rfl : p = ⟨b, d.blk, c.blk, [], [], none⟩ := by simpa using hp
              exact ⟨rfl, ⟨d, hdc, rfl⟩, ⟨c, hcc, rfl⟩⟩

theorem chainReg_spec (chain : ℕ) (stat : Bool) : ∀ (ss : List (ℕ × List Bool)) (cd : CD) {h : Heap} {s : Multiset ℕ},
    Own h (cdBlocks cd + s) → CDSound cd →
    ∃ r h' L, chainReg chain stat ss cd h = some (r, h') ∧ Own h' (cdBlocks r.2 + (L + s)) ∧ h'.ok = h.ok ∧ CDSound r.2 ∧ L.card ≤ 1 ∧
      ((∀ n, h.ok n = true) → L = 0 ∧ r.1 = true) ∧ (r.1 = true → L = 0)
  | [], cd, h, s, o, hc => ⟨(true, cd), h, 0, rfl, o.congr (by simp), rfl, hc, by simp, fun _ => ⟨rfl, rfl⟩, fun _ => rfl⟩
  | (link, perm) :: ss, cd, h, s, o, hc => by
    obtain ⟨p, g1, e1, o1, k1, n1⟩ := Own.alloc' o
    cases p with
    | none =>
      have e : cellReg chain link stat h = some (none, g1) := by unfold cellReg; rw [bind_eq e1]; rfl
      refine ⟨(false, cd), g1, 0, ?_, o1.congr (by simp), k1, hc, by simp, fun hk => absurd (n1 hk) (by simp), fun _ => rfl⟩
      unfold chainReg
      rw [bind_eq e]; rfl
    | some b =>
      obtain ⟨p, g2, e2, o2, k2, n2⟩ := Own.alloc' o1
      cases p with
      | none =>
        have e : cellReg chain link stat h = some (none, g2) := by
          unfold cellReg; rw [bind_eq e1]; dsimp only; rw [bind_eq e2]; rfl
        refine ⟨(false, cd), g2, {b}, ?_, o2.congr (by simp only [pts_none, pts_some]; abel), by rw [k2, k1], hc, by simp, fun hk => ?_, ?_⟩
        · unfold chainReg
          rw [bind_eq e]; rfl
        · exact absurd (n2 (by rw [k1]; exact hk)) (by simp)
        · simp
      | some a =>
        have e : cellReg chain link stat h = some (some ⟨b, some a, chain, link, stat⟩, g2) := by
          unfold cellReg; rw [bind_eq e1]; dsimp only; rw [bind_eq e2]; rfl
        set c : Cell := ⟨b, some a, chain, link, stat⟩ with hcd
        have hph : ∀ d ∈ c :: cd.cells, d.ph.isSome := by
          intro d hd
          rcases List.mem_cons.1 hd with rfl | hd
          · rfl
          · exact hc.ph d hd
        have up : ∀ x : ℕ, (∃ d ∈ cd.cells, d.blk = x) → ∃ d ∈ c :: cd.cells, d.blk = x :=
          fun x ⟨d, hd, e⟩ => ⟨d, by simp [hd], e⟩
        have upv : ∀ p ∈ cd.pairs, ∀ v ∈ p.verts, ∃ d ∈ c :: cd.cells, (d.blk = p.c0 ∨ d.blk = p.c1) ∧ v.ph = d.ph :=
          fun p hp v hv => by
            obtain ⟨d, hd, x⟩ := hc.vert p hp v hv
            exact ⟨d, by simp [hd], x⟩
        have o2' : Own g2 (cdBlocks ⟨c :: cd.cells, cd.pairs⟩ + s) := o2.congr (by
          simp only [cdBlocks, List.map_cons, List.sum_cons, cellBlocks, hcd, pts_some]; abel)
        unfold chainReg
        rw [bind_eq e]
        dsimp only
        by_cases hl : (c :: cd.cells).length > 1
        · rw [if_pos hl]
          obtain ⟨ps, g3, e3, o3, k3, q⟩ := pairAll_spec ⟨c :: cd.cells, cd.pairs⟩ c (by simp) hph (c :: cd.cells) perm o2'
            (by unfold cdBlocks; rw [add_assoc]; exact Multiset.le_add_right _ _) (fun _ h => h)
          rw [bind_eq e3]
          have hc' : CDSound ⟨c :: cd.cells, ps ++ cd.pairs⟩ := by
            refine ⟨hph, fun p hp => ?_, fun p hp v hv => ?_⟩
            · rcases List.mem_append.1 hp with hp | hp
              · exact (q p hp).2
              · exact ⟨up _ (hc.pair p hp).1, up _ (hc.pair p hp).2⟩
            · rcases List.mem_append.1 hp with hp | hp
              · rw [(q p hp).1] at hv; simp at hv
              · exact upv p hp v hv
          obtain ⟨r, h', L, e4, o4, k4, r1, r2, r3, r4⟩ := chainReg_spec chain stat ss ⟨c :: cd.cells, ps ++ cd.pairs⟩ (s := s)
            (o3.congr (by simp only [cdBlocks, List.map_append, List.sum_append]; abel)) hc'
          exact ⟨r, h', L, e4, o4, by rw [k4, k3, k2, k1], r1, r2, by rw [k3, k2, k1] at r3; exact r3, r4⟩
        · rw [if_neg hl]
          have hc' : CDSound ⟨c :: cd.cells, cd.pairs⟩ :=
            ⟨hph, fun p hp => ⟨up _ (hc.pair p hp).1, up _ (hc.pair p hp).2⟩, upv⟩
          obtain ⟨r, h', L, e4, o4, k4, r1, r2, r3, r4⟩ := chainReg_spec chain stat ss ⟨c :: cd.cells, cd.pairs⟩ (s := s) o2' hc'
          exact ⟨r, h', L, e4, o4, by rw [k4, k2, k1], r1, r2, by rw [k2, k1] at r3; exact r3, r4⟩

theorem purgePairs_spec (cd : CD) (f : Cell → Cell → Bool) : ∀ (ps : List CPair) {h : Heap} {s : Multiset ℕ},
    Own h ((ps.map pairBlocks).sum + s) → (cd.cells.map cellBlocks).sum ≤ s →
    (∀ p ∈ ps, (∃ c ∈ cd.cells, c.blk = p.c0) ∧ (∃ c ∈ cd.cells, c.blk = p.c1)) →
    ∃ r h', purgePairs cd f ps h = some (r, h') ∧ Own h' ((r.map pairBlocks).sum + s) ∧ h'.ok = h.ok ∧
      ∀ p ∈ r, p ∈ ps ∧ ∃ a ∈ cd.cells, ∃ b ∈ cd.cells, a.blk = p.c0 ∧ b.blk = p.c1 ∧ f a b = false
  | [], h, s, o, hs, hp => ⟨[], h, rfl, o, rfl, by simp⟩
  | p :: ps, h, s, o, hs, hp => by
    have hs' : (cd.cells.map cellBlocks).sum ≤ ((p :: ps).map pairBlocks).sum + s := le_trans hs (Multiset.le_add_left _ _)
    obtain ⟨a, ha, ea, e1⟩ := getCell_spec cd p.c0 o hs' (hp p (by simp)).1
    obtain ⟨b, hb, eb, e2⟩ := getCell_spec cd p.c1 o hs' (hp p (by simp)).2
    unfold purgePairs
    rw [bind_eq e1, bind_eq e2]
    by_cases hf : f a b = true
    · rw [if_pos hf]
      obtain ⟨g1, e3, o3, k3⟩ := freePair_spec p (o.congr (by rw [List.map_cons, List.sum_cons, add_assoc]))
      obtain ⟨r, g2, e4, o4, k4, q⟩ := purgePairs_spec cd f ps o3 hs (fun x hx => hp x (by simp [hx]))
      refine ⟨r, g2, by rw [bind_eq e3, e4], o4, by rw [k4, k3], fun x hx => ⟨?_, (q x hx).2⟩⟩
      exact List.mem_cons_of_mem _ (q x hx).1
    · rw [if_neg hf]
      obtain ⟨r, g2, e4, o4, k4, q⟩ := purgePairs_spec cd f ps (s := pairBlocks p + s)
        (o.congr (by rw [List.map_cons, List.sum_cons]; abel)) (le_trans hs (Multiset.le_add_left _ _)) (fun x hx => hp x (by simp [hx]))
      refine ⟨p :: r, g2, by rw [bind_eq e4]; rfl, o4.congr (by rw [List.map_cons, List.sum_cons]; abel), k4, ?_⟩
      intro x hx
      rcases List.mem_cons.1 hx with rfl | hx
      · exact ⟨by simp, a, ha, b, hb, ea, eb, by simpa using hf⟩
      · exact ⟨List.mem_cons_of_mem _ (q x hx).1, (q x hx).2⟩

theorem purgeCells_spec (chain : ℕ) : ∀ (cs : List Cell) {h : Heap} {s : Multiset ℕ}, Own h ((cs.map cellBlocks).sum + s) →
    ∃ h', purgeCells chain cs h = some (cs.filter (fun c => !(c.chain == chain)), h') ∧
      Own h' (((cs.filter fun c => !(c.chain == chain)).map cellBlocks).sum + s) ∧ h'.ok = h.ok
  | [], h, s, o => ⟨h, rfl, o, rfl⟩
  | c :: cs, h, s, o => by
    unfold purgeCells
    by_cases hc : (c.chain == chain) = true
    · rw [if_pos hc, List.filter_cons_of_neg (by simp [hc])]
      obtain ⟨g1, e1, o1, k1⟩ := freeCell_spec c (o.congr (by rw [List.map_cons, List.sum_cons, add_assoc]))
      obtain ⟨g2, e2, o2, k2⟩ := purgeCells_spec chain cs o1
      exact ⟨g2, by rw [bind_eq e1, e2], o2, by rw [k2, k1]⟩
    · rw [if_neg hc, List.filter_cons_of_pos (by simp [hc])]
      obtain ⟨g2, e2, o2, k2⟩ := purgeCells_spec chain cs (s := cellBlocks c + s) (o.congr (by rw [List.map_cons, List.sum_cons]; abel))
      exact ⟨g2, by rw [bind_eq e2]; rfl, o2.congr (by rw [List.map_cons, List.sum_cons]; abel), k2⟩

/-- Two cells of a detector with the same block are the same. -/
theorem cell_unique {cs : List Cell} {h : Heap} {s : Multiset ℕ} (o : Own h ((cs.map cellBlocks).sum + s)) {a b : Cell} (ha : a ∈ cs) (hb : b ∈ cs)
    (e : a.blk = b.blk) : a = b := by
  have hn : ((cs.map cellBlocks).sum).Nodup := Multiset.nodup_of_le (Multiset.le_add_right _ _) o.nodup
  clear o
  induction cs with
  | nil => simp at ha
  | cons c cs ih =>
    rw [List.map_cons, List.sum_cons, Multiset.nodup_add] at hn
    have key : ∀ x ∈ cs, c.blk ≠ x.blk := by
      intro x hx he
      refine Multiset.disjoint_left.1 hn.2.2 (show c.blk ∈ cellBlocks c by simp [cellBlocks]) ?_
      exact Multiset.mem_of_le (le_sum cellBlocks hx) (by simp [cellBlocks, he])
    rcases List.mem_cons.1 ha with ea | ha' <;> rcases List.mem_cons.1 hb with eb | hb'
    · rw [ea, eb]
    · rw [ea] at e; exact absurd e (key b hb')
    · rw [eb] at e; exact absurd e.symm (key a ha')
    · exact ih ha' hb' hn.2.1

theorem chainUnreg_spec (chain : ℕ) (cd : CD) {h : Heap} {s : Multiset ℕ} (o : Own h (cdBlocks cd + s)) (hc : CDSound cd) :
    ∃ cd' h', chainUnreg chain cd h = some (cd', h') ∧ Own h' (cdBlocks cd' + s) ∧ h'.ok = h.ok ∧ CDSound cd' := by
  obtain ⟨r, g1, e1, o1, k1, q⟩ := purgePairs_spec cd (fun a b => a.chain == chain || b.chain == chain) cd.pairs
    (s := (cd.cells.map cellBlocks).sum + s) (o.congr (by rw [cdBlocks]; abel)) (Multiset.le_add_right _ _) hc.pair
  obtain ⟨g2, e2, o2, k2⟩ := purgeCells_spec chain cd.cells (s := (r.map pairBlocks).sum + s) (o1.congr (by abel))
  refine ⟨⟨cd.cells.filter (fun c => !(c.chain == chain)), r⟩, g2, ?_, o2.congr (by rw [cdBlocks]; abel), by rw [k2, k1], ?_⟩
  · unfold chainUnreg; rw [bind_eq e1, bind_eq e2]; rfl
  · have hu : ∀ {a b : Cell}, a ∈ cd.cells → b ∈ cd.cells → a.blk = b.blk → a = b :=
      fun ha hb e => cell_unique (o1.congr (show _ = (cd.cells.map cellBlocks).sum + ((r.map pairBlocks).sum + s) by abel)) ha hb e
    refine ⟨fun c hcm => hc.ph c (List.mem_of_mem_filter hcm), fun p hp => ?_, fun p hp v hv => ?_⟩
    · obtain ⟨-, a, ha, b, hb, ea, eb, hf⟩ := q p hp
      simp only [Bool.or_eq_false_iff] at hf
      exact ⟨⟨a, List.mem_filter.2 ⟨ha, by simp [hf.1]⟩, ea⟩, ⟨b, List.mem_filter.2 ⟨hb, by simp [hf.2]⟩, eb⟩⟩
    · obtain ⟨hm, a, ha, b, hb, ea, eb, hf⟩ := q p hp
      simp only [Bool.or_eq_false_iff] at hf
      obtain ⟨c, hcm, hx, hv'⟩ := hc.vert p hm v hv
      refine ⟨c, List.mem_filter.2 ⟨hcm, ?_⟩, hx, hv'⟩
      rcases hx with hx | hx
      · rw [hu hcm ha (by rw [hx, ea])]; simp [hf.1]
      · rw [hu hcm hb (by rw [hx, eb])]; simp [hf.2]

/-- Dropping pairs keeps a detector sound. -/
theorem sound_sub {cd : CD} {ps : List CPair} (hc : CDSound cd) (hp : ∀ p ∈ ps, p ∈ cd.pairs) : CDSound { cd with pairs := ps } :=
  ⟨hc.ph, fun p h => hc.pair p (hp p h), fun p h => hc.vert p (hp p h)⟩

theorem purge_spec (f : Cell → Cell → Bool) (cd : CD) {h : Heap} {s : Multiset ℕ} (o : Own h (cdBlocks cd + s)) (hc : CDSound cd) :
    ∃ ps h', purgePairs cd f cd.pairs h = some (ps, h') ∧ Own h' (cdBlocks { cd with pairs := ps } + s) ∧ h'.ok = h.ok ∧
      CDSound { cd with pairs := ps } := by
  obtain ⟨r, g1, e1, o1, k1, q⟩ := purgePairs_spec cd f cd.pairs
    (s := (cd.cells.map cellBlocks).sum + s) (o.congr (by rw [cdBlocks]; abel)) (Multiset.le_add_right _ _) hc.pair
  exact ⟨r, g1, e1, o1.congr (by rw [cdBlocks]; abel), k1, sound_sub hc fun p hp => (q p hp).1⟩

theorem anyPair_spec (cd : CD) (l1 l2 : ℕ) {h : Heap} {s : Multiset ℕ} (o : Own h s) (hs : (cd.cells.map cellBlocks).sum ≤ s) :
    ∀ (ps : List CPair), (∀ p ∈ ps, (∃ c ∈ cd.cells, c.blk = p.c0) ∧ (∃ c ∈ cd.cells, c.blk = p.c1)) →
    ∃ b, anyPair cd l1 l2 ps h = some (b, h)
  | [], _ => ⟨false, rfl⟩
  | p :: ps, hp => by
    obtain ⟨a, ha, ea, e1⟩ := getCell_spec cd p.c0 o hs (hp p (by simp)).1
    obtain ⟨b, hb, eb, e2⟩ := getCell_spec cd p.c1 o hs (hp p (by simp)).2
    unfold anyPair
    rw [bind_eq e1, bind_eq e2]
    by_cases hf : between l1 l2 a b = true
    · exact ⟨true, by rw [if_pos hf]; rfl⟩
    · rw [if_neg hf]
      exact anyPair_spec cd l1 l2 o hs ps fun x hx => hp x (by simp [hx])

theorem pairInner_spec (l1 l2 : ℕ) (a : Cell) : ∀ (bs : List Cell) {h : Heap} {s : Multiset ℕ}, Own h s →
    ∃ ps h', pairInner l1 l2 a bs h = some (ps, h') ∧ Own h' ((ps.map pairBlocks).sum + s) ∧ h'.ok = h.ok ∧
      ∀ p ∈ ps, p.verts = [] ∧ p.c0 = a.blk ∧ ∃ b ∈ bs, b.blk = p.c1
  | [], h, s, o => ⟨[], h, rfl, o.congr (by simp), rfl, by simp⟩
  | b :: bs, h, s, o => by
    unfold pairInner
    by_cases hf : between l1 l2 a b = true
    · rw [if_pos hf]
      obtain ⟨p, g1, e1, o1, k1, -⟩ := Own.alloc' o
      rw [bind_eq e1]
      obtain ⟨ps, g2, e2, o2, k2, q⟩ := pairInner_spec l1 l2 a bs o1
      cases p with
      | none =>
        exact ⟨ps, g2, e2, o2.congr (by simp), by rw [k2, k1], fun p hp => ⟨(q p hp).1, (q p hp).2.1, by
          obtain ⟨x, hx, e⟩ := (q p hp).2.2; exact ⟨x, by simp [hx], e⟩⟩⟩
      | some n =>
        refine ⟨ps ++ [⟨n, a.blk, b.blk, [], [], none⟩], g2, by dsimp only; rw [bind_eq e2]; rfl, o2.congr ?_, by rw [k2, k1], ?_⟩
        · simp only [List.map_append, List.sum_append, List.map_cons, List.map_nil, List.sum_cons, List.sum_nil, pairBlocks, pts_some, pts_none,
            Multiset.coe_nil, add_zero]
          abel
        · intro p hp
          rcases List.mem_append.1 hp with hp | hp
          · obtain ⟨x1, x2, x, hx, e⟩ := q p hp
            exact ⟨x1, x2, x, by simp [hx], e⟩
          · obtain rfl : p = ⟨n, a.blk, b.blk, [], [], none⟩ := by simpa using hp
            exact ⟨rfl, rfl, b, by simp, rfl⟩
    · rw [if_neg hf]
      obtain ⟨ps, g2, e2, o2, k2, q⟩ := pairInner_spec l1 l2 a bs o
      exact ⟨ps, g2, e2, o2, k2, fun p hp => ⟨(q p hp).1, (q p hp).2.1, by
        obtain ⟨x, hx, e⟩ := (q p hp).2.2; exact ⟨x, by simp [hx], e⟩⟩⟩

theorem pairOuter_spec (l1 l2 : ℕ) : ∀ (as : List Cell) {h : Heap} {s : Multiset ℕ}, Own h s →
    ∃ ps h', pairOuter l1 l2 as h = some (ps, h') ∧ Own h' ((ps.map pairBlocks).sum + s) ∧ h'.ok = h.ok ∧
      ∀ p ∈ ps, p.verts = [] ∧ (∃ a ∈ as, a.blk = p.c0) ∧ ∃ b ∈ as, b.blk = p.c1
  | [], h, s, o => ⟨[], h, rfl, o.congr (by simp), rfl, by simp⟩
  | a :: as, h, s, o => by
    obtain ⟨ps, g1, e1, o1, k1, q1⟩ := pairInner_spec l1 l2 a as o
    obtain ⟨qs, g2, e2, o2, k2, q2⟩ := pairOuter_spec l1 l2 as o1
    refine ⟨qs ++ ps, g2, by unfold pairOuter; rw [bind_eq e1, bind_eq e2]; rfl, o2.congr (by simp [add_assoc]), by rw [k2, k1], ?_⟩
    intro p hp
    rcases List.mem_append.1 hp with hp | hp
    · obtain ⟨y1, ⟨x, hx, e⟩, ⟨y, hy, e'⟩⟩ := q2 p hp
      exact ⟨y1, ⟨x, by simp [hx], e⟩, ⟨y, by simp [hy], e'⟩⟩
    · obtain ⟨y1, y2, y, hy, e'⟩ := q1 p hp
      exact ⟨y1, ⟨a, by simp, y2.symm⟩, ⟨y, by simp [hy], e'⟩⟩

theorem pairReg_spec (l1 l2 : ℕ) (cd : CD) {h : Heap} {s : Multiset ℕ} (o : Own h (cdBlocks cd + s)) (hc : CDSound cd) :
    ∃ cd' h', pairReg l1 l2 cd h = some (cd', h') ∧ Own h' (cdBlocks cd' + s) ∧ h'.ok = h.ok ∧ CDSound cd' := by
  obtain ⟨b, e1⟩ := anyPair_spec cd l1 l2 o (by unfold cdBlocks; rw [add_assoc]; exact Multiset.le_add_right _ _) cd.pairs hc.pair
  unfold pairReg
  rw [bind_eq e1]
  cases b with
  | true => exact ⟨cd, h, rfl, o, rfl, hc⟩
  | false =>
    obtain ⟨ps, g2, e2, o2, k2, q⟩ := pairOuter_spec l1 l2 cd.cells o
    refine ⟨{ cd with pairs := ps ++ cd.pairs }, g2, by rw [if_neg (by simp), bind_eq e2]; rfl, o2.congr ?_, k2, ⟨hc.ph, ?_, ?_⟩⟩
    · simp only [cdBlocks, List.map_append, List.sum_append]; abel
    · intro p hp
      rcases List.mem_append.1 hp with hp | hp
      · exact (q p hp).2
      · exact hc.pair p hp
    · intro p hp v hv
      rcases List.mem_append.1 hp with hp | hp
      · rw [(q p hp).1] at hv; simp at hv
      · exact hc.vert p hp v hv

theorem resetPairs_spec : ∀ (ps : List CPair) {h : Heap} {s : Multiset ℕ}, Own h ((ps.map pairBlocks).sum + s) →
    ∃ h', resetPairs ps h = some (ps.map fun p => { p with planes := [], vol := none }, h') ∧
      Own h' (((ps.map fun p => { p with planes := [], vol := none }).map pairBlocks).sum + s) ∧ h'.ok = h.ok
  | [], h, s, o => ⟨h, rfl, o, rfl⟩
  | p :: ps, h, s, o => by
    obtain ⟨h1, e1, o1, k1⟩ := IK.freeAll_spec p.planes
      (s := pts p.vol + ((ps.map pairBlocks).sum + ({p.blk} + (p.verts.map (·.blk) : List ℕ) + s)))
      (o.congr (by simp only [List.map_cons, List.sum_cons, pairBlocks]; abel))
    obtain ⟨h2, e2, o2, k2⟩ := Own.free' o1
    obtain ⟨h3, e3, o3, k3⟩ := resetPairs_spec ps o2
    refine ⟨h3, by unfold resetPairs; rw [bind_eq e1, bind_eq e2, bind_eq e3]; rfl, o3.congr ?_, by rw [k3, k2, k1]⟩
    simp only [List.map_cons, List.sum_cons, pairBlocks, Multiset.coe_nil, pts_none, add_zero]; abel

theorem reset_spec (cd : CD) {h : Heap} {s : Multiset ℕ} (o : Own h (cdBlocks cd + s)) (hc : CDSound cd) :
    ∃ cd' h', reset cd h = some (cd', h') ∧ Own h' (cdBlocks cd' + s) ∧ h'.ok = h.ok ∧ CDSound cd' ∧ ∀ p ∈ cd'.pairs, p.vol = none := by
  obtain ⟨h1, e1, o1, k1⟩ := resetPairs_spec cd.pairs (s := (cd.cells.map cellBlocks).sum + s) (o.congr (by rw [cdBlocks]; abel))
  refine ⟨{ cd with pairs := cd.pairs.map fun p => { p with planes := [], vol := none } }, h1, by unfold reset; rw [bind_eq e1]; rfl, o1.congr (by rw [cdBlocks]; abel), k1, ⟨hc.ph, ?_, ?_⟩, ?_⟩
  · intro p hp
    obtain ⟨q, hq, rfl⟩ := List.mem_map.1 hp
    exact hc.pair q hq
  · intro p hp
    obtain ⟨q, hq, rfl⟩ := List.mem_map.1 hp
    exact hc.vert q hq
  · intro p hp
    obtain ⟨q, hq, rfl⟩ := List.mem_map.1 hp
    rfl

theorem vertRegs_spec (cd : CD) (hph : ∀ d ∈ cd.cells, d.ph.isSome) (a b : Cell) (ha : a ∈ cd.cells) (hb : b ∈ cd.cells) :
    ∀ (l : List (Bool × Bool)) {h : Heap} {s : Multiset ℕ}, Own h s → (cd.cells.map cellBlocks).sum ≤ s →
    ∃ vs h', vertRegs a b l h = some (vs, h') ∧ Own h' ((vs.map (·.blk) : List ℕ) + s) ∧ h'.ok = h.ok ∧
      ∀ v ∈ vs, v.ph = a.ph ∨ v.ph = b.ph
  | [], h, s, o, hs => ⟨[], h, rfl, o.congr (by simp), rfl, by simp⟩
  | (second, kept) :: l, h, s, o, hs => by
    obtain ⟨p, g1, e1, o1, k1, -⟩ := Own.alloc' o
    have hs1 : (cd.cells.map cellBlocks).sum ≤ pts p + s := le_trans hs (Multiset.le_add_left _ _)
    unfold vertRegs
    rw [bind_eq e1]
    cases p with
    | none =>
      obtain ⟨vs, g2, e2, o2, k2, q⟩ := vertRegs_spec cd hph a b ha hb l o1 hs1
      exact ⟨vs, g2, e2, o2.congr (by simp), by rw [k2, k1], q⟩
    | some n =>
      dsimp only
      rw [bind_eq (deref_ph ha (hph a ha) o1 hs1), bind_eq (deref_ph hb (hph b hb) o1 hs1)]
      cases kept with
      | false =>
        rw [if_neg (by simp)]
        obtain ⟨g2, e2, o2, k2⟩ := Own.free' o1
        obtain ⟨vs, g3, e3, o3, k3, q⟩ := vertRegs_spec cd hph a b ha hb l o2 hs
        exact ⟨vs, g3, by rw [bind_eq e2, e3], o3, by rw [k3, k2, k1], q⟩
      | true =>
        rw [if_pos rfl]
        obtain ⟨vs, g3, e3, o3, k3, q⟩ := vertRegs_spec cd hph a b ha hb l o1 hs1
        refine ⟨vs ++ [⟨n, if second then b.ph else a.ph⟩], g3, by rw [bind_eq e3]; rfl, o3.congr ?_, by rw [k3, k1], ?_⟩
        · rw [List.map_append, ← Multiset.coe_add]
          simp only [List.map_cons, List.map_nil, pts_some, Multiset.coe_singleton]; abel
        · intro v hv
          rcases List.mem_append.1 hv with hv | hv
          · exact q v hv
          · obtain rfl : v = ⟨n, if second then b.ph else a.ph⟩ := by simpa using hv
            cases second
            · exact Or.inl rfl
            · exact Or.inr rfl

/-- What a query does to a pair: its blocks are owned, its cells stay, its contact vertices point to the cells. -/
structure PairPost (cd : CD) (p p' : CPair) : Prop where
  c0 : p'.c0 = p.c0
  c1 : p'.c1 = p.c1
  vert : ∀ v ∈ p'.verts, ∃ c ∈ cd.cells, (c.blk = p.c0 ∨ c.blk = p.c1) ∧ v.ph = c.ph

theorem dropVerts_spec (cd : CD) (p : CPair) {h : Heap} {s : Multiset ℕ} (o : Own h (pairBlocks p + s)) :
    ∃ p' h', dropVerts p h = some (p', h') ∧ Own h' (pairBlocks p' + s) ∧ h'.ok = h.ok ∧ PairPost cd p p' := by
  obtain ⟨g1, e1, o1, k1⟩ := IK.freeAll_spec (p.verts.map (·.blk)) (s := {p.blk} + (p.planes : Multiset ℕ) + pts p.vol + s)
    (o.congr (by simp only [pairBlocks]; abel))
  refine ⟨{ p with verts := [] }, g1, by unfold dropVerts; rw [bind_eq e1]; rfl, o1.congr ?_, k1, ⟨rfl, rfl, by simp⟩⟩
  simp only [pairBlocks, List.map_nil, Multiset.coe_nil]; abel

theorem cells_spec (cd : CD) (hc : CDSound cd) (p : CPair) (hp : (∃ c ∈ cd.cells, c.blk = p.c0) ∧ (∃ c ∈ cd.cells, c.blk = p.c1))
    {h : Heap} {s : Multiset ℕ} (o : Own h s) (hs : (cd.cells.map cellBlocks).sum ≤ s) :
    ∃ a ∈ cd.cells, ∃ b ∈ cd.cells, a.blk = p.c0 ∧ b.blk = p.c1 ∧ cd.getCell p.c0 h = some (a, h) ∧ cd.getCell p.c1 h = some (b, h) ∧
      deref a.ph h = some ((), h) ∧ deref b.ph h = some ((), h) := by
  obtain ⟨a, ha, ea, e1⟩ := getCell_spec cd p.c0 o hs hp.1
  obtain ⟨b, hb, eb, e2⟩ := getCell_spec cd p.c1 o hs hp.2
  exact ⟨a, ha, b, hb, ea, eb, e1, e2, deref_ph ha (hc.ph a ha) o hs, deref_ph hb (hc.ph b hb) o hs⟩

theorem pairVert_spec (cd : CD) (hc : CDSound cd) (x : Outcome) (p : CPair)
    (hp : (∃ c ∈ cd.cells, c.blk = p.c0) ∧ (∃ c ∈ cd.cells, c.blk = p.c1)) {h : Heap} {s : Multiset ℕ} (o : Own h (pairBlocks p + s))
    (hs : (cd.cells.map cellBlocks).sum ≤ s) :
    ∃ p' h', pairVert cd x p h = some (p', h') ∧ Own h' (pairBlocks p' + s) ∧ h'.ok = h.ok ∧ PairPost cd p p' := by
  have hs' : (cd.cells.map cellBlocks).sum ≤ pairBlocks p + s := le_trans hs (Multiset.le_add_left _ _)
  obtain ⟨a, ha, b, hb, ea, eb, e1, e2, e3, e4⟩ := cells_spec cd hc p hp o hs'
  obtain ⟨vs, g1, e5, o5, k5, q⟩ := vertRegs_spec cd hc.ph a b ha hb x.verts o hs'
  obtain ⟨g2, e6, o6, k6⟩ := IK.freeAll_spec (p.verts.map (·.blk))
    (s := (vs.map (·.blk) : List ℕ) + ({p.blk} + (p.planes : Multiset ℕ) + pts p.vol + s)) (o5.congr (by simp only [pairBlocks]; abel))
  refine ⟨{ p with verts := vs }, g2, ?_, o6.congr (by simp only [pairBlocks]; abel), by rw [k6, k5], ⟨rfl, rfl, ?_⟩⟩
  · unfold pairVert
    rw [bind_eq e1, bind_eq e2, bind_eq e3, bind_eq e4, bind_eq e5, bind_eq e6]; rfl
  · intro v hv
    rcases q v hv with hv | hv
    · exact ⟨a, ha, Or.inl ea, hv⟩
    · exact ⟨b, hb, Or.inr eb, hv⟩

theorem pairVol_spec (cd : CD) (hc : CDSound cd) (x : Outcome) (p : CPair) (hp : (∃ c ∈ cd.cells, c.blk = p.c0) ∧ (∃ c ∈ cd.cells, c.blk = p.c1))
    (hv : p.vol = none) (hvert : ∀ v ∈ p.verts, ∃ c ∈ cd.cells, (c.blk = p.c0 ∨ c.blk = p.c1) ∧ v.ph = c.ph)
    {h : Heap} {s : Multiset ℕ} (o : Own h (pairBlocks p + s)) (hs : (cd.cells.map cellBlocks).sum ≤ s) :
    ∃ p' h', pairVol cd x p h = some (p', h') ∧ Own h' (pairBlocks p' + s) ∧ h'.ok = h.ok ∧ PairPost cd p p' := by
  have hs' : (cd.cells.map cellBlocks).sum ≤ pairBlocks p + s := le_trans hs (Multiset.le_add_left _ _)
  obtain ⟨a, ha, b, hb, ea, eb, e1, e2, e3, e4⟩ := cells_spec cd hc p hp o hs'
  unfold pairVol
  rw [bind_eq e1, bind_eq e2, bind_eq e3, bind_eq e4]
  cases hx : x.vol with
  | false => exact ⟨p, h, by rw [if_neg (by simp)]; rfl, o, rfl, ⟨rfl, rfl, hvert⟩⟩
  | true =>
    obtain ⟨n, g1, e5, o5, k5, -⟩ := Own.alloc' o
    refine ⟨{ p with vol := n }, g1, by rw [if_pos rfl, bind_eq e5]; rfl, o5.congr ?_, k5, ⟨rfl, rfl, hvert⟩⟩
    simp only [pairBlocks, hv, pts_none]; abel

theorem pairBREP_spec (cd : CD) (hc : CDSound cd) (x : Outcome) (p : CPair) (hp : (∃ c ∈ cd.cells, c.blk = p.c0) ∧ (∃ c ∈ cd.cells, c.blk = p.c1))
    (hv : p.vol = none) (hvert : ∀ v ∈ p.verts, ∃ c ∈ cd.cells, (c.blk = p.c0 ∨ c.blk = p.c1) ∧ v.ph = c.ph)
    {h : Heap} {s : Multiset ℕ} (o : Own h (pairBlocks p + s)) (hs : (cd.cells.map cellBlocks).sum ≤ s) :
    ∃ p' h', pairBREP cd x p h = some (p', h') ∧ Own h' (pairBlocks p' + s) ∧ h'.ok = h.ok ∧ PairPost cd p p' := by
  have hs' : (cd.cells.map cellBlocks).sum ≤ pairBlocks p + s := le_trans hs (Multiset.le_add_left _ _)
  obtain ⟨a, ha, b, hb, ea, eb, e1, e2, e3, e4⟩ := cells_spec cd hc p hp o hs'
  unfold pairBREP
  rw [bind_eq e1, bind_eq e2, bind_eq e3, bind_eq e4]
  cases hx : x.vol with
  | false => exact ⟨p, h, by rw [if_neg (by simp)]; rfl, o, rfl, ⟨rfl, rfl, hvert⟩⟩
  | true =>
    obtain ⟨n, g1, e5, o5, k5, -⟩ := Own.alloc' o
    rw [if_pos rfl, bind_eq e5]
    cases hy : x.sound with
    | true =>
      refine ⟨{ p with vol := n }, g1, by rw [if_pos rfl]; rfl, o5.congr ?_, k5, ⟨rfl, rfl, hvert⟩⟩
      simp only [pairBlocks, hv, pts_none]; abel
    | false =>
      obtain ⟨g2, e6, o6, k6⟩ := Own.free' o5
      refine ⟨{ p with vol := none }, g2, by rw [if_neg (by simp), bind_eq e6]; rfl, o6.congr ?_, by rw [k6, k5], ⟨rfl, rfl, hvert⟩⟩
      simp only [pairBlocks, hv, pts_none]

theorem queryPair_spec (cd : CD) (hc : CDSound cd) (q : Query) (x : Outcome) (p : CPair)
    (hp : (∃ c ∈ cd.cells, c.blk = p.c0) ∧ (∃ c ∈ cd.cells, c.blk = p.c1))
    (hv : p.vol = none) (hvert : ∀ v ∈ p.verts, ∃ c ∈ cd.cells, (c.blk = p.c0 ∨ c.blk = p.c1) ∧ v.ph = c.ph)
    {h : Heap} {s : Multiset ℕ} (o : Own h (pairBlocks p + s)) (hs : (cd.cells.map cellBlocks).sum ≤ s) :
    ∃ p' h', queryPair cd q x p h = some (p', h') ∧ Own h' (pairBlocks p' + s) ∧ h'.ok = h.ok ∧ PairPost cd p p' := by
  have hs' : (cd.cells.map cellBlocks).sum ≤ pairBlocks p + s := le_trans hs (Multiset.le_add_left _ _)
  cases q <;> unfold queryPair <;> dsimp only
  · obtain ⟨a, ha, b, hb, ea, eb, e1, e2, e3, e4⟩ := cells_spec cd hc p hp o hs'
    exact ⟨p, h, by rw [bind_eq e1, bind_eq e2, bind_eq e3, bind_eq e4]; rfl, o, rfl, ⟨rfl, rfl, hvert⟩⟩
  · split
    · exact pairVert_spec cd hc x p hp o hs
    · exact dropVerts_spec cd p o
  · split
    · exact pairVol_spec cd hc x p hp hv hvert o hs
    · exact ⟨p, h, rfl, o, rfl, ⟨rfl, rfl, hvert⟩⟩
  · split
    · exact pairBREP_spec cd hc x p hp hv hvert o hs
    · exact ⟨p, h, rfl, o, rfl, ⟨rfl, rfl, hvert⟩⟩
  · split
    · exact pairVol_spec cd hc x p hp hv hvert o hs
    · exact ⟨p, h, rfl, o, rfl, ⟨rfl, rfl, hvert⟩⟩
  · split
    · split
      · exact pairBREP_spec cd hc x p hp hv hvert o hs
      · exact pairVert_spec cd hc x p hp o hs
    · exact dropVerts_spec cd p o

theorem queryPairs_spec (cd : CD) (hc : CDSound cd) (q : Query) : ∀ (ps : List CPair) (os : List Outcome) {h : Heap} {s : Multiset ℕ},
    (∀ p ∈ ps, p ∈ cd.pairs ∧ p.vol = none) → Own h ((ps.map pairBlocks).sum + s) → (cd.cells.map cellBlocks).sum ≤ s →
    ∃ r h', queryPairs cd q ps os h = some (r, h') ∧ Own h' ((r.map pairBlocks).sum + s) ∧ h'.ok = h.ok ∧
      ∀ p' ∈ r, ∃ p ∈ ps, PairPost cd p p'
  | [], os, h, s, _, o, hs => ⟨[], h, rfl, o, rfl, by simp⟩
  | p :: ps, os, h, s, hp, o, hs => by
    obtain ⟨hm, hv⟩ := hp p (by simp)
    obtain ⟨p', g1, e1, o1, k1, q1⟩ := queryPair_spec cd hc q (os.headD Outcome.none) p (hc.pair p hm) hv (hc.vert p hm)
      (s := (ps.map pairBlocks).sum + s) (o.congr (by rw [List.map_cons, List.sum_cons, add_assoc])) (le_trans hs (Multiset.le_add_left _ _))
    obtain ⟨r, g2, e2, o2, k2, q2⟩ := queryPairs_spec cd hc q ps os.tail (s := pairBlocks p' + s) (fun x hx => hp x (by simp [hx]))
      (o1.congr (by abel)) (le_trans hs (Multiset.le_add_left _ _))
    refine ⟨p' :: r, g2, by unfold queryPairs; rw [bind_eq e1, bind_eq e2]; rfl, o2.congr (by rw [List.map_cons, List.sum_cons]; abel),
      by rw [k2, k1], ?_⟩
    intro x hx
    rcases List.mem_cons.1 hx with rfl | hx
    · exact ⟨p, by simp, q1⟩
    · obtain ⟨y, hy, z⟩ := q2 x hx
      exact ⟨y, by simp [hy], z⟩

theorem query_spec (q : Query) (os : List Outcome) (cd : CD) {h : Heap} {s : Multiset ℕ} (o : Own h (cdBlocks cd + s)) (hc : CDSound cd) :
    ∃ cd' h', query q os cd h = some (cd', h') ∧ Own h' (cdBlocks cd' + s) ∧ h'.ok = h.ok ∧ CDSound cd' := by
  obtain ⟨c1, g1, e1, o1, k1, hc1, hv⟩ := reset_spec cd o hc
  obtain ⟨r, g2, e2, o2, k2, q2⟩ := queryPairs_spec c1 hc1 q c1.pairs os (s := (c1.cells.map cellBlocks).sum + s) (fun p hp => ⟨hp, hv p hp⟩)
    (o1.congr (by rw [cdBlocks]; abel)) (Multiset.le_add_right _ _)
  refine ⟨{ c1 with pairs := r }, g2, by unfold query; rw [bind_eq e1, bind_eq e2]; rfl, o2.congr (by rw [cdBlocks]; abel), by rw [k2, k1],
    ⟨hc1.ph, ?_, ?_⟩⟩
  · intro p hp
    obtain ⟨y, hy, z⟩ := q2 p hp
    rw [z.c0, z.c1]
    exact hc1.pair y hy
  · intro p hp v hv
    obtain ⟨y, hy, z⟩ := q2 p hp
    rw [z.c0, z.c1]
    exact z.vert v hv

theorem addPlane_spec (i : ℕ) (cd : CD) {h : Heap} {s : Multiset ℕ} (o : Own h (cdBlocks cd + s)) (hc : CDSound cd) :
    ∃ cd' h', addPlane i cd h = some (cd', h') ∧ Own h' (cdBlocks cd' + s) ∧ h'.ok = h.ok ∧ CDSound cd' := by
  unfold addPlane
  cases hp : cd.pairs[i]? with
  | none => exact ⟨cd, h, rfl, o, rfl, hc⟩
  | some p =>
    obtain ⟨n, g1, e1, o1, k1, -⟩ := Own.alloc' o
    dsimp only
    rw [bind_eq e1]
    cases n with
    | none => exact ⟨cd, g1, rfl, o1.congr (by simp), k1, hc⟩
    | some b =>
      have hm : p ∈ cd.pairs := List.mem_of_getElem? hp
      refine ⟨{ cd with pairs := cd.pairs.set i { p with planes := b :: p.planes } }, g1, rfl, o1.congr ?_, k1, ⟨hc.ph, ?_, ?_⟩⟩
      · simp only [cdBlocks]
        rw [MChain.sum_set pairBlocks _ _ _ (List.getElem?_eq_some_iff.1 hp).1, MChain.sum_get pairBlocks _ _ _ hp]
        simp only [pairBlocks, pts_some, ← Multiset.cons_coe, ← Multiset.singleton_add]
        abel
      · intro x hx
        rcases List.mem_or_eq_of_mem_set hx with hx | rfl
        · exact hc.pair x hx
        · exact hc.pair p hm
      · intro x hx
        rcases List.mem_or_eq_of_mem_set hx with hx | rfl
        · exact hc.vert x hx
        · exact hc.vert p hm

theorem sound_create : CDSound create := ⟨by simp [create], by simp [create], by simp [create]⟩

theorem step_spec (op : Op) (cd : CD) {h : Heap} {s : Multiset ℕ} (o : Own h (cdBlocks cd + s)) (hc : CDSound cd) :
    ∃ cd' h' L, step cd op h = some (cd', h') ∧ Own h' (cdBlocks cd' + (L + s)) ∧ h'.ok = h.ok ∧ CDSound cd' ∧
      L.card ≤ regs [op] ∧ ((∀ n, h.ok n = true) → L = 0) := by
  cases op with
  | chainReg c st l =>
    obtain ⟨r, h', L, e, o1, k, q1, q2, q3, -⟩ := chainReg_spec c st l cd o hc
    exact ⟨r.2, h', L, by show (chainReg c st l cd >>= _) h = _; rw [bind_eq e]; rfl, o1, k, q1, q2, fun hk => (q3 hk).1⟩
  | chainUnreg c =>
    obtain ⟨c1, g1, e1, o1, k1, q1⟩ := chainUnreg_spec c cd o hc
    exact ⟨c1, g1, 0, e1, o1.congr (by simp), k1, q1, by simp, fun _ => rfl⟩
  | pairReg a b =>
    obtain ⟨c1, g1, e1, o1, k1, q1⟩ := pairReg_spec a b cd o hc
    exact ⟨c1, g1, 0, e1, o1.congr (by simp), k1, q1, by simp, fun _ => rfl⟩
  | pairUnreg a b =>
    obtain ⟨ps, g1, e1, o1, k1, q1⟩ := purge_spec (between a b) cd o hc
    exact ⟨_, g1, 0, by show pairUnreg a b cd h = _; unfold pairUnreg; rw [bind_eq e1]; rfl, o1.congr (by simp), k1, q1, by simp, fun _ => rfl⟩
  | pairChainUnreg c =>
    obtain ⟨ps, g1, e1, o1, k1, q1⟩ := purge_spec (fun a b => a.chain == c && b.chain == c) cd o hc
    exact ⟨_, g1, 0, by show pairChainUnreg c cd h = _; unfold pairChainUnreg; rw [bind_eq e1]; rfl, o1.congr (by simp), k1, q1, by simp, fun _ => rfl⟩
  | reset =>
    obtain ⟨c1, g1, e1, o1, k1, q1, -⟩ := reset_spec cd o hc
    exact ⟨c1, g1, 0, e1, o1.congr (by simp), k1, q1, by simp, fun _ => rfl⟩
  | query q os =>
    obtain ⟨c1, g1, e1, o1, k1, q1⟩ := query_spec q os cd o hc
    exact ⟨c1, g1, 0, e1, o1.congr (by simp), k1, q1, by simp, fun _ => rfl⟩
  | addPlane i =>
    obtain ⟨c1, g1, e1, o1, k1, q1⟩ := addPlane_spec i cd o hc
    exact ⟨c1, g1, 0, e1, o1.congr (by simp), k1, q1, by simp, fun _ => rfl⟩
  | destroy =>
    obtain ⟨g1, e1, o1, k1⟩ := destroy_spec cd o
    exact ⟨create, g1, 0, e1, o1.congr (by simp [cdBlocks, create]), k1, sound_create, by simp, fun _ => rfl⟩

theorem regs_cons (o : Op) (os : List Op) : regs (o :: os) = regs [o] + regs os := by cases o <;> simp [regs]

theorem run_spec : ∀ (ops : List Op) (cd : CD) {h : Heap} {s : Multiset ℕ}, Own h (cdBlocks cd + s) → CDSound cd →
    ∃ cd' h' L, run ops cd h = some (cd', h') ∧ Own h' (cdBlocks cd' + (L + s)) ∧ h'.ok = h.ok ∧ CDSound cd' ∧
      L.card ≤ regs ops ∧ ((∀ n, h.ok n = true) → L = 0)
  | [], cd, h, s, o, hc => ⟨cd, h, 0, rfl, o.congr (by simp), rfl, hc, by simp, fun _ => rfl⟩
  | op :: ops, cd, h, s, o, hc => by
    obtain ⟨c1, g1, L1, e1, o1, k1, q1, r1, z1⟩ := step_spec op cd o hc
    obtain ⟨c2, g2, L2, e2, o2, k2, q2, r2, z2⟩ := run_spec ops c1 o1 q1
    refine ⟨c2, g2, L2 + L1, by unfold run; rw [bind_eq e1, e2], o2.congr (by abel), by rw [k2, k1], q2, ?_, fun hk => ?_⟩
    · rw [regs_cons, Multiset.card_add]; omega
    · rw [z1 hk, z2 (by rw [k1]; exact hk), add_zero]

end Roki.Mem.CD
