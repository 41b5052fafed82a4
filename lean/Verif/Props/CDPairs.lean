import Verif.Lemmas.CDInv
import Verif.Lemmas.CDRat
import Mathlib.Tactic.FinCases
set_option autoImplicit false

/-!
# Registration of collision pairs (C43, C44, C60)
-/

namespace Roki
variable {K : Type*} [Field K] {G : CDGeo K}
open CD Spec

/-- C43: after any history, including queries, the cells have different addresses, every pair consists of two different
registered cells, and no pair appears twice, in either order. -/
theorem C43_pairs (ops : List (CD.Op K G)) (cd : CD K G) (h : create.runAll ops = some cd) :
    cd.cells.Pairwise (fun a b => a.ptr ≠ b.ptr) ∧
    (∀ p ∈ cd.pairs, On cd (fun a b => a.ptr ≠ b.ptr) p) ∧
    cd.pairs.Pairwise fun p q => ¬SamePair p q := by
  have hi := inv_runAll inv_create h
  refine ⟨(List.pairwise_map.1 hi.sorted).imp fun h => ne_of_lt h, fun p hp => ?_, ?_⟩
  · obtain ⟨h1, h2, h3⟩ := hi.pairs _ (List.mem_map_of_mem hp)
    obtain ⟨a, ha, ea⟩ := List.mem_map.1 h2
    obtain ⟨b, hb, eb⟩ := List.mem_map.1 h3
    exact ⟨a, ha, b, hb, ea, eb, by
      change a.ptr ≠ b.ptr
      rw [ea, eb]; exact ne_of_lt h1⟩
  · have := List.pairwise_map.1 hi.nodup
    refine this.imp_of_mem fun {p q} hp hq hne hs => ?_
    rcases hs with ⟨h1, h2⟩ | ⟨h1, h2⟩
    · exact hne (by rw [key, key, h1, h2])
    · have l1 := (hi.pairs _ (List.mem_map_of_mem hp)).1
      have l2 := (hi.pairs _ (List.mem_map_of_mem hq)).1
      simp only [key] at l1 l2
      omega

/-- The invariant behind `C43_links_partial`. -/
private def LInv (cd : CD K G) : Prop :=
  ∀ p ∈ cd.pairs, On cd (fun a b => a.link ≠ b.link ∧ ¬(a.stat = true ∧ b.stat = true)) p

private theorem on_mono {cd cd' : CD K G} {R : CDCell K G → CDCell K G → Prop} {p : CDPair K}
    (h : On cd R p) (hs : ∀ c ∈ cd.cells, c ∈ cd'.cells) : On cd' R p := by
  obtain ⟨a, ha, b, hb, h⟩ := h
  exact ⟨a, hs a ha, b, hs b hb, h⟩

private theorem linv_same {cd cd' : CD K G} (h : LInv cd) (s : Same cd cd') : LInv cd' := by
  intro p hp
  have hk : key p ∈ cd'.pairs.map key := List.mem_map_of_mem hp
  rw [s.pairs] at hk
  obtain ⟨q, hq, e⟩ := List.mem_map.1 hk
  obtain ⟨a, ha, b, hb, h1, h2, h3⟩ := h q hq
  have f : ∀ c ∈ cd.cells, ∃ c' ∈ cd'.cells, core c' = core c := fun c hc => by
    have := List.mem_map_of_mem (f := core) hc
    rw [← s.cells] at this
    exact List.mem_map.1 this
  obtain ⟨a', ha', ea⟩ := f a ha
  obtain ⟨b', hb', eb⟩ := f b hb
  simp only [core, Prod.mk.injEq] at ea eb
  simp only [key, Prod.mk.injEq] at e
  exact ⟨a', ha', b', hb', by rw [ea.1, h1, e.1], by rw [eb.1, h2, e.2], by
    change a'.link ≠ b'.link ∧ ¬(a'.stat = true ∧ b'.stat = true)
    rw [ea.2.2.1, eb.2.2.1, ea.2.2.2.2.1, eb.2.2.2.2.1]; exact h3⟩

private theorem pairable_iff (a b : CDCell K G) : pairable a b = true ↔ Watched a b := by
  simp only [pairable, Watched, Bool.and_eq_true, Bool.not_eq_true', Bool.and_eq_false_iff, bne_iff_ne, ne_eq,
    beq_eq_false_iff_ne]
  grind

private theorem linv_shapeReg {W : ℕ → Frame K} {cd cd' : CD K G} {chain link : ℕ} {shape : G.Shape} {stat : Bool}
    (h : LInv cd) (hr : cd.shapeReg W chain link shape stat = some cd') : LInv cd' := by
  obtain ⟨c, h1, h2, h3, -⟩ := shapeReg_spec hr
  intro p hp
  rw [h3] at hp
  rcases List.mem_append.1 hp with hp | hp
  · exact on_mono (h p hp) fun d hd => by rw [h2]; exact List.mem_append_left _ hd
  · obtain ⟨a, ha, rfl⟩ := List.mem_map.1 hp
    obtain ⟨ha, hw⟩ := List.mem_filter.1 ha
    obtain ⟨w1, w2, -⟩ := (pairable_iff a c).1 hw
    exact ⟨a, by rw [h2]; exact List.mem_append_left _ ha, c, by rw [h2]; simp, rfl, rfl, w2, w1⟩

private theorem linv_run {cd cd' : CD K G} (hi : Inv cd) (hl : LInv cd) {op : CD.Op K G}
    (hc : match op with
      | .pairReg l1 l2 => l1 ≠ l2 ∧ ∀ a ∈ cd.cells, ∀ b ∈ cd.cells, a.link = l1 → b.link = l2 →
          ¬(a.stat = true ∧ b.stat = true)
      | _ => True) (h : cd.run op = some cd') : LInv cd' := by
  cases op with
  | chainReg W c l s =>
    rw [← Option.some.inj h]
    exact shapesReg_ind (P := LInv) (fun _ _ _ _ hl h => linv_shapeReg hl h) _ _ hl
  | chainUnreg c =>
    rw [CD.run, chainUnreg_eq hi] at h
    rw [← Option.some.inj h]
    intro p hp
    obtain ⟨hp, ht⟩ := List.mem_filter.1 hp
    obtain ⟨a, ha, b, hb, h1, h2, h3⟩ := hl p hp
    have ea := deref_of_mem hi.ptrs_nodup ha
    have eb := deref_of_mem hi.ptrs_nodup hb
    rw [h1] at ea
    rw [h2] at eb
    simp only [withCells_eq ea eb, Bool.not_or, Bool.and_eq_true, Bool.not_eq_true', beq_eq_false_iff_ne, ne_eq] at ht
    exact ⟨a, List.mem_filter.2 ⟨ha, by simp [ht.1]⟩, b, List.mem_filter.2 ⟨hb, by simp [ht.2]⟩, h1, h2, h3⟩
  | pairReg l1 l2 =>
    rw [CD.run, pairReg_eq hi] at h
    have h := Option.some.inj h
    split_ifs at h
    · rw [← h]; exact hl
    · subst h
      intro p hp
      rcases List.mem_append.1 hp with hp | hp
      · exact on_mono (hl p hp) fun d hd => hd
      · obtain ⟨a, ha, b, hb, -, hk, rfl⟩ := (linkPairs_mem hi.sorted).1 hp
        refine ⟨a, ha, b, hb, rfl, rfl, ?_⟩
        rcases hk with ⟨k1, k2⟩ | ⟨k1, k2⟩
        · exact ⟨by rw [k1, k2]; exact hc.1, hc.2 a ha b hb k1 k2⟩
        · exact ⟨by rw [k1, k2]; exact hc.1.symm, fun e => hc.2 b hb a ha k2 k1 ⟨e.2, e.1⟩⟩
  | pairUnreg a b =>
    rw [CD.run, pairUnreg_eq hi] at h
    rw [← Option.some.inj h]
    exact fun p hp => on_mono (hl p (List.mem_of_mem_filter hp)) fun d hd => hd
  | pairChainUnreg c =>
    rw [CD.run, pairChainUnreg_eq hi] at h
    rw [← Option.some.inj h]
    exact fun p hp => on_mono (hl p (List.mem_of_mem_filter hp)) fun d hd => hd
  | fric => exact linv_same hl (same_query (op := .fric _) trivial hi.ptrs_nodup h)
  | aabb => exact linv_same hl (same_query (op := .aabb _) trivial hi.ptrs_nodup h)
  | obb => exact linv_same hl (same_query (op := .obb _) trivial hi.ptrs_nodup h)
  | gjk => exact linv_same hl (same_query (op := .gjk _) trivial hi.ptrs_nodup h)
  | gjkOnly => exact linv_same hl (same_query (op := .gjkOnly _) trivial hi.ptrs_nodup h)
  | vert => exact linv_same hl (same_query (op := .vert _) trivial hi.ptrs_nodup h)
  | obbVert => exact linv_same hl (same_query (op := .obbVert _) trivial hi.ptrs_nodup h)
  | vol => exact linv_same hl (same_query (op := .vol _) trivial hi.ptrs_nodup h)

/-- C43, in part: if every explicit registration of a pair names two different links that are not both static, then every
pair is on two different links and not both of its cells are static.  What is missing is this for all histories; see
`C43_same_link_fails` and `C43_static_fails`. -/
theorem C43_links_partial (ops : List (CD.Op K G)) (hc : Careful create ops) (cd : CD K G)
    (h : create.runAll ops = some cd) :
    ∀ p ∈ cd.pairs, On cd (fun a b => a.link ≠ b.link ∧ ¬(a.stat = true ∧ b.stat = true)) p := by
  have key : ∀ (ops : List (CD.Op K G)) (c0 : CD K G), Inv c0 → LInv c0 → Careful c0 ops → c0.runAll ops = some cd →
      LInv cd := by
    intro ops
    induction ops with
    | nil => intro c0 _ hl _ h; rw [← Option.some.inj h]; exact hl
    | cons op ops ih =>
      intro c0 hi hl hc h
      obtain ⟨c1, h1, h2⟩ := Option.bind_eq_some_iff.1 h
      exact ih c1 (inv_run hi h1) (linv_run hi hl hc.1 h1) (hc.2 c1 h1) h2
  exact key ops create inv_create (by simp [LInv, create]) hc h

/-- C43: what the registration of a chain does.  If it succeeds, there is one new cell for each shape, in order.  In any
case the old cells and pairs remain, and a new pair is registered exactly for the cells `a`, and `b` registered after it
by this call, that are to be watched. -/
theorem C43_register (ops : List (CD.Op K G)) (cd : CD K G) (h : create.runAll ops = some cd) (W : ℕ → Frame K)
    (chain : ℕ) (links : List (ℕ × List G.Shape)) (stat : Bool) :
    ∃ new ps, (cd.chainReg W chain links stat).2.cells = cd.cells ++ new ∧
      (cd.chainReg W chain links stat).2.pairs = cd.pairs ++ ps ∧
      (∀ c ∈ new, c.chain = chain ∧ c.stat = stat ∧ c.ph = posed c.ph0 (W c.link)) ∧
      ((cd.chainReg W chain links stat).1 = true →
        new.map (fun c => (c.link, c.shape)) = links.flatMap fun l => l.2.map fun s => (l.1, s)) ∧
      ((cd.chainReg W chain links stat).1 = false → ∃ l ∈ links, ∃ s ∈ l.2, G.toPH s = none) ∧
      (∀ p, p ∈ ps ↔ ∃ a ∈ cd.cells ++ new, ∃ b ∈ new, a.ptr < b.ptr ∧ Watched a b ∧ p = newPair a.ptr b.ptr) := by
  have key : ∀ (l : List (ℕ × G.Shape)) (cd : CD K G), Inv cd →
      ∃ new ps, (shapesReg W chain stat l cd).2.cells = cd.cells ++ new ∧
      (shapesReg W chain stat l cd).2.pairs = cd.pairs ++ ps ∧
      (∀ c ∈ new, c.chain = chain ∧ c.stat = stat ∧ c.ph = posed c.ph0 (W c.link)) ∧
      ((shapesReg W chain stat l cd).1 = true → new.map (fun c => (c.link, c.shape)) = l) ∧
      ((shapesReg W chain stat l cd).1 = false → ∃ x ∈ l, G.toPH x.2 = none) ∧
      (∀ p, p ∈ ps ↔ ∃ a ∈ cd.cells ++ new, ∃ b ∈ new, a.ptr < b.ptr ∧ Watched a b ∧ p = newPair a.ptr b.ptr) ∧
      ∀ c ∈ new, cd.next ≤ c.ptr := by
    intro l
    induction l with
    | nil => 
      intro cd _
      exact ⟨[], [], by simp [shapesReg], by simp [shapesReg], by simp, by simp, by simp [shapesReg], by simp, by simp⟩
    | cons x l ih =>
      intro cd hi
      obtain ⟨link, shape⟩ := x
      cases e : cd.shapeReg W chain link shape stat with
      | none =>
        have hs : shapesReg W chain stat ((link, shape) :: l) cd = (false, cd) := by rw [shapesReg, e]
        rw [hs]
        refine ⟨[], [], by simp, by simp, by simp, by simp, fun _ => ⟨(link, shape), by simp, ?_⟩, by simp, by simp⟩
        rcases ht : G.toPH shape with _ | ph0
        · rfl
        · exfalso
          simp [shapeReg, cellReg, cellCreate, ht, PH.xform] at e
      | some cd' =>
        have hs : shapesReg W chain stat ((link, shape) :: l) cd = shapesReg W chain stat l cd' := by rw [shapesReg, e]
        obtain ⟨c, h1, h2, h3, h4, -, -⟩ := shapeReg_spec e
        obtain ⟨k1, k2, k3, k4, k5, -, -, k8, -, -⟩ := cellCreate_spec h1
        obtain ⟨new, ps, n1, n2, n3, n4, n5, n6, n7⟩ := ih cd' (inv_shapeReg hi e)
        rw [hs]
        refine ⟨c :: new, (cd.cells.filter fun a => pairable a c).map (fun a => newPair a.ptr c.ptr) ++ ps,
          by rw [n1, h2]; simp, by rw [n2, h3]; simp, ?_, ?_, ?_, ?_, ?_⟩
        · intro d hd
          rcases List.mem_cons.1 hd with rfl | hd
          · exact ⟨k4, k5, by rw [k8, k3]⟩
          · exact n3 d hd
        · intro ht
          rw [List.map_cons, n4 ht, k2, k3]
        · intro hf
          obtain ⟨x, hx, hx'⟩ := n5 hf
          exact ⟨x, List.mem_cons_of_mem _ hx, hx'⟩
        · intro p
          rw [List.mem_append, n6, h2]
          constructor
          · rintro (hp | ⟨a, ha, b, hb, hp⟩)
            · obtain ⟨a, ha, rfl⟩ := List.mem_map.1 hp
              obtain ⟨ha, hw⟩ := List.mem_filter.1 ha
              exact ⟨a, List.mem_append_left _ ha, c, by simp, by
                rw [k1]; exact hi.bound _ (List.mem_map_of_mem ha), (pairable_iff a c).1 hw, rfl⟩
            · exact ⟨a, by simpa using ha, b, List.mem_cons_of_mem _ hb, hp⟩
          · rintro ⟨a, ha, b, hb, hlt, hw, rfl⟩
            rcases List.mem_cons.1 hb with rfl | hb
            · left
              refine List.mem_map.2 ⟨a, List.mem_filter.2 ⟨?_, (pairable_iff a b).2 hw⟩, rfl⟩
              rcases List.mem_append.1 ha with ha | ha
              · exact ha
              · rcases List.mem_cons.1 ha with rfl | ha
                · exact absurd hlt (lt_irrefl _)
                · have := n7 a ha
                  omega
            · exact .inr ⟨a, by simpa using ha, b, hb, hlt, hw, rfl⟩
        · intro d hd
          rcases List.mem_cons.1 hd with rfl | hd
          · exact le_of_eq k1.symm
          · have := n7 d hd
            omega
  obtain ⟨new, ps, n1, n2, n3, n4, n5, n6, -⟩ := key (links.flatMap fun l => l.2.map fun s => (l.1, s)) cd
    (inv_runAll inv_create h)
  refine ⟨new, ps, n1, n2, n3, n4, fun hf => ?_, n6⟩
  obtain ⟨x, hx, hx'⟩ := n5 hf
  obtain ⟨l, hl, hx⟩ := List.mem_flatMap.1 hx
  obtain ⟨s, hs, rfl⟩ := List.mem_map.1 hx
  exact ⟨l, hl, s, hs, hx'⟩

/-- C43 fails: `rkCDPairReg` registers a pair of two shapes of one link. -/
theorem C43_same_link_fails : ∃ (ops : List (CD.Op ℚ Sample.geo)) (cd : CD ℚ Sample.geo),
    create.runAll ops = some cd ∧ ∃ p ∈ cd.pairs, On cd (fun a b => a.link = b.link) p := by
  refine ⟨[.chainReg (Sample.along fun _ => 0) 0 [(0, [Sample.bar 1, Sample.bar 2])] false, .pairReg 0 0], _, rfl,
    newPair 1 2, ?_, ?_⟩
  · exact List.mem_singleton.2 rfl
  · exact ⟨_, List.mem_cons_self, _, List.mem_cons_of_mem _ List.mem_cons_self, rfl, rfl, rfl⟩

/-- C43 fails: `rkCDPairReg` registers a pair of two static shapes. -/
theorem C43_static_fails : ∃ (ops : List (CD.Op ℚ Sample.geo)) (cd : CD ℚ Sample.geo),
    create.runAll ops = some cd ∧ ∃ p ∈ cd.pairs, On cd (fun a b => a.stat = true ∧ b.stat = true) p := by
  refine ⟨[.chainReg (Sample.along fun _ => 0) 0 [(0, [Sample.bar 1]), (1, [Sample.bar 2])] true, .pairReg 0 1], _, rfl,
    newPair 1 2, ?_, ?_⟩
  · exact List.mem_singleton.2 rfl
  · exact ⟨_, List.mem_cons_self, _, List.mem_cons_of_mem _ List.mem_cons_self, rfl, rfl, rfl, rfl⟩

/-- A history for C43 with three pairs, of which one is removed and registered again. -/
example : (create.runAll (Sample.two (fun i => 10 * i) ++ [.pairUnreg 0 2, .pairReg 2 0])).map Sample.marks =
    some [(1, 2, false), (2, 3, false), (1, 3, false)] := by decide +kernel

/-- The history above meets the hypothesis of `C43_links_partial`. -/
example : Careful create (Sample.two (fun i => 10 * i) ++ [.pairUnreg 0 2, .pairReg 2 0]) := by
  refine ⟨trivial, fun c1 h1 => ⟨trivial, fun c2 h2 => ⟨trivial, fun c3 h3 => ⟨⟨by decide, ?_⟩, fun _ _ => trivial⟩⟩⟩⟩
  have h : create.runAll (Sample.two (fun i => 10 * i) ++ [.pairUnreg 0 2]) = some c3 := by
    simp only [Sample.two, List.cons_append, List.nil_append, runAll, h1, h2, h3, Option.bind_some]
  have e : (create.runAll (Sample.two (fun i => 10 * i) ++ [.pairUnreg 0 2])).map (fun cd =>
      cd.cells.all fun c => decide (c.link = 0 → c.stat = false)) = some true := by decide +kernel
  rw [h] at e
  simp only [Option.map_some, Option.some.injEq, List.all_eq_true, decide_eq_true_eq] at e
  intro a _ b hb _ l2 hs
  rw [e b hb l2] at hs
  exact absurd hs.2 (by decide)

/-- Shapes of one chain that touch when they are registered are not watched. -/
example : (create.runAll (Sample.two fun _ => 0)).map Sample.marks = some [(1, 3, false), (2, 3, false)] := by
  decide +kernel

/-! ## C44 -/

/-- C44: after any history `rkCDChainUnreg` is defined; no cell that is left belongs to the chain, the others are left as
they are and in the same order, exactly the pairs without a cell of the chain are left, and each of these refers to cells
that still exist. -/
theorem C44_unreg (ops : List (CD.Op K G)) (cd : CD K G) (h : create.runAll ops = some cd) (chain : ℕ) :
    ∃ cd', cd.chainUnreg chain = some cd' ∧
      cd'.cells = cd.cells.filter (fun c => c.chain ≠ chain) ∧
      cd'.pairs.Sublist cd.pairs ∧
      (∀ p ∈ cd.pairs, p ∈ cd'.pairs ↔ On cd (fun a b => a.chain ≠ chain ∧ b.chain ≠ chain) p) ∧
      (∀ p ∈ cd'.pairs, On cd' (fun a b => a.chain ≠ chain ∧ b.chain ≠ chain) p) := by
  have hi := inv_runAll inv_create h
  refine ⟨_, chainUnreg_eq hi chain, ?_, List.filter_sublist, ?_, ?_⟩
  · refine List.filter_congr fun c _ => ?_
    by_cases e : c.chain = chain <;> simp [e]
  · intro p hp
    obtain ⟨a, b, ha, hb⟩ := hi.live p hp
    have ma := deref_mem ha
    have mb := deref_mem hb
    simp only [List.mem_filter, hp, true_and, withCells_eq ha hb, Bool.not_or, Bool.and_eq_true, Bool.not_eq_true',
      beq_eq_false_iff_ne]
    constructor
    · exact fun hc => ⟨a, ma.1, b, mb.1, ma.2, mb.2, hc⟩
    · rintro ⟨a', ha', b', hb', e1, e2, hc⟩
      have x := deref_of_mem hi.ptrs_nodup ha'
      have y := deref_of_mem hi.ptrs_nodup hb'
      rw [e1, ha] at x
      rw [e2, hb] at y
      rw [Option.some.inj x, Option.some.inj y]; exact hc
  · intro p hp
    obtain ⟨hp, ht⟩ := List.mem_filter.1 hp
    obtain ⟨a, b, ha, hb⟩ := hi.live p hp
    have ma := deref_mem ha
    have mb := deref_mem hb
    simp only [withCells_eq ha hb, Bool.not_or, Bool.and_eq_true, Bool.not_eq_true', beq_eq_false_iff_ne, ne_eq] at ht
    exact ⟨a, List.mem_filter.2 ⟨ma.1, by simp [ht.1]⟩, b, List.mem_filter.2 ⟨mb.1, by simp [ht.2]⟩, ma.2, mb.2, ht⟩

/-- C44: no history without `rkCDColChkOBBVert` ever uses a cell that does not exist any more, or writes beyond the end
of a polyhedron. -/
theorem C44_defined (ops : List (CD.Op K G)) (ho : ∀ op ∈ ops, op.Plain) : ∃ cd, create.runAll ops = some cd := by
  obtain ⟨cd, h, -⟩ := good_runAll ho (inv_create (K := K) (G := G)) (by simp [create])
  exact ⟨cd, h⟩

/-- A history for C44 in which a chain is unregistered while it is in a pair that is marked. -/
example : (create.runAll (Sample.two (fun i => 10 * i) ++
      [.gjk (Sample.along fun i => if i = 1 then 19 else 10 * i), .chainUnreg 1])).map Sample.marks =
    some [(1, 2, false)] := by decide +kernel

/-! ## C60 -/

/-- C60, in part: if no pair on the two links is registered, `rkCDPairReg` registers all pairs of their shapes, the older
cell first, and leaves the others.  What is missing is the case that some, but not all, are registered before; see
`C60_all_fails`. -/
theorem C60_all_partial (ops : List (CD.Op K G)) (cd : CD K G) (h : create.runAll ops = some cd) (l1 l2 : ℕ)
    (hn : ∀ p ∈ cd.pairs, ¬On cd (fun a b => (a.link = l1 ∧ b.link = l2) ∨ (a.link = l2 ∧ b.link = l1)) p) :
    ∃ cd' ps, cd.pairReg l1 l2 = some cd' ∧ cd' = { cd with pairs := cd.pairs ++ ps } ∧
      ∀ p, p ∈ ps ↔ ∃ a ∈ cd.cells, ∃ b ∈ cd.cells, a.ptr < b.ptr ∧
        ((a.link = l1 ∧ b.link = l2) ∨ (a.link = l2 ∧ b.link = l1)) ∧ p = newPair a.ptr b.ptr := by
  have hi := inv_runAll inv_create h
  refine ⟨_, linkPairs l1 l2 cd.cells, pairReg_eq hi l1 l2, ?_, fun p => linkPairs_mem hi.sorted⟩
  rw [if_neg]
  intro he
  obtain ⟨p, hp, ho⟩ := List.any_eq_true.1 he
  obtain ⟨a, b, ha, hb⟩ := hi.live p hp
  have ma := deref_mem ha
  have mb := deref_mem hb
  rw [onB, withCells_eq ha hb] at ho
  exact hn p hp ⟨a, ma.1, b, mb.1, ma.2, mb.2, by simpa using ho⟩

/-- C60: a second registration of the same pair of links, in either order, changes nothing. -/
theorem C60_again (ops : List (CD.Op K G)) (cd : CD K G) (h : create.runAll ops = some cd) (l1 l2 : ℕ) :
    ∃ cd', cd.pairReg l1 l2 = some cd' ∧ cd'.pairReg l1 l2 = some cd' ∧ cd'.pairReg l2 l1 = some cd' := by
  have hi := inv_runAll inv_create h
  have hs : ∀ (cs : List (CDCell K G)) (p : CDPair K), onB cs l2 l1 p = onB cs l1 l2 p := fun cs p => by
    unfold onB withCells
    cases cellsOf cs p with
    | none => rfl
    | some x => simp only; rw [Bool.or_comm]
  refine ⟨_, pairReg_eq hi l1 l2, ?_⟩
  have hi' := inv_pairReg hi (pairReg_eq hi l1 l2)
  have e : ∀ cd' : CD K G, Inv cd' → (cd'.pairs.any (onB cd'.cells l1 l2) = true ∨ linkPairs l1 l2 cd'.cells = []) →
      cd'.pairReg l1 l2 = some cd' ∧ cd'.pairReg l2 l1 = some cd' := by
    intro cd' hi' hc
    have h0 : linkPairs l1 l2 cd'.cells = [] → linkPairs l2 l1 cd'.cells = [] := by
      intro h0
      refine List.eq_nil_iff_forall_not_mem.2 fun p hp => ?_
      obtain ⟨a, ha, b, hb, hl, hk, rfl⟩ := (linkPairs_mem hi'.sorted).1 hp
      have := (linkPairs_mem (l1 := l1) (l2 := l2) hi'.sorted).2 ⟨a, ha, b, hb, hl, hk.symm, rfl⟩
      rw [h0] at this
      simp at this
    rw [pairReg_eq hi', pairReg_eq hi', show onB cd'.cells l2 l1 = onB cd'.cells l1 l2 from funext (hs _)]
    rcases hc with hc | hc
    · rw [hc]; exact ⟨rfl, rfl⟩
    · rw [hc, h0 hc]; simp
  refine e _ hi' ?_
  split_ifs with hc
  · exact .inl hc
  · rcases hl : linkPairs l1 l2 cd.cells with _ | ⟨p, ps⟩
    · exact .inr (by simp [hl])
    · left
      have hp : p ∈ linkPairs l1 l2 cd.cells := by rw [hl]; simp
      obtain ⟨a, ha, b, hb, -, hk, rfl⟩ := (linkPairs_mem hi.sorted).1 hp
      refine List.any_eq_true.2 ⟨newPair a.ptr b.ptr, List.mem_append_right _ (by simp [hl]), ?_⟩
      rw [onB, withCells_eq (a := a) (b := b) (deref_of_mem hi.ptrs_nodup ha) (deref_of_mem hi.ptrs_nodup hb)]
      simpa using hk

/-- C60: `rkCDPairUnreg` removes exactly the pairs on the two links. -/
theorem C60_unreg (ops : List (CD.Op K G)) (cd : CD K G) (h : create.runAll ops = some cd) (l1 l2 : ℕ) :
    ∃ cd', cd.pairUnreg l1 l2 = some cd' ∧ cd'.cells = cd.cells ∧ cd'.pairs.Sublist cd.pairs ∧
      ∀ p ∈ cd.pairs, p ∈ cd'.pairs ↔
        ¬On cd (fun a b => (a.link = l1 ∧ b.link = l2) ∨ (a.link = l2 ∧ b.link = l1)) p := by
  have hi := inv_runAll inv_create h
  refine ⟨_, pairUnreg_eq hi l1 l2, rfl, List.filter_sublist, fun p hp => ?_⟩
  obtain ⟨a, b, ha, hb⟩ := hi.live p hp
  have ma := deref_mem ha
  have mb := deref_mem hb
  simp only [List.mem_filter, hp, true_and, onB, withCells_eq ha hb]
  have : On cd (fun a b => (a.link = l1 ∧ b.link = l2) ∨ (a.link = l2 ∧ b.link = l1)) p ↔
      ((a.link = l1 ∧ b.link = l2) ∨ (a.link = l2 ∧ b.link = l1)) := by
    constructor
    · rintro ⟨a', ha', b', hb', e1, e2, hc⟩
      have x := deref_of_mem hi.ptrs_nodup ha'
      have y := deref_of_mem hi.ptrs_nodup hb'
      rw [e1, ha] at x
      rw [e2, hb] at y
      rw [Option.some.inj x, Option.some.inj y]; exact hc
    · exact fun hc => ⟨a, ma.1, b, mb.1, ma.2, mb.2, hc⟩
  rw [this, Bool.not_eq_true', ← Bool.not_eq_true]
  simp

/-- C60: `rkCDPairChainUnreg` removes exactly the pairs within the chain. -/
theorem C60_chainUnreg (ops : List (CD.Op K G)) (cd : CD K G) (h : create.runAll ops = some cd) (chain : ℕ) :
    ∃ cd', cd.pairChainUnreg chain = some cd' ∧ cd'.cells = cd.cells ∧ cd'.pairs.Sublist cd.pairs ∧
      ∀ p ∈ cd.pairs, p ∈ cd'.pairs ↔ ¬On cd (fun a b => a.chain = chain ∧ b.chain = chain) p := by
  have hi := inv_runAll inv_create h
  refine ⟨_, pairChainUnreg_eq hi chain, rfl, List.filter_sublist, fun p hp => ?_⟩
  obtain ⟨a, b, ha, hb⟩ := hi.live p hp
  have ma := deref_mem ha
  have mb := deref_mem hb
  simp only [List.mem_filter, hp, true_and, withCells_eq ha hb]
  have : On cd (fun a b => a.chain = chain ∧ b.chain = chain) p ↔ (a.chain = chain ∧ b.chain = chain) := by
    constructor
    · rintro ⟨a', ha', b', hb', e1, e2, hc⟩
      have x := deref_of_mem hi.ptrs_nodup ha'
      have y := deref_of_mem hi.ptrs_nodup hb'
      rw [e1, ha] at x
      rw [e2, hb] at y
      rw [Option.some.inj x, Option.some.inj y]; exact hc
    · exact fun hc => ⟨a, ma.1, b, mb.1, ma.2, mb.2, hc⟩
  rw [this, Bool.not_eq_true', ← Bool.not_eq_true]
  simp

/-- The two links of the example below have two shapes each, of which one pair touches at registration. -/
private def partly : List (CD.Op ℚ Sample.geo) :=
  [.chainReg (Sample.along fun i => i) 0 [(0, [Sample.bar 1]), (1, [Sample.bar 1, ⟨[⟨5, 0, 0⟩], []⟩])] false]

/-- C60 fails: the pair of the first shapes is not watched, because they touch at registration; an explicit registration
of the two links does not add it, because the pair with the other shape is there. -/
theorem C60_all_fails : ∃ (ops : List (CD.Op ℚ Sample.geo)) (cd : CD ℚ Sample.geo) (l1 l2 : ℕ),
    create.runAll (ops ++ [.pairReg l1 l2]) = some cd ∧ ∃ a ∈ cd.cells, ∃ b ∈ cd.cells, a.link = l1 ∧ b.link = l2 ∧
      l1 ≠ l2 ∧ a.stat = false ∧ b.stat = false ∧ ∀ p ∈ cd.pairs, ¬SamePair p (newPair a.ptr b.ptr) := by
  obtain ⟨cd, h⟩ := C44_defined (partly ++ [.pairReg 0 1]) (by
    intro op ho; simp [partly] at ho; rcases ho with rfl | rfl <;> trivial)
  have e1 : (create.runAll (partly ++ [.pairReg 0 1])).map (fun cd => cd.cells.map fun c => (c.ptr, c.link, c.stat)) =
      some [(1, 0, false), (2, 1, false), (3, 1, false)] := by decide +kernel
  have e2 : (create.runAll (partly ++ [.pairReg 0 1])).map (fun cd => cd.pairs.map key) = some [(1, 3)] := by
    decide +kernel
  rw [h] at e1 e2
  simp only [Option.map_some, Option.some.injEq] at e1 e2
  obtain ⟨a, ha, ea⟩ := List.mem_map.1 (show (1, 0, false) ∈ cd.cells.map fun c => (c.ptr, c.link, c.stat) by
    rw [e1]; simp)
  obtain ⟨b, hb, eb⟩ := List.mem_map.1 (show (2, 1, false) ∈ cd.cells.map fun c => (c.ptr, c.link, c.stat) by
    rw [e1]; simp)
  simp only [Prod.mk.injEq] at ea eb
  refine ⟨partly, cd, 0, 1, h, a, ha, b, hb, ea.2.1, eb.2.1, by decide, ea.2.2, eb.2.2, fun p hp hs => ?_⟩
  have : key p ∈ cd.pairs.map key := List.mem_map_of_mem hp
  rw [e2, List.mem_singleton] at this
  simp only [key, Prod.mk.injEq] at this
  rcases hs with ⟨h1, h2⟩ | ⟨h1, h2⟩ <;> simp [newPair, ea.1, eb.1] at h1 h2 <;> omega

end Roki
