import Verif.Lemmas.CDInv
import Verif.Lemmas.CDRat
set_option autoImplicit false

/-!
# Results of collision queries (C45, C46, C62)
-/

namespace Roki
variable {K : Type*} [Field K] {G : CDGeo K}
open CD Spec

/-- The addresses and the mark of each pair, in order. -/
def Spec.marks (cd : CD K G) : List (ℕ × ℕ × Bool) := cd.pairs.map fun p => (p.c0, p.c1, p.isCol)

private theorem on_of_with {cd : CD K G} (hi : Inv cd) {r : CDCell K G → CDCell K G → Bool} {p q : CDPair K}
    (hp : p ∈ cd.pairs) (hk : q.c0 = p.c0 ∧ q.c1 = p.c1)
    (h : q.isCol = withCells cd.cells (fun _ => false) (fun _ a b => r a b) p) :
    On cd (fun a b => q.isCol = r a b) q := by
  obtain ⟨a, b, ha, hb⟩ := hi.live p hp
  have ma := deref_mem ha
  have mb := deref_mem hb
  rw [withCells_eq ha hb] at h
  exact ⟨a, ma.1, b, mb.1, by rw [hk.1]; exact ma.2, by rw [hk.2]; exact mb.2, h⟩

theorem seenAABB_eq {W : ℕ → Frame K} {c : CDCell K G} (h : Good c) :
    seenAABB W c = G.toAABB (seenBox W c) := by
  obtain ⟨f, -, h2⟩ := h.obb
  unfold seenAABB seenBox; split_ifs
  · exact h2
  · rfl

private theorem seen_pose {W : ℕ → Frame K} {c : CDCell K G} (h : Good c) :
    ∃ f, seenPH W c = posed c.ph0 f ∧ seenBox W c = G.boxX (G.bbOf c.ph0) f := by
  cases hs : c.stat
  · exact ⟨W c.link, by simp [seenPH, hs], by simp [seenBox, hs, h.bb]⟩
  · obtain ⟨f, h1, h2⟩ := h.stat hs
    exact ⟨f, by simp [seenPH, hs, h1], by simp [seenBox, hs, h2, h.bb]⟩

/-- C45: after any history, including any earlier queries at other poses, the axis-aligned box check marks exactly the
pairs whose boxes collide at the present poses. -/
theorem C45_aabb (ops : List (CD.Op K G)) (ho : ∀ op ∈ ops, op.Plain) (cd : CD K G)
    (h : create.runAll ops = some cd) (W : ℕ → Frame K) :
    ∃ cd', cd.colChkAABB W = some cd' ∧
      cd'.pairs.map (fun p => (p.c0, p.c1)) = cd.pairs.map (fun p => (p.c0, p.c1)) ∧
      ∀ p ∈ cd'.pairs, On cd (fun a b =>
        p.isCol = G.colAABB (G.toAABB (seenBox W a)) (G.toAABB (seenBox W b))) p := by
  obtain ⟨hi, hg⟩ := good_of_runAll ho h
  by_cases hp : cd.pairs = []
  · exact ⟨cd, (queries_nil W hp).1, rfl, by simp [hp]⟩
  · obtain ⟨S, e, -⟩ := colChkAABB_eq W hi.ready hp
    refine ⟨_, e, by simp [markP, Function.comp_def], ?_⟩
    intro q hq
    obtain ⟨p, hp, rfl⟩ := List.mem_map.1 hq
    obtain ⟨a, ha, b, hb, k1, k2, k3⟩ := on_of_with hi (q := markP (resAABB W cd.cells p) p) hp ⟨rfl, rfl⟩ rfl
    exact ⟨a, ha, b, hb, k1, k2, by
      change (markP (resAABB W cd.cells p) p).isCol = _
      rw [k3, seenAABB_eq (hg a ha), seenAABB_eq (hg b hb)]⟩

/-- C45: the oriented box check marks exactly the pairs of which both boxes collide. -/
theorem C45_obb (ops : List (CD.Op K G)) (ho : ∀ op ∈ ops, op.Plain) (cd : CD K G)
    (h : create.runAll ops = some cd) (W : ℕ → Frame K) :
    ∃ cd', cd.colChkOBB W = some cd' ∧
      cd'.pairs.map (fun p => (p.c0, p.c1)) = cd.pairs.map (fun p => (p.c0, p.c1)) ∧
      ∀ p ∈ cd'.pairs, On cd (fun a b =>
        p.isCol = (G.colAABB (G.toAABB (seenBox W a)) (G.toAABB (seenBox W b)) &&
          G.colBox (seenBox W a) (seenBox W b))) p := by
  obtain ⟨hi, hg⟩ := good_of_runAll ho h
  by_cases hp : cd.pairs = []
  · exact ⟨cd, (queries_nil W hp).2.1, rfl, by simp [hp]⟩
  · obtain ⟨S, e, -⟩ := colChkOBB_eq W hi.ready hp
    refine ⟨_, e, by simp [markP, Function.comp_def], ?_⟩
    intro q hq
    obtain ⟨p, hp, rfl⟩ := List.mem_map.1 hq
    obtain ⟨a, b, ha, hb⟩ := hi.live p hp
    have ma := deref_mem ha
    have mb := deref_mem hb
    exact ⟨a, ma.1, b, mb.1, ma.2, mb.2, by
      simp [markP, resAABB, resBox, withCells_eq ha hb, seenAABB_eq (hg a ma.1), seenAABB_eq (hg b mb.1)]⟩

/-- C45: after any history, including any earlier queries at other poses, and if bounding boxes are conservative, the
staged check marks exactly the pairs whose polyhedra collide at the present poses, and this is what the check with GJK
alone marks, too. -/
theorem C45_gjk (hG : Conservative G) (ops : List (CD.Op K G)) (ho : ∀ op ∈ ops, op.Plain) (cd : CD K G)
    (h : create.runAll ops = some cd) (W : ℕ → Frame K) :
    ∃ cd' cd'', cd.colChkGJK W = some cd' ∧ cd.colChkGJKOnly W = some cd'' ∧ marks cd' = marks cd'' ∧
      cd'.pairs.map (fun p => (p.c0, p.c1)) = cd.pairs.map (fun p => (p.c0, p.c1)) ∧
      ∀ p ∈ cd'.pairs, On cd (fun a b => p.isCol = G.colPH (seenPH W a) (seenPH W b)) p := by
  obtain ⟨hi, hg⟩ := good_of_runAll ho h
  by_cases hp : cd.pairs = []
  · exact ⟨cd, cd, (queries_nil W hp).2.2.1, (queries_nil W hp).2.2.2.1, rfl, rfl, by simp [hp]⟩
  · have hf : ∀ c ∈ cd.cells, Fit c := fun c hc => (hg c hc).fit
    obtain ⟨S, T, e⟩ := colChkGJK_eq W hi.ready hf hp
    obtain ⟨T', e'⟩ := colChkGJKOnly_eq W hi.ready hf hp
    have key : ∀ p ∈ cd.pairs, (resAABB W cd.cells p && resBox W cd.cells p && resPH W cd.cells p) =
        resPH W cd.cells p := by
      intro p hp
      obtain ⟨a, b, ha, hb⟩ := hi.live p hp
      have ga := hg a (deref_mem ha).1
      have gb := hg b (deref_mem hb).1
      simp only [resAABB, resBox, resPH, withCells_eq ha hb, seenAABB_eq ga, seenAABB_eq gb]
      obtain ⟨f, f1, f2⟩ := seen_pose (W := W) ga
      obtain ⟨g, g1, g2⟩ := seen_pose (W := W) gb
      cases hc : G.colPH (seenPH W a) (seenPH W b)
      · simp
      · rw [f1, g1] at hc
        obtain ⟨k1, k2⟩ := hG _ _ _ _ hc
        rw [f2, g2, k1, k2]; rfl
    refine ⟨_, _, e, e', ?_, by simp [markP, Function.comp_def], ?_⟩
    · simp only [marks, List.map_map]
      exact List.map_congr_left fun p hp => by simp only [Function.comp, key p hp]
    · intro q hq
      obtain ⟨p, hp, rfl⟩ := List.mem_map.1 hq
      exact on_of_with hi (p := p) hp ⟨rfl, rfl⟩ (key p hp)

/-- A case for C45: the boxes of two pairs touch, and the polyhedra of one of them; the query before it, at another pose,
marked the other pairs. -/
example : (create.runAll (Sample.two (fun i => 10 * i) ++
      [.gjk (Sample.along fun _ => 20), .gjk (Sample.along fun i => if i = 0 then 37 / 2 else if i = 1 then 19 else 5)])).map
      Sample.marks =
    some [(1, 2, true), (1, 3, false), (2, 3, true)] ∧
  (create.runAll (Sample.two (fun i => 10 * i) ++
      [.obb (Sample.along fun i => if i = 0 then 37 / 2 else if i = 1 then 19 else 5)])).map Sample.marks =
    some [(1, 2, true), (1, 3, true), (2, 3, true)] := by decide +kernel

/-! ## C46 -/

/-- What a query is to leave as it is: everything by which the cell was registered and, for a static cell, its pose. -/
private def fixed (c : CDCell K G) : (ℕ × G.Shape × ℕ × ℕ × Bool × PH K × G.Box) × Option (PH K × G.Box × G.AABox) :=
  (core c, if c.stat then some (c.ph, c.obb, c.aabb) else none)

private theorem fixed_resetC (c : CDCell K G) : fixed (resetC c) = fixed c := rfl

private theorem fixed_updateBB (W : ℕ → Frame K) (c : CDCell K G) : fixed (updateBB W c) = fixed c := by
  cases h : c.stat <;> cases h' : c.bbUpd <;> simp [updateBB, fixed, h, h', core]

private theorem fixed_updatePH (W : ℕ → Frame K) (c : CDCell K G) : fixed (updatePH' W c) = fixed c := by
  cases h : c.stat <;> cases h' : c.phUpd <;> simp [updatePH', fixed, h, h', core]

private theorem fixed_rf {u : CDCell K G → CDCell K G} (hu : ∀ c, fixed (u c) = fixed c) (S : List ℕ)
    (c : CDCell K G) : fixed (rf u S c) = fixed c := by
  unfold rf; split_ifs
  · exact hu c
  · rfl

private theorem fixed_map {u : CDCell K G → CDCell K G} (hu : ∀ c, fixed (u c) = fixed c) (cs : List (CDCell K G)) :
    (cs.map u).map fixed = cs.map fixed := by simp [Function.comp_def, hu]

private theorem fixed_boxed (W : ℕ → Frame K) (S : List ℕ) (c : CDCell K G) : fixed (boxed W S c) = fixed c :=
  (fixed_rf (fixed_updateBB W) S _).trans (fixed_resetC c)

private theorem fixed_query {cd cd' : CD K G} (hi : Inv cd) (hg : ∀ c ∈ cd.cells, Good c) {op : CD.Op K G}
    (ho : op.Plain) (hq : op.Query) (h : cd.run op = some cd') : cd'.cells.map fixed = cd.cells.map fixed := by
  have hf : ∀ c ∈ cd.cells, Fit c := fun c hc => (hg c hc).fit
  cases op with
  | chainReg => exact hq.elim
  | chainUnreg => exact hq.elim
  | pairReg => exact hq.elim
  | pairUnreg => exact hq.elim
  | pairChainUnreg => exact hq.elim
  | obbVert => exact ho.elim
  | fric t => rw [← Option.some.inj h]; rfl
  | aabb W =>
    by_cases hp : cd.pairs = []
    · rw [CD.run, (queries_nil W hp).1] at h; rw [← Option.some.inj h]
    · obtain ⟨S, e, -⟩ := colChkAABB_eq W hi.ready hp
      rw [CD.run, e] at h; rw [← Option.some.inj h]
      exact (fixed_map (fixed_rf (fixed_updateBB W) S) _).trans (fixed_map fixed_resetC _)
  | obb W =>
    by_cases hp : cd.pairs = []
    · rw [CD.run, (queries_nil W hp).2.1] at h; rw [← Option.some.inj h]
    · obtain ⟨S, e, -⟩ := colChkOBB_eq W hi.ready hp
      rw [CD.run, e] at h; rw [← Option.some.inj h]
      exact (fixed_map (fixed_rf (fixed_updateBB W) S) _).trans (fixed_map fixed_resetC _)
  | gjk W =>
    by_cases hp : cd.pairs = []
    · rw [CD.run, (queries_nil W hp).2.2.1] at h; rw [← Option.some.inj h]
    · obtain ⟨S, T, e⟩ := colChkGJK_eq W hi.ready hf hp
      rw [CD.run, e] at h; rw [← Option.some.inj h]
      exact (fixed_map (fixed_rf (fixed_updatePH W) T) _).trans (fixed_map (fixed_boxed W S) _)
  | gjkOnly W =>
    by_cases hp : cd.pairs = []
    · rw [CD.run, (queries_nil W hp).2.2.2.1] at h; rw [← Option.some.inj h]
    · obtain ⟨T, e⟩ := colChkGJKOnly_eq W hi.ready hf hp
      rw [CD.run, e] at h; rw [← Option.some.inj h]
      exact (fixed_map (fixed_rf (fixed_updatePH W) T) _).trans (fixed_map fixed_resetC _)
  | vert W =>
    by_cases hp : cd.pairs = []
    · rw [CD.run, (queries_nil W hp).2.2.2.2.1] at h; rw [← Option.some.inj h]
    · obtain ⟨S, T, e⟩ := colChkVert_eq W hi.ready hf hp
      rw [CD.run, e] at h; rw [← Option.some.inj h]
      exact (fixed_map (fixed_rf (fixed_updatePH W) T) _).trans (fixed_map (fixed_boxed W S) _)
  | vol W =>
    by_cases hp : cd.pairs = []
    · rw [CD.run, (queries_nil W hp).2.2.2.2.2.1] at h; rw [← Option.some.inj h]
    · obtain ⟨S, T, e⟩ := colVol_eq W hi.ready hf hp
      rw [CD.run, e] at h; rw [← Option.some.inj h]
      exact (fixed_map (fixed_rf (fixed_updatePH W) T) _).trans (fixed_map (fixed_boxed W S) _)

private theorem seenPH_of_fixed {W : ℕ → Frame K} {c c' : CDCell K G} (h : fixed c' = fixed c) :
    seenPH W c' = seenPH W c := by
  simp only [fixed, core, Prod.mk.injEq] at h
  obtain ⟨⟨-, -, h3, -, h5, h6, -⟩, h8⟩ := h
  rw [h5] at h8
  unfold seenPH
  rw [h5, h6, h3]
  split_ifs with hs
  · simp only [hs, if_true, Option.some.injEq, Prod.mk.injEq] at h8; exact h8.1
  · rfl

/-- C46, in part: every query but `rkCDColChkOBBVert` leaves each cell with its address, shape, link, chain, kind and
polyhedron, and leaves what any later query, at any poses, sees of the cell.  What is missing is this for
`rkCDColChkOBBVert`; see `C46_result_fails` and `C46_undefined_fails`. -/
theorem C46_shapes_partial (ops : List (CD.Op K G)) (ho : ∀ op ∈ ops, op.Plain) (cd : CD K G)
    (h : create.runAll ops = some cd) (op : CD.Op K G) (hq : op.Query) (hp : op.Plain) :
    ∃ cd', cd.run op = some cd' ∧
      cd'.cells.map (fun c => (c.ptr, c.shape, c.link, c.chain, c.stat, c.ph0)) =
        cd.cells.map (fun c => (c.ptr, c.shape, c.link, c.chain, c.stat, c.ph0)) ∧
      ∀ W, cd'.cells.map (seenPH W) = cd.cells.map (seenPH W) := by
  obtain ⟨hi, hg⟩ := good_of_runAll ho h
  obtain ⟨cd', h', -⟩ := good_run hi hg hp
  have e := fixed_query hi hg hp hq h'
  have pw : ∀ {β : Type _} (f : CDCell K G → β), (∀ c c', fixed c' = fixed c → f c' = f c) →
      cd'.cells.map f = cd.cells.map f := by
    intro β f hf
    have hl : cd'.cells.length = cd.cells.length := by simpa using congrArg List.length e
    refine List.ext_getElem (by simpa using hl) fun i h1 h2 => ?_
    have := List.getElem_of_eq e (i := i) (by simpa using h1)
    simp only [List.getElem_map] at this ⊢
    exact hf _ _ this
  refine ⟨cd', h', pw _ fun c c' hc => ?_, fun W => pw _ fun c c' hc => seenPH_of_fixed hc⟩
  simp only [fixed, core, Prod.mk.injEq] at hc
  obtain ⟨⟨h1, h2, h3, h4, h5, h6, -⟩, -⟩ := hc
  simp [h1, h2, h3, h4, h5, h6]

/-- C46 fails: after `rkCDColChkOBBVert` the static body is its bounding box, and a later query reports a collision that
is not there. -/
theorem C46_result_fails : ∃ (ops : List (CD.Op ℚ Sample.geo)) (W W' : ℕ → Frame ℚ),
    (∀ op ∈ ops, op.Plain) ∧
    (create.runAll (ops ++ [.gjkOnly W'])).map marks ≠ (create.runAll (ops ++ [.obbVert W, .gjkOnly W'])).map marks := by
  refine ⟨Sample.two fun i => 10 * i, Sample.along fun _ => 20, Sample.along fun i => if i = 2 then 20 else 43 / 2 + 10 * i,
    ?_, ?_⟩
  · intro op ho
    simp only [Sample.two, List.mem_cons, List.not_mem_nil, or_false] at ho
    rcases ho with rfl | rfl <;> trivial
  · decide +kernel

/-- C46 fails: after `rkCDColChkOBBVert` a later query writes the vertices of a shape with more than eight vertices over
the eight of its box. -/
theorem C46_undefined_fails : ∃ (ops : List (CD.Op ℚ Sample.geo)) (W : ℕ → Frame ℚ),
    (∀ op ∈ ops, op.Plain) ∧ (create.runAll (ops ++ [.obbVert W])).isSome = true ∧
    create.runAll (ops ++ [.obbVert W, .gjkOnly W]) = none := by
  refine ⟨[.chainReg (Sample.along fun i => 10 * i) 0 [(0, [Sample.rod]), (1, [Sample.bar 2])] false],
    Sample.along fun _ => 20, ?_, ?_, ?_⟩
  · intro op ho
    rw [List.mem_singleton.1 ho]; trivial
  · decide +kernel
  · rw [← Option.isNone_iff_eq_none]; decide +kernel

/-! ## C62 -/

theorem pairVert_spec (W : ℕ → Frame K) (t : Fric) (p : CDPair K) (hp : p.isCol = true) (a b : CDCell K G) :
    ((pairVert W t p a b).1.isCol = true ↔ (pairVert W t p a b).1.vlist ≠ []) ∧
    (pairVert W t p a b).2 = (pairVert W t p a b).1.vlist.length := by
  simp only [pairVert, and_true]
  split_ifs with h
  · simp only [List.isEmpty_iff] at h; simp [h]
  · simp only [List.isEmpty_iff] at h; simp [hp, h]

/-- C62: after `rkCDColChkVert` the count is the number of contact vertices of all pairs, and a pair is marked exactly
if it has one. -/
theorem C62_vert (ops : List (CD.Op K G)) (ho : ∀ op ∈ ops, op.Plain) (cd : CD K G)
    (h : create.runAll ops = some cd) (W : ℕ → Frame K) :
    ∃ cd', cd.colChkVert W = some cd' ∧ cd'.colnum = (cd'.pairs.map fun p => p.vlist.length).sum ∧
      ∀ p ∈ cd'.pairs, p.isCol = true ↔ p.vlist ≠ [] := by
  obtain ⟨hi, hg⟩ := good_of_runAll ho h
  by_cases hp : cd.pairs = []
  · exact ⟨_, (queries_nil W hp).2.2.2.2.1, by simp [hp], by simp [hp]⟩
  · have hf : ∀ c ∈ cd.cells, Fit c := fun c hc => (hg c hc).fit
    obtain ⟨S, T, e⟩ := colChkVert_eq W hi.ready hf hp
    refine ⟨_, e, ?_, ?_⟩
    · simp only [List.map_map]
      refine congrArg List.sum (List.map_congr_left fun p hp => ?_)
      obtain ⟨a, b, ha, hb⟩ := hi.live p hp
      simp only [Function.comp, withCells_eq ha hb]
      split_ifs
      · exact (pairVert_spec W _ _ rfl _ _).2
      · rfl
    · intro q hq
      obtain ⟨p, hp, rfl⟩ := List.mem_map.1 hq
      obtain ⟨a, b, ha, hb⟩ := hi.live p hp
      simp only [withCells_eq ha hb]
      split_ifs
      · exact (pairVert_spec W _ _ rfl _ _).1
      · simp [markP]

theorem countP_sum {α : Type*} (f : α → Bool) : ∀ l : List α,
    l.countP f = (l.map fun x => if f x = true then 1 else 0).sum
  | [] => rfl
  | x :: l => by rw [List.countP_cons, countP_sum f l, List.map_cons, List.sum_cons, Nat.add_comm]

/-- C62: after `rkCDColVol` the count is the number of pairs that are marked, and these are the pairs whose boxes collide
and whose polyhedra have an intersection, which is stored. -/
theorem C62_vol (ops : List (CD.Op K G)) (ho : ∀ op ∈ ops, op.Plain) (cd : CD K G)
    (h : create.runAll ops = some cd) (W : ℕ → Frame K) :
    ∃ cd', cd.colVol W = some cd' ∧ cd'.colnum = cd'.pairs.countP (fun p => p.isCol) ∧
      ∀ p ∈ cd'.pairs, On cd (fun a b => p.isCol = true ↔
        G.colAABB (G.toAABB (seenBox W a)) (G.toAABB (seenBox W b)) = true ∧
        G.colBox (seenBox W a) (seenBox W b) = true ∧ G.intersect (seenPH W a) (seenPH W b) = some p.colvol) p := by
  obtain ⟨hi, hg⟩ := good_of_runAll ho h
  by_cases hp : cd.pairs = []
  · exact ⟨_, (queries_nil W hp).2.2.2.2.2.1, by simp [hp], by simp [hp]⟩
  · have hf : ∀ c ∈ cd.cells, Fit c := fun c hc => (hg c hc).fit
    obtain ⟨S, T, e⟩ := colVol_eq W hi.ready hf hp
    refine ⟨_, e, ?_, ?_⟩
    · simp only [List.countP_map]
      rw [countP_sum]
      refine congrArg List.sum (List.map_congr_left fun p hp => ?_)
      obtain ⟨a, b, ha, hb⟩ := hi.live p hp
      simp only [Function.comp, withCells_eq ha hb]
      split_ifs <;> cases hx : G.intersect (seenPH W a) (seenPH W b) <;> simp_all [markP]
    · intro q hq
      obtain ⟨p, hp, rfl⟩ := List.mem_map.1 hq
      obtain ⟨a, b, ha, hb⟩ := hi.live p hp
      have ma := deref_mem ha
      have mb := deref_mem hb
      rw [withCells_eq ha hb]
      have hbx : (resAABB W cd.cells p && resBox W cd.cells p) =
          (G.colAABB (G.toAABB (seenBox W a)) (G.toAABB (seenBox W b)) && G.colBox (seenBox W a) (seenBox W b)) := by
        simp only [resAABB, resBox, withCells_eq ha hb, seenAABB_eq (hg a ma.1), seenAABB_eq (hg b mb.1)]
      rw [hbx]
      cases h1 : G.colAABB (G.toAABB (seenBox W a)) (G.toAABB (seenBox W b)) <;>
      cases h2 : G.colBox (seenBox W a) (seenBox W b) <;>
      cases h3 : G.intersect (seenPH W a) (seenPH W b) <;>
      exact ⟨a, ma.1, b, mb.1, ma.2, mb.2, by simp [markP, h1, h2, h3]⟩

/-- C62 fails: `rkCDColChkGJK` marks pairs but leaves the count of an earlier query. -/
theorem C62_gjk_fails : ∃ (ops : List (CD.Op ℚ Sample.geo)) (W : ℕ → Frame ℚ),
    (create.runAll (ops ++ [.gjk W])).map (fun cd => (cd.colnum, cd.pairs.countP fun p => p.isCol)) = some (3, 0) := by
  refine ⟨Sample.two (fun i => 10 * i) ++ [.vol (Sample.along fun _ => 20)], Sample.along fun i => 10 * i, ?_⟩
  decide +kernel

/-- C62 fails: `rkCDColChkOBBVert` counts vertices that it does not list. -/
theorem C62_obbVert_fails : ∃ (ops : List (CD.Op ℚ Sample.geo)) (W : ℕ → Frame ℚ),
    (create.runAll (ops ++ [.obbVert W])).map (fun cd =>
      (decide (0 < cd.colnum), (cd.pairs.map fun p => p.vlist.length).sum, cd.pairs.countP fun p => p.isCol)) =
      some (true, 0, 0) := by
  refine ⟨Sample.two (fun i => 10 * i), Sample.along fun i => if i = 0 then -30 else if i = 1 then 17 else 20, ?_⟩
  decide +kernel

end Roki
