import Verif.Lemmas.CDQuery
set_option autoImplicit false

/-!
# Invariants of the collision detector over histories
-/

namespace Roki
variable {K : Type*} [Field K] {G : CDGeo K}

namespace CD
open Spec

/-! ## Queries keep the cells and the pairs -/

/-- What a query must not change in a cell. -/
abbrev core (c : CDCell K G) : ℕ × G.Shape × ℕ × ℕ × Bool × PH K × G.Box :=
  (c.ptr, c.shape, c.link, c.chain, c.stat, c.ph0, c.bb)

theorem ptrs_of_core {cs cs' : List (CDCell K G)} (h : cs'.map core = cs.map core) : ptrs cs' = ptrs cs := by
  have := congrArg (List.map Prod.fst) h
  simpa [List.map_map, Function.comp_def, core] using this

theorem store_core {cs : List (CDCell K G)} (hn : (ptrs cs).Nodup) {p : ℕ} {c c' : CDCell K G}
    (h : deref cs p = some c) (hc : core c' = core c) : (store cs c').map core = cs.map core := by
  have hm := deref_mem h
  have hp : c'.ptr = c.ptr := congrArg Prod.fst hc
  rw [store, List.map_map]
  refine List.map_congr_left fun d hd => ?_
  simp only [Function.comp]
  split_ifs with e
  · have h1 := deref_of_mem hn hd
    rw [e, hp, deref_of_mem hn hm.1] at h1
    rw [hc, Option.some.inj h1]
  · rfl

theorem updateBB_core (W : ℕ → Frame K) (c : CDCell K G) : core (updateBB W c) = core c := by
  unfold updateBB; split_ifs <;> rfl

theorem updatePH_core (W : ℕ → Frame K) {c c' : CDCell K G} (h : updatePH W c = some c') : core c' = core c := by
  unfold updatePH at h
  split_ifs at h
  · rw [← Option.some.inj h]
  · obtain ⟨ph, -, rfl⟩ := Option.map_eq_some_iff.1 h; rfl

theorem updBB_core (W : ℕ → Frame K) {cs cs' : List (CDCell K G)} (hn : (ptrs cs).Nodup) {p : ℕ}
    (h : updBB W cs p = some cs') : cs'.map core = cs.map core := by
  obtain ⟨c, hc, rfl⟩ := Option.map_eq_some_iff.1 h
  exact store_core hn hc (updateBB_core W c)

theorem updPH_core (W : ℕ → Frame K) {cs cs' : List (CDCell K G)} (hn : (ptrs cs).Nodup) {p : ℕ}
    (h : updPH W cs p = some cs') : cs'.map core = cs.map core := by
  obtain ⟨c, hc, h⟩ := Option.bind_eq_some_iff.1 h
  obtain ⟨c', hc', rfl⟩ := Option.map_eq_some_iff.1 h
  exact store_core hn hc (updatePH_core W hc')

/-- A body that keeps the cells and the pair. -/
def Keeps (body : CDPair K → List (CDCell K G) → Option ((CDPair K × ℕ) × List (CDCell K G))) : Prop :=
  ∀ p cs r, (ptrs cs).Nodup → body p cs = some r → key r.1.1 = key p ∧ r.2.map core = cs.map core

theorem forPairs_keeps {body : CDPair K → List (CDCell K G) → Option ((CDPair K × ℕ) × List (CDCell K G))}
    (hb : Keeps body) : ∀ ps cs r, (ptrs cs).Nodup → forPairs body ps cs = some r →
      r.1.1.map key = ps.map key ∧ r.2.map core = cs.map core
  | [], cs, r, _, h => by simp only [forPairs, Option.some.injEq] at h; subst h; exact ⟨rfl, rfl⟩
  | p :: ps, cs, r, hn, h => by
    simp only [forPairs, Option.bind_eq_bind, Option.bind_eq_some_iff] at h
    obtain ⟨⟨⟨p', n⟩, cs'⟩, h1, ⟨⟨ps', m⟩, cs''⟩, h2, h3⟩ := h
    have h3 := Option.some.inj h3
    subst h3
    obtain ⟨k1, c1⟩ := hb p cs _ hn h1
    obtain ⟨k2, c2⟩ := forPairs_keeps hb ps cs' _ (by rw [ptrs_of_core c1]; exact hn) h2
    exact ⟨by simp only [List.map_cons, k2]; rw [k1], by rw [c2]; exact c1⟩

theorem keeps_aabb (W : ℕ → Frame K) : Keeps (aabbBody (G := G) W) := by
  intro p cs r hn h
  simp only [aabbBody, Option.bind_eq_bind, Option.bind_eq_some_iff] at h
  obtain ⟨cs1, h1, cs2, h2, a, -, b, -, h⟩ := h
  have h := Option.some.inj h; subst h
  have e1 := updBB_core W hn h1
  have e2 := updBB_core W (by rw [ptrs_of_core e1]; exact hn) h2
  exact ⟨by simp only; split_ifs <;> rfl, by rw [e2, e1]⟩

theorem keeps_obb : Keeps (obbBody (G := G) (K := K)) := by
  intro p cs r hn h
  unfold obbBody at h
  split_ifs at h
  · simp only [Option.bind_eq_bind, Option.bind_eq_some_iff] at h
    obtain ⟨a, -, b, -, h⟩ := h
    have h := Option.some.inj h; subst h
    exact ⟨by simp only; split_ifs <;> rfl, rfl⟩
  · have h := Option.some.inj h; subst h; exact ⟨rfl, rfl⟩

theorem keeps_gjk (W : ℕ → Frame K) : Keeps (gjkBody (G := G) W) := by
  intro p cs r hn h
  unfold gjkBody at h
  split_ifs at h
  · simp only [Option.bind_eq_bind, Option.bind_eq_some_iff] at h
    obtain ⟨cs1, h1, cs2, h2, a, -, b, -, h⟩ := h
    have h := Option.some.inj h; subst h
    have e1 := updPH_core W hn h1
    have e2 := updPH_core W (by rw [ptrs_of_core e1]; exact hn) h2
    exact ⟨by simp only; split_ifs <;> rfl, by rw [e2, e1]⟩
  · have h := Option.some.inj h; subst h; exact ⟨rfl, rfl⟩

theorem keeps_gjkOnly (W : ℕ → Frame K) : Keeps (gjkOnlyBody (G := G) W) := by
  intro p cs r hn h
  simp only [gjkOnlyBody, Option.bind_eq_bind, Option.bind_eq_some_iff] at h
  obtain ⟨cs1, h1, cs2, h2, a, -, b, -, h⟩ := h
  have h := Option.some.inj h; subst h
  have e1 := updPH_core W hn h1
  have e2 := updPH_core W (by rw [ptrs_of_core e1]; exact hn) h2
  exact ⟨by simp only; split_ifs <;> rfl, by rw [e2, e1]⟩

theorem keeps_vert (W : ℕ → Frame K) (t : Fric) : Keeps (vertBody (G := G) W t) := by
  intro p cs r hn h
  unfold vertBody at h
  split_ifs at h
  · simp only [Option.bind_eq_bind, Option.bind_eq_some_iff] at h
    obtain ⟨cs1, h1, cs2, h2, a, -, b, -, h⟩ := h
    have h := Option.some.inj h; subst h
    have e1 := updPH_core W hn h1
    have e2 := updPH_core W (by rw [ptrs_of_core e1]; exact hn) h2
    exact ⟨rfl, by rw [e2, e1]⟩
  · have h := Option.some.inj h; subst h; exact ⟨rfl, rfl⟩

theorem keeps_vol (W : ℕ → Frame K) : Keeps (volBody (G := G) W) := by
  intro p cs r hn h
  unfold volBody at h
  split_ifs at h
  · simp only [Option.bind_eq_bind, Option.bind_eq_some_iff] at h
    obtain ⟨cs1, h1, cs2, h2, a, -, b, -, h⟩ := h
    have e1 := updPH_core W hn h1
    have e2 := updPH_core W (by rw [ptrs_of_core e1]; exact hn) h2
    cases hi : G.intersect a.ph b.ph <;> rw [hi] at h <;> have h := Option.some.inj h <;> subst h <;>
      exact ⟨rfl, by rw [e2, e1]⟩
  · have h := Option.some.inj h; subst h; exact ⟨rfl, rfl⟩

theorem keeps_obbVert (W : ℕ → Frame K) (t : Fric) : Keeps (obbVertBody (G := G) W t) := by
  intro p cs r hn h
  unfold obbVertBody at h
  split_ifs at h
  · simp only [Option.bind_eq_bind, Option.bind_eq_some_iff] at h
    obtain ⟨a, ha, b, hb, h⟩ := h
    have h := Option.some.inj h; subst h
    refine ⟨rfl, ?_⟩
    have e1 : (store cs { a with ph := G.boxPH a.obb }).map core = cs.map core := store_core hn ha rfl
    have hn1 : (ptrs (store cs { a with ph := G.boxPH a.obb })).Nodup := by rw [ptrs_of_core e1]; exact hn
    have hb' : ∃ d, deref (store cs { a with ph := G.boxPH a.obb }) p.c1 = some d ∧ core d = core b := by
      have hm := deref_mem hb
      have ham := deref_mem ha
      have : store cs { a with ph := G.boxPH a.obb } =
          cs.map fun d => if d.ptr = a.ptr then { d with ph := G.boxPH d.obb } else d :=
        store_eq (g := fun d => { d with ph := G.boxPH d.obb }) hn ham.1 rfl
      rw [this, deref_map (g := fun d => if d.ptr = a.ptr then { d with ph := G.boxPH d.obb } else d)
        (fun c => by split_ifs <;> rfl), hb]
      refine ⟨_, rfl, ?_⟩
      by_cases e : b.ptr = a.ptr <;> simp [e, core]
    obtain ⟨d, hd, hdc⟩ := hb'
    rw [store_core hn1 hd (show core _ = core d by rw [hdc]), e1]
  · have h := Option.some.inj h; subst h; exact ⟨rfl, rfl⟩

/-- Two states with the same cells and pairs, apart from results. -/
structure Same (cd cd' : CD K G) : Prop where
  cells : cd'.cells.map core = cd.cells.map core
  pairs : cd'.pairs.map key = cd.pairs.map key
  next : cd'.next = cd.next

theorem Same.refl (cd : CD K G) : Same cd cd := ⟨rfl, rfl, rfl⟩
theorem Same.trans {a b c : CD K G} (h : Same a b) (h' : Same b c) : Same a c :=
  ⟨h'.cells.trans h.cells, h'.pairs.trans h.pairs, h'.next.trans h.next⟩

theorem Same.nodup {a b : CD K G} (h : Same a b) (hn : (ptrs a.cells).Nodup) : (ptrs b.cells).Nodup := by
  rw [ptrs_of_core h.cells]; exact hn

theorem same_reset (cd : CD K G) : Same cd cd.reset :=
  ⟨by simp [reset, core, Function.comp_def], by simp [reset, key, Function.comp_def], rfl⟩

theorem same_run {cd cd' : CD K G} {body} (hb : Keeps body) (hn : (ptrs cd.cells).Nodup)
    (h : cd.runPairs body = some cd') : Same cd cd' := by
  obtain ⟨r, hr, rfl⟩ := Option.map_eq_some_iff.1 h
  have := forPairs_keeps hb _ _ _ hn hr
  exact ⟨this.2, this.1, rfl⟩

theorem same_count {cd cd' : CD K G} {body} (hb : Keeps body) (hn : (ptrs cd.cells).Nodup)
    (h : cd.countPairs body = some cd') : Same cd cd' := by
  obtain ⟨r, hr, rfl⟩ := Option.map_eq_some_iff.1 h
  have := forPairs_keeps hb _ _ _ hn hr
  exact ⟨this.2, this.1, rfl⟩

theorem same_aabb {W : ℕ → Frame K} {cd cd' : CD K G} (hn : (ptrs cd.cells).Nodup)
    (h : cd.colChkAABB W = some cd') : Same cd cd' := by
  unfold colChkAABB at h
  split_ifs at h
  · rw [← Option.some.inj h]; exact .refl _
  · exact (same_reset cd).trans (same_run (keeps_aabb W) ((same_reset cd).nodup hn) h)

theorem same_obb {W : ℕ → Frame K} {cd cd' : CD K G} (hn : (ptrs cd.cells).Nodup)
    (h : cd.colChkOBB W = some cd') : Same cd cd' := by
  obtain ⟨c1, h1, h2⟩ := Option.bind_eq_some_iff.1 h
  have s := same_aabb hn h1
  exact s.trans (same_run keeps_obb (s.nodup hn) h2)

theorem same_gjkOnly {W : ℕ → Frame K} {cd cd' : CD K G} (hn : (ptrs cd.cells).Nodup)
    (h : cd.colChkGJKOnly W = some cd') : Same cd cd' := by
  unfold colChkGJKOnly at h
  split_ifs at h
  · rw [← Option.some.inj h]; exact .refl _
  · exact (same_reset cd).trans (same_run (keeps_gjkOnly W) ((same_reset cd).nodup hn) h)

theorem same_query {op : Op K G} (hq : op.Query) {cd cd' : CD K G} (hn : (ptrs cd.cells).Nodup)
    (h : cd.run op = some cd') : Same cd cd' := by
  cases op with
  | chainReg => exact hq.elim
  | chainUnreg => exact hq.elim
  | pairReg => exact hq.elim
  | pairUnreg => exact hq.elim
  | pairChainUnreg => exact hq.elim
  | fric t => rw [← Option.some.inj h]; exact ⟨rfl, rfl, rfl⟩
  | aabb W => exact same_aabb hn h
  | obb W => exact same_obb hn h
  | gjkOnly W => exact same_gjkOnly hn h
  | gjk W =>
    obtain ⟨c1, h1, h2⟩ := Option.bind_eq_some_iff.1 h
    exact (same_obb hn h1).trans (same_run (keeps_gjk W) ((same_obb hn h1).nodup hn) h2)
  | vert W =>
    obtain ⟨c1, h1, h2⟩ := Option.bind_eq_some_iff.1 h
    exact (same_obb hn h1).trans (same_count (keeps_vert W _) ((same_obb hn h1).nodup hn) h2)
  | obbVert W =>
    obtain ⟨c1, h1, h2⟩ := Option.bind_eq_some_iff.1 h
    exact (same_obb hn h1).trans (same_count (keeps_obbVert W _) ((same_obb hn h1).nodup hn) h2)
  | vol W =>
    obtain ⟨c1, h1, h2⟩ := Option.bind_eq_some_iff.1 h
    exact (same_obb hn h1).trans (same_count (keeps_vol W) ((same_obb hn h1).nodup hn) h2)

/-! ## The structure of the lists -/

/-- Cells are in the order of their addresses, which are below the next one; every pair consists of two of them, the older
first; no pair appears twice. -/
structure Inv (cd : CD K G) : Prop where
  sorted : (ptrs cd.cells).Pairwise (· < ·)
  bound : ∀ x ∈ ptrs cd.cells, x < cd.next
  pairs : ∀ k ∈ cd.pairs.map key, k.1 < k.2 ∧ k.1 ∈ ptrs cd.cells ∧ k.2 ∈ ptrs cd.cells
  nodup : (cd.pairs.map key).Nodup

theorem Inv.ptrs_nodup {cd : CD K G} (h : Inv cd) : (ptrs cd.cells).Nodup := h.sorted.imp fun h => ne_of_lt h

theorem Inv.same {cd cd' : CD K G} (h : Inv cd) (s : Same cd cd') : Inv cd' := by
  have e := ptrs_of_core s.cells
  exact ⟨e ▸ h.sorted, by rw [e, s.next]; exact h.bound, by rw [e, s.pairs]; exact h.pairs, by
    rw [s.pairs]; exact h.nodup⟩

theorem Inv.live {cd : CD K G} (h : Inv cd) : ∀ p ∈ cd.pairs, Live cd.cells p := by
  intro p hp
  obtain ⟨-, h1, h2⟩ := h.pairs (key p) (List.mem_map_of_mem hp)
  obtain ⟨a, ha, ea⟩ := List.mem_map.1 h1
  obtain ⟨b, hb, eb⟩ := List.mem_map.1 h2
  have ea : a.ptr = p.c0 := ea
  have eb : b.ptr = p.c1 := eb
  exact ⟨a, b, by rw [← ea]; exact deref_of_mem h.ptrs_nodup ha, by rw [← eb]; exact deref_of_mem h.ptrs_nodup hb⟩

theorem Inv.ready {cd : CD K G} (h : Inv cd) : Ready cd := ⟨h.ptrs_nodup, h.live⟩

theorem inv_create : Inv (create : CD K G) := by
  constructor <;> simp [create]

theorem cellCreate_spec {W : ℕ → Frame K} {ptr chain link : ℕ} {shape : G.Shape} {stat : Bool} {c : CDCell K G}
    (h : cellCreate W ptr chain link shape stat = some c) :
    c.ptr = ptr ∧ c.shape = shape ∧ c.link = link ∧ c.chain = chain ∧ c.stat = stat ∧ G.toPH shape = some c.ph0 ∧
    c.bb = G.bbOf c.ph0 ∧ c.ph = posed c.ph0 (W link) ∧ c.obb = G.boxX c.bb (W link) ∧ c.aabb = G.toAABB c.obb := by
  simp only [cellCreate, Option.bind_eq_bind, Option.bind_eq_some_iff] at h
  obtain ⟨ph0, h1, ph, h2, h⟩ := h
  have h := Option.some.inj h; subst h
  simp only [PH.xform, le_refl, if_true, List.drop_length, List.append_nil, Option.some.injEq] at h2
  exact ⟨rfl, rfl, rfl, rfl, rfl, h1, rfl, h2.symm, rfl, rfl⟩

/-- The registration of a shape adds one cell at the end, and the pairs of the cells with it that are to be watched. -/
theorem shapeReg_spec {W : ℕ → Frame K} {cd cd' : CD K G} {chain link : ℕ} {shape : G.Shape} {stat : Bool}
    (h : cd.shapeReg W chain link shape stat = some cd') :
    ∃ c, cellCreate W cd.next chain link shape stat = some c ∧ cd'.cells = cd.cells ++ [c] ∧
      cd'.pairs = cd.pairs ++ (cd.cells.filter fun a => pairable a c).map (fun a => newPair a.ptr c.ptr) ∧
      cd'.next = cd.next + 1 ∧ cd'.colnum = cd.colnum ∧ cd'.defType = cd.defType := by
  obtain ⟨⟨c, c1⟩, h1, rfl⟩ := Option.map_eq_some_iff.1 h
  obtain ⟨c', h2, h3⟩ := Option.map_eq_some_iff.1 h1
  obtain ⟨rfl, rfl⟩ := Prod.mk.inj h3
  have hs : pairable c' c' = false := by simp [pairable]
  refine ⟨c', h2, ?_, ?_, ?_, ?_, ?_⟩
  · simp only; split_ifs <;> rfl
  · simp only [List.length_append, List.length_singleton]
    split_ifs with h
    · simp [pairCellReg, List.filter_append, hs]
    · have : cd.cells = [] := by
        rw [← List.length_eq_zero_iff]; omega
      simp [this]
  · simp only; split_ifs <;> rfl
  · simp only; split_ifs <;> rfl
  · simp only; split_ifs <;> rfl

theorem inv_shapeReg {W : ℕ → Frame K} {cd cd' : CD K G} {chain link : ℕ} {shape : G.Shape} {stat : Bool}
    (hi : Inv cd) (h : cd.shapeReg W chain link shape stat = some cd') : Inv cd' := by
  obtain ⟨c, h1, h2, h3, h4, -, -⟩ := shapeReg_spec h
  have hc := (cellCreate_spec h1).1
  have hk : cd'.pairs.map key = cd.pairs.map key ++
      ((cd.cells.filter fun a => pairable a c).map fun a => (a.ptr, cd.next)) := by
    rw [h3, List.map_append, List.map_map, ← hc]; rfl
  have hp : ptrs cd'.cells = ptrs cd.cells ++ [cd.next] := by rw [h2, ptrs, List.map_append]; simp [hc]
  refine ⟨?_, ?_, ?_, ?_⟩
  · rw [hp, List.pairwise_append]
    exact ⟨hi.sorted, by simp, fun x hx y hy => by rw [List.mem_singleton.1 hy]; exact hi.bound x hx⟩
  · rw [hp, h4]
    intro x hx
    rcases List.mem_append.1 hx with hx | hx
    · exact (hi.bound x hx).trans (Nat.lt_succ_self _)
    · rw [List.mem_singleton.1 hx]; exact Nat.lt_succ_self _
  · rw [hk, hp]
    intro k hk
    rcases List.mem_append.1 hk with hk | hk
    · obtain ⟨a, b, c⟩ := hi.pairs k hk
      exact ⟨a, List.mem_append_left _ b, List.mem_append_left _ c⟩
    · obtain ⟨a, ha, rfl⟩ := List.mem_map.1 hk
      have : a.ptr ∈ ptrs cd.cells := List.mem_map_of_mem (List.mem_of_mem_filter ha)
      exact ⟨hi.bound _ this, List.mem_append_left _ this, by simp⟩
  · rw [hk, List.nodup_append]
    refine ⟨hi.nodup, ?_, ?_⟩
    · have : ((cd.cells.filter fun a => pairable a c).map fun a => a.ptr).Nodup :=
        (List.filter_sublist.map _).nodup hi.ptrs_nodup
      have e : ((cd.cells.filter fun a => pairable a c).map fun a => (a.ptr, cd.next)) =
          ((cd.cells.filter fun a => pairable a c).map fun a => a.ptr).map fun x => (x, cd.next) := by
        rw [List.map_map]; rfl
      rw [e]
      exact this.map fun x y h => (Prod.mk.inj h).1
    · intro k hk l hl e
      subst e
      obtain ⟨a, -, rfl⟩ := List.mem_map.1 hl
      exact absurd (hi.bound _ (hi.pairs _ hk).2.2) (lt_irrefl _)

theorem shapesReg_ind {P : CD K G → Prop} {W : ℕ → Frame K} {chain : ℕ} {stat : Bool}
    (hs : ∀ cd link shape cd', P cd → cd.shapeReg W chain link shape stat = some cd' → P cd') :
    ∀ (l : List (ℕ × G.Shape)) (cd : CD K G), P cd → P (shapesReg W chain stat l cd).2
  | [], _, h => h
  | (link, shape) :: l, cd, h => by
    unfold shapesReg
    cases e : cd.shapeReg W chain link shape stat with
    | none => exact h
    | some cd' => exact shapesReg_ind hs l cd' (hs _ _ _ _ h e)

theorem purge_eq {test : CDPair K → Option Bool} {g : CDPair K → Bool} : ∀ {ps : List (CDPair K)},
    (∀ p ∈ ps, test p = some (g p)) → purge test ps = some (ps.filter fun p => !g p)
  | [], _ => rfl
  | p :: ps, h => by
    rw [purge, h p (by simp), Option.bind_some, purge_eq fun q hq => h q (List.mem_cons_of_mem _ hq), Option.map_some]
    cases hg : g p <;> simp [hg]

theorem anyOn_eq {cs : List (CDCell K G)} {l1 l2 : ℕ} {g : CDPair K → Bool} : ∀ {ps : List (CDPair K)},
    (∀ p ∈ ps, onLinks cs l1 l2 p = some (g p)) → anyOn cs l1 l2 ps = some (ps.any g)
  | [], _ => rfl
  | p :: ps, h => by
    rw [anyOn, h p (by simp), Option.bind_some]
    cases hg : g p
    · simp [hg, anyOn_eq fun q hq => h q (List.mem_cons_of_mem _ hq)]
    · simp [hg]

/-- The two links of the pair, as read by `rkCDPairReg` and `rkCDPairUnreg`. -/
def onB (cs : List (CDCell K G)) (l1 l2 : ℕ) : CDPair K → Bool :=
  withCells cs (fun _ => false) fun _ a b => (a.link == l1 && b.link == l2) || (a.link == l2 && b.link == l1)

theorem onLinks_eq {cs : List (CDCell K G)} {l1 l2 : ℕ} {p : CDPair K} (h : Live cs p) :
    onLinks cs l1 l2 p = some (onB cs l1 l2 p) := by
  obtain ⟨a, b, ha, hb⟩ := h
  simp [onLinks, onB, withCells_eq ha hb, ha, hb]

theorem inv_filter {cd : CD K G} (hi : Inv cd) (g : CDPair K → Bool) :
    Inv { cd with pairs := cd.pairs.filter g } :=
  ⟨hi.sorted, hi.bound, fun k hk => hi.pairs k ((List.filter_sublist.map key).subset hk),
    (List.filter_sublist.map key).nodup hi.nodup⟩

theorem pairUnreg_eq {cd : CD K G} (hi : Inv cd) (l1 l2 : ℕ) :
    cd.pairUnreg l1 l2 = some { cd with pairs := cd.pairs.filter fun p => !onB cd.cells l1 l2 p } := by
  rw [pairUnreg, purge_eq fun p hp => onLinks_eq (hi.live p hp)]; rfl

theorem pairChainUnreg_eq {cd : CD K G} (hi : Inv cd) (chain : ℕ) :
    cd.pairChainUnreg chain = some { cd with
      pairs := cd.pairs.filter fun p =>
        !withCells cd.cells (fun _ => false) (fun _ a b => a.chain == chain && b.chain == chain) p } := by
  rw [pairChainUnreg, purge_eq (g := withCells cd.cells (fun _ => false) fun _ a b =>
    a.chain == chain && b.chain == chain)]
  · rfl
  · intro p hp
    obtain ⟨a, b, ha, hb⟩ := hi.live p hp
    simp [withCells_eq ha hb, ha, hb]

theorem chainUnreg_eq {cd : CD K G} (hi : Inv cd) (chain : ℕ) :
    cd.chainUnreg chain = some { cd with
      pairs := cd.pairs.filter fun p =>
        !withCells cd.cells (fun _ => false) (fun _ a b => a.chain == chain || b.chain == chain) p,
      cells := cd.cells.filter fun c => c.chain != chain } := by
  rw [chainUnreg, purge_eq (g := withCells cd.cells (fun _ => false) fun _ a b =>
    a.chain == chain || b.chain == chain)]
  · rfl
  · intro p hp
    obtain ⟨a, b, ha, hb⟩ := hi.live p hp
    simp [withCells_eq ha hb, ha, hb]

theorem inv_chainUnreg {cd cd' : CD K G} (hi : Inv cd) {chain : ℕ} (h : cd.chainUnreg chain = some cd') : Inv cd' := by
  rw [chainUnreg_eq hi] at h
  have h := Option.some.inj h; subst h
  have sub : (cd.cells.filter fun c => c.chain != chain).Sublist cd.cells := List.filter_sublist
  refine ⟨hi.sorted.sublist (sub.map _), fun x hx => hi.bound x ((sub.map _).subset hx), ?_,
    (List.filter_sublist.map key).nodup hi.nodup⟩
  intro k hk
  obtain ⟨p, hp, rfl⟩ := List.mem_map.1 hk
  obtain ⟨hp, ht⟩ := List.mem_filter.1 hp
  obtain ⟨a, b, ha, hb⟩ := hi.live p hp
  simp only [withCells_eq ha hb, Bool.not_or, Bool.and_eq_true, Bool.not_eq_true', beq_eq_false_iff_ne, ne_eq] at ht
  have ma := deref_mem ha
  have mb := deref_mem hb
  refine ⟨(hi.pairs _ (List.mem_map_of_mem hp)).1, ?_, ?_⟩
  · exact List.mem_map.2 ⟨a, List.mem_filter.2 ⟨ma.1, by simp [ht.1]⟩, ma.2⟩
  · exact List.mem_map.2 ⟨b, List.mem_filter.2 ⟨mb.1, by simp [ht.2]⟩, mb.2⟩

/-! ## Registration of a pair of links -/

theorem linkPairs_mem {l1 l2 : ℕ} : ∀ {cs : List (CDCell K G)}, (ptrs cs).Pairwise (· < ·) → ∀ {p : CDPair K},
    p ∈ linkPairs l1 l2 cs ↔ ∃ a ∈ cs, ∃ b ∈ cs, a.ptr < b.ptr ∧
      ((a.link = l1 ∧ b.link = l2) ∨ (a.link = l2 ∧ b.link = l1)) ∧ p = newPair a.ptr b.ptr
  | [], _, p => by simp [linkPairs]
  | c :: cs, hs, p => by
    have hs' := hs
    rw [ptrs, List.map_cons, List.pairwise_cons] at hs'
    have hlt : ∀ d ∈ cs, c.ptr < d.ptr := fun d hd => hs'.1 _ (List.mem_map_of_mem hd)
    rw [linkPairs, List.mem_append, linkPairs_mem hs'.2]
    constructor
    · rintro (h | ⟨a, ha, b, hb, h⟩)
      · obtain ⟨b, hb, rfl⟩ := List.mem_map.1 h
        obtain ⟨hb, hl⟩ := List.mem_filter.1 hb
        exact ⟨c, by simp, b, List.mem_cons_of_mem _ hb, hlt b hb, by simpa using hl, rfl⟩
      · exact ⟨a, List.mem_cons_of_mem _ ha, b, List.mem_cons_of_mem _ hb, h⟩
    · rintro ⟨a, ha, b, hb, h1, h2, rfl⟩
      rcases List.mem_cons.1 ha with ea | ha' <;> rcases List.mem_cons.1 hb with eb | hb'
      · rw [ea, eb] at h1; exact absurd h1 (lt_irrefl _)
      · subst ea
        exact .inl (List.mem_map.2 ⟨b, List.mem_filter.2 ⟨hb', by simpa using h2⟩, rfl⟩)
      · rw [eb] at h1; exact absurd (h1.trans (hlt a ha')) (lt_irrefl _)
      · exact .inr ⟨a, ha', b, hb', h1, h2, rfl⟩

theorem linkPairs_nodup {l1 l2 : ℕ} : ∀ {cs : List (CDCell K G)}, (ptrs cs).Pairwise (· < ·) →
    ((linkPairs l1 l2 cs).map key).Nodup
  | [], _ => by simp [linkPairs]
  | c :: cs, hs => by
    have hs' := hs
    rw [ptrs, List.map_cons, List.pairwise_cons] at hs'
    rw [linkPairs, List.map_append, List.nodup_append]
    refine ⟨?_, linkPairs_nodup hs'.2, ?_⟩
    · rw [List.map_map]
      have hsub : ((cs.filter fun b => (c.link == l1 && b.link == l2) || (c.link == l2 && b.link == l1)).map
          (·.ptr)).Nodup := (hs'.2.sublist (List.filter_sublist.map _)).imp fun h => ne_of_lt h
      have := hsub.map (f := fun x => (c.ptr, x)) fun x y h => (Prod.mk.inj h).2
      rw [List.map_map] at this
      exact this
    · intro k hk l hl e
      subst e
      obtain ⟨p, hp, rfl⟩ := List.mem_map.1 hl
      obtain ⟨a, ha, b, -, -, -, rfl⟩ := (linkPairs_mem hs'.2).1 hp
      rw [List.map_map] at hk
      obtain ⟨d, -, hd⟩ := List.mem_map.1 hk
      have : c.ptr = a.ptr := (Prod.mk.inj hd).1
      have h2 := hs'.1 _ (List.mem_map_of_mem ha)
      rw [this] at h2
      exact lt_irrefl _ h2

theorem pairReg_eq {cd : CD K G} (hi : Inv cd) (l1 l2 : ℕ) :
    cd.pairReg l1 l2 = some (if cd.pairs.any (onB cd.cells l1 l2) then cd
      else { cd with pairs := cd.pairs ++ linkPairs l1 l2 cd.cells }) := by
  rw [pairReg, anyOn_eq fun p hp => onLinks_eq (hi.live p hp)]; rfl

theorem inv_pairReg {cd cd' : CD K G} (hi : Inv cd) {l1 l2 : ℕ} (h : cd.pairReg l1 l2 = some cd') : Inv cd' := by
  rw [pairReg_eq hi] at h
  have h := Option.some.inj h
  split_ifs at h with he
  · rw [← h]; exact hi
  subst h
  refine ⟨hi.sorted, hi.bound, ?_, ?_⟩
  · intro k hk
    simp only [List.map_append, List.mem_append] at hk
    rcases hk with hk | hk
    · exact hi.pairs k hk
    · obtain ⟨p, hp, rfl⟩ := List.mem_map.1 hk
      obtain ⟨a, ha, b, hb, hl, -, rfl⟩ := (linkPairs_mem hi.sorted).1 hp
      exact ⟨hl, List.mem_map_of_mem ha, List.mem_map_of_mem hb⟩
  · simp only [List.map_append]
    rw [List.nodup_append]
    refine ⟨hi.nodup, linkPairs_nodup hi.sorted, ?_⟩
    intro k hk l hl e
    subst e
    obtain ⟨p, hp, rfl⟩ := List.mem_map.1 hk
    obtain ⟨q, hq, hqk⟩ := List.mem_map.1 hl
    obtain ⟨a, ha, b, hb, -, hl, rfl⟩ := (linkPairs_mem hi.sorted).1 hq
    obtain ⟨h1, h2⟩ := Prod.mk.inj hqk
    simp only [newPair] at h1 h2
    refine he (List.any_eq_true.2 ⟨p, hp, ?_⟩)
    rw [onB, withCells_eq (a := a) (b := b) (by rw [← h1]; exact deref_of_mem hi.ptrs_nodup ha)
      (by rw [← h2]; exact deref_of_mem hi.ptrs_nodup hb)]
    simpa using hl

/-- Every operation keeps the invariant. -/
theorem inv_run {cd cd' : CD K G} (hi : Inv cd) {op : Op K G} (h : cd.run op = some cd') : Inv cd' := by
  cases op with
  | chainReg W c l s =>
    rw [← Option.some.inj h]
    exact shapesReg_ind (fun _ _ _ _ hi h => inv_shapeReg hi h) _ _ hi
  | chainUnreg c => exact inv_chainUnreg hi h
  | pairReg a b => exact inv_pairReg hi h
  | pairUnreg a b =>
    rw [CD.run, pairUnreg_eq hi] at h
    rw [← Option.some.inj h]; exact inv_filter hi _
  | pairChainUnreg c =>
    rw [CD.run, pairChainUnreg_eq hi] at h
    rw [← Option.some.inj h]; exact inv_filter hi _
  | fric => exact hi.same (same_query (op := .fric _) trivial hi.ptrs_nodup h)
  | aabb => exact hi.same (same_query (op := .aabb _) trivial hi.ptrs_nodup h)
  | obb => exact hi.same (same_query (op := .obb _) trivial hi.ptrs_nodup h)
  | gjk => exact hi.same (same_query (op := .gjk _) trivial hi.ptrs_nodup h)
  | gjkOnly => exact hi.same (same_query (op := .gjkOnly _) trivial hi.ptrs_nodup h)
  | vert => exact hi.same (same_query (op := .vert _) trivial hi.ptrs_nodup h)
  | obbVert => exact hi.same (same_query (op := .obbVert _) trivial hi.ptrs_nodup h)
  | vol => exact hi.same (same_query (op := .vol _) trivial hi.ptrs_nodup h)

theorem inv_runAll {ops : List (Op K G)} : ∀ {cd cd' : CD K G}, Inv cd → cd.runAll ops = some cd' → Inv cd' := by
  induction ops with
  | nil => intro cd cd' hi h; rw [← Option.some.inj h]; exact hi
  | cons op ops ih =>
    intro cd cd' hi h
    obtain ⟨c1, h1, h2⟩ := Option.bind_eq_some_iff.1 h
    exact ih (inv_run hi h1) h2

/-! ## The geometry of the cells -/

/-- The polyhedron and the boxes of a cell are those of its shape at some pose, which for a static cell is one pose. -/
structure Good (c : CDCell K G) : Prop where
  shape : G.toPH c.shape = some c.ph0
  bb : c.bb = G.bbOf c.ph0
  ph : ∃ f, c.ph = posed c.ph0 f
  obb : ∃ f, c.obb = G.boxX c.bb f ∧ c.aabb = G.toAABB c.obb
  stat : c.stat = true → ∃ f, c.ph = posed c.ph0 f ∧ c.obb = G.boxX c.bb f

theorem Good.fit {c : CDCell K G} (h : Good c) : Fit c := by
  obtain ⟨f, hf⟩ := h.ph
  rw [Fit, hf]; exact ⟨by simp [posed], rfl⟩

theorem good_create {W : ℕ → Frame K} {ptr chain link : ℕ} {shape : G.Shape} {stat : Bool} {c : CDCell K G}
    (h : cellCreate W ptr chain link shape stat = some c) : Good c := by
  obtain ⟨-, h2, h3, -, -, h6, h7, h8, h9, h10⟩ := cellCreate_spec h
  exact ⟨h2 ▸ h6, h7, ⟨_, h8⟩, ⟨_, h9, h10⟩, fun _ => ⟨_, h8, h9⟩⟩

theorem good_resetC {c : CDCell K G} (h : Good c) : Good (resetC c) := ⟨h.shape, h.bb, h.ph, h.obb, h.stat⟩

theorem good_updateBB (W : ℕ → Frame K) {c : CDCell K G} (h : Good c) : Good (updateBB W c) := by
  unfold updateBB
  split_ifs with hs
  · exact h
  · refine ⟨h.shape, h.bb, h.ph, ⟨_, rfl, rfl⟩, fun e => ?_⟩
    simp only at e
    simp [e] at hs

theorem good_updatePH' (W : ℕ → Frame K) {c : CDCell K G} (h : Good c) : Good (updatePH' W c) := by
  unfold updatePH'
  split_ifs with hs
  · exact h
  · refine ⟨h.shape, h.bb, ⟨_, rfl⟩, h.obb, fun e => ?_⟩
    simp only at e
    simp [e] at hs

theorem good_rf {u : CDCell K G → CDCell K G} (hu : ∀ {c}, Good c → Good (u c)) (S : List ℕ) {c : CDCell K G}
    (h : Good c) : Good (rf u S c) := by
  unfold rf; split_ifs
  · exact hu h
  · exact h

theorem good_map {u : CDCell K G → CDCell K G} (hu : ∀ {c}, Good c → Good (u c)) {cs : List (CDCell K G)}
    (h : ∀ c ∈ cs, Good c) : ∀ c ∈ cs.map u, Good c := by
  intro c hc
  obtain ⟨d, hd, rfl⟩ := List.mem_map.1 hc
  exact hu (h d hd)

theorem good_boxed (W : ℕ → Frame K) (S : List ℕ) {c : CDCell K G} (h : Good c) : Good (boxed W S c) :=
  good_rf (good_updateBB W) S (good_resetC h)

/-- Every call but `rkCDColChkOBBVert` is defined and keeps the geometry of the cells. -/
theorem good_run {cd : CD K G} (hi : Inv cd) (hg : ∀ c ∈ cd.cells, Good c) {op : Op K G} (ho : op.Plain) :
    ∃ cd', cd.run op = some cd' ∧ ∀ c ∈ cd'.cells, Good c := by
  have hf : ∀ c ∈ cd.cells, Fit c := fun c hc => (hg c hc).fit
  cases op with
  | chainReg W c l s =>
    refine ⟨_, rfl, shapesReg_ind (P := fun cd => ∀ c ∈ cd.cells, Good c) (fun cd _ _ cd' hg h => ?_) _ _ hg⟩
    obtain ⟨c, h1, h2, -⟩ := shapeReg_spec h
    intro d hd
    rw [h2] at hd
    rcases List.mem_append.1 hd with hd | hd
    · exact hg d hd
    · rw [List.mem_singleton.1 hd]; exact good_create h1
  | chainUnreg c => exact ⟨_, chainUnreg_eq hi c, fun c hc => hg c (List.mem_of_mem_filter hc)⟩
  | pairReg a b => exact ⟨_, pairReg_eq hi a b, by split_ifs <;> exact hg⟩
  | pairUnreg a b => exact ⟨_, pairUnreg_eq hi a b, hg⟩
  | pairChainUnreg c => exact ⟨_, pairChainUnreg_eq hi c, hg⟩
  | fric t => exact ⟨_, rfl, hg⟩
  | aabb W =>
    by_cases hp : cd.pairs = []
    · exact ⟨_, (queries_nil W hp).1, hg⟩
    · obtain ⟨S, h, -⟩ := colChkAABB_eq W hi.ready hp
      exact ⟨_, h, good_map (good_rf (good_updateBB W) S) (good_map good_resetC hg)⟩
  | obb W =>
    by_cases hp : cd.pairs = []
    · exact ⟨_, (queries_nil W hp).2.1, hg⟩
    · obtain ⟨S, h, -⟩ := colChkOBB_eq W hi.ready hp
      exact ⟨_, h, good_map (good_rf (good_updateBB W) S) (good_map good_resetC hg)⟩
  | gjk W =>
    by_cases hp : cd.pairs = []
    · exact ⟨_, (queries_nil W hp).2.2.1, hg⟩
    · obtain ⟨S, T, h⟩ := colChkGJK_eq W hi.ready hf hp
      exact ⟨_, h, good_map (good_rf (good_updatePH' W) T) (good_map (good_boxed W S) hg)⟩
  | gjkOnly W =>
    by_cases hp : cd.pairs = []
    · exact ⟨_, (queries_nil W hp).2.2.2.1, hg⟩
    · obtain ⟨T, h⟩ := colChkGJKOnly_eq W hi.ready hf hp
      exact ⟨_, h, good_map (good_rf (good_updatePH' W) T) (good_map good_resetC hg)⟩
  | vert W =>
    by_cases hp : cd.pairs = []
    · exact ⟨_, (queries_nil W hp).2.2.2.2.1, hg⟩
    · obtain ⟨S, T, h⟩ := colChkVert_eq W hi.ready hf hp
      exact ⟨_, h, good_map (good_rf (good_updatePH' W) T) (good_map (good_boxed W S) hg)⟩
  | obbVert W => exact ho.elim
  | vol W =>
    by_cases hp : cd.pairs = []
    · exact ⟨_, (queries_nil W hp).2.2.2.2.2.1, hg⟩
    · obtain ⟨S, T, h⟩ := colVol_eq W hi.ready hf hp
      exact ⟨_, h, good_map (good_rf (good_updatePH' W) T) (good_map (good_boxed W S) hg)⟩

theorem good_runAll {ops : List (Op K G)} (ho : ∀ op ∈ ops, op.Plain) : ∀ {cd : CD K G}, Inv cd →
    (∀ c ∈ cd.cells, Good c) → ∃ cd', cd.runAll ops = some cd' ∧ Inv cd' ∧ ∀ c ∈ cd'.cells, Good c := by
  induction ops with
  | nil => exact fun hi hg => ⟨_, rfl, hi, hg⟩
  | cons op ops ih =>
    intro cd hi hg
    obtain ⟨c1, h1, g1⟩ := good_run hi hg (ho op (by simp))
    obtain ⟨c2, h2, g2⟩ := ih (fun o h => ho o (List.mem_cons_of_mem _ h)) (inv_run hi h1) g1
    exact ⟨c2, by rw [runAll, h1]; exact h2, g2⟩

theorem good_of_runAll {ops : List (Op K G)} (ho : ∀ op ∈ ops, op.Plain) {cd : CD K G}
    (h : create.runAll ops = some cd) : Inv cd ∧ ∀ c ∈ cd.cells, Good c := by
  obtain ⟨c, h1, h2⟩ := good_runAll ho (inv_create (K := K) (G := G)) (by simp [create])
  rw [h] at h1
  rw [Option.some.inj h1]; exact h2

end CD
end Roki
