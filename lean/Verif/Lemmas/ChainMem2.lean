import Verif.Lemmas.ChainMem
set_option autoImplicit false

/-! # Memory of kinematic chains: programs with several chains -/

namespace Roki.Mem.MChain
open Spec

/-- A chain of the program, and whether the memory for its forward dynamics is held. -/
abbrev World := List (MChain × Bool)

theorem sum_get {α : Type} (f : α → Multiset ℕ) : ∀ (l : List α) (i : ℕ) (x : α), l[i]? = some x →
    (l.map f).sum = f x + ((l.eraseIdx i).map f).sum
  | [], i, x, h => by simp at h
  | a :: l, 0, x, h => by
    obtain rfl : a = x := by simpa using h
    simp
  | a :: l, i + 1, x, h => by
    have := sum_get f l i x (by simpa using h)
    simp only [List.map_cons, List.sum_cons, List.eraseIdx_cons_succ, this]
    abel

theorem sum_set {α : Type} (f : α → Multiset ℕ) (y : α) : ∀ (l : List α) (i : ℕ), i < l.length →
    ((l.set i y).map f).sum = f y + ((l.eraseIdx i).map f).sum
  | [], i, h => by simp at h
  | a :: l, 0, h => by simp
  | a :: l, i + 1, h => by
    have := sum_set f y l i (by simpa using h)
    simp only [List.set_cons_succ, List.map_cons, List.sum_cons, List.eraseIdx_cons_succ, this]
    abel

/-- What the program loses with a chain, and with a clone of it. -/
def cost (x : MChain × Bool) : ℕ × ℕ := ((chainExtra x.1).card, cloneCost x.1)

theorem ok_init : ChainOK init := ⟨by simp [init], by simp [init], fun _ => rfl⟩

theorem cloneCost_init : cloneCost init = 0 := rfl

theorem extra_init : chainExtra init = 0 := rfl

theorem blocks_init (b : Bool) : blocks (init, b) = 0 := by cases b <;> rfl

theorem cloneCost_congr {c : MChain} {ls : List MLink} (hj : ls.map (·.joint) = c.links.map (·.joint))
    (hs : ls.map (·.stuff) = c.links.map (·.stuff)) : cloneCost { c with links := ls } = cloneCost c := by
  unfold cloneCost
  congr 2
  dsimp only
  generalize c.links = ms at *
  induction ls generalizing ms with
  | nil => cases ms <;> simp_all
  | cons l ls ih =>
    cases ms with
    | nil => simp at hj
    | cons m ms =>
      simp only [List.map_cons, List.cons.injEq] at hj hs ⊢
      rw [hj.1, hs.1]
      exact ⟨rfl, ih ms hj.2 hs.2⟩

theorem ok_congr {c : MChain} {ls : List MLink} (hc : ChainOK c) (hj : ls.map (·.joint) = c.links.map (·.joint)) :
    ChainOK { c with links := ls } := by
  refine ⟨fun l hl => ?_, hc.motor, fun h0 => ?_⟩
  · have : l.joint ∈ c.links.map (·.joint) := hj ▸ List.mem_map_of_mem hl
    obtain ⟨m, hm, e⟩ := List.mem_map.1 this
    exact e ▸ hc.joint m hm
  · have h1 : c.links = [] := by
      have : ls = [] := h0
      rw [this] at hj; simpa using hj.symm
    have := hc.empty h1
    have e : ls = [] := h0
    rw [this, e]; rfl

theorem abiAlloc_spec (c : MChain) (hc : ChainOK c) {h : Heap} {s : Multiset ℕ} (o : Own h (blocks (c, false) + s))
    (hk : ∀ n, h.ok n = true) :
    ∃ c' h', c.abiAlloc h = some (c', h') ∧ Own h' (blocks (c', true) + s) ∧ (∀ n, h'.ok n = true) ∧ ChainOK c' ∧ cost (c', true) = cost (c, false) := by
  obtain ⟨ls, h1, e1, o1, k1, r1⟩ := abiAllocLinks_spec c.links o hk
  obtain ⟨a1, a2, a3, a4⟩ := SameRest.all r1
  refine ⟨{ c with links := ls }, h1, ?_, o1.congr ?_, k1, ok_congr hc a3, ?_⟩
  · unfold abiAlloc; rw [bind_eq e1]; rfl
  · simp only [blocks, chainCore, chainExtra, chainABI, a1, a2, if_true, Bool.false_eq_true, if_false]; abel
  · simp only [cost, cloneCost_congr a3 a4, chainExtra, a2]

theorem abiDestroy_spec (nul : Bool) (c : MChain) (hc : ChainOK c) {h : Heap} {s : Multiset ℕ} (o : Own h (blocks (c, true) + s))
    (hk : ∀ n, h.ok n = true) :
    ∃ c' h', c.abiDestroy nul h = some (c', h') ∧ Own h' (blocks (c', false) + s) ∧ (∀ n, h'.ok n = true) ∧ ChainOK c' ∧
      cost (c', false) = cost (c, true) := by
  obtain ⟨ls, h1, e1, o1, k1, r1⟩ := abiDestroyLinks_spec nul c.links (s := chainCore c + chainExtra c + s)
    (o.congr (by simp only [blocks, chainABI, if_true]; abel)) hk
  obtain ⟨a1, a2, a3, a4⟩ := SameRest.all r1
  refine ⟨{ c with links := ls }, h1, ?_, o1.congr ?_, k1, ok_congr hc a3, ?_⟩
  · unfold abiDestroy; rw [bind_eq e1]; rfl
  · simp only [blocks, chainCore, chainExtra, a1, a2, Bool.false_eq_true, if_false, add_zero]
  · simp only [cost, cloneCost_congr a3 a4, chainExtra, a2]

theorem map_set_same {α β : Type} (f : α → β) {l : List α} {i : ℕ} {x y : α} (hx : l[i]? = some x) (e : f y = f x) :
    (l.set i y).map f = l.map f := by
  rw [List.map_set, e]
  refine List.ext_getElem? fun j => ?_
  by_cases hj : i = j
  · subst hj
    obtain ⟨hlt, he⟩ := List.getElem?_eq_some_iff.1 hx
    rw [List.getElem?_set_self (by simpa using hlt), List.getElem?_map, hx]; rfl
  · rw [List.getElem?_set_ne hj]

theorem push_spec (k : ℕ) (c : MChain) (b : Bool) (hc : ChainOK c) {h : Heap} {s : Multiset ℕ} (o : Own h (blocks (c, b) + s))
    (hk : ∀ n, h.ok n = true) :
    ∃ c' h', c.push k h = some (c', h') ∧ Own h' (blocks (c', b) + s) ∧ (∀ n, h'.ok n = true) ∧ ChainOK c' ∧ cost (c', b) = cost (c, b) := by
  unfold push
  cases hl : c.links[k]? with
  | none => exact ⟨c, h, rfl, o, hk, hc, rfl⟩
  | some l =>
    obtain ⟨a, h1, e1, o1, k1⟩ := o.alloc_ok hk
    have hlt : k < c.links.length := (List.getElem?_eq_some_iff.1 hl).1
    have a2 : (c.links.set k { l with wrenches := a :: l.wrenches }).map linkExtra = c.links.map linkExtra := map_set_same _ hl rfl
    have a3 : (c.links.set k { l with wrenches := a :: l.wrenches }).map (·.joint) = c.links.map (·.joint) := map_set_same _ hl rfl
    have a4 : (c.links.set k { l with wrenches := a :: l.wrenches }).map (·.stuff) = c.links.map (·.stuff) := map_set_same _ hl rfl
    have a5 : (c.links.set k { l with wrenches := a :: l.wrenches }).map linkABI = c.links.map linkABI := map_set_same _ hl rfl
    have a1 : ((c.links.set k { l with wrenches := a :: l.wrenches }).map linkCore).sum = {a} + (c.links.map linkCore).sum := by
      rw [sum_set linkCore _ _ _ hlt, sum_get linkCore _ _ _ hl]
      simp only [linkCore, ← Multiset.cons_coe, ← Multiset.singleton_add]
      abel
    refine ⟨{ c with links := c.links.set k { l with wrenches := a :: l.wrenches } }, h1, ?_, o1.congr ?_, k1, ok_congr hc a3, ?_⟩
    · dsimp only; rw [bind_eq e1]; rfl
    · simp only [blocks, chainCore, chainExtra, chainABI, a1, a2, a5]; abel
    · simp only [cost, cloneCost_congr a3 a4, chainExtra, a2]

theorem wrenchDestroy_spec (c : MChain) (b : Bool) (hc : ChainOK c) {h : Heap} {s : Multiset ℕ} (o : Own h (blocks (c, b) + s))
    (hk : ∀ n, h.ok n = true) :
    ∃ c' h', c.wrenchDestroy h = some (c', h') ∧ Own h' (blocks (c', b) + s) ∧ (∀ n, h'.ok n = true) ∧ ChainOK c' ∧
      cost (c', b) = cost (c, b) := by
  obtain ⟨ls, h1, e1, o1, k1, r1⟩ := wrenchDestroyLinks_spec c.links
    (s := pts c.name + pts c.arr + pts c.shape + motorsCore c.motors + chainExtra c + (if b = true then chainABI c else 0) + s)
    (o.congr (by simp only [blocks, chainCore]; abel)) hk
  have a2 : ls.map linkExtra = c.links.map linkExtra := by rw [r1, List.map_map]; rfl
  have a3 : ls.map (·.joint) = c.links.map (·.joint) := by rw [r1, List.map_map]; rfl
  have a4 : ls.map (·.stuff) = c.links.map (·.stuff) := by rw [r1, List.map_map]; rfl
  have a5 : ls.map linkABI = c.links.map linkABI := by rw [r1, List.map_map]; rfl
  refine ⟨{ c with links := ls }, h1, ?_, o1.congr ?_, k1, ok_congr hc a3, ?_⟩
  · unfold wrenchDestroy; rw [bind_eq e1]; rfl
  · simp only [blocks, chainCore, chainExtra, chainABI, a2, a5]; abel
  · simp only [cost, cloneCost_congr a3 a4, chainExtra, a2]

/-- A call that changes one chain and loses nothing. -/
theorem one_spec {W : World} {i : ℕ} {x : MChain × Bool} (hx : W[i]? = some x) (b : Bool) (f : MChain → M MChain)
    (hW : ∀ x ∈ W, ChainOK x.1) {h : Heap} {s : Multiset ℕ} (o : Own h ((W.map blocks).sum + s)) (hk : ∀ n, h.ok n = true)
    (hf : ∀ t, Own h (blocks x + t) → ∃ c' h', f x.1 h = some (c', h') ∧ Own h' (blocks (c', b) + t) ∧ (∀ n, h'.ok n = true) ∧ ChainOK c' ∧
      cost (c', b) = cost x) :
    ∃ c' h', f x.1 h = some (c', h') ∧ Own h' (((W.set i (c', b)).map blocks).sum + s) ∧ (∀ n, h'.ok n = true) ∧
      (∀ y ∈ W.set i (c', b), ChainOK y.1) ∧ (W.set i (c', b)).map cost = W.map cost := by
  have hlt : i < W.length := (List.getElem?_eq_some_iff.1 hx).1
  obtain ⟨c', h', e, o', k', q1, q2⟩ := hf (((W.eraseIdx i).map blocks).sum + s) (o.congr (by rw [sum_get blocks _ _ _ hx, add_assoc]))
  refine ⟨c', h', e, o'.congr (by rw [sum_set blocks _ _ _ hlt, add_assoc]), k', ?_, map_set_same _ hx q2⟩
  intro y hy
  rcases List.mem_or_eq_of_mem_set hy with hy | rfl
  · exact hW y hy
  · exact q1

theorem set_same {α : Type} {l : List α} {i : ℕ} {x : α} (h : l[i]? = some x) : l.set i x = l := by
  have := map_set_same id h (y := x) rfl
  simpa using this

theorem run_spec (nul : Bool) : ∀ (ops : List Op) (W : World) {h : Heap} {s : Multiset ℕ}, Own h ((W.map blocks).sum + s) →
    (∀ n, h.ok n = true) → (∀ x ∈ W, ChainOK x.1) → Orderly (W.map (·.2)) ops →
    ∃ (W' : World) (h' : Heap) (L : Multiset ℕ), run nul ops (W.map (·.1)) h = some (W'.map (·.1), h') ∧ Own h' ((W'.map blocks).sum + (L + s)) ∧
      L.card = lost (W.map cost) ops ∧ (∀ x ∈ W', ChainOK x.1) ∧ W'.map (·.2) = heldAfter (W.map (·.2)) ops
  | [], W, h, s, o, hk, hW, _ => ⟨W, h, 0, rfl, o.congr (by simp), rfl, hW, rfl⟩
  | .clone i :: os, W, h, s, o, hk, hW, hq => by
    cases hx : W[i]? with
    | none =>
      have hlt : ¬ i < W.length := fun hl => by rw [List.getElem?_eq_getElem hl] at hx; simp at hx
      rw [Orderly, if_neg (by simpa using hlt)] at hq
      obtain ⟨W', h', L, e, r⟩ := run_spec nul os W o hk hW hq
      refine ⟨W', h', L, ?_, ?_⟩
      · rw [run, step, List.getElem?_map, hx]; exact e
      · rw [lost, List.getElem?_map, hx, heldAfter, if_neg (by simpa using hlt)]; exact r
    | some x =>
      have hlt : i < W.length := (List.getElem?_eq_some_iff.1 hx).1
      have hxm : x ∈ W := List.mem_of_getElem? hx
      rw [Orderly, if_pos (by simpa using hlt)] at hq
      by_cases hne : x.1.links = []
      · have hi := (hW x hxm).empty hne
        have hq' : Orderly ((W ++ [(init, false)]).map (·.2)) os := by simpa using hq
        obtain ⟨W', h', L, e, r1, r2, r3, r4⟩ := run_spec nul os (W ++ [(init, false)]) (s := s)
          (o.congr (by simp [blocks_init])) hk (by
            intro y hy
            rcases List.mem_append.1 hy with hy | hy
            · exact hW y hy
            · obtain rfl : y = (init, false) := by simpa using hy
              exact ok_init) hq'
        have ec : x.1.clone h = some (none, h) := by unfold clone; rw [if_pos hne]; rfl
        refine ⟨W', h', L, ?_, r1, ?_, r3, ?_⟩
        · rw [run, step, List.getElem?_map, hx]
          dsimp only [Option.map_some]
          rw [bind_eq (show _ = some (W.map (·.1) ++ [init], h) from by rw [bind_eq ec]; rfl)]
          simpa using e
        · rw [lost, List.getElem?_map, hx, r2]
          simp only [Option.map_some, List.map_append, List.map_cons, List.map_nil, cost, hi, cloneCost_init, extra_init, Multiset.card_zero]
        · rw [heldAfter, if_pos (by simpa using hlt), r4]; simp
      · have hle : chainCore x.1 + chainExtra x.1 ≤ (W.map blocks).sum + s := by
          rw [sum_get blocks _ _ _ hx, Multiset.le_iff_exists_add]
          exact ⟨(if x.2 = true then chainABI x.1 else 0) + ((W.eraseIdx i).map blocks).sum + s, by simp only [blocks]; abel⟩
        obtain ⟨c', h1, e1, o1, k1, p1, p2, p3, p4, -⟩ := clone_spec x.1 o hk (hW x hxm) hne hle
        have hq' : Orderly ((W ++ [(c', false)]).map (·.2)) os := by simpa using hq
        obtain ⟨W', h', L, e, r1, r2, r3, r4⟩ := run_spec nul os (W ++ [(c', false)]) (s := s)
          (o1.congr (by simp only [List.map_append, List.sum_append, List.map_cons, List.map_nil, List.sum_cons, List.sum_nil, blocks,
                          Bool.false_eq_true, if_false]; abel)) k1 (by
            intro y hy
            rcases List.mem_append.1 hy with hy | hy
            · exact hW y hy
            · obtain rfl : y = (c', false) := by simpa using hy
              exact p1) hq'
        refine ⟨W', h', L, ?_, r1, ?_, r3, ?_⟩
        · rw [run, step, List.getElem?_map, hx]
          dsimp only [Option.map_some]
          rw [bind_eq (show _ = some (W.map (·.1) ++ [c'], h1) from by rw [bind_eq e1]; rfl)]
          simpa using e
        · have hcc : cloneCost c' = cloneCost x.1 := by
            unfold cloneCost
            congr 1
            · congr 1
              have := p2.links
              generalize x.1.links = l1 at this
              generalize c'.links = l2 at this
              induction this with
              | nil => rfl
              | cons hh _ ih => rw [List.map_cons, List.map_cons, ih, hh.kind, hh.motor, hh.stuff]
            · have := p2.motors
              cases h1 : c'.motors <;> cases h2 : x.1.motors <;> rw [h1, h2] at this
              · simp at this
              · simp at this
              · rename_i m1 m2
                simp only [Option.map_some, Option.some.injEq] at this
                have := congrArg (List.map motorCost) this
                rw [List.map_map, List.map_map] at this
                exact congrArg List.sum this
          rw [lost, List.getElem?_map, hx, r2]
          simp only [Option.map_some, List.map_append, List.map_cons, List.map_nil, cost, p4, hcc]
        · rw [heldAfter, if_pos (by simpa using hlt), r4]; simp
  | .destroy i :: os, W, h, s, o, hk, hW, hq => by
    obtain ⟨hq0, hq⟩ := hq
    cases hx : W[i]? with
    | none =>
      obtain ⟨W', h', L, e, r⟩ := run_spec nul os W o hk hW hq
      refine ⟨W', h', L, ?_, ?_⟩
      · rw [run, step, List.getElem?_map, hx]; exact e
      · rw [lost, List.getElem?_map, hx, heldAfter]; exact r
    | some x =>
      have hlt : i < W.length := (List.getElem?_eq_some_iff.1 hx).1
      have hb : x.2 = false := by
        rw [List.getElem?_map, hx] at hq0
        simpa using hq0
      obtain ⟨h1, e1, o1, k1⟩ := destroy_spec x.1 (s := chainExtra x.1 + ((W.eraseIdx i).map blocks).sum + s) (h := h)
        (o.congr (by rw [sum_get blocks _ _ _ hx, blocks, hb]; simp only [Bool.false_eq_true, if_false]; abel)) hk
      have h2 : (W.set i (init, false)).map (·.2) = W.map (·.2) := map_set_same _ hx hb.symm
      obtain ⟨W', h', L, e, r1, r2, r3, r4⟩ := run_spec nul os (W.set i (init, false)) (s := chainExtra x.1 + s)
        (o1.congr (by rw [sum_set blocks _ _ _ hlt, blocks_init]; abel)) k1 (by
            intro y hy
            rcases List.mem_or_eq_of_mem_set hy with hy | rfl
            · exact hW y hy
            · exact ok_init) (by rw [h2]; exact hq)
      refine ⟨W', h', L + chainExtra x.1, ?_, r1.congr (by abel), ?_, r3, ?_⟩
      · rw [run, step, List.getElem?_map, hx]
        dsimp only [Option.map_some]
        rw [bind_eq (show _ = some ((W.map (·.1)).set i init, h1) from by rw [bind_eq e1]; rfl)]
        rw [List.map_set] at e
        exact e
      · rw [lost, List.getElem?_map, hx, Multiset.card_add, r2, List.map_set]
        simp only [Option.map_some, cost, cloneCost_init, extra_init, Multiset.card_zero]
        omega
      · rw [heldAfter, r4, h2]
  | .abiAlloc i :: os, W, h, s, o, hk, hW, hq => by
    obtain ⟨hq0, hq⟩ := hq
    cases hx : W[i]? with
    | none =>
      have hlt : W.length ≤ i := by by_contra hl; rw [List.getElem?_eq_getElem (by omega)] at hx; simp at hx
      have hset : (W.map (·.2)).set i true = W.map (·.2) := List.set_eq_of_length_le (by simpa using hlt)
      rw [hset] at hq
      obtain ⟨W', h', L, e, r⟩ := run_spec nul os W o hk hW hq
      refine ⟨W', h', L, ?_, ?_⟩
      · rw [run, step, List.getElem?_map, hx]; exact e
      · rw [lost, heldAfter, hset]; exact r
    | some x =>
      have hb : x = (x.1, false) := by
        rw [List.getElem?_map, hx] at hq0
        exact Prod.ext rfl (by simpa using hq0)
      obtain ⟨c', h1, e1, o1, k1, p1, p2⟩ := one_spec hx true (f := abiAlloc) hW o hk fun t ot => by
        rw [hb] at ot ⊢
        exact abiAlloc_spec x.1 (hW x (List.mem_of_getElem? hx)) ot hk
      obtain ⟨W', h', L, e, r1, r2, r3, r4⟩ := run_spec nul os (W.set i (c', true)) o1 k1 p1 (by rw [List.map_set]; exact hq)
      refine ⟨W', h', L, ?_, r1, by rw [r2, p2]; rfl, r3, by rw [r4, List.map_set]; rfl⟩
      rw [run, step, List.getElem?_map, hx]
      dsimp only [Option.map_some]
      rw [bind_eq (show _ = some ((W.map (·.1)).set i c', h1) from by rw [bind_eq e1]; rfl)]
      rw [List.map_set] at e
      exact e
  | .abiDestroy i :: os, W, h, s, o, hk, hW, hq => by
    obtain ⟨hq0, hq⟩ := hq
    cases hx : W[i]? with
    | none =>
      have hlt : W.length ≤ i := by by_contra hl; rw [List.getElem?_eq_getElem (by omega)] at hx; simp at hx
      have hset : (W.map (·.2)).set i false = W.map (·.2) := List.set_eq_of_length_le (by simpa using hlt)
      rw [hset] at hq
      obtain ⟨W', h', L, e, r⟩ := run_spec nul os W o hk hW hq
      refine ⟨W', h', L, ?_, ?_⟩
      · rw [run, step, List.getElem?_map, hx]; exact e
      · rw [lost, heldAfter, hset]; exact r
    | some x =>
      have hb : x = (x.1, true) := by
        rw [List.getElem?_map, hx] at hq0
        exact Prod.ext rfl (by simpa using hq0)
      obtain ⟨c', h1, e1, o1, k1, p1, p2⟩ := one_spec hx false (f := abiDestroy nul) hW o hk fun t ot => by
        rw [hb] at ot ⊢
        exact abiDestroy_spec nul x.1 (hW x (List.mem_of_getElem? hx)) ot hk
      obtain ⟨W', h', L, e, r1, r2, r3, r4⟩ := run_spec nul os (W.set i (c', false)) o1 k1 p1 (by rw [List.map_set]; exact hq)
      refine ⟨W', h', L, ?_, r1, by rw [r2, p2]; rfl, r3, by rw [r4, List.map_set]; rfl⟩
      rw [run, step, List.getElem?_map, hx]
      dsimp only [Option.map_some]
      rw [bind_eq (show _ = some ((W.map (·.1)).set i c', h1) from by rw [bind_eq e1]; rfl)]
      rw [List.map_set] at e
      exact e
  | .push i k :: os, W, h, s, o, hk, hW, hq => by
    cases hx : W[i]? with
    | none =>
      obtain ⟨W', h', L, e, r⟩ := run_spec nul os W o hk hW hq
      refine ⟨W', h', L, ?_, ?_⟩
      · rw [run, step, List.getElem?_map, hx]; exact e
      · rw [lost, heldAfter]; exact r
    | some x =>
      obtain ⟨c', h1, e1, o1, k1, p1, p2⟩ := one_spec hx x.2 (f := push k) hW o hk fun t ot =>
        push_spec k x.1 x.2 (hW x (List.mem_of_getElem? hx)) ot hk
      have h2 : (W.set i (c', x.2)).map (·.2) = W.map (·.2) := map_set_same _ hx rfl
      obtain ⟨W', h', L, e, r1, r2, r3, r4⟩ := run_spec nul os (W.set i (c', x.2)) o1 k1 p1 (by rw [h2]; exact hq)
      refine ⟨W', h', L, ?_, r1, by rw [r2, p2]; rfl, r3, by rw [r4, h2]; rfl⟩
      rw [run, step, List.getElem?_map, hx]
      dsimp only [Option.map_some]
      rw [bind_eq (show _ = some ((W.map (·.1)).set i c', h1) from by rw [bind_eq e1]; rfl)]
      rw [List.map_set] at e
      exact e
  | .wrenchDestroy i :: os, W, h, s, o, hk, hW, hq => by
    cases hx : W[i]? with
    | none =>
      obtain ⟨W', h', L, e, r⟩ := run_spec nul os W o hk hW hq
      refine ⟨W', h', L, ?_, ?_⟩
      · rw [run, step, List.getElem?_map, hx]; exact e
      · rw [lost, heldAfter]; exact r
    | some x =>
      obtain ⟨c', h1, e1, o1, k1, p1, p2⟩ := one_spec hx x.2 (f := wrenchDestroy) hW o hk fun t ot =>
        wrenchDestroy_spec x.1 x.2 (hW x (List.mem_of_getElem? hx)) ot hk
      have h2 : (W.set i (c', x.2)).map (·.2) = W.map (·.2) := map_set_same _ hx rfl
      obtain ⟨W', h', L, e, r1, r2, r3, r4⟩ := run_spec nul os (W.set i (c', x.2)) o1 k1 p1 (by rw [h2]; exact hq)
      refine ⟨W', h', L, ?_, r1, by rw [r2, p2]; rfl, r3, by rw [r4, h2]; rfl⟩
      rw [run, step, List.getElem?_map, hx]
      dsimp only [Option.map_some]
      rw [bind_eq (show _ = some ((W.map (·.1)).set i c', h1) from by rw [bind_eq e1]; rfl)]
      rw [List.map_set] at e
      exact e

end Roki.Mem.MChain
