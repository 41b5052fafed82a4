import Verif.Lemmas.ChainMem2
import Mathlib.Tactic.Ring
import Mathlib.Algebra.Order.BigOperators.Group.List
set_option autoImplicit false

/-!
# Memory of kinematic chains (C98)
-/

namespace Roki
open Mem Mem.MChain Spec

theorem Mem.Own.heapOK {h : Heap} {s : Multiset ℕ} (o : Own h s) : HeapOK h ∧ (h.live : Multiset ℕ) = s :=
  ⟨⟨by have := o.nodup; rw [← o.live] at this; simpa using this, fun b hb => o.lt b (by rw [← o.live]; simpa using hb)⟩, o.live⟩

theorem own_of_heapOK {h : Heap} {s : Multiset ℕ} (w : HeapOK h) (e : (h.live : Multiset ℕ) = s) : Own h s :=
  ⟨e, fun b hb => w.lt b (by rw [← e] at hb; simpa using hb), by rw [← e]; simpa using w.nodup⟩

/-- **C98**, clone.  If no request is denied, the clone of a chain with links exists, has links, joints, motors, wrenches, shapes
and materials like the original, and consists of new blocks only: the live blocks are those of before and, besides, each block
of the clone once.  In particular the clone shares no block with the original or with any other chain, and nothing is lost. -/
theorem C98_clone (c : MChain) (h : Heap) (w : HeapOK h) (g : Granted h) (hc : ChainOK c) (hne : c.links ≠ [])
    (hl : blocks (c, false) ≤ (h.live : Multiset ℕ)) :
    ∃ c' h', c.clone h = some (some c', h') ∧ HeapOK h' ∧ Granted h' ∧ (h'.live : Multiset ℕ) = blocks (c', false) + h.live ∧
      ChainOK c' ∧ ChainLike c c' ∧ chainABI c' = 0 := by
  obtain ⟨c', h', e, o, k, q1, q2, q3, -, -⟩ := clone_spec c (own_of_heapOK w rfl) g hc hne (by simpa [blocks] using hl)
  exact ⟨c', h', e, o.heapOK.1, k, by rw [o.heapOK.2]; simp [blocks], q1, q2, q3⟩

/-- **C98**, destruction.  `rkChainDestroy` is never undefined for a chain whose blocks are live; it releases the blocks
`chainCore` and no other, and leaves a chain without pointers. -/
theorem C98_destroy (c : MChain) (h : Heap) (w : HeapOK h) (g : Granted h) (s : Multiset ℕ) (hl : (h.live : Multiset ℕ) = chainCore c + s) :
    ∃ h', c.destroy h = some (init, h') ∧ HeapOK h' ∧ Granted h' ∧ (h'.live : Multiset ℕ) = s := by
  obtain ⟨h', e, o, k⟩ := destroy_spec c (own_of_heapOK w hl) g
  exact ⟨h', e, o.heapOK.1, k, o.heapOK.2⟩

/-- **C98**, clone and destruction.  A clone that is destroyed again leaves `cloneCost c` live blocks behind. -/
theorem C98_clone_destroy (c : MChain) (h : Heap) (w : HeapOK h) (g : Granted h) (hc : ChainOK c) (hne : c.links ≠ [])
    (hl : blocks (c, false) ≤ (h.live : Multiset ℕ)) :
    ∃ c' h1 h2 L, c.clone h = some (some c', h1) ∧ c'.destroy h1 = some (init, h2) ∧ HeapOK h2 ∧
      (h2.live : Multiset ℕ) = L + h.live ∧ L.card = cloneCost c := by
  obtain ⟨c', h1, e, o, k, -, -, -, q, -⟩ := clone_spec c (own_of_heapOK w rfl) g hc hne (by simpa [blocks] using hl)
  obtain ⟨h2, e2, o2, -⟩ := destroy_spec c' (o.congr (add_assoc _ _ _)) k
  exact ⟨c', h1, h2, chainExtra c', e, e2, o2.heapOK.1, o2.heapOK.2, q⟩

theorem motorCost_pos (k : MotKind) : 0 < motorCost k := by unfold motorCost; split <;> omega

theorem cloneCost_zero (c : MChain) : cloneCost c = 0 ↔
    (∀ l ∈ c.links, l.stuff = none ∧ l.joint.kind.motored = false) ∧ ∀ mo ∈ c.motors, mo.elem = [] := by
  unfold cloneCost
  rw [Nat.add_eq_zero_iff, List.sum_eq_zero_iff]
  refine and_congr ?_ ?_
  · simp only [List.mem_map, forall_exists_index, and_imp, forall_apply_eq_imp_iff₂, Nat.add_eq_zero_iff]
    refine forall₂_congr fun l _ => and_congr ?_ ?_
    · cases l.stuff <;> simp
    · have := motorCost_pos l.joint.motor.kind
      cases l.joint.kind.motored
      · simp
      · simp; omega
  · cases c.motors with
    | none => simp
    | some mo =>
      simp only [Option.mem_some_iff, forall_eq', List.sum_eq_zero_iff, List.mem_map, forall_exists_index, and_imp, forall_apply_eq_imp_iff₂]
      constructor
      · intro hh
        cases he : mo.elem with
        | nil => rfl
        | cons m l => exact absurd (hh m (by rw [he]; simp)) (by have := motorCost_pos m.kind; omega)
      · intro he; rw [he]; simp

/-- **C98**, which chains return the memory of their clones: exactly those with no material, no joint of a type that can carry a
motor, and no motor in the array of motors. -/
theorem C98_returned_iff (c : MChain) (h : Heap) (w : HeapOK h) (g : Granted h) (hc : ChainOK c) (hne : c.links ≠ [])
    (hl : blocks (c, false) ≤ (h.live : Multiset ℕ)) :
    ∃ c' h1 h2, c.clone h = some (some c', h1) ∧ c'.destroy h1 = some (init, h2) ∧
      ((h2.live : Multiset ℕ) = h.live ↔
        (∀ l ∈ c.links, l.stuff = none ∧ l.joint.kind.motored = false) ∧ ∀ mo ∈ c.motors, mo.elem = []) := by
  obtain ⟨c', h1, h2, L, e1, e2, -, hL, hn⟩ := C98_clone_destroy c h w g hc hne hl
  refine ⟨c', h1, h2, e1, e2, ?_⟩
  rw [← cloneCost_zero, ← hn, hL, Multiset.card_eq_zero]
  constructor
  · intro hh
    simpa using hh
  · intro hh; rw [hh, zero_add]

theorem zip_snd {W : World} : (W.map (·.1)).zip (W.map (·.2)) = W := by
  induction W with
  | nil => rfl
  | cons x W ih => rw [List.map_cons, List.map_cons, List.zip_cons_cons, ih]

/-- **C98**, any program.  Take any number of chains, and any sequence of calls that clone and destroy them, attach wrenches and
release them, and obtain and release the memory for forward dynamics in turn (`Orderly`), and no request is denied.  Then no
call is undefined: no block is released twice and no released block is used.  After the calls the live blocks are those of the
chains that are left, each once, those of the rest of the program, which are untouched, and as many lost ones as `lost` says. -/
theorem C98_history_partial (nul : Bool) (ops : List MChain.Op) (w : List MChain) (h : Heap) (s : Multiset ℕ) (hw : HeapOK h) (g : Granted h)
    (hc : ∀ c ∈ w, ChainOK c) (hl : (h.live : Multiset ℕ) = (w.map fun c => blocks (c, false)).sum + s)
    (ho : Orderly (w.map fun _ => false) ops) :
    ∃ w' h' L, MChain.run nul ops w h = some (w', h') ∧ HeapOK h' ∧ (∀ c ∈ w', ChainOK c) ∧
      (h'.live : Multiset ℕ) = ((w'.zip (heldAfter (w.map fun _ => false) ops)).map blocks).sum + (L + s) ∧
      w'.length = (heldAfter (w.map fun _ => false) ops).length ∧
      L.card = lost (w.map fun c => ((chainExtra c).card, cloneCost c)) ops := by
  have e1 : (w.map fun c => (c, false)).map (·.1) = w := by rw [List.map_map]; exact List.map_id _
  have e2 : (w.map fun c => (c, false)).map (·.2) = w.map fun _ => false := by rw [List.map_map]; rfl
  obtain ⟨W', h', L, e, o, hL, hok, hh⟩ := MChain.run_spec nul ops (w.map fun c => (c, false)) (h := h) (s := s)
    (own_of_heapOK hw (by rw [hl, List.map_map]; rfl)) g
    (by intro x hx; obtain ⟨c, hcw, rfl⟩ := List.mem_map.1 hx; exact hc c hcw) (by rw [e2]; exact ho)
  rw [e1] at e
  rw [e2] at hh
  refine ⟨W'.map (·.1), h', L, e, o.heapOK.1, ?_, ?_, by rw [← hh]; simp, ?_⟩
  · intro c hcw
    obtain ⟨x, hx, rfl⟩ := List.mem_map.1 hcw
    exact hok x hx
  · rw [o.heapOK.2, ← hh, zip_snd]
  · rw [hL, List.map_map]; rfl

theorem lost_free (ops : List MChain.Op) : ∀ k : List (ℕ × ℕ), (∀ x ∈ k, x = (0, 0)) → lost k ops = 0 := by
  induction ops with
  | nil => intro k _; rfl
  | cons o os ih =>
    intro k hk
    cases o with
    | clone i =>
      rw [lost]
      cases hx : k[i]? with
      | none => exact ih k hk
      | some x =>
        refine ih _ fun y hy => ?_
        rcases List.mem_append.1 hy with hy | hy
        · exact hk y hy
        · obtain rfl : y = (x.2, x.2) := by simpa using hy
          rw [hk x (List.mem_of_getElem? hx)]
    | destroy i =>
      rw [lost]
      cases hx : k[i]? with
      | none => exact ih k hk
      | some x =>
        dsimp only
        rw [hk x (List.mem_of_getElem? hx), ih _ fun y hy => ?_]
        rcases List.mem_or_eq_of_mem_set hy with hy | rfl
        · exact hk y hy
        · rfl
    | abiAlloc i => exact ih k hk
    | abiDestroy i => exact ih k hk
    | push i j => exact ih k hk
    | wrenchDestroy i => exact ih k hk

/-- **C98**, chains without motors.  If no joint of the chains of the program is of a type that can carry a motor, no link has a
material and there is no array of motors, no such program loses any block. -/
theorem C98_nothing_lost_partial (nul : Bool) (ops : List MChain.Op) (w : List MChain) (h : Heap) (s : Multiset ℕ) (hw : HeapOK h) (g : Granted h)
    (hc : ∀ c ∈ w, ChainOK c) (hl : (h.live : Multiset ℕ) = (w.map fun c => blocks (c, false)).sum + s)
    (ho : Orderly (w.map fun _ => false) ops)
    (hm : ∀ c ∈ w, (∀ l ∈ c.links, l.stuff = none ∧ l.joint.kind.motored = false) ∧ ∀ mo ∈ c.motors, mo.elem = []) :
    ∃ w' h', MChain.run nul ops w h = some (w', h') ∧ HeapOK h' ∧
      (h'.live : Multiset ℕ) = ((w'.zip (heldAfter (w.map fun _ => false) ops)).map blocks).sum + s := by
  obtain ⟨w', h', L, e, q1, -, q2, -, q3⟩ := C98_history_partial nul ops w h s hw g hc hl ho
  have hz : lost (w.map fun c => ((chainExtra c).card, cloneCost c)) ops = 0 := by
    refine lost_free ops _ fun x hx => ?_
    obtain ⟨c, hcw, rfl⟩ := List.mem_map.1 hx
    have h1 := (cloneCost_zero c).2 (hm c hcw)
    have h2 : chainExtra c = 0 := by
      unfold chainExtra
      have ha : (c.links.map linkExtra).sum = 0 := by
        refine List.sum_eq_zero fun x hx => ?_
        obtain ⟨l, hlm, rfl⟩ := List.mem_map.1 hx
        obtain ⟨y1, y2⟩ := (hm c hcw).1 l hlm
        rw [linkExtra, y1, ((hc c hcw).joint l hlm).none y2]; rfl
      have hb : motorsExtra c.motors = 0 := by
        cases hmo : c.motors with
        | none => rfl
        | some mo => rw [motorsExtra, (hm c hcw).2 mo (by rw [hmo]; rfl)]; rfl
      rw [ha, hb]; rfl
    rw [h1, h2]; rfl
  rw [hz, Multiset.card_eq_zero] at q3
  exact ⟨w', h', e, q1, by rw [q2, q3, zero_add]⟩

/-- The chain `0` is cloned and the clone destroyed, `n` times. -/
def cycles : ℕ → List MChain.Op
  | 0 => []
  | n + 1 => cycles n ++ [.clone 0, .destroy (n + 1)]

theorem orderly_append : ∀ (a b : List MChain.Op) (held : List Bool), Orderly held a → Orderly (heldAfter held a) b → Orderly held (a ++ b) := by
  intro a b
  induction a with
  | nil => intro held _ h; exact h
  | cons o os ih =>
    intro held h1 h2
    cases o with
    | clone i =>
      rw [List.cons_append, Orderly]
      rw [Orderly] at h1
      rw [heldAfter] at h2
      split
      · rename_i hh; rw [if_pos hh] at h1 h2; exact ih _ h1 h2
      · rename_i hh; rw [if_neg hh] at h1 h2; exact ih _ h1 h2
    | destroy i => exact ⟨h1.1, ih _ h1.2 h2⟩
    | abiAlloc i => exact ⟨h1.1, ih _ h1.2 h2⟩
    | abiDestroy i => exact ⟨h1.1, ih _ h1.2 h2⟩
    | push i j => exact ih _ h1 h2
    | wrenchDestroy i => exact ih _ h1 h2

theorem held_append (b : List MChain.Op) : ∀ (a : List MChain.Op) (held : List Bool), heldAfter held (a ++ b) = heldAfter (heldAfter held a) b := by
  intro a
  induction a with
  | nil => intro held; rfl
  | cons o os ih =>
    intro held
    cases o with
    | clone i =>
      rw [List.cons_append, heldAfter, heldAfter]
      split <;> exact ih _
    | destroy i => exact ih _
    | abiAlloc i => exact ih _
    | abiDestroy i => exact ih _
    | push i j => exact ih _
    | wrenchDestroy i => exact ih _

theorem held_cycles : ∀ n, heldAfter [false] (cycles n) = List.replicate (n + 1) false
  | 0 => rfl
  | n + 1 => by
    rw [cycles, held_append, held_cycles n]
    simp only [heldAfter, List.length_replicate, Nat.zero_lt_succ, if_true]
    rw [← List.replicate_succ' ]

theorem orderly_cycles : ∀ n, Orderly [false] (cycles n)
  | 0 => trivial
  | n + 1 => by
    refine orderly_append _ _ _ (orderly_cycles n) ?_
    rw [held_cycles]
    simp only [Orderly, List.length_replicate, Nat.zero_lt_succ, if_true]
    refine ⟨?_, trivial⟩
    rw [← List.replicate_succ', List.getElem?_replicate]
    split <;> simp

/-- The costs after some calls. -/
def costAfter : List (ℕ × ℕ) → List MChain.Op → List (ℕ × ℕ)
  | k, [] => k
  | k, .clone i :: os => match k[i]? with
    | none => costAfter k os
    | some x => costAfter (k ++ [(x.2, x.2)]) os
  | k, .destroy i :: os => costAfter (k.set i (0, 0)) os
  | k, .abiAlloc _ :: os => costAfter k os
  | k, .abiDestroy _ :: os => costAfter k os
  | k, .push _ _ :: os => costAfter k os
  | k, .wrenchDestroy _ :: os => costAfter k os

theorem lost_append (b : List MChain.Op) : ∀ (a : List MChain.Op) (k : List (ℕ × ℕ)), lost k (a ++ b) = lost k a + lost (costAfter k a) b := by
  intro a
  induction a with
  | nil => intro k; simp [lost, costAfter]
  | cons o os ih =>
    intro k
    cases o with
    | clone i =>
      rw [List.cons_append, lost, lost, costAfter]
      cases k[i]? with
      | none => exact ih _
      | some x => exact ih _
    | destroy i =>
      rw [List.cons_append, lost, lost, costAfter]
      cases hx : k[i]? with
      | none =>
        have : k.set i (0, 0) = k := List.set_eq_of_length_le (by
          by_contra hl; rw [List.getElem?_eq_getElem (by omega)] at hx; simp at hx)
        rw [this]; exact ih _
      | some x => dsimp only; rw [ih, add_assoc]
    | abiAlloc i => exact ih _
    | abiDestroy i => exact ih _
    | push i j => exact ih _
    | wrenchDestroy i => exact ih _

theorem costAfter_append (b : List MChain.Op) : ∀ (a : List MChain.Op) (k : List (ℕ × ℕ)), costAfter k (a ++ b) = costAfter (costAfter k a) b := by
  intro a
  induction a with
  | nil => intro k; rfl
  | cons o os ih =>
    intro k
    cases o with
    | clone i =>
      rw [List.cons_append, costAfter, costAfter]
      cases k[i]? <;> exact ih _
    | destroy i => exact ih _
    | abiAlloc i => exact ih _
    | abiDestroy i => exact ih _
    | push i j => exact ih _
    | wrenchDestroy i => exact ih _

theorem cost_cycles (x : ℕ × ℕ) : ∀ n, costAfter [x] (cycles n) = x :: List.replicate n (0, 0)
  | 0 => rfl
  | n + 1 => by
    rw [cycles, costAfter_append, cost_cycles x n]
    simp only [costAfter, List.getElem?_cons_zero, List.cons_append, List.set_cons_succ]
    rw [List.set_append_right _ _ (by simp)]
    simp only [List.length_replicate, Nat.sub_self, List.set_cons_zero]
    rw [← List.replicate_succ']

theorem lost_cycles (x : ℕ × ℕ) : ∀ n, lost [x] (cycles n) = n * x.2
  | 0 => by simp [lost, cycles]
  | n + 1 => by
    rw [cycles, lost_append, lost_cycles x n, cost_cycles]
    simp only [lost, List.getElem?_cons_zero, List.cons_append, List.getElem?_cons_succ]
    rw [List.getElem?_append_right (by simp)]
    simp only [List.length_replicate, Nat.sub_self, List.getElem?_cons_zero]
    ring

/-- **C98, violated.**  A program that clones a chain and destroys the clone `n` times has lost `n` times the blocks of the
motors and materials of the chain: without bound, although it released all it could. -/
theorem C98_leak_fails (nul : Bool) (c : MChain) (h : Heap) (s : Multiset ℕ) (hw : HeapOK h) (g : Granted h) (hc : ChainOK c)
    (hl : (h.live : Multiset ℕ) = blocks (c, false) + s) (n : ℕ) :
    ∃ w' h' L, MChain.run nul (cycles n) [c] h = some (w', h') ∧
      (h'.live : Multiset ℕ) = (w'.map fun c => blocks (c, false)).sum + (L + s) ∧ L.card = n * cloneCost c := by
  obtain ⟨w', h', L, e, -, -, q, ql, k⟩ := C98_history_partial nul (cycles n) [c] h s hw g (by simpa using hc) (by simpa using hl)
    (orderly_cycles n)
  refine ⟨w', h', L, e, ?_, ?_⟩
  · rw [q]
    congr 2
    rw [show (List.map (fun _ => false) [c]) = [false] from rfl, held_cycles] at ql ⊢
    rw [List.length_replicate] at ql
    rw [← ql]
    clear * -
    induction w' with
    | nil => rfl
    | cons a w ih => rw [List.length_cons, List.replicate_succ, List.zip_cons_cons, List.map_cons, List.map_cons, ih]
  · rw [k]; exact lost_cycles _ n

namespace Sample.Mem

/-- A chain of three links: a floating body with a material, a link turned by a DC motor with a shape and a wrench, and a fixed
link; with a multishape and an array of one motor. -/
def chain : MChain :=
  ⟨some 0, some 1,
    [⟨some 2, ⟨.float, some 3, MMotor.init⟩, [], [], some 4, none, none, []⟩,
     ⟨some 5, ⟨.revol, some 6, ⟨.dc, some 7, some 8⟩⟩, [9], [10], none, none, none, []⟩,
     ⟨some 11, ⟨.fixed, none, MMotor.init⟩, [], [], none, none, none, []⟩],
    some 12, some ⟨13, some 14, [⟨.dc, some 15, some 16⟩]⟩⟩

/-- A floating body and a fixed one. -/
def plain : MChain :=
  ⟨some 0, some 1,
    [⟨some 2, ⟨.float, some 3, MMotor.init⟩, [], [], none, none, none, []⟩,
     ⟨some 4, ⟨.fixed, none, MMotor.init⟩, [5, 6], [], none, none, none, []⟩], none, none⟩

/-- The blocks below `n` are live and all requests are granted. -/
def heap (n : ℕ) : Heap := ⟨List.range n, n, fun _ => true⟩

/-- Forward dynamics of the clone, and destruction of both. -/
def prog : List MChain.Op :=
  [.clone 0, .abiAlloc 1, .push 1 2, .push 0 0, .abiDestroy 1, .abiAlloc 0, .wrenchDestroy 0, .abiDestroy 0, .abiAlloc 0, .abiDestroy 0, .destroy 1, .destroy 0]

theorem heap_ok (n : ℕ) : HeapOK (heap n) := ⟨List.nodup_range, fun b hb => by simpa [heap] using hb⟩

theorem chain_ok : ChainOK chain := by
  refine ⟨?_, ?_, by simp [chain]⟩
  · intro l hl
    simp only [chain, List.mem_cons, List.not_mem_nil, or_false] at hl
    rcases hl with rfl | rfl | rfl
    · exact ⟨by simp, by simp [MotorOK, MMotor.init], fun _ => rfl⟩
    · exact ⟨by simp, by simp [MotorOK], by simp [JKind.motored]⟩
    · exact ⟨by simp, by simp [MotorOK, MMotor.init], fun _ => rfl⟩
  · simp [chain, MotorOK]

theorem plain_ok : ChainOK plain := by
  refine ⟨?_, by simp [plain], by simp [plain]⟩
  intro l hl
  simp only [plain, List.mem_cons, List.not_mem_nil, or_false] at hl
  rcases hl with rfl | rfl
  · exact ⟨by simp, by simp [MotorOK, MMotor.init], fun _ => rfl⟩
  · exact ⟨by simp, by simp [MotorOK, MMotor.init], fun _ => rfl⟩

end Sample.Mem

open Sample.Mem in
/-- The sample meets the hypotheses of `C98_clone`, `C98_clone_destroy`, `C98_returned_iff`, `C98_history_partial` and `C98_leak_fails`;
five blocks are lost with each clone. -/
example : HeapOK (heap 17) ∧ Granted (heap 17) ∧ ChainOK chain ∧ chain.links ≠ [] ∧
    ((heap 17).live : Multiset ℕ) = blocks (chain, false) + 0 ∧ Orderly [false] prog ∧ cloneCost chain = 5 := by
  refine ⟨heap_ok _, fun _ => rfl, chain_ok, by simp [chain], by decide +kernel, ?_, by decide +kernel⟩
  simp [Orderly, prog]

open Sample.Mem in
/-- The second sample meets those of `C98_nothing_lost_partial`. -/
example : HeapOK (heap 7) ∧ ChainOK plain ∧ ((heap 7).live : Multiset ℕ) = blocks (plain, false) + 0 ∧
    ((∀ l ∈ plain.links, l.stuff = none ∧ l.joint.kind.motored = false) ∧ ∀ mo ∈ plain.motors, mo.elem = []) := by
  refine ⟨heap_ok _, plain_ok, by decide +kernel, by decide +kernel, by simp [plain]⟩

open Sample.Mem in
/-- **C98, violated.**  Releasing the memory of forward dynamics twice is undefined (the pointers are not reset). -/
theorem C98_abi_twice_fails : MChain.run false [.abiAlloc 0, .abiDestroy 0, .abiDestroy 0] [chain] (heap 17) = none :=
  Option.isNone_iff_eq_none.1 (by decide +kernel)

open Sample.Mem in
/-- **C98, violated.**  Obtaining the memory of forward dynamics twice loses that of the first time, and a chain that is destroyed
does not release it: of the second sample, in which one link moves, two blocks are lost each time. -/
theorem C98_abi_lost_fails :
    (MChain.run false [.abiAlloc 0, .abiAlloc 0, .abiDestroy 0, .destroy 0] [plain] (heap 7)).map (fun r => r.2.live.length) = some 2 ∧
    (MChain.run false [.abiAlloc 0, .destroy 0] [plain] (heap 7)).map (fun r => r.2.live.length) = some 2 ∧
    (MChain.run false [.abiAlloc 0, .abiDestroy 0, .destroy 0] [plain] (heap 7)).map (fun r => r.2.live.length) = some 0 := by
  decide +kernel

open Sample.Mem in
/-- **C98, violated.**  If the request for the properties of a joint is denied, `rkChainClone` is undefined, where it should return the
null pointer: `rkJointAssign` neutralises the joint through the null pointer. -/
theorem C98_denied_fails : MChain.clone plain { heap 7 with ok := fun n => n != 10 } = none ∧
    ((MChain.clone plain { heap 7 with ok := fun n => n != 9 }).map fun r => (r.1.isNone, r.2.live.length)) = some (true, 9) :=
  ⟨Option.isNone_iff_eq_none.1 (by decide +kernel), by decide +kernel⟩

end Roki
