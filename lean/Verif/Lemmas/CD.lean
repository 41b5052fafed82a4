import Verif.Spec.CD
import Mathlib.Tactic.SplitIfs
import Mathlib.Data.List.Nodup
import Mathlib.Data.List.Pairwise
import Mathlib.Algebra.BigOperators.Group.List.Basic
set_option autoImplicit false

/-!
# The cells and pairs of the collision detector: what the operations preserve
-/

namespace Roki
variable {K : Type*} [Field K] {G : CDGeo K}

namespace CD
open Spec

/-! ## Addresses -/

/-- The addresses of the cells. -/
abbrev ptrs (cs : List (CDCell K G)) : List ℕ := cs.map (·.ptr)
/-- The addresses of the two cells of a pair. -/
abbrev key (p : CDPair K) : ℕ × ℕ := (p.c0, p.c1)

theorem deref_mem {cs : List (CDCell K G)} {p : ℕ} {c} (h : deref cs p = some c) : c ∈ cs ∧ c.ptr = p := by
  have := List.find?_some h
  exact ⟨List.mem_of_find?_eq_some h, by simpa using this⟩

theorem deref_of_mem {cs : List (CDCell K G)} {c} (hn : (ptrs cs).Nodup) (hc : c ∈ cs) : deref cs c.ptr = some c := by
  induction cs with
  | nil => simp at hc
  | cons d cs ih =>
    simp only [ptrs, List.map_cons, List.nodup_cons] at hn
    rcases List.mem_cons.1 hc with rfl | hc
    · simp [deref]
    · have : d.ptr ≠ c.ptr := fun e => hn.1 (e ▸ List.mem_map_of_mem hc)
      simpa [deref, List.find?_cons, this] using ih hn.2 hc

theorem deref_map {g : CDCell K G → CDCell K G} (hg : ∀ c, (g c).ptr = c.ptr) (cs : List (CDCell K G)) (p : ℕ) :
    deref (cs.map g) p = (deref cs p).map g := by
  induction cs with
  | nil => rfl
  | cons d cs ih =>
    simp only [deref, List.map_cons, List.find?_cons, hg] at *
    cases d.ptr == p <;> simp [ih]

theorem store_eq {cs : List (CDCell K G)} {g : CDCell K G → CDCell K G} {c} (hn : (ptrs cs).Nodup) (hc : c ∈ cs)
    (hp : (g c).ptr = c.ptr) : store cs (g c) = cs.map fun d => if d.ptr = c.ptr then g d else d := by
  refine List.map_congr_left fun d hd => ?_
  rw [hp]
  split_ifs with h
  · have := deref_of_mem hn hd
    rw [h, deref_of_mem hn hc] at this
    rw [Option.some.inj this]
  · rfl

/-! ## Closed form of the loops -/

/-- Apply a function to the cells whose addresses are listed. -/
def rf (u : CDCell K G → CDCell K G) (S : List ℕ) (c : CDCell K G) : CDCell K G := if c.ptr ∈ S then u c else c

/-- A change of a cell that keeps its address and has no further effect when repeated. -/
structure Touch (u : CDCell K G → CDCell K G) : Prop where
  ptr : ∀ c, (u c).ptr = c.ptr
  idem : ∀ c, u (u c) = u c

theorem rf_ptr {u : CDCell K G → CDCell K G} (hu : Touch u) (S : List ℕ) (c) : (rf u S c).ptr = c.ptr := by
  unfold rf; split_ifs <;> simp [hu.ptr]

theorem rf_nil (u : CDCell K G → CDCell K G) (cs : List (CDCell K G)) : cs.map (rf u []) = cs := by
  rw [show rf u [] = id from funext fun c => by simp [rf]]; simp

theorem ptrs_map {u : CDCell K G → CDCell K G} (hu : ∀ c, (u c).ptr = c.ptr) (cs : List (CDCell K G)) :
    ptrs (cs.map u) = ptrs cs := by simp [ptrs, Function.comp_def, hu]

theorem store_rf {u : CDCell K G → CDCell K G} (hu : Touch u) {cs : List (CDCell K G)} (hn : (ptrs cs).Nodup) {c}
    (hc : c ∈ cs) (S : List ℕ) :
    store (cs.map (rf u S)) (u (rf u S c)) = cs.map (rf u (c.ptr :: S)) := by
  rw [store_eq (g := u) (by rw [ptrs_map (rf_ptr hu S)]; exact hn) (List.mem_map_of_mem hc) (hu.ptr _), List.map_map]
  refine List.map_congr_left fun d _ => ?_
  have e : ∀ x, (rf u S x).ptr = x.ptr := rf_ptr hu S
  simp only [Function.comp, e]
  unfold rf
  by_cases h1 : d.ptr = c.ptr
  · by_cases h2 : d.ptr ∈ S
    · rw [if_pos h1, if_pos h2, if_pos (List.mem_cons_of_mem _ h2), hu.idem]
    · rw [if_pos h1, if_neg h2, if_pos (by simp [h1])]
  · by_cases h2 : d.ptr ∈ S
    · rw [if_neg h1, if_pos h2, if_pos (List.mem_cons_of_mem _ h2)]
    · rw [if_neg h1, if_neg h2, if_neg (by simp [h1, h2])]

/-- A loop over the pairs whose body gives a result that does not depend on the cells touched before. -/
theorem forPairs_closed {body : CDPair K → List (CDCell K G) → Option ((CDPair K × ℕ) × List (CDCell K G))}
    {u : CDCell K G → CDCell K G} {cond : CDPair K → Bool} {F : CDPair K → CDPair K × ℕ} {cs : List (CDCell K G)} :
    ∀ (ps : List (CDPair K)) (S : List ℕ),
      (∀ p ∈ ps, ∀ S, body p (cs.map (rf u S)) =
        some (F p, cs.map (rf u (if cond p then p.c1 :: p.c0 :: S else S)))) →
      ∃ S', forPairs body ps (cs.map (rf u S)) =
          some ((ps.map fun p => (F p).1, (ps.map fun p => (F p).2).sum), cs.map (rf u S')) ∧
        ∀ x, x ∈ S' ↔ x ∈ S ∨ ∃ p ∈ ps, cond p = true ∧ (x = p.c0 ∨ x = p.c1)
  | [], S, _ => ⟨S, rfl, by simp⟩
  | p :: ps, S, hb => by
    obtain ⟨S', h1, h2⟩ := forPairs_closed ps (if cond p then p.c1 :: p.c0 :: S else S)
      fun q hq => hb q (List.mem_cons_of_mem _ hq)
    refine ⟨S', ?_, fun x => ?_⟩
    · simp [forPairs, hb p (by simp) S, h1]
    · rw [h2]
      cases hc : cond p
      · simp [hc]
      · simp only [if_true, List.mem_cons, exists_eq_or_imp, hc, true_and]
        constructor
        · rintro ((h | h | h) | h)
          exacts [.inr (.inl (.inr h)), .inr (.inl (.inl h)), .inl h, .inr (.inr h)]
        · rintro (h | (h | h) | h)
          exacts [.inl (.inr (.inr h)), .inl (.inr (.inl h)), .inl (.inl h), .inr h]

/-- The two cells of a pair. -/
def cellsOf (cs : List (CDCell K G)) (p : CDPair K) : Option (CDCell K G × CDCell K G) :=
  (deref cs p.c0).bind fun a => (deref cs p.c1).map fun b => (a, b)

/-- The result of a body for a pair that is computed from its two cells. -/
def withCells {α : Type*} (cs : List (CDCell K G)) (d : CDPair K → α) (f : CDPair K → CDCell K G → CDCell K G → α)
    (p : CDPair K) : α :=
  match cellsOf cs p with
  | some (a, b) => f p a b
  | none => d p

theorem withCells_eq {α : Type*} {cs : List (CDCell K G)} {d : CDPair K → α} {f} {p : CDPair K} {a b}
    (ha : deref cs p.c0 = some a) (hb : deref cs p.c1 = some b) : withCells cs d f p = f p a b := by
  simp [withCells, cellsOf, ha, hb]

/-! ## Updates -/

/-- The polyhedron of the cell has the shape of that of the link. -/
def Fit (c : CDCell K G) : Prop := c.ph.vert.length = c.ph0.vert.length ∧ c.ph.face = c.ph0.face

/-- `updatePH` where it is defined. -/
def updatePH' (W : ℕ → Frame K) (c : CDCell K G) : CDCell K G :=
  if c.stat || c.phUpd then c else { c with ph := posed c.ph0 (W c.link), phUpd := true }

theorem updatePH_eq (W : ℕ → Frame K) {c : CDCell K G} (h : Fit c) : updatePH W c = some (updatePH' W c) := by
  unfold updatePH updatePH'
  split_ifs
  · rfl
  · simp [PH.xform, h.1, posed, h.2, List.drop_eq_nil_of_le (le_of_eq h.1)]

theorem touchBB (W : ℕ → Frame K) : Touch (updateBB (G := G) W) where
  ptr c := by unfold updateBB; split_ifs <;> rfl
  idem c := by
    cases hs : c.stat <;> cases hb : c.bbUpd <;> simp [updateBB, hs, hb]

theorem touchPH (W : ℕ → Frame K) : Touch (updatePH' (G := G) W) where
  ptr c := by unfold updatePH'; split_ifs <;> rfl
  idem c := by
    cases hs : c.stat <;> cases hb : c.phUpd <;> simp [updatePH', hs, hb]

theorem fit_updatePH' (W : ℕ → Frame K) {c : CDCell K G} (h : Fit c) : Fit (updatePH' W c) := by
  unfold updatePH'; split_ifs
  · exact h
  · exact ⟨by simp [posed], rfl⟩

theorem fit_rf (W : ℕ → Frame K) (S : List ℕ) {c : CDCell K G} (h : Fit c) : Fit (rf (updatePH' W) S c) := by
  unfold rf; split_ifs
  · exact fit_updatePH' W h
  · exact h

theorem updBB_rf (W : ℕ → Frame K) {cs : List (CDCell K G)} (hn : (ptrs cs).Nodup) {p c} (h : deref cs p = some c)
    (S : List ℕ) : updBB W (cs.map (rf (updateBB W) S)) p = some (cs.map (rf (updateBB W) (p :: S))) := by
  have hm := deref_mem h
  rw [updBB, deref_map (rf_ptr (touchBB W) S), h, Option.map_some, Option.map_some, store_rf (touchBB W) hn hm.1, hm.2]

theorem updPH_rf (W : ℕ → Frame K) {cs : List (CDCell K G)} (hn : (ptrs cs).Nodup) (hf : ∀ c ∈ cs, Fit c) {p c}
    (h : deref cs p = some c)
    (S : List ℕ) : updPH W (cs.map (rf (updatePH' W) S)) p = some (cs.map (rf (updatePH' W) (p :: S))) := by
  have hm := deref_mem h
  rw [updPH, deref_map (rf_ptr (touchPH W) S), h, Option.map_some, Option.bind_some,
    updatePH_eq W (fit_rf W S (hf c hm.1)), Option.map_some, store_rf (touchPH W) hn hm.1, hm.2]

theorem deref_rf {u : CDCell K G → CDCell K G} (hu : Touch u) {cs : List (CDCell K G)} {p c} (h : deref cs p = some c)
    {S : List ℕ} (hS : p ∈ S) : deref (cs.map (rf u S)) p = some (u c) := by
  rw [deref_map (rf_ptr hu S), h, Option.map_some, rf, if_pos (by rw [(deref_mem h).2]; exact hS)]

/-! ## The bodies -/

/-- The two cells of the pair exist. -/
def Live (cs : List (CDCell K G)) (p : CDPair K) : Prop := ∃ a b, deref cs p.c0 = some a ∧ deref cs p.c1 = some b

theorem aabbBody_eq (W : ℕ → Frame K) {cs : List (CDCell K G)} (hn : (ptrs cs).Nodup) {p : CDPair K} (hp : Live cs p)
    (S : List ℕ) : aabbBody W p (cs.map (rf (updateBB W) S)) =
      some (withCells cs (fun p => (p, 0)) (fun p a b =>
        (if G.colAABB (updateBB W a).aabb (updateBB W b).aabb then { p with isCol := true } else p, 0)) p,
        cs.map (rf (updateBB W) (p.c1 :: p.c0 :: S))) := by
  obtain ⟨a, b, ha, hb⟩ := hp
  rw [withCells_eq ha hb]
  simp [aabbBody, updBB_rf W hn ha, updBB_rf W hn hb, deref_rf (touchBB W) ha, deref_rf (touchBB W) hb]

theorem obbBody_eq {cs : List (CDCell K G)} {p : CDPair K} (hp : Live cs p) :
    obbBody p cs =
      some (withCells cs (fun p => (p, 0)) (fun p a b =>
        ({ p with isCol := p.isCol && G.colBox a.obb b.obb }, 0)) p, cs) := by
  obtain ⟨a, b, ha, hb⟩ := hp
  rw [withCells_eq ha hb]
  rcases p with ⟨c0, c1, i, vl, vol⟩
  cases i
  · simp [obbBody]
  · cases h : G.colBox a.obb b.obb <;> simp_all [obbBody]

theorem gjkBody_eq (W : ℕ → Frame K) {cs : List (CDCell K G)} (hn : (ptrs cs).Nodup) (hf : ∀ c ∈ cs, Fit c)
    {p : CDPair K} (hp : Live cs p) (S : List ℕ) : gjkBody W p (cs.map (rf (updatePH' W) S)) =
      some (withCells cs (fun p => (p, 0)) (fun p a b =>
        ({ p with isCol := p.isCol && G.colPH (updatePH' W a).ph (updatePH' W b).ph }, 0)) p,
        cs.map (rf (updatePH' W) (if p.isCol then p.c1 :: p.c0 :: S else S))) := by
  obtain ⟨a, b, ha, hb⟩ := hp
  rw [withCells_eq ha hb]
  rcases p with ⟨c0, c1, i, vl, vol⟩
  cases i
  · simp [gjkBody]
  · simp only at ha hb
    simp only [gjkBody, if_true, updPH_rf W hn hf ha, updPH_rf W hn hf hb, Option.bind_eq_bind, Option.bind_some,
      deref_rf (touchPH W) ha (S := c1 :: c0 :: S) (by simp), deref_rf (touchPH W) hb (S := c1 :: c0 :: S) (by simp)]
    cases h : G.colPH (updatePH' W a).ph (updatePH' W b).ph <;> simp

theorem gjkOnlyBody_eq (W : ℕ → Frame K) {cs : List (CDCell K G)} (hn : (ptrs cs).Nodup) (hf : ∀ c ∈ cs, Fit c)
    {p : CDPair K} (hp : Live cs p) (S : List ℕ) : gjkOnlyBody W p (cs.map (rf (updatePH' W) S)) =
      some (withCells cs (fun p => (p, 0)) (fun p a b =>
        (if G.colPH (updatePH' W a).ph (updatePH' W b).ph then { p with isCol := true } else p, 0)) p,
        cs.map (rf (updatePH' W) (p.c1 :: p.c0 :: S))) := by
  obtain ⟨a, b, ha, hb⟩ := hp
  rw [withCells_eq ha hb]
  simp [gjkOnlyBody, updPH_rf W hn hf ha, updPH_rf W hn hf hb, deref_rf (touchPH W) ha, deref_rf (touchPH W) hb]

theorem vertBody_eq (W : ℕ → Frame K) (t : Fric) {cs : List (CDCell K G)} (hn : (ptrs cs).Nodup)
    (hf : ∀ c ∈ cs, Fit c) {p : CDPair K} (hp : Live cs p) (S : List ℕ) :
    vertBody W t p (cs.map (rf (updatePH' W) S)) =
      some (withCells cs (fun p => (p, 0)) (fun p a b =>
        if p.isCol then pairVert W t p (updatePH' W a) (updatePH' W b) else ({ p with vlist := [] }, 0)) p,
        cs.map (rf (updatePH' W) (if p.isCol then p.c1 :: p.c0 :: S else S))) := by
  obtain ⟨a, b, ha, hb⟩ := hp
  rw [withCells_eq ha hb]
  by_cases hi : p.isCol = true
  · simp [vertBody, hi, updPH_rf W hn hf ha, updPH_rf W hn hf hb, deref_rf (touchPH W) ha, deref_rf (touchPH W) hb]
  · simp [vertBody, hi]

theorem volBody_eq (W : ℕ → Frame K) {cs : List (CDCell K G)} (hn : (ptrs cs).Nodup)
    (hf : ∀ c ∈ cs, Fit c) {p : CDPair K} (hp : Live cs p) (S : List ℕ) :
    volBody W p (cs.map (rf (updatePH' W) S)) =
      some (withCells cs (fun p => (p, 0)) (fun p a b =>
        if p.isCol then
          match G.intersect (updatePH' W a).ph (updatePH' W b).ph with
          | none => ({ p with isCol := false }, 0)
          | some v => ({ p with colvol := v }, 1)
        else (p, 0)) p,
        cs.map (rf (updatePH' W) (if p.isCol then p.c1 :: p.c0 :: S else S))) := by
  obtain ⟨a, b, ha, hb⟩ := hp
  rw [withCells_eq ha hb]
  by_cases hi : p.isCol = true
  · simp only [volBody, hi, if_true, updPH_rf W hn hf ha, updPH_rf W hn hf hb, Option.bind_eq_bind, Option.bind_some,
      deref_rf (touchPH W) ha (S := p.c1 :: p.c0 :: S) (by simp),
      deref_rf (touchPH W) hb (S := p.c1 :: p.c0 :: S) (by simp)]
    cases h : G.intersect (updatePH' W a).ph (updatePH' W b).ph <;> simp
  · simp [volBody, hi]

end CD
end Roki
