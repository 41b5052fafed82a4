import Verif.Model.CDVol
import Verif.Lemmas.CDInv
set_option autoImplicit false

/-!
# Collision volumes: closed forms of the queries
-/

namespace Roki
variable {K : Type*} [Field K] {G : CDGeo K}
namespace CD
open Spec

/-- See `forPairs_closed`. -/
theorem forVols_closed
    {body : CDPair K → VolInfo K → List (CDCell K G) → Option (((CDPair K × VolInfo K) × ℕ) × List (CDCell K G))}
    {u : CDCell K G → CDCell K G} {cond : CDPair K → Bool} {F : CDPair K → VolInfo K → (CDPair K × VolInfo K) × ℕ}
    {cs : List (CDCell K G)} :
    ∀ (ps : List (CDPair K × VolInfo K)) (S : List ℕ),
      (∀ p ∈ ps, ∀ S, body p.1 p.2 (cs.map (rf u S)) =
        some (F p.1 p.2, cs.map (rf u (if cond p.1 then p.1.c1 :: p.1.c0 :: S else S)))) →
      ∃ S', forVols body ps (cs.map (rf u S)) =
          some ((ps.map fun p => (F p.1 p.2).1, (ps.map fun p => (F p.1 p.2).2).sum), cs.map (rf u S'))
  | [], S, _ => ⟨S, rfl⟩
  | p :: ps, S, hb => by
    obtain ⟨S', h1⟩ := forVols_closed ps (if cond p.1 then p.1.c1 :: p.1.c0 :: S else S)
      fun q hq => hb q (List.mem_cons_of_mem _ hq)
    exact ⟨S', by simp [forVols, hb p (by simp) S, h1]⟩

/-- The result of a query for a pair. -/
def volOut (W : ℕ → Frame K) (cs : List (CDCell K G))
    (f : CDPair K → VolInfo K → CDCell K G → CDCell K G → (CDPair K × VolInfo K) × ℕ) (p : CDPair K × VolInfo K) :
    (CDPair K × VolInfo K) × ℕ :=
  withCells cs (fun q => ((q, p.2), 0))
    (fun q a b => f (markP (resAABB W cs q && resBox W cs q) q) p.2 (seen W a) (seen W b)) p.1

theorem volQuery_eq (W : ℕ → Frame K) {cd : CD K G} (h : Ready cd) (hf : ∀ c ∈ cd.cells, Fit c)
    (hp : cd.pairs ≠ []) (xs : List (VolInfo K))
    {body : CDPair K → VolInfo K → List (CDCell K G) → Option (((CDPair K × VolInfo K) × ℕ) × List (CDCell K G))}
    {f : CDPair K → VolInfo K → CDCell K G → CDCell K G → (CDPair K × VolInfo K) × ℕ}
    (hb : ∀ {cs : List (CDCell K G)}, (ptrs cs).Nodup → (∀ c ∈ cs, Fit c) → ∀ {p : CDPair K} (x : VolInfo K), Live cs p → ∀ U,
      body p x (cs.map (rf (updatePH' W) U)) = some (withCells cs (fun p => ((p, x), 0)) (fun p a b =>
        f p x (updatePH' W a) (updatePH' W b)) p,
        cs.map (rf (updatePH' W) (if p.isCol then p.c1 :: p.c0 :: U else U))))
    (hg : ∀ S p x a b, f p x (updatePH' W (boxed W S a)) (updatePH' W (boxed W S b)) = f p x (seen W a) (seen W b)) :
    ∃ cells, volQuery body W cd xs = some ({ cd with
        cells := cells
        pairs := (cd.pairs.zip xs).map fun p => (volOut W cd.cells f p).1.1
        colnum := ((cd.pairs.zip xs).map fun p => (volOut W cd.cells f p).2).sum },
      (cd.pairs.zip xs).map fun p => (volOut W cd.cells f p).1.2) := by
  obtain ⟨S, h1, -⟩ := colChkOBB_eq W h hp
  rw [map_boxed] at h1
  have hn : (ptrs (cd.cells.map (boxed W S))).Nodup := by rw [ptrs_map (boxed_ptr W S)]; exact h.nodup
  have hfit : ∀ c ∈ cd.cells.map (boxed W S), Fit c := by
    intro c hc
    obtain ⟨d, hd, rfl⟩ := List.mem_map.1 hc
    exact boxed_fit W S (hf d hd)
  let r : CDPair K → Bool := fun p => resAABB W cd.cells p && resBox W cd.cells p
  have hz : (cd.pairs.map fun p => markP (r p) p).zip xs = (cd.pairs.zip xs).map fun p => (markP (r p.1) p.1, p.2) := by
    rw [List.zip_map_left]; rfl
  have hl : ∀ p ∈ cd.pairs.zip xs, p.1 ∈ cd.pairs := fun p hp => (List.of_mem_zip (a := p.1) (b := p.2) hp).1
  obtain ⟨T, h2⟩ := forVols_closed (body := body) (u := updatePH' W) (cs := cd.cells.map (boxed W S)) (cond := fun p => p.isCol)
    (F := fun p x => withCells (cd.cells.map (boxed W S)) (fun p => ((p, x), 0))
      (fun p a b => f p x (updatePH' W a) (updatePH' W b)) p) ((cd.pairs.zip xs).map fun p => (markP (r p.1) p.1, p.2)) []
    (fun p hp U => hb hn hfit (p := p.1) p.2 (by
      obtain ⟨q, hq, rfl⟩ := List.mem_map.1 hp
      exact (h.live q.1 (hl q hq)).map (boxed_ptr W S)) U)
  rw [rf_nil] at h2
  have key : ∀ p ∈ cd.pairs.zip xs, withCells (cd.cells.map (boxed W S)) (fun q => ((q, p.2), 0)) (fun q a b =>
        f q p.2 (updatePH' W a) (updatePH' W b)) (markP (r p.1) p.1) = volOut W cd.cells f p := by
    intro p hp
    obtain ⟨a, b, ha, hb⟩ := h.live p.1 (hl p hp)
    rw [volOut, withCells_eq ha hb, withCells_eq (p := markP (r p.1) p.1) (a := boxed W S a) (b := boxed W S b)
      (by rw [deref_map (boxed_ptr W S)]; simp [markP, ha]) (by rw [deref_map (boxed_ptr W S)]; simp [markP, hb]), hg]
  refine ⟨(cd.cells.map (boxed W S)).map (rf (updatePH' W) T), ?_⟩
  rw [volQuery, h1, Option.bind_some]
  simp only
  rw [show (fun p => markP (resAABB W cd.cells p && resBox W cd.cells p) p) = fun p => markP (r p) p from rfl, hz, h2]
  simp only [Option.map_some, List.map_map, Option.some.injEq, Prod.mk.injEq, CD.mk.injEq, true_and, and_true]
  refine ⟨⟨List.map_congr_left fun p hp => ?_, congrArg List.sum (List.map_congr_left fun p hp => ?_)⟩,
    List.map_congr_left fun p hp => ?_⟩ <;> simp only [Function.comp] <;> rw [key p hp]

/-- The polyhedra that `zCH3DPL` returns refer to their own vertices only. -/
def HullValid (V : VolGeo K) : Prop := ∀ l, ∀ f ∈ (V.hull l).face,
  f.1 < (V.hull l).vert.length ∧ f.2.1 < (V.hull l).vert.length ∧ f.2.2 < (V.hull l).vert.length

/-- The result of `_rkCDPairColVolBREP` for valid hulls. -/
def outBREP (V : VolGeo K) (G : CDGeo K) (p : CDPair K) (x : VolInfo K) (a b : PH K) : (CDPair K × VolInfo K) × ℕ :=
  match V.trunc (V.ofPH a) b, V.trunc (V.ofPH b) a with
  | some b1, some b2 =>
    if b1.vert.isEmpty && b2.vert.isEmpty then (({ p with isCol := false }, x), 0)
    else if (mergeCH V b1 b2).vert.length < 4 || (mergeCH V b1 b2).face.length < 4 then
      (({ p with isCol := false, colvol := PH.empty }, { x with norm := brepNorm G b1 b2 }), 0)
    else (({ p with colvol := mergeCH V b1 b2 },
      volAxes G { x with norm := brepNorm G b1 b2 } (V.bary (mergeCH V b1 b2))), 1)
  | _, _ => (({ p with isCol := false }, x), 0)

theorem pairBREP_eq {V : VolGeo K} (hV : HullValid V) (p : CDPair K) (x : VolInfo K) (a b : PH K) :
    pairBREP V G p x a b = some (outBREP V G p x a b) := by
  unfold pairBREP outBREP
  cases h1 : V.trunc (V.ofPH a) b <;> cases h2 : V.trunc (V.ofPH b) a <;> try rfl
  rename_i b1 b2
  simp only
  have e : volError (mergeCH V b1 b2) = false := by
    simp only [volError, List.any_eq_false]
    intro f hf
    have := hV _ f hf
    simp only [mergeCH, Bool.or_eq_true, decide_eq_true_eq, not_or, not_lt, gt_iff_lt]
    omega
  have e' : barycenter V (mergeCH V b1 b2) = some (V.bary (mergeCH V b1 b2)) := by
    rw [barycenter, if_pos]
    simp only [List.all_eq_true, Bool.and_eq_true, decide_eq_true_eq]
    intro f hf
    have := hV _ f hf
    exact ⟨⟨this.1, this.2.1⟩, this.2.2⟩
  split_ifs <;> simp_all

theorem brepBody_eq {V : VolGeo K} (hV : HullValid V) (W : ℕ → Frame K) {cs : List (CDCell K G)} (hn : (ptrs cs).Nodup)
    (hf : ∀ c ∈ cs, Fit c) {p : CDPair K} (x : VolInfo K) (hp : Live cs p) (S : List ℕ) :
    brepBody V W p x (cs.map (rf (updatePH' W) S)) =
      some (withCells cs (fun p => ((p, x), 0)) (fun p a b =>
        (fun p x (a b : CDCell K G) => if p.isCol then outBREP V G p x a.ph b.ph else ((p, x), 0)) p x
          (updatePH' W a) (updatePH' W b)) p,
        cs.map (rf (updatePH' W) (if p.isCol then p.c1 :: p.c0 :: S else S))) := by
  obtain ⟨a, b, ha, hb⟩ := hp
  rw [withCells_eq ha hb]
  by_cases hi : p.isCol = true
  · simp only [brepBody, hi, if_true, updPH_rf W hn hf ha, updPH_rf W hn hf hb, Option.bind_eq_bind, Option.bind_some,
      deref_rf (touchPH W) ha (S := p.c1 :: p.c0 :: S) (by simp),
      deref_rf (touchPH W) hb (S := p.c1 :: p.c0 :: S) (by simp), pairBREP_eq hV, Option.map_some]
  · simp [brepBody, hi]

theorem colVolBREP_eq {V : VolGeo K} (hV : HullValid V) (W : ℕ → Frame K) {cd : CD K G} (h : Ready cd)
    (hf : ∀ c ∈ cd.cells, Fit c) (hp : cd.pairs ≠ []) (xs : List (VolInfo K)) :
    ∃ cells, colVolBREP V W cd xs = some ({ cd with
        cells := cells
        pairs := (cd.pairs.zip xs).map fun p => (volOut W cd.cells (fun p x a b =>
          if p.isCol then outBREP V G p x a.ph b.ph else ((p, x), 0)) p).1.1
        colnum := ((cd.pairs.zip xs).map fun p => (volOut W cd.cells (fun p x a b =>
          if p.isCol then outBREP V G p x a.ph b.ph else ((p, x), 0)) p).2).sum },
      (cd.pairs.zip xs).map fun p => (volOut W cd.cells (fun p x a b =>
          if p.isCol then outBREP V G p x a.ph b.ph else ((p, x), 0)) p).1.2) :=
  volQuery_eq W h hf hp xs (fun hn hf _ x hp U => brepBody_eq hV W hn hf x hp U)
    (by intro S p x a b; simp only [(boxed_seen W S a).1, (boxed_seen W S b).1, seen])

theorem brepVertBody_eq {V : VolGeo K} (hV : HullValid V) (t : Fric) (W : ℕ → Frame K) {cs : List (CDCell K G)}
    (hn : (ptrs cs).Nodup) (hf : ∀ c ∈ cs, Fit c) {p : CDPair K} (x : VolInfo K) (hp : Live cs p) (S : List ℕ) :
    brepVertBody V t W p x (cs.map (rf (updatePH' W) S)) =
      some (withCells cs (fun p => ((p, x), 0)) (fun p a b =>
        (fun p x (a b : CDCell K G) => if p.isCol then
          if x.rigid then outBREP V G p x a.ph b.ph else (((pairVert W t p a b).1, x), (pairVert W t p a b).2)
          else (({ p with vlist := [] }, x), 0)) p x
          (updatePH' W a) (updatePH' W b)) p,
        cs.map (rf (updatePH' W) (if p.isCol then p.c1 :: p.c0 :: S else S))) := by
  obtain ⟨a, b, ha, hb⟩ := hp
  rw [withCells_eq ha hb]
  by_cases hi : p.isCol = true
  · by_cases hr : x.rigid = true <;>
    simp only [brepVertBody, hi, hr, if_true, updPH_rf W hn hf ha, updPH_rf W hn hf hb, Option.bind_eq_bind,
      Option.bind_some, deref_rf (touchPH W) ha (S := p.c1 :: p.c0 :: S) (by simp),
      deref_rf (touchPH W) hb (S := p.c1 :: p.c0 :: S) (by simp), pairBREP_eq hV, Option.map_some, if_false,
      Bool.false_eq_true]
  · simp [brepVertBody, hi]

theorem colVolBREPVert_eq {V : VolGeo K} (hV : HullValid V) (W : ℕ → Frame K) {cd : CD K G} (h : Ready cd)
    (hf : ∀ c ∈ cd.cells, Fit c) (hp : cd.pairs ≠ []) (xs : List (VolInfo K)) :
    ∃ cells, colVolBREPVert V W cd xs = some ({ cd with
        cells := cells
        pairs := (cd.pairs.zip xs).map fun p => (volOut W cd.cells (fun p x (a b : CDCell K G) => if p.isCol then
          if x.rigid then outBREP V G p x a.ph b.ph else
            (((pairVert W cd.defType p a b).1, x), (pairVert W cd.defType p a b).2)
          else (({ p with vlist := [] }, x), 0)) p).1.1
        colnum := ((cd.pairs.zip xs).map fun p => (volOut W cd.cells (fun p x (a b : CDCell K G) => if p.isCol then
          if x.rigid then outBREP V G p x a.ph b.ph else
            (((pairVert W cd.defType p a b).1, x), (pairVert W cd.defType p a b).2)
          else (({ p with vlist := [] }, x), 0)) p).2).sum },
      (cd.pairs.zip xs).map fun p => (volOut W cd.cells (fun p x (a b : CDCell K G) => if p.isCol then
          if x.rigid then outBREP V G p x a.ph b.ph else
            (((pairVert W cd.defType p a b).1, x), (pairVert W cd.defType p a b).2)
          else (({ p with vlist := [] }, x), 0)) p).1.2) :=
  volQuery_eq W h hf hp xs (fun hn hf _ x hp U => brepVertBody_eq hV _ W hn hf x hp U)
    (by
      intro S p x a b
      have ea := boxed_seen W S a
      have eb := boxed_seen W S b
      have e1 := vertsIn_congr W cd.defType p.vlist (a := updatePH' W (boxed W S a)) (a' := seen W a)
        (b := updatePH' W (boxed W S b)) (b' := seen W b) ea.1 ea.2.1 eb.1 eb.2.2
      have e2 := vertsIn_congr W cd.defType p.vlist (a := updatePH' W (boxed W S b)) (a' := seen W b)
        (b := updatePH' W (boxed W S a)) (b' := seen W a) eb.1 eb.2.1 ea.1 ea.2.2
      have e3 : (seen W a).ph = seenPH W a := rfl
      have e4 : (seen W b).ph = seenPH W b := rfl
      simp only [pairVert, e1, e2, ea.1, eb.1, e3, e4])

theorem forPairs_length {body : CDPair K → List (CDCell K G) → Option ((CDPair K × ℕ) × List (CDCell K G))} :
    ∀ (ps : List (CDPair K)) (cs : List (CDCell K G)) (r), forPairs body ps cs = some r → r.1.1.length = ps.length
  | [], cs, r, h => by simp only [forPairs, Option.some.injEq] at h; subst h; rfl
  | p :: ps, cs, r, h => by
    simp only [forPairs, Option.bind_eq_bind, Option.bind_eq_some_iff, Option.pure_def, Option.some.injEq] at h
    obtain ⟨⟨⟨p', n⟩, cs'⟩, -, ⟨⟨ps', m⟩, cs''⟩, h2, rfl⟩ := h
    have := forPairs_length ps cs' _ h2
    simpa using this

theorem colChkOBB_length (W : ℕ → Frame K) (cd cd' : CD K G) (h : cd.colChkOBB W = some cd') :
    cd'.pairs.length = cd.pairs.length := by
  simp only [colChkOBB, colChkAABB, runPairs, Option.bind_eq_some_iff, Option.map_eq_some_iff] at h
  obtain ⟨cd1, h1, r, h2, rfl⟩ := h
  rw [forPairs_length _ _ _ h2]
  by_cases he : cd.pairs.isEmpty = true
  · rw [if_pos he, Option.some.injEq] at h1; rw [h1]
  · rw [if_neg he] at h1
    obtain ⟨r', h3, rfl⟩ := Option.map_eq_some_iff.1 h1
    rw [forPairs_length _ _ _ h3]
    simp [reset]

/-! ## The fast variant -/

/-- The result of the body of `_rkCDColVolBREPFast` for valid hulls. -/
def outFast (V : VolGeo K) (G : CDGeo K) (p : CDPair K) (x : VolInfo K) (a b : PH K) : (CDPair K × VolInfo K) × ℕ :=
  match V.interBox a b with
  | none => (({ p with isCol := false }, x), 0)
  | some ib =>
    match V.trunc (V.ofPHIn a ib) b, V.trunc (V.ofPHIn b ib) a with
    | some b1, some b2 =>
      if b1.vert.isEmpty && b2.vert.isEmpty then (({ p with isCol := false }, x), 0)
      else (({ p with colvol := mergeCH V b1 b2 },
        volAxes G { x with norm := brepNorm G b1 b2 } (V.bary (mergeCH V b1 b2))), 1)
    | _, _ => (({ p with isCol := false }, x), 0)

theorem pairFast_eq {V : VolGeo K} (hV : HullValid V) (ini : Bool) (p : CDPair K) (x : VolInfo K) (a b : PH K)
    (h : ini = false → V.interBox a b ≠ none) : pairFast V G ini p x a b = some (outFast V G p x a b) := by
  unfold pairFast outFast
  cases h0 : V.interBox a b with
  | none =>
    cases ini
    · exact absurd h0 (h rfl)
    · rfl
  | some ib =>
    simp only
    cases h1 : V.trunc (V.ofPHIn a ib) b <;> cases h2 : V.trunc (V.ofPHIn b ib) a <;> try rfl
    rename_i b1 b2
    simp only
    have e' : barycenter V (mergeCH V b1 b2) = some (V.bary (mergeCH V b1 b2)) := by
      rw [barycenter, if_pos]
      simp only [List.all_eq_true, Bool.and_eq_true, decide_eq_true_eq]
      intro f hf
      have := hV _ f hf
      exact ⟨⟨this.1, this.2.1⟩, this.2.2⟩
    split_ifs <;> simp_all

/-- The loop is defined if the boxes of the polyhedra of every marked pair intersect. -/
theorem fastLoop_closed {V : VolGeo K} (hV : HullValid V) (W : ℕ → Frame K) {cs : List (CDCell K G)} (hn : (ptrs cs).Nodup)
    (hf : ∀ c ∈ cs, Fit c) : ∀ (ps : List (CDPair K × VolInfo K)) (ini : Bool) (S : List ℕ), (∀ p ∈ ps, Live cs p.1) →
      (∀ p ∈ ps, p.1.isCol = true → ∀ a b, deref cs p.1.c0 = some a → deref cs p.1.c1 = some b →
        V.interBox (updatePH' W a).ph (updatePH' W b).ph ≠ none) →
      ∃ T, fastLoop V W ini ps (cs.map (rf (updatePH' W) S)) =
        some ((ps.map fun p => (withCells cs (fun q => ((q, p.2), 0)) (fun q a b => if q.isCol then
            outFast V G q p.2 (updatePH' W a).ph (updatePH' W b).ph else ((q, p.2), 0)) p.1).1,
          (ps.map fun p => (withCells cs (fun q => ((q, p.2), 0)) (fun q a b => if q.isCol then
            outFast V G q p.2 (updatePH' W a).ph (updatePH' W b).ph else ((q, p.2), 0)) p.1).2).sum),
          cs.map (rf (updatePH' W) T))
  | [], ini, S, _, _ => ⟨S, rfl⟩
  | p :: ps, ini, S, hl, hi => by
    obtain ⟨a, b, ha, hb⟩ := hl p (by simp)
    by_cases hc : p.1.isCol = true
    · obtain ⟨T, e⟩ := fastLoop_closed hV W hn hf ps true (p.1.c1 :: p.1.c0 :: S) (fun q hq => hl q (List.mem_cons_of_mem _ hq))
        (fun q hq => hi q (List.mem_cons_of_mem _ hq))
      refine ⟨T, ?_⟩
      rw [fastLoop, if_pos hc]
      simp only [updPH_rf W hn hf ha, updPH_rf W hn hf hb, Option.bind_eq_bind,
        Option.bind_some, deref_rf (touchPH W) ha (S := p.1.c1 :: p.1.c0 :: S) (by simp),
        deref_rf (touchPH W) hb (S := p.1.c1 :: p.1.c0 :: S) (by simp),
        pairFast_eq hV ini p.1 p.2 _ _ (fun _ => hi p (by simp) hc a b ha hb), e, Option.pure_def, List.map_cons,
        List.sum_cons, withCells_eq ha hb, hc, if_true]
    · obtain ⟨T, e⟩ := fastLoop_closed hV W hn hf ps ini S (fun q hq => hl q (List.mem_cons_of_mem _ hq))
        (fun q hq => hi q (List.mem_cons_of_mem _ hq))
      refine ⟨T, ?_⟩
      rw [fastLoop, if_neg hc]
      simp only [e, Option.bind_eq_bind, Option.bind_some, Option.pure_def, List.map_cons, List.sum_cons,
        withCells_eq ha hb, hc, Bool.false_eq_true, if_false, zero_add]

theorem colVolBREPFast_eq {V : VolGeo K} (hV : HullValid V) (W : ℕ → Frame K) {cd : CD K G} (h : Ready cd)
    (hf : ∀ c ∈ cd.cells, Fit c) (hp : cd.pairs ≠ []) (xs : List (VolInfo K))
    (hi : ∀ p ∈ cd.pairs, ∀ a b, deref cd.cells p.c0 = some a → deref cd.cells p.c1 = some b →
      (resAABB W cd.cells p && resBox W cd.cells p) = true → V.interBox (seenPH W a) (seenPH W b) ≠ none) :
    ∃ cells, colVolBREPFast V W cd xs = some ({ cd with
        cells := cells
        pairs := (cd.pairs.zip xs).map fun p => (volOut W cd.cells (fun p x a b =>
          if p.isCol then outFast V G p x a.ph b.ph else ((p, x), 0)) p).1.1
        colnum := ((cd.pairs.zip xs).map fun p => (volOut W cd.cells (fun p x a b =>
          if p.isCol then outFast V G p x a.ph b.ph else ((p, x), 0)) p).2).sum },
      (cd.pairs.zip xs).map fun p => (volOut W cd.cells (fun p x a b =>
          if p.isCol then outFast V G p x a.ph b.ph else ((p, x), 0)) p).1.2) := by
  obtain ⟨S, h1, -⟩ := colChkOBB_eq W h hp
  rw [map_boxed] at h1
  have hn : (ptrs (cd.cells.map (boxed W S))).Nodup := by rw [ptrs_map (boxed_ptr W S)]; exact h.nodup
  have hfit : ∀ c ∈ cd.cells.map (boxed W S), Fit c := by
    intro c hc
    obtain ⟨d, hd, rfl⟩ := List.mem_map.1 hc
    exact boxed_fit W S (hf d hd)
  let r : CDPair K → Bool := fun p => resAABB W cd.cells p && resBox W cd.cells p
  have hz : (cd.pairs.map fun p => markP (r p) p).zip xs = (cd.pairs.zip xs).map fun p => (markP (r p.1) p.1, p.2) := by
    rw [List.zip_map_left]; rfl
  have hl : ∀ p ∈ cd.pairs.zip xs, p.1 ∈ cd.pairs := fun p hp => (List.of_mem_zip (a := p.1) (b := p.2) hp).1
  have hd : ∀ {p c}, deref cd.cells p = some c → deref (cd.cells.map (boxed W S)) p = some (boxed W S c) := by
    intro p c hc; rw [deref_map (boxed_ptr W S), hc]; rfl
  obtain ⟨T, h2⟩ := fastLoop_closed hV W hn hfit ((cd.pairs.zip xs).map fun p => (markP (r p.1) p.1, p.2)) false []
    (by
      intro p hp
      obtain ⟨q, hq, rfl⟩ := List.mem_map.1 hp
      exact (h.live q.1 (hl q hq)).map (boxed_ptr W S))
    (by
      intro p hp hc a b ha hb
      obtain ⟨q, hq, rfl⟩ := List.mem_map.1 hp
      obtain ⟨a', b', ha', hb'⟩ := h.live q.1 (hl q hq)
      have ea : a = boxed W S a' := Option.some.inj (ha.symm.trans (hd ha'))
      have eb : b = boxed W S b' := Option.some.inj (hb.symm.trans (hd hb'))
      subst ea eb
      rw [(boxed_seen W S a').1, (boxed_seen W S b').1]
      exact hi q.1 (hl q hq) a' b' ha' hb' hc)
  rw [rf_nil] at h2
  have key : ∀ p ∈ cd.pairs.zip xs, withCells (cd.cells.map (boxed W S)) (fun q => ((q, p.2), 0)) (fun q a b =>
        if q.isCol then outFast V G q p.2 (updatePH' W a).ph (updatePH' W b).ph else ((q, p.2), 0)) (markP (r p.1) p.1) =
      volOut W cd.cells (fun p x a b => if p.isCol then outFast V G p x a.ph b.ph else ((p, x), 0)) p := by
    intro p hp
    obtain ⟨a, b, ha, hb⟩ := h.live p.1 (hl p hp)
    rw [volOut, withCells_eq ha hb, withCells_eq (p := markP (r p.1) p.1) (a := boxed W S a) (b := boxed W S b)
      (hd ha) (hd hb), (boxed_seen W S a).1, (boxed_seen W S b).1]
    rfl
  refine ⟨(cd.cells.map (boxed W S)).map (rf (updatePH' W) T), ?_⟩
  rw [colVolBREPFast, h1, Option.bind_some]
  simp only
  rw [show (fun p => markP (resAABB W cd.cells p && resBox W cd.cells p) p) = fun p => markP (r p) p from rfl, hz, h2]
  simp only [Option.map_some, List.map_map, Option.some.injEq, Prod.mk.injEq, CD.mk.injEq, true_and, and_true]
  refine ⟨⟨List.map_congr_left fun p hp => ?_, congrArg List.sum (List.map_congr_left fun p hp => ?_)⟩,
    List.map_congr_left fun p hp => ?_⟩ <;> simp only [Function.comp] <;> rw [key p hp]

/-- The loop is undefined if the boxes of the polyhedra of the first marked pair do not intersect. -/
theorem fastLoop_none {V : VolGeo K} (W : ℕ → Frame K) {cs : List (CDCell K G)} (hn : (ptrs cs).Nodup)
    (hf : ∀ c ∈ cs, Fit c) (p : CDPair K × VolInfo K) (post : List (CDPair K × VolInfo K)) (S : List ℕ) {a b : CDCell K G}
    (ha : deref cs p.1.c0 = some a) (hb : deref cs p.1.c1 = some b) (hp : p.1.isCol = true)
    (hi : V.interBox (updatePH' W a).ph (updatePH' W b).ph = none) :
    ∀ pre : List (CDPair K × VolInfo K), (∀ q ∈ pre, q.1.isCol = false) →
      fastLoop V W false (pre ++ p :: post) (cs.map (rf (updatePH' W) S)) = none
  | [], _ => by
    rw [List.nil_append, fastLoop, if_pos hp]
    simp only [updPH_rf W hn hf ha, updPH_rf W hn hf hb, Option.bind_eq_bind,
        Option.bind_some, deref_rf (touchPH W) ha (S := p.1.c1 :: p.1.c0 :: S) (by simp),
        deref_rf (touchPH W) hb (S := p.1.c1 :: p.1.c0 :: S) (by simp), pairFast, hi]
    rfl
  | q :: pre, h => by
    rw [List.cons_append, fastLoop, if_neg (by simp [h q]),
      fastLoop_none W hn hf p post S ha hb hp hi pre fun q hq => h q (List.mem_cons_of_mem _ hq)]
    rfl

end CD
end Roki
