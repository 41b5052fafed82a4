import Verif.Lemmas.CD
set_option autoImplicit false

/-!
# The queries of the collision detector in closed form
-/

namespace Roki
variable {K : Type*} [Field K] {G : CDGeo K}

namespace CD
open Spec

/-- The axis-aligned box that a query is to use. -/
def seenAABB (W : ℕ → Frame K) (c : CDCell K G) : G.AABox :=
  if c.stat then c.aabb else G.toAABB (G.boxX c.bb (W c.link))

/-- The cell with the polyhedron that a query is to use. -/
def seen (W : ℕ → Frame K) (c : CDCell K G) : CDCell K G := { c with ph := seenPH W c }

/-- `rkCDReset` on a cell. -/
def resetC (c : CDCell K G) : CDCell K G := { c with phUpd := false, bbUpd := false }
/-- `rkCDReset` on a pair. -/
def resetP (p : CDPair K) : CDPair K := { p with isCol := false, colvol := PH.empty }

/-- The results of the three tests for a pair. -/
def resAABB (W : ℕ → Frame K) (cs : List (CDCell K G)) (p : CDPair K) : Bool :=
  withCells cs (fun _ => false) (fun _ a b => G.colAABB (seenAABB W a) (seenAABB W b)) p
@[inherit_doc resAABB] def resBox (W : ℕ → Frame K) (cs : List (CDCell K G)) (p : CDPair K) : Bool :=
  withCells cs (fun _ => false) (fun _ a b => G.colBox (seenBox W a) (seenBox W b)) p
@[inherit_doc resAABB] def resPH (W : ℕ → Frame K) (cs : List (CDCell K G)) (p : CDPair K) : Bool :=
  withCells cs (fun _ => false) (fun _ a b => G.colPH (seenPH W a) (seenPH W b)) p

/-- A pair with the result of a query. -/
def markP (r : Bool) (p : CDPair K) : CDPair K := { p with isCol := r, colvol := PH.empty }

theorem updateBB_resetC (W : ℕ → Frame K) (c : CDCell K G) :
    (updateBB W (resetC c)).aabb = seenAABB W c ∧ (updateBB W (resetC c)).obb = seenBox W c := by
  cases h : c.stat <;> simp [updateBB, resetC, seenAABB, seenBox, h]

/-- What is needed for the queries to be defined. -/
structure Ready (cd : CD K G) : Prop where
  nodup : (ptrs cd.cells).Nodup
  live : ∀ p ∈ cd.pairs, Live cd.cells p

theorem Live.map {cs : List (CDCell K G)} {p : CDPair K} (h : Live cs p) {g : CDCell K G → CDCell K G}
    (hg : ∀ c, (g c).ptr = c.ptr) : Live (cs.map g) p := by
  obtain ⟨a, b, ha, hb⟩ := h
  exact ⟨g a, g b, by rw [deref_map hg, ha]; rfl, by rw [deref_map hg, hb]; rfl⟩

theorem colChkAABB_eq (W : ℕ → Frame K) {cd : CD K G} (h : Ready cd) (hp : cd.pairs ≠ []) :
    ∃ S, colChkAABB W cd = some { cd with
        cells := (cd.cells.map resetC).map (rf (updateBB W) S),
        pairs := cd.pairs.map fun p => markP (resAABB W cd.cells p) p } ∧
      ∀ p ∈ cd.pairs, p.c0 ∈ S ∧ p.c1 ∈ S := by
  have hn : (ptrs (cd.cells.map resetC)).Nodup := by rw [ptrs_map (u := resetC) (fun _ => rfl)]; exact h.nodup
  have hl : ∀ p ∈ cd.pairs.map resetP, Live (cd.cells.map resetC) p := by
    intro p hp
    obtain ⟨q, hq, rfl⟩ := List.mem_map.1 hp
    exact (h.live q hq).map (g := resetC) fun _ => rfl
  obtain ⟨S, h1, h2⟩ := forPairs_closed (cond := fun _ => true) (cd.pairs.map resetP) []
    fun p hp S => aabbBody_eq W hn (hl p hp) S
  refine ⟨S, ?_, fun p hp => ?_⟩
  · rw [colChkAABB, if_neg (by simpa using hp), runPairs]
    rw [rf_nil] at h1
    change Option.map _ (forPairs (aabbBody W) (cd.pairs.map resetP) (cd.cells.map resetC)) = _
    rw [h1]
    simp only [Option.map_some, reset, Option.some.injEq, CD.mk.injEq, true_and, and_true, List.map_map]
    refine List.map_congr_left fun p hp => ?_
    obtain ⟨a, b, ha, hb⟩ := h.live p hp
    have ha' : deref (cd.cells.map resetC) (resetP p).c0 = some (resetC a) := by
      rw [deref_map (g := resetC) (fun _ => rfl)]; simp [resetP, ha]
    have hb' : deref (cd.cells.map resetC) (resetP p).c1 = some (resetC b) := by
      rw [deref_map (g := resetC) (fun _ => rfl)]; simp [resetP, hb]
    simp only [Function.comp, withCells_eq ha' hb', resAABB, withCells_eq ha hb, (updateBB_resetC W a).1,
      (updateBB_resetC W b).1]
    cases G.colAABB (seenAABB W a) (seenAABB W b) <;> simp [resetP, markP]
  · constructor <;> refine (h2 _).2 (.inr ⟨resetP p, List.mem_map_of_mem hp, rfl, ?_⟩)
    · exact .inl rfl
    · exact .inr rfl

theorem colChkOBB_eq (W : ℕ → Frame K) {cd : CD K G} (h : Ready cd) (hp : cd.pairs ≠ []) :
    ∃ S, colChkOBB W cd = some { cd with
        cells := (cd.cells.map resetC).map (rf (updateBB W) S),
        pairs := cd.pairs.map fun p => markP (resAABB W cd.cells p && resBox W cd.cells p) p } ∧
      ∀ p ∈ cd.pairs, p.c0 ∈ S ∧ p.c1 ∈ S := by
  obtain ⟨S, h1, h2⟩ := colChkAABB_eq W h hp
  refine ⟨S, ?_, h2⟩
  have e : ∀ p ∈ cd.pairs, Live ((cd.cells.map resetC).map (rf (updateBB W) S)) p := fun p hp =>
    ((h.live p hp).map (g := resetC) fun _ => rfl).map (rf_ptr (touchBB W) S)
  obtain ⟨T, h3, -⟩ := forPairs_closed (cond := fun _ => false) (u := id)
    (cs := (cd.cells.map resetC).map (rf (updateBB W) S))
    (cd.pairs.map fun p => markP (resAABB W cd.cells p) p) [] (body := obbBody)
    (F := withCells ((cd.cells.map resetC).map (rf (updateBB W) S)) (fun p => (p, 0)) (fun p a b =>
        ({ p with isCol := p.isCol && G.colBox a.obb b.obb }, 0))) (by
      intro p hp U
      have hid : ∀ cs : List (CDCell K G), cs.map (rf id U) = cs := fun cs => by
        rw [show rf (id : CDCell K G → _) U = id from funext fun c => by simp [rf]]; simp
      rw [hid]
      obtain ⟨q, hq, rfl⟩ := List.mem_map.1 hp
      simpa [hid] using obbBody_eq (p := markP (resAABB W cd.cells q) q) (e q hq))
  have hid : ∀ cs : List (CDCell K G), cs.map (rf id T) = cs := fun cs => by
    rw [show rf (id : CDCell K G → _) T = id from funext fun c => by simp [rf]]; simp
  rw [rf_nil, hid] at h3
  rw [colChkOBB, h1, Option.bind_some, runPairs, h3]
  simp only [Option.map_some, Option.some.injEq, CD.mk.injEq, true_and, and_true, List.map_map]
  refine List.map_congr_left fun p hp => ?_
  obtain ⟨a, b, ha, hb⟩ := h.live p hp
  have d : ∀ {x c}, deref cd.cells x = some c → x ∈ S →
      deref ((cd.cells.map resetC).map (rf (updateBB W) S)) x = some (updateBB W (resetC c)) := fun hc hx =>
    deref_rf (touchBB W) (by rw [deref_map (g := resetC) (fun _ => rfl), hc]; rfl) hx
  have ha' := d ha (h2 p hp).1
  have hb' := d hb (h2 p hp).2
  rw [List.map_map] at ha' hb'
  rw [Function.comp, withCells_eq (p := markP _ p) ha' hb']
  simp only [markP, resBox, withCells_eq ha hb, (updateBB_resetC W a).2, (updateBB_resetC W b).2]

/-- The cells after the box tests. -/
def boxed (W : ℕ → Frame K) (S : List ℕ) (c : CDCell K G) : CDCell K G := rf (updateBB W) S (resetC c)

theorem boxed_ptr (W : ℕ → Frame K) (S : List ℕ) (c : CDCell K G) : (boxed W S c).ptr = c.ptr :=
  rf_ptr (touchBB W) S _

theorem boxed_rest (W : ℕ → Frame K) (S : List ℕ) (c : CDCell K G) : (boxed W S c).ph = c.ph ∧
    (boxed W S c).ph0 = c.ph0 ∧ (boxed W S c).phUpd = false ∧ (boxed W S c).stat = c.stat ∧
    (boxed W S c).link = c.link := by
  unfold boxed rf updateBB; split_ifs <;> simp [resetC]

theorem boxed_fit (W : ℕ → Frame K) (S : List ℕ) {c : CDCell K G} (h : Fit c) : Fit (boxed W S c) := by
  obtain ⟨h1, h2, -⟩ := boxed_rest W S c
  unfold Fit; rw [h1, h2]; exact h

theorem map_boxed (W : ℕ → Frame K) (S : List ℕ) (cs : List (CDCell K G)) :
    (cs.map resetC).map (rf (updateBB W) S) = cs.map (boxed W S) := by rw [List.map_map]; rfl

theorem boxed_seen (W : ℕ → Frame K) (S : List ℕ) (c : CDCell K G) :
    (updatePH' W (boxed W S c)).ph = seenPH W c ∧ (updatePH' W (boxed W S c)).ptr = c.ptr ∧
    (updatePH' W (boxed W S c)).link = c.link := by
  obtain ⟨h1, h2, h3, h4, h5⟩ := boxed_rest W S c
  have h6 := boxed_ptr W S c
  cases h : c.stat <;> simp [updatePH', h1, h2, h3, h4, h5, h6, h, seenPH]

/-- A second pass after the box tests, over the pairs that passed them. -/
theorem second_eq (W : ℕ → Frame K) {cd : CD K G} (h : Ready cd) (hf : ∀ c ∈ cd.cells, Fit c) (S : List ℕ)
    {body : CDPair K → List (CDCell K G) → Option ((CDPair K × ℕ) × List (CDCell K G))}
    {f : CDPair K → CDCell K G → CDCell K G → CDPair K × ℕ} (r : CDPair K → Bool)
    (hb : ∀ {cs : List (CDCell K G)}, (ptrs cs).Nodup → (∀ c ∈ cs, Fit c) → ∀ {p : CDPair K}, Live cs p → ∀ U,
      body p (cs.map (rf (updatePH' W) U)) = some (withCells cs (fun p => (p, 0)) (fun p a b =>
        f p (updatePH' W a) (updatePH' W b)) p,
        cs.map (rf (updatePH' W) (if p.isCol then p.c1 :: p.c0 :: U else U))))
    (hg : ∀ p a b, f p (updatePH' W (boxed W S a)) (updatePH' W (boxed W S b)) = f p (seen W a) (seen W b)) :
    ∃ T, forPairs body (cd.pairs.map fun p => markP (r p) p) (cd.cells.map (boxed W S)) =
      some (((cd.pairs.map fun p => (withCells cd.cells (fun p => (p, 0))
          (fun p a b => f (markP (r p) p) (seen W a) (seen W b)) p).1),
        (cd.pairs.map fun p => (withCells cd.cells (fun p => (p, 0))
          (fun p a b => f (markP (r p) p) (seen W a) (seen W b)) p).2).sum),
        (cd.cells.map (boxed W S)).map (rf (updatePH' W) T)) := by
  have hn : (ptrs (cd.cells.map (boxed W S))).Nodup := by rw [ptrs_map (boxed_ptr W S)]; exact h.nodup
  have hfit : ∀ c ∈ cd.cells.map (boxed W S), Fit c := by
    intro c hc
    obtain ⟨d, hd, rfl⟩ := List.mem_map.1 hc
    exact boxed_fit W S (hf d hd)
  obtain ⟨T, h1, -⟩ := forPairs_closed (cond := fun p => p.isCol) (cd.pairs.map fun p => markP (r p) p) []
    (fun p hp U => hb hn hfit (p := p) (by
      obtain ⟨q, hq, rfl⟩ := List.mem_map.1 hp
      exact (h.live q hq).map (boxed_ptr W S)) U)
  rw [rf_nil] at h1
  refine ⟨T, ?_⟩
  rw [h1, List.map_map, List.map_map]
  have key : ∀ p ∈ cd.pairs, withCells (cd.cells.map (boxed W S)) (fun p => (p, 0)) (fun p a b =>
        f p (updatePH' W a) (updatePH' W b)) (markP (r p) p) = withCells cd.cells (fun p => (p, 0))
          (fun p a b => f (markP (r p) p) (seen W a) (seen W b)) p := by
    intro p hp
    obtain ⟨a, b, ha, hb⟩ := h.live p hp
    rw [withCells_eq ha hb, withCells_eq (p := markP (r p) p) (a := boxed W S a) (b := boxed W S b)
      (by rw [deref_map (boxed_ptr W S)]; simp [markP, ha]) (by rw [deref_map (boxed_ptr W S)]; simp [markP, hb]), hg]
  congr 3
  · exact List.map_congr_left fun p hp => by rw [Function.comp, key p hp]
  · exact congrArg List.sum (List.map_congr_left fun p hp => by rw [Function.comp, key p hp])

theorem colChkGJK_eq (W : ℕ → Frame K) {cd : CD K G} (h : Ready cd) (hf : ∀ c ∈ cd.cells, Fit c)
    (hp : cd.pairs ≠ []) :
    ∃ S T, colChkGJK W cd = some { cd with
        cells := (cd.cells.map (boxed W S)).map (rf (updatePH' W) T),
        pairs := cd.pairs.map fun p =>
          markP (resAABB W cd.cells p && resBox W cd.cells p && resPH W cd.cells p) p } := by
  obtain ⟨S, h1, -⟩ := colChkOBB_eq W h hp
  obtain ⟨T, h2⟩ := second_eq W h hf S (fun p => resAABB W cd.cells p && resBox W cd.cells p) (body := gjkBody W)
    (f := fun p a b => ({ p with isCol := p.isCol && G.colPH a.ph b.ph }, 0))
    (fun hn hf _ hp U => gjkBody_eq W hn hf hp U)
    (by intro p a b; simp [(boxed_seen W S a).1, (boxed_seen W S b).1, seen])
  refine ⟨S, T, ?_⟩
  rw [map_boxed] at h1
  rw [colChkGJK, h1, Option.bind_some, runPairs, h2]
  simp only [Option.map_some, Option.some.injEq, CD.mk.injEq, true_and, and_true]
  refine List.map_congr_left fun p hp => ?_
  obtain ⟨a, b, ha, hb⟩ := h.live p hp
  simp [withCells_eq ha hb, markP, resPH, seen]

theorem colChkGJKOnly_eq (W : ℕ → Frame K) {cd : CD K G} (h : Ready cd) (hf : ∀ c ∈ cd.cells, Fit c)
    (hp : cd.pairs ≠ []) :
    ∃ T, colChkGJKOnly W cd = some { cd with
        cells := (cd.cells.map resetC).map (rf (updatePH' W) T),
        pairs := cd.pairs.map fun p => markP (resPH W cd.cells p) p } := by
  have hn : (ptrs (cd.cells.map resetC)).Nodup := by rw [ptrs_map (u := resetC) (fun _ => rfl)]; exact h.nodup
  have hfit : ∀ c ∈ cd.cells.map resetC, Fit c := by
    intro c hc
    obtain ⟨d, hd, rfl⟩ := List.mem_map.1 hc
    exact hf d hd
  have hl : ∀ p ∈ cd.pairs.map resetP, Live (cd.cells.map resetC) p := by
    intro p hp
    obtain ⟨q, hq, rfl⟩ := List.mem_map.1 hp
    exact (h.live q hq).map (g := resetC) fun _ => rfl
  obtain ⟨T, h1, -⟩ := forPairs_closed (cond := fun _ => true) (cd.pairs.map resetP) []
    fun p hp S => gjkOnlyBody_eq W hn hfit (hl p hp) S
  refine ⟨T, ?_⟩
  rw [colChkGJKOnly, if_neg (by simpa using hp), runPairs]
  rw [rf_nil] at h1
  change Option.map _ (forPairs (gjkOnlyBody W) (cd.pairs.map resetP) (cd.cells.map resetC)) = _
  rw [h1]
  simp only [Option.map_some, reset, Option.some.injEq, CD.mk.injEq, true_and, and_true, List.map_map]
  refine List.map_congr_left fun p hp => ?_
  obtain ⟨a, b, ha, hb⟩ := h.live p hp
  have ha' : deref (cd.cells.map resetC) (resetP p).c0 = some (resetC a) := by
    rw [deref_map (g := resetC) (fun _ => rfl)]; simp [resetP, ha]
  have hb' : deref (cd.cells.map resetC) (resetP p).c1 = some (resetC b) := by
    rw [deref_map (g := resetC) (fun _ => rfl)]; simp [resetP, hb]
  have e : ∀ c : CDCell K G, (updatePH' W (resetC c)).ph = seenPH W c := fun c => by
    cases h : c.stat <;> simp [updatePH', resetC, seenPH, h]
  simp only [Function.comp, withCells_eq ha' hb', resPH, withCells_eq ha hb, e]
  cases G.colPH (seenPH W a) (seenPH W b) <;> simp [resetP, markP]

theorem vertsIn_congr (W : ℕ → Frame K) (t : Fric) (old : List (CDVert K)) {a a' b b' : CDCell K G}
    (h1 : a.ph = a'.ph) (h2 : a.ptr = a'.ptr) (h3 : b.ph = b'.ph) (h4 : b.link = b'.link) :
    vertsIn W t old a b = vertsIn W t old a' b' := by
  simp only [vertsIn, vertReg, h1, h2, h3, h4]

theorem colChkVert_eq (W : ℕ → Frame K) {cd : CD K G} (h : Ready cd) (hf : ∀ c ∈ cd.cells, Fit c)
    (hp : cd.pairs ≠ []) :
    ∃ S T, colChkVert W cd = some { cd with
        cells := (cd.cells.map (boxed W S)).map (rf (updatePH' W) T),
        pairs := cd.pairs.map fun p => (withCells cd.cells (fun p => (p, 0)) (fun p a b =>
          if resAABB W cd.cells p && resBox W cd.cells p then
            pairVert W cd.defType (markP true p) (seen W a) (seen W b)
          else ({ markP false p with vlist := [] }, 0)) p).1,
        colnum := (cd.pairs.map fun p => (withCells cd.cells (fun p => (p, 0)) (fun p a b =>
          if resAABB W cd.cells p && resBox W cd.cells p then
            pairVert W cd.defType (markP true p) (seen W a) (seen W b)
          else ({ markP false p with vlist := [] }, 0)) p).2).sum } := by
  obtain ⟨S, h1, -⟩ := colChkOBB_eq W h hp
  obtain ⟨T, h2⟩ := second_eq W h hf S (fun p => resAABB W cd.cells p && resBox W cd.cells p)
    (body := vertBody W cd.defType)
    (f := fun p a b => if p.isCol then pairVert W cd.defType p a b else ({ p with vlist := [] }, 0))
    (fun hn hf _ hp U => vertBody_eq W _ hn hf hp U)
    (by
      intro p a b
      have ea := boxed_seen W S a
      have eb := boxed_seen W S b
      have e1 := vertsIn_congr W cd.defType p.vlist (a := updatePH' W (boxed W S a)) (a' := seen W a)
        (b := updatePH' W (boxed W S b)) (b' := seen W b) ea.1 ea.2.1 eb.1 eb.2.2
      have e2 := vertsIn_congr W cd.defType p.vlist (a := updatePH' W (boxed W S b)) (a' := seen W b)
        (b := updatePH' W (boxed W S a)) (b' := seen W a) eb.1 eb.2.1 ea.1 ea.2.2
      simp only [pairVert, e1, e2])
  refine ⟨S, T, ?_⟩
  rw [map_boxed] at h1
  rw [colChkVert, h1, Option.bind_some, countPairs, h2]
  have key : ∀ p ∈ cd.pairs, withCells cd.cells (fun p => (p, 0)) (fun p a b =>
      (fun p a b => if p.isCol then pairVert W cd.defType p a b else ({ p with vlist := [] }, 0))
        (markP (resAABB W cd.cells p && resBox W cd.cells p) p) (seen W a) (seen W b)) p =
      withCells cd.cells (fun p => (p, 0)) (fun p a b =>
          if resAABB W cd.cells p && resBox W cd.cells p then
            pairVert W cd.defType (markP true p) (seen W a) (seen W b)
          else ({ markP false p with vlist := [] }, 0)) p := by
    intro p hp
    obtain ⟨a, b, ha, hb⟩ := h.live p hp
    rw [withCells_eq ha hb, withCells_eq ha hb]
    cases resAABB W cd.cells p && resBox W cd.cells p <;> simp [markP]
  simp only [Option.map_some, Option.some.injEq, CD.mk.injEq, true_and, and_true]
  exact ⟨List.map_congr_left fun p hp => by rw [← key p hp],
    congrArg List.sum (List.map_congr_left fun p hp => by rw [← key p hp])⟩

theorem colVol_eq (W : ℕ → Frame K) {cd : CD K G} (h : Ready cd) (hf : ∀ c ∈ cd.cells, Fit c)
    (hp : cd.pairs ≠ []) :
    ∃ S T, colVol W cd = some { cd with
        cells := (cd.cells.map (boxed W S)).map (rf (updatePH' W) T),
        pairs := cd.pairs.map fun p => (withCells cd.cells (fun p => (p, 0)) (fun p a b =>
          if resAABB W cd.cells p && resBox W cd.cells p then
            match G.intersect (seenPH W a) (seenPH W b) with
            | none => (markP false p, 0)
            | some v => ({ markP true p with colvol := v }, 1)
          else (markP false p, 0)) p).1,
        colnum := (cd.pairs.map fun p => (withCells cd.cells (fun p => (p, 0)) (fun p a b =>
          if resAABB W cd.cells p && resBox W cd.cells p then
            match G.intersect (seenPH W a) (seenPH W b) with
            | none => (markP false p, 0)
            | some v => ({ markP true p with colvol := v }, 1)
          else (markP false p, 0)) p).2).sum } := by
  obtain ⟨S, h1, -⟩ := colChkOBB_eq W h hp
  obtain ⟨T, h2⟩ := second_eq W h hf S (fun p => resAABB W cd.cells p && resBox W cd.cells p)
    (body := volBody W)
    (f := fun p a b => if p.isCol then
          match G.intersect a.ph b.ph with
          | none => ({ p with isCol := false }, 0)
          | some v => ({ p with colvol := v }, 1)
        else (p, 0))
    (fun hn hf _ hp U => volBody_eq W hn hf hp U)
    (by intro p a b; simp only [(boxed_seen W S a).1, (boxed_seen W S b).1, seen])
  refine ⟨S, T, ?_⟩
  rw [map_boxed] at h1
  rw [colVol, h1, Option.bind_some, countPairs, h2]
  have key : ∀ p ∈ cd.pairs, withCells cd.cells (fun p => (p, 0)) (fun p a b =>
      (fun p a b => if p.isCol then
          match G.intersect a.ph b.ph with
          | none => ({ p with isCol := false }, 0)
          | some v => ({ p with colvol := v }, 1)
        else (p, 0))
        (markP (resAABB W cd.cells p && resBox W cd.cells p) p) (seen W a) (seen W b)) p =
      withCells cd.cells (fun p => (p, 0)) (fun p a b =>
          if resAABB W cd.cells p && resBox W cd.cells p then
            match G.intersect (seenPH W a) (seenPH W b) with
            | none => (markP false p, 0)
            | some v => ({ markP true p with colvol := v }, 1)
          else (markP false p, 0)) p := by
    intro p hp
    obtain ⟨a, b, ha, hb⟩ := h.live p hp
    rw [withCells_eq ha hb, withCells_eq ha hb]
    cases resAABB W cd.cells p && resBox W cd.cells p
    · simp [markP]
    · cases hi : G.intersect (seenPH W a) (seenPH W b) <;> simp [markP, seen, hi]
  simp only [Option.map_some, Option.some.injEq, CD.mk.injEq, true_and, and_true]
  exact ⟨List.map_congr_left fun p hp => by rw [← key p hp],
    congrArg List.sum (List.map_congr_left fun p hp => by rw [← key p hp])⟩

/-! ## Without pairs nothing happens -/

theorem queries_nil (W : ℕ → Frame K) {cd : CD K G} (hp : cd.pairs = []) :
    colChkAABB W cd = some cd ∧ colChkOBB W cd = some cd ∧ colChkGJK W cd = some cd ∧ colChkGJKOnly W cd = some cd ∧
    colChkVert W cd = some { cd with colnum := 0 } ∧ colVol W cd = some { cd with colnum := 0 } ∧
    colChkOBBVert W cd = some { cd with colnum := 0 } := by
  rcases cd with ⟨cs, ps, n, t, k⟩
  simp only at hp
  subst hp
  simp [colChkAABB, colChkOBB, colChkGJK, colChkGJKOnly, colChkVert, colVol, colChkOBBVert, runPairs, countPairs,
    forPairs]

end CD
end Roki
