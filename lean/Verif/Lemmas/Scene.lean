import Verif.Spec.Scene
import Verif.Lemmas.CDInv
import Verif.Lemmas.Vec
set_option autoImplicit false

/-! # A scene that is moved as a whole: lemmas -/

namespace Roki.Scene
open CD Spec
variable {K : Type*} [Field K] {G : CDGeo K} {X : Frame K}

theorem posed_posed (a : PH K) (f X : Frame K) : posed (posed a f) X = posed a (X.cascade f) := by
  simp only [posed, List.map_map]
  congr 1
  refine List.map_congr_left fun p _ => ?_
  rw [Function.comp, Frame.cascade_xform]

theorem xform_sub (X : Frame K) (a b : Vec3 K) : X.xform a - X.xform b = X.att.mulVec (a - b) := by
  simp only [Frame.xform]; ext <;> simp [Mat3.mulVec] <;> ring

theorem cascade_xformInv (hX : X.att.IsRot) (f : Frame K) (x : Vec3 K) : (X.cascade f).xformInv (X.xform x) = f.xformInv x := by
  have e : X.xform x - (X.cascade f).pos = X.att.mulVec (x - f.pos) := by
    simp only [Frame.xform, Frame.cascade]; ext <;> simp [Mat3.mulVec] <;> ring
  rw [Frame.xformInv, e, Frame.cascade_att, Mat3.mul_mulVecT, hX.mulVecT_mulVec, Frame.xformInv]

/-! ## Cells -/

/-- The poses of the moved scene. -/
abbrev moveW (X : Frame K) (W : ℕ → Frame K) : ℕ → Frame K := fun i => X.cascade (W i)

theorem moveCell_ptr (c : CDCell K G) : (moveCell X c).ptr = c.ptr := rfl

theorem deref_move (cs : List (CDCell K G)) (p : ℕ) : deref (cs.map (moveCell X)) p = (deref cs p).map (moveCell X) :=
  deref_map (g := moveCell X) (fun _ => rfl) cs p

theorem store_move (cs : List (CDCell K G)) (c : CDCell K G) :
    store (cs.map (moveCell X)) (moveCell X c) = (store cs c).map (moveCell X) := by
  simp only [store, List.map_map]
  refine List.map_congr_left fun d _ => ?_
  by_cases h : d.ptr = c.ptr
  · rw [Function.comp, Function.comp, if_pos h]; exact if_pos h
  · rw [Function.comp, Function.comp, if_neg h]; exact if_neg h

theorem updateBB_move (hG : Spatial G X) (W : ℕ → Frame K) (c : CDCell K G) :
    updateBB (moveW X W) (moveCell X c) = moveCell X (updateBB W c) := by
  have e : (moveCell X c).stat = c.stat ∧ (moveCell X c).bbUpd = c.bbUpd := ⟨rfl, rfl⟩
  unfold updateBB
  rw [e.1, e.2]
  split_ifs
  · rfl
  · simp only [moveCell, hG.boxX]

theorem xform_move (src : PH K) (f : Frame K) (dest : PH K) :
    src.xform (X.cascade f) (posed dest X) = (src.xform f dest).map fun a => posed a X := by
  unfold PH.xform
  have e : (posed dest X).vert.length = dest.vert.length := by simp [posed]
  rw [e]
  split_ifs
  · simp only [Option.map_some, posed, List.map_append, List.map_map, List.map_drop, Option.some.injEq, PH.mk.injEq, and_true]
    congr 1
    refine List.map_congr_left fun p _ => ?_
    rw [Function.comp, Frame.cascade_xform]
  · rfl

theorem updatePH_move (W : ℕ → Frame K) (c : CDCell K G) :
    updatePH (moveW X W) (moveCell X c) = (updatePH W c).map (moveCell X) := by
  have e : (moveCell X c).stat = c.stat ∧ (moveCell X c).phUpd = c.phUpd := ⟨rfl, rfl⟩
  unfold updatePH
  rw [e.1, e.2]
  split_ifs
  · rfl
  · show Option.map _ (c.ph0.xform (X.cascade (W c.link)) (posed c.ph X)) = _
    rw [xform_move, Option.map_map, Option.map_map]
    rfl

theorem updBB_move (hG : Spatial G X) (W : ℕ → Frame K) (cs : List (CDCell K G)) (p : ℕ) :
    updBB (moveW X W) (cs.map (moveCell X)) p = (updBB W cs p).map (List.map (moveCell X)) := by
  rw [updBB, updBB, deref_move, Option.map_map, Option.map_map]
  congr 1
  funext c
  simp only [Function.comp, updateBB_move hG, store_move]

theorem updPH_move (W : ℕ → Frame K) (cs : List (CDCell K G)) (p : ℕ) :
    updPH (moveW X W) (cs.map (moveCell X)) p = (updPH W cs p).map (List.map (moveCell X)) := by
  rw [updPH, updPH, deref_move, Option.bind_map, Option.map_bind]
  congr 1
  funext c
  simp only [Function.comp, updatePH_move, Option.map_map]
  congr 1
  funext d
  simp only [Function.comp, store_move]

/-! ## Loops over the pairs -/

/-- The body of a loop in the two scenes. -/
def SimBody (X : Frame K) (R R' : CDPair K → CDPair K → Prop)
    (b b' : CDPair K → List (CDCell K G) → Option ((CDPair K × ℕ) × List (CDCell K G))) : Prop :=
  ∀ p q cs p' n cs', R p q → b p cs = some ((p', n), cs') →
    ∃ q', b' q (cs.map (moveCell X)) = some ((q', n), cs'.map (moveCell X)) ∧ R' p' q'

theorem forPairs_sim {R R' : CDPair K → CDPair K → Prop} {b b' : CDPair K → List (CDCell K G) → Option ((CDPair K × ℕ) × List (CDCell K G))}
    (hb : SimBody X R R' b b') {ps qs : List (CDPair K)} (h : List.Forall₂ R ps qs) :
    ∀ (cs : List (CDCell K G)) (ps' : List (CDPair K)) (n : ℕ) (cs' : List (CDCell K G)), forPairs b ps cs = some ((ps', n), cs') →
      ∃ qs', forPairs b' qs (cs.map (moveCell X)) = some ((qs', n), cs'.map (moveCell X)) ∧ List.Forall₂ R' ps' qs' := by
  induction h with
  | nil =>
    intro cs ps' n cs' h
    simp only [forPairs, Option.some.injEq, Prod.mk.injEq] at h
    obtain ⟨⟨rfl, rfl⟩, rfl⟩ := h
    exact ⟨[], rfl, .nil⟩
  | @cons p q ps qs hpq _ ih =>
    intro cs ps' n cs' h
    simp only [forPairs, Option.bind_eq_bind, Option.pure_def, Option.bind_eq_some_iff] at h
    obtain ⟨⟨⟨p1, n1⟩, cs1⟩, h1, ⟨⟨ps2, n2⟩, cs2⟩, h2, h3⟩ := h
    simp only [Option.some.injEq, Prod.mk.injEq] at h3
    obtain ⟨⟨rfl, rfl⟩, rfl⟩ := h3
    obtain ⟨q1, e1, r1⟩ := hb p q cs p1 n1 cs1 hpq h1
    obtain ⟨qs2, e2, r2⟩ := ih cs1 ps2 n2 cs2 h2
    exact ⟨q1 :: qs2, by simp only [forPairs, e1, e2, Option.bind_eq_bind, Option.bind_some, Option.pure_def], .cons r1 r2⟩

/-- The pairs agree except for their marks. -/
def Pre (X : Frame K) (p q : CDPair K) : Prop := MovedPair X p { q with isCol := p.isCol }

theorem Pre.of {p q : CDPair K} (h : MovedPair X p q) : Pre X p q := ⟨h.c0, h.c1, rfl, h.vlist, h.colvol⟩

theorem Pre.mark {p q : CDPair K} (h : Pre X p q) (b c : Bool) : Pre X { p with isCol := b } { q with isCol := c } :=
  ⟨h.c0, h.c1, rfl, h.vlist, h.colvol⟩

theorem sim_aabb (hG : Spatial G X) (W : ℕ → Frame K) : SimBody X (Pre X) (Pre X) (aabbBody (G := G) W) (aabbBody (moveW X W)) := by
  intro p q cs p' n cs' h e
  simp only [aabbBody, Option.bind_eq_bind, Option.pure_def, Option.bind_eq_some_iff] at e
  obtain ⟨c1, e1, c2, e2, a, e3, b, e4, e5⟩ := e
  simp only [Option.some.injEq, Prod.mk.injEq] at e5
  obtain ⟨⟨rfl, rfl⟩, rfl⟩ := e5
  have h0 : q.c0 = p.c0 := h.c0
  have h1 : q.c1 = p.c1 := h.c1
  refine ⟨if G.colAABB (moveCell X a).aabb (moveCell X b).aabb then { q with isCol := true } else q, ?_, ?_⟩
  · simp only [aabbBody, h0, h1, updBB_move hG, e1, Option.map_some, Option.bind_eq_bind, Option.bind_some, e2, deref_move, e3, e4,
      Option.pure_def]
  · split_ifs
    · exact h.mark _ _
    · exact h.mark true q.isCol
    · exact h.mark p.isCol true
    · exact h

theorem obb_cells {ps : List (CDPair K)} : ∀ {cs : List (CDCell K G)} {r : (List (CDPair K) × ℕ) × List (CDCell K G)},
    forPairs obbBody ps cs = some r → r.2 = cs := by
  induction ps with
  | nil => intro cs r h; simp only [forPairs, Option.some.injEq] at h; rw [← h]
  | cons p ps ih =>
    intro cs r h
    simp only [forPairs, Option.bind_eq_bind, Option.pure_def, Option.bind_eq_some_iff] at h
    obtain ⟨⟨⟨p1, n1⟩, cs1⟩, h1, ⟨⟨ps2, n2⟩, cs2⟩, h2, h3⟩ := h
    have e1 : cs1 = cs := by
      unfold obbBody at h1
      split_ifs at h1
      · simp only [Option.bind_eq_bind, Option.pure_def, Option.bind_eq_some_iff] at h1
        obtain ⟨a, -, b, -, h1⟩ := h1
        simp only [Option.some.injEq, Prod.mk.injEq] at h1
        exact h1.2.symm
      · simp only [Option.some.injEq, Prod.mk.injEq] at h1
        exact h1.2.symm
    have e2 := ih h2
    simp only [Option.some.injEq] at h3
    rw [← h3, ← e1]; exact e2

/-! ## The box tests -/

theorem forall₂_map {α β γ δ : Type*} {R : α → β → Prop} {S : γ → δ → Prop} {f : α → γ} {g : β → δ} {l : List α} {m : List β}
    (h : List.Forall₂ R l m) (hf : ∀ a ∈ l, ∀ b ∈ m, R a b → S (f a) (g b)) : List.Forall₂ S (l.map f) (m.map g) := by
  induction h with
  | nil => exact .nil
  | cons h _ ih =>
    exact .cons (hf _ (by simp) _ (by simp) h) (ih fun a ha b hb => hf a (by simp [ha]) b (by simp [hb]))

theorem seenBox_move (hG : Spatial G X) (W : ℕ → Frame K) (c : CDCell K G) :
    seenBox (moveW X W) (moveCell X c) = G.boxX (seenBox W c) X := by
  unfold seenBox
  rw [show (moveCell X c).stat = c.stat from rfl]
  split_ifs
  · rfl
  · rw [hG.boxX]; rfl

theorem seenPH_move (W : ℕ → Frame K) (c : CDCell K G) : seenPH (moveW X W) (moveCell X c) = posed (seenPH W c) X := by
  unfold seenPH
  rw [show (moveCell X c).stat = c.stat from rfl]
  split_ifs
  · rfl
  · rw [posed_posed]; rfl

theorem seenAABB_good {W : ℕ → Frame K} {c : CDCell K G} (h : Good c) : seenAABB W c = G.toAABB (seenBox W c) := by
  obtain ⟨f, -, h2⟩ := h.obb
  unfold seenAABB seenBox; split_ifs
  · exact h2
  · rfl

/-- What is known of a detector and of that of the moved scene. -/
structure Both (X : Frame K) (cd cd' : CD K G) : Prop where
  moved : MovedCD X cd cd'
  inv : Inv cd
  good : ∀ c ∈ cd.cells, Good c
  inv' : Inv cd'
  good' : ∀ c ∈ cd'.cells, Good c

theorem marks_move (hG : Spatial G X) {cd cd' : CD K G} (h : Both X cd cd') (W : ℕ → Frame K) {p q : CDPair K} (hp : p ∈ cd.pairs)
    (hq : q ∈ cd'.pairs) (r : MovedPair X p q) :
    (resAABB (moveW X W) cd'.cells q && resBox (moveW X W) cd'.cells q) = (resAABB W cd.cells p && resBox W cd.cells p) ∧
    resPH (moveW X W) cd'.cells q = resPH W cd.cells p ∧
    ((∀ a b, G.colAABB (G.toAABB (G.boxX a X)) (G.toAABB (G.boxX b X)) = G.colAABB (G.toAABB a) (G.toAABB b)) →
      resAABB (moveW X W) cd'.cells q = resAABB W cd.cells p) := by
  obtain ⟨a, b, ha, hb⟩ := h.inv.live p hp
  have ha' : deref cd'.cells q.c0 = some (moveCell X a) := by rw [h.moved.cells, deref_move, r.c0, ha]; rfl
  have hb' : deref cd'.cells q.c1 = some (moveCell X b) := by rw [h.moved.cells, deref_move, r.c1, hb]; rfl
  have ga := seenAABB_good (W := W) (h.good a (deref_mem ha).1)
  have gb := seenAABB_good (W := W) (h.good b (deref_mem hb).1)
  have ga' := seenAABB_good (W := moveW X W) (h.good' _ (deref_mem ha').1)
  have gb' := seenAABB_good (W := moveW X W) (h.good' _ (deref_mem hb').1)
  simp only [resAABB, resBox, resPH, withCells_eq ha hb, withCells_eq ha' hb', ga, gb, ga', gb', seenBox_move hG, seenPH_move,
    hG.colBox, hG.colPH]
  refine ⟨?_, trivial, fun e => e _ _⟩
  cases hc : G.colBox (seenBox W a) (seenBox W b)
  · simp
  · rw [hG.enclose _ _ hc, hG.enclose _ _ (by rw [hG.colBox]; exact hc)]

theorem reset_cells (cd : CD K G) : cd.reset.cells = cd.cells.map resetC := rfl
theorem reset_pairs (cd : CD K G) : cd.reset.pairs = cd.pairs.map resetP := rfl

theorem resetC_move (c : CDCell K G) : resetC (moveCell X c) = moveCell X (resetC c) := rfl

theorem posed_empty (X : Frame K) : posed (PH.empty : PH K) X = PH.empty := rfl

theorem moved_markP {p q : CDPair K} (h : MovedPair X p q) (b : Bool) : MovedPair X (markP b p) (markP b q) :=
  ⟨h.c0, h.c1, rfl, h.vlist, (posed_empty X).symm⟩

theorem reset_move {cd cd' : CD K G} (h : MovedCD X cd cd') : cd'.reset.cells = cd.reset.cells.map (moveCell X) ∧
    List.Forall₂ (Pre X) cd.reset.pairs cd'.reset.pairs ∧ List.Forall₂ (MovedPair X) cd.reset.pairs cd'.reset.pairs := by
  have hm : List.Forall₂ (MovedPair X) cd.reset.pairs cd'.reset.pairs := by
    rw [reset_pairs, reset_pairs]
    exact forall₂_map h.pairs fun p _ q _ r => ⟨r.c0, r.c1, rfl, r.vlist, (posed_empty X).symm⟩
  refine ⟨?_, hm.imp fun _ _ => Pre.of, hm⟩
  rw [reset_cells, reset_cells, h.cells, List.map_map, List.map_map]
  rfl

theorem pairs_nil {cd cd' : CD K G} (h : MovedCD X cd cd') : cd.pairs = [] ↔ cd'.pairs = [] := by
  rw [← List.length_eq_zero_iff, ← List.length_eq_zero_iff, h.pairs.length_eq]

theorem aabb_cells (hG : Spatial G X) (W : ℕ → Frame K) {cd cd' c1 c1' : CD K G} (h : MovedCD X cd cd') (e : colChkAABB W cd = some c1)
    (e' : colChkAABB (moveW X W) cd' = some c1') : c1'.cells = c1.cells.map (moveCell X) := by
  unfold colChkAABB at e e'
  by_cases hp : cd.pairs = []
  · rw [if_pos (by simp [hp])] at e
    rw [if_pos (by simp [(pairs_nil h).1 hp])] at e'
    rw [← Option.some.inj e, ← Option.some.inj e']
    exact h.cells
  · rw [if_neg (by simpa using hp)] at e
    rw [if_neg (by simpa using fun hq => hp ((pairs_nil h).2 hq))] at e'
    obtain ⟨m1, m2, -⟩ := reset_move h
    rw [runPairs, Option.map_eq_some_iff] at e e'
    obtain ⟨⟨⟨ps, n⟩, cs⟩, e1, e2⟩ := e
    obtain ⟨r', e1', e2'⟩ := e'
    obtain ⟨qs, e3, -⟩ := forPairs_sim (sim_aabb hG W) m2 _ _ _ _ e1
    rw [← m1, e1'] at e3
    rw [← e2, ← e2', Option.some.inj e3]

theorem obb_fst {W : ℕ → Frame K} {cd c1 : CD K G} (e : colChkOBB W cd = some c1) :
    ∃ c0, colChkAABB W cd = some c0 ∧ c1.cells = c0.cells := by
  unfold colChkOBB at e
  obtain ⟨c0, e1, e2⟩ := Option.bind_eq_some_iff.1 e
  rw [runPairs, Option.map_eq_some_iff] at e2
  obtain ⟨r, e3, e4⟩ := e2
  exact ⟨c0, e1, by rw [← e4]; exact obb_cells e3⟩

theorem move_aabb (hG : Spatial G X) (W : ℕ → Frame K)
    (hA : ∀ a b, G.colAABB (G.toAABB (G.boxX a X)) (G.toAABB (G.boxX b X)) = G.colAABB (G.toAABB a) (G.toAABB b))
    {cd cd' : CD K G} (h : Both X cd cd') :
    ∃ c1 c1', colChkAABB W cd = some c1 ∧ colChkAABB (moveW X W) cd' = some c1' ∧ MovedCD X c1 c1' := by
  by_cases hp : cd.pairs = []
  · exact ⟨cd, cd', (queries_nil W hp).1, (queries_nil _ ((pairs_nil h.moved).1 hp)).1, h.moved⟩
  · have hp' : cd'.pairs ≠ [] := fun e => hp ((pairs_nil h.moved).2 e)
    obtain ⟨S, e, -⟩ := colChkAABB_eq W h.inv.ready hp
    obtain ⟨S', e', -⟩ := colChkAABB_eq (moveW X W) h.inv'.ready hp'
    have hc := aabb_cells hG W h.moved e e'
    refine ⟨_, _, e, e', hc, ?_, h.moved.colnum, h.moved.defType, h.moved.next⟩
    refine forall₂_map h.moved.pairs fun p mp q mq r => ?_
    rw [(marks_move hG h W mp mq r).2.2 hA]
    exact moved_markP r _

theorem move_obb (hG : Spatial G X) (W : ℕ → Frame K) {cd cd' : CD K G} (h : Both X cd cd') :
    ∃ c1 c1', colChkOBB W cd = some c1 ∧ colChkOBB (moveW X W) cd' = some c1' ∧ MovedCD X c1 c1' := by
  by_cases hp : cd.pairs = []
  · exact ⟨cd, cd', (queries_nil W hp).2.1, (queries_nil _ ((pairs_nil h.moved).1 hp)).2.1, h.moved⟩
  · have hp' : cd'.pairs ≠ [] := fun e => hp ((pairs_nil h.moved).2 e)
    obtain ⟨S, e, -⟩ := colChkOBB_eq W h.inv.ready hp
    obtain ⟨S', e', -⟩ := colChkOBB_eq (moveW X W) h.inv'.ready hp'
    obtain ⟨c0, f1, f2⟩ := obb_fst e
    obtain ⟨c0', f1', f2'⟩ := obb_fst e'
    have hc := aabb_cells hG W h.moved f1 f1'
    rw [← f2, ← f2'] at hc
    refine ⟨_, _, e, e', hc, ?_, h.moved.colnum, h.moved.defType, h.moved.next⟩
    refine forall₂_map h.moved.pairs fun p mp q mq r => ?_
    rw [(marks_move hG h W mp mq r).1]
    exact moved_markP r _

/-! ## The other loops -/

theorem sim_gjk (hG : Spatial G X) (W : ℕ → Frame K) :
    SimBody X (MovedPair X) (MovedPair X) (gjkBody (G := G) W) (gjkBody (moveW X W)) := by
  intro p q cs p' n cs' h e
  unfold gjkBody at e ⊢
  rw [h.isCol]
  by_cases hp : p.isCol = true
  · rw [if_pos hp] at e ⊢
    simp only [Option.bind_eq_bind, Option.pure_def, Option.bind_eq_some_iff] at e
    obtain ⟨c1, e1, c2, e2, a, e3, b, e4, e5⟩ := e
    simp only [Option.some.injEq, Prod.mk.injEq] at e5
    obtain ⟨⟨rfl, rfl⟩, rfl⟩ := e5
    refine ⟨if !G.colPH (moveCell X a).ph (moveCell X b).ph then { q with isCol := false } else q, ?_, ?_⟩
    · simp only [h.c0, h.c1, updPH_move, e1, Option.map_some, Option.bind_eq_bind, Option.bind_some, e2, deref_move, e3, e4,
        Option.pure_def]
    · rw [show G.colPH (moveCell X a).ph (moveCell X b).ph = G.colPH a.ph b.ph from hG.colPH _ _]
      split_ifs
      · exact ⟨h.c0, h.c1, rfl, h.vlist, h.colvol⟩
      · exact h
  · rw [if_neg hp] at e ⊢
    simp only [Option.some.injEq, Prod.mk.injEq] at e
    obtain ⟨⟨rfl, rfl⟩, rfl⟩ := e
    exact ⟨q, rfl, h⟩

theorem sim_gjkOnly (hG : Spatial G X) (W : ℕ → Frame K) :
    SimBody X (MovedPair X) (MovedPair X) (gjkOnlyBody (G := G) W) (gjkOnlyBody (moveW X W)) := by
  intro p q cs p' n cs' h e
  unfold gjkOnlyBody at e ⊢
  simp only [Option.bind_eq_bind, Option.pure_def, Option.bind_eq_some_iff] at e
  obtain ⟨c1, e1, c2, e2, a, e3, b, e4, e5⟩ := e
  simp only [Option.some.injEq, Prod.mk.injEq] at e5
  obtain ⟨⟨rfl, rfl⟩, rfl⟩ := e5
  refine ⟨if G.colPH (moveCell X a).ph (moveCell X b).ph then { q with isCol := true } else q, ?_, ?_⟩
  · simp only [h.c0, h.c1, updPH_move, e1, Option.map_some, Option.bind_eq_bind, Option.bind_some, e2, deref_move, e3, e4,
      Option.pure_def]
  · rw [show G.colPH (moveCell X a).ph (moveCell X b).ph = G.colPH a.ph b.ph from hG.colPH _ _]
    split_ifs
    · exact ⟨h.c0, h.c1, rfl, h.vlist, h.colvol⟩
    · exact h

theorem sim_vol (hG : Spatial G X) (W : ℕ → Frame K) :
    SimBody X (MovedPair X) (MovedPair X) (volBody (G := G) W) (volBody (moveW X W)) := by
  intro p q cs p' n cs' h e
  unfold volBody at e ⊢
  rw [h.isCol]
  by_cases hp : p.isCol = true
  · rw [if_pos hp] at e ⊢
    simp only [Option.bind_eq_bind, Option.pure_def, Option.bind_eq_some_iff] at e
    obtain ⟨c1, e1, c2, e2, a, e3, b, e4, e5⟩ := e
    simp only [h.c0, h.c1, updPH_move, e1, Option.map_some, Option.bind_eq_bind, Option.bind_some, e2, deref_move, e3, e4,
        Option.pure_def]
    rw [show G.intersect (moveCell X a).ph (moveCell X b).ph = _ from hG.intersect a.ph b.ph]
    cases hi : G.intersect a.ph b.ph with
    | none =>
      simp only [hi, Option.some.injEq, Prod.mk.injEq] at e5
      obtain ⟨⟨rfl, rfl⟩, rfl⟩ := e5
      exact ⟨_, rfl, rfl, rfl, rfl, h.vlist, h.colvol⟩
    | some v =>
      simp only [hi, Option.some.injEq, Prod.mk.injEq] at e5
      obtain ⟨⟨rfl, rfl⟩, rfl⟩ := e5
      exact ⟨_, rfl, rfl, rfl, rfl, h.vlist, rfl⟩
  · rw [if_neg hp] at e ⊢
    simp only [Option.some.injEq, Prod.mk.injEq] at e
    obtain ⟨⟨rfl, rfl⟩, rfl⟩ := e
    exact ⟨q, rfl, h⟩

/-! ## Contact vertices -/

theorem filter_rel {α β : Type*} {R : α → β → Prop} {f : α → Bool} {g : β → Bool} {l : List α} {m : List β}
    (h : List.Forall₂ R l m) (e : ∀ a ∈ l, ∀ b ∈ m, R a b → f a = g b) : List.Forall₂ R (l.filter f) (m.filter g) := by
  induction h with
  | nil => exact .nil
  | @cons a b l m hab _ ih =>
    have e1 := e a (by simp) b (by simp) hab
    have ih := ih fun a ha b hb => e a (by simp [ha]) b (by simp [hb])
    rw [List.filter_cons, List.filter_cons, ← e1]
    split_ifs
    · exact .cons hab ih
    · exact ih

theorem last_rel {α β : Type*} {R : α → β → Prop} {l : List α} {m : List β} (h : List.Forall₂ R l m) :
    Option.Rel R l.getLast? m.getLast? := by
  induction h with
  | nil => exact .none
  | @cons a b l m hab hlm ih =>
    rw [List.getLast?_cons, List.getLast?_cons]
    generalize l.getLast? = x at ih
    generalize m.getLast? = y at ih
    cases ih with
    | some h => exact .some h
    | none => exact .some hab

theorem vertKeep_move (hX : X.att.IsRot) (f : Frame K) {u v : CDVert K} (h : MovedVert X u v) (x : Vec3 K) :
    MovedVert X (vertKeep f u x) (vertKeep (X.cascade f) v (X.xform x)) := by
  have e : (f.xformInv x + proj (u.pro' - f.xformInv x) u.norm') =
      ((X.cascade f).xformInv (X.xform x) + proj (v.pro' - (X.cascade f).xformInv (X.xform x)) v.norm') := by
    rw [cascade_xformInv hX, h.pro', h.norm']
  refine ⟨h.cell, h.idx, h.type, ?_, ?_, ?_, h.norm', e.symm, h.ref'⟩
  · simp only [vertKeep, h.norm', Frame.cascade_att, Mat3.mul_mulVec]
  · simp only [vertKeep]
    rw [← e, Frame.cascade_xform]
  · simp only [vertKeep, h.ref', Frame.cascade_xform]

theorem vertNew_move (hX : X.att.IsRot) (hG : Spatial G X) (t : Fric) (cell idx : ℕ) (f : Frame K) (ph : PH K) (x : Vec3 K) :
    Option.Rel (MovedVert X) (vertNew (G := G) t cell idx f ph x)
      (vertNew (G := G) t cell idx (X.cascade f) (posed ph X) (X.xform x)) := by
  unfold vertNew
  simp only [hG.closest, xform_sub, hG.tiny, hG.normalize]
  by_cases h : G.tiny (G.closest ph x - x) = true
  · rw [if_pos h, if_pos h]; exact .none
  · rw [if_neg h, if_neg h]
    refine .some ⟨rfl, rfl, rfl, rfl, rfl, rfl, ?_, cascade_xformInv hX _ _, cascade_xformInv hX _ _⟩
    show (X.cascade f).att.mulVecT _ = _
    rw [Frame.cascade_att, Mat3.mul_mulVecT, hX.mulVecT_mulVec]

theorem vertReg_move (hX : X.att.IsRot) (hG : Spatial G X) (W : ℕ → Frame K) (t : Fric) {old old' : List (CDVert K)}
    (ho : List.Forall₂ (MovedVert X) old old') (a b : CDCell K G) (idx : ℕ) (x : Vec3 K) :
    Option.Rel (MovedVert X) (vertReg W t old a b idx x)
      (vertReg (moveW X W) t old' (moveCell X a) (moveCell X b) idx (X.xform x)) := by
  have hl := last_rel (filter_rel (f := fun v : CDVert K => v.cell == a.ptr && v.idx == idx)
    (g := fun v : CDVert K => v.cell == (moveCell X a).ptr && v.idx == idx) ho fun u _ v _ r => by rw [r.cell, r.idx, moveCell_ptr])
  unfold vertReg
  generalize (old.filter fun v => v.cell == a.ptr && v.idx == idx).getLast? = p at hl
  generalize (old'.filter fun v => v.cell == (moveCell X a).ptr && v.idx == idx).getLast? = q at hl
  cases hl with
  | some h => exact .some (vertKeep_move hX _ h x)
  | none => exact vertNew_move hX hG t a.ptr idx (W b.link) b.ph x

theorem filterMap_rel {α β γ δ : Type*} {S : γ → δ → Prop} {f : α → Option γ} {g : β → Option δ} (m : α → β)
    (h : ∀ a, Option.Rel S (f a) (g (m a))) (l : List α) : List.Forall₂ S (l.filterMap f) ((l.map m).filterMap g) := by
  induction l with
  | nil => exact .nil
  | cons a l ih =>
    rw [List.map_cons, List.filterMap_cons, List.filterMap_cons]
    have := h a
    generalize f a = p at this
    generalize g (m a) = q at this
    cases this with
    | some h => exact .cons h ih
    | none => exact ih

theorem vertsIn_move (hX : X.att.IsRot) (hG : Spatial G X) (W : ℕ → Frame K) (t : Fric) {old old' : List (CDVert K)}
    (ho : List.Forall₂ (MovedVert X) old old') (a b : CDCell K G) :
    List.Forall₂ (MovedVert X) (vertsIn W t old a b) (vertsIn (moveW X W) t old' (moveCell X a) (moveCell X b)) := by
  unfold vertsIn
  have e : ((moveCell X a).ph.vert.zipIdx.filter fun x => G.inside (moveCell X b).ph x.1) =
      (a.ph.vert.zipIdx.filter fun x => G.inside b.ph x.1).map (Prod.map X.xform id) := by
    show (a.ph.vert.map X.xform).zipIdx.filter (fun x => G.inside (posed b.ph X) x.1) = _
    rw [List.zipIdx_map, List.filter_map]
    congr 1
    refine List.filter_congr fun x _ => ?_
    exact hG.inside _ _
  rw [e]
  exact filterMap_rel _ (fun x => vertReg_move hX hG W t ho a b x.2 x.1) _

theorem sim_vert (hX : X.att.IsRot) (hG : Spatial G X) (W : ℕ → Frame K) (t : Fric) :
    SimBody X (MovedPair X) (MovedPair X) (vertBody (G := G) W t) (vertBody (moveW X W) t) := by
  intro p q cs p' n cs' h e
  unfold vertBody at e ⊢
  rw [h.isCol]
  by_cases hp : p.isCol = true
  · rw [if_pos hp] at e ⊢
    simp only [Option.bind_eq_bind, Option.pure_def, Option.bind_eq_some_iff] at e
    obtain ⟨c1, e1, c2, e2, a, e3, b, e4, e5⟩ := e
    have e5 := Option.some.inj e5
    have hv := List.rel_append (vertsIn_move hX hG W t h.vlist a b) (vertsIn_move hX hG W t h.vlist b a)
    refine ⟨(pairVert (moveW X W) t q (moveCell X a) (moveCell X b)).1, ?_, ?_⟩
    · simp only [h.c0, h.c1, updPH_move, e1, Option.map_some, Option.bind_eq_bind, Option.bind_some, e2, deref_move, e3, e4,
        Option.pure_def, Option.some.injEq]
      rw [Prod.mk.injEq] at e5
      rw [← e5.2, Prod.mk.injEq]
      refine ⟨Prod.ext rfl ?_, rfl⟩
      rw [← congrArg Prod.snd e5.1]
      exact hv.length_eq.symm
    · have e6 : (pairVert W t p a b).1 = p' := congrArg (fun r => r.1.1) e5
      rw [← e6]
      refine ⟨h.c0, h.c1, ?_, hv, h.colvol⟩
      have he : (vertsIn (moveW X W) t q.vlist (moveCell X a) (moveCell X b) ++
          vertsIn (moveW X W) t q.vlist (moveCell X b) (moveCell X a)).isEmpty =
          (vertsIn W t p.vlist a b ++ vertsIn W t p.vlist b a).isEmpty := by
        rw [Bool.eq_iff_iff, List.isEmpty_iff_length_eq_zero, List.isEmpty_iff_length_eq_zero, hv.length_eq]
      simp only [pairVert]
      rw [he, h.isCol]
  · rw [if_neg hp] at e ⊢
    simp only [Option.some.injEq, Prod.mk.injEq] at e
    obtain ⟨⟨rfl, rfl⟩, rfl⟩ := e
    exact ⟨_, rfl, h.c0, h.c1, rfl, .nil, h.colvol⟩

/-! ## The other queries -/

theorem run_sim {b b' : CDPair K → List (CDCell K G) → Option ((CDPair K × ℕ) × List (CDCell K G))}
    (hb : SimBody X (MovedPair X) (MovedPair X) b b') {cd cd' c1 : CD K G} (h : MovedCD X cd cd') (e : cd.runPairs b = some c1) :
    ∃ c1', cd'.runPairs b' = some c1' ∧ MovedCD X c1 c1' := by
  rw [runPairs, Option.map_eq_some_iff] at e
  obtain ⟨⟨⟨ps, n⟩, cs⟩, e1, e2⟩ := e
  obtain ⟨qs, e3, r⟩ := forPairs_sim hb h.pairs _ _ _ _ e1
  rw [← h.cells] at e3
  refine ⟨_, by rw [runPairs, e3]; rfl, ?_⟩
  rw [← e2]
  exact ⟨rfl, r, h.colnum, h.defType, h.next⟩

theorem count_sim {b b' : CDPair K → List (CDCell K G) → Option ((CDPair K × ℕ) × List (CDCell K G))}
    (hb : SimBody X (MovedPair X) (MovedPair X) b b') {cd cd' c1 : CD K G} (h : MovedCD X cd cd') (e : cd.countPairs b = some c1) :
    ∃ c1', cd'.countPairs b' = some c1' ∧ MovedCD X c1 c1' := by
  rw [countPairs, Option.map_eq_some_iff] at e
  obtain ⟨⟨⟨ps, n⟩, cs⟩, e1, e2⟩ := e
  obtain ⟨qs, e3, r⟩ := forPairs_sim hb h.pairs _ _ _ _ e1
  rw [← h.cells] at e3
  refine ⟨_, by rw [countPairs, e3]; rfl, ?_⟩
  rw [← e2]
  exact ⟨rfl, r, rfl, h.defType, h.next⟩

/-! ## Registration -/

theorem pairable_move (hG : Spatial G X) {a b : CDCell K G} (ha : Good a) (hb : Good b) :
    pairable (moveCell X a) (moveCell X b) = pairable a b := by
  obtain ⟨_, -, ea⟩ := ha.obb
  obtain ⟨_, -, eb⟩ := hb.obb
  have e : (G.colAABB (moveCell X a).aabb (moveCell X b).aabb && G.colBox (moveCell X a).obb (moveCell X b).obb) =
      (G.colAABB a.aabb b.aabb && G.colBox a.obb b.obb) := by
    rw [ea, eb]
    show (G.colAABB (G.toAABB (G.boxX a.obb X)) (G.toAABB (G.boxX b.obb X)) && G.colBox (G.boxX a.obb X) (G.boxX b.obb X)) = _
    rw [hG.colBox]
    cases hc : G.colBox a.obb b.obb
    · simp
    · rw [hG.enclose _ _ hc, hG.enclose _ _ (by rw [hG.colBox]; exact hc)]
  unfold pairable
  rw [show G.colPH (moveCell X a).ph (moveCell X b).ph = G.colPH a.ph b.ph from hG.colPH _ _, Bool.and_assoc (_ == _), e,
    ← Bool.and_assoc (_ == _)]
  rfl

theorem cellCreate_move (hG : Spatial G X) (W : ℕ → Frame K) (ptr chain link : ℕ) (shape : G.Shape) (stat : Bool) :
    cellCreate (moveW X W) ptr chain link shape stat = (cellCreate W ptr chain link shape stat).map (moveCell X) := by
  unfold cellCreate
  cases h : G.toPH shape with
  | none => rfl
  | some ph0 =>
    simp only [Option.bind_eq_bind, Option.bind_some, PH.xform, le_refl, if_true, Option.pure_def, Option.map_some,
      List.drop_length, List.append_nil, moveCell, hG.boxX, posed, List.map_map]
    simp only [Option.some.injEq, CDCell.mk.injEq, true_and, and_true, PH.mk.injEq]
    refine List.map_congr_left fun p _ => ?_
    rw [Function.comp, Frame.cascade_xform]

theorem newPair_move (a b : ℕ) : MovedPair X (newPair a b : CDPair K) (newPair a b) :=
  ⟨rfl, rfl, rfl, .nil, (posed_empty X).symm⟩

theorem shapeReg_move (hG : Spatial G X) (W : ℕ → Frame K) {cd cd' : CD K G} (h : MovedCD X cd cd') (hg : ∀ c ∈ cd.cells, Good c)
    (chain link : ℕ) (shape : G.Shape) (stat : Bool) :
    Option.Rel (MovedCD X) (cd.shapeReg W chain link shape stat) (cd'.shapeReg (moveW X W) chain link shape stat) := by
  have hc := cellCreate_move hG W cd.next chain link shape stat
  unfold shapeReg cellReg
  rw [h.next, hc]
  cases e : cellCreate W cd.next chain link shape stat with
  | none => exact .none
  | some c =>
    simp only [Option.map_some]
    refine .some ?_
    have hl : (cd'.cells ++ [moveCell X c]).length = (cd.cells ++ [c]).length := by rw [h.cells]; simp
    rw [hl]
    have hcells : cd'.cells ++ [moveCell X c] = (cd.cells ++ [c]).map (moveCell X) := by rw [h.cells]; simp
    split_ifs
    · refine ⟨hcells, ?_, h.colnum, h.defType, rfl⟩
      show List.Forall₂ _ (cd.pairs ++ _) (cd'.pairs ++ _)
      refine List.rel_append h.pairs ?_
      rw [hcells, List.filter_map, List.map_map]
      have hgood : ∀ d ∈ cd.cells ++ [c], Good d := by
        intro d hd
        rcases List.mem_append.1 hd with hd | hd
        · exact hg d hd
        · rw [List.mem_singleton.1 hd]; exact good_create e
      rw [List.filter_congr (p := (fun a => pairable a (moveCell X c)) ∘ moveCell X) (q := fun a => pairable a c) fun d hd =>
        pairable_move hG (hgood d hd) (good_create e)]
      exact forall₂_map (List.forall₂_same.2 fun _ _ => rfl) fun a _ b _ r => by subst r; exact newPair_move _ _
    · exact ⟨hcells, h.pairs, h.colnum, h.defType, rfl⟩

theorem shapesReg_move (hG : Spatial G X) (W : ℕ → Frame K) (chain : ℕ) (stat : Bool) : ∀ (l : List (ℕ × G.Shape)) {cd cd' : CD K G},
    MovedCD X cd cd' → (∀ c ∈ cd.cells, Good c) →
    (shapesReg (moveW X W) chain stat l cd').1 = (shapesReg W chain stat l cd).1 ∧
    MovedCD X (shapesReg W chain stat l cd).2 (shapesReg (moveW X W) chain stat l cd').2
  | [], _, _, h, _ => ⟨rfl, h⟩
  | (link, shape) :: l, cd, cd', h, hg => by
    have hr := shapeReg_move hG W h hg chain link shape stat
    unfold shapesReg
    cases e : cd.shapeReg W chain link shape stat with
    | none =>
      rw [e] at hr
      generalize cd'.shapeReg (moveW X W) chain link shape stat = y at hr
      cases hr
      exact ⟨rfl, h⟩
    | some c1 =>
      rw [e] at hr
      generalize cd'.shapeReg (moveW X W) chain link shape stat = y at hr
      cases hr with
      | some hr =>
        refine shapesReg_move hG W chain stat l hr fun d hd => ?_
        obtain ⟨c, h1, h2, -⟩ := shapeReg_spec e
        rw [h2] at hd
        rcases List.mem_append.1 hd with hd | hd
        · exact hg d hd
        · rw [List.mem_singleton.1 hd]; exact good_create h1

theorem withCells_move {cd cd' : CD K G} (h : Both X cd cd') (g : CDCell K G → CDCell K G → Bool)
    (hg : ∀ a b, g (moveCell X a) (moveCell X b) = g a b) {p q : CDPair K} (hp : p ∈ cd.pairs) (r : MovedPair X p q) :
    withCells cd.cells (fun _ => false) (fun _ a b => g a b) p = withCells cd'.cells (fun _ => false) (fun _ a b => g a b) q := by
  obtain ⟨a, b, ha, hb⟩ := h.inv.live p hp
  have ha' : deref cd'.cells q.c0 = some (moveCell X a) := by rw [h.moved.cells, deref_move, r.c0, ha]; rfl
  have hb' : deref cd'.cells q.c1 = some (moveCell X b) := by rw [h.moved.cells, deref_move, r.c1, hb]; rfl
  rw [withCells_eq ha hb, withCells_eq ha' hb', hg]

theorem onB_move {cd cd' : CD K G} (h : Both X cd cd') (l1 l2 : ℕ) {p q : CDPair K} (hp : p ∈ cd.pairs) (r : MovedPair X p q) :
    onB cd.cells l1 l2 p = onB cd'.cells l1 l2 q :=
  withCells_move h (fun a b => (a.link == l1 && b.link == l2) || (a.link == l2 && b.link == l1)) (fun _ _ => rfl) hp r

theorem linkPairs_move (l1 l2 : ℕ) : ∀ cs : List (CDCell K G), linkPairs l1 l2 (cs.map (moveCell X)) = linkPairs l1 l2 cs
  | [] => rfl
  | c :: cs => by
    rw [List.map_cons, linkPairs, linkPairs, linkPairs_move l1 l2 cs, List.filter_map, List.map_map]
    rfl

theorem forall₂_any {α β : Type*} {R : α → β → Prop} {f : α → Bool} {g : β → Bool} {l : List α} {m : List β}
    (h : List.Forall₂ R l m) (e : ∀ a ∈ l, ∀ b ∈ m, R a b → f a = g b) : l.any f = m.any g := by
  induction h with
  | nil => rfl
  | @cons a b l m hab _ ih =>
    rw [List.any_cons, List.any_cons, e a (by simp) b (by simp) hab, ih fun a ha b hb => e a (by simp [ha]) b (by simp [hb])]

/-! ## Histories -/

theorem step_move (hX : X.att.IsRot) (hG : Spatial G X) {cd cd' : CD K G} (h : Both X cd cd') {op : CD.Op K G} (hp : op.Plain)
    (ha : Op.Aligned X op) :
    ∃ c1 c1', cd.run op = some c1 ∧ cd'.run (moveOp X op) = some c1' ∧ Both X c1 c1' := by
  have hp' : (moveOp X op).Plain := by cases op <;> first | exact hp.elim | trivial
  suffices ∃ c1 c1', cd.run op = some c1 ∧ cd'.run (moveOp X op) = some c1' ∧ MovedCD X c1 c1' by
    obtain ⟨c1, c1', e, e', m⟩ := this
    obtain ⟨d, f, g⟩ := good_run h.inv h.good hp
    obtain ⟨d', f', g'⟩ := good_run h.inv' h.good' hp'
    rw [f, Option.some.injEq] at e
    rw [f', Option.some.injEq] at e'
    subst e; subst e'
    exact ⟨_, _, f, f', m, inv_run h.inv f, g, inv_run h.inv' f', g'⟩
  have nil := pairs_nil h.moved
  have he : cd'.pairs.isEmpty = cd.pairs.isEmpty := by
    rw [Bool.eq_iff_iff, List.isEmpty_iff, List.isEmpty_iff, nil]
  cases op with
  | chainReg W c l s => exact ⟨_, _, rfl, rfl, (shapesReg_move hG W c s _ h.moved h.good).2⟩
  | chainUnreg c =>
    refine ⟨_, _, chainUnreg_eq h.inv c, chainUnreg_eq h.inv' c, ?_, ?_, h.moved.colnum, h.moved.defType, h.moved.next⟩
    · show cd'.cells.filter _ = _
      rw [h.moved.cells, List.filter_map]
      rfl
    · exact filter_rel h.moved.pairs fun p mp q _ r => by
        rw [withCells_move h (fun a b => a.chain == c || b.chain == c) (fun _ _ => rfl) mp r]
  | pairReg a b =>
    refine ⟨_, _, pairReg_eq h.inv a b, pairReg_eq h.inv' a b, ?_⟩
    rw [forall₂_any (f := onB cd.cells a b) (g := onB cd'.cells a b) h.moved.pairs fun p mp q _ r => onB_move h a b mp r]
    split_ifs
    · exact h.moved
    · refine ⟨h.moved.cells, ?_, h.moved.colnum, h.moved.defType, h.moved.next⟩
      refine List.rel_append h.moved.pairs ?_
      rw [h.moved.cells, linkPairs_move]
      refine List.forall₂_same.2 fun p hp => ?_
      obtain ⟨_, _, _, _, -, -, rfl⟩ := (linkPairs_mem h.inv.sorted).1 hp
      exact newPair_move _ _
  | pairUnreg a b =>
    refine ⟨_, _, pairUnreg_eq h.inv a b, pairUnreg_eq h.inv' a b, h.moved.cells, ?_, h.moved.colnum, h.moved.defType, h.moved.next⟩
    exact filter_rel h.moved.pairs fun p mp q _ r => by rw [onB_move h a b mp r]
  | pairChainUnreg c =>
    refine ⟨_, _, pairChainUnreg_eq h.inv c, pairChainUnreg_eq h.inv' c, h.moved.cells, ?_, h.moved.colnum, h.moved.defType,
      h.moved.next⟩
    exact filter_rel h.moved.pairs fun p mp q _ r => by
      rw [withCells_move h (fun a b => a.chain == c && b.chain == c) (fun _ _ => rfl) mp r]
  | fric t => exact ⟨_, _, rfl, rfl, h.moved.cells, h.moved.pairs, h.moved.colnum, rfl, h.moved.next⟩
  | aabb W => exact move_aabb hG W ha h
  | obb W => exact move_obb hG W h
  | gjk W =>
    obtain ⟨d, f, -⟩ := good_run h.inv h.good (op := .gjk W) trivial
    obtain ⟨c0, e1, e2⟩ := Option.bind_eq_some_iff.1 (show (cd.colChkOBB W).bind _ = some d from f)
    obtain ⟨c1, c1', f1, f1', m⟩ := move_obb hG W h
    rw [e1, Option.some.injEq] at f1; subst f1
    obtain ⟨d', g1, g2⟩ := run_sim (sim_gjk hG W) m e2
    exact ⟨d, d', f, show (cd'.colChkOBB (moveW X W)).bind _ = _ by rw [f1']; exact g1, g2⟩
  | gjkOnly W =>
    obtain ⟨d, f, -⟩ := good_run h.inv h.good (op := .gjkOnly W) trivial
    have f0 := f
    rw [CD.run, colChkGJKOnly] at f0
    show ∃ c1 c1', _ ∧ colChkGJKOnly (moveW X W) cd' = _ ∧ _
    rw [colChkGJKOnly, he]
    by_cases hn : cd.pairs.isEmpty = true
    · rw [if_pos hn] at f0 ⊢
      exact ⟨d, cd', f, rfl, (Option.some.inj f0) ▸ h.moved⟩
    · rw [if_neg hn] at f0 ⊢
      obtain ⟨m1, -, m3⟩ := reset_move h.moved
      obtain ⟨d', g1, g2⟩ := run_sim (cd' := cd'.reset) (sim_gjkOnly hG W) ⟨m1, m3, h.moved.colnum, h.moved.defType, h.moved.next⟩ f0
      exact ⟨d, d', f, g1, g2⟩
  | vert W =>
    obtain ⟨d, f, -⟩ := good_run h.inv h.good (op := .vert W) trivial
    obtain ⟨c0, e1, e2⟩ := Option.bind_eq_some_iff.1 (show (cd.colChkOBB W).bind _ = some d from f)
    obtain ⟨c1, c1', f1, f1', m⟩ := move_obb hG W h
    rw [e1, Option.some.injEq] at f1; subst f1
    obtain ⟨d', g1, g2⟩ := count_sim (sim_vert hX hG W c0.defType) m e2
    refine ⟨d, d', f, show (cd'.colChkOBB (moveW X W)).bind _ = _ by rw [f1', Option.bind_some, m.defType]; exact g1, g2⟩
  | obbVert W => exact hp.elim
  | vol W =>
    obtain ⟨d, f, -⟩ := good_run h.inv h.good (op := .vol W) trivial
    obtain ⟨c0, e1, e2⟩ := Option.bind_eq_some_iff.1 (show (cd.colChkOBB W).bind _ = some d from f)
    obtain ⟨c1, c1', f1, f1', m⟩ := move_obb hG W h
    rw [e1, Option.some.injEq] at f1; subst f1
    obtain ⟨d', g1, g2⟩ := count_sim (sim_vol hG W) m e2
    exact ⟨d, d', f, show (cd'.colChkOBB (moveW X W)).bind _ = _ by rw [f1']; exact g1, g2⟩

theorem runAll_move (hX : X.att.IsRot) (hG : Spatial G X) {ops : List (CD.Op K G)} (hp : ∀ op ∈ ops, op.Plain)
    (ha : ∀ op ∈ ops, Op.Aligned X op) : ∀ {cd cd' : CD K G}, Both X cd cd' →
    ∃ c1 c1', cd.runAll ops = some c1 ∧ cd'.runAll (ops.map (moveOp X)) = some c1' ∧ Both X c1 c1' := by
  induction ops with
  | nil => exact fun h => ⟨_, _, rfl, rfl, h⟩
  | cons op ops ih =>
    intro cd cd' h
    obtain ⟨c1, c1', e, e', m⟩ := step_move hX hG h (hp op (by simp)) (ha op (by simp))
    obtain ⟨d, d', f, f', n⟩ := ih (fun o ho => hp o (by simp [ho])) (fun o ho => ha o (by simp [ho])) m
    exact ⟨d, d', by rw [runAll, e, Option.bind_some, f], by rw [List.map_cons, runAll, e', Option.bind_some, f'], n⟩

theorem both_create (X : Frame K) : Both X (create : CD K G) create :=
  ⟨⟨rfl, .nil, rfl, rfl, rfl⟩, inv_create, by simp [create], inv_create, by simp [create]⟩

end Roki.Scene
