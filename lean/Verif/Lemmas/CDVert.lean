import Verif.Lemmas.CDInv
set_option autoImplicit false

/-!
# Contact vertices
-/

namespace Roki
variable {K : Type*} [Field K] {G : CDGeo K}

namespace CD
open Spec

/-- What identifies a contact vertex in a pair. -/
abbrev vkey (v : CDVert K) : ℕ × ℕ := (v.cell, v.idx)

theorem vertReg_key {W : ℕ → Frame K} {t : Fric} {old : List (CDVert K)} {c0 c1 : CDCell K G} {i : ℕ} {x : Vec3 K} {v}
    (h : vertReg W t old c0 c1 i x = some v) : vkey v = (c0.ptr, i) := by
  unfold vertReg at h
  cases hl : (old.filter fun v => v.cell == c0.ptr && v.idx == i).getLast? with
  | some u =>
    rw [hl] at h
    have hu := List.mem_filter.1 (List.mem_of_getLast? hl)
    simp only [Bool.and_eq_true, beq_iff_eq] at hu
    rw [← Option.some.inj h]
    simp [vkey, vertKeep, hu.2.1, hu.2.2]
  | none =>
    rw [hl] at h
    simp only [vertNew] at h
    split_ifs at h
    rw [← Option.some.inj h]

theorem mem_vertsIn {W : ℕ → Frame K} {t : Fric} {old : List (CDVert K)} {c0 c1 : CDCell K G} {v : CDVert K} :
    v ∈ vertsIn W t old c0 c1 ↔ ∃ i x, c0.ph.vert[i]? = some x ∧ G.inside c1.ph x = true ∧
      vertReg W t old c0 c1 i x = some v := by
  simp only [vertsIn, List.mem_filterMap, List.mem_filter, Prod.exists, List.mem_zipIdx_iff_getElem?]
  constructor
  · rintro ⟨x, i, ⟨h1, h2⟩, h3⟩; exact ⟨i, x, h1, h2, h3⟩
  · rintro ⟨i, x, h1, h2, h3⟩; exact ⟨x, i, ⟨h1, h2⟩, h3⟩

theorem vertsIn_nodup (W : ℕ → Frame K) (t : Fric) (old : List (CDVert K)) (c0 c1 : CDCell K G) :
    ((vertsIn W t old c0 c1).map vkey).Nodup := by
  unfold vertsIn
  rw [List.Nodup, List.pairwise_map, List.pairwise_filterMap]
  refine List.Pairwise.filter _ ?_
  have : (c0.ph.vert.zipIdx).Pairwise fun x y => x.2 ≠ y.2 := by
    rw [← List.pairwise_map (f := Prod.snd) (R := fun a b => a ≠ b), List.zipIdx_map_snd]
    exact List.nodup_range'
  refine this.imp fun {x y} hne u hu v hv e => hne ?_
  have h1 := vertReg_key hu
  have h2 := vertReg_key hv
  rw [h1, h2] at e
  exact (Prod.mk.inj e).2

theorem pairVert_nodup (W : ℕ → Frame K) (t : Fric) (p : CDPair K) {a b : CDCell K G} (h : a.ptr ≠ b.ptr) :
    ((pairVert W t p a b).1.vlist.map vkey).Nodup := by
  simp only [pairVert, List.map_append]
  rw [List.nodup_append]
  refine ⟨vertsIn_nodup .., vertsIn_nodup .., ?_⟩
  intro k hk l hl e
  subst e
  obtain ⟨v, hv, rfl⟩ := List.mem_map.1 hk
  obtain ⟨u, hu, e⟩ := List.mem_map.1 hl
  obtain ⟨i, x, -, -, hv⟩ := mem_vertsIn.1 hv
  obtain ⟨j, y, -, -, hu⟩ := mem_vertsIn.1 hu
  rw [vertReg_key hv, vertReg_key hu] at e
  exact h (Prod.mk.inj e).1.symm

/-- Something that holds of the vertices of every pair, and that `rkCDColChkVert` maintains, holds after any history
without `rkCDColChkOBBVert`. -/
theorem vlist_run {P : List (CDVert K) → Prop} (h0 : P [])
    (hv : ∀ (W : ℕ → Frame K) t (p : CDPair K) (a b : CDCell K G), a.ptr ≠ b.ptr → P p.vlist →
      P (pairVert W t p a b).1.vlist) {cd cd' : CD K G}
    (hi : Inv cd) (hg : ∀ c ∈ cd.cells, Good c) (hp : ∀ p ∈ cd.pairs, P p.vlist) {op : Op K G} (ho : op.Plain)
    (h : cd.run op = some cd') : ∀ p ∈ cd'.pairs, P p.vlist := by
  have hf : ∀ c ∈ cd.cells, Fit c := fun c hc => (hg c hc).fit
  have hm : ∀ {r : CDPair K → Bool}, ∀ p ∈ cd.pairs.map fun p => markP (r p) p, P p.vlist := by
    intro r q hq
    obtain ⟨p, hp', rfl⟩ := List.mem_map.1 hq
    exact hp p hp'
  cases op with
  | chainReg W c l s =>
    rw [← Option.some.inj h]
    refine shapesReg_ind (P := fun cd => ∀ p ∈ cd.pairs, P p.vlist) (fun cd _ _ cd' hp h => ?_) _ _ hp
    obtain ⟨c, -, -, h3, -⟩ := shapeReg_spec h
    intro p hp'
    rw [h3] at hp'
    rcases List.mem_append.1 hp' with hp' | hp'
    · exact hp p hp'
    · obtain ⟨a, -, rfl⟩ := List.mem_map.1 hp'; exact h0
  | chainUnreg c =>
    rw [CD.run, chainUnreg_eq hi] at h
    rw [← Option.some.inj h]
    exact fun p hp' => hp p (List.mem_of_mem_filter hp')
  | pairReg a b =>
    rw [CD.run, pairReg_eq hi] at h
    rw [← Option.some.inj h]
    split_ifs
    · exact hp
    · intro p hp'
      rcases List.mem_append.1 hp' with hp' | hp'
      · exact hp p hp'
      · obtain ⟨_, _, _, _, _, _, rfl⟩ := (linkPairs_mem hi.sorted).1 hp'; exact h0
  | pairUnreg a b =>
    rw [CD.run, pairUnreg_eq hi] at h
    rw [← Option.some.inj h]
    exact fun p hp' => hp p (List.mem_of_mem_filter hp')
  | pairChainUnreg c =>
    rw [CD.run, pairChainUnreg_eq hi] at h
    rw [← Option.some.inj h]
    exact fun p hp' => hp p (List.mem_of_mem_filter hp')
  | fric t => rw [← Option.some.inj h]; exact hp
  | obbVert W => exact ho.elim
  | aabb W =>
    by_cases hn : cd.pairs = []
    · rw [CD.run, (queries_nil W hn).1] at h; rw [← Option.some.inj h]; exact hp
    · obtain ⟨S, e, -⟩ := colChkAABB_eq W hi.ready hn
      rw [CD.run, e] at h; rw [← Option.some.inj h]; exact hm
  | obb W =>
    by_cases hn : cd.pairs = []
    · rw [CD.run, (queries_nil W hn).2.1] at h; rw [← Option.some.inj h]; exact hp
    · obtain ⟨S, e, -⟩ := colChkOBB_eq W hi.ready hn
      rw [CD.run, e] at h; rw [← Option.some.inj h]; exact hm
  | gjk W =>
    by_cases hn : cd.pairs = []
    · rw [CD.run, (queries_nil W hn).2.2.1] at h; rw [← Option.some.inj h]; exact hp
    · obtain ⟨S, T, e⟩ := colChkGJK_eq W hi.ready hf hn
      rw [CD.run, e] at h; rw [← Option.some.inj h]; exact hm
  | gjkOnly W =>
    by_cases hn : cd.pairs = []
    · rw [CD.run, (queries_nil W hn).2.2.2.1] at h; rw [← Option.some.inj h]; exact hp
    · obtain ⟨T, e⟩ := colChkGJKOnly_eq W hi.ready hf hn
      rw [CD.run, e] at h; rw [← Option.some.inj h]; exact hm
  | vert W =>
    by_cases hn : cd.pairs = []
    · rw [CD.run, (queries_nil W hn).2.2.2.2.1] at h; rw [← Option.some.inj h]; exact hp
    · obtain ⟨S, T, e⟩ := colChkVert_eq W hi.ready hf hn
      rw [CD.run, e] at h; rw [← Option.some.inj h]
      intro q hq
      obtain ⟨p, hp', rfl⟩ := List.mem_map.1 hq
      obtain ⟨a, b, ha, hb⟩ := hi.live p hp'
      rw [withCells_eq ha hb]
      split_ifs
      · refine hv W _ (markP true p) _ _ ?_ (hp p hp')
        have := (hi.pairs _ (List.mem_map_of_mem hp')).1
        simp only [seen, (deref_mem ha).2, (deref_mem hb).2]
        exact ne_of_lt this
      · exact h0
  | vol W =>
    by_cases hn : cd.pairs = []
    · rw [CD.run, (queries_nil W hn).2.2.2.2.2.1] at h; rw [← Option.some.inj h]; exact hp
    · obtain ⟨S, T, e⟩ := colVol_eq W hi.ready hf hn
      rw [CD.run, e] at h; rw [← Option.some.inj h]
      intro q hq
      obtain ⟨p, hp', rfl⟩ := List.mem_map.1 hq
      obtain ⟨a, b, ha, hb⟩ := hi.live p hp'
      rw [withCells_eq ha hb]
      split_ifs
      · cases G.intersect (seenPH W a) (seenPH W b) <;> exact hp p hp'
      · exact hp p hp'

theorem vlist_runAll {P : List (CDVert K) → Prop} (h0 : P [])
    (hv : ∀ (W : ℕ → Frame K) t (p : CDPair K) (a b : CDCell K G), a.ptr ≠ b.ptr → P p.vlist →
      P (pairVert W t p a b).1.vlist) {ops : List (Op K G)} (ho : ∀ op ∈ ops, op.Plain) {cd : CD K G}
    (h : create.runAll ops = some cd) : ∀ p ∈ cd.pairs, P p.vlist := by
  have key : ∀ (ops : List (Op K G)), (∀ op ∈ ops, op.Plain) → ∀ c0 : CD K G, Inv c0 → (∀ c ∈ c0.cells, Good c) →
      (∀ p ∈ c0.pairs, P p.vlist) → c0.runAll ops = some cd → ∀ p ∈ cd.pairs, P p.vlist := by
    intro ops
    induction ops with
    | nil => intro _ c0 _ _ hp h; rw [← Option.some.inj h]; exact hp
    | cons op ops ih =>
      intro ho c0 hi hg hp h
      obtain ⟨c1, h1, g1⟩ := good_run hi hg (ho op (by simp))
      rw [runAll, h1, Option.bind_some] at h
      exact ih (fun o h => ho o (List.mem_cons_of_mem _ h)) c1 (inv_run hi h1) g1
        (vlist_run h0 hv hi hg hp (ho op (by simp)) h1) h
  exact key ops ho create inv_create (by simp [create]) (by simp [create]) h

end CD
end Roki
