import Verif.Lemmas.ChainFile2
set_option autoImplicit false

/-! # Reading and writing chains: lemmas on whole files -/

namespace Roki.ZTK
open Roki.Spec.File Roki.Spec.Forest LinkHeap
variable {K : Type*}

/-! ## Sections -/

theorem secs_append (t : String) (a b : File K) : secs t (a ++ b) = secs t a ++ secs t b := by simp [secs]

theorem secs_same (t : String) (l : List (List (Fld K))) : secs t (l.map fun s => (t, s)) = l := by
  induction l with
  | nil => rfl
  | cons a l ih => simp only [secs] at ih; simp [secs, ih]

theorem secs_other {t u : String} (h : u ≠ t) (l : List (List (Fld K))) : secs t (l.map fun s => (u, s)) = [] := by
  induction l with
  | nil => rfl
  | cons a l ih => simp only [secs] at ih; simp [secs, h]

/-- Reading the elements of an array one after the other. -/
theorem evalTag_set {α : Type*} (rd : List (Fld K) → Res α) (z : α) : ∀ (secs : List (List (Fld K))) (xs pre : List α),
    List.Forall₂ (fun s x => rd s = .ok x) secs xs →
    evalTag (fun st i s => (rd s).bind (fun m => .null (List.set st i m)) fun m => .ok (List.set st i m)) pre.length secs
      (pre ++ List.replicate secs.length z) = .ok (pre ++ xs) := by
  intro secs
  induction secs with
  | nil => intro xs pre h; cases h; simp [evalTag]
  | cons s secs ih =>
    intro xs pre h
    cases h with
    | @cons _ x _ xs h1 h2 =>
      have := ih xs (pre ++ [x]) h2
      rw [List.length_append, List.length_singleton, List.append_assoc, List.singleton_append, List.append_assoc,
        List.singleton_append] at this
      rw [evalTag, h1, Res.bind_ok, Res.andThen_ok, List.length_cons, List.replicate_succ, List.set_append_right _ _ le_rfl,
        Nat.sub_self, List.set_cons_zero, this]

section
variable [Field K] [LinearOrder K] [IsStrictOrderedRing K] [Zm K] [LawfulZm K]

omit [IsStrictOrderedRing K] [LawfulZm K] [LinearOrder K] [Zm K] in
theorem motors_roundtrip (o : Order) (noname : String) (ms : List (NMotor K)) (ht : ∀ m ∈ ms, m.motor.isSome) :
    ∃ b, ms.mapM motorPrint = some b ∧ b.length = ms.length ∧
      evalTag (rdMotor o noname) 0 b (List.replicate ms.length ⟨noname, none⟩) =
        .ok (ms.map fun m => { m with motor := m.motor.map restMotor }) := by
  have : ∃ b, ms.mapM motorPrint = some b ∧
      List.Forall₂ (fun s x => motorRead o noname s = .ok x) b (ms.map fun m => { m with motor := m.motor.map restMotor }) := by
    induction ms with
    | nil => exact ⟨[], rfl, .nil⟩
    | cons m ms ih =>
      obtain ⟨b, h1, h2⟩ := ih fun x hx => ht x (List.mem_cons_of_mem _ hx)
      obtain ⟨s, h3, h4⟩ := motor_roundtrip o noname m (ht m (by simp))
      exact ⟨s :: b, by simp [h1, h3], .cons h4 h2⟩
  obtain ⟨b, h1, h2⟩ := this
  have hl : b.length = ms.length := by simpa using h2.length_eq
  refine ⟨b, h1, hl, ?_⟩
  have := evalTag_set (motorRead o noname) ⟨noname, none⟩ b _ [] h2
  rw [hl] at this
  exact this

/-! ## Links -/

/-- What the link phase needs to know about a section. -/
structure LinkSec (o : Order) (noname : String) (r : Robot K) (motors : List (NMotor K)) (l : FLink K) (par : Option String)
    (sec : List (Fld K)) : Prop where
  rd : ∀ names : List String, l.link.name ∉ names → linkRead o noname names r.shapes motors sec = .ok (midLink noname l)
  par : ∀ (names : List String) (i : ℕ), known (parentTab (K := K) names i) sec = match par with
        | some p => [⟨"parent", [.str p]⟩]
        | none => []

theorem evalTag_links (o : Order) (noname : String) (r : Robot K) (motors : List (NMotor K)) :
    ∀ (ls pre : List (FLink K)) (ss : List (List (Fld K))) (st : Robot K),
      List.Forall₂ (fun (l : FLink K) s => ∃ p, LinkSec o noname r motors l p s) ls ss →
      ((pre ++ ls).map fun l => l.link.name).Nodup → noname ∉ ((pre ++ ls).map fun l => l.link.name) →
      st.shapes = r.shapes → st.motors = motors →
      st.link = pre.map (midLink noname) ++ List.replicate ss.length (linkInit noname) →
      evalTag (rdLink o noname) pre.length ss st = .ok { st with link := (pre ++ ls).map (midLink noname) } := by
  intro ls
  induction ls with
  | nil =>
    intro pre ss st h _ _ _ _ e
    cases h
    simp only [List.length_nil, List.replicate_zero, List.append_nil] at e
    simp [evalTag, ← e]
  | cons l ls ih =>
    intro pre ss st h hn hne hs hm e
    cases h with
    | @cons _ s _ ss h1 h2 =>
      obtain ⟨p, hp⟩ := h1
      have e0 : st.link.set pre.length (linkInit noname) = st.link := by
        rw [e, List.length_cons, List.replicate_succ, List.set_append_right _ _ (by simp)]
        simp
      have hnot : l.link.name ∉ Robot.names { st with link := st.link.set pre.length (linkInit noname) } := by
        rw [e0]
        simp only [Robot.names, e, List.map_append, List.map_map, List.mem_append, not_or, List.map_replicate]
        constructor
        · intro hh
          obtain ⟨x, hx, hxe⟩ := List.mem_map.1 hh
          rw [List.map_append, List.nodup_append'] at hn
          refine hn.2.2 (List.mem_map.2 ⟨x, hx, rfl⟩) ?_
          have : x.link.name = l.link.name := hxe
          rw [this]
          simp
        · intro hh
          have := List.eq_of_mem_replicate hh
          refine hne ?_
          have e : (linkInit noname : FLink K).link.name = noname := rfl
          rw [e] at this
          rw [← this]
          simp
      have := ih (pre ++ [l]) ss { st with link := pre.map (midLink noname) ++ midLink noname l :: List.replicate ss.length (linkInit noname) } h2
        (by simpa using hn) (by simpa using hne) hs hm (by simp)
      rw [List.length_append, List.length_singleton] at this
      have hr := hp.rd _ hnot
      rw [← hs, ← hm] at hr
      rw [evalTag, rdLink, hr, Res.bind_ok, Res.andThen_ok]
      have e1 : st.link.set pre.length (midLink noname l) =
          pre.map (midLink noname) ++ midLink noname l :: List.replicate ss.length (linkInit noname) := by
        rw [e, List.length_cons, List.replicate_succ, List.set_append_right _ _ (by simp)]
        simp
      rw [e1]
      rw [this]
      simp

theorem linksPrint_ok (o : Order) (noname : String) (nullStr : Option String) (r : Robot K) (motors : List (NMotor K))
    (hst : ∀ l ∈ r.link, l.link.body.stuff.isSome) (hsh : ∀ l ∈ r.link, ∀ s ∈ l.shapes, s ∈ r.shapes)
    (hm : ∀ l ∈ r.link, ∀ q, l.link.joint.prp.getMotor = some q →
      motorFind motors l.mname = some (some ⟨l.mname, some (restMotor q)⟩) ∨
      (motorFind motors l.mname = some none ∧ q = .none ∧ l.mname = noname))
    (hn : ∀ l ∈ r.link, l.link.joint.prp.getMotor = none → l.mname = noname) :
    ∀ (ls : List (FLink K)) (i : ℕ), (∀ l ∈ ls, l ∈ r.link) → (∀ j, i ≤ j → j < i + ls.length → (parentName r j).isSome) →
    ∃ ss : List (List (Fld K)), linksPrint nullStr r i ls = some (ss.map fun s => ("link", s)) ∧ ss.length = ls.length ∧
      ∀ (k : ℕ) (l : FLink K) (s : List (Fld K)), ls[k]? = some l → ss[k]? = some s →
        ∃ p, parentName r (i + k) = some p ∧ LinkSec o noname r motors l p s := by
  intro ls
  induction ls with
  | nil => intro i _ _; exact ⟨[], rfl, rfl, by simp⟩
  | cons l ls ih =>
    intro i hl hp
    obtain ⟨ss, h1, h2, h3⟩ := ih (i + 1) (fun x hx => hl x (List.mem_cons_of_mem _ hx)) fun j h1 h2 =>
      hp j (by omega) (by simp only [List.length_cons]; omega)
    obtain ⟨p, hpi⟩ := Option.isSome_iff_exists.1 (hp i le_rfl (by simp))
    have hmem := hl l (by simp)
    obtain ⟨sec, h4, -, -⟩ := link_roundtrip o noname nullStr [] r.shapes motors p l (hst l hmem) (by simp) (hsh l hmem)
      (hm l hmem) (hn l hmem)
    have hsec : LinkSec o noname r motors l p sec := by
      constructor
      · intro names hnames
        obtain ⟨sec', e, h5, -⟩ := link_roundtrip o noname nullStr names r.shapes motors p l (hst l hmem) hnames (hsh l hmem)
          (hm l hmem) (hn l hmem)
        rw [h4] at e
        cases e
        exact h5
      · intro names i
        obtain ⟨sec', e, -, h5⟩ := link_roundtrip o noname nullStr [] r.shapes motors p l (hst l hmem) (by simp) (hsh l hmem)
          (hm l hmem) (hn l hmem)
        rw [h4] at e
        cases e
        exact h5
    refine ⟨sec :: ss, ?_, by simp [h2], ?_⟩
    · simp only [linksPrint, hpi, Option.bind_some, h4, h1, Option.map_some, List.map_cons]
    · intro k l' s' hk hs
      rcases k with _ | k
      · simp only [List.getElem?_cons_zero, Option.some.injEq] at hk hs
        subst hk hs
        exact ⟨p, hpi, hsec⟩
      · simp only [List.getElem?_cons_succ] at hk hs
        obtain ⟨p', e, h⟩ := h3 k l' s' hk hs
        exact ⟨p', by rw [← e]; congr 1; omega, h⟩

/-! ## Parents -/

omit [Field K] [LinearOrder K] [IsStrictOrderedRing K] [Zm K] [LawfulZm K] in
theorem evalKeys_single {σ : Type*} (o : Order) (row : Row σ K) (sec : List (Fld K)) (s : σ) :
    evalKeys o [row] sec s = rdAll row (vals sec row.key) (.ok s) := by
  have := evalKeys_among o [(row, vals sec row.key)] (by simp) (sec := sec) (by
    simp only [known, List.map_cons, List.map_nil, List.any_cons, List.any_nil, Bool.or_false, List.flatMap_cons, List.flatMap_nil,
      List.append_nil, Group.flds, vals, List.map_map]
    have : ∀ l : List (Fld K), (∀ f ∈ l, f.key = row.key) → l.map ((fun v => (⟨row.key, v⟩ : Fld K)) ∘ Fld.val) = l := by
      intro l
      induction l with
      | nil => intro _; rfl
      | cons f l ih =>
        intro h
        rw [List.map_cons, ih fun x hx => h x (List.mem_cons_of_mem _ hx)]
        simp only [Function.comp, ← h f (by simp)]
    rw [this _ fun f hf => by simpa using (List.mem_filter.1 hf).2]
    refine List.filter_congr fun f _ => ?_
    rw [Bool.eq_iff_iff, beq_iff_eq, beq_iff_eq]
    exact eq_comm) s
  simpa using this

/-- The calls of `rkLinkAddChild` for the parents of the links from `i` on. -/
def opsFrom : ℕ → List (Option ℕ) → List (ℕ × ℕ)
  | _, [] => []
  | i, none :: l => opsFrom (i + 1) l
  | i, some p :: l => (p, i) :: opsFrom (i + 1) l

/-- The section declares the parent. -/
def Declares (names : List String) (sec : List (Fld K)) (par : Option ℕ) : Prop :=
  match par with
  | none => vals sec "parent" = []
  | some p => ∃ n, names[p]? = some n ∧ vals sec "parent" = [[.str n]]

omit [Field K] [LinearOrder K] [IsStrictOrderedRing K] [Zm K] [LawfulZm K] in
theorem findIdx_name {names : List String} (hn : names.Nodup) {p : ℕ} {n : String} (h : names[p]? = some n) :
    names.findIdx? (fun m => m == n) = some p := by
  obtain ⟨hp, e⟩ := List.getElem?_eq_some_iff.1 h
  rw [List.findIdx?_eq_some_iff_getElem]
  refine ⟨hp, by simp [e], fun j hj => ?_⟩
  simp only [beq_iff_eq, ← e]
  intro h
  have := (List.Nodup.getElem_inj_iff hn).1 h
  omega

omit [Field K] [LinearOrder K] [IsStrictOrderedRing K] [Zm K] [LawfulZm K] in
theorem evalTag_parents (o : Order) {names : List String} (hn : names.Nodup) : ∀ (ss : List (List (Fld K))) (pars : List (Option ℕ))
    (i : ℕ) (h : List Node), List.Forall₂ (Declares names) ss pars →
    evalTag (rdParent o names) i ss h = match (opsFrom i pars).foldlM (fun h op => addChild h op.1 op.2) h with
      | some h' => .ok h'
      | none => .ub := by
  intro ss
  induction ss with
  | nil => intro pars i h hd; cases hd; simp [evalTag, opsFrom]
  | cons s ss ih =>
    intro pars i h hd
    cases hd with
    | @cons _ par _ pars h1 h2 =>
      rw [evalTag, rdParent, parentTab, evalKeys_single]
      rcases par with _ | p
      · have e : vals s "parent" = [] := h1
        simp only [e, rdAll, List.foldl_nil, Res.andThen_ok, opsFrom]
        exact ih pars (i + 1) h h2
      · obtain ⟨n, hp, e⟩ := h1
        simp only [e, rdAll, List.foldl_cons, List.foldl_nil, Res.andThen_ok, opsFrom, findIdx_name hn hp, List.foldlM_cons]
        rcases hc : addChild h p i with _ | h'
        · simp
        · simp only [Res.andThen_ok, Option.bind_eq_bind, Option.bind_some]
          exact ih pars (i + 1) h' h2

theorem mem_opsFrom : ∀ (pars : List (Option ℕ)) (i p c : ℕ), (p, c) ∈ opsFrom i pars ↔ ∃ k, c = i + k ∧ pars[k]? = some (some p) := by
  intro pars
  induction pars with
  | nil => intro i p c; simp [opsFrom]
  | cons a pars ih =>
    intro i p c
    rcases a with _ | q
    · rw [opsFrom, ih]
      constructor
      · rintro ⟨k, rfl, h⟩
        exact ⟨k + 1, by omega, by simpa using h⟩
      · rintro ⟨k, rfl, h⟩
        rcases k with _ | k
        · simp at h
        · exact ⟨k, by omega, by simpa using h⟩
    · rw [opsFrom, List.mem_cons, ih]
      constructor
      · rintro (h | ⟨k, rfl, h⟩)
        · simp only [Prod.mk.injEq] at h
          exact ⟨0, by omega, by simp [h.1]⟩
        · exact ⟨k + 1, by omega, by simpa using h⟩
      · rintro ⟨k, rfl, h⟩
        rcases k with _ | k
        · simp at h
          left
          simp [h]
        · exact Or.inr ⟨k, by omega, by simpa using h⟩

theorem opsFrom_nodup : ∀ (pars : List (Option ℕ)) (i : ℕ), (opsFrom i pars).Pairwise (fun a b => a.2 < b.2) := by
  intro pars
  induction pars with
  | nil => intro i; exact .nil
  | cons a pars ih =>
    intro i
    rcases a with _ | q
    · exact ih (i + 1)
    · rw [opsFrom, List.pairwise_cons]
      refine ⟨fun b hb => ?_, ih (i + 1)⟩
      obtain ⟨k, e, _⟩ := (mem_opsFrom pars (i + 1) b.1 b.2).1 hb
      simp only
      omega

theorem kids_opsFrom : ∀ (pars : List (Option ℕ)) (i q : ℕ), Spec.Forest.kids (opsFrom i pars) q =
    ((List.range pars.length).filter fun k => pars[k]? = some (some q)).map (fun k => i + k) := by
  intro pars
  induction pars with
  | nil => intro i q; rfl
  | cons a pars ih =>
    intro i q
    have hr : ∀ (n : ℕ) (f : ℕ → Bool), (List.range (n + 1)).filter f =
        (if f 0 then [0] else []) ++ ((List.range n).filter fun k => f (k + 1)).map (fun k => k + 1) := by
      intro n f
      rw [List.range_succ_eq_map, List.filter_cons, List.filter_map]
      split_ifs <;> rfl
    rw [List.length_cons, hr, List.map_append, List.map_map]
    have e : ((List.range pars.length).filter fun k => (a :: pars)[k + 1]? = some (some q)).map ((fun k => i + k) ∘ fun k => k + 1) =
        Spec.Forest.kids (opsFrom (i + 1) pars) q := by
      rw [ih]
      simp only [List.getElem?_cons_succ]
      refine List.map_congr_left fun k _ => ?_
      simp only [Function.comp]
      omega
    rw [e]
    rcases a with _ | p
    · simp [opsFrom]
    · rw [opsFrom, Spec.Forest.kids, List.filter_cons]
      by_cases h : p = q
      · simp [h, Spec.Forest.kids]
      · simp [h, Spec.Forest.kids]

/-- The parents lead to link 0. -/
theorem acyclic {ops : List (ℕ × ℕ)} (h1 : ∀ p q c, (p, c) ∈ ops → (q, c) ∈ ops → p = q) (h0 : ∀ q, (q, 0) ∉ ops) {i : ℕ}
    (h : Below ops 0 i) : ¬ Relation.TransGen (fun p c => (p, c) ∈ ops) i i := by
  induction h with
  | refl =>
    intro ht
    obtain ⟨q, _, hq⟩ := Relation.TransGen.tail'_iff.1 ht
    exact h0 q hq
  | @tail b c _ hbc ih =>
    intro ht
    obtain ⟨q, hq, hqc⟩ := Relation.TransGen.tail'_iff.1 ht
    obtain rfl := h1 _ _ _ hqc hbc
    exact ih (Relation.TransGen.head' hbc hq)

theorem proper_opsFrom {pars : List (Option ℕ)} (hlt : ∀ k p : ℕ, pars[k]? = some (some p) → p < pars.length)
    (h0 : pars[0]? = some none) (hb : ∀ k < pars.length, Below (opsFrom 0 pars) 0 k) : Proper pars.length (opsFrom 0 pars) := by
  intro pre p c post e
  have hm : (p, c) ∈ opsFrom 0 pars := by rw [e]; simp
  obtain ⟨k, rfl, hk⟩ := (mem_opsFrom pars 0 p c).1 hm
  rw [Nat.zero_add] at *
  have hkl : k < pars.length := (List.getElem?_eq_some_iff.1 hk).1
  refine ⟨hlt k p hk, hkl, ?_, ?_⟩
  · intro q hq
    have := opsFrom_nodup pars 0
    rw [e, List.pairwise_append] at this
    have := this.2.2 _ hq (p, k) (by simp)
    simp at this
  · intro hbl
    have hmono : Below (opsFrom 0 pars) k p := by
      refine Relation.ReflTransGen.mono (fun a b hab => ?_) _ _ hbl
      rw [e]
      simp [hab]
    refine acyclic ?_ ?_ (hb k hkl) (Relation.TransGen.tail' hmono hm)
    · intro a b d h1 h2
      obtain ⟨i, e1, h1⟩ := (mem_opsFrom pars 0 a d).1 h1
      obtain ⟨j, e2, h2⟩ := (mem_opsFrom pars 0 b d).1 h2
      obtain rfl : i = j := by omega
      rw [h1] at h2
      simpa using h2
    · intro q hq
      obtain ⟨i, e1, h1⟩ := (mem_opsFrom pars 0 q 0).1 hq
      obtain rfl : i = 0 := by omega
      rw [h0] at h1
      simp at h1

theorem toTree_rep {h : List Node} {par o : Option ℕ} {t : LTree ℕ} (hr : Rep h par o t) :
    ∀ fuel, t.toList.length < fuel → toTree h fuel o = some t := by
  induction hr with
  | nil par =>
    intro fuel hf
    rcases fuel with _ | fuel
    · omega
    · rfl
  | node h1 h2 _ _ ihc ihs =>
    intro fuel hf
    rcases fuel with _ | fuel
    · omega
    · simp only [LTree.toList, List.length_cons, List.length_append] at hf
      simp [toTree, h1, ihc fuel (by omega), ihs fuel (by omega)]

end

end Roki.ZTK
