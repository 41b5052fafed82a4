import Verif.Model.ChainTree
import Verif.Spec.Tree

/-! # Trees, paths and the refinement of array passes to tree passes -/

namespace Roki
open Spec

namespace LTree
variable {α β : Type*}

@[simp] theorem toList_map (f : α → β) (t : LTree α) : (t.map f).toList = t.toList.map f := by
  induction t with
  | nil => rfl
  | node a c s ihc ihs => simp [map, toList, ihc, ihs]

theorem map_map {γ : Type*} (f : α → β) (g : β → γ) (t : LTree α) :
    (t.map f).map g = t.map (g ∘ f) := by
  induction t with
  | nil => rfl
  | node a c s ihc ihs => simp [map, ihc, ihs]

theorem map_congr {f g : α → β} {t : LTree α} (h : ∀ a ∈ t.toList, f a = g a) :
    t.map f = t.map g := by
  induction t with
  | nil => rfl
  | node a c s ihc ihs =>
    simp only [map, node.injEq]
    refine ⟨h a (by simp [toList]), ihc fun b hb => h b (by simp [toList, hb]),
      ihs fun b hb => h b (by simp [toList, hb])⟩

theorem _root_.Roki.Spec.IsPath.ne_nil {t : LTree α} {p : List α} (h : IsPath t p) : p ≠ [] := by
  induction h <;> simp_all

theorem _root_.Roki.Spec.IsPath.mem {t : LTree α} {p : List α} (h : IsPath t p) :
    ∀ a ∈ p, a ∈ t.toList := by
  induction h with
  | here a c s => simp [toList]
  | child h ih =>
    intro b hb
    rcases List.mem_cons.1 hb with rfl | hb
    · simp [toList]
    · simp [toList, ih b hb]
  | sibl h ih => intro b hb; simp [toList, ih b hb]

/-- Every element is the end of a path. -/
theorem exists_path {t : LTree α} {a : α} (h : a ∈ t.toList) :
    ∃ p, IsPath t (p ++ [a]) := by
  induction t with
  | nil => simp [toList] at h
  | node b c s ihc ihs =>
    simp only [toList, List.mem_cons, List.mem_append] at h
    rcases h with rfl | h | h
    · exact ⟨[], .here _ _ _⟩
    · obtain ⟨p, hp⟩ := ihc h
      exact ⟨b :: p, .child hp⟩
    · obtain ⟨p, hp⟩ := ihs h
      exact ⟨p, .sibl hp⟩

theorem isPath_map {f : α → β} {t : LTree α} {p : List α} (h : IsPath t p) :
    IsPath (t.map f) (p.map f) := by
  induction h with
  | here a c s => exact .here _ _ _
  | child h ih => exact .child ih
  | sibl h ih => exact .sibl ih

theorem isPath_of_map {f : α → β} {t : LTree α} {q : List β} (h : IsPath (t.map f) q) :
    ∃ p, IsPath t p ∧ q = p.map f := by
  induction t generalizing q with
  | nil => simp only [map] at h; cases h
  | node a c s ihc ihs =>
    simp only [map] at h
    cases h with
    | here => exact ⟨[a], .here _ _ _, rfl⟩
    | child h =>
      obtain ⟨p, hp, rfl⟩ := ihc h
      exact ⟨a :: p, .child hp, rfl⟩
    | sibl h =>
      obtain ⟨p, hp, rfl⟩ := ihs h
      exact ⟨p, .sibl hp, rfl⟩

/-- The paths of a tree are the proper prefixes too: dropping the last element of a path longer
than one leaves a path. -/
theorem isPath_prefix {t : LTree α} {p : List α} {a : α} (h : IsPath t (p ++ [a])) (hp : p ≠ []) :
    IsPath t p := by
  generalize hq : p ++ [a] = q at h
  induction h generalizing p with
  | here b c s =>
    rcases p with _ | ⟨x, p⟩
    · exact absurd rfl hp
    · simp at hq
  | @child b c s q' h ih =>
    rcases p with _ | ⟨x, p⟩
    · exact absurd rfl hp
    · simp only [List.cons_append, List.cons.injEq] at hq
      obtain ⟨rfl, hq⟩ := hq
      rcases p with _ | ⟨y, p⟩
      · exact .here _ _ _
      · exact .child (ih (by simp) hq)
  | sibl h ih => exact .sibl (ih hp hq)

/-- Elements of a path of a tree without repetition are distinct. -/
theorem _root_.Roki.Spec.IsPath.nodup {t : LTree α} {p : List α} (h : IsPath t p)
    (hn : t.toList.Nodup) : p.Nodup := by
  induction h with
  | here a c s => simp
  | @child a c s p h ih =>
    simp only [toList, List.nodup_cons, List.mem_append, not_or] at hn
    refine List.nodup_cons.2 ⟨fun hm => hn.1.1 (h.mem _ hm), ih (List.nodup_append.1 hn.2).1⟩
  | @sibl a c s p h ih =>
    simp only [toList, List.nodup_cons] at hn
    exact ih (List.nodup_append.1 hn.2).2.1

/-- In a tree without repetition the path to an element is unique. -/
theorem isPath_unique {t : LTree α} {p q : List α} {a : α} (hn : t.toList.Nodup)
    (hp : IsPath t (p ++ [a])) (hq : IsPath t (q ++ [a])) : p = q := by
  have mem_last : ∀ {t : LTree α} {p : List α}, IsPath t (p ++ [a]) → a ∈ t.toList :=
    fun h => h.mem a (by simp)
  induction t generalizing p q with
  | nil => cases hp
  | node b c s ihc ihs =>
    simp only [toList, List.nodup_cons, List.mem_append, not_or] at hn
    obtain ⟨⟨hbc, hbs⟩, hcs⟩ := hn
    obtain ⟨hc, hs, hd⟩ := List.nodup_append.1 hcs
    have cases_ : ∀ {p : List α}, IsPath (.node b c s) (p ++ [a]) →
        (p = [] ∧ a = b) ∨ (∃ p', p = b :: p' ∧ IsPath c (p' ++ [a])) ∨ IsPath s (p ++ [a]) := by
      intro p h
      generalize hr : p ++ [a] = r at h
      cases h with
      | here =>
        left
        rcases p with _ | ⟨x, p⟩
        · simp at hr; exact ⟨rfl, hr⟩
        · simp at hr
      | @child _ _ _ p' h =>
        rcases p with _ | ⟨x, p⟩
        · simp at hr; exact absurd hr.2 h.ne_nil
        · simp only [List.cons_append, List.cons.injEq] at hr
          right; left
          exact ⟨p, by rw [hr.1], by rw [hr.2]; exact h⟩
      | sibl h => right; right; exact h
    rcases cases_ hp with ⟨rfl, e⟩ | ⟨p', rfl, h⟩ | h <;>
    rcases cases_ hq with ⟨rfl, e'⟩ | ⟨q', rfl, h'⟩ | h'
    · rfl
    · exact absurd (mem_last h') (by rw [e]; exact hbc)
    · exact absurd (mem_last h') (by rw [e]; exact hbs)
    · exact absurd (mem_last h) (by rw [e']; exact hbc)
    · rw [ihc hc h h']
    · exact absurd rfl (hd a (mem_last h) a (mem_last h'))
    · exact absurd (mem_last h) (by rw [e']; exact hbs)
    · exact absurd rfl (hd a (mem_last h') a (mem_last h))
    · exact ihs hs h h'

/-! ## Tree passes from the root to the leaves -/

/-- Functional counterpart of `Chain.downAt`. -/
def down {σ : Type*} (f : σ → α → α) (g : α → σ) (st : σ) : LTree α → LTree α
  | nil => nil
  | node l c s => node (f st l) (down f g (g (f st l)) c) (down f g st s)

theorem updateFrame_eq {K : Type*} [Field K] (st : Frame K) (T : LTree (Link K)) :
    T.updateFrame st = T.down (fun pwf l => l.updateFrame1 pwf) (fun l => l.body.frame) st := by
  induction T generalizing st with
  | nil => rfl
  | node l c s ihc ihs => simp only [updateFrame, down, ihc, ihs]

theorem updateVel_eq {K : Type*} [Field K] (st : Vec6 K) (T : LTree (Link K)) :
    T.updateVel st = T.down (fun pvel l => l.updateVel1 pvel) (fun l => l.body.vel) st := by
  induction T generalizing st with
  | nil => rfl
  | node l c s ihc ihs => simp only [updateVel, down, ihc, ihs]

theorem updateAcc_eq {K : Type*} [Field K] (v a : Vec6 K) (T : LTree (Link K)) :
    T.updateAcc v a = T.down (fun st l => l.updateAcc1 st.1 st.2)
      (fun l => (l.body.vel, l.body.acc)) (v, a) := by
  induction T generalizing v a with
  | nil => rfl
  | node l c s ihc ihs => simp only [updateAcc, down, ihc, ihs]

theorem updateRate_eq {K : Type*} [Field K] (v a : Vec6 K) (T : LTree (Link K)) :
    T.updateRate v a = T.down (fun st l => l.updateRate1 st.1 st.2)
      (fun l => (l.body.vel, l.body.acc)) (v, a) := by
  induction T generalizing v a with
  | nil => rfl
  | node l c s ihc ihs => simp only [updateRate, down, ihc, ihs]

theorem down_map_inv {σ : Type*} {f : σ → α → α} {g : α → σ} (h : α → β)
    (hf : ∀ st a, h (f st a) = h a) (st : σ) (T : LTree α) : (T.down f g st).map h = T.map h := by
  induction T generalizing st with
  | nil => rfl
  | node l c s ihc ihs => simp only [down, map, hf, ihc, ihs]

/-- What a path of the result of a downward pass looks like. -/
inductive DownPath {σ : Type*} (f : σ → α → α) (g : α → σ) : σ → List α → List α → Prop
  | one (st : σ) (a : α) : DownPath f g st [a] [f st a]
  | cons {st : σ} {a : α} {p q : List α} : DownPath f g (g (f st a)) p q →
      DownPath f g st (a :: p) (f st a :: q)

theorem isPath_down {σ : Type*} {f : σ → α → α} {g : α → σ} {st : σ} {T : LTree α} {q : List α}
    (h : IsPath (T.down f g st) q) : ∃ p, IsPath T p ∧ DownPath f g st p q := by
  induction T generalizing st q with
  | nil => cases h
  | node l c s ihc ihs =>
    simp only [down] at h
    cases h with
    | here => exact ⟨_, .here _ _ _, .one _ _⟩
    | child h =>
      obtain ⟨p, hp, hd⟩ := ihc h
      exact ⟨_, .child hp, .cons hd⟩
    | sibl h =>
      obtain ⟨p, hp, hd⟩ := ihs h
      exact ⟨_, .sibl hp, hd⟩

end LTree

/-! ## Refinement -/

namespace Chain
variable {K : Type*}

/-- The tree of links that an index tree denotes in an array. -/
def gather (ls : List (Link K)) : LTree ℕ → Option (LTree (Link K))
  | .nil => some .nil
  | .node i c s =>
    match ls[i]?, gather ls c, gather ls s with
    | some l, some c', some s' => some (.node l c' s')
    | _, _, _ => none

theorem gather_node {ls : List (Link K)} {i : ℕ} {c s : LTree ℕ} {T : LTree (Link K)} :
    gather ls (.node i c s) = some T ↔
      ∃ l c' s', ls[i]? = some l ∧ gather ls c = some c' ∧ gather ls s = some s' ∧
        T = .node l c' s' := by
  simp only [gather]
  constructor
  · intro h
    split at h
    · rename_i l c' s' h1 h2 h3
      exact ⟨l, c', s', h1, h2, h3, by simpa using h.symm⟩
    · simp at h
  · rintro ⟨l, c', s', h1, h2, h3, rfl⟩
    simp [h1, h2, h3]

theorem gather_congr {ls ls' : List (Link K)} {t : LTree ℕ}
    (h : ∀ i ∈ t.toList, ls'[i]? = ls[i]?) : gather ls' t = gather ls t := by
  induction t with
  | nil => rfl
  | node i c s ihc ihs =>
    simp only [gather]
    rw [h i (by simp [LTree.toList]), ihc fun j hj => h j (by simp [LTree.toList, hj]),
      ihs fun j hj => h j (by simp [LTree.toList, hj])]

theorem gather_exists {ls : List (Link K)} {t : LTree ℕ} (h : ∀ i ∈ t.toList, i < ls.length) :
    ∃ T, gather ls t = some T := by
  induction t with
  | nil => exact ⟨_, rfl⟩
  | node i c s ihc ihs =>
    obtain ⟨c', hc⟩ := ihc fun j hj => h j (by simp [LTree.toList, hj])
    obtain ⟨s', hs⟩ := ihs fun j hj => h j (by simp [LTree.toList, hj])
    have hi := h i (by simp [LTree.toList])
    exact ⟨_, gather_node.2 ⟨ls[i], c', s', List.getElem?_eq_getElem hi, hc, hs, rfl⟩⟩

/-- The gathered tree has the array entries at the index tree. -/
theorem gather_map {ls : List (Link K)} {t : LTree ℕ} {T : LTree (Link K)}
    (h : gather ls t = some T) : T.map some = t.map (fun i => ls[i]?) := by
  induction t generalizing T with
  | nil => simp only [gather, Option.some.injEq] at h; subst h; rfl
  | node i c s ihc ihs =>
    obtain ⟨l, c', s', h1, h2, h3, rfl⟩ := gather_node.1 h
    simp only [LTree.map, h1, ihc h2, ihs h3]

theorem gather_toList {ls : List (Link K)} {t : LTree ℕ} {T : LTree (Link K)}
    (h : gather ls t = some T) : T.toList.map some = t.toList.map (fun i => ls[i]?) := by
  rw [← LTree.toList_map, ← LTree.toList_map, gather_map h]

/-- When the index tree visits every entry of the array once, the gathered tree has the links of
the array. -/
theorem gather_perm {ls : List (Link K)} {t : LTree ℕ} {T : LTree (Link K)}
    (h : gather ls t = some T) (hp : t.toList.Perm (List.range ls.length)) :
    T.toList.Perm ls := by
  have h1 := gather_toList h
  have h2 : (t.toList.map fun i => ls[i]?).Perm (ls.map some) := by
    have : ls.map some = (List.range ls.length).map (fun i => ls[i]?) := by
      apply List.ext_getElem
      · simp
      · intro i h1 h2
        simp at h1 h2 ⊢
    rw [this]
    exact hp.map _
  rw [← h1] at h2
  have h3 := h2.filterMap id
  simpa [List.filterMap_map] using h3

/-- A path of indices and the corresponding path of links. -/
theorem gather_path {ls : List (Link K)} {t : LTree ℕ} {T : LTree (Link K)}
    (h : gather ls t = some T) {p : List ℕ} (hp : IsPath t p) :
    ∃ q, IsPath T q ∧ q.map some = p.map (fun i => ls[i]?) := by
  have h1 : IsPath (T.map some) (p.map fun i => ls[i]?) := by
    rw [gather_map h]; exact LTree.isPath_map hp
  obtain ⟨q, hq, e⟩ := LTree.isPath_of_map h1
  exact ⟨q, hq, e.symm⟩

/-- **Refinement of downward passes.** -/
theorem downAt_refines {σ : Type*} (f : σ → Link K → Link K) (g : Link K → σ) (t : LTree ℕ) :
    ∀ (par : Option ℕ) (st : σ) (ls : List (Link K)) (T : LTree (Link K)),
    t.toList.Nodup → gather ls t = some T →
    (∀ (i : ℕ) (c s : LTree ℕ), t = .node i c s → s.isNil = false →
      ∃ p pl, par = some p ∧ ls[p]? = some pl ∧ g pl = st ∧ p ∉ t.toList) →
    ∃ ls', downAt f g par t st ls = some ls' ∧ gather ls' t = some (T.down f g st) ∧
      ls'.length = ls.length ∧ ∀ i, i ∉ t.toList → ls'[i]? = ls[i]? := by
  induction t with
  | nil =>
    intro par st ls T hn hg hpar
    simp only [gather, Option.some.injEq] at hg
    subst hg
    exact ⟨ls, rfl, rfl, rfl, fun _ _ => rfl⟩
  | node i c s ihc ihs =>
    intro par st ls T hn hg hpar
    obtain ⟨l, c', s', h1, h2, h3, rfl⟩ := gather_node.1 hg
    simp only [LTree.toList, List.nodup_cons, List.mem_append, not_or] at hn
    obtain ⟨⟨hic, his⟩, hcs⟩ := hn
    obtain ⟨hc, hs, hd⟩ := List.nodup_append.1 hcs
    have hlen : i < ls.length := by
      by_contra hh
      rw [List.getElem?_eq_none (by omega)] at h1; simp at h1
    have hset : ∀ j, j ≠ i → (ls.set i (f st l))[j]? = ls[j]? := by
      intro j hj; rw [List.getElem?_set_ne (Ne.symm hj)]
    have hseti : (ls.set i (f st l))[i]? = some (f st l) := by
      rw [List.getElem?_set_self hlen]
    obtain ⟨ls1, e1, g1, n1, u1⟩ := ihc (some i) (g (f st l)) (ls.set i (f st l)) c' hc
      (by rw [← h2]; exact gather_congr fun j hj => hset j fun e => hic (e ▸ hj))
      (fun j c2 s2 hc2 _ => ⟨i, f st l, rfl, hseti, rfl, hic⟩)
    have n1' : ls1.length = ls.length := by rw [n1, List.length_set]
    have u1i : ls1[i]? = some (f st l) := by rw [u1 i hic, hseti]
    have u1' : ∀ j, j ∉ c.toList → j ≠ i → ls1[j]? = ls[j]? := fun j hj hji => by
      rw [u1 j hj, hset j hji]
    have g1s : gather ls1 s = some s' := by
      rw [← h3]
      refine gather_congr fun j hj => u1' j (fun hjc => hd j hjc j hj rfl) fun e => his (e ▸ hj)
    by_cases hsn : s.isNil
    · have : s = .nil := by cases s <;> simp_all [LTree.isNil]
      subst this
      have hs' : s' = .nil := by simpa [gather] using h3.symm
      subst hs'
      refine ⟨ls1, ?_, ?_, n1', ?_⟩
      · simp [downAt, h1, e1, hsn]
      · rw [gather_node]; exact ⟨_, _, _, u1i, g1, rfl, rfl⟩
      · intro j hj
        simp only [LTree.toList, List.mem_cons, List.mem_append, not_or] at hj
        exact u1' j hj.2.1 hj.1
    · simp only [Bool.not_eq_true] at hsn
      obtain ⟨p, pl, hp, hpl, hst, hpn⟩ := hpar i c s rfl hsn
      subst hp
      simp only [LTree.toList, List.mem_cons, List.mem_append, not_or] at hpn
      have hpl1 : ls1[p]? = some pl := by rw [u1' p hpn.2.1 hpn.1, hpl]
      obtain ⟨ls2, e2, g2, n2, u2⟩ := ihs (some p) st ls1 s' hs g1s
        (fun j c2 s2 hc2 _ => ⟨p, pl, rfl, hpl1, hst, hpn.2.2⟩)
      refine ⟨ls2, ?_, ?_, by rw [n2, n1'], ?_⟩
      · simp [downAt, h1, e1, hsn, hpl1, hst, e2]
      · rw [gather_node]
        refine ⟨f st l, _, _, ?_, ?_, g2, rfl⟩
        · rw [u2 i his, u1i]
        · rw [← g1]
          exact gather_congr fun j hj => u2 j fun hjs => hd j hj j hjs rfl
      · intro j hj
        simp only [LTree.toList, List.mem_cons, List.mem_append, not_or] at hj
        rw [u2 j hj.2.2, u1' j hj.2.1 hj.1]

theorem addChildWrenchAt_gather [Field K] (ls : List (Link K)) (t : LTree ℕ) (T : LTree (Link K))
    (h : gather ls t = some T) (w : Vec6 K) :
    addChildWrenchAt w ls t = some (T.addChildWrench w) := by
  induction t generalizing T w with
  | nil => simp only [gather, Option.some.injEq] at h; subst h; rfl
  | node i c s ihc ihs =>
    obtain ⟨l, c', s', h1, h2, h3, rfl⟩ := gather_node.1 h
    simp only [addChildWrenchAt, h1, LTree.addChildWrench]
    exact ihs _ h3 _

/-- **Refinement of the wrench pass.** -/
theorem updateWrenchAt_refines [Field K] (t : LTree ℕ) :
    ∀ (ls : List (Link K)) (T : LTree (Link K)), t.toList.Nodup → gather ls t = some T →
    ∃ ls', updateWrenchAt t ls = some ls' ∧ gather ls' t = some T.updateWrench ∧
      ls'.length = ls.length ∧ ∀ i, i ∉ t.toList → ls'[i]? = ls[i]? := by
  induction t with
  | nil =>
    intro ls T hn hg
    simp only [gather, Option.some.injEq] at hg
    subst hg
    exact ⟨ls, rfl, rfl, rfl, fun _ _ => rfl⟩
  | node i c s ihc ihs =>
    intro ls T hn hg
    obtain ⟨l, c', s', h1, h2, h3, rfl⟩ := gather_node.1 hg
    simp only [LTree.toList, List.nodup_cons, List.mem_append, not_or] at hn
    obtain ⟨⟨hic, his⟩, hcs⟩ := hn
    obtain ⟨hc, hs, hd⟩ := List.nodup_append.1 hcs
    have hlen : i < ls.length := by
      by_contra hh
      rw [List.getElem?_eq_none (by omega)] at h1; simp at h1
    set l0 : Link K := { l with joint := { l.joint with wrench := l.body.netWrench.angShift l.body.mp.com } }
      with hl0
    obtain ⟨ls1, e1, g1, n1, u1⟩ := ihc (ls.set i l0) c' hc
      (by rw [← h2]; exact gather_congr fun j hj => by
            rw [List.getElem?_set_ne]; intro e; exact hic (e ▸ hj))
    have n1' : ls1.length = ls.length := by rw [n1, List.length_set]
    have u1i : ls1[i]? = some l0 := by rw [u1 i hic, List.getElem?_set_self hlen]
    have u1' : ∀ j, j ∉ c.toList → j ≠ i → ls1[j]? = ls[j]? := fun j hj hji => by
      rw [u1 j hj, List.getElem?_set_ne (Ne.symm hji)]
    have ew := addChildWrenchAt_gather ls1 c _ g1 (l.body.netWrench.angShift l.body.mp.com)
    set w2 := c'.updateWrench.addChildWrench (l.body.netWrench.angShift l.body.mp.com)
      - l.body.calcExtWrench with hw2
    set l2 : Link K := { l with joint := ⟨l.joint.prp.calcTrq w2, w2⟩ } with hl2
    have hlen1 : i < ls1.length := by omega
    obtain ⟨ls2, e2, g2, n2, u2⟩ := ihs (ls1.set i l2) s' hs
      (by rw [← h3]; exact gather_congr fun j hj => by
            have hji : j ≠ i := fun e => his (e ▸ hj)
            rw [List.getElem?_set_ne (Ne.symm hji), u1' j (fun hjc => hd j hjc j hj rfl) hji])
    refine ⟨ls2, ?_, ?_, by rw [n2, List.length_set, n1'], ?_⟩
    · simp only [updateWrenchAt, h1, Option.bind_eq_bind, Option.bind_some]
      rw [e1]
      simp only [Option.bind_some, u1i]
      simp only [hl0]
      rw [ew]
      simp only [Option.bind_some]
      exact e2
    · rw [gather_node]
      refine ⟨l2, _, _, ?_, ?_, g2, rfl⟩
      · rw [u2 i his, List.getElem?_set_self hlen1]
      · rw [← g1]
        refine gather_congr fun j hj => ?_
        have hji : j ≠ i := fun e => hic (e ▸ hj)
        rw [u2 j fun hjs => hd j hj j hjs rfl, List.getElem?_set_ne (Ne.symm hji)]
    · intro j hj
      simp only [LTree.toList, List.mem_cons, List.mem_append, not_or] at hj
      rw [u2 j hj.2.2, List.getElem?_set_ne (Ne.symm hj.1), u1' j hj.2.1 hj.1]

end Chain
end Roki
