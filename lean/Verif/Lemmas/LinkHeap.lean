import Verif.Spec.LinkHeap
import Mathlib.Data.List.Induction
import Mathlib.Data.List.Perm.Basic
import Mathlib.Data.List.Nodup
import Mathlib.Tactic.Tauto
set_option autoImplicit false

/-!
# Forests of links
-/

namespace Roki.LinkHeap
open Roki.Spec.Forest

theorem _root_.Roki.Spec.Forest.Rep.frame {h h' : List Node} {par o : Option ℕ} {t : LTree ℕ} (hr : Rep h par o t)
    (hh : ∀ i ∈ t.toList, h'[i]? = h[i]?) : Rep h' par o t := by
  induction hr with
  | nil par => exact .nil par
  | node h1 h2 _ _ ihc ihs =>
    simp only [LTree.toList, List.mem_cons, List.mem_append] at hh
    exact .node ((hh _ (Or.inl rfl)).trans h1) h2 (ihc fun i hi => hh i (Or.inr (Or.inl hi)))
      (ihs fun i hi => hh i (Or.inr (Or.inr hi)))

theorem _root_.Roki.Spec.Forest.Rep.lt {h : List Node} {par o : Option ℕ} {t : LTree ℕ} (hr : Rep h par o t) : ∀ i ∈ t.toList, i < h.length := by
  induction hr with
  | nil => simp [LTree.toList]
  | node h1 _ _ _ ihc ihs =>
    intro i hi
    simp only [LTree.toList, List.mem_cons, List.mem_append] at hi
    rcases hi with rfl | hi | hi
    · exact (List.getElem?_eq_some_iff.1 h1).1
    · exact ihc i hi
    · exact ihs i hi

theorem _root_.Roki.Spec.Forest.Rep.visits {h : List Node} {par o : Option ℕ} {t : LTree ℕ} (hr : Rep h par o t) : Visits h o t.toList := by
  induction hr with
  | nil => exact .nil
  | node h1 _ _ _ ihc ihs => exact .node h1 ihc ihs

theorem _root_.Roki.Spec.Forest.Rep.sibs {h : List Node} {par o : Option ℕ} {t : LTree ℕ} (hr : Rep h par o t) : Sibs h o t.sibls := by
  induction hr with
  | nil => exact .nil
  | node h1 _ _ _ _ ihs => exact .cons h1 ihs

theorem _root_.Roki.Spec.Forest.Rep.parent {h : List Node} {par o : Option ℕ} {t : LTree ℕ} (hr : Rep h par o t) {i : ℕ} (hi : i ∈ t.toList) {x : Node}
    (hx : h[i]? = some x) : (x.parent = par ∧ i ∈ t.sibls) ∨ ∃ q ∈ t.toList, x.parent = some q := by
  induction hr with
  | nil => simp [LTree.toList] at hi
  | @node par j y c s h1 h2 hc hs ihc ihs =>
    simp only [LTree.toList, List.mem_cons, List.mem_append] at hi ⊢
    rcases hi with rfl | hi | hi
    · obtain rfl := Option.some.inj (h1.symm.trans hx)
      exact Or.inl ⟨h2, by simp [LTree.sibls]⟩
    · rcases ihc hi with h | ⟨q, h, h'⟩
      · exact Or.inr ⟨j, Or.inl rfl, h.1⟩
      · exact Or.inr ⟨q, Or.inr (Or.inl h), h'⟩
    · rcases ihs hi with h | ⟨q, h, h'⟩
      · exact Or.inl ⟨h.1, by simp [LTree.sibls, h.2]⟩
      · exact Or.inr ⟨q, Or.inr (Or.inr h), h'⟩

/-! ## Grafting -/

/-- Append a tree to the siblings of the top level. -/
def snoc : LTree ℕ → LTree ℕ → LTree ℕ
  | .nil, T => T
  | .node a c s, T => .node a c (snoc s T)

/-- Attach a tree as the last child of `p`. -/
def graft (p : ℕ) (T : LTree ℕ) : LTree ℕ → LTree ℕ
  | .nil => .nil
  | .node a c s => if a = p then .node a (snoc c T) s else .node a (graft p T c) (graft p T s)

theorem toList_snoc (t T : LTree ℕ) : (snoc t T).toList = t.toList ++ T.toList := by
  induction t with
  | nil => rfl
  | node a c s _ ihs => simp [snoc, LTree.toList, ihs]

theorem graft_not_mem {p : ℕ} {T t : LTree ℕ} (h : p ∉ t.toList) : graft p T t = t := by
  induction t with
  | nil => rfl
  | node a c s ihc ihs =>
    simp only [LTree.toList, List.mem_cons, List.mem_append, not_or] at h
    rw [graft, if_neg (fun e => h.1 e.symm), ihc h.2.1, ihs h.2.2]

theorem nodup_node {a : ℕ} {c s : LTree ℕ} (h : (LTree.node a c s).toList.Nodup) :
    a ∉ c.toList ∧ a ∉ s.toList ∧ c.toList.Nodup ∧ s.toList.Nodup ∧ ∀ i ∈ c.toList, i ∉ s.toList := by
  simp only [LTree.toList, List.nodup_cons, List.mem_append, not_or, List.nodup_append'] at h
  exact ⟨h.1.1, h.1.2, h.2.1, h.2.2.1, fun i hi hi' => h.2.2.2 hi hi'⟩

theorem perm_graft {p : ℕ} {T t : LTree ℕ} (hn : t.toList.Nodup) (hp : p ∈ t.toList) :
    (graft p T t).toList.Perm (t.toList ++ T.toList) := by
  induction t with
  | nil => simp [LTree.toList] at hp
  | node a c s ihc ihs =>
    obtain ⟨h1, h2, h3, h4, h5⟩ := nodup_node hn
    rw [graft]
    split_ifs with he
    · simp only [LTree.toList, toList_snoc, List.cons_append, List.append_assoc]
      exact (List.Perm.append_left _ List.perm_append_comm).cons _
    · simp only [LTree.toList, List.mem_cons, List.mem_append] at hp
      rcases hp with rfl | hp | hp
      · exact absurd rfl he
      · rw [graft_not_mem (h5 p hp)]
        simp only [LTree.toList, List.cons_append, List.append_assoc]
        refine List.Perm.cons _ (((ihc h3 hp).append_right _).trans ?_)
        rw [List.append_assoc]
        exact List.Perm.append_left _ List.perm_append_comm
      · rw [graft_not_mem (fun h => h5 p h hp)]
        simp only [LTree.toList, List.cons_append, List.append_assoc]
        exact List.Perm.cons _ ((ihs h4 hp).append_left _)

theorem sibls_graft {p : ℕ} {T t : LTree ℕ} : (graft p T t).sibls = t.sibls := by
  induction t with
  | nil => rfl
  | node a c s _ ihs =>
    rw [graft]
    split_ifs
    · rfl
    · simp [LTree.sibls, ihs]

theorem sibls_snoc {t cc : LTree ℕ} {c : ℕ} : (snoc t (.node c cc .nil)).sibls = t.sibls ++ [c] := by
  induction t with
  | nil => rfl
  | node a d s _ ihs => simp [snoc, LTree.sibls, ihs]

/-- `l` are the children of `i` in the tree. -/
inductive Kid : LTree ℕ → ℕ → List ℕ → Prop
  | here (i : ℕ) (c s : LTree ℕ) : Kid (.node i c s) i c.sibls
  | child {a i : ℕ} {c s : LTree ℕ} {l : List ℕ} : Kid c i l → Kid (.node a c s) i l
  | sibl {a i : ℕ} {c s : LTree ℕ} {l : List ℕ} : Kid s i l → Kid (.node a c s) i l

theorem Kid.mem {t : LTree ℕ} {i : ℕ} {l : List ℕ} (h : Kid t i l) : i ∈ t.toList := by
  induction h with
  | here => simp [LTree.toList]
  | child _ ih => simp [LTree.toList, ih]
  | sibl _ ih => simp [LTree.toList, ih]

theorem Kid.exists {t : LTree ℕ} {i : ℕ} (h : i ∈ t.toList) : ∃ l, Kid t i l := by
  induction t with
  | nil => simp [LTree.toList] at h
  | node a c s ihc ihs =>
    simp only [LTree.toList, List.mem_cons, List.mem_append] at h
    rcases h with rfl | h | h
    · exact ⟨_, .here _ _ _⟩
    · exact (ihc h).imp fun _ h => .child h
    · exact (ihs h).imp fun _ h => .sibl h

theorem Kid.snoc {t T : LTree ℕ} {i : ℕ} {l : List ℕ} (h : Kid (snoc t T) i l) : Kid t i l ∨ Kid T i l := by
  induction t with
  | nil => exact Or.inr h
  | node a c s _ ihs =>
    rw [LinkHeap.snoc] at h
    cases h with
    | here => exact Or.inl (.here _ _ _)
    | child h => exact Or.inl (.child h)
    | sibl h => exact (ihs h).imp .sibl id

theorem Kid.graft {p c : ℕ} {cc t : LTree ℕ} {i : ℕ} {l : List ℕ} (hn : t.toList.Nodup)
    (h : Kid (graft p (.node c cc .nil) t) i l) :
    (i = p ∧ ∃ l0, Kid t p l0 ∧ l = l0 ++ [c]) ∨ (i ≠ p ∧ Kid t i l) ∨ Kid (.node c cc .nil) i l := by
  induction t with
  | nil => cases h
  | node a d s ihc ihs =>
    obtain ⟨h1, h2, h3, h4, h5⟩ := nodup_node hn
    rw [LinkHeap.graft] at h
    split_ifs at h with he
    · subst he
      cases h with
      | here => exact Or.inl ⟨rfl, _, .here _ _ _, sibls_snoc⟩
      | child h =>
        rcases h.snoc with h | h
        · exact Or.inr (Or.inl ⟨fun e => h1 (e ▸ h.mem), .child h⟩)
        · exact Or.inr (Or.inr h)
      | sibl h => exact Or.inr (Or.inl ⟨fun e => h2 (e ▸ h.mem), .sibl h⟩)
    · cases h with
      | here => exact Or.inr (Or.inl ⟨he, by rw [sibls_graft]; exact .here _ _ _⟩)
      | child h =>
        rcases ihc h3 h with ⟨rfl, l0, h', rfl⟩ | ⟨g, h⟩ | h
        · exact Or.inl ⟨rfl, l0, .child h', rfl⟩
        · exact Or.inr (Or.inl ⟨g, .child h⟩)
        · exact Or.inr (Or.inr h)
      | sibl h =>
        rcases ihs h4 h with ⟨rfl, l0, h', rfl⟩ | ⟨g, h⟩ | h
        · exact Or.inl ⟨rfl, l0, .sibl h', rfl⟩
        · exact Or.inr (Or.inl ⟨g, .sibl h⟩)
        · exact Or.inr (Or.inr h)

theorem _root_.Roki.Spec.Forest.Rep.kid {h : List Node} {par o : Option ℕ} {t : LTree ℕ} (hr : Rep h par o t) {i : ℕ} {l : List ℕ} (hk : Kid t i l) :
    ∃ x, h[i]? = some x ∧ Sibs h x.child l := by
  induction hr with
  | nil => cases hk
  | node h1 _ hc _ ihc ihs =>
    cases hk with
    | here => exact ⟨_, h1, hc.sibs⟩
    | child hk => exact ihc hk
    | sibl hk => exact ihs hk

/-! ## The pointer operations -/

theorem set_ne {α : Type*} {l : List α} {i j : ℕ} {x : α} (h : j ≠ i) : (l.set i x)[j]? = l[j]? := by
  rw [List.getElem?_set_ne (Ne.symm h)]

theorem set_eq {α : Type*} {l : List α} {i : ℕ} {x y : α} (h : l[i]? = some y) : (l.set i x)[i]? = some x := by
  rw [List.getElem?_set_self (List.getElem?_eq_some_iff.1 h).1]

theorem addSibl_rep {h : List Node} {par : Option ℕ} {c : ℕ} {T : LTree ℕ} (hT : Rep h par (some c) T) (t : LTree ℕ) :
    ∀ {i : ℕ} (fuel : ℕ), Rep h par (some i) t → t.toList.Nodup → (∀ j ∈ t.toList, j ∉ T.toList) → t.toList.length ≤ fuel →
    ∃ m x, lastSibl h fuel i = some m ∧ h[m]? = some x ∧ m ∈ t.toList ∧
      Rep (h.set m { x with sibl := some c }) par (some i) (snoc t T) := by
  induction t with
  | nil => intro i fuel hr; cases hr
  | node a d s _ ihs =>
    intro i fuel hr hn hd hf
    obtain ⟨h1, h2, h3, h4, h5⟩ := nodup_node hn
    cases fuel with
    | zero => simp [LTree.toList] at hf
    | succ fuel =>
      cases hr with
      | @node _ _ x _ _ g1 g2 g3 g4 =>
        rcases hs : x.sibl with _ | j
        · rw [hs] at g4
          cases g4
          refine ⟨a, x, by simp only [lastSibl, g1, hs], g1, by simp [LTree.toList], ?_⟩
          refine .node (set_eq g1) g2 (g3.frame fun k hk => set_ne fun e => h1 (e ▸ hk)) ?_
          exact hT.frame fun k hk => set_ne fun e => hd a (by simp [LTree.toList]) (e ▸ hk)
        · rw [hs] at g4
          simp only [LTree.toList, List.length_cons, List.length_append] at hf
          obtain ⟨m, y, k1, k2, k3, k4⟩ := ihs fuel g4 h4 (fun k hk => hd k (by simp [LTree.toList, hk])) (by omega)
          refine ⟨m, y, by simp only [lastSibl, g1, hs, k1], k2, by simp [LTree.toList, k3], ?_⟩
          refine .node (x := x) ?_ g2 (g3.frame fun k hk => set_ne fun e => h5 k hk (e ▸ k3)) ?_
          · rw [set_ne (fun e : a = m => h2 (e ▸ k3)), g1]
          · rw [hs]; exact k4

/-- The second half of `addChild`. -/
def attach (h : List Node) (l cl : ℕ) : Option (List Node) :=
  h[l]?.bind fun n => match n.child with
    | none => some (h.set l { n with child := some cl })
    | some k => addSibl h k cl

theorem attach_parent {h h' : List Node} {l cl : ℕ} (hh : attach h l cl = some h') :
    h'.length = h.length ∧ ∀ i : ℕ, h'[i]?.map Node.parent = h[i]?.map Node.parent := by
  have key : ∀ {m : ℕ} {x y : Node}, h[m]? = some x → y.parent = x.parent →
      (h.set m y).length = h.length ∧ ∀ i : ℕ, (h.set m y)[i]?.map Node.parent = h[i]?.map Node.parent := by
    intro m x y hx hy
    refine ⟨List.length_set, fun i => ?_⟩
    by_cases hi : i = m
    · subst hi
      rw [set_eq hx, hx, Option.map_some, Option.map_some, hy]
    · rw [set_ne hi]
  obtain ⟨n, hn, hh⟩ := Option.bind_eq_some_iff.1 hh
  split at hh
  · obtain rfl := Option.some.inj hh
    exact key hn rfl
  · obtain ⟨m, _, hh⟩ := Option.bind_eq_some_iff.1 hh
    obtain ⟨x, hx, rfl⟩ := Option.map_eq_some_iff.1 hh
    exact key hx rfl

theorem attach_rep {h : List Node} {p c : ℕ} {T : LTree ℕ} (hT : Rep h (some p) (some c) T) (t : LTree ℕ) :
    ∀ {par o : Option ℕ}, Rep h par o t → t.toList.Nodup → (∀ j ∈ t.toList, j ∉ T.toList) → p ∈ t.toList →
      t.toList.length ≤ h.length →
      ∃ h', attach h p c = some h' ∧ Rep h' par o (graft p T t) ∧ ∀ j, j ∉ t.toList → h'[j]? = h[j]? := by
  induction t with
  | nil => intro par o _ _ _ hp; simp [LTree.toList] at hp
  | node a d s ihc ihs =>
    intro par o hr hn hd hp hlen
    obtain ⟨h1, h2, h3, h4, h5⟩ := nodup_node hn
    simp only [LTree.toList, List.length_cons, List.length_append] at hlen
    cases hr with
    | @node _ _ x _ _ g1 g2 g3 g4 =>
      by_cases he : a = p
      · subst he
        rw [graft, if_pos rfl]
        rcases hc : x.child with _ | k
        · rw [hc] at g3
          cases g3
          refine ⟨_, by simp only [attach, g1, Option.bind_some, hc]; rfl, ?_, ?_⟩
          · refine .node (set_eq g1) g2 ?_ (g4.frame fun k hk => set_ne fun e => h2 (e ▸ hk))
            exact hT.frame fun k hk => set_ne fun e => hd a (by simp [LTree.toList]) (e ▸ hk)
          · intro j hj
            exact set_ne fun e => hj (by simp [LTree.toList, e])
        · rw [hc] at g3
          obtain ⟨m, y, k1, k2, k3, k4⟩ := addSibl_rep hT d h.length g3 h3 (fun k hk => hd k (by simp [LTree.toList, hk]))
            (by omega)
          refine ⟨h.set m { y with sibl := some c }, ?_, ?_, ?_⟩
          · simp only [attach, g1, Option.bind_some, hc, addSibl, k1, k2, Option.map_some]
          · refine .node (x := x) ?_ g2 (hc ▸ k4) (g4.frame fun j hj => set_ne fun e => h5 m k3 (e ▸ hj))
            rw [set_ne (fun e : a = m => h1 (e ▸ k3)), g1]
          · intro j hj
            exact set_ne fun e => hj (by simp [LTree.toList, e, k3])
      · rw [graft, if_neg he]
        simp only [LTree.toList, List.mem_cons, List.mem_append] at hp
        rcases hp with rfl | hp | hp
        · exact absurd rfl he
        · obtain ⟨h', k1, k2, k3⟩ := ihc g3 h3 (fun j hj => hd j (by simp [LTree.toList, hj])) hp (by omega)
          refine ⟨h', k1, ?_, fun j hj => k3 j fun e => hj (by simp [LTree.toList, e])⟩
          rw [graft_not_mem (t := s) (h5 p hp)]
          exact .node ((k3 a h1).trans g1) g2 k2 (g4.frame fun j hj => k3 j fun e => h5 j e hj)
        · obtain ⟨h', k1, k2, k3⟩ := ihs g4 h4 (fun j hj => hd j (by simp [LTree.toList, hj])) hp (by omega)
          refine ⟨h', k1, ?_, fun j hj => k3 j fun e => hj (by simp [LTree.toList, e])⟩
          rw [graft_not_mem (t := d) fun e => h5 p e hp]
          exact .node ((k3 a h2).trans g1) g2 (g3.frame fun j hj => k3 j (h5 j hj)) k2

/-! ## The invariant -/

theorem kids_snoc (ops : List (ℕ × ℕ)) (p c i : ℕ) :
    kids (ops ++ [(p, c)]) i = kids ops i ++ if p = i then [c] else [] := by
  simp only [kids, List.filter_append, List.map_append]
  congr 1
  by_cases h : p = i <;> simp [h]

/-- The forest after the calls `ops`. -/
structure Inv (n : ℕ) (ops : List (ℕ × ℕ)) (h : List Node) (F : List (LTree ℕ)) : Prop where
  len : h.length = n
  trees : ∀ t ∈ F, ∃ r c, t = .node r c .nil ∧ Rep h none (some r) t
  perm : (F.flatMap LTree.toList).Perm (List.range n)
  par : ∀ i x, h[i]? = some x → ∀ p, x.parent = some p ↔ (p, i) ∈ ops
  kid : ∀ t ∈ F, ∀ i l, Kid t i l → l = kids ops i

theorem Inv.of_perm {n : ℕ} {ops : List (ℕ × ℕ)} {h : List Node} {F G : List (LTree ℕ)} (hi : Inv n ops h F) (hp : F.Perm G) :
    Inv n ops h G :=
  ⟨hi.len, fun t ht => hi.trees t (hp.mem_iff.2 ht), (hp.symm.flatMap_right _).trans hi.perm, hi.par,
    fun t ht => hi.kid t (hp.mem_iff.2 ht)⟩

theorem below_of_rep {ops : List (ℕ × ℕ)} {h : List Node} (hpar : ∀ i x, h[i]? = some x → ∀ p, x.parent = some p ↔ (p, i) ∈ ops)
    {r : ℕ} {par o : Option ℕ} {t : LTree ℕ} (hr : Rep h par o t) (hp : ∀ q, par = some q → Below ops r q)
    (ho : par = none → ∀ i ∈ t.sibls, i = r) : ∀ i ∈ t.toList, Below ops r i := by
  induction hr with
  | nil => simp [LTree.toList]
  | @node par j x c s h1 h2 _ _ ihc ihs =>
    have hj : Below ops r j := by
      rcases hq : par with _ | q
      · rw [ho hq j (by simp [LTree.sibls])]
        exact .refl
      · exact (hp q hq).tail ((hpar j x h1 q).1 (h2.trans hq))
    intro i hi
    simp only [LTree.toList, List.mem_cons, List.mem_append] at hi
    rcases hi with rfl | hi | hi
    · exact hj
    · exact ihc (fun q hq => Option.some.inj hq ▸ hj) (fun h => by simp at h) i hi
    · exact ihs hp (fun h k hk => ho h k (by simp [LTree.sibls, hk])) i hi

theorem Inv.nodup {n : ℕ} {ops : List (ℕ × ℕ)} {h : List Node} {F : List (LTree ℕ)} (hi : Inv n ops h F) :
    (F.flatMap LTree.toList).Nodup := hi.perm.nodup_iff.2 List.nodup_range

theorem Inv.mem {n : ℕ} {ops : List (ℕ × ℕ)} {h : List Node} {F : List (LTree ℕ)} (hi : Inv n ops h F) {i : ℕ} (hn : i < n) :
    ∃ t ∈ F, i ∈ t.toList := by
  have := hi.perm.mem_iff.2 (List.mem_range.2 hn)
  simpa using this

theorem Inv.nodup_tree {n : ℕ} {ops : List (ℕ × ℕ)} {h : List Node} {F : List (LTree ℕ)} (hi : Inv n ops h F) {t : LTree ℕ}
    (ht : t ∈ F) : t.toList.Nodup := (List.nodup_flatMap.1 hi.nodup).1 t ht

theorem Inv.unique {n : ℕ} {ops : List (ℕ × ℕ)} {h : List Node} {F : List (LTree ℕ)} (hi : Inv n ops h F) {t u : LTree ℕ}
    (ht : t ∈ F) (hu : u ∈ F) {i : ℕ} (h1 : i ∈ t.toList) (h2 : i ∈ u.toList) : t = u := by
  by_contra hne
  obtain ⟨a, ha⟩ := List.getElem_of_mem ht
  obtain ⟨b, hb⟩ := List.getElem_of_mem hu
  obtain ⟨ha', ha⟩ := ha
  obtain ⟨hb', hb⟩ := hb
  have hp := List.pairwise_iff_getElem.1 (List.nodup_flatMap.1 hi.nodup).2
  rcases lt_trichotomy a b with hab | rfl | hab
  · have := hp a b ha' hb' hab
    simp only [Function.onFun, ha, hb] at this
    exact this h1 h2
  · exact hne (ha.symm.trans hb)
  · have := hp b a hb' ha' hab
    simp only [Function.onFun, ha, hb] at this
    exact this h2 h1

theorem Inv.root {n : ℕ} {ops : List (ℕ × ℕ)} {h : List Node} {F : List (LTree ℕ)} (hi : Inv n ops h F) {i : ℕ} {x : Node}
    (hx : h[i]? = some x) (hp : x.parent = none) : ∃ c, LTree.node i c .nil ∈ F := by
  obtain ⟨t, ht, hit⟩ := hi.mem (hi.len ▸ (List.getElem?_eq_some_iff.1 hx).1)
  obtain ⟨r, c, rfl, hr⟩ := hi.trees t ht
  rcases hr.parent hit hx with ⟨_, h⟩ | ⟨q, _, h⟩
  · simp only [LTree.sibls, List.mem_singleton] at h
    exact ⟨c, h ▸ ht⟩
  · rw [hp] at h; simp at h

theorem Inv.mem_iff {n : ℕ} {ops : List (ℕ × ℕ)} {h : List Node} {F : List (LTree ℕ)} (hi : Inv n ops h F)
    (hlt : ∀ p c, (p, c) ∈ ops → c < n) {r : ℕ} {c : LTree ℕ} (ht : LTree.node r c .nil ∈ F) (j : ℕ) :
    j ∈ (LTree.node r c .nil).toList ↔ Below ops r j := by
  obtain ⟨r', c', he, hr⟩ := hi.trees _ ht
  obtain ⟨rfl, rfl, _⟩ := LTree.node.inj he
  constructor
  · exact below_of_rep hi.par hr (fun q hq => by simp at hq) (fun _ i hi => by simpa [LTree.sibls] using hi) j
  · intro hb
    induction hb with
    | refl => simp [LTree.toList]
    | @tail b d _ hbd ih =>
      have hd := hlt b d hbd
      obtain ⟨u, hu, hdu⟩ := hi.mem hd
      obtain ⟨x, hx⟩ : ∃ x, h[d]? = some x := ⟨_, List.getElem?_eq_getElem (hi.len.symm ▸ hd)⟩
      obtain ⟨r', c', rfl, hr'⟩ := hi.trees u hu
      have hxp := (hi.par d x hx b).2 hbd
      rcases hr'.parent hdu hx with ⟨h, _⟩ | ⟨q, hq, h⟩
      · rw [hxp] at h; simp at h
      · rw [hxp] at h
        obtain rfl := Option.some.inj h
        exact hi.unique hu ht hq ih ▸ hdu

theorem Inv.step {n : ℕ} {ops : List (ℕ × ℕ)} {h : List Node} {F : List (LTree ℕ)} (hi : Inv n ops h F) {p c : ℕ} (hp : p < n)
    (hc : c < n) (hfree : ∀ q, (q, c) ∉ ops) (hb : ¬ Below ops c p) :
    ∃ h' F', addChild h p c = some h' ∧ Inv n (ops ++ [(p, c)]) h' F' := by
  obtain ⟨x, hx⟩ : ∃ x, h[c]? = some x := ⟨_, List.getElem?_eq_getElem (hi.len.symm ▸ hc)⟩
  have hxp : x.parent = none := by
    rcases hq : x.parent with _ | q
    · rfl
    · exact absurd ((hi.par c x hx q).1 hq) (hfree q)
  obtain ⟨cc, hT⟩ := hi.root hx hxp
  obtain ⟨t, ht, hpt⟩ := hi.mem hp
  have hne : t ≠ LTree.node c cc .nil := by
    rintro rfl
    obtain ⟨r', c', he, hr⟩ := hi.trees _ hT
    obtain ⟨rfl, rfl, _⟩ := LTree.node.inj he
    exact hb (below_of_rep hi.par hr (fun q hq => by simp at hq) (fun _ i hi => by simpa [LTree.sibls] using hi) p hpt)
  -- bring the two trees to the front
  have hperm : F.Perm (LTree.node c cc .nil :: t :: (F.erase (LTree.node c cc .nil)).erase t) :=
    (List.perm_cons_erase hT).trans ((List.perm_cons_erase ((List.mem_erase_of_ne hne).2 ht)).cons _)
  generalize (F.erase (LTree.node c cc .nil)).erase t = G at hperm
  replace hi := hi.of_perm hperm
  clear hperm hT ht F
  have hT : LTree.node c cc .nil ∈ LTree.node c cc .nil :: t :: G := by simp
  have ht : t ∈ LTree.node c cc .nil :: t :: G := by simp
  have hnd := hi.nodup
  simp only [List.flatMap_cons, List.nodup_append'] at hnd
  obtain ⟨hn1, ⟨hn2, hn3, hn4⟩, hn5⟩ := hnd
  obtain ⟨r', c', he, hr⟩ := hi.trees _ hT
  obtain ⟨rfl, rfl, _⟩ := LTree.node.inj he
  have hcc := nodup_node hn1
  -- the parent pointer
  set h1 := h.set c { x with parent := some p } with hh1
  have hframe : ∀ j, j ≠ c → h1[j]? = h[j]? := fun j hj => set_ne hj
  have hT1 : Rep h1 (some p) (some c) (.node c cc .nil) := by
    cases hr with
    | @node _ _ y _ _ g1 g2 g3 g4 =>
      obtain rfl := Option.some.inj (hx.symm.trans g1)
      refine .node (set_eq hx) rfl (g3.frame fun j hj => hframe j fun e => hcc.1 (e ▸ hj)) ?_
      change Rep h1 (some p) x.sibl .nil
      generalize x.sibl = o at g4
      cases g4
      exact .nil _
  have hdis : ∀ j ∈ t.toList, j ∉ (LTree.node c cc .nil).toList := fun j hj hj' =>
    hn5 hj' (List.mem_append_left _ hj)
  have hct : c ∉ t.toList := fun hct => hdis c hct (by simp [LTree.toList])
  obtain ⟨r, tc, rfl, hrt⟩ := hi.trees t ht
  have hrt1 : Rep h1 none (some r) (.node r tc .nil) := hrt.frame fun j hj => hframe j fun e => hct (e ▸ hj)
  obtain ⟨h', k1, k2, k3⟩ := attach_rep hT1 _ hrt1 hn2 hdis hpt (by
    have := List.Nodup.length_le_of_subset hn2 (l₂ := List.range h1.length)
      (fun j hj => List.mem_range.2 (hrt1.lt j hj))
    simpa using this)
  obtain ⟨k4, k5⟩ := attach_parent k1
  refine ⟨h', graft p (.node c cc .nil) (.node r tc .nil) :: G, ?_, ?_, ?_, ?_, ?_, ?_⟩
  · rw [addChild, hx]
    exact k1
  · rw [k4, hh1, List.length_set, hi.len]
  · intro u hu
    rcases List.mem_cons.1 hu with rfl | hu
    · have : ∃ c', graft p (.node c cc .nil) (.node r tc .nil) = .node r c' .nil := by
        rw [graft]; split_ifs
        · exact ⟨_, rfl⟩
        · exact ⟨_, rfl⟩
      obtain ⟨c', hc'⟩ := this
      exact ⟨r, c', hc', k2⟩
    · obtain ⟨s, d, rfl, hs⟩ := hi.trees u (by simp [hu])
      refine ⟨s, d, rfl, hs.frame fun j hj => ?_⟩
      have hjG : j ∈ G.flatMap LTree.toList := List.mem_flatMap.2 ⟨_, hu, hj⟩
      rw [k3 j fun e => hn4 e hjG]
      exact hframe j fun e => hn5 (by simp [LTree.toList, e]) (List.mem_append_right _ hjG)
  · refine List.Perm.trans ?_ hi.perm
    simp only [List.flatMap_cons]
    refine ((perm_graft hn2 hpt).append_right _).trans ?_
    rw [List.append_assoc, ← List.append_assoc, ← List.append_assoc]
    exact List.Perm.append_right _ List.perm_append_comm
  · intro i y hy q
    have h5 := k5 i
    rw [hy, Option.map_some] at h5
    simp only [List.mem_append, List.mem_singleton, Prod.mk.injEq]
    by_cases hic : i = c
    · subst hic
      rw [hh1, set_eq hx, Option.map_some] at h5
      rw [Option.some.inj h5]
      simp only [Option.some.injEq, and_true]
      constructor
      · exact fun e => Or.inr e.symm
      · rintro (h | h)
        · exact absurd h (hfree q)
        · exact h.symm
    · rw [hframe i hic] at h5
      obtain ⟨z, hz, hzp⟩ := Option.map_eq_some_iff.1 h5.symm
      rw [← hzp, hi.par i z hz q]
      simp [hic]
  · intro u hu i l hk
    rw [kids_snoc]
    have hpT : p ∉ (LTree.node c cc .nil).toList := fun e => hdis p hpt e
    rcases List.mem_cons.1 hu with rfl | hu
    · rcases Kid.graft hn2 hk with ⟨rfl, l0, h0, rfl⟩ | ⟨hip, hk⟩ | hk
      · rw [hi.kid _ ht _ _ h0, if_pos rfl]
      · rw [if_neg (Ne.symm hip), List.append_nil]
        exact hi.kid _ ht _ _ hk
      · rw [if_neg (fun e : p = i => hpT (e ▸ hk.mem)), List.append_nil]
        exact hi.kid _ hT _ _ hk
    · rw [if_neg, List.append_nil]
      · exact hi.kid u (by simp [hu]) _ _ hk
      · rintro rfl
        exact hn4 hpt (List.mem_flatMap.2 ⟨_, hu, hk.mem⟩)

theorem inv_init (n : ℕ) : Inv n [] (init n) ((List.range n).map fun i => .node i .nil .nil) := by
  have hg : ∀ i < n, (init n)[i]? = some ⟨none, none, none⟩ := fun i hi => by simp [init, hi]
  refine ⟨by simp [init], ?_, ?_, ?_, ?_⟩
  · intro t ht
    obtain ⟨i, hi, rfl⟩ := List.mem_map.1 ht
    exact ⟨i, .nil, rfl, .node (hg i (List.mem_range.1 hi)) rfl (.nil _) (.nil _)⟩
  · have : ((List.range n).map fun i => LTree.node i .nil .nil).flatMap LTree.toList = List.range n := by
      rw [List.flatMap_map]
      simp [LTree.toList]
    rw [this]
  · intro i x hx p
    have hi := (List.getElem?_eq_some_iff.1 hx).1
    rw [hg i (by simpa [init] using hi)] at hx
    obtain rfl := Option.some.inj hx
    simp
  · intro t ht i l hk
    obtain ⟨j, _, rfl⟩ := List.mem_map.1 ht
    cases hk with
    | here => rfl
    | child h => cases h
    | sibl h => cases h

theorem build_inv (n : ℕ) (ops : List (ℕ × ℕ)) : Proper n ops → ∃ h F, build n ops = some h ∧ Inv n ops h F := by
  induction ops using List.reverseRecOn with
  | nil => exact fun _ => ⟨_, _, rfl, inv_init n⟩
  | append_singleton ops op ih =>
    intro hp
    obtain ⟨h, F, h1, h2⟩ := ih fun pre p c post e => hp pre p c (post ++ [op]) (by rw [e]; simp)
    obtain ⟨p, c⟩ := op
    obtain ⟨g1, g2, g3, g4⟩ := hp ops p c [] rfl
    obtain ⟨h', F', h3, h4⟩ := h2.step g1 g2 g3 g4
    refine ⟨h', F', ?_, h4⟩
    rw [build, List.foldlM_append]
    change (build n ops).bind _ = _
    rw [h1, Option.bind_some, List.foldlM_cons]
    change (addChild h p c).bind _ = _
    rw [h3]
    rfl

theorem Proper.lt {n : ℕ} {ops : List (ℕ × ℕ)} (hp : Proper n ops) {p c : ℕ} (h : (p, c) ∈ ops) : c < n := by
  obtain ⟨pre, post, e⟩ := List.append_of_mem h
  exact (hp pre p c post e).2.1

theorem Inv.isForest {n : ℕ} {ops : List (ℕ × ℕ)} {h : List Node} {F : List (LTree ℕ)} (hi : Inv n ops h F)
    (hlt : ∀ p c, (p, c) ∈ ops → c < n) : IsForest n ops h := by
  refine ⟨hi.len, hi.par, ?_, ?_⟩
  · intro i x hx
    obtain ⟨t, ht, hit⟩ := hi.mem (hi.len ▸ (List.getElem?_eq_some_iff.1 hx).1)
    obtain ⟨l, hl⟩ := Kid.exists hit
    obtain ⟨r, c, _, hr⟩ := hi.trees t ht
    obtain ⟨y, hy, hs⟩ := hr.kid hl
    obtain rfl := Option.some.inj (hx.symm.trans hy)
    rwa [hi.kid t ht i l hl] at hs
  · intro i x hx hp
    obtain ⟨c, ht⟩ := hi.root hx hp
    obtain ⟨r, c', he, hr⟩ := hi.trees _ ht
    obtain ⟨rfl, rfl, _⟩ := LTree.node.inj he
    exact ⟨_, hr.visits, hi.nodup_tree ht, hi.mem_iff hlt ht⟩

end Roki.LinkHeap
