import Verif.Spec.Renumber
import Verif.Props.Placed
set_option autoImplicit false

/-! # Lemmas: renumbered chains (C110) -/

namespace Roki
set_option linter.unusedSectionVars false
open Spec LinkArray

/-- `Pick t j c r`: the element `j`, with the children `c`, is one of the top-level siblings of `t`; the other siblings are `r`. -/
inductive Pick {β : Type*} : LTree β → β → LTree β → LTree β → Prop
  | here (j : β) (c s : LTree β) : Pick (.node j c s) j c s
  | there {k : β} {d s : LTree β} {j : β} {c r : LTree β} : Pick s j c r → Pick (.node k d s) j c (.node k d r)

/-- The tree `t` is the tree `s` with every label replaced by its image and the siblings in another order. -/
inductive Iso {α β : Type*} (σ : α → β) : LTree α → LTree β → Prop
  | nil : Iso σ .nil .nil
  | node {i : α} {c s : LTree α} {t c' r : LTree β} : Pick t (σ i) c' r → Iso σ c c' → Iso σ s r → Iso σ (.node i c s) t

section
variable {α β : Type*}

theorem isPath_ne {t : LTree α} {p : List α} (h : IsPath t p) : p ≠ [] := by
  induction h with
  | here => simp
  | child => simp
  | sibl _ ih => exact ih

theorem Pick.of_path {t : LTree β} {j : β} {p : List β} (h : IsPath t p) (hp : p = [j]) : ∃ c r, Pick t j c r := by
  induction h with
  | here a c s => cases hp; exact ⟨_, _, .here _ _ _⟩
  | child h => cases hp; exact absurd rfl (isPath_ne h)
  | sibl _ ih => obtain ⟨c, r, h⟩ := ih hp; exact ⟨_, _, .there h⟩

theorem Pick.path_iff {t : LTree β} {j : β} {c r : LTree β} (h : Pick t j c r) (q : List β) :
    IsPath t q ↔ IsPath (.node j c r) q := by
  induction h with
  | here => rfl
  | there h ih =>
    constructor
    · intro hq
      cases hq with
      | here => exact .sibl (.here _ _ _)
      | child h => exact .sibl (.child h)
      | sibl h =>
        cases ih.1 h with
        | here => exact .here _ _ _
        | child h1 => exact .child h1
        | sibl h1 => exact .sibl (.sibl h1)
    · intro hq
      cases hq with
      | here => exact .sibl (ih.2 (.here _ _ _))
      | child h => exact .sibl (ih.2 (.child h))
      | sibl h =>
        cases h with
        | here => exact .here _ _ _
        | child h => exact .child h
        | sibl h => exact .sibl (ih.2 (.sibl h))

theorem Pick.perm {t : LTree β} {j : β} {c r : LTree β} (h : Pick t j c r) : t.toList.Perm (LTree.node j c r).toList := by
  induction h with
  | here => rfl
  | @there k d s j c r h ih =>
    simp only [LTree.toList] at ih ⊢
    calc (k :: (d.toList ++ s.toList)).Perm (k :: (d.toList ++ (j :: (c.toList ++ r.toList)))) := (ih.append_left _).cons _
      _ |>.Perm (j :: (c.toList ++ (k :: (d.toList ++ r.toList)))) := by
        classical
        rw [List.perm_iff_count]
        intro a
        simp only [List.count_cons, List.count_append]
        omega

theorem path_split {i : α} {c s : LTree α} (hn : (LTree.node i c s).toList.Nodup) (p : List α) :
    (IsPath c p ↔ IsPath (.node i c s) (i :: p) ∧ p ≠ []) ∧
    (IsPath s p ↔ IsPath (.node i c s) p ∧ p.head? ≠ some i) := by
  simp only [LTree.toList, List.nodup_cons, List.mem_append, not_or] at hn
  refine ⟨⟨fun h => ⟨.child h, isPath_ne h⟩, ?_⟩, ⟨fun h => ⟨.sibl h, ?_⟩, ?_⟩⟩
  · rintro ⟨h, h0⟩
    cases h with
    | here => exact absurd rfl h0
    | child h => exact h
    | sibl h => exact absurd (h.mem i (by simp)) hn.1.2
  · intro e
    exact hn.1.2 (h.mem i (List.mem_of_head? e))
  · rintro ⟨h, h0⟩
    cases h with
    | here => exact absurd rfl h0
    | child h => exact absurd rfl h0
    | sibl h => exact h

theorem iso_of_paths {σ : α → β} {s : LTree α} {t : LTree β} (hs : s.toList.Nodup) (ht : t.toList.Nodup)
    (inj : ∀ i ∈ s.toList, ∀ j ∈ s.toList, σ i = σ j → i = j)
    (H : ∀ q, IsPath t q ↔ ∃ p, IsPath s p ∧ q = p.map σ) : Iso σ s t := by
  induction s generalizing t with
  | nil =>
    cases t with
    | nil => exact .nil
    | node j c r =>
      obtain ⟨p, hp, -⟩ := (H [j]).1 (.here _ _ _)
      cases hp
  | node i c s ihc ihs =>
    obtain ⟨c', r, hp⟩ := Pick.of_path ((H [σ i]).2 ⟨[i], .here _ _ _, rfl⟩) rfl
    have hn' := hp.perm.nodup_iff.1 ht
    have H' : ∀ q, IsPath (.node (σ i) c' r) q ↔ ∃ p, IsPath (.node i c s) p ∧ q = p.map σ := fun q => (hp.path_iff q).symm.trans (H q)
    have hs' := hs
    have ht' := hn'
    simp only [LTree.toList, List.nodup_cons, List.nodup_append] at hs' ht'
    have hmem : ∀ p, IsPath (.node i c s) p → ∀ k ∈ p, k ∈ (LTree.node i c s).toList := fun p h k hk => h.mem k hk
    refine .node hp (ihc hs'.2.1 ht'.2.1 (fun a ha b hb => inj a (by simp [LTree.toList, ha]) b (by simp [LTree.toList, hb])) ?_)
      (ihs hs'.2.2.1 ht'.2.2.1 (fun a ha b hb => inj a (by simp [LTree.toList, ha]) b (by simp [LTree.toList, hb])) ?_)
    · intro q
      rw [(path_split hn' q).1, H']
      constructor
      · rintro ⟨⟨p, h1, h2⟩, h0⟩
        rcases p with _ | ⟨k, p⟩
        · simp at h2
        simp only [List.map_cons, List.cons.injEq] at h2
        obtain rfl := inj i (by simp [LTree.toList]) k (hmem _ h1 k (by simp)) h2.1
        refine ⟨p, ((path_split hs p).1).2 ⟨h1, ?_⟩, h2.2⟩
        rintro rfl
        exact h0 (by simpa using h2.2)
      · rintro ⟨p, h1, rfl⟩
        obtain ⟨h2, h3⟩ := ((path_split hs p).1).1 h1
        exact ⟨⟨_, h2, rfl⟩, by simpa using h3⟩
    · intro q
      rw [(path_split hn' q).2, H']
      constructor
      · rintro ⟨⟨p, h1, rfl⟩, h0⟩
        refine ⟨p, ((path_split hs p).2).2 ⟨h1, fun e => h0 ?_⟩, rfl⟩
        rw [List.head?_map, e]; rfl
      · rintro ⟨p, h1, rfl⟩
        obtain ⟨h2, h3⟩ := ((path_split hs p).2).1 h1
        refine ⟨⟨_, h2, rfl⟩, fun e => h3 ?_⟩
        rw [List.head?_map, Option.map_eq_some_iff] at e
        obtain ⟨k, hk, e⟩ := e
        rw [hk, inj k (hmem _ h2 k (List.mem_of_head? hk)) i (by simp [LTree.toList]) e]

end

variable {K : Type*} [Field K]

/-- A run of inverse dynamics on a tree, seen from one of its siblings. -/
theorem pick_run {t : LTree ℕ} {j : ℕ} {c r : LTree ℕ} (h : Pick t j c r) {ms ms2 : List (Link K)} {B : LTree (Link K)} {v a : Vec6 K}
    (h1 : Chain.gather ms t = some B) (h2 : Chain.gather ms2 t = some (B.updateRate v a).updateWrench) :
    ∃ D, Chain.gather ms (.node j c r) = some D ∧ Chain.gather ms2 (.node j c r) = some (D.updateRate v a).updateWrench ∧
      (D.updateRate v a).updateWrench.addChildWrench 0 = (B.updateRate v a).updateWrench.addChildWrench 0 := by
  induction h generalizing B with
  | here => exact ⟨B, h1, h2, rfl⟩
  | @there k d s j c r h ih =>
    obtain ⟨b, Bd, Bs, b1, b2, b3, rfl⟩ := Chain.gather_node.1 h1
    obtain ⟨q, Qd, Qs, q1, q2, q3, eQ⟩ := Chain.gather_node.1 h2
    simp only [LTree.updateRate, LTree.updateWrench, LTree.node.injEq] at eQ
    obtain ⟨e1, e2, e3⟩ := eQ
    obtain ⟨D, g1, g2, g3⟩ := ih b3 (by rw [q3, e3])
    obtain ⟨x, X1, X2, x1, x2, x3, rfl⟩ := Chain.gather_node.1 g1
    obtain ⟨y, Y1, Y2, y1, y2, y3, eY⟩ := Chain.gather_node.1 g2
    simp only [LTree.updateRate, LTree.updateWrench, LTree.node.injEq] at eY
    obtain ⟨f1, f2, f3⟩ := eY
    refine ⟨.node x X1 (.node b Bd X2), ?_, ?_, ?_⟩
    · exact Chain.gather_node.2 ⟨_, _, _, x1, x2, Chain.gather_node.2 ⟨_, _, _, b1, b2, x3, rfl⟩, rfl⟩
    · refine Chain.gather_node.2 ⟨_, _, _, y1, y2, Chain.gather_node.2 ⟨_, _, _, q1, q2, y3, rfl⟩, ?_⟩
      simp only [LTree.updateRate, LTree.updateWrench, LTree.node.injEq]
      exact ⟨f1, f2, e1, e2, f3⟩
    · simp only [LTree.updateRate, LTree.updateWrench, LTree.addChildWrench] at g3 ⊢
      rw [LTree.addChildWrench_eq] at g3 ⊢
      rw [LTree.addChildWrench_eq (Bs.updateRate v a).updateWrench, ← g3]
      abel

/-- What two links must share for inverse dynamics to treat them alike. -/
structure Twin (x y : Link K) : Prop where
  still : x.joint.prp.still = y.joint.prp.still
  vel : x.joint.prp.getVel = y.joint.prp.getVel
  acc : x.joint.prp.getAcc = y.joint.prp.getAcc
  mp : x.body.mp = y.body.mp
  extw : x.body.extw = y.body.extw
  adj : x.adj = y.adj

/-- What inverse dynamics reports of two links. -/
structure SameID (x y : Link K) : Prop where
  vel : y.body.vel = x.body.vel
  acc : y.body.acc = x.body.acc
  wrench : y.joint.wrench = x.joint.wrench
  trq : y.joint.prp.getTrq = x.joint.prp.getTrq

theorem calcTrq_twin {p q : Prp K} (h : p.still = q.still) (w : Vec6 K) : (q.calcTrq w).getTrq = (p.calcTrq w).getTrq := by
  have := calcTrq_blend h h 1 0 w w
  rw [show (1 : K) • w + (0 : K) • w = w by vec_ring] at this
  rw [this]; simp

theorem iso_run {σ : ℕ → ℕ} {s t : LTree ℕ} (h : Iso σ s t) {ls ls2 ms ms2 : List (Link K)}
    (tw : ∀ i ∈ s.toList, ∀ x y, ls[i]? = some x → ms[σ i]? = some y → Twin x y) {A B : LTree (Link K)} {v a : Vec6 K}
    (h1 : Chain.gather ls s = some A) (h2 : Chain.gather ls2 s = some (A.updateRate v a).updateWrench)
    (h3 : Chain.gather ms t = some B) (h4 : Chain.gather ms2 t = some (B.updateRate v a).updateWrench) :
    (∀ i ∈ s.toList, ∀ x y, ls2[i]? = some x → ms2[σ i]? = some y → SameID x y) ∧
    (B.updateRate v a).updateWrench.addChildWrench 0 = (A.updateRate v a).updateWrench.addChildWrench 0 := by
  induction h generalizing A B v a with
  | nil =>
    simp only [Chain.gather, Option.some.injEq] at h1 h3
    subst h1 h3
    simp [LTree.toList]
  | @node i c s t c' r hp hc hs ihc ihs =>
    obtain ⟨D, g1, g2, g3⟩ := pick_run hp h3 h4
    obtain ⟨x, X1, X2, x1, x2, x3, rfl⟩ := Chain.gather_node.1 h1
    obtain ⟨y, Y1, Y2, y1, y2, y3, rfl⟩ := Chain.gather_node.1 g1
    obtain ⟨p, P1, P2, p1, p2, p3, eP⟩ := Chain.gather_node.1 h2
    obtain ⟨q, Q1, Q2, q1, q2, q3, eQ⟩ := Chain.gather_node.1 g2
    simp only [LTree.updateRate, LTree.updateWrench, LTree.node.injEq] at eP eQ
    obtain ⟨e1, e2, e3⟩ := eP
    obtain ⟨f1, f2, f3⟩ := eQ
    obtain ⟨k1, k2, k3, k4, k5, k6⟩ := tw i (by simp [LTree.toList]) x y x1 y1
    obtain ⟨t1, t2, t3⟩ := prp_rates k1 k2 k3
    have rv : (y.updateRate1 v a).body.vel = (x.updateRate1 v a).body.vel := by
      rw [(updateRate1_eq x _ _).1, (updateRate1_eq y _ _).1, t1, k6]
    have ra : (y.updateRate1 v a).body.acc = (x.updateRate1 v a).body.acc := by
      rw [(updateRate1_eq x _ _).2, (updateRate1_eq y _ _).2, rv, t2, t3, k6]
    obtain ⟨a1, a2⟩ := ihc (fun n hn => tw n (by simp [LTree.toList, hn])) x2 (by rw [p2, ← e2])
      (v := (x.updateRate1 v a).body.vel) (a := (x.updateRate1 v a).body.acc) y2 (by rw [q2, ← f2, rv, ra])
    obtain ⟨b1, b2⟩ := ihs (fun n hn => tw n (by simp [LTree.toList, hn])) x3 (by rw [p3, ← e3]) y3 (by rw [q3, ← f3])
    have hown : (y.updateRate1 v a).body.netWrench.angShift (y.updateRate1 v a).body.mp.com =
        (x.updateRate1 v a).body.netWrench.angShift (x.updateRate1 v a).body.mp.com := by
      rw [updateRate1_own x, updateRate1_own y, rv, ra, k4]
    have hext : (y.updateRate1 v a).body.calcExtWrench = (x.updateRate1 v a).body.calcExtWrench := by
      show WrenchList.net y.body.extw = WrenchList.net x.body.extw
      rw [k5]
    have hw : q.joint.wrench = p.joint.wrench := by
      rw [← e1, ← f1]
      dsimp only
      rw [LTree.addChildWrench_eq, rv, ra, a2, hown, hext]
      rw [LTree.addChildWrench_eq _ ((x.updateRate1 v a).body.netWrench.angShift (x.updateRate1 v a).body.mp.com)]
    have hst : (x.updateRate1 v a).joint.prp.still = (y.updateRate1 v a).joint.prp.still := k1
    have hself : SameID p q := by
      refine ⟨?_, ?_, hw, ?_⟩
      · rw [← e1, ← f1]; exact rv
      · rw [← e1, ← f1]; exact ra
      · have ew := hw
        rw [← e1, ← f1] at ew ⊢
        dsimp only at ew ⊢
        rw [ew]
        exact calcTrq_twin hst _
    constructor
    · intro n hn x' y' hx hy
      simp only [LTree.toList, List.mem_cons, List.mem_append] at hn
      rcases hn with rfl | hn | hn
      · rw [hx] at p1; rw [hy] at q1; cases p1; cases q1; exact hself
      · exact a1 n hn x' y' hx hy
      · exact b1 n hn x' y' hx hy
    · rw [← g3]
      simp only [LTree.updateRate, LTree.updateWrench, LTree.addChildWrench]
      rw [LTree.addChildWrench_eq, b2]
      rw [LTree.addChildWrench_eq (X2.updateRate v a).updateWrench (0 + Frame.xform6Ang _ _)]
      have hw' := hw
      rw [← e1, ← f1] at hw'
      dsimp only at hw'
      rw [hw']
      rw [show (y.updateRate1 v a).adj = (x.updateRate1 v a).adj from k6.symm]

end Roki
