import Verif.Spec.History
import Verif.Lemmas.Renumber
import Verif.Props.Renumber
import Verif.Lemmas.ABITree
set_option autoImplicit false

/-! # Lemmas: histories of renumbered chains (C113) -/

namespace Roki
set_option linter.unusedSectionVars false
open Spec LinkArray
variable {K : Type*}

/-! ## Passes from the root to the leaves -/

theorem pick_down {St : Type*} {f : St → Link K → Link K} {g : Link K → St} {t : LTree ℕ} {j : ℕ} {c r : LTree ℕ} (h : Pick t j c r)
    {ms ms2 : List (Link K)} {B : LTree (Link K)} {v : St}
    (h1 : Chain.gather ms t = some B) (h2 : Chain.gather ms2 t = some (B.down f g v)) :
    ∃ D, Chain.gather ms (.node j c r) = some D ∧ Chain.gather ms2 (.node j c r) = some (D.down f g v) := by
  induction h generalizing B with
  | here => exact ⟨B, h1, h2⟩
  | @there k d s j c r h ih =>
    obtain ⟨b, Bd, Bs, b1, b2, b3, rfl⟩ := Chain.gather_node.1 h1
    obtain ⟨q, Qd, Qs, q1, q2, q3, eQ⟩ := Chain.gather_node.1 h2
    simp only [LTree.down, LTree.node.injEq] at eQ
    obtain ⟨e1, e2, e3⟩ := eQ
    obtain ⟨D, g1, g2⟩ := ih b3 (by rw [q3, e3])
    obtain ⟨x, X1, X2, x1, x2, x3, rfl⟩ := Chain.gather_node.1 g1
    obtain ⟨y, Y1, Y2, y1, y2, y3, eY⟩ := Chain.gather_node.1 g2
    simp only [LTree.down, LTree.node.injEq] at eY
    obtain ⟨f1, f2, f3⟩ := eY
    refine ⟨.node x X1 (.node b Bd X2), ?_, ?_⟩
    · exact Chain.gather_node.2 ⟨_, _, _, x1, x2, Chain.gather_node.2 ⟨_, _, _, b1, b2, x3, rfl⟩, rfl⟩
    · refine Chain.gather_node.2 ⟨_, _, _, y1, y2, Chain.gather_node.2 ⟨_, _, _, q1, q2, y3, rfl⟩, ?_⟩
      simp only [LTree.down, LTree.node.injEq]
      exact ⟨f1, f2, e1, e2, f3⟩

theorem iso_down {St : Type*} {f : St → Link K → Link K} {g : Link K → St}
    (hf : ∀ v x y, SameLink x y → SameLink (f v x) (f v y)) (hg : ∀ x y, SameLink x y → g y = g x)
    {σ : ℕ → ℕ} {s t : LTree ℕ} (h : Iso σ s t) {ls ls2 ms ms2 : List (Link K)}
    (tw : ∀ i ∈ s.toList, ∀ x y, ls[i]? = some x → ms[σ i]? = some y → SameLink x y) {A B : LTree (Link K)} {v : St}
    (h1 : Chain.gather ls s = some A) (h2 : Chain.gather ls2 s = some (A.down f g v))
    (h3 : Chain.gather ms t = some B) (h4 : Chain.gather ms2 t = some (B.down f g v)) :
    ∀ i ∈ s.toList, ∀ x y, ls2[i]? = some x → ms2[σ i]? = some y → SameLink x y := by
  induction h generalizing A B v with
  | nil => simp [LTree.toList]
  | @node i c s t c' r hp hc hs ihc ihs =>
    obtain ⟨D, g1, g2⟩ := pick_down hp h3 h4
    obtain ⟨x, X1, X2, x1, x2, x3, rfl⟩ := Chain.gather_node.1 h1
    obtain ⟨y, Y1, Y2, y1, y2, y3, rfl⟩ := Chain.gather_node.1 g1
    obtain ⟨p, P1, P2, p1, p2, p3, eP⟩ := Chain.gather_node.1 h2
    obtain ⟨q, Q1, Q2, q1, q2, q3, eQ⟩ := Chain.gather_node.1 g2
    simp only [LTree.down, LTree.node.injEq] at eP eQ
    obtain ⟨e1, e2, e3⟩ := eP
    obtain ⟨f1, f2, f3⟩ := eQ
    have hxy := hf v x y (tw i (by simp [LTree.toList]) x y x1 y1)
    intro n hn x' y' hx hy
    simp only [LTree.toList, List.mem_cons, List.mem_append] at hn
    rcases hn with rfl | hn | hn
    · rw [hx] at p1; rw [hy] at q1; cases p1; cases q1; rw [← e1, ← f1]; exact hxy
    · exact ihc (fun n hn => tw n (by simp [LTree.toList, hn])) x2 (by rw [p2, ← e2]) y2
        (by rw [q2, ← f2, hg _ _ hxy]) n hn x' y' hx hy
    · exact ihs (fun n hn => tw n (by simp [LTree.toList, hn])) x3 (by rw [p3, ← e3]) y3 (by rw [q3, ← f3]) n hn x' y' hx hy

/-! ## Passes from the leaves to the root -/

/-- A pass from the leaves to the root: a link gets what its children give, unless its test says that its children are to be left alone. -/
def LTree.up {α M : Type*} (b : α → Bool) (h : α → M → α) (h0 : α → α) (e : α → M) (z : M) (add : M → M → M) : LTree α → LTree α × M
  | .nil => (.nil, z)
  | .node l c s =>
    let c' := if b l then up b h h0 e z add c else (c, z)
    let l' := if b l then h l c'.2 else h0 l
    let s' := up b h h0 e z add s
    (.node l' c'.1 s'.1, add (e l') s'.2)

section
variable {M : Type*} {b : Link K → Bool} {h : Link K → M → Link K} {h0 : Link K → Link K} {e : Link K → M} {z : M} {add : M → M → M}

theorem pick_up (lc : ∀ x y w, add x (add y w) = add y (add x w)) {t : LTree ℕ} {j : ℕ} {c r : LTree ℕ} (hp : Pick t j c r)
    {ms ms2 : List (Link K)} {B : LTree (Link K)}
    (h1 : Chain.gather ms t = some B) (h2 : Chain.gather ms2 t = some (B.up b h h0 e z add).1) :
    ∃ D, Chain.gather ms (.node j c r) = some D ∧ Chain.gather ms2 (.node j c r) = some (D.up b h h0 e z add).1 ∧
      (D.up b h h0 e z add).2 = (B.up b h h0 e z add).2 := by
  induction hp generalizing B with
  | here => exact ⟨B, h1, h2, rfl⟩
  | @there k d s j c r hp ih =>
    obtain ⟨u, Bd, Bs, b1, b2, b3, rfl⟩ := Chain.gather_node.1 h1
    obtain ⟨q, Qd, Qs, q1, q2, q3, eQ⟩ := Chain.gather_node.1 h2
    simp only [LTree.up, LTree.node.injEq] at eQ
    obtain ⟨e1, e2, e3⟩ := eQ
    obtain ⟨D, g1, g2, g3⟩ := ih b3 (by rw [q3, e3])
    obtain ⟨x, X1, X2, x1, x2, x3, rfl⟩ := Chain.gather_node.1 g1
    obtain ⟨y, Y1, Y2, y1, y2, y3, eY⟩ := Chain.gather_node.1 g2
    simp only [LTree.up, LTree.node.injEq] at eY
    obtain ⟨f1, f2, f3⟩ := eY
    refine ⟨.node x X1 (.node u Bd X2), ?_, ?_, ?_⟩
    · exact Chain.gather_node.2 ⟨_, _, _, x1, x2, Chain.gather_node.2 ⟨_, _, _, b1, b2, x3, rfl⟩, rfl⟩
    · refine Chain.gather_node.2 ⟨_, _, _, y1, y2, Chain.gather_node.2 ⟨_, _, _, q1, q2, y3, rfl⟩, ?_⟩
      simp only [LTree.up, LTree.node.injEq]
      exact ⟨f1, f2, e1, e2, f3⟩
    · simp only [LTree.up] at g3 ⊢
      rw [← g3, lc]

theorem iso_up (lc : ∀ x y w, add x (add y w) = add y (add x w)) (hb : ∀ x y, SameLink x y → b y = b x)
    (hh : ∀ m x y, SameLink x y → SameLink (h x m) (h y m)) (hh0 : ∀ x y, SameLink x y → SameLink (h0 x) (h0 y))
    (he : ∀ x y, SameLink x y → e y = e x)
    {σ : ℕ → ℕ} {s t : LTree ℕ} (hi : Iso σ s t) {ls ls2 ms ms2 : List (Link K)}
    (tw : ∀ i ∈ s.toList, ∀ x y, ls[i]? = some x → ms[σ i]? = some y → SameLink x y) {A B : LTree (Link K)}
    (h1 : Chain.gather ls s = some A) (h2 : Chain.gather ls2 s = some (A.up b h h0 e z add).1)
    (h3 : Chain.gather ms t = some B) (h4 : Chain.gather ms2 t = some (B.up b h h0 e z add).1) :
    (∀ i ∈ s.toList, ∀ x y, ls2[i]? = some x → ms2[σ i]? = some y → SameLink x y) ∧
    (B.up b h h0 e z add).2 = (A.up b h h0 e z add).2 := by
  induction hi generalizing A B with
  | nil =>
    simp only [Chain.gather, Option.some.injEq] at h1 h3
    subst h1 h3
    simp [LTree.toList]
  | @node i c s t c' r hp hc hs ihc ihs =>
    obtain ⟨D, g1, g2, g3⟩ := pick_up lc hp h3 h4
    obtain ⟨x, X1, X2, x1, x2, x3, rfl⟩ := Chain.gather_node.1 h1
    obtain ⟨y, Y1, Y2, y1, y2, y3, rfl⟩ := Chain.gather_node.1 g1
    obtain ⟨p, P1, P2, p1, p2, p3, eP⟩ := Chain.gather_node.1 h2
    obtain ⟨q, Q1, Q2, q1, q2, q3, eQ⟩ := Chain.gather_node.1 g2
    simp only [LTree.up, LTree.node.injEq] at eP eQ
    obtain ⟨e1, e2, e3⟩ := eP
    obtain ⟨f1, f2, f3⟩ := eQ
    have hxy := tw i (by simp [LTree.toList]) x y x1 y1
    have hbb := hb _ _ hxy
    have twc : ∀ n ∈ c.toList, ∀ x y, ls[n]? = some x → ms[σ n]? = some y → SameLink x y := fun n hn => tw n (by simp [LTree.toList, hn])
    obtain ⟨bs, bs2⟩ := ihs (fun n hn => tw n (by simp [LTree.toList, hn])) x3 (by rw [p3, ← e3]) y3 (by rw [q3, ← f3])
    have hcs : (∀ n ∈ c.toList, ∀ x y, ls2[n]? = some x → ms2[σ n]? = some y → SameLink x y) ∧ SameLink p q := by
      rw [← e1, ← f1]
      rw [hbb] at f2 ⊢
      cases hbx : b x with
      | true =>
        simp only [hbx, if_true] at e2 f2 ⊢
        obtain ⟨as, as2⟩ := ihc twc x2 (by rw [p2, ← e2]) y2 (by rw [q2, ← f2])
        exact ⟨as, by rw [as2]; exact hh _ _ _ hxy⟩
      | false =>
        simp only [hbx, Bool.false_eq_true, if_false] at e2 f2 ⊢
        refine ⟨?_, hh0 _ _ hxy⟩
        rw [← e2] at p2
        rw [← f2] at q2
        intro n hn x' y' hx' hy'
        have same : ∀ {l l' : List (Link K)} {t : LTree ℕ} {T : LTree (Link K)}, Chain.gather l t = some T → Chain.gather l' t = some T →
            ∀ n ∈ t.toList, l[n]? = l'[n]? := by
          intro l l' t
          induction t with
          | nil => simp [LTree.toList]
          | node k c s ihc ihs =>
            intro T a a' n hn
            obtain ⟨u, U1, U2, u1, u2, u3, rfl⟩ := Chain.gather_node.1 a
            obtain ⟨w, W1, W2, w1, w2, w3, ew⟩ := Chain.gather_node.1 a'
            simp only [LTree.node.injEq] at ew
            obtain ⟨rfl, rfl, rfl⟩ := ew
            simp only [LTree.toList, List.mem_cons, List.mem_append] at hn
            rcases hn with rfl | hn | hn
            · rw [u1, w1]
            · exact ihc u2 w2 n hn
            · exact ihs u3 w3 n hn
        have hmem : ∀ {s t : LTree ℕ}, Iso σ s t → ∀ n ∈ s.toList, σ n ∈ t.toList := by
          intro s t hi
          induction hi with
          | nil => simp [LTree.toList]
          | @node i c s t c' r hp hc hs ihc ihs =>
            intro n hn
            rw [hp.perm.mem_iff]
            simp only [LTree.toList, List.mem_cons, List.mem_append] at hn ⊢
            rcases hn with rfl | hn | hn
            · exact .inl rfl
            · exact .inr (.inl (ihc n hn))
            · exact .inr (.inr (ihs n hn))
        rw [← same x2 p2 n hn] at hx'
        rw [← same y2 q2 _ (hmem hc n hn)] at hy'
        exact twc n hn _ _ hx' hy'
    constructor
    · intro n hn x' y' hx hy
      simp only [LTree.toList, List.mem_cons, List.mem_append] at hn
      rcases hn with rfl | hn | hn
      · rw [hx] at p1; rw [hy] at q1; cases p1; cases q1; exact hcs.2
      · exact hcs.1 n hn x' y' hx hy
      · exact bs n hn x' y' hx hy
    · rw [← g3]
      have hs := hcs.2
      rw [← e1, ← f1] at hs
      simp only [LTree.up]
      rw [he _ _ hs, bs2]

/-- A pass towards the root keeps what none of its steps changes. -/
theorem up_map_inv {β : Type*} (k : Link K → β) (hk : ∀ l m, k (h l m) = k l) (hk0 : ∀ l, k (h0 l) = k l) (T : LTree (Link K)) :
    (T.up b h h0 e z add).1.map k = T.map k := by
  induction T with
  | nil => rfl
  | node l c s ihc ihs =>
    simp only [LTree.up, LTree.map, LTree.node.injEq]
    refine ⟨?_, ?_, ihs⟩
    · split_ifs
      · exact hk _ _
      · exact hk0 _
    · split_ifs
      · exact ihc
      · rfl
end

/-! ## The passes of the model in this form -/

section
variable [Field K]

theorem updateWrench_up (T : LTree (Link K)) :
    T.up (fun _ => true) (fun l m =>
        let w := l.body.netWrench.angShift l.body.mp.com + m - l.body.calcExtWrench
        { l with joint := ⟨l.joint.prp.calcTrq w, w⟩ }) id (fun l => l.adj.xform6Ang l.joint.wrench) 0 (· + ·) =
      (T.updateWrench, T.updateWrench.addChildWrench 0) := by
  induction T with
  | nil => rfl
  | node l c s ihc ihs =>
    simp only [LTree.up, ihc, ihs, if_true, LTree.updateWrench, LTree.addChildWrench, Prod.mk.injEq, LTree.node.injEq, and_true]
    refine ⟨?_, ?_⟩
    · rw [LTree.addChildWrench_eq c.updateWrench (l.body.netWrench.angShift l.body.mp.com)]
    · rw [LTree.addChildWrench_eq s.updateWrench (0 + _), zero_add, LTree.addChildWrench_eq c.updateWrench (l.body.netWrench.angShift l.body.mp.com)]

theorem abiBack_up [Zm K] (fx : Bool) (T : LTree (Link K)) :
    T.up (fun _ => true) (fun l m => (l.abiAdd m).abiBackward fx) id (fun l => (l.abiToParentI fx, l.abiToParentB fx)) 0 (· + ·) =
      T.abiBack fx := by
  induction T with
  | nil => rfl
  | node l c s ihc ihs =>
    simp only [LTree.up, ihc, ihs, if_true, LTree.abiBack, Prod.mk.injEq, true_and]
    rw [add_comm]

theorem abiFindPath_up (T : LTree (Link K)) :
    T.up (fun _ => true) (fun l m => if m then l.abiSetPath true else l) id (fun l => l.abi.path || !l.abi.wlist.isEmpty) false (· || ·) =
      T.abiFindPath := by
  induction T with
  | nil => rfl
  | node l c s ihc ihs =>
    simp only [LTree.up, ihc, ihs, if_true, LTree.abiFindPath, Prod.mk.injEq, true_and]
    rw [Bool.or_comm]

theorem abiAddEx_up (fx : Bool) (T : LTree (Link K)) :
    T.up (fun l => l.abi.path) (fun l m => l.abiResetB.abiSubNet.abiAdd (0, m)) Link.abiSubNet (fun l => l.abiToParentB fx) 0 (· + ·) =
      T.abiAddEx fx := by
  induction T with
  | nil => rfl
  | node l c s ihc ihs =>
    simp only [LTree.up, ihc, ihs, LTree.abiAddEx]

end
end Roki
