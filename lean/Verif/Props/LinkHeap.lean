import Verif.Lemmas.LinkHeap
import Verif.Model.ChainTree
set_option autoImplicit false

/-!
# C50: connecting links
-/

namespace Roki
open Spec.Forest LinkHeap

/-- **C50.**  Any sequence of calls of `rkLinkAddChild` on `n` new links, each attaching a link that has not been attached before to
a link that is not below it, ends, and leaves pointers that agree with the calls: the parent is the link attached to, the children
are in the order of attachment, and the recursion from any link that is not attached visits what is below it, each link once. -/
theorem C50_forest (n : ℕ) (ops : List (ℕ × ℕ)) (hp : Proper n ops) : ∃ h, build n ops = some h ∧ IsForest n ops h := by
  obtain ⟨h, F, h1, h2⟩ := build_inv n ops hp
  exact ⟨h, h1, h2.isForest fun p c => Proper.lt hp⟩

/-- **C50**, for a chain: if moreover every link is below link 0, which is not attached, then the pointers spell one tree that makes
a well-formed chain, as the theorems on kinematics and dynamics suppose. -/
theorem C50_chain {K : Type*} (n : ℕ) (ops : List (ℕ × ℕ)) (hp : Proper n ops) (hn : 0 < n) (h0 : ∀ q, (q, 0) ∉ ops)
    (hall : ∀ j < n, Below ops 0 j) : ∃ h t, build n ops = some h ∧ Rep h none (some 0) t ∧
      ∀ c : Chain K, c.link.length = n → c.shape = t → c.WF := by
  obtain ⟨h, F, h1, h2⟩ := build_inv n ops hp
  obtain ⟨x, hx⟩ : ∃ x, h[0]? = some x := ⟨_, List.getElem?_eq_getElem (h2.len.symm ▸ hn)⟩
  have hxp : x.parent = none := by
    rcases hq : x.parent with _ | q
    · rfl
    · exact absurd ((h2.par 0 x hx q).1 hq) (h0 q)
  obtain ⟨c, hc⟩ := h2.root hx hxp
  obtain ⟨r, c', he, hr⟩ := h2.trees _ hc
  obtain ⟨rfl, rfl, _⟩ := LTree.node.inj he
  refine ⟨h, _, h1, hr, fun C hl hs => ⟨⟨c, hs⟩, ?_⟩⟩
  rw [hs, hl]
  refine (List.perm_ext_iff_of_nodup (h2.nodup_tree hc) List.nodup_range).2 fun j => ?_
  rw [h2.mem_iff (fun p c => Proper.lt hp) hc j, List.mem_range]
  refine ⟨fun hb => ?_, hall j⟩
  rcases Relation.ReflTransGen.cases_tail hb with rfl | ⟨q, _, hq⟩
  · exact hn
  · exact Proper.lt hp hq

/-- Five links with two branches, attached out of order. -/
def linkOps : List (ℕ × ℕ) := [(1, 3), (0, 2), (0, 1), (1, 4)]

theorem linkOps_proper : Proper 5 linkOps := by
  have nb : ∀ (pre : List (ℕ × ℕ)) (p c : ℕ), p ≠ c → (∀ x, (c, x) ∈ pre → ∀ y, (x, y) ∉ pre) → (c, p) ∉ pre →
      ¬ Below pre c p := by
    intro pre p c hne h1 h2 hb
    rcases Relation.ReflTransGen.cases_head hb with rfl | ⟨x, hx, hb⟩
    · exact hne rfl
    · rcases Relation.ReflTransGen.cases_head hb with rfl | ⟨y, hy, _⟩
      · exact h2 hx
      · exact h1 x hx y hy
  intro pre p c post e
  match pre, e with
  | [], e =>
    simp only [linkOps, List.nil_append, List.cons.injEq, Prod.mk.injEq] at e
    obtain ⟨⟨rfl, rfl⟩, _⟩ := e
    exact ⟨by omega, by omega, by simp, nb _ _ _ (by omega) (by simp) (by simp)⟩
  | [a], e =>
    simp only [linkOps, List.cons_append, List.nil_append, List.cons.injEq, Prod.mk.injEq] at e
    obtain ⟨rfl, ⟨rfl, rfl⟩, _⟩ := e
    exact ⟨by omega, by omega, by simp, nb _ _ _ (by omega) (by simp) (by simp)⟩
  | [a, b], e =>
    simp only [linkOps, List.cons_append, List.nil_append, List.cons.injEq, Prod.mk.injEq] at e
    obtain ⟨rfl, rfl, ⟨rfl, rfl⟩, _⟩ := e
    exact ⟨by omega, by omega, by simp, nb _ _ _ (by omega) (by simp) (by simp)⟩
  | [a, b, d], e =>
    simp only [linkOps, List.cons_append, List.nil_append, List.cons.injEq, Prod.mk.injEq] at e
    obtain ⟨rfl, rfl, rfl, ⟨rfl, rfl⟩, _⟩ := e
    exact ⟨by omega, by omega, by simp, nb _ _ _ (by omega) (by simp) (by simp)⟩
  | a :: b :: d :: f :: pre, e =>
    simp [linkOps] at e

/-- Link 0 has the children 2 and 1, in this order, and link 1 has 3 and 4. -/
example : ∃ h, build 5 linkOps = some h ∧ IsForest 5 linkOps h ∧
    h = [⟨none, some 2, none⟩, ⟨some 0, some 3, none⟩, ⟨some 0, none, some 1⟩, ⟨some 1, none, some 4⟩, ⟨some 1, none, none⟩] := by
  obtain ⟨h, h1, h2⟩ := C50_forest 5 linkOps linkOps_proper
  refine ⟨h, h1, h2, ?_⟩
  have : build 5 linkOps =
      some [⟨none, some 2, none⟩, ⟨some 0, some 3, none⟩, ⟨some 0, none, some 1⟩, ⟨some 1, none, some 4⟩,
        ⟨some 1, none, none⟩] := by decide +kernel
  exact Option.some.inj (h1.symm.trans this)

example : (∀ q, (q, 0) ∉ linkOps) ∧ ∀ j < 5, Below linkOps 0 j := by
  have h1 : Below linkOps 0 1 := .single (by decide)
  refine ⟨by simp [linkOps], fun j hj => ?_⟩
  match j, hj with
  | 0, _ => exact .refl
  | 1, _ => exact h1
  | 2, _ => exact .single (by decide)
  | 3, _ => exact h1.tail (by decide)
  | 4, _ => exact h1.tail (by decide)

/-- The rules are needed: a link attached twice to the same parent becomes its own sibling, no recursion from the parent ends, and
neither does the next attachment. -/
theorem C50_twice : ∃ h, build 3 [(0, 1), (0, 1)] = some h ∧ (¬ ∃ l, Visits h (some 0) l) ∧ addChild h 0 2 = none := by
  refine ⟨[⟨none, some 1, none⟩, ⟨some 0, none, some 1⟩, ⟨none, none, none⟩], by decide +kernel, ?_, by decide +kernel⟩
  have key : ∀ o l, Visits [⟨none, some 1, none⟩, ⟨some 0, none, some 1⟩, ⟨none, none, none⟩] o l → o ≠ some 1 := by
    intro o l hv
    induction hv with
    | nil => simp
    | node h1 _ _ _ ih =>
      intro e
      obtain rfl := Option.some.inj e
      simp at h1
      subst h1
      exact ih rfl
  rintro ⟨l, hl⟩
  cases hl with
  | node h1 h2 _ =>
    simp at h1
    subst h1
    exact key _ _ h2 rfl

end Roki
