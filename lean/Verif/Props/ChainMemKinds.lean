import Verif.Props.ChainMem
import Verif.Model.Clone
set_option autoImplicit false

/-!
# The memory of chains and the joints they have (C98)

The kinds of joints of the memory model are those of the model of joints, and a clone, whatever requests for memory are denied, is complete.
-/

namespace Roki
open Mem Mem.MChain Spec

/-- The kind of memory that a joint occupies. -/
def Prp.memKind {K : Type*} : Prp K → JKind
  | .fixed => .fixed
  | .revol _ => .revol
  | .prism _ => .prism
  | .cylin _ => .cylin
  | .hooke _ => .hooke
  | .spher _ => .spher
  | .float _ => .float
  | .brfloat _ => .brfloat

/-- **C98** The kinds of joints have the number of coordinates, and the motor, that joints of that type have. -/
theorem C98_kinds {K : Type*} [Field K] (p : Prp K) : p.memKind.size = p.size ∧ p.memKind.motored = p.getMotor.isSome := by
  cases p <;> exact ⟨rfl, rfl⟩

theorem run_bind {α β : Type} {x : M α} {f : α → M β} {h : Heap} {r : β × Heap} (e : (x >>= f) h = some r) : ∃ a g, x h = some (a, g) ∧ f a g = some r := by
  obtain ⟨⟨a, g⟩, h1, h2⟩ := Option.bind_eq_some_iff.1 (show (x h).bind (fun p => f p.1 p.2) = some r from e)
  exact ⟨a, g, h1, h2⟩

theorem run_pure {α : Type} {a b : α} {h h' : Heap} (e : (pure a : M α) h = some (b, h')) : a = b := by
  have : some (a, h) = some (b, h') := e
  simp only [Option.some.injEq, Prod.mk.injEq] at this
  exact this.1

theorem copyCells_length (l : List ℕ) (h h' : Heap) (bs : List ℕ) (e : copyCells l h = some ((true, bs), h')) : bs.length = l.length := by
  induction l generalizing h h' bs with
  | nil =>
    have := run_pure e
    simp only [Prod.mk.injEq] at this
    rw [← this.2]
  | cons a l ih =>
    obtain ⟨p, g, -, e⟩ := run_bind e
    cases p with
    | none => have := run_pure e; simp at this
    | some b =>
      obtain ⟨⟨ok, cs⟩, g', e1, e⟩ := run_bind e
      have := run_pure e
      simp only [Prod.mk.injEq] at this
      obtain ⟨rfl, rfl⟩ := this
      rw [List.length_cons, List.length_cons, ih _ _ _ e1]

theorem assign_kind {k : JKind} {j : MJoint} {h h' : Heap} (e : MJoint.assign k h = some (j, h')) : j.kind = k := by
  unfold MJoint.assign at e
  split_ifs at e
  · rw [← run_pure e]
  · obtain ⟨p, g, -, e⟩ := run_bind e
    simp only [] at e
    split_ifs at e
    all_goals
      obtain ⟨m, g, -, e⟩ := run_bind e
      obtain ⟨_, g, -, e⟩ := run_bind e
      rw [← run_pure e]

theorem jointClone_kind {org j : MJoint} {h h' : Heap} (e : org.clone h = some (j, h')) : j.kind = org.kind := by
  unfold MJoint.clone at e
  obtain ⟨i, g, e1, e⟩ := run_bind e
  have := assign_kind e1
  split_ifs at e
  · rw [← run_pure e, this]
  · obtain ⟨_, g, -, e⟩ := run_bind e
    obtain ⟨_, g, -, e⟩ := run_bind e
    obtain ⟨m, g, -, e⟩ := run_bind e
    rw [← run_pure e]; exact this
  · obtain ⟨_, g, -, e⟩ := run_bind e
    obtain ⟨_, g, -, e⟩ := run_bind e
    rw [← run_pure e, this]

/-- **C98** Whatever requests for memory are denied: if `rkLinkClone` returns a link and not the null pointer, the link has a name, a joint of the same type,
and as many external wrenches and shapes as the original, and a material if and only if the original has one. -/
theorem C98_clone_complete (org l : MLink) (h h' : Heap) (e : org.clone h = some (some l, h')) :
    l.name.isSome ∧ l.joint.kind = org.joint.kind ∧ l.wrenches.length = org.wrenches.length ∧ l.shapes.length = org.shapes.length ∧
      l.stuff.isSome = org.stuff.isSome := by
  unfold MLink.clone at e
  obtain ⟨n, g, -, e⟩ := run_bind e
  by_cases hn : n.isNone = true
  · rw [if_pos hn] at e
    exact absurd (run_pure e) (by simp)
  rw [if_neg hn] at e
  obtain ⟨j, g1, ej, e⟩ := run_bind e
  obtain ⟨⟨ok, ws⟩, g2, ew, e⟩ := run_bind e
  cases ok with
  | false => exact absurd (run_pure e) (by simp)
  | true =>
    obtain ⟨⟨ok, ss⟩, g3, es, e⟩ := run_bind e
    have hn' : n.isSome = true := by cases n <;> simp_all
    have hw := copyCells_length _ _ _ _ ew
    cases ok with
    | false => exact absurd (run_pure e) (by simp)
    | true =>
      have hs := copyCells_length _ _ _ _ es
      simp only [Bool.not_true, Bool.false_eq_true, if_false] at e
      split_ifs at e with hf
      · have := run_pure e
        simp only [Option.some.injEq] at this
        subst this
        exact ⟨hn', jointClone_kind ej, hw, hs, by cases hq : org.stuff <;> simp_all⟩
      · obtain ⟨x, g4, -, e⟩ := run_bind e
        split_ifs at e with hx
        · exact absurd (run_pure e) (by simp)
        · have := run_pure e
          simp only [Option.some.injEq] at this
          subst this
          exact ⟨hn', jointClone_kind ej, hw, hs, by cases x <;> cases hq : org.stuff <;> simp_all⟩

/-- A link with a revolute joint, a wrench, two shapes and a name of its stuff has a clone if the tenth request is denied, and no clone if the fifth is. -/
example : let org : MLink := ⟨some 0, ⟨.revol, some 1, ⟨.none, none, none⟩⟩, [2], [3, 4], some 5, none, none, []⟩
    (∃ l h', org.clone ⟨[0, 1, 2, 3, 4, 5], 6, fun n => n != 15⟩ = some (some l, h')) ∧
      ∃ h', org.clone ⟨[0, 1, 2, 3, 4, 5], 6, fun n => n != 10⟩ = some (none, h') :=
  ⟨⟨_, _, rfl⟩, _, rfl⟩

end Roki
