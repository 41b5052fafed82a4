import Verif.Lemmas.Tree
import Verif.Lemmas.Vec
import Verif.Lemmas.Index
import Verif.Spec.Kinematics

/-! # Forward kinematics: lemmas -/

namespace Roki
open Spec
set_option linter.unusedSectionVars false
variable {K : Type*} [Field K]

theorem xform_eq (p : Prp K) (org : Frame K) : p.xform org = org.cascade (jointFrame p) := by
  cases p <;> simp only [Prp.xform, jointFrame, Prp.rotZ, Prp.zyMat, Rz, Ry] <;> vec_ring

theorem product_append (fs gs : List (Frame K)) :
    product (fs ++ gs) = (product fs).cascade (product gs) := by
  induction fs with
  | nil => simp only [List.nil_append, product]; exact (Frame.ident_cascade _).symm
  | cons f fs ih => simp only [List.cons_append, product, ih, Frame.cascade_assoc]

theorem cascade_product_cons (g f : Frame K) (fs : List (Frame K)) :
    g.cascade (product (f :: fs)) = (g.cascade f).cascade (product fs) := by
  simp only [product, Frame.cascade_assoc]

theorem isRot_Rz {s c : K} (h : s * s + c * c = 1) : (Rz s c).IsRot := by
  constructor <;> simp only [Rz, dot, cross] <;> (try (ext <;> simp only)) <;> grind

theorem isRot_Ry {s c : K} (h : s * s + c * c = 1) : (Ry s c).IsRot := by
  constructor <;> simp only [Ry, dot, cross] <;> (try (ext <;> simp only)) <;> grind

theorem isRot_jointFrame {p : Prp K} (h : p.WF) : (jointFrame p).att.IsRot := by
  cases p with
  | fixed => exact Mat3.isRot_one
  | revol p => exact isRot_Rz h
  | prism p => exact Mat3.isRot_one
  | cylin p => exact isRot_Rz h
  | hooke p => exact (isRot_Rz h.1).mul (isRot_Ry h.2)
  | spher p => exact h
  | float p => exact h
  | brfloat p => exact h

theorem isRot_linkFrame {l : Link K} (ho : l.org.att.IsRot) (h : l.joint.prp.WF) :
    (linkFrame l).att.IsRot := ho.mul (isRot_jointFrame h)

theorem isRot_product {fs : List (Frame K)} (h : ∀ f ∈ fs, f.att.IsRot) : (product fs).att.IsRot := by
  induction fs with
  | nil => exact Mat3.isRot_one
  | cons f fs ih =>
    exact (h f (by simp)).mul (ih fun g hg => h g (by simp [hg]))

theorem updateFrame1_adj (l : Link K) (pwf : Frame K) : (l.updateFrame1 pwf).adj = linkFrame l :=
  xform_eq _ _

theorem updateFrame1_frame (l : Link K) (pwf : Frame K) :
    (l.updateFrame1 pwf).body.frame = pwf.cascade (linkFrame l) := by
  show pwf.cascade (l.joint.prp.xform l.org) = _
  rw [xform_eq]; rfl

theorem eraseFK_updateFrame1 (st : Frame K) (l : Link K) : eraseFK (l.updateFrame1 st) = eraseFK l := rfl

theorem linkFrame_updateFrame1 (st : Frame K) (l : Link K) :
    linkFrame (l.updateFrame1 st) = linkFrame l := rfl

theorem downPath_linkFrame {st : Frame K} {p q : List (Link K)}
    (h : LTree.DownPath (fun pwf (l : Link K) => l.updateFrame1 pwf) (fun l => l.body.frame) st p q) :
    q.map linkFrame = p.map linkFrame := by
  induction h with
  | one st a => rfl
  | cons _ ih => simp only [List.map_cons, ih]; rfl

/-- The end of a path of the updated tree. -/
theorem downPath_frame {st : Frame K} {p q : List (Link K)}
    (h : LTree.DownPath (fun pwf (l : Link K) => l.updateFrame1 pwf) (fun l => l.body.frame) st p q) :
    ∃ l' ∈ q.getLast?, l'.body.frame = st.cascade (product (p.map linkFrame)) := by
  induction h with
  | one st a =>
    refine ⟨a.updateFrame1 st, rfl, ?_⟩
    rw [updateFrame1_frame]
    simp only [List.map_cons, List.map_nil, product]
    congr 1
    exact (Frame.cascade_ident _).symm
  | @cons st a p q h ih =>
    obtain ⟨l', hl, e⟩ := ih
    refine ⟨l', ?_, ?_⟩
    · rw [List.getLast?_cons]
      cases hq : q.getLast? with
      | none => rw [hq] at hl; simp at hl
      | some x => rw [hq] at hl; simpa using hl
    · rw [e, List.map_cons, cascade_product_cons, updateFrame1_frame]

theorem mem_down_updateFrame {st : Frame K} {T : LTree (Link K)} {l : Link K}
    (h : l ∈ (T.updateFrame st).toList) :
    l.adj = linkFrame l ∧ l.body.wldCOM = l.body.frame.xform l.body.mp.com := by
  induction T generalizing st with
  | nil => simp [LTree.updateFrame, LTree.toList] at h
  | node a c s ihc ihs =>
    simp only [LTree.updateFrame, LTree.toList, List.mem_cons, List.mem_append] at h
    rcases h with rfl | h | h
    · refine ⟨updateFrame1_adj a st, rfl⟩
    · exact ihc h
    · exact ihs h

namespace Chain

theorem WF.nodup {c : Chain K} (h : c.WF) : c.shape.toList.Nodup :=
  h.perm.nodup_iff.2 List.nodup_range

theorem WF.mem {c : Chain K} (h : c.WF) {i : ℕ} : i ∈ c.shape.toList ↔ i < c.link.length := by
  rw [h.perm.mem_iff, List.mem_range]

theorem WF.with_link {c : Chain K} (h : c.WF) {ls : List (Link K)} (hl : ls.length = c.link.length) :
    WF { c with link := ls } := ⟨h.root, by simpa [hl] using h.perm⟩

/-- A downward pass over a well-formed chain from the root. -/
theorem WF.downAt {σ : Type*} {c : Chain K} (h : c.WF) (f : σ → Link K → Link K) (g : Link K → σ)
    (st : σ) : ∃ ls' T, gather c.link c.shape = some T ∧
      Chain.downAt f g none c.shape st c.link = some ls' ∧
      gather ls' c.shape = some (T.down f g st) ∧ ls'.length = c.link.length := by
  obtain ⟨T, hT⟩ := gather_exists (ls := c.link) (t := c.shape) fun i hi => h.mem.1 hi
  obtain ⟨t, ht⟩ := h.root
  obtain ⟨ls', e, g', n, _⟩ := downAt_refines f g c.shape none st c.link T h.nodup hT
    (fun i c2 s2 hc hs => by rw [ht] at hc; cases hc; simp [LTree.isNil] at hs)
  exact ⟨ls', T, hT, e, g', n⟩

theorem WF.updateWrenchAt {c : Chain K} (h : c.WF) : ∃ ls' T, gather c.link c.shape = some T ∧
      Chain.updateWrenchAt c.shape c.link = some ls' ∧
      gather ls' c.shape = some T.updateWrench ∧ ls'.length = c.link.length := by
  obtain ⟨T, hT⟩ := gather_exists (ls := c.link) (t := c.shape) fun i hi => h.mem.1 hi
  obtain ⟨ls', e, g', n, _⟩ := updateWrenchAt_refines c.shape c.link T h.nodup hT
  exact ⟨ls', T, hT, e, g', n⟩

omit [Field K] in
/-- Equality of gathered trees gives equality of arrays. -/
theorem map_eq_of_gather {α : Type*} {ls ls' : List (Link K)} {t : LTree ℕ} {T T' : LTree (Link K)}
    (h : gather ls t = some T) (h' : gather ls' t = some T') (hl : ls.length = ls'.length)
    (ht : ∀ i, i < ls.length → i ∈ t.toList) (k : Link K → α) (e : T.map k = T'.map k) :
    ls.map k = ls'.map k := by
  have key : ∀ t : LTree ℕ, ∀ T T' : LTree (Link K), gather ls t = some T → gather ls' t = some T' →
      T.map k = T'.map k → ∀ i ∈ t.toList, ls[i]?.map k = ls'[i]?.map k := by
    intro t
    induction t with
    | nil => intro T T' _ _ _ i hi; simp [LTree.toList] at hi
    | node j c s ihc ihs =>
      intro T T' h1 h2 e i hi
      obtain ⟨l, c1, s1, a1, a2, a3, rfl⟩ := gather_node.1 h1
      obtain ⟨l', c2, s2, b1, b2, b3, rfl⟩ := gather_node.1 h2
      simp only [LTree.map, LTree.node.injEq] at e
      simp only [LTree.toList, List.mem_cons, List.mem_append] at hi
      rcases hi with rfl | hi | hi
      · simp [a1, b1, e.1]
      · exact ihc _ _ a2 b2 e.2.1 i hi
      · exact ihs _ _ a3 b3 e.2.2 i hi
  apply List.ext_getElem?
  intro i
  simp only [List.getElem?_map]
  by_cases hi : i < ls.length
  · exact key t T T' h h' e i (ht i hi)
  · rw [List.getElem?_eq_none (by omega), List.getElem?_eq_none (by omega)]

omit [Field K] in
theorem gather_map_eq {α : Type*} {ls ls' : List (Link K)} {t : LTree ℕ} {T T' : LTree (Link K)}
    (h : gather ls t = some T) (h' : gather ls' t = some T') (k : Link K → α)
    (e : ls.map k = ls'.map k) : T.map k = T'.map k := by
  induction t generalizing T T' with
  | nil => simp only [gather, Option.some.injEq] at h h'; subst h h'; rfl
  | node j c s ihc ihs =>
    obtain ⟨l, c1, s1, a1, a2, a3, rfl⟩ := gather_node.1 h
    obtain ⟨l', c2, s2, b1, b2, b3, rfl⟩ := gather_node.1 h'
    simp only [LTree.map, ihc a2 b2, ihs a3 b3, LTree.node.injEq, and_true]
    have := congrArg (fun t => t[j]?) e
    simpa [a1, b1] using this

omit [Field K] in
theorem mem_of_gather {ls : List (Link K)} {t : LTree ℕ} {T : LTree (Link K)}
    (h : gather ls t = some T) {i : ℕ} {l : Link K} (hi : i ∈ t.toList) (hl : ls[i]? = some l) :
    l ∈ T.toList := by
  have h1 := gather_toList h
  have : some l ∈ T.toList.map some := by
    rw [h1, List.mem_map]; exact ⟨i, hi, hl⟩
  simpa using this

end Chain
end Roki
