import Verif.Model.ABI
import Verif.Lemmas.Jacobi

/-! # The passes of the articulated-body method as tree recursions -/

namespace Roki
set_option autoImplicit false
open Spec
variable {K : Type*} [Field K]

namespace LTree

/-- Functional form of `Chain.abiBackwardAt`: the new tree and what its top level adds to the
parent. -/
def abiBack [Zm K] (fx : Bool) : LTree (Link K) → LTree (Link K) × (Mat6 K × Vec6 K)
  | nil => (nil, 0)
  | node l c s =>
    let s' := abiBack fx s
    let c' := abiBack fx c
    let l' := (l.abiAdd c'.2).abiBackward fx
    (node l' c'.1 s'.1, s'.2 + (l'.abiToParentI fx, l'.abiToParentB fx))

/-- One step of the forward pass. -/
def abiStep (fx wr : Bool) (pa : Vec6 K) (l : Link K) : Link K :=
  if wr then (l.abiForward fx pa).abiWrench else l.abiForward fx pa

/-- Functional form of `Chain.abiForwardAt`. -/
def abiFwd (fx wr : Bool) (pa : Vec6 K) (T : LTree (Link K)) : LTree (Link K) :=
  T.down (abiStep fx wr) (fun l => l.body.acc) pa

/-- Functional form of `Chain.abiInitAt`. -/
def abiInit (pv : Vec6 K) (T : LTree (Link K)) : LTree (Link K) :=
  T.down (fun v l => l.abiUpdateInit v) (fun l => l.body.vel) pv

/-- Functional form of `Chain.abiFindPathAt`: the new tree and whether the parent is marked. -/
def abiFindPath : LTree (Link K) → LTree (Link K) × Bool
  | nil => (nil, false)
  | node l c s =>
    let c' := abiFindPath c
    let s' := abiFindPath s
    let l' := if c'.2 then l.abiSetPath true else l
    (node l' c'.1 s'.1, s'.2 || (l'.abi.path || !l'.abi.wlist.isEmpty))

/-- Functional form of `Chain.abiAddExAt`. -/
def abiAddEx (fx : Bool) : LTree (Link K) → LTree (Link K) × Vec6 K
  | nil => (nil, 0)
  | node l c s =>
    let c' := if l.abi.path then abiAddEx fx c else (c, 0)
    let l' := if l.abi.path then l.abiResetB.abiSubNet.abiAdd (0, c'.2) else l.abiSubNet
    let s' := abiAddEx fx s
    (node l' c'.1 s'.1, l'.abiToParentB fx + s'.2)

end LTree

theorem Link.abiAdd_add (l : Link K) (d e : Mat6 K × Vec6 K) :
    l.abiAdd (d + e) = (l.abiAdd d).abiAdd e := by
  simp [Link.abiAdd, add_assoc]

theorem Link.abiAdd_zero (l : Link K) : l.abiAdd 0 = l := by
  simp [Link.abiAdd]

namespace Chain

theorem modifyParent_spec {f : Link K → Link K} {par : Option ℕ} {ls : List (Link K)}
    (h : ∀ p, par = some p → p < ls.length) :
    ∃ ls', modifyParent f par ls = some ls' ∧ ls'.length = ls.length ∧
      ∀ i, ls'[i]? = if par = some i then ls[i]?.map f else ls[i]? := by
  cases par with
  | none => exact ⟨ls, rfl, rfl, fun i => by simp⟩
  | some p =>
    have hp := h p rfl
    refine ⟨ls.set p (f ls[p]), by simp [modifyParent, hp], by simp, fun i => ?_⟩
    by_cases e : p = i
    · subst e; simp [hp]
    · simp [e]

/-- **Refinement of the backward pass.** -/
theorem abiBackwardAt_refines [Zm K] (fx : Bool) (t : LTree ℕ) :
    ∀ (par : Option ℕ) (ls : List (Link K)) (T : LTree (Link K)), t.toList.Nodup →
    gather ls t = some T → (∀ p, par = some p → p < ls.length ∧ p ∉ t.toList) →
    ∃ ls', abiBackwardAt fx par t ls = some ls' ∧ gather ls' t = some (T.abiBack fx).1 ∧
      ls'.length = ls.length ∧ ∀ i, i ∉ t.toList →
        ls'[i]? = if par = some i then ls[i]?.map (fun l => l.abiAdd (T.abiBack fx).2) else ls[i]? := by
  induction t with
  | nil =>
    intro par ls T hn hg hpar
    simp only [gather, Option.some.injEq] at hg
    subst hg
    refine ⟨ls, rfl, rfl, rfl, fun i _ => ?_⟩
    simp [LTree.abiBack, Link.abiAdd_zero]
  | node i c s ihc ihs =>
    intro par ls T hn hg hpar
    obtain ⟨l, c', s', h1, h2, h3, rfl⟩ := gather_node.1 hg
    simp only [LTree.toList, List.nodup_cons, List.mem_append, not_or] at hn
    obtain ⟨⟨hic, his⟩, hcs⟩ := hn
    obtain ⟨hc, hs, hd⟩ := List.nodup_append.1 hcs
    have hpar' : ∀ p, par = some p → p < ls.length ∧ p ≠ i ∧ p ∉ c.toList ∧ p ∉ s.toList := by
      intro p hp
      have := hpar p hp
      simp only [LTree.toList, List.mem_cons, List.mem_append, not_or] at this
      exact ⟨this.1, this.2.1, this.2.2.1, this.2.2.2⟩
    have hlen : i < ls.length := by
      by_contra hh
      rw [List.getElem?_eq_none (by omega)] at h1; simp at h1
    have hpi : par ≠ some i := fun h => (hpar' i h).2.1 rfl
    obtain ⟨ls1, e1, g1, n1, u1⟩ := ihs par ls s' hs h3 fun p hp => ⟨(hpar' p hp).1, (hpar' p hp).2.2.2⟩
    have hcpar : ∀ j ∈ c.toList, par ≠ some j := fun j hj h => (hpar' j h).2.2.1 hj
    obtain ⟨ls2, e2, g2, n2, u2⟩ := ihc (some i) ls1 c' hc
      (by
        rw [← h2]
        refine gather_congr fun j hj => ?_
        rw [u1 j fun h => hd j hj j h rfl, if_neg (hcpar j hj)])
      (fun p hp => by cases hp; exact ⟨by omega, hic⟩)
    have e3 : ls2[i]? = some (l.abiAdd (c'.abiBack fx).2) := by
      rw [u2 i hic, if_pos rfl, u1 i his, if_neg hpi, h1]; rfl
    set l' := (l.abiAdd (c'.abiBack fx).2).abiBackward fx with hl'
    obtain ⟨ls3, e4, n3, u3⟩ := modifyParent_spec (ls := ls2.set i l') (par := par)
      (f := fun pl => pl.abiAdd (l'.abiToParentI fx, l'.abiToParentB fx))
      (fun p hp => by
        have := (hpar' p hp).1
        rw [List.length_set]; omega)
    have hlen2 : i < ls2.length := by omega
    have n3' : ls3.length = ls.length := by rw [n3, List.length_set]; omega
    refine ⟨ls3, ?_, ?_, n3', ?_⟩
    · simp only [abiBackwardAt, e1, Option.bind_eq_bind, Option.bind_some]
      rw [e2]
      simp only [Option.bind_some, e3]
      exact e4
    · rw [gather_node]
      refine ⟨l', _, _, ?_, ?_, ?_, rfl⟩
      · rw [u3, if_neg hpi, List.getElem?_set_self hlen2]
      · rw [← g2]
        refine gather_congr fun j hj => ?_
        have hji : i ≠ j := fun e => hic (e ▸ hj)
        rw [u3, if_neg (hcpar j hj), List.getElem?_set_ne hji]
      · rw [← g1]
        refine gather_congr fun j hj => ?_
        have hji : i ≠ j := fun e => his (e ▸ hj)
        have hps : par ≠ some j := fun h => (hpar' j h).2.2.2 hj
        rw [u3, if_neg hps, List.getElem?_set_ne hji, u2 j fun h => hd j h j hj rfl,
          if_neg (by simpa using hji)]
    · intro j hj
      simp only [LTree.toList, List.mem_cons, List.mem_append, not_or] at hj
      have hji : i ≠ j := Ne.symm hj.1
      have hij : ¬ (some i = some j) := by simpa using hji
      rw [u3, List.getElem?_set_ne hji, u2 j hj.2.1, if_neg hij, u1 j hj.2.2]
      by_cases hp : par = some j
      · simp only [if_pos hp, Option.map_map, LTree.abiBack]
        congr 1
        funext x
        simp only [Function.comp, Link.abiAdd_add, ← hl']
      · simp only [if_neg hp]

/-- **Refinement of the forward pass.** -/
theorem abiForwardAt_refines (fx wr : Bool) (t : LTree ℕ) :
    ∀ (pa : Vec6 K) (ls : List (Link K)) (T : LTree (Link K)), t.toList.Nodup →
    gather ls t = some T →
    ∃ ls', abiForwardAt fx wr t pa ls = some ls' ∧ gather ls' t = some (T.abiFwd fx wr pa) ∧
      ls'.length = ls.length ∧ ∀ i, i ∉ t.toList → ls'[i]? = ls[i]? := by
  induction t with
  | nil =>
    intro pa ls T hn hg
    simp only [gather, Option.some.injEq] at hg
    subst hg
    exact ⟨ls, rfl, rfl, rfl, fun _ _ => rfl⟩
  | node i c s ihc ihs =>
    intro pa ls T hn hg
    obtain ⟨l, c', s', h1, h2, h3, rfl⟩ := gather_node.1 hg
    simp only [LTree.toList, List.nodup_cons, List.mem_append, not_or] at hn
    obtain ⟨⟨hic, his⟩, hcs⟩ := hn
    obtain ⟨hc, hs, hd⟩ := List.nodup_append.1 hcs
    have hlen : i < ls.length := by
      by_contra hh
      rw [List.getElem?_eq_none (by omega)] at h1; simp at h1
    set l2 := LTree.abiStep fx wr pa l with hl2
    obtain ⟨ls1, e1, g1, n1, u1⟩ := ihs pa (ls.set i l2) s' hs
      (by rw [← h3]; exact gather_congr fun j hj => by
            rw [List.getElem?_set_ne]; intro e; exact his (e ▸ hj))
    have u1i : ls1[i]? = some l2 := by rw [u1 i his, List.getElem?_set_self hlen]
    obtain ⟨ls2, e2, g2, n2, u2⟩ := ihc l2.body.acc ls1 c' hc
      (by
        rw [← h2]
        refine gather_congr fun j hj => ?_
        have hji : i ≠ j := fun e => hic (e ▸ hj)
        rw [u1 j fun h => hd j hj j h rfl, List.getElem?_set_ne hji])
    refine ⟨ls2, ?_, ?_, by rw [n2, n1, List.length_set], ?_⟩
    · simp only [abiForwardAt, h1, Option.bind_eq_bind, Option.bind_some]
      rw [hl2, LTree.abiStep] at e1
      rw [e1]
      simp only [Option.bind_some, u1i]
      exact e2
    · rw [gather_node]
      refine ⟨l2, _, _, ?_, g2, ?_, rfl⟩
      · rw [u2 i hic, u1i]
      · rw [← LTree.abiFwd, ← g1]
        exact gather_congr fun j hj => u2 j fun h => hd j h j hj rfl
    · intro j hj
      simp only [LTree.toList, List.mem_cons, List.mem_append, not_or] at hj
      rw [u2 j hj.2.1, u1 j hj.2.2, List.getElem?_set_ne (Ne.symm hj.1)]

/-- **Refinement of the search for the path.** -/
theorem abiFindPathAt_refines (t : LTree ℕ) :
    ∀ (par : Option ℕ) (ls : List (Link K)) (T : LTree (Link K)), t.toList.Nodup →
    gather ls t = some T → (∀ p, par = some p → p < ls.length ∧ p ∉ t.toList) →
    ∃ ls', abiFindPathAt par t ls = some ls' ∧ gather ls' t = some T.abiFindPath.1 ∧
      ls'.length = ls.length ∧ ∀ i, i ∉ t.toList →
        ls'[i]? = if par = some i ∧ T.abiFindPath.2 = true then ls[i]?.map (fun l => l.abiSetPath true)
          else ls[i]? := by
  induction t with
  | nil =>
    intro par ls T hn hg hpar
    simp only [gather, Option.some.injEq] at hg
    subst hg
    refine ⟨ls, rfl, rfl, rfl, fun i _ => ?_⟩
    simp [LTree.abiFindPath]
  | node i c s ihc ihs =>
    intro par ls T hn hg hpar
    obtain ⟨l, c', s', h1, h2, h3, rfl⟩ := gather_node.1 hg
    simp only [LTree.toList, List.nodup_cons, List.mem_append, not_or] at hn
    obtain ⟨⟨hic, his⟩, hcs⟩ := hn
    obtain ⟨hc, hs, hd⟩ := List.nodup_append.1 hcs
    have hpar' : ∀ p, par = some p → p < ls.length ∧ p ≠ i ∧ p ∉ c.toList ∧ p ∉ s.toList := by
      intro p hp
      have := hpar p hp
      simp only [LTree.toList, List.mem_cons, List.mem_append, not_or] at this
      exact ⟨this.1, this.2.1, this.2.2.1, this.2.2.2⟩
    have hlen : i < ls.length := by
      by_contra hh
      rw [List.getElem?_eq_none (by omega)] at h1; simp at h1
    have hpi : par ≠ some i := fun h => (hpar' i h).2.1 rfl
    obtain ⟨ls1, e1, g1, n1, u1⟩ := ihc (some i) ls c' hc h2 (fun p hp => by cases hp; exact ⟨hlen, hic⟩)
    have u1' : ∀ j, j ∉ c.toList → j ≠ i → ls1[j]? = ls[j]? := by
      intro j hj hji
      rw [u1 j hj, if_neg]
      rintro ⟨h, -⟩; exact hji (by simpa using h.symm)
    obtain ⟨ls2, e2, g2, n2, u2⟩ := ihs par ls1 s' hs
      (by
        rw [← h3]
        exact gather_congr fun j hj => u1' j (fun h => hd j h j hj rfl) fun e => his (e ▸ hj))
      (fun p hp => ⟨by have := (hpar' p hp).1; omega, (hpar' p hp).2.2.2⟩)
    set l' := if c'.abiFindPath.2 then l.abiSetPath true else l with hl'
    have e3 : ls2[i]? = some l' := by
      rw [u2 i his, if_neg (fun h => hpi h.1), u1 i hic, h1, hl']
      by_cases hb : c'.abiFindPath.2 = true <;> simp [hb]
    have hcpar : ∀ j ∈ c.toList, par ≠ some j := fun j hj h => (hpar' j h).2.2.1 hj
    have gc : gather ls2 c = some c'.abiFindPath.1 := by
      rw [← g1]
      refine gather_congr fun j hj => ?_
      rw [u2 j fun h => hd j hj j h rfl, if_neg fun h => hcpar j hj h.1]
    by_cases hb : l'.abi.path = true ∨ l'.abi.wlist ≠ []
    · obtain ⟨ls3, e4, n3, u3⟩ := modifyParent_spec (ls := ls2) (par := par)
        (f := fun pl => pl.abiSetPath true)
        (fun p hp => by have := (hpar' p hp).1; omega)
      have hb' : (l'.abi.path || !l'.abi.wlist.isEmpty) = true := by
        rcases hb with h | h <;> simp [h]
      refine ⟨ls3, ?_, ?_, by omega, ?_⟩
      · simp only [abiFindPathAt, e1, Option.bind_eq_bind, Option.bind_some]
        rw [e2]
        simp only [Option.bind_some, e3]
        rw [if_pos hb]
        exact e4
      · rw [gather_node]
        refine ⟨l', _, _, ?_, ?_, ?_, rfl⟩
        · rw [u3, if_neg hpi, e3]
        · rw [← gc]
          refine gather_congr fun j hj => ?_
          rw [u3, if_neg (hcpar j hj)]
        · rw [← g2]
          refine gather_congr fun j hj => ?_
          have hps : par ≠ some j := fun h => (hpar' j h).2.2.2 hj
          rw [u3, if_neg hps]
      · intro j hj
        simp only [LTree.toList, List.mem_cons, List.mem_append, not_or] at hj
        rw [u3, u2 j hj.2.2, u1' j hj.2.1 hj.1]
        simp only [LTree.abiFindPath, ← hl', hb', Bool.or_true, and_true]
        by_cases hp : par = some j
        · simp only [hp, true_and, if_true]
          by_cases hq : s'.abiFindPath.2 = true
          · simp only [hq, if_true, Option.map_map]
            rfl
          · simp [hq]
        · simp [hp]
    · have hb' : (l'.abi.path || !l'.abi.wlist.isEmpty) = false := by
        simp only [not_or, not_not] at hb
        simp [hb.1, hb.2]
      refine ⟨ls2, ?_, ?_, by omega, ?_⟩
      · simp only [abiFindPathAt, e1, Option.bind_eq_bind, Option.bind_some]
        rw [e2]
        simp only [Option.bind_some, e3]
        rw [if_neg hb]
      · rw [gather_node]
        exact ⟨l', _, _, e3, gc, g2, rfl⟩
      · intro j hj
        simp only [LTree.toList, List.mem_cons, List.mem_append, not_or] at hj
        rw [u2 j hj.2.2, u1' j hj.2.1 hj.1]
        simp only [LTree.abiFindPath, ← hl', hb', Bool.or_false]

theorem abiAdd_zero_add (l : Link K) (a b : Vec6 K) :
    (l.abiAdd (0, a)).abiAdd (0, b) = l.abiAdd (0, a + b) := by
  simp [Link.abiAdd, add_assoc]

theorem abiAdd_zero_zero (l : Link K) : l.abiAdd (0, 0) = l := by
  simp [Link.abiAdd]

/-- **Refinement of the backward pass for additional forces.** -/
theorem abiAddExAt_refines (fx : Bool) (t : LTree ℕ) :
    ∀ (par : Option ℕ) (ls : List (Link K)) (T : LTree (Link K)), t.toList.Nodup →
    gather ls t = some T → (∀ p, par = some p → p < ls.length ∧ p ∉ t.toList) →
    ∃ ls', abiAddExAt fx par t ls = some ls' ∧ gather ls' t = some (T.abiAddEx fx).1 ∧
      ls'.length = ls.length ∧ ∀ i, i ∉ t.toList →
        ls'[i]? = if par = some i then ls[i]?.map (fun l => l.abiAdd (0, (T.abiAddEx fx).2))
          else ls[i]? := by
  induction t with
  | nil =>
    intro par ls T hn hg hpar
    simp only [gather, Option.some.injEq] at hg
    subst hg
    refine ⟨ls, rfl, rfl, rfl, fun i _ => ?_⟩
    simp [LTree.abiAddEx, abiAdd_zero_zero]
  | node i c s ihc ihs =>
    intro par ls T hn hg hpar
    obtain ⟨l, c', s', h1, h2, h3, rfl⟩ := gather_node.1 hg
    simp only [LTree.toList, List.nodup_cons, List.mem_append, not_or] at hn
    obtain ⟨⟨hic, his⟩, hcs⟩ := hn
    obtain ⟨hc, hs, hd⟩ := List.nodup_append.1 hcs
    have hpar' : ∀ p, par = some p → p < ls.length ∧ p ≠ i ∧ p ∉ c.toList ∧ p ∉ s.toList := by
      intro p hp
      have := hpar p hp
      simp only [LTree.toList, List.mem_cons, List.mem_append, not_or] at this
      exact ⟨this.1, this.2.1, this.2.2.1, this.2.2.2⟩
    have hlen : i < ls.length := by
      by_contra hh
      rw [List.getElem?_eq_none (by omega)] at h1; simp at h1
    have hpi : par ≠ some i := fun h => (hpar' i h).2.1 rfl
    have hcpar : ∀ j ∈ c.toList, par ≠ some j := fun j hj h => (hpar' j h).2.2.1 hj
    set cr : LTree (Link K) × Vec6 K := if l.abi.path then c'.abiAddEx fx else (c', 0) with hcr
    set l' : Link K := if l.abi.path then l.abiResetB.abiSubNet.abiAdd (0, cr.2) else l.abiSubNet with hl'
    -- the link and its children
    have step1 : ∃ ls1, (if l.abi.path = true then
          abiAddExAt fx (some i) c (ls.set i l.abiResetB.abiSubNet)
          else some (ls.set i l.abiSubNet)) = some ls1 ∧ gather ls1 c = some cr.1 ∧
        ls1.length = ls.length ∧ ls1[i]? = some l' ∧
        ∀ j, j ∉ c.toList → j ≠ i → ls1[j]? = ls[j]? := by
      by_cases hp : l.abi.path = true
      · obtain ⟨ls1, e1, g1, n1, u1⟩ := ihc (some i) (ls.set i l.abiResetB.abiSubNet) c' hc
          (by rw [← h2]; exact gather_congr fun j hj => by
                rw [List.getElem?_set_ne]; intro e; exact hic (e ▸ hj))
          (fun p hp => by cases hp; exact ⟨by simpa using hlen, hic⟩)
        refine ⟨ls1, by rw [if_pos hp]; exact e1, by simp only [hcr, hp, if_true]; exact g1,
          by simpa using n1, ?_, ?_⟩
        · rw [u1 i hic, if_pos rfl, List.getElem?_set_self hlen]
          simp [hl', hp, hcr]
        · intro j hj hji
          rw [u1 j hj, if_neg (by simpa using Ne.symm hji), List.getElem?_set_ne (Ne.symm hji)]
      · refine ⟨ls.set i l.abiSubNet, by rw [if_neg hp], ?_, by simp, ?_, ?_⟩
        · simp only [hcr, hp, Bool.false_eq_true, if_false]
          rw [← h2]; exact gather_congr fun j hj => by
            rw [List.getElem?_set_ne]; intro e; exact hic (e ▸ hj)
        · rw [List.getElem?_set_self hlen]
          simp [hl', hp]
        · intro j _ hji
          rw [List.getElem?_set_ne (Ne.symm hji)]
    obtain ⟨ls1, e1, g1, n1, ui, u1⟩ := step1
    obtain ⟨ls2, e2, n2, u2⟩ := modifyParent_spec (ls := ls1) (par := par)
      (f := fun pl => pl.abiAdd (0, l'.abiToParentB fx))
      (fun p hp => by have := (hpar' p hp).1; omega)
    have hspar : ∀ j ∈ s.toList, par ≠ some j := fun j hj h => (hpar' j h).2.2.2 hj
    obtain ⟨ls3, e3, g3, n3, u3⟩ := ihs par ls2 s' hs
      (by
        rw [← h3]
        refine gather_congr fun j hj => ?_
        rw [u2, if_neg (hspar j hj), u1 j (fun h => hd j h j hj rfl) fun e => his (e ▸ hj)])
      (fun p hp => ⟨by have := (hpar' p hp).1; omega, (hpar' p hp).2.2.2⟩)
    refine ⟨ls3, ?_, ?_, by omega, ?_⟩
    · rw [abiAddExAt]
      simp only [h1, Option.bind_eq_bind, Option.bind_some]
      split_ifs at e1 ⊢ with hp
      · rw [e1]
        simp only [Option.bind_some, ui]
        rw [e2]
        exact e3
      · cases e1
        simp only [Option.bind_some, ui]
        rw [e2]
        exact e3
    · rw [gather_node]
      refine ⟨l', _, _, ?_, ?_, g3, rfl⟩
      · rw [u3 i his, if_neg hpi, u2, if_neg hpi, ui]
      · rw [← hcr, ← g1]
        refine gather_congr fun j hj => ?_
        rw [u3 j fun h => hd j hj j h rfl, if_neg (hcpar j hj), u2, if_neg (hcpar j hj)]
    · intro j hj
      simp only [LTree.toList, List.mem_cons, List.mem_append, not_or] at hj
      rw [u3 j hj.2.2, u2, u1 j hj.2.1 hj.1]
      by_cases hp : par = some j
      · simp only [if_pos hp, Option.map_map, LTree.abiAddEx]
        congr 1
        funext x
        simp only [Function.comp, abiAdd_zero_add, ← hcr, ← hl']
      · simp only [if_neg hp]

/-! ## The loop of `rkChainABIUpdateInit` -/

/-- The parent of `i` in a tree whose top level has the parent `par`. -/
def parentIn (par : Option ℕ) : LTree ℕ → ℕ → Option (Option ℕ)
  | .nil, _ => none
  | .node j c s, i => if i = j then some par else (parentIn (some j) c i).or (parentIn par s i)

theorem parentIn_none (t : LTree ℕ) (par : Option ℕ) (i : ℕ) (h : i ∉ t.toList) :
    parentIn par t i = none := by
  induction t generalizing par with
  | nil => rfl
  | node j c s ihc ihs =>
    simp only [LTree.toList, List.mem_cons, List.mem_append, not_or] at h
    simp [parentIn, h.1, ihc _ h.2.1, ihs _ h.2.2]

theorem pathUp_ne_nil (t : LTree ℕ) (i : ℕ) : t.pathUp i ≠ some [] := by
  induction t with
  | nil => simp [LTree.pathUp]
  | node j c s ihc ihs =>
    simp only [LTree.pathUp]
    split_ifs
    · simp
    · cases h : c.pathUp i with
      | none => simpa using ihs
      | some p => simp

theorem parentIn_eq (t : LTree ℕ) (par : Option ℕ) (i : ℕ) :
    parentIn par t i = (t.pathUp i).map fun p => p.tail.head?.or par := by
  induction t generalizing par with
  | nil => rfl
  | node j c s ihc ihs =>
    simp only [parentIn, LTree.pathUp]
    split_ifs with h
    · simp
    · rw [ihc, ihs]
      have hne := pathUp_ne_nil c i
      cases hp : c.pathUp i with
      | none => simp
      | some p =>
        rcases p with _ | ⟨a, p⟩
        · exact absurd hp hne
        · rcases p with _ | ⟨b, p⟩ <;> simp

theorem parentOf_eq (t : LTree ℕ) (i : ℕ) : parentOf t i = parentIn none t i := by
  rw [parentIn_eq, parentOf]; simp

theorem parentIn_isSome (t : LTree ℕ) (par : Option ℕ) (i : ℕ) (h : i ∈ t.toList) :
    ∃ q, parentIn par t i = some q ∧ (∀ p, q = some p → q = par ∨ p ∈ t.toList) := by
  induction t generalizing par with
  | nil => simp [LTree.toList] at h
  | node j c s ihc ihs =>
    simp only [parentIn]
    split_ifs with hj
    · exact ⟨par, rfl, fun p _ => Or.inl rfl⟩
    · simp only [LTree.toList, List.mem_cons, List.mem_append, hj, false_or] at h
      by_cases hc : i ∈ c.toList
      · obtain ⟨q, e, hq⟩ := ihc (some j) hc
        refine ⟨q, by rw [e]; rfl, fun p hp => Or.inr ?_⟩
        rcases hq p hp with h' | h'
        · rw [h'] at hp; cases hp; simp [LTree.toList]
        · simp [LTree.toList, h']
      · rw [parentIn_none c _ i hc]
        obtain ⟨q, e, hq⟩ := ihs par (h.resolve_left hc)
        refine ⟨q, by rw [e]; rfl, fun p hp => ?_⟩
        rcases hq p hp with h' | h'
        · exact Or.inl h'
        · exact Or.inr (by simp [LTree.toList, h'])

/-- The velocity of the parent in the array. -/
def parentVel (ls : List (Link K)) : Option (Option ℕ) → Vec6 K
  | some (some p) => match ls[p]? with | some l => l.body.vel | none => 0
  | _ => 0

theorem gather_init (ls ls' : List (Link K)) (t : LTree ℕ) :
    ∀ (par : Option ℕ) (st : Vec6 K) (T : LTree (Link K)), t.toList.Nodup → gather ls t = some T →
    parentVel ls (some par) = st →
    (∀ i ∈ t.toList, ls'[i]? = ls[i]?.map fun l => l.abiUpdateInit (parentVel ls (parentIn par t i))) →
    gather ls' t = some (T.abiInit st) := by
  induction t with
  | nil =>
    intro par st T hn hg hst h
    simp only [gather, Option.some.injEq] at hg
    subst hg; rfl
  | node j c s ihc ihs =>
    intro par st T hn hg hst h
    obtain ⟨l, c', s', h1, h2, h3, rfl⟩ := gather_node.1 hg
    simp only [LTree.toList, List.nodup_cons, List.mem_append, not_or] at hn
    obtain ⟨⟨hic, his⟩, hcs⟩ := hn
    obtain ⟨hc, hs, hd⟩ := List.nodup_append.1 hcs
    rw [gather_node]
    refine ⟨l.abiUpdateInit st, c'.abiInit l.body.vel, s'.abiInit st, ?_, ?_, ?_, rfl⟩
    · rw [h j (by simp [LTree.toList]), h1]
      simp [parentIn, hst]
    · refine ihc (some j) _ c' hc h2 (by simp [parentVel, h1]) fun i hi => ?_
      rw [h i (by simp [LTree.toList, hi])]
      have hij : i ≠ j := fun e => hic (e ▸ hi)
      obtain ⟨q, e, -⟩ := parentIn_isSome c (some j) i hi
      simp [parentIn, hij, e]
    · refine ihs par _ s' hs h3 hst fun i hi => ?_
      rw [h i (by simp [LTree.toList, hi])]
      have hij : i ≠ j := fun e => his (e ▸ hi)
      simp [parentIn, hij, parentIn_none c _ i fun hh => hd i hh i hi rfl]

/-- **Refinement of the initialisation loop.** -/
theorem WF.abiInitAt {c : Chain K} (h : c.WF) {T : LTree (Link K)}
    (hT : gather c.link c.shape = some T) :
    ∃ ls', Chain.abiInitAt c.shape c.link = some ls' ∧ gather ls' c.shape = some (T.abiInit 0) ∧
      ls'.length = c.link.length := by
  have loop : ∀ n, n ≤ c.link.length → ∃ ls', (List.range n).foldlM (abiInitStep c.shape) c.link = some ls' ∧
      ls'.length = c.link.length ∧ (∀ i, n ≤ i → ls'[i]? = c.link[i]?) ∧
      ∀ i, i < n → ls'[i]? = c.link[i]?.map fun l =>
        l.abiUpdateInit (parentVel c.link (parentIn none c.shape i)) := by
    intro n
    induction n with
    | zero => intro _; exact ⟨c.link, rfl, rfl, fun _ _ => rfl, fun _ h => absurd h (by omega)⟩
    | succ n ih =>
      intro hn
      obtain ⟨ls', e, n', u, v⟩ := ih (by omega)
      have vel : ∀ p : ℕ, p < c.link.length → ∃ l l' : Link K, c.link[p]? = some l ∧ ls'[p]? = some l' ∧
          l'.body.vel = l.body.vel := by
        intro p hp
        refine ⟨c.link[p], ?_⟩
        by_cases hpn : p < n
        · exact ⟨c.link[p].abiUpdateInit (parentVel c.link (parentIn none c.shape p)), by simp [hp],
            by rw [v p hpn]; simp [hp], rfl⟩
        · exact ⟨c.link[p], by simp [hp], by rw [u p (by omega)]; simp [hp], rfl⟩
      obtain ⟨q, hq, hq'⟩ := parentIn_isSome c.shape none n (h.mem.2 (by omega))
      have hln : c.link[n]? = some c.link[n] := by simp
      have step : abiInitStep c.shape ls' n =
          some (ls'.set n (c.link[n].abiUpdateInit (parentVel c.link (parentIn none c.shape n)))) := by
        rw [abiInitStep, parentOf_eq, hq, u n le_rfl, hln]
        cases q with
        | none => rfl
        | some p =>
          have hp : p < c.link.length := by
            rcases hq' p rfl with h' | h'
            · cases h'
            · exact h.mem.1 h'
          obtain ⟨l, l', e1, e2, e3⟩ := vel p hp
          simp [e2, parentVel, e1, e3]
      refine ⟨_, by rw [List.range_succ, List.foldlM_append, e]; simp [step]; rfl, by simp [n'], ?_, ?_⟩
      · intro i hi
        rw [List.getElem?_set_ne (by omega), u i (by omega)]
      · intro i hi
        by_cases hin : i = n
        · subst hin
          rw [List.getElem?_set_self (by omega), hln]; rfl
        · rw [List.getElem?_set_ne (by omega), v i (by omega)]
  obtain ⟨ls', e, n, -, v⟩ := loop c.link.length le_rfl
  refine ⟨ls', e, ?_, n⟩
  exact gather_init c.link ls' c.shape none 0 T h.nodup hT rfl fun i hi => v i (h.mem.1 hi)

/-- `rkChainABIUpdate` as a composition of tree recursions. -/
theorem WF.abiUpdate [Zm K] {c : Chain K} (h : c.WF) (fx wr : Bool)
    (hs : LinkArray.jointSize c.link ≠ 0) {T : LTree (Link K)} (hT : gather c.link c.shape = some T) :
    ∃ ls', c.abiUpdate fx wr = some { c with link := ls' } ∧
      gather ls' c.shape = some ((((T.abiInit 0).abiBack fx).1).abiFwd fx wr 0) ∧
      ls'.length = c.link.length := by
  obtain ⟨ls1, e1, g1, n1⟩ := h.abiInitAt hT
  obtain ⟨ls2, e2, g2, n2, -⟩ := abiBackwardAt_refines fx c.shape none ls1 _ h.nodup g1 (by simp)
  obtain ⟨ls3, e3, g3, n3, -⟩ := abiForwardAt_refines fx wr c.shape 0 ls2 _ h.nodup g2
  refine ⟨ls3, ?_, g3, by omega⟩
  simp [Chain.abiUpdate, hs, e1, e2, e3]

theorem gather_map_links (f : Link K → Link K) {ls : List (Link K)} {t : LTree ℕ} {T : LTree (Link K)}
    (h : gather ls t = some T) : gather (ls.map f) t = some (T.map f) := by
  induction t generalizing T with
  | nil => simp only [gather, Option.some.injEq] at h; subst h; rfl
  | node i c s ihc ihs =>
    obtain ⟨l, c', s', h1, h2, h3, rfl⟩ := gather_node.1 h
    rw [gather_node]
    exact ⟨_, _, _, by simp [h1], ihc h2, ihs h3, rfl⟩

/-- `rkChainABIUpdateAddExForce` as a composition of tree recursions. -/
theorem WF.abiUpdateAddEx {c : Chain K} (h : c.WF) (fx wr : Bool)
    (hs : LinkArray.jointSize c.link ≠ 0) {T : LTree (Link K)} (hT : gather c.link c.shape = some T) :
    ∃ ls', c.abiUpdateAddEx fx wr = some { c with link := ls' } ∧
      gather ls' c.shape =
        some (((((T.map fun l => l.abiSetPath false).abiFindPath.1).abiAddEx fx).1).abiFwd fx wr 0) ∧
      ls'.length = c.link.length := by
  have g0 := gather_map_links (fun l : Link K => l.abiSetPath false) hT
  obtain ⟨ls1, e1, g1, n1, -⟩ := abiFindPathAt_refines c.shape none _ _ h.nodup g0 (by simp)
  obtain ⟨ls2, e2, g2, n2, -⟩ := abiAddExAt_refines fx c.shape none ls1 _ h.nodup g1 (by simp)
  obtain ⟨ls3, e3, g3, n3, -⟩ := abiForwardAt_refines fx wr c.shape 0 ls2 _ h.nodup g2
  refine ⟨ls3, ?_, g3, ?_⟩
  · simp [Chain.abiUpdateAddEx, abiBackwardAddEx, hs, e1, e2, e3]
  · rw [n3, n2, n1]; simp

end Chain
end Roki
