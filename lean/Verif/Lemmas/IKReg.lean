import Verif.Lemmas.IKHist
import Mathlib.Order.ConditionallyCompleteLattice.Basic
import Mathlib.Data.Nat.Lattice
set_option autoImplicit false

/-! # Inverse kinematics: registrations of constraints and joints -/

namespace Roki
variable {K : Type*}
namespace IK

/-! ## Constraints -/

/-- Address and identifier of a constraint. -/
def pair (c : IKCell K) : ℕ × ℕ := (c.ptr, c.id)

section
variable [Field K]

theorem allocCMat_same {ik ik' : IK K} (h : ik.allocCMat = some ik') :
    Same ik ik' ∧ ik'.clist = ik.clist ∧ ik'.chain = ik.chain ∧ ik'.vel = ik.vel := by
  simp only [allocCMat] at h
  split_ifs at h
  · rw [← Option.some.inj h]; exact ⟨Same.rfl' _, rfl, rfl, rfl⟩
  · split at h
    · simp at h
    · rw [← Option.some.inj h]; exact ⟨Same.rfl' _, rfl, rfl, rfl⟩
    · rw [← Option.some.inj h]; exact ⟨⟨rfl, rfl, rfl, rfl, rfl, rfl, rfl, rfl, rfl⟩, rfl, rfl, rfl⟩

theorem allocSRV_same {ik ik' : IK K} (h : ik.allocSRV = some ik') :
    Same ik ik' ∧ ik'.clist = ik.clist ∧ ik'.chain = ik.chain ∧ ik'.vel = ik.vel := by
  simp only [allocSRV] at h
  split_ifs at h
  · rw [← Option.some.inj h]; exact ⟨Same.rfl' _, rfl, rfl, rfl⟩
  · obtain ⟨e, e1, e2, e3⟩ := allocCMat_same h
    exact ⟨⟨e.keys, e.sw, e.weight, e.jidx, e.jofs, e.jwn, e.jvel, e.vel, e.ids⟩, e1, e2, e3⟩

/-- Sorted by identifiers. -/
def Sorted (l : List (IKCell K)) : Prop := l.Pairwise fun a b => a.id < b.id

theorem insertAfter_spec (c : IKCell K) (l : List (IKCell K)) :
    ∀ a : IKCell K, Sorted (a :: l) → ∃ n r, insertAfter c (a :: l) = a :: r ∧
      (a :: r).Perm ({ c with id := n } :: a :: l) ∧ Sorted (a :: r) ∧ a.id < n ∧
      (∀ m, a.id ≤ m → m < n → ∃ x ∈ a :: l, x.id = m) ∧ ∀ x ∈ a :: l, x.id ≠ n := by
  induction l with
  | nil =>
    intro a _
    refine ⟨a.id + 1, _, rfl, List.Perm.swap _ _ _, ?_, Nat.lt_succ_self _, ?_, ?_⟩
    · simp [Sorted]
    · intro m h1 h2; exact ⟨a, by simp, by omega⟩
    · intro x hx; simp only [List.mem_singleton] at hx; subst hx; omega
  | cons b l ih =>
    intro a hs
    have hs' := hs
    simp only [Sorted, List.pairwise_cons, List.mem_cons, forall_eq_or_imp] at hs
    obtain ⟨⟨hab, hal⟩, hbl, hl⟩ := hs
    by_cases hb : b.id = a.id + 1
    · obtain ⟨n, r, e, hp, hsr, hn, hm, hx⟩ := ih b (by simp only [Sorted, List.pairwise_cons]; exact ⟨hbl, hl⟩)
      refine ⟨n, b :: r, ?_, ?_, ?_, by omega, ?_, ?_⟩
      · simp only [insertAfter, hb, ne_eq, not_true, if_false]
        rw [e]
      · exact (hp.cons a).trans (List.Perm.swap _ _ _)
      · simp only [Sorted, List.pairwise_cons] at hsr ⊢
        refine ⟨fun x hx => ?_, hsr⟩
        rcases List.mem_cons.1 (hp.subset hx) with rfl | hx
        · show a.id < n; omega
        · rcases List.mem_cons.1 hx with rfl | hx
          · exact hab
          · exact hal _ hx
      · intro m h1 h2
        by_cases e1 : m = a.id
        · exact ⟨a, by simp, e1.symm⟩
        · obtain ⟨x, hx, e2⟩ := hm m (by omega) h2
          exact ⟨x, List.mem_cons_of_mem _ hx, e2⟩
      · intro x hx'
        rcases List.mem_cons.1 hx' with rfl | hx'
        · omega
        · exact hx _ hx'
    · refine ⟨a.id + 1, { c with id := a.id + 1 } :: b :: l, ?_, List.Perm.swap _ _ _, ?_,
        Nat.lt_succ_self _, ?_, ?_⟩
      · simp [insertAfter, hb]
      · simp only [Sorted, List.pairwise_cons, List.mem_cons, forall_eq_or_imp]
        refine ⟨⟨Nat.lt_succ_self _, hab, hal⟩, ⟨by omega, fun x hx => ?_⟩, hbl, hl⟩
        have := hbl x hx
        show a.id + 1 < x.id
        omega
      · intro m h1 h2; exact ⟨a, by simp, by omega⟩
      · intro x hx
        simp only [List.mem_cons] at hx
        rcases hx with rfl | rfl | hx
        · omega
        · exact hb
        · have := hbl x hx; omega

theorem insertCell_spec (c : IKCell K) (l : List (IKCell K)) (hs : Sorted l) :
    ∃ n, (insertCell c l).Perm ({ c with id := n } :: l) ∧ Sorted (insertCell c l) ∧
      (∀ m < n, ∃ x ∈ l, x.id = m) ∧ ∀ x ∈ l, x.id ≠ n := by
  cases l with
  | nil => exact ⟨0, List.Perm.refl _, by simp [Sorted, insertCell], by simp, by simp⟩
  | cons a l =>
    by_cases h0 : a.id = 0
    · obtain ⟨n, r, e, hp, hsr, hn, hm, hx⟩ := insertAfter_spec c l a hs
      refine ⟨n, ?_, ?_, fun m h => hm m (by omega) h, hx⟩
      · simp only [insertCell, h0, ne_eq, not_true, if_false]; rw [e]; exact hp
      · simp only [insertCell, h0, ne_eq, not_true, if_false]; rw [e]; exact hsr
    · have e : insertCell c (a :: l) = { c with id := 0 } :: a :: l := by simp [insertCell, h0]
      rw [e]
      refine ⟨0, List.Perm.refl _, ?_, by simp, ?_⟩
      · have hs' := hs
        simp only [Sorted, List.pairwise_cons] at hs ⊢
        refine ⟨fun x hx => ?_, hs⟩
        rcases List.mem_cons.1 hx with rfl | hx
        · exact Nat.pos_of_ne_zero h0
        · exact (Nat.zero_le _).trans_lt (hs.1 x hx)
      · intro x hx
        rcases List.mem_cons.1 hx with rfl | hx
        · exact h0
        · have := (List.pairwise_cons.1 hs).1 x hx; omega
end

theorem leastUnused_eq {l : List ℕ} {n : ℕ} (h1 : ∀ m < n, m ∈ l) (h2 : n ∉ l) :
    Spec.leastUnused l = n := by
  apply le_antisymm
  · exact Nat.sInf_le h2
  · have : Spec.leastUnused l ∈ {n | n ∉ l} := Nat.sInf_mem ⟨n, h2⟩
    by_contra hlt
    exact this (h1 _ (Nat.lt_of_not_le hlt))

theorem eraseP_eq_filter (ptr : ℕ) (l : List (IKCell K)) (h : (l.map fun c => c.ptr).Nodup) :
    l.eraseP (fun c => c.ptr == ptr) = l.filter fun c => c.ptr ≠ ptr := by
  induction l with
  | nil => rfl
  | cons a l ih =>
    simp only [List.map_cons, List.nodup_cons, List.mem_map, not_exists, not_and] at h
    by_cases ha : a.ptr = ptr
    · subst ha
      simp only [beq_self_eq_true, List.eraseP_cons_of_pos, ne_eq, not_true, decide_false, Bool.false_eq_true,
        not_false_eq_true, List.filter_cons_of_neg]
      rw [List.filter_eq_self.2]
      intro x hx
      simpa using h.1 x hx
    · rw [List.eraseP_cons_of_neg (by simpa using ha), ih h.2, List.filter_cons_of_pos (by simpa using ha)]

/-- The list of constraints agrees with a table. -/
structure Table (ik : IK K) (t : List (ℕ × ℕ)) : Prop where
  perm : (ik.clist.map pair).Perm t
  sorted : (ik.clist.map pair).Pairwise fun a b => a.2 < b.2
  nodup : (t.map Prod.fst).Nodup

theorem Table.of_ids {a b : IK K} {t : List (ℕ × ℕ)} (h : Table a t)
    (e : b.clist.map pair = a.clist.map pair) : Table b t :=
  ⟨e ▸ h.perm, e ▸ h.sorted, h.nodup⟩

variable [Field K]

theorem Table.cellReg {ik ik' : IK K} {t : List (ℕ × ℕ)} (h : Table ik t) {ptr : ℕ}
    {attr : Option (IKAttr K)} {mask : IKMask} {fns : IKFns K}
    (hf : ∀ e ∈ t, e.1 ≠ ptr) (hr : ik.cellReg ptr attr mask fns = some ik') :
    Table ik' ((ptr, Spec.leastUnused (t.map Prod.snd)) :: t) := by
  have e := allocSRV_same hr
  have hs : Sorted ik.clist := by simpa [Sorted, List.pairwise_map, pair] using h.sorted
  obtain ⟨n, hp, hsr, hm, hx⟩ := insertCell_spec (IKCell.init ptr attr mask fns) ik.clist hs
  have ht : ∀ m, m ∈ t.map Prod.snd ↔ ∃ x ∈ ik.clist, x.id = m := by
    intro m
    rw [← (h.perm.map Prod.snd).mem_iff]
    simp [pair]
  have hn : Spec.leastUnused (t.map Prod.snd) = n :=
    leastUnused_eq (fun m hmn => (ht m).2 (hm m hmn)) (fun hh => by
      obtain ⟨x, hx', e⟩ := (ht n).1 hh
      exact hx x hx' e)
  rw [hn]
  have hcl : ik'.clist = insertCell (IKCell.init ptr attr mask fns) ik.clist := e.2.1
  refine ⟨?_, ?_, ?_⟩
  · rw [hcl]
    exact (hp.map pair).trans (h.perm.cons _)
  · rw [hcl]; simpa [Sorted, List.pairwise_map, pair] using hsr
  · simp only [List.map_cons, List.nodup_cons, List.mem_map, not_exists, not_and]
    exact ⟨fun x hx => hf x hx, h.nodup⟩

theorem Table.cellUnreg {ik ik' : IK K} {t : List (ℕ × ℕ)} (h : Table ik t) {ptr : ℕ}
    (hr : ik.cellUnreg ptr = some ik') : Table ik' (t.filter fun e => e.1 ≠ ptr) := by
  simp only [IK.cellUnreg] at hr
  split_ifs at hr with hany
  have e := allocSRV_same hr
  have hn : (ik.clist.map fun c => c.ptr).Nodup := by
    have := ((h.perm.map Prod.fst).nodup_iff).2 h.nodup
    simpa [pair, Function.comp_def] using this
  have hcl : ik'.clist = ik.clist.filter fun c => c.ptr ≠ ptr := e.2.1.trans (eraseP_eq_filter _ _ hn)
  have hm : ik'.clist.map pair = (ik.clist.map pair).filter fun e => e.1 ≠ ptr := by
    rw [hcl, List.filter_map]; rfl
  refine ⟨?_, ?_, ?_⟩
  · rw [hm]; exact h.perm.filter _
  · rw [hm]; exact h.sorted.filter _
  · have : (t.filter fun e => e.1 ≠ ptr).map Prod.fst = (t.map Prod.fst).filter fun p => p ≠ ptr := by
      rw [List.filter_map]; rfl
    rw [this]; exact h.nodup.filter _
end IK
end Roki
