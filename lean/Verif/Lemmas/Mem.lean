import Verif.Model.Mem
import Mathlib.Data.Multiset.AddSub
import Mathlib.Algebra.Order.Group.Multiset
import Mathlib.Tactic.Abel
set_option autoImplicit false

/-! # Ownership of blocks -/

namespace Roki.Mem

/-- The block of a pointer. -/
def pt : Option ℕ → Multiset ℕ
  | none => 0
  | some b => {b}

@[simp] theorem pt_none : pt none = 0 := rfl
@[simp] theorem pt_some (b : ℕ) : pt (some b) = {b} := rfl

/-- The live blocks are those of `s`. -/
structure Own (h : Heap) (s : Multiset ℕ) : Prop where
  live : (h.live : Multiset ℕ) = s
  lt : ∀ b ∈ s, b < h.next
  nodup : s.Nodup

theorem Own.alloc {h : Heap} {s : Multiset ℕ} (o : Own h s) :
    ∃ p h', Mem.alloc h = some (p, h') ∧ Own h' (pt p + s) ∧ h'.ok = h.ok ∧ h'.next = h.next + 1 ∧
      p.isSome = h.ok h.next := by
  unfold Mem.alloc
  by_cases hk : h.ok h.next = true
  · rw [if_pos hk]
    refine ⟨_, _, rfl, ⟨?_, ?_, ?_⟩, rfl, rfl, by simp [hk]⟩
    · show ((h.next :: h.live : List ℕ) : Multiset ℕ) = _
      rw [← Multiset.cons_coe, o.live, pt_some, Multiset.singleton_add]
    · intro b hb
      rw [pt_some, Multiset.singleton_add, Multiset.mem_cons] at hb
      show b < h.next + 1
      rcases hb with rfl | hb
      · omega
      · have := o.lt b hb; omega
    · rw [pt_some, Multiset.singleton_add, Multiset.nodup_cons]
      exact ⟨fun hm => absurd (o.lt _ hm) (lt_irrefl _), o.nodup⟩
  · rw [if_neg hk]
    refine ⟨_, _, rfl, ⟨?_, ?_, ?_⟩, rfl, rfl, by simpa using hk⟩
    · simpa using o.live
    · intro b hb
      rw [pt_none, zero_add] at hb
      have := o.lt b hb
      show b < h.next + 1
      omega
    · simpa using o.nodup

theorem Own.free {h : Heap} {s : Multiset ℕ} {p : Option ℕ} (o : Own h (pt p + s)) :
    ∃ h', Mem.free p h = some ((), h') ∧ Own h' s ∧ h'.ok = h.ok ∧ h'.next = h.next := by
  cases p with
  | none => exact ⟨h, rfl, by simpa using o, rfl, rfl⟩
  | some b =>
    have hm : b ∈ h.live := by
      rw [← Multiset.mem_coe, o.live]; simp
    refine ⟨{ h with live := h.live.erase b }, by simp only [Mem.free, if_pos hm], ⟨?_, ?_, ?_⟩, rfl, rfl⟩
    · show ((h.live.erase b : List ℕ) : Multiset ℕ) = s
      rw [← Multiset.coe_erase, o.live, pt_some, Multiset.singleton_add, Multiset.erase_cons_head]
    · intro c hc
      exact o.lt c (by rw [Multiset.mem_add]; exact Or.inr hc)
    · exact (Multiset.nodup_add.1 o.nodup).2.1

theorem Own.deref {h : Heap} {s : Multiset ℕ} {b : ℕ} (o : Own h s) (hb : b ∈ s) : Mem.deref (some b) h = some ((), h) := by
  have hm : b ∈ h.live := by rw [← Multiset.mem_coe, o.live]; exact hb
  simp only [Mem.deref, if_pos hm]

theorem Own.congr {h : Heap} {s t : Multiset ℕ} (o : Own h s) (e : s = t) : Own h t := e ▸ o

theorem bind_none {α β : Type} {m : M α} {f : α → M β} {h : Heap} (e : m h = none) : (m >>= f) h = none := by
  show (m h).bind _ = none
  rw [e]; rfl

theorem bind_eq {α β : Type} {m : M α} {f : α → M β} {h h' : Heap} {a : α} (e : m h = some (a, h')) :
    (m >>= f) h = f a h' := by
  show (m h).bind _ = _
  rw [e]; rfl

namespace IK

/-- The blocks that a solver owns. -/
def owned (ik : IK) : Multiset ℕ :=
  pt ik.jointSw + pt ik.jointWeight + pt ik.jointVel + pt ik.cMatCell + pt ik.jIdx + pt ik.jOfs + pt ik.jVel + pt ik.jWn +
  pt ik.cMat + pt ik.cSrv + pt ik.cWe + pt ik.cc + pt ik.wm + pt ik.wv + pt ik.ws + pt ik.widx + (ik.cells : Multiset ℕ)

theorem freeAll_spec : ∀ (l : List ℕ) {h : Heap} {s : Multiset ℕ}, Own h ((l : Multiset ℕ) + s) →
    ∃ h', freeAll l h = some ((), h') ∧ Own h' s ∧ h'.ok = h.ok
  | [], h, s, o => ⟨h, rfl, o.congr (by simp), rfl⟩
  | b :: l, h, s, o => by
    obtain ⟨h1, e1, o1, k1, -⟩ := Own.free (p := some b) (s := (l : Multiset ℕ) + s)
      (o.congr (by rw [pt_some, ← Multiset.cons_coe, ← Multiset.singleton_add, add_assoc]))
    obtain ⟨h2, e2, o2, k2⟩ := freeAll_spec l o1
    exact ⟨h2, by rw [freeAll, bind_eq e1, e2], o2, k2.trans k1⟩

theorem destroy_spec (nul : Bool) (ik : IK) {h : Heap} {R : Multiset ℕ} (o : Own h (ik.owned + R)) :
    ∃ h', ik.destroy nul h = some (ik.released nul, h') ∧ Own h' R := by
  unfold owned at o
  obtain ⟨h1, e1, o1, k1, -⟩ := Own.free (p := ik.jointSw) (o.congr (by simp only [add_assoc]; rfl))
  obtain ⟨h2, e2, o2, k2, -⟩ := Own.free (p := ik.jointWeight) o1
  obtain ⟨h3, e3, o3, k3, -⟩ := Own.free (p := ik.jointVel) o2
  obtain ⟨h4, e4, o4, k4⟩ := freeAll_spec ik.cells (s := pt ik.cMatCell + (pt ik.jIdx + (pt ik.jOfs + (pt ik.jVel + (pt ik.jWn +
    (pt ik.cMat + (pt ik.cSrv + (pt ik.cWe + (pt ik.cc + (pt ik.wm + (pt ik.wv + (pt ik.ws + (pt ik.widx + R)))))))))))))
    (o3.congr (by abel))
  obtain ⟨h5, e5, o5, -⟩ := Own.free (p := ik.cMatCell) o4
  obtain ⟨h6, e6, o6, -⟩ := Own.free (p := ik.jIdx) o5
  obtain ⟨h7, e7, o7, -⟩ := Own.free (p := ik.jOfs) o6
  obtain ⟨h8, e8, o8, -⟩ := Own.free (p := ik.jVel) o7
  obtain ⟨h9, e9, o9, -⟩ := Own.free (p := ik.jWn) o8
  obtain ⟨h10, e10, o10, -⟩ := Own.free (p := ik.cMat) o9
  obtain ⟨h11, e11, o11, -⟩ := Own.free (p := ik.cSrv) o10
  obtain ⟨h12, e12, o12, -⟩ := Own.free (p := ik.cWe) o11
  obtain ⟨h13, e13, o13, -⟩ := Own.free (p := ik.cc) o12
  obtain ⟨h14, e14, o14, -⟩ := Own.free (p := ik.wm) o13
  obtain ⟨h15, e15, o15, -⟩ := Own.free (p := ik.wv) o14
  obtain ⟨h16, e16, o16, -⟩ := Own.free (p := ik.ws) o15
  obtain ⟨h17, e17, o17, -⟩ := Own.free (p := ik.widx) o16
  refine ⟨h17, ?_, o17⟩
  unfold destroy
  rw [bind_eq e1, bind_eq e2, bind_eq e3, bind_eq e4, bind_eq e5, bind_eq e6, bind_eq e7, bind_eq e8, bind_eq e9, bind_eq e10,
    bind_eq e11, bind_eq e12, bind_eq e13, bind_eq e14, bind_eq e15, bind_eq e16, bind_eq e17]
  rfl

/-- The pointers that `rkIKCreate` obtains and later calls use. -/
structure Base (ik : IK) : Prop where
  sw : ik.jointSw.isSome
  weight : ik.jointWeight.isSome
  ofs : ik.jOfs.isSome
  len : ik.sw.length = ik.size.length

/-- A joint is registered. -/
def Ready (ik : IK) : Prop := ik.jIdx.isSome ∧ ik.jVel.isSome

theorem deref_field {h : Heap} {s : Multiset ℕ} {p : Option ℕ} (hp : p.isSome) (o : Own h s)
    (hs : ∀ b, p = some b → b ∈ s) : Mem.deref p h = some ((), h) := by
  obtain ⟨b, rfl⟩ := Option.isSome_iff_exists.1 hp
  exact o.deref (hs b rfl)

theorem not_isNone {α : Type} {p : Option α} (h : p.isSome = true) : ¬ (p.isNone = true) := by
  cases p <;> simp_all

theorem allocCMat_spec (ik : IK) {h : Heap} {R : Multiset ℕ} (o : Own h (ik.owned + R)) (hr : ik.cells ≠ [] → ik.Ready) :
    ∃ r h', ik.allocCMat h = some (r, h') ∧ Own h' (r.2.owned + R) ∧ h'.ok = h.ok ∧ (∃ m, r.2 = { ik with cMat := m }) ∧
      ((∀ n, h.ok n = true) → r.1 = true) := by
  by_cases hc : ik.cells = []
  · refine ⟨(true, ik), h, ?_, o, rfl, ⟨ik.cMat, rfl⟩, fun _ => rfl⟩
    unfold allocCMat
    rw [if_pos (by rw [hc]; rfl)]
    rfl
  · obtain ⟨h1, h2⟩ := hr hc
    have d1 := deref_field h1 o (fun b hb => by unfold owned; simp [hb])
    obtain ⟨g1, e1, o1, k1, -⟩ := Own.free (p := ik.cMat) (s := { ik with cMat := none }.owned + R)
      (o.congr (by simp only [owned, pt_none]; abel))
    have d2 := deref_field h2 o1 (fun b hb => by unfold owned; simp [hb])
    obtain ⟨m, g2, e2, o2, k2, -, hm⟩ := o1.alloc
    refine ⟨(m.isSome, { ik with cMat := m }), g2, ?_, o2.congr (by simp only [owned, pt_none]; abel), k2.trans k1,
      ⟨m, rfl⟩, fun hk => ?_⟩
    · unfold allocCMat
      rw [if_neg (by rw [List.length_eq_zero_iff]; exact hc), bind_eq d1, bind_eq e1, bind_eq d2, bind_eq e2]
      rfl
    · show m.isSome = true
      rw [hm, k1]; exact hk _

theorem allocJointVec_spec (nul : Bool) (ik : IK) {h : Heap} {R : Multiset ℕ} (o : Own h (ik.owned + R)) (hb : ik.Base)
    (hi : ik.jIdx.isSome) (hn : nul = true ∨ ∀ n, h.ok n = true) :
    ∃ r h', ik.allocJointVec nul h = some (r, h') ∧ Own h' (r.2.owned + R) ∧ h'.ok = h.ok ∧
      (∃ v n m w s x c, r.2 = { ik with jVel := v, jWn := n, wm := m, wv := w, ws := s, widx := x, cMat := c } ∧
        (r.1 = true → v.isSome)) ∧
      ((∀ n, h.ok n = true) → r.1 = true) := by
  have d0 := deref_field hb.ofs o (fun b hb => by unfold owned; simp [hb])
  obtain ⟨g1, e1, o1, k1, -⟩ := Own.free (p := ik.jVel) (s := { ik with jVel := none }.owned + R)
    (o.congr (by simp only [owned, pt_none]; abel))
  obtain ⟨g2, e2, o2, k2, -⟩ := Own.free (p := ik.jWn) (s := { ik with jVel := none, jWn := none }.owned + R)
    (o1.congr (by simp only [owned, pt_none]; abel))
  obtain ⟨g3, e3, o3, k3, -⟩ := Own.free (p := ik.wm) (s := { ik with jVel := none, jWn := none, wm := none }.owned + R)
    (o2.congr (by simp only [owned, pt_none]; abel))
  obtain ⟨g4, e4, o4, k4, -⟩ := Own.free (p := ik.wv) (s := { ik with jVel := none, jWn := none, wm := none, wv := none }.owned + R)
    (o3.congr (by simp only [owned, pt_none]; abel))
  obtain ⟨g5, e5, o5, k5, -⟩ := Own.free (p := ik.ws)
    (s := { ik with jVel := none, jWn := none, wm := none, wv := none, ws := none }.owned + R)
    (o4.congr (by simp only [owned, pt_none]; abel))
  obtain ⟨g6, e6, o6, k6, -⟩ := Own.free (p := ik.widx)
    (s := { ik with jVel := none, jWn := none, wm := none, wv := none, ws := none, widx := none }.owned + R)
    (o5.congr (by simp only [owned, pt_none]; abel))
  have k : g6.ok = h.ok := k6.trans (k5.trans (k4.trans (k3.trans (k2.trans k1))))
  obtain ⟨v, g7, e7, o7, k7, -, hv⟩ := o6.alloc
  rw [k] at hv k7
  by_cases hv0 : v.isSome = true
  swap
  · -- the first vector is denied
    have hd : nul = true := hn.resolve_right fun hk => hv0 (by rw [hv]; exact hk _)
    subst hd
    have hv1 : v = none := by simpa using hv0
    subst hv1
    refine ⟨_, g7, by
      unfold allocJointVec
      rw [bind_eq d0, bind_eq e1, bind_eq e2, bind_eq e3, bind_eq e4, bind_eq e5, bind_eq e6, bind_eq e7]
      rfl, o7.congr (by simp only [owned, pt_none, after, if_true]; abel), k7, ⟨_, _, _, _, _, _, _, rfl, by simp⟩, fun hk => ?_⟩
    exact absurd (hv.trans (hk _)) hv0
  obtain ⟨n, g8, e8, o8, k8, -, hn8⟩ := o7.alloc
  rw [k7] at k8 hn8
  by_cases hn0 : n.isSome = true
  swap
  · have hd : nul = true := hn.resolve_right fun hk => hn0 (by rw [hn8]; exact hk _)
    subst hd
    have hn1 : n = none := by simpa using hn0
    subst hn1
    refine ⟨_, g8, by
      unfold allocJointVec
      rw [bind_eq d0, bind_eq e1, bind_eq e2, bind_eq e3, bind_eq e4, bind_eq e5, bind_eq e6, bind_eq e7,
        if_neg (not_isNone hv0), bind_eq e8]
      rfl, o8.congr (by simp only [owned, pt_none, after, if_true]; abel), k8, ⟨_, _, _, _, _, _, _, rfl, by simp⟩, fun hk => ?_⟩
    exact absurd (hn8.trans (hk _)) hn0
  obtain ⟨m, g9, e9, o9, k9, -, hm9⟩ := o8.alloc
  obtain ⟨w, g10, e10, o10, k10, -, hm10⟩ := o9.alloc
  obtain ⟨s, g11, e11, o11, k11, -, hm11⟩ := o10.alloc
  obtain ⟨x, g12, e12, o12, k12, -, hm12⟩ := o11.alloc
  rw [k8] at k9 hm9
  rw [k9] at k10 hm10
  rw [k10] at k11 hm11
  rw [k11] at k12 hm12
  have oo : Own g12 ({ ik with jVel := v, jWn := n, wm := m, wv := w, ws := s, widx := x }.owned + R) :=
    o12.congr (by simp only [owned, pt_none]; abel)
  by_cases ha : (m.isSome && w.isSome && s.isSome && x.isSome) = true
  · have d2 := deref_field hb.weight oo (fun b hb => by unfold owned; simp [hb])
    obtain ⟨r, g13, e13, o13, k13, ⟨c, hc⟩, hr⟩ := allocCMat_spec { ik with jVel := v, jWn := n, wm := m, wv := w, ws := s, widx := x } oo
      (fun _ => ⟨hi, hv0⟩)
    refine ⟨r, g13, ?_, o13, k13.trans k12, ⟨v, n, m, w, s, x, c, hc, fun _ => hv0⟩, fun hk => hr (by rw [k12]; exact hk)⟩
    unfold allocJointVec
    rw [bind_eq d0, bind_eq e1, bind_eq e2, bind_eq e3, bind_eq e4, bind_eq e5, bind_eq e6, bind_eq e7,
      if_neg (not_isNone hv0), bind_eq e8, if_neg (not_isNone hn0), bind_eq e9, bind_eq e10, bind_eq e11, bind_eq e12,
      if_pos ha, bind_eq d2, e13]
  · refine ⟨(false, { ik with jVel := v, jWn := n, wm := m, wv := w, ws := s, widx := x }), g12, ?_, oo, k12,
      ⟨v, n, m, w, s, x, _, rfl, by simp⟩, fun hk => absurd ?_ ha⟩
    · unfold allocJointVec
      rw [bind_eq d0, bind_eq e1, bind_eq e2, bind_eq e3, bind_eq e4, bind_eq e5, bind_eq e6, bind_eq e7,
        if_neg (not_isNone hv0), bind_eq e8, if_neg (not_isNone hn0), bind_eq e9, bind_eq e10, bind_eq e11, bind_eq e12,
        if_neg ha]
      rfl
    · rw [hm9, hm10, hm11, hm12, hk, hk, hk, hk]; rfl

theorem clearSw_length : ∀ (a : List ℕ) (b : List Bool), (clearSw a b).length = b.length
  | [], b => by cases b <;> rfl
  | _ :: _, [] => rfl
  | n :: a, c :: b => by simp [clearSw, clearSw_length a b]

theorem clearSw_get : ∀ (a : List ℕ) (b : List Bool) (i : ℕ) (n : ℕ), a[i]? = some n → n ≠ 0 → b[i]? = some true →
    (clearSw a b)[i]? = some true
  | [], b, i, n, h, _, _ => by simp at h
  | _ :: _, [], i, n, _, _, h => by simp at h
  | m :: a, c :: b, 0, n, h, hn, hb => by
    simp only [List.getElem?_cons_zero, Option.some.injEq] at h hb
    subst h hb
    simp [clearSw, hn]
  | m :: a, c :: b, i + 1, n, h, hn, hb => by
    simp only [List.getElem?_cons_succ] at h hb
    simp only [clearSw, List.getElem?_cons_succ]
    exact clearSw_get a b i n h hn hb

/-- What a call on the joints leaves. -/
structure JPost (ik ik' : IK) (ok : Bool) : Prop where
  size : ik'.size = ik.size
  base : ik'.Base
  cells : ik'.cells = ik.cells
  cc : ik'.cc = ik.cc
  ready : ik.Ready → ok = true → ik'.Ready

theorem allocJointIndex_spec (nul : Bool) (ik : IK) {h : Heap} {R : Multiset ℕ} (o : Own h (ik.owned + R)) (hb : ik.Base)
    (hn : nul = true ∨ ∀ n, h.ok n = true) :
    ∃ r h', ik.allocJointIndex nul h = some (r, h') ∧ Own h' (r.2.owned + R) ∧ h'.ok = h.ok ∧ JPost ik r.2 r.1 ∧
      ((∃ (i n : ℕ), ik.size[i]? = some n ∧ n ≠ 0 ∧ ik.sw[i]? = some true) → r.1 = true → r.2.Ready) ∧
      ((∀ n, h.ok n = true) → r.1 = true) := by
  have d0 := deref_field hb.sw o (fun b hb => by unfold owned; simp [hb])
  have hb1 : ({ ik with sw := clearSw ik.size ik.sw } : IK).Base := ⟨hb.sw, hb.weight, hb.ofs, by
    show (clearSw _ _).length = _; rw [clearSw_length]; exact hb.len⟩
  by_cases h0 : (clearSw ik.size ik.sw).countP (·) = 0
  · refine ⟨(true, { ik with sw := clearSw ik.size ik.sw }), h, ?_, o, rfl, ⟨rfl, hb1, rfl, rfl, fun hr _ => hr⟩, ?_, fun _ => rfl⟩
    · unfold allocJointIndex
      rw [bind_eq d0, if_pos h0]
      rfl
    · rintro ⟨i, n, h1, h2, h3⟩ -
      rw [List.countP_eq_zero] at h0
      exact absurd rfl (h0 true (List.mem_of_getElem? (clearSw_get _ _ i n h1 h2 h3)))
  · obtain ⟨g1, e1, o1, k1, -⟩ := Own.free (p := ik.jIdx) (s := { ik with sw := clearSw ik.size ik.sw, jIdx := none }.owned + R)
      (o.congr (by simp only [owned, pt_none]; abel))
    obtain ⟨x, g2, e2, o2, k2, -, hx⟩ := o1.alloc
    have oo : Own g2 ({ ik with sw := clearSw ik.size ik.sw, jIdx := x }.owned + R) :=
      o2.congr (by simp only [owned, pt_none]; abel)
    rw [k1] at k2 hx
    have hb2 : ({ ik with sw := clearSw ik.size ik.sw, jIdx := x } : IK).Base := ⟨hb1.sw, hb1.weight, hb1.ofs, hb1.len⟩
    by_cases hx0 : x.isSome = true
    · obtain ⟨r, g3, e3, o3, k3, ⟨v, n, m, w, s, y, c, hr, hv⟩, hk⟩ :=
        allocJointVec_spec nul { ik with sw := clearSw ik.size ik.sw, jIdx := x } oo hb2 hx0 (by rw [k2]; exact hn)
      have hrd : r.1 = true → r.2.Ready := fun h1 => by rw [hr]; exact ⟨hx0, hv h1⟩
      refine ⟨r, g3, ?_, o3, k3.trans k2, ⟨by rw [hr], by rw [hr]; exact ⟨hb2.sw, hb2.weight, hb2.ofs, hb2.len⟩, by rw [hr],
        by rw [hr], fun _ => hrd⟩, fun _ => hrd, fun h1 => hk (by rw [k2]; exact h1)⟩
      unfold allocJointIndex
      rw [bind_eq d0, if_neg h0, bind_eq e1, bind_eq e2, if_neg (not_isNone hx0)]
      exact e3
    · have hx1 : x = none := by simpa using hx0
      refine ⟨(false, { ik with sw := clearSw ik.size ik.sw, jIdx := x }), g2, ?_, oo, k2, ⟨rfl, hb2, rfl, rfl, by simp⟩, by simp,
        fun hk => absurd (hx.trans (hk _)) hx0⟩
      unfold allocJointIndex
      rw [bind_eq d0, if_neg h0, bind_eq e1, bind_eq e2, if_pos (by rw [hx1]; rfl)]
      rfl

theorem jointReg_spec (nul : Bool) (ik : IK) (id : ℤ) (sw : Bool) {h : Heap} {R : Multiset ℕ} (o : Own h (ik.owned + R)) (hb : ik.Base)
    (hn : nul = true ∨ ∀ n, h.ok n = true) :
    ∃ r h', ik.jointReg nul id sw h = some (r, h') ∧ Own h' (r.2.owned + R) ∧ h'.ok = h.ok ∧ JPost ik r.2 r.1 ∧
      ((∃ (i n : ℕ), id = i ∧ ik.size[i]? = some n ∧ n ≠ 0 ∧ sw = true) → r.1 = true → r.2.Ready) ∧
      ((∀ n, h.ok n = true) → (r.1 = true ↔ 0 ≤ id ∧ id < ik.size.length) ∧ (r.1 = false → r.2 = ik)) := by
  unfold jointReg
  by_cases hid : id < 0 || id ≥ ik.size.length
  · refine ⟨(false, ik), h, by rw [if_pos hid]; rfl, o, rfl, ⟨rfl, hb, rfl, rfl, by simp⟩, by simp, ?_⟩
    intro _
    simp only [Bool.or_eq_true, decide_eq_true_eq] at hid
    refine ⟨?_, fun _ => rfl⟩
    simp only [Bool.false_eq_true, false_iff]
    omega
  · simp only [Bool.or_eq_true, decide_eq_true_eq, not_or, not_lt, ge_iff_le, not_le] at hid
    have d0 := deref_field hb.sw o (fun b hb => by unfold owned; simp [hb])
    have d1 := deref_field hb.weight o (fun b hb => by unfold owned; simp [hb])
    obtain ⟨r, g, e, o', k, jp, hr, hk⟩ := allocJointIndex_spec nul { ik with sw := ik.sw.set id.toNat sw } o
      ⟨hb.sw, hb.weight, hb.ofs, by simpa using hb.len⟩ hn
    refine ⟨r, g, ?_, o', k, ⟨jp.size, jp.base, jp.cells, jp.cc, jp.ready⟩, ?_, fun h1 => ⟨⟨fun _ => hid, fun _ => hk h1⟩, fun h2 => by rw [hk h1] at h2; simp at h2⟩⟩
    · rw [if_neg (by simp; omega), bind_eq d0, bind_eq d1, e]
    · rintro ⟨i, n, rfl, h1, h2, rfl⟩
      refine hr ⟨i, n, h1, h2, ?_⟩
      have hi : i < ik.sw.length := by rw [hb.len]; exact (List.getElem?_eq_some_iff.1 h1).1
      simp [hi]

/-- What a call on the constraints leaves. -/
structure CPost (ik ik' : IK) : Prop where
  size : ik'.size = ik.size
  base : ik'.Base
  ready : ik.Ready → ik'.Ready

theorem allocSRV_spec (ik : IK) {h : Heap} {R : Multiset ℕ} (o : Own h (ik.owned + R)) (hb : ik.Base)
    (hr : ik.cells ≠ [] → ik.Ready) :
    ∃ r h' L, ik.allocSRV h = some (r, h') ∧ Own h' (r.2.owned + (L + R)) ∧ h'.ok = h.ok ∧ CPost ik r.2 ∧
      r.2.cells = ik.cells ∧ L = (if ik.cells = [] then 0 else pt ik.cc) ∧ (ik.cells = [] → r.2.cc = ik.cc) ∧
      (r.1 = true → ik.cells ≠ [] → r.2.cc.isSome) ∧ ((∀ n, h.ok n = true) → r.1 = true) := by
  by_cases hc : ik.cells = []
  · refine ⟨(true, ik), h, 0, ?_, o.congr (by simp), rfl, ⟨rfl, hb, id⟩, rfl, by rw [if_pos hc], fun _ => rfl, fun _ h => absurd hc h, fun _ => rfl⟩
    unfold allocSRV
    rw [if_pos (by rw [hc]; rfl)]
    rfl
  · obtain ⟨g1, e1, o1, k1, -⟩ := Own.free (p := ik.cSrv) (s := { ik with cSrv := none }.owned + R)
      (o.congr (by simp only [owned, pt_none]; abel))
    obtain ⟨g2, e2, o2, k2, -⟩ := Own.free (p := ik.cWe) (s := { ik with cSrv := none, cWe := none }.owned + R)
      (o1.congr (by simp only [owned, pt_none]; abel))
    obtain ⟨s, g3, e3, o3, k3, -, hs⟩ := o2.alloc
    obtain ⟨w, g4, e4, o4, k4, -, hw⟩ := o3.alloc
    obtain ⟨c, g5, e5, o5, k5, -, hc5⟩ := o4.alloc
    have oo : Own g5 ({ ik with cSrv := s, cWe := w, cc := c }.owned + (pt ik.cc + R)) :=
      o5.congr (by simp only [owned, pt_none]; abel)
    have q2 := k2.trans k1
    rw [q2] at k3 hs
    rw [k3] at k4 hw
    rw [k4] at k5 hc5
    by_cases ha : (s.isSome && w.isSome && c.isSome) = true
    · obtain ⟨r, g6, e6, o6, k6, ⟨m, hm⟩, hk⟩ := allocCMat_spec { ik with cSrv := s, cWe := w, cc := c } oo hr
      simp only [Bool.and_eq_true] at ha
      refine ⟨r, g6, pt ik.cc, ?_, o6, k6.trans k5, ⟨by rw [hm], by rw [hm]; exact ⟨hb.sw, hb.weight, hb.ofs, hb.len⟩, fun h => by rw [hm]; exact h⟩,
        by rw [hm], by rw [if_neg hc], fun h => absurd h hc, fun _ _ => by rw [hm]; exact ha.2, fun h1 => hk (by rw [k5]; exact h1)⟩
      unfold allocSRV
      rw [if_neg (by rw [List.length_eq_zero_iff]; exact hc), bind_eq e1, bind_eq e2, bind_eq e3, bind_eq e4, bind_eq e5,
        if_pos (by simpa using ha), e6]
    · refine ⟨(false, { ik with cSrv := s, cWe := w, cc := c }), g5, pt ik.cc, ?_, oo, k5, ⟨rfl, ⟨hb.sw, hb.weight, hb.ofs, hb.len⟩, id⟩, rfl,
        by rw [if_neg hc], fun h => absurd h hc, by simp, fun h1 => absurd ?_ ha⟩
      · unfold allocSRV
        rw [if_neg (by rw [List.length_eq_zero_iff]; exact hc), bind_eq e1, bind_eq e2, bind_eq e3, bind_eq e4, bind_eq e5,
          if_neg ha]
        rfl
      · rw [hs, hw, hc5, h1, h1, h1]; rfl

theorem cellReg_spec (ik : IK) {h : Heap} {R : Multiset ℕ} (o : Own h (ik.owned + R)) (hb : ik.Base) (hr : ik.Ready) :
    ∃ r h' L, ik.cellReg h = some (r, h') ∧ Own h' (r.2.owned + (L + R)) ∧ h'.ok = h.ok ∧ CPost ik r.2 ∧
      L.card ≤ (pt ik.cc).card ∧ (r.1 = true → r.2.cells.length = ik.cells.length + 1 ∧ L = pt ik.cc ∧ r.2.cc.isSome) ∧
      ((∀ n, h.ok n = true) → r.1 = true) := by
  obtain ⟨c, g1, e1, o1, k1, -, hc⟩ := o.alloc
  cases c with
  | none =>
    refine ⟨(false, ik), g1, 0, by unfold cellReg; rw [bind_eq e1]; rfl, o1.congr (by simp), k1, ⟨rfl, hb, id⟩, by simp, by simp, fun hk => ?_⟩
    rw [hk] at hc; simp at hc
  | some b =>
    obtain ⟨r, g2, L, e2, o2, k2, cp, h1, h2, -, h4, h5⟩ := allocSRV_spec { ik with cells := b :: ik.cells } (R := R)
      (o1.congr (by simp only [owned, pt_some, ← Multiset.cons_coe, ← Multiset.singleton_add]; abel))
      ⟨hb.sw, hb.weight, hb.ofs, hb.len⟩ (fun _ => hr)
    refine ⟨r, g2, L, by unfold cellReg; rw [bind_eq e1]; exact e2, o2, k2.trans k1, ⟨cp.size, cp.base, cp.ready⟩, ?_, fun hr => ?_,
      fun hk => h5 (by rw [k1]; exact hk)⟩
    · rw [h2]; simp
    · exact ⟨by rw [h1]; rfl, by rw [h2]; simp, h4 hr (by simp)⟩

theorem cellUnreg_spec (ik : IK) (k : ℕ) {h : Heap} {R : Multiset ℕ} (o : Own h (ik.owned + R)) (hb : ik.Base)
    (hr : ik.cells ≠ [] → ik.Ready) :
    ∃ r h' L, ik.cellUnreg k h = some (r, h') ∧ Own h' (r.2.owned + (L + R)) ∧ h'.ok = h.ok ∧ CPost ik r.2 ∧
      (r.2.cells ≠ [] → ik.cells ≠ []) ∧
      r.2.cells.length = (if k < ik.cells.length then ik.cells.length - 1 else ik.cells.length) ∧
      (if k < ik.cells.length ∧ r.2.cells ≠ [] then L = pt ik.cc ∧ (r.1 = true → r.2.cc.isSome) else L = 0 ∧ r.2.cc = ik.cc) ∧
      ((∀ n, h.ok n = true) → r.1 = true) := by
  unfold cellUnreg
  cases hk : ik.cells[k]? with
  | none =>
    have hl : ¬ k < ik.cells.length := by rw [List.getElem?_eq_none_iff] at hk; omega
    exact ⟨(true, ik), h, 0, rfl, o.congr (by simp), rfl, ⟨rfl, hb, id⟩, id, by rw [if_neg hl], by
      rw [if_neg (fun h => hl h.1)]; exact ⟨rfl, rfl⟩, fun _ => rfl⟩
  | some b =>
    obtain ⟨hl, hbk⟩ := List.getElem?_eq_some_iff.1 hk
    have hne : ik.cells ≠ [] := by rintro h0; rw [h0] at hl; simp at hl
    have hp : (ik.cells : Multiset ℕ) = {b} + ((ik.cells.eraseIdx k : List ℕ) : Multiset ℕ) := by
      rw [Multiset.singleton_add, Multiset.cons_coe, Multiset.coe_eq_coe, ← hbk]
      exact (List.getElem_cons_eraseIdx_perm hl).symm
    obtain ⟨g1, e1, o1, k1, -⟩ := Own.free (p := some b) (s := { ik with cells := ik.cells.eraseIdx k }.owned + R)
      (o.congr (by simp only [owned, pt_some, hp]; abel))
    obtain ⟨r, g2, L, e2, o2, k2, cp, h1, h2, h3, h4, h5⟩ := allocSRV_spec { ik with cells := ik.cells.eraseIdx k } (R := R) o1
      ⟨hb.sw, hb.weight, hb.ofs, hb.len⟩ (fun _ => hr hne)
    refine ⟨r, g2, L, by simp only; rw [bind_eq e1]; exact e2, o2, k2.trans k1, ⟨cp.size, cp.base, cp.ready⟩, fun _ => hne,
      by rw [h1, if_pos hl]; simp [List.length_eraseIdx, hl], ?_, fun hok => h5 (by rw [k1]; exact hok)⟩
    by_cases hc : r.2.cells = []
    · rw [if_neg (fun h => h.2 hc)]
      rw [h1] at hc
      exact ⟨by rw [h2, if_pos hc], h3 hc⟩
    · rw [if_pos ⟨hl, hc⟩]
      rw [h1] at hc
      exact ⟨by rw [h2, if_neg hc], fun hr => h4 hr hc⟩

theorem create_spec (size : List ℕ) {h : Heap} {R : Multiset ℕ} (o : Own h R) :
    ∃ r h', create size h = some (r, h') ∧ Own h' (r.2.owned + R) ∧ h'.ok = h.ok ∧ r.2.size = size ∧ r.2.cells = [] ∧ r.2.cc = none ∧
      (r.1 = true → h.ok (h.next + 3) = true → r.2.Base) ∧ ((∀ n, h.ok n = true) → r.1 = true ∧ r.2.Base) := by
  obtain ⟨a, g1, e1, o1, k1, n1, h1⟩ := o.alloc
  obtain ⟨b, g2, e2, o2, k2, n2, h2⟩ := o1.alloc
  obtain ⟨c, g3, e3, o3, k3, n3, h3⟩ := o2.alloc
  obtain ⟨d, g4, e4, o4, k4, n4, h4⟩ := o3.alloc
  obtain ⟨e, g5, e5, o5, k5, -, h5⟩ := o4.alloc
  rw [k1] at k2 h2
  rw [k2] at k3 h3
  rw [k3] at k4 h4
  rw [k4] at k5 h5
  have hb : (a.isSome && b.isSome && c.isSome && e.isSome) = true → d.isSome →
      ({ init size with jointSw := a, jointWeight := b, jointVel := c, jOfs := d, cMatCell := e } : IK).Base := by
    intro h1 h2
    simp only [Bool.and_eq_true] at h1
    exact ⟨h1.1.1.1, h1.1.1.2, h2, by simp [init]⟩
  refine ⟨(a.isSome && b.isSome && c.isSome && e.isSome,
    { init size with jointSw := a, jointWeight := b, jointVel := c, jOfs := d, cMatCell := e }), g5, ?_,
    o5.congr (by simp only [owned, init, pt_none, Multiset.coe_nil]; abel), k5, rfl, rfl, rfl, fun hr h3 => hb hr (by rw [h4, n3, n2, n1]; exact h3), fun hk => ?_⟩
  · unfold create
    rw [bind_eq e1, bind_eq e2, bind_eq e3, bind_eq e4, bind_eq e5]
    rfl
  · have e1 : (a.isSome && b.isSome && c.isSome && e.isSome) = true := by rw [h1, h2, h3, h5]; simp [hk]
    exact ⟨e1, hb e1 (by rw [h4]; exact hk _)⟩

end IK
end Roki.Mem
