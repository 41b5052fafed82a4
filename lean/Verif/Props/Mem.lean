import Verif.Lemmas.Mem
import Verif.Spec.Mem
set_option autoImplicit false

/-!
# Memory of the inverse kinematics solver (C94)
-/

namespace Roki
open Mem Mem.IK Spec

theorem own_of_ok {h : Heap} (w : HeapOK h) : Own h (h.live : Multiset ℕ) :=
  ⟨rfl, fun b hb => w.lt b (by simpa using hb), by simpa using w.nodup⟩

theorem JointsFirst.tail {size : List ℕ} {o : IK.Op} {os : List IK.Op} (h : JointsFirst size (o :: os))
    (ho : ∀ i n : ℕ, o = .jointReg i → size[i]? = some n → n = 0) : JointsFirst size os := by
  intro k hk
  obtain ⟨j, i, n, h1, h2, h3, h4⟩ := h (k + 1) (by simpa using hk)
  cases j with
  | zero => exact absurd (ho i n (by simpa using h2) h3) h4
  | succ j => exact ⟨j, i, n, by omega, by simpa using h2, h3, h4⟩

theorem JointsFirst.head {size : List ℕ} {os : List IK.Op} (h : JointsFirst size (.cellReg :: os)) : False := by
  obtain ⟨j, _, _, h1, _⟩ := h 0 rfl
  omega

/-- Ready for constraints, or none is registered before a joint is. -/
def Mem.IK.Safe (ik : IK) (ops : List IK.Op) : Prop := ik.Ready ∨ ik.cells = [] ∧ JointsFirst ik.size ops

/-- A call that registers a joint with coordinates. -/
def Mem.IK.Op.Good (size : List ℕ) (o : IK.Op) : Prop := ∃ (i n : ℕ), o = .jointReg i ∧ size[i]? = some n ∧ n ≠ 0

theorem safe_joint {ik ik' : IK} {ok : Bool} {o : IK.Op} {os : List IK.Op} (hs : ik.Safe (o :: os)) (jp : JPost ik ik' ok)
    (hg : o.Good ik.size → ok = true → ik'.Ready) (hok : ok = true ∨ (ik' = ik ∧ ¬ o.Good ik.size)) : ik'.Safe os := by
  have tail : ¬ o.Good ik.size → JointsFirst ik.size (o :: os) → JointsFirst ik.size os := fun h1 h2 => by
    refine JointsFirst.tail h2 fun i n hi hn => ?_
    by_contra h0
    exact h1 ⟨i, n, hi, hn, h0⟩
  rcases hok with hok | ⟨rfl, hno⟩
  · rcases hs with hr | ⟨hc, hf⟩
    · exact Or.inl (jp.ready hr hok)
    · by_cases hgo : o.Good ik.size
      · exact Or.inl (hg hgo hok)
      · exact Or.inr ⟨by rw [jp.cells, hc], by rw [jp.size]; exact tail hgo hf⟩
  · rcases hs with hr | ⟨hc, hf⟩
    · exact Or.inl hr
    · exact Or.inr ⟨hc, tail hno hf⟩

theorem step_joint (nul : Bool) (ik : IK) (id : ℤ) (sw : Bool) (o : IK.Op) (os : List IK.Op)
    (ho : o = if sw then .jointReg id else .jointUnreg id) {h : Heap} {R : Multiset ℕ} (hown : Own h (ik.owned + R)) (hb : ik.Base)
    (hn : nul = true ∨ ∀ n, h.ok n = true) (hs : ik.Safe (o :: os)) :
    ∃ r h', ik.step nul o h = some (r, h') ∧ Own h' (r.2.owned + R) ∧ h'.ok = h.ok ∧ r.2.Base ∧ r.2.cells = ik.cells ∧ r.2.cc = ik.cc ∧
      ((∀ n, h.ok n = true) ∨ r.1 = true → r.2.Safe os) := by
  obtain ⟨r, h', e, o1, k1, jp, hg, hok⟩ := jointReg_spec nul ik id sw hown hb hn
  have hg' : o.Good ik.size → r.1 = true → r.2.Ready := by
    rintro ⟨i, n, h1, h2, h3⟩
    refine hg ⟨i, n, ?_, h2, h3, ?_⟩
    · rw [ho] at h1; split at h1 <;> simp_all
    · rw [ho] at h1; split at h1 <;> simp_all
  refine ⟨r, h', ?_, o1, k1, jp.base, jp.cells, jp.cc, fun hh => safe_joint hs jp hg' ?_⟩
  · rw [ho]; cases sw <;> exact e
  · rcases hh with hall | h1
    · by_cases hr : r.1 = true
      · exact Or.inl hr
      · refine Or.inr ⟨(hok hall).2 (by simpa using hr), ?_⟩
        rintro ⟨i, n, h1, h2, -⟩
        refine hr ((hok hall).1.2 ?_)
        have : id = i := by rw [ho] at h1; split at h1 <;> simp_all
        rw [this]
        exact ⟨by omega, by have := (List.getElem?_eq_some_iff.1 h2).1; omega⟩
    · exact Or.inl h1

theorem card_pt (p : Option ℕ) : (pt p).card = if p.isSome then 1 else 0 := by cases p <;> simp

theorem run_spec (nul : Bool) : ∀ (ops : List IK.Op) (ik : IK) {h : Heap} {R : Multiset ℕ}, Own h (ik.owned + R) → ik.Base →
    (∀ n, h.ok n = true) → ik.Safe ops →
    ∃ ik' h' L, run nul ops ik h = some (ik', h') ∧ Own h' (ik'.owned + (L + R)) ∧
      L.card + (pt ik'.cc).card = (pt ik.cc).card + changes ik.cells.length ops ∧
      (ik.cc.isSome → ik'.cc.isSome) ∧ (0 < changes ik.cells.length ops → ik'.cc.isSome)
  | [], ik, h, R, o, _, _, _ => ⟨ik, h, 0, rfl, o.congr (by simp), by simp [changes], id, by simp [changes]⟩
  | .jointReg id :: os, ik, h, R, o, hb, hk, hs => by
    obtain ⟨r, g, e, o1, k1, b1, c1, cc1, s1⟩ := step_joint nul ik id true (.jointReg id) os rfl o hb (Or.inr hk) hs
    obtain ⟨ik', h', L, e', o', hc, hd, hp⟩ := run_spec nul os r.2 o1 b1 (by rw [k1]; exact hk) (s1 (Or.inl hk))
    refine ⟨ik', h', L, by rw [run, bind_eq e, e'], o', ?_, ?_, ?_⟩
    · rw [hc, cc1, c1]; rfl
    · rw [← cc1]; exact hd
    · rw [c1] at hp; exact hp
  | .jointUnreg id :: os, ik, h, R, o, hb, hk, hs => by
    obtain ⟨r, g, e, o1, k1, b1, c1, cc1, s1⟩ := step_joint nul ik id false (.jointUnreg id) os rfl o hb (Or.inr hk) hs
    obtain ⟨ik', h', L, e', o', hc, hd, hp⟩ := run_spec nul os r.2 o1 b1 (by rw [k1]; exact hk) (s1 (Or.inl hk))
    refine ⟨ik', h', L, by rw [run, bind_eq e, e'], o', ?_, ?_, ?_⟩
    · rw [hc, cc1, c1]; rfl
    · rw [← cc1]; exact hd
    · rw [c1] at hp; exact hp
  | .cellReg :: os, ik, h, R, o, hb, hk, hs => by
    have hr : ik.Ready := hs.resolve_right fun hh => JointsFirst.head hh.2
    obtain ⟨r, g, L, e, o1, k1, cp, -, hr1, hok⟩ := cellReg_spec ik o hb hr
    obtain ⟨h2, h3, h4⟩ := hr1 (hok hk)
    obtain ⟨ik', h', L', e', o', hc, hd, hp⟩ := run_spec nul os r.2 o1 cp.base (by rw [k1]; exact hk) (Or.inl (cp.ready hr))
    refine ⟨ik', h', L' + L, by rw [run, bind_eq (show ik.step nul .cellReg h = _ from e), e'], o'.congr (by abel), ?_, fun _ => hd h4, fun _ => hd h4⟩
    rw [Multiset.card_add, h3, changes, ← h2]
    have : (pt r.2.cc).card = 1 := by rw [card_pt, if_pos h4]
    omega
  | .cellUnreg k :: os, ik, h, R, o, hb, hk, hs => by
    obtain ⟨r, g, L, e, o1, k1, cp, hne, h2, h3, hok⟩ := cellUnreg_spec ik k o hb (fun hc => hs.resolve_right fun hh => hc hh.1)
    have h4 := hok hk
    have hs1 : r.2.Safe os := by
      rcases hs with hr | ⟨hc, hf⟩
      · exact Or.inl (cp.ready hr)
      · refine Or.inr ⟨?_, ?_⟩
        · by_contra h0; exact hne h0 hc
        · rw [cp.size]; exact JointsFirst.tail hf (by simp)
    obtain ⟨ik', h', L', e', o', hc, hd, hp⟩ := run_spec nul os r.2 o1 cp.base (by rw [k1]; exact hk) hs1
    refine ⟨ik', h', L' + L, by rw [run, bind_eq (show ik.step nul (.cellUnreg k) h = _ from e), e'], o'.congr (by abel), ?_, ?_, ?_⟩
    · rw [Multiset.card_add, changes]
      by_cases hl : k < ik.cells.length
      · rw [if_pos hl] at h2 ⊢
        rw [h2] at hc
        by_cases h1 : ik.cells.length = 1
        · rw [if_pos h1]
          have : r.2.cells = [] := List.length_eq_zero_iff.1 (by omega)
          rw [if_neg (fun h => h.2 this)] at h3
          rw [h3.2] at hc
          simp only [h3.1, Multiset.card_zero]
          omega
        · rw [if_neg h1]
          have : r.2.cells ≠ [] := fun h0 => by rw [h0] at h2; simp at h2; omega
          rw [if_pos ⟨hl, this⟩] at h3
          rw [card_pt r.2.cc, if_pos (h3.2 h4)] at hc
          rw [h3.1]
          omega
      · rw [if_neg hl] at h2 ⊢
        rw [if_neg (fun h => hl h.1)] at h3
        rw [h2, h3.2] at hc
        simp only [h3.1, Multiset.card_zero]
        omega
    · intro h1
      refine hd ?_
      split at h3
      · exact h3.2 h4
      · rw [h3.2]; exact h1
    · intro h1
      by_cases hh : k < ik.cells.length ∧ r.2.cells ≠ []
      · rw [if_pos hh] at h3; exact hd (h3.2 h4)
      · refine hp ?_
        rw [changes] at h1
        by_cases hl : k < ik.cells.length
        · rw [if_pos hl] at h2 h1
          have h0 : r.2.cells = [] := by by_contra h0; exact hh ⟨hl, h0⟩
          rw [h0] at h2
          have h1' : ik.cells.length = 1 := by simp at h2; omega
          rw [if_pos h1'] at h1
          rw [h0]; rw [h1'] at h1; simpa using h1
        · rw [if_neg hl] at h2 h1
          rw [h2]; exact h1

/-- **C94** If every request is granted and a joint is registered before the first constraint, then a solver, whatever joints and
constraints are registered and unregistered, never uses or releases a block that is not its own, and when it is destroyed the
live blocks are those before its creation and `leaked`: one for every call after the first that changes the constraints.

Missing from the full property: that nothing is leaked, see `C94_leak_fails`; the order of the calls, see `C94_order_fails`;
requests that are denied, see `C94_denied_partial`. -/
theorem C94_life_partial (nul : Bool) (size : List ℕ) (ops : List IK.Op) (h : Heap) (w : HeapOK h) (hk : Granted h)
    (hf : JointsFirst size ops) :
    ∃ ik h' leaked, life nul size ops h = some (ik, h') ∧ HeapOK h' ∧ h'.live.Perm (leaked ++ h.live) ∧
      leaked.length = changes 0 ops - 1 := by
  obtain ⟨r, g1, e1, o1, k1, hsz, hc, hcc, -, hb⟩ := create_spec size (own_of_ok w)
  obtain ⟨ik, g2, L, e2, o2, hL, -, hp⟩ := run_spec nul ops r.2 o1 (hb hk).2 (by rw [k1]; exact hk)
    (Or.inr ⟨hc, by rw [hsz]; exact hf⟩)
  obtain ⟨h', e3, o3⟩ := destroy_spec nul ik o2
  induction L using Quotient.inductionOn with | _ l => ?_
  refine ⟨_, h', l, by unfold life; rw [bind_eq e1, bind_eq e2]; exact e3, ?_, ?_, ?_⟩
  · exact ⟨by rw [← Multiset.coe_nodup, o3.live]; exact o3.nodup, fun b hb => o3.lt b (by rw [← o3.live]; simpa using hb)⟩
  · rw [← Multiset.coe_eq_coe, o3.live, ← Multiset.coe_add]; rfl
  · rw [hc, hcc] at hL
    rw [hc] at hp
    simp only [pt_none, Multiset.card_zero, zero_add, List.length_nil] at hL hp
    rw [Multiset.quot_mk_to_coe, Multiset.coe_card] at hL
    by_cases h0 : 0 < changes 0 ops
    · rw [card_pt, if_pos (hp h0)] at hL; omega
    · omega

theorem runStop_spec (ops : List IK.Op) : ∀ (ik : IK) {h : Heap} {R : Multiset ℕ}, Own h (ik.owned + R) → ik.Base → ik.Safe ops →
    ∃ ik' h' L, runStop true ops ik h = some (ik', h') ∧ Own h' (ik'.owned + (L + R)) ∧
      L.card + (pt ik'.cc).card ≤ (pt ik.cc).card + changes ik.cells.length ops := by
  induction ops with
  | nil => exact fun ik h R o _ _ => ⟨ik, h, 0, rfl, o.congr (by simp), by simp [changes]⟩
  | cons op os ih =>
    intro ik h R o hb hs
    have joint : ∀ (id : ℤ) (sw : Bool), op = (if sw then .jointReg id else .jointUnreg id) →
        ∃ ik' h' L, runStop true (op :: os) ik h = some (ik', h') ∧ Own h' (ik'.owned + (L + R)) ∧
          L.card + (pt ik'.cc).card ≤ (pt ik.cc).card + changes ik.cells.length (op :: os) := by
      intro id sw ho
      obtain ⟨r, g, e, o1, k1, b1, c1, cc1, s1⟩ := step_joint true ik id sw op os ho o hb (Or.inl rfl) hs
      have hch : changes ik.cells.length (op :: os) = changes ik.cells.length os := by rw [ho]; cases sw <;> rfl
      rw [hch]
      by_cases hr : r.1 = true
      · obtain ⟨ik', h', L, e', o', hc⟩ := ih r.2 o1 b1 (s1 (Or.inr hr))
        refine ⟨ik', h', L, by rw [runStop, bind_eq e, if_pos hr, e'], o', ?_⟩
        rw [cc1, c1] at hc; exact hc
      · exact ⟨r.2, g, 0, by rw [runStop, bind_eq e, if_neg hr]; rfl, o1.congr (by simp), by rw [cc1]; simp⟩
    cases op with
    | jointReg id => exact joint id true rfl
    | jointUnreg id => exact joint id false rfl
    | cellReg =>
      have hr : ik.Ready := hs.resolve_right fun hh => JointsFirst.head hh.2
      obtain ⟨r, g, L, e, o1, k1, cp, hl, hr1, -⟩ := cellReg_spec ik o hb hr
      by_cases h0 : r.1 = true
      · obtain ⟨h2, h3, h4⟩ := hr1 h0
        obtain ⟨ik', h', L', e', o', hc⟩ := ih r.2 o1 cp.base (Or.inl (cp.ready hr))
        refine ⟨ik', h', L' + L, by rw [runStop, bind_eq (show ik.step true .cellReg h = _ from e), if_pos h0, e'], o'.congr (by abel), ?_⟩
        rw [Multiset.card_add, h3, changes, ← h2]
        have : (pt r.2.cc).card = 1 := by rw [card_pt, if_pos h4]
        omega
      · refine ⟨r.2, g, L, by rw [runStop, bind_eq (show ik.step true .cellReg h = _ from e), if_neg h0]; rfl, o1, ?_⟩
        have : (pt r.2.cc).card ≤ 1 := by rw [card_pt]; split <;> omega
        rw [changes]
        omega
    | cellUnreg k =>
      obtain ⟨r, g, L, e, o1, k1, cp, hne, h2, h3, -⟩ := cellUnreg_spec ik k o hb (fun hc => hs.resolve_right fun hh => hc hh.1)
      have hs1 : r.2.Safe os := by
        rcases hs with hr | ⟨hc, hf⟩
        · exact Or.inl (cp.ready hr)
        · refine Or.inr ⟨?_, ?_⟩
          · by_contra h0; exact hne h0 hc
          · rw [cp.size]; exact JointsFirst.tail hf (by simp)
      have bound : L.card + (pt r.2.cc).card + changes r.2.cells.length os ≤ (pt ik.cc).card + changes ik.cells.length (.cellUnreg k :: os) := by
        have h1 : (pt r.2.cc).card ≤ 1 := by rw [card_pt]; split <;> omega
        rw [changes]
        by_cases hl : k < ik.cells.length
        · rw [if_pos hl] at h2 ⊢
          rw [h2]
          by_cases h1' : ik.cells.length = 1
          · rw [if_pos h1']
            have : r.2.cells = [] := List.length_eq_zero_iff.1 (by omega)
            rw [if_neg (fun h => h.2 this)] at h3
            rw [h3.1, h3.2]; simp
          · rw [if_neg h1']
            have : r.2.cells ≠ [] := fun h0 => by rw [h0] at h2; simp at h2; omega
            rw [if_pos ⟨hl, this⟩] at h3
            rw [h3.1]
            omega
        · rw [if_neg hl] at h2 ⊢
          rw [if_neg (fun h => hl h.1)] at h3
          rw [h2, h3.1, h3.2]; simp
      by_cases h0 : r.1 = true
      · obtain ⟨ik', h', L', e', o', hc⟩ := ih r.2 o1 cp.base hs1
        refine ⟨ik', h', L' + L, by rw [runStop, bind_eq (show ik.step true (.cellUnreg k) h = _ from e), if_pos h0, e'], o'.congr (by abel), ?_⟩
        rw [Multiset.card_add]
        omega
      · refine ⟨r.2, g, L, by rw [runStop, bind_eq (show ik.step true (.cellUnreg k) h = _ from e), if_neg h0]; rfl, o1, ?_⟩
        omega

/-- **C94** Any requests may be denied except the one for the offsets of the joints, and the caller destroys the solver after the
first call that reports a failure.  If the library reset the pointers it releases, this would be safe, and no more blocks would be
leaked than there are calls that change the constraints.

Missing from the full property: the pointers are not reset, see `C94_denied_fails`; the request for the offsets, see
`C94_offset_fails`; the leaks and the order as in `C94_life_partial`. -/
theorem C94_denied_partial (size : List ℕ) (ops : List IK.Op) (h : Heap) (w : HeapOK h) (hk : h.ok (h.next + 3) = true)
    (hf : JointsFirst size ops) :
    ∃ ik h' leaked, lifeStop true size ops h = some (ik, h') ∧ HeapOK h' ∧ h'.live.Perm (leaked ++ h.live) ∧
      leaked.length ≤ changes 0 ops := by
  obtain ⟨r, g1, e1, o1, k1, hsz, hc, hcc, hb, -⟩ := create_spec size (own_of_ok w)
  by_cases hr : r.1 = true
  · obtain ⟨ik, g2, L, e2, o2, hL⟩ := runStop_spec ops r.2 o1 (hb hr hk) (Or.inr ⟨hc, by rw [hsz]; exact hf⟩)
    obtain ⟨h', e3, o3⟩ := destroy_spec true ik o2
    induction L using Quotient.inductionOn with | _ l => ?_
    refine ⟨_, h', l, by unfold lifeStop; rw [bind_eq e1, if_pos hr, bind_eq e2]; exact e3, ?_, ?_, ?_⟩
    · exact ⟨by rw [← Multiset.coe_nodup, o3.live]; exact o3.nodup, fun b hb => o3.lt b (by rw [← o3.live]; simpa using hb)⟩
    · rw [← Multiset.coe_eq_coe, o3.live, ← Multiset.coe_add]; rfl
    · rw [hc, hcc] at hL
      rw [Multiset.quot_mk_to_coe, Multiset.coe_card] at hL
      simp only [pt_none, Multiset.card_zero, zero_add, List.length_nil] at hL
      omega
  · obtain ⟨h', e3, o3⟩ := destroy_spec true r.2 o1
    refine ⟨_, h', [], by unfold lifeStop; rw [bind_eq e1, if_neg hr]; exact e3, ?_, ?_, by simp⟩
    · exact ⟨by rw [← Multiset.coe_nodup, o3.live]; exact o3.nodup, fun b hb => o3.lt b (by rw [← o3.live]; simpa using hb)⟩
    · rw [← Multiset.coe_eq_coe, o3.live]; rfl

/-- The calls of the examples: two joints, three constraints, one of them unregistered again, a joint out of range. -/
def memOps : List IK.Op := [.jointReg 7, .jointReg 1, .cellReg, .cellReg, .jointReg 2, .cellUnreg 0, .cellReg, .jointUnreg 1]

theorem memOps_first : JointsFirst [0, 1, 3] memOps := by
  intro k hk
  refine ⟨1, 1, 1, ?_, rfl, rfl, by decide⟩
  rcases k with _ | _ | k
  · simp [memOps] at hk
  · simp [memOps] at hk
  · omega

/-- A heap with two blocks of somebody else on which every request is granted. -/
def memHeap : Heap := ⟨[4, 2], 5, fun _ => true⟩

example : HeapOK memHeap ∧ Granted memHeap ∧ changes 0 memOps = 4 ∧
    (life false [0, 1, 3] memOps memHeap).map (fun p => p.2.live.length) = some 5 :=
  ⟨⟨by decide, by decide⟩, fun _ => rfl, by decide +kernel, by decide +kernel⟩

/-- The same with the twentieth request denied. -/
def memTight : Heap := ⟨[4, 2], 5, fun n => n != 24⟩

example : HeapOK memTight ∧ memTight.ok (memTight.next + 3) = true ∧ JointsFirst [0, 1, 3] memOps.tail ∧
    (lifeStop true [0, 1, 3] memOps.tail memTight).map (fun p => p.2.live.length) = some 3 :=
  ⟨⟨by decide, by decide⟩, rfl, JointsFirst.tail (o := .jointReg 7) memOps_first (by
    intro i n hi; injection hi with hi; obtain rfl : i = 7 := by omega
    simp), by decide +kernel⟩

/-- **C94 fails** Whatever the chain, as soon as a joint and two constraints are registered, a block is leaked. -/
theorem C94_leak_fails (nul : Bool) (size : List ℕ) (i n : ℕ) (hi : size[i]? = some n) (hn : n ≠ 0) (h : Heap) (w : HeapOK h)
    (hk : Granted h) :
    ∃ ik h' b, life nul size [.jointReg i, .cellReg, .cellReg] h = some (ik, h') ∧ b ∉ h.live ∧ b ∈ h'.live := by
  obtain ⟨ik, h', l, e, w', p, hl⟩ := C94_life_partial nul size [.jointReg i, .cellReg, .cellReg] h w hk (by
    intro k hk
    refine ⟨0, i, n, ?_, rfl, hi, hn⟩
    cases k <;> simp at *)
  obtain ⟨b, rfl⟩ : ∃ b, l = [b] := List.length_eq_one_iff.1 (by rw [hl]; rfl)
  refine ⟨ik, h', b, e, ?_, p.mem_iff.2 (by simp)⟩
  have := p.nodup_iff.1 w'.nodup
  simp at this
  exact this.1

/-! ### Constraints before joints -/

theorem clearSw_off (size : List ℕ) (k : ℕ) (b : Bool) (h : b = true → ∀ n, size[k]? = some n → n = 0) :
    clearSw size ((size.map fun _ => false).set k b) = size.map fun _ => false := by
  have off : ∀ ns : List ℕ, clearSw ns (ns.map fun _ => false) = ns.map fun _ => false := by
    intro ns
    induction ns with
    | nil => rfl
    | cons n ns ih => simp only [List.map_cons, clearSw, ih, Bool.false_and]
  induction size generalizing k with
  | nil => rfl
  | cons n ns ih =>
    cases k with
    | zero =>
      simp only [List.map_cons, List.set_cons_zero, clearSw, off, List.cons.injEq, and_true]
      cases b with
      | false => rfl
      | true => rw [h rfl n rfl]; rfl
    | succ k => simp only [List.map_cons, List.set_cons_succ, clearSw, ih k (fun hb n hn => h hb n hn), Bool.false_and]

theorem countP_off (size : List ℕ) : (size.map fun _ => false).countP (·) = 0 := by
  rw [List.countP_eq_zero]; intro b hb; obtain ⟨_, -, rfl⟩ := List.mem_map.1 hb; decide

/-- Calls that register no joint with coordinates change nothing. -/
theorem run_unmoved (nul : Bool) (ops : List IK.Op) (ik : IK) (h : Heap) (hs : ik.sw = ik.size.map fun _ => false) {x y : ℕ}
    (h1 : ik.jointSw = some x) (h2 : x ∈ h.live) (h3 : ik.jointWeight = some y) (h4 : y ∈ h.live) (ho : ∀ o ∈ ops, Unmoving ik.size o)
    (rest : List IK.Op) : run nul (ops ++ rest) ik h = run nul rest ik h := by
  have d : ∀ {z : Option ℕ} {b : ℕ}, z = some b → b ∈ h.live → deref z h = some ((), h) := by
    rintro _ b rfl hb; simp [deref, hb]
  have key : ∀ (id : ℤ) (b : Bool), (b = true → 0 ≤ id → ∀ n, ik.size[id.toNat]? = some n → n = 0) → ∃ r, ik.jointReg nul id b h = some ((r, ik), h) := by
    intro id b hb
    unfold jointReg
    split_ifs with hc
    · exact ⟨false, rfl⟩
    · refine ⟨true, ?_⟩
      simp only [Bool.or_eq_true, decide_eq_true_eq, not_or, not_lt] at hc
      rw [bind_eq (d h1 h2), bind_eq (d h3 h4)]
      unfold allocJointIndex
      rw [bind_eq (d h1 h2)]
      simp only [hs, clearSw_off ik.size id.toNat b (fun e => hb e hc.1), countP_off, if_true]
      have : { ik with sw := ik.size.map fun _ => false } = ik := by rw [← hs]
      rw [this]; rfl
  induction ops with
  | nil => rfl
  | cons o ops ih =>
    have hi := ih (fun p hp => ho p (by simp [hp]))
    have := ho o (by simp)
    cases o with
    | jointReg id =>
      obtain ⟨r, e⟩ := key id true fun _ => this
      simp only [List.cons_append, run, step]
      rw [bind_eq e]; exact hi
    | jointUnreg id =>
      obtain ⟨r, e⟩ := key id false (by simp)
      simp only [List.cons_append, run, step]
      rw [bind_eq e]; exact hi
    | cellReg => exact this.elim
    | cellUnreg k => exact this.elim

/-- **C94 fails** A constraint that is registered before any joint that has coordinates makes the solver follow a null pointer, whatever other joints were
registered or removed before, and whatever follows. -/
theorem C94_order_fails (nul : Bool) (size : List ℕ) (ops rest : List IK.Op) (h : Heap) (hk : Granted h) (ho : ∀ o ∈ ops, Unmoving size o) :
    life nul size (ops ++ .cellReg :: rest) h = none := by
  obtain ⟨l, n, f⟩ := h
  obtain rfl : f = fun _ => true := funext hk
  have e : ∀ l n, alloc ⟨l, n, fun _ => true⟩ = some (some n, ⟨n :: l, n + 1, fun _ => true⟩) := fun l n => rfl
  have e1 : create size ⟨l, n, fun _ => true⟩ = some ((true, { init size with
      jointSw := some n, jointWeight := some (n + 1), jointVel := some (n + 2), jOfs := some (n + 3), cMatCell := some (n + 4) }),
      ⟨(n + 4) :: (n + 3) :: (n + 2) :: (n + 1) :: n :: l, n + 5, fun _ => true⟩) := rfl
  have e2 : ∀ (ik : IK) (g : Heap), ik.jIdx = none → g.ok = (fun _ => true) → ik.cSrv = none → ik.cWe = none → ik.cellReg g = none := by
    rintro ik ⟨l, n, f⟩ hi hf hs hw
    obtain rfl : f = fun _ => true := hf
    unfold cellReg
    rw [bind_eq (e _ _)]
    simp only
    unfold allocSRV
    rw [if_neg (by simp)]
    simp only [hs, hw]
    rw [bind_eq (show Mem.free none _ = some ((), _) from rfl), bind_eq (show Mem.free none _ = some ((), _) from rfl),
      bind_eq (e _ _), bind_eq (e _ _), bind_eq (e _ _), if_pos (by simp)]
    unfold allocCMat
    rw [if_neg (by simp)]
    simp only [hi]
    rfl
  unfold life
  rw [bind_eq e1]
  have hr : run nul (ops ++ .cellReg :: rest) { init size with
      jointSw := some n, jointWeight := some (n + 1), jointVel := some (n + 2), jOfs := some (n + 3), cMatCell := some (n + 4) }
      ⟨(n + 4) :: (n + 3) :: (n + 2) :: (n + 1) :: n :: l, n + 5, fun _ => true⟩ = none := by
    rw [run_unmoved nul ops _ _ (x := n) (y := n + 1) rfl rfl (by simp) rfl (by simp) ho]
    simp only [run, step]
    exact bind_none (e2 _ _ rfl rfl rfl rfl)
  exact bind_none hr

/-- A robot whose first link is fixed: registering the first joint, which has no coordinates, is not enough. -/
example : Unmoving [0, 1] (.jointReg 0) ∧ ¬ Unmoving [0, 1] (.jointReg 1) := by
  refine ⟨?_, fun h => ?_⟩
  · intro _ n hn; simpa using hn.symm
  · exact absurd (h (by decide) 1 rfl) (by decide)

/-- **C94 fails** The request for the joint offsets is denied: the creation of the solver is reported as successful, and the
registration of a joint follows a null pointer. -/
theorem C94_offset_fails :
    (create [1] ⟨[], 0, fun n => n != 3⟩).map (fun p => p.1.1) = some true ∧
      lifeStop false [1] [.jointReg 0] ⟨[], 0, fun n => n != 3⟩ = none :=
  ⟨by decide +kernel, Option.isNone_iff_eq_none.1 (by decide +kernel)⟩

/-- **C94 fails** A request is denied while the second joint is registered: the destruction of the solver, which the caller has
every reason to ask for after the failure, releases a block twice. -/
theorem C94_denied_fails : lifeStop false [1, 1] [.jointReg 0, .jointReg 1] ⟨[], 0, fun n => n != 13⟩ = none :=
  Option.isNone_iff_eq_none.1 (by decide +kernel)

example : (lifeStop true [1, 1] [.jointReg 0, .jointReg 1] ⟨[], 0, fun n => n != 13⟩).map (fun p => p.2.live) = some [] := by
  decide +kernel

end Roki
