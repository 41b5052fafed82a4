import Verif.Lemmas.History
import Verif.Lemmas.ABIHist
import Verif.Props.ABIDyn
set_option autoImplicit false

/-! # Lemmas: histories of renumbered chains (C113), link arrays -/

namespace Roki
set_option linter.unusedSectionVars false
open Spec LinkArray
variable {K : Type*}

/-- Where a link lies in the joint vectors. -/
def Link.place (l : Link K) : ℤ × ℕ := (l.offset, l.joint.prp.size)

/-- The two descriptions of one robot. -/
structure Twofold (σ : ℕ → ℕ) (c d : Chain K) : Prop where
  wf : c.WF
  wf' : d.WF
  off : setOffset c.link = c.link
  off' : setOffset d.link = d.link
  len : d.link.length = c.link.length
  lt : ∀ i < c.link.length, σ i < c.link.length
  inj : ∀ i j, i < c.link.length → j < c.link.length → σ i = σ j → i = j
  iso : Iso σ c.shape d.shape
  path : ∀ q, IsPath d.shape q ↔ ∃ p, IsPath c.shape p ∧ q = p.map σ

/-- Two link arrays of the two descriptions in the same state. -/
structure Twins (σ : ℕ → ℕ) (c d : Chain K) (ls ms : List (Link K)) : Prop where
  key : ls.map Link.place = c.link.map Link.place
  key' : ms.map Link.place = d.link.map Link.place
  same : ∀ (i : ℕ) (x y : Link K), ls[i]? = some x → ms[σ i]? = some y → SameLink x y

namespace Twins
variable {σ : ℕ → ℕ} {c d : Chain K} {ls ms ls2 ms2 : List (Link K)}

theorem len (h : Twins σ c d ls ms) : ls.length = c.link.length := by simpa using congrArg List.length h.key
theorem len' (h : Twins σ c d ls ms) : ms.length = d.link.length := by simpa using congrArg List.length h.key'

section
variable [Field K]

theorem down {St : Type*} {f : St → Link K → Link K} {g : Link K → St} (b : Twofold σ c d) (h : Twins σ c d ls ms)
    (hf : ∀ v x y, SameLink x y → SameLink (f v x) (f v y)) (hg : ∀ x y, SameLink x y → g y = g x)
    (hk : ∀ v l, (f v l).place = l.place) {A B : LTree (Link K)} {v : St}
    (h1 : Chain.gather ls c.shape = some A) (h2 : Chain.gather ls2 c.shape = some (A.down f g v))
    (h3 : Chain.gather ms d.shape = some B) (h4 : Chain.gather ms2 d.shape = some (B.down f g v))
    (n : ls2.length = ls.length) (n' : ms2.length = ms.length) : Twins σ c d ls2 ms2 where
  key := by
    rw [← h.key]
    refine Chain.map_eq_of_gather h2 h1 n (fun i hi => b.wf.mem.2 (by rw [n, h.len] at hi; exact hi)) _ (LTree.down_map_inv _ hk _ _)
  key' := by
    rw [← h.key']
    refine Chain.map_eq_of_gather h4 h3 n' (fun i hi => b.wf'.mem.2 (by rw [n', h.len'] at hi; exact hi)) _ (LTree.down_map_inv _ hk _ _)
  same i x y hx hy := iso_down hf hg b.iso (fun i _ x y => h.same i x y) h1 h2 h3 h4 i
    (b.wf.mem.2 (by rw [← h.len, ← n]; exact (List.getElem?_eq_some_iff.1 hx).1)) x y hx hy

theorem up {M : Type*} {t : Link K → Bool} {f : Link K → M → Link K} {f0 : Link K → Link K} {e : Link K → M} {z : M} {add : M → M → M}
    (b : Twofold σ c d) (h : Twins σ c d ls ms)
    (lc : ∀ x y w, add x (add y w) = add y (add x w)) (ht : ∀ x y, SameLink x y → t y = t x)
    (hh : ∀ m x y, SameLink x y → SameLink (f x m) (f y m)) (hh0 : ∀ x y, SameLink x y → SameLink (f0 x) (f0 y))
    (he : ∀ x y, SameLink x y → e y = e x)
    (hk : ∀ l m, (f l m).place = l.place) (hk0 : ∀ l, (f0 l).place = l.place) {A B : LTree (Link K)}
    (h1 : Chain.gather ls c.shape = some A) (h2 : Chain.gather ls2 c.shape = some (A.up t f f0 e z add).1)
    (h3 : Chain.gather ms d.shape = some B) (h4 : Chain.gather ms2 d.shape = some (B.up t f f0 e z add).1)
    (n : ls2.length = ls.length) (n' : ms2.length = ms.length) : Twins σ c d ls2 ms2 where
  key := by
    rw [← h.key]
    exact Chain.map_eq_of_gather h2 h1 n (fun i hi => b.wf.mem.2 (by rw [n, h.len] at hi; exact hi)) _ (up_map_inv _ hk hk0 _)
  key' := by
    rw [← h.key']
    exact Chain.map_eq_of_gather h4 h3 n' (fun i hi => b.wf'.mem.2 (by rw [n', h.len'] at hi; exact hi)) _ (up_map_inv _ hk hk0 _)
  same i x y hx hy := (iso_up lc ht hh hh0 he b.iso (fun i _ x y => h.same i x y) h1 h2 h3 h4).1 i
    (b.wf.mem.2 (by rw [← h.len, ← n]; exact (List.getElem?_eq_some_iff.1 hx).1)) x y hx hy

end

theorem map (h : Twins σ c d ls ms) {f : Link K → Link K} (hf : ∀ x y, SameLink x y → SameLink (f x) (f y))
    (hk : ∀ l, (f l).place = l.place) : Twins σ c d (ls.map f) (ms.map f) where
  key := by rw [← h.key, List.map_map]; exact List.map_congr_left fun l _ => hk l
  key' := by rw [← h.key', List.map_map]; exact List.map_congr_left fun l _ => hk l
  same i x y hx hy := by
    rw [List.getElem?_map, Option.map_eq_some_iff] at hx hy
    obtain ⟨x, hx, rfl⟩ := hx
    obtain ⟨y, hy, rfl⟩ := hy
    exact hf _ _ (h.same i x y hx hy)

theorem modify (b : Twofold σ c d) (h : Twins σ c d ls ms) {f : Link K → Link K} (hf : ∀ x y, SameLink x y → SameLink (f x) (f y))
    (hk : ∀ l, (f l).place = l.place) {j : ℕ} (hj : j < c.link.length) : Twins σ c d (ls.modify j f) (ms.modify (σ j) f) := by
  have keep : ∀ (l : List (Link K)) (j : ℕ), (l.modify j f).map Link.place = l.map Link.place := by
    intro l j
    apply List.ext_getElem?
    intro k
    rw [List.getElem?_map, List.getElem?_map, List.getElem?_modify]
    cases l[k]? with
    | none => rfl
    | some x => by_cases e : j = k <;> simp [e, hk]
  refine ⟨by rw [keep, h.key], by rw [keep, h.key'], fun i x y hx hy => ?_⟩
  have hi : i < c.link.length := by
    have := (List.getElem?_eq_some_iff.1 hx).1
    rwa [List.length_modify, h.len] at this
  rw [List.getElem?_modify] at hx hy
  by_cases e : j = i
  · subst e
    simp only [if_true, Option.map_eq_map, Option.map_eq_some_iff] at hx hy
    obtain ⟨x, hx, rfl⟩ := hx
    obtain ⟨y, hy, rfl⟩ := hy
    exact hf _ _ (h.same _ x y hx hy)
  · have e' : σ j ≠ σ i := fun q => e (b.inj _ _ hj hi q)
    simp only [if_neg e, Option.map_eq_map, Option.map_eq_some_iff] at hx
    simp only [if_neg e', Option.map_eq_map, Option.map_eq_some_iff] at hy
    obtain ⟨x, hx, rfl⟩ := hx
    obtain ⟨y, hy, rfl⟩ := hy
    exact h.same i _ _ hx hy

theorem offs {l1 l2 : List (Link K)} (h : l1.map Link.place = l2.map Link.place) (ho : setOffset l2 = l2) :
    setOffset l1 = l1 ∧ sizes l1 = sizes l2 := by
  have sz : ∀ {l1 l2 : List (Link K)}, l1.map Link.place = l2.map Link.place → ∀ s : ℕ, OffsetsFrom s l2 →
      OffsetsFrom s l1 ∧ sizes l1 = sizes l2 := by
    intro l1
    induction l1 with
    | nil => intro l2 h s _; cases l2 <;> simp_all [OffsetsFrom, setOffsetFrom]
    | cons a l1 ih =>
      intro l2 h s hs
      rcases l2 with _ | ⟨b, l2⟩
      · simp at h
      · simp only [List.map_cons, List.cons.injEq, Link.place, Prod.mk.injEq] at h
        obtain ⟨⟨ha, hb⟩, ht⟩ := h
        have hb : a.size = b.size := hb
        obtain ⟨k1, k2⟩ := offsetsFrom_cons.1 hs
        obtain ⟨i1, i2⟩ := ih ht (s + b.size) k2
        refine ⟨?_, by rw [sizes_cons, sizes_cons, i2, hb]⟩
        refine offsetsFrom_cons.2 ⟨?_, ?_⟩
        · rw [ha, k1, offsetAt, offsetAt, hb]
        · rw [hb]; exact i1
  exact sz h 0 ho

/-- Where a joint lies when the offsets are those of `rkChainSetOffset`. -/
theorem lies {l1 : List (Link K)} (ho : setOffset l1 = l1) {i : ℕ} {x : Link K} (hx : l1[i]? = some x) :
    (0 < x.joint.prp.size → 0 ≤ x.offset ∧ x.offset.toNat + x.joint.prp.size ≤ sizes l1) ∧ (x.joint.prp.size = 0 → ¬ 0 ≤ x.offset) := by
  have h := setOffsetFrom_getElem? 0 l1 i
  rw [show setOffsetFrom 0 l1 = l1 from ho, hx, Option.map_some, Option.some.injEq] at h
  have h1 : x.offset = offsetAt x (0 + sizes (l1.take i)) := congrArg (fun l : Link K => l.offset) h
  have hi := (List.getElem?_eq_some_iff.1 hx).1
  have hs : sizes (l1.take i) + x.size ≤ sizes l1 := by
    have e : l1 = l1.take i ++ x :: l1.drop (i + 1) := by
      rw [← (List.getElem?_eq_some_iff.1 hx).2, List.getElem_cons_drop, List.take_append_drop]
    have : ∀ a b : List (Link K), sizes (a ++ b) = sizes a + sizes b := by intro a b; simp [sizes]
    conv_rhs => rw [e, this, sizes_cons]
    omega
  unfold Link.size at hs
  constructor
  · intro hp
    rw [h1, offsetAt, if_pos (show 0 < x.size from hp)]
    constructor
    · positivity
    · simp only [Int.toNat_natCast]; omega
  · intro hp
    rw [h1, offsetAt, if_neg (by show ¬ 0 < x.size; unfold Link.size; omega)]
    omega

theorem setAll [Field K] {set : Prp K → List K → Option (Prp K)} {get : Prp K → List K} {stored : Prp K → List K → List K}
    (hset : IsSetter set get stored) (h0 : ∀ p : Prp K, p.size = 0 → get p = [] ∧ stored p [] = [])
    (b : Twofold σ c d) (h : Twins σ c d ls ms) {v w : List K} (hv : v.length = jointSize c.link) (hw : w.length = jointSize d.link)
    (sv : SameValues σ c d v w) :
    ∃ ls2 ms2, setJointAll set v ls = some ls2 ∧ setJointAll set w ms = some ms2 ∧ Twins σ c d ls2 ms2 := by
  obtain ⟨o, z⟩ := offs h.key b.off
  obtain ⟨o', z'⟩ := offs h.key' b.off'
  rw [jointSize_eq] at hv hw
  obtain ⟨ls2, e, -, -, n, -⟩ := setJointAll_from hset h0 ls 0 o v (by omega)
  obtain ⟨ms2, e', -, -, n', -⟩ := setJointAll_from hset h0 ms 0 o' w (by omega)
  refine ⟨ls2, ms2, e, e', ?_, ?_, ?_⟩
  · rw [← h.key]; exact setJointAll_keep _ (fun l buf p' hp => by simp only [Link.place, hset.size _ _ _ hp]) e
  · rw [← h.key']; exact setJointAll_keep _ (fun l buf p' hp => by simp only [Link.place, hset.size _ _ _ hp]) e'
  · intro i x y hx hy
    have hi : i < ls.length := by rw [← n]; exact (List.getElem?_eq_some_iff.1 hx).1
    have hj : σ i < ms.length := by rw [← n']; exact (List.getElem?_eq_some_iff.1 hy).1
    obtain ⟨q, -⟩ := setJointAll_getElem e i
    obtain ⟨q', -⟩ := setJointAll_getElem e' (σ i)
    obtain ⟨l, hl⟩ : ∃ l, ls[i]? = some l := ⟨_, List.getElem?_eq_getElem hi⟩
    obtain ⟨m, hm⟩ : ∃ m, ms[σ i]? = some m := ⟨_, List.getElem?_eq_getElem hj⟩
    have hs := h.same i l m hl hm
    rw [hl, hx, Option.bind_some] at q
    rw [hm, hy, Option.bind_some] at q'
    have hpr : m.joint.prp = l.joint.prp := by rw [hs.joint]
    obtain ⟨a1, a2⟩ := lies o hl
    obtain ⟨b1, b2⟩ := lies o' hm
    rw [hpr] at b1 b2
    simp only [Link.setAtOffset] at q q'
    rcases Nat.eq_zero_or_pos l.joint.prp.size with hz | hz
    · rw [if_neg (a2 hz), Option.some.injEq] at q
      rw [if_neg (b2 hz), Option.some.injEq] at q'
      rw [← q, ← q']; exact hs
    · obtain ⟨a3, a4⟩ := a1 hz
      obtain ⟨b3, b4⟩ := b1 hz
      rw [if_pos a3] at q
      rw [if_pos b3] at q'
      obtain ⟨p, hp, rfl⟩ := Option.map_eq_some_iff.1 q
      obtain ⟨p', hp', rfl⟩ := Option.map_eq_some_iff.1 q'
      obtain ⟨l0, hl0, k0⟩ : ∃ l0, c.link[i]? = some l0 ∧ l.place = l0.place := by
        have := congrArg (fun l => l[i]?) h.key
        simp only [List.getElem?_map, hl, Option.map_some] at this
        obtain ⟨l0, p, q⟩ := Option.map_eq_some_iff.1 this.symm
        exact ⟨l0, p, q.symm⟩
      obtain ⟨m0, hm0, k0'⟩ : ∃ m0, d.link[σ i]? = some m0 ∧ m.place = m0.place := by
        have := congrArg (fun l => l[σ i]?) h.key'
        simp only [List.getElem?_map, hm, Option.map_some] at this
        obtain ⟨l0, p, q⟩ := Option.map_eq_some_iff.1 this.symm
        exact ⟨l0, p, q.symm⟩
      have hsl := sv i l0 m0 hl0 hm0
      simp only [Link.place, Prod.mk.injEq] at k0 k0'
      simp only [slice, ← k0.1, ← k0.2, ← k0'.1, ← k0'.2, hpr] at hsl
      rw [hpr] at hp'
      have hloc := hset.local_ l.joint.prp (v.drop l.offset.toNat) (w.drop m.offset.toNat) (by rw [List.length_drop]; omega) hsl.symm
      rw [hloc, hp'] at hp
      cases hp
      exact ⟨by simp only [hs.joint], hs.body, hs.org, hs.adj, hs.abi⟩

end Twins
end Roki
