import Verif.Model.Jacobi
import Verif.Lemmas.ID
import Verif.Lemmas.Path
import Verif.Props.JointVector

/-! # Jacobian matrices: lemmas -/

namespace Roki
set_option autoImplicit false
open Spec
set_option linter.unusedSectionVars false
variable {K : Type*} [Field K]

namespace Spec
/-- Product of a matrix, given by its columns, and a vector. -/
def jacMul (m : List (Vec3 K)) (q : List K) : Vec3 K := (List.zipWith (fun v x => x • v) m q).sum
end Spec

namespace Jacobi

theorem jacMul_zero (m : Mat K) (q : List K) : jacMul (zero m) q = 0 := by
  induction m generalizing q with
  | nil => rfl
  | cons v m ih =>
    cases q with
    | nil => rfl
    | cons x q =>
      have := ih q
      simp only [jacMul, zero, List.map_cons, List.zipWith_cons_cons, List.sum_cons, smul_zero,
        zero_add] at *
      exact this

theorem jacMul_modify (m : Mat K) (q : List K) (h : q.length = m.length) (f : Vec3 K → Vec3 K) (k : ℕ)
    (v w : Vec3 K) (hk : m[k]? = some v) (hf : f v = v + w) :
    jacMul (m.modify k f) q = jacMul m q + q.getD k 0 • w := by
  induction m generalizing q k with
  | nil => simp at hk
  | cons u m ih =>
    rcases q with _ | ⟨x, q⟩
    · simp at h
    · cases k with
      | zero =>
        simp only [List.getElem?_cons_zero, Option.some.injEq] at hk
        subst hk
        simp only [jacMul, List.modify_zero_cons, List.zipWith_cons_cons, List.sum_cons, hf,
          smul_add, List.getD_cons_zero]
        abel
      | succ k =>
        have := ih q (by simpa using h) k (by simpa using hk)
        simp only [jacMul, List.modify_succ_cons, List.zipWith_cons_cons, List.sum_cons,
          List.getD_cons_succ] at *
        rw [this]; abel

/-- One column operation. -/
theorem modCol_spec (f : Vec3 K → Vec3 K) (m : Mat K) (q : List K) (h : q.length = m.length) (c : ℕ)
    (hc : c < m.length) (w : Vec3 K) (hf : ∀ v, m[c]? = some v → f v = v + w) :
    ∃ m', modCol f m c = some m' ∧ m'.length = m.length ∧ (∀ k, k ≠ c → m'[k]? = m[k]?) ∧
      jacMul m' q = jacMul m q + q.getD c 0 • w := by
  refine ⟨m.modify c f, ?_, by simp, ?_, ?_⟩
  · simp [modCol, hc]
  · intro k hk; rw [List.getElem?_modify]; simp [Ne.symm hk]
  · have hv : m[c]? = some m[c] := List.getElem?_eq_getElem hc
    exact jacMul_modify m q h f c _ w hv (hf _ hv)

/-- A loop over the columns `off, off+1, ...`. -/
theorem loop_spec (f : Mat K → ℕ → Option (Mat K)) (q : List K) (off n : ℕ) (m : Mat K)
    (h : q.length = m.length) (hn : off + n ≤ m.length) (G : ℕ → Vec3 K)
    (step : ∀ i < n, ∀ m1 : Mat K, m1.length = m.length → m1[off + i]? = m[off + i]? →
      ∃ m2, f m1 i = some m2 ∧ m2.length = m.length ∧ (∀ k, k ≠ off + i → m2[k]? = m1[k]?) ∧
        jacMul m2 q = jacMul m1 q + q.getD (off + i) 0 • G i) :
    ∃ m', (List.range n).foldlM f m = some m' ∧ m'.length = m.length ∧
      (∀ k, ¬ (off ≤ k ∧ k < off + n) → m'[k]? = m[k]?) ∧
      jacMul m' q = jacMul m q + ((List.range n).map fun i => q.getD (off + i) 0 • G i).sum := by
  induction n with
  | zero => exact ⟨m, rfl, rfl, fun _ _ => rfl, by simp⟩
  | succ n ih =>
    obtain ⟨m1, e1, l1, k1, s1⟩ := ih (by omega) fun i hi => step i (by omega)
    obtain ⟨m2, e2, l2, k2, s2⟩ := step n (by omega) m1 l1 (k1 _ (by omega))
    refine ⟨m2, ?_, l2, ?_, ?_⟩
    · rw [List.range_succ, List.foldlM_append, e1]
      simp [e2]
    · intro k hk
      rw [k2 k (by omega), k1 k (by omega)]
    · rw [s2, s1, List.range_succ]; simp [add_assoc]

/-- Contribution of one joint to the product of the matrix and the vector. -/
def contrib (q : List K) (l : Link K) (col : ℕ → Option (Vec3 K)) : Vec3 K :=
  ((List.range l.size).map fun i => q.getD (l.offset.toNat + i) 0 • (col i).getD 0).sum

/-- The columns of a link lie inside the matrix. -/
def Inside (n : ℕ) (l : Link K) : Prop := 0 < l.size → 0 ≤ l.offset ∧ l.offset + l.size ≤ n

theorem colLoop_spec (op : Vec3 K → Vec3 K → Vec3 K) (g : K) (l : Link K)
    (col : ℕ → Option (Vec3 K)) (m : Mat K) (q : List K) (h : q.length = m.length)
    (hi : Inside m.length l)
    (hop : ∀ i < l.size, ∀ v, m[l.offset.toNat + i]? = some v → ∀ s, op v s = v + g • s) :
    ∃ m', colLoop op l col m = some m' ∧ m'.length = m.length ∧
      (∀ k : ℕ, ¬ (l.offset.toNat ≤ k ∧ k < l.offset.toNat + l.size) → m'[k]? = m[k]?) ∧
      jacMul m' q = jacMul m q + g • contrib q l col := by
  by_cases hs : 0 < l.size
  · obtain ⟨h0, h1⟩ := hi hs
    obtain ⟨off, ho⟩ := Int.eq_ofNat_of_zero_le h0
    have ho' : l.offset.toNat = off := by omega
    rw [ho'] at hop ⊢
    obtain ⟨m', e, a, b, d⟩ := loop_spec (fun m i => colAt op (col i) m (l.offset + i)) q off l.size m h (by omega) (fun i => g • (col i).getD 0) (by
        intro i hi m1 l1 e1
        cases hc : col i with
        | none => exact ⟨m1, rfl, l1, fun _ _ => rfl, by simp⟩
        | some s =>
          have := modCol_spec (fun v => op v s) m1 q (by omega) (off + i) (by omega) (g • s) (by
            intro v hv; exact hop i hi v (e1 ▸ hv) s)
          rw [l1] at this
          simpa [ho, hc, colAt] using this)
    refine ⟨m', e, a, b, ?_⟩
    rw [d, contrib, ho', smul_sum']
    congr 2
    refine List.map_congr_left fun i _ => ?_
    rw [smul_comm]
  · have : l.size = 0 := by omega
    refine ⟨m, by simp [colLoop, this], rfl, fun _ _ => rfl, by simp [contrib, this]⟩

/-- A walk to the root, with an invariant on the matrix that may refer to the remaining links. -/
theorem walk_spec (f : Link K → Mat K → Option (Mat K)) (ls : List (Link K)) (q : List K)
    (P : List ℕ → Mat K → Prop) (F : ℕ → Vec3 K)
    (step : ∀ i rem m, i ∉ rem → P (i :: rem) m → ∃ (l : Link K) (m' : Mat K), ls[i]? = some l ∧
      f l m = some m' ∧ P rem m' ∧ jacMul m' q = jacMul m q + F i) :
    ∀ (r : List ℕ) (m : Mat K), (r ++ [0]).Nodup → P (r ++ [0]) m →
      ∃ m', walk f ls (r ++ [0]) m = some m' ∧ P [] m' ∧
        jacMul m' q = jacMul m q + ((r ++ [0]).map F).sum := by
  intro r
  induction r with
  | nil =>
    intro m _ hP
    obtain ⟨l, m', a, b, d, e⟩ := step 0 [] m (by simp) hP
    exact ⟨m', by simp [walk, a, b], d, by simp [e]⟩
  | cons i r ih =>
    intro m hn hP
    rw [List.cons_append, List.nodup_cons] at hn
    obtain ⟨l, m', a, b, d, e⟩ := step i (r ++ [0]) m hn.1 hP
    obtain ⟨m2, a2, b2, d2⟩ := ih m' hn.2 d
    have h0 : i ≠ 0 := by rintro rfl; simp at hn
    refine ⟨m2, ?_, b2, ?_⟩
    · simp [walk, a, b, h0, a2]
    · rw [d2, e]; simp [add_assoc]

/-- The same for the loop that leaves out the root. -/
theorem walkBelow_spec (f : Link K → Mat K → Option (Mat K)) (ls : List (Link K)) (q : List K)
    (P : List ℕ → Mat K → Prop) (F : ℕ → Vec3 K)
    (step : ∀ i rem m, i ∉ rem → P (i :: rem) m → ∃ (l : Link K) (m' : Mat K), ls[i]? = some l ∧
      f l m = some m' ∧ P rem m' ∧ jacMul m' q = jacMul m q + F i) :
    ∀ (r : List ℕ) (m : Mat K), (r ++ [0]).Nodup → P (r ++ [0]) m →
      ∃ m', walkBelow f ls (r ++ [0]) m = some m' ∧ P [0] m' ∧
        jacMul m' q = jacMul m q + (r.map F).sum := by
  intro r
  induction r with
  | nil => intro m _ hP; exact ⟨m, by simp [walkBelow], hP, by simp⟩
  | cons i r ih =>
    intro m hn hP
    rw [List.cons_append, List.nodup_cons] at hn
    obtain ⟨l, m', a, b, d, e⟩ := step i (r ++ [0]) m hn.1 hP
    obtain ⟨m2, a2, b2, d2⟩ := ih m' hn.2 d
    have h0 : i ≠ 0 := by rintro rfl; simp at hn
    refine ⟨m2, ?_, b2, ?_⟩
    · simp [walkBelow, a, b, h0, a2]
    · rw [d2, e]; simp [add_assoc]

/-- The first loop of the link-to-link angular Jacobian. -/
theorem walkAngTo_spec (f : Link K → Mat K → Option (Mat K)) (ls : List (Link K)) (q : List K)
    (from_ : ℕ) (P : List ℕ → Mat K → Prop) (F : ℕ → Vec3 K)
    (step : ∀ i rem m, i ∉ rem → P (i :: rem) m → ∃ (l : Link K) (m' : Mat K), ls[i]? = some l ∧
      f l m = some m' ∧ P rem m' ∧ jacMul m' q = jacMul m q + F i) :
    ∀ (r : List ℕ) (m : Mat K), (r ++ [0]).Nodup → P (r ++ [0]) m →
      (from_ ∉ r ∧ ∃ m', walkAngTo f from_ ls (r ++ [0]) m = some (false, m') ∧ P [0] m' ∧
        jacMul m' q = jacMul m q + (r.map F).sum) ∨
      (∃ r1 r2 m', r = r1 ++ from_ :: r2 ∧ walkAngTo f from_ ls (r ++ [0]) m = some (true, m') ∧
        P (from_ :: (r2 ++ [0])) m' ∧ jacMul m' q = jacMul m q + (r1.map F).sum) := by
  intro r
  induction r with
  | nil => intro m _ hP; exact .inl ⟨by simp, m, by simp [walkAngTo], hP, by simp⟩
  | cons i r ih =>
    intro m hn hP
    rw [List.cons_append, List.nodup_cons] at hn
    have h0 : i ≠ 0 := by rintro rfl; simp at hn
    by_cases hi : i = from_
    · subst hi
      exact .inr ⟨[], r, m, rfl, by simp [walkAngTo, h0], by simpa using hP, by simp⟩
    · obtain ⟨l, m', a, b, d, e⟩ := step i (r ++ [0]) m hn.1 hP
      rcases ih m' hn.2 d with ⟨hf, m2, a2, b2, d2⟩ | ⟨r1, r2, m2, er, a2, b2, d2⟩
      · refine .inl ⟨?_, m2, ?_, b2, ?_⟩
        · simpa using ⟨Ne.symm hi, hf⟩
        · simp [walkAngTo, a, b, h0, hi, a2]
        · rw [d2, e]; simp [add_assoc]
      · refine .inr ⟨i :: r1, r2, m2, by simp [er], ?_, b2, ?_⟩
        · simp [walkAngTo, a, b, h0, hi, a2]
        · rw [d2, e]; simp [add_assoc]

/-- The first loop of the link-to-link linear Jacobian. -/
theorem walkLinTo_spec (f : Link K → Mat K → Option (Mat K)) (ls : List (Link K)) (q : List K)
    (from_ : ℕ) (P : List ℕ → Mat K → Prop) (F : ℕ → Vec3 K)
    (step : ∀ i rem m, i ∉ rem → P (i :: rem) m → ∃ (l : Link K) (m' : Mat K), ls[i]? = some l ∧
      f l m = some m' ∧ P rem m' ∧ jacMul m' q = jacMul m q + F i) :
    ∀ (r : List ℕ) (m : Mat K), (r ++ [0]).Nodup → P (r ++ [0]) m →
      (from_ ∉ r ++ [0] ∧ ∃ m', walkLinTo f from_ ls (r ++ [0]) m = some (false, m') ∧ P [] m' ∧
        jacMul m' q = jacMul m q + ((r ++ [0]).map F).sum) ∨
      (∃ r1 r2 m', r ++ [0] = r1 ++ from_ :: r2 ∧
        walkLinTo f from_ ls (r ++ [0]) m = some (true, m') ∧
        P (from_ :: r2) m' ∧ jacMul m' q = jacMul m q + (r1.map F).sum) := by
  intro r
  induction r with
  | nil =>
    intro m _ hP
    by_cases hi : 0 = from_
    · subst hi
      exact .inr ⟨[], [], m, rfl, by simp [walkLinTo], hP, by simp⟩
    · obtain ⟨l, m', a, b, d, e⟩ := step 0 [] m (by simp) hP
      exact .inl ⟨by simpa using Ne.symm hi, m', by simp [walkLinTo, a, b, hi], d, by simp [e]⟩
  | cons i r ih =>
    intro m hn hP
    rw [List.cons_append, List.nodup_cons] at hn
    have h0 : i ≠ 0 := by rintro rfl; simp at hn
    by_cases hi : i = from_
    · subst hi
      exact .inr ⟨[], r ++ [0], m, rfl, by simp [walkLinTo], by simpa using hP, by simp⟩
    · obtain ⟨l, m', a, b, d, e⟩ := step i (r ++ [0]) m hn.1 hP
      rcases ih m' hn.2 d with ⟨hf, m2, a2, b2, d2⟩ | ⟨r1, r2, m2, er, a2, b2, d2⟩
      · refine .inl ⟨?_, m2, ?_, b2, ?_⟩
        · simpa [Ne.symm hi] using hf
        · simp [walkLinTo, a, b, h0, hi, a2]
        · rw [d2, e]; simp [add_assoc]
      · refine .inr ⟨i :: r1, r2, m2, by simp [er], ?_, b2, ?_⟩
        · simp [walkLinTo, a, b, h0, hi, a2]
        · rw [d2, e]; simp [add_assoc]

/-! ## Steps of the walks -/

section
variable {ls : List (Link K)} {n : ℕ}

/-- The matrix has the right size. -/
def Sized (n : ℕ) (ls : List (Link K)) (rem : List ℕ) (m : Mat K) : Prop :=
  m.length = n ∧ ∀ i ∈ rem, ∃ l : Link K, ls[i]? = some l

/-- Moreover, the columns of the remaining links are still zero. -/
def Fresh (n : ℕ) (ls : List (Link K)) (rem : List ℕ) (m : Mat K) : Prop :=
  Sized n ls rem m ∧ ∀ i ∈ rem, ∀ l : Link K, ls[i]? = some l → ∀ k < l.size,
    m[l.offset.toNat + k]? = some 0

/-- Contribution of link `i`. -/
def F (ls : List (Link K)) (q : List K) (col : Link K → ℕ → Option (Vec3 K)) (i : ℕ) : Vec3 K :=
  match ls[i]? with
  | some l => contrib q l (col l)
  | none => 0

theorem offset_inside (ho : LinkArray.setOffset ls = ls) {i : ℕ} {l : Link K} (hl : ls[i]? = some l) :
    Inside (LinkArray.jointSize ls) l := by
  have h := (C01_offsets_tile ls).2.2.2.2.1
  rw [ho] at h
  exact h l (List.mem_of_getElem? hl)

theorem offset_disjoint (ho : LinkArray.setOffset ls = ls) {i j : ℕ} {l m : Link K} (hij : i ≠ j)
    (hl : ls[i]? = some l) (hm : ls[j]? = some m) (h1 : 0 < l.size) (h2 : 0 < m.size) :
    l.offset.toNat + l.size ≤ m.offset.toNat ∨ m.offset.toNat + m.size ≤ l.offset.toNat := by
  have h := (C01_offsets_tile ls).2.2.2.2.2.1
  rw [ho] at h
  have a := offset_inside ho hl h1
  have b := offset_inside ho hm h2
  rcases Nat.lt_or_gt_of_ne hij with hlt | hlt
  · have := h i j l m hlt hl hm h1 h2
    unfold Link.size at *; omega
  · have := h j i m l hlt hm hl h2 h1
    unfold Link.size at *; omega

/-- Steps that add a multiple of a column. -/
theorem step_add (ho : LinkArray.setOffset ls = ls) (hn : n = LinkArray.jointSize ls) (q : List K)
    (hq : q.length = n) (g : K) (op : Vec3 K → Vec3 K → Vec3 K) (hop : ∀ v s, op v s = v + g • s)
    (col : Link K → ℕ → Option (Vec3 K)) :
    ∀ i rem m, i ∉ rem → Sized n ls (i :: rem) m → ∃ (l : Link K) (m' : Mat K), ls[i]? = some l ∧
      colLoop op l (col l) m = some m' ∧ Sized n ls rem m' ∧
      jacMul m' q = jacMul m q + g • F ls q col i := by
  intro i rem m _ hP
  obtain ⟨l, hl⟩ := hP.2 i (by simp)
  obtain ⟨m', a, b, _, e⟩ := colLoop_spec op g l (col l) m q (by rw [hq, hP.1])
    (by rw [hP.1, hn]; exact offset_inside ho hl) (fun _ _ _ _ _ => hop _ _)
  exact ⟨l, m', hl, a, ⟨b.trans hP.1, fun j hj => hP.2 j (List.mem_cons_of_mem _ hj)⟩,
    by rw [e, F, hl]⟩

/-- Steps that set a column. -/
theorem step_set (ho : LinkArray.setOffset ls = ls) (hn : n = LinkArray.jointSize ls) (q : List K)
    (hq : q.length = n) (col : Link K → ℕ → Option (Vec3 K)) :
    ∀ i rem m, i ∉ rem → Fresh n ls (i :: rem) m → ∃ (l : Link K) (m' : Mat K), ls[i]? = some l ∧
      colLoop opSet l (col l) m = some m' ∧ Fresh n ls rem m' ∧
      jacMul m' q = jacMul m q + F ls q col i := by
  intro i rem m hi hP
  obtain ⟨l, hl⟩ := hP.1.2 i (by simp)
  obtain ⟨m', a, b, b', e⟩ := colLoop_spec opSet 1 l (col l) m q (by rw [hq, hP.1.1])
    (by rw [hP.1.1, hn]; exact offset_inside ho hl) (by
      intro k hk v hv s
      have h0 := hP.2 i (by simp) l hl k hk
      rw [h0, Option.some.injEq] at hv
      simp [opSet, ← hv])
  refine ⟨l, m', hl, a, ⟨⟨b.trans hP.1.1, fun j hj => hP.1.2 j (List.mem_cons_of_mem _ hj)⟩, ?_⟩,
    by rw [e, F, hl, one_smul]⟩
  intro j hj lj hlj k hk
  rw [b' _ ?_]
  · exact hP.2 j (List.mem_cons_of_mem _ hj) lj hlj k hk
  · have hne : i ≠ j := by rintro rfl; exact hi hj
    intro hcon
    have := offset_disjoint ho hne hl hlj (by omega) (by omega)
    omega

theorem fresh_zero (ho : LinkArray.setOffset ls = ls) (hn : n = LinkArray.jointSize ls) (m : Mat K)
    (hm : m.length = n) (rem : List ℕ) (hr : ∀ i ∈ rem, i < ls.length) : Fresh n ls rem (zero m) := by
  refine ⟨⟨by simp [zero, hm], fun i hi => ⟨_, List.getElem?_eq_getElem (hr i hi)⟩⟩, ?_⟩
  intro i _ l hl k hk
  have := offset_inside ho hl (by omega)
  simp only [zero, List.getElem?_map, List.getElem?_eq_getElem (show l.offset.toNat + k < m.length by
    omega), Option.map_some]
end

end Jacobi

/-! ## The path to the root -/

theorem LTree.pathUp_eq {t : LTree ℕ} {p : List ℕ} {i : ℕ} (h : IsPath t (p ++ [i]))
    (hn : t.toList.Nodup) : t.pathUp i = some (i :: p.reverse) := by
  induction t generalizing p with
  | nil => cases h
  | node j c s ihc ihs =>
    simp only [LTree.toList, List.nodup_cons, List.mem_append, not_or, List.nodup_append] at hn
    obtain ⟨⟨n1, n2⟩, n3, n4, n5⟩ := hn
    generalize hq : p ++ [i] = q at h
    have hi : i ∈ q := by simp [← hq]
    cases h with
    | here =>
      rcases p with _ | ⟨a, p⟩
      · simp only [List.nil_append, List.cons.injEq, and_true] at hq
        simp [pathUp, hq]
      · simp at hq
    | @child _ _ _ p' hc =>
      rcases p with _ | ⟨a, p⟩
      · simp only [List.nil_append, List.cons.injEq] at hq
        exact absurd hq.2.symm hc.ne_nil
      · simp only [List.cons_append, List.cons.injEq] at hq
        obtain ⟨rfl, rfl⟩ := hq
        have hi' : i ∈ c.toList := hc.mem i (by simp)
        have hne : i ≠ a := by rintro rfl; exact n1 hi'
        simp [pathUp, hne, ihc hc n3]
    | sibl hs =>
      subst hq
      have hi' : i ∈ s.toList := hs.mem i (by simp)
      have hne : i ≠ j := by rintro rfl; exact n2 hi'
      have hc : c.pathUp i = none := by
        have : i ∉ c.toList := fun hc => n5 i hc i hi' rfl
        clear ihc ihs n1 n3 n5
        induction c with
        | nil => rfl
        | node k c' s' a b =>
          simp only [LTree.toList, List.mem_cons, List.mem_append, not_or] at this
          simp [pathUp, this.1, a this.2.1, b this.2.2]
      simp [pathUp, hne, hc, ihs hs n4]

/-- In a chain, the path from a link up to the root exists and ends with link 0. -/
theorem Chain.WF.pathUp {c : Chain K} (h : c.WF) {i : ℕ} (hi : i < c.link.length) :
    ∃ r, c.shape.pathUp i = some (r ++ [0]) ∧ IsPath c.shape (r ++ [0]).reverse ∧
      (r ++ [0]).Nodup ∧ (∀ j ∈ r ++ [0], j < c.link.length) ∧ (r ++ [0]).head? = some i := by
  obtain ⟨p, hp⟩ := LTree.exists_path (h.mem.2 hi)
  obtain ⟨t, ht⟩ := h.root
  have e := LTree.pathUp_eq hp h.nodup
  have hlast : ∃ p', p ++ [i] = 0 :: p' := by
    rw [ht] at hp
    generalize p ++ [i] = q at hp
    cases hp with
    | here => exact ⟨[], rfl⟩
    | child hc => exact ⟨_, rfl⟩
    | sibl hs => cases hs
  obtain ⟨p', hp'⟩ := hlast
  have er : i :: p.reverse = p'.reverse ++ [0] := by
    have := congrArg List.reverse hp'
    simpa using this
  refine ⟨p'.reverse, by rw [e, er], ?_, ?_, ?_, ?_⟩
  · rw [← er]; simpa using hp
  · rw [← er]
    have := hp.nodup h.nodup
    have h2 := List.nodup_reverse.2 this
    simpa using h2
  · intro j hj
    rw [← er] at hj
    exact h.mem.1 (hp.mem j (by simp at hj ⊢; tauto))
  · rw [← er]; rfl

/-! ## Contribution of a joint -/

/-- The motion of the joint alone. -/
def twist (p : Prp K) : Vec6 K := p.incVel 0

theorem incVel_twist (p : Prp K) (v : Vec6 K) : p.incVel v = v + twist p := by
  cases p <;> simp only [twist, Prp.incVel] <;> vec_ring

theorem Jacobi.contrib_ang (q : List K) (l : Link K)
    (hq : ∀ i < l.size, q.getD (l.offset.toNat + i) 0 = l.joint.prp.getVel.getD i 0) :
    Jacobi.contrib q l (Jacobi.angCol l) = l.body.frame.att.mulVec (twist l.joint.prp).ang := by
  have e : Jacobi.contrib q l (Jacobi.angCol l) =
      ((List.range l.size).map fun i => l.joint.prp.getVel.getD i 0 • (Jacobi.angCol l i).getD 0).sum := by
    unfold Jacobi.contrib
    congr 1
    refine List.map_congr_left fun i hi => ?_
    rw [hq i (List.mem_range.1 hi)]
  rw [e]
  unfold Jacobi.angCol Link.size
  generalize l.body.frame = f
  cases l.joint.prp <;>
    simp [Prp.size, Prp.angAxis, twist, Prp.incVel, Prp.getVel, List.range_succ, Prp.rowAxis,
      Vec3.toBuf, Vec6.toBuf] <;> vec_ring

theorem Jacobi.contrib_lin (q : List K) (l : Link K) (P : Vec3 K)
    (hq : ∀ i < l.size, q.getD (l.offset.toNat + i) 0 = l.joint.prp.getVel.getD i 0) :
    Jacobi.contrib q l (Jacobi.linCol l P) = l.body.frame.att.mulVec (twist l.joint.prp).lin +
      cross (l.body.frame.att.mulVec (twist l.joint.prp).ang) (P - l.body.frame.pos) := by
  have e : Jacobi.contrib q l (Jacobi.linCol l P) =
      ((List.range l.size).map fun i => l.joint.prp.getVel.getD i 0 • (Jacobi.linCol l P i).getD 0).sum := by
    unfold Jacobi.contrib
    congr 1
    refine List.map_congr_left fun i hi => ?_
    rw [hq i (List.mem_range.1 hi)]
  rw [e]
  unfold Jacobi.linCol Link.size
  generalize l.body.frame = f
  cases l.joint.prp <;>
    simp [Prp.size, Prp.angAxis, Prp.linAxis, twist, Prp.incVel, Prp.getVel, List.range_succ, Prp.rowAxis,
      Vec3.toBuf, Vec6.toBuf] <;> vec_ring


/-! ## Sums over paths -/

theorem adj_isRot {pf f adj : Frame K} (hp : pf.att.IsRot) (hf : f.att.IsRot) (h : f = pf.cascade adj) :
    adj.att.IsRot := by
  have : adj = pf.xformF f := by rw [h, Frame.xformF_cascade hp]
  rw [this]
  exact hp.mulT hf

/-- World velocity of the point of the world `P` moving with a frame `f` at twist `v`. -/
def rigidVel (f : Frame K) (v : Vec6 K) (P : Vec3 K) : Vec3 K :=
  f.att.mulVec v.lin + cross (f.att.mulVec v.ang) (P - f.pos)

theorem LTree.path_ang {T : LTree (Link K)} {p : List (Link K)} (h : IsPath T p) :
    ∀ {pf : Frame K} {pv : Vec6 K}, pf.att.IsRot → T.FrameOK pf → T.VelOK pv →
    (∀ l ∈ T.toList, l.body.frame.att.IsRot) → ∀ l, p.getLast? = some l →
    (p.map fun l => l.body.frame.att.mulVec (twist l.joint.prp).ang).sum =
      l.body.frame.att.mulVec l.body.vel.ang - pf.att.mulVec pv.ang := by
  have stepE : ∀ (l : Link K) (pf : Frame K) (pv : Vec6 K), pf.att.IsRot → l.body.frame.att.IsRot →
      l.body.frame = pf.cascade l.adj → l.body.vel = l.joint.prp.incVel (l.adj.xform6Lin pv) →
      l.body.frame.att.mulVec (twist l.joint.prp).ang =
        l.body.frame.att.mulVec l.body.vel.ang - pf.att.mulVec pv.ang := by
    intro l pf pv hp hl e1 e2
    have ha := adj_isRot hp hl e1
    rw [e2, incVel_twist]
    have : l.body.frame.att.mulVec (l.adj.xform6Lin pv).ang = pf.att.mulVec pv.ang := by
      rw [e1]
      simp only [Frame.cascade, Frame.xform6Lin, Mat3.mulVecT6, Mat3.mul_mulVec, Vec6.linShift]
      rw [ha.mulVec_mulVecT]
    simp only [Vec6.add_ang, Mat3.mulVec_add, this]; abel
  induction h with
  | here a c s =>
    intro pf pv hp hF hV hR l hl
    simp only [List.getLast?_singleton, Option.some.injEq] at hl
    subst hl
    simp only [List.map_cons, List.map_nil, List.sum_cons, List.sum_nil, add_zero]
    exact stepE _ _ _ hp (hR _ (by simp [LTree.toList])) hF.1 hV.1
  | @child a c s p hc ih =>
    intro pf pv hp hF hV hR l hl
    have ha := hR a (by simp [LTree.toList])
    have hl' : p.getLast? = some l := by
      rcases p with _ | ⟨b, p⟩
      · exact absurd rfl hc.ne_nil
      · simpa using hl
    simp only [List.map_cons, List.sum_cons]
    rw [ih ha hF.2.1 hV.2.1 (fun m hm => hR m (by simp [LTree.toList, hm])) l hl',
      stepE a pf pv hp ha hF.1 hV.1]
    abel
  | @sibl a c s p hs ih =>
    intro pf pv hp hF hV hR l hl
    exact ih hp hF.2.2 hV.2.2 (fun m hm => hR m (by simp [LTree.toList, hm])) l hl

theorem LTree.path_lin {T : LTree (Link K)} {p : List (Link K)} (h : IsPath T p) (P : Vec3 K) :
    ∀ {pf : Frame K} {pv : Vec6 K}, pf.att.IsRot → T.FrameOK pf → T.VelOK pv →
    (∀ l ∈ T.toList, l.body.frame.att.IsRot) → ∀ l, p.getLast? = some l →
    (p.map fun l => l.body.frame.att.mulVec (twist l.joint.prp).lin +
      cross (l.body.frame.att.mulVec (twist l.joint.prp).ang) (P - l.body.frame.pos)).sum =
      rigidVel l.body.frame l.body.vel P - rigidVel pf pv P := by
  have stepE : ∀ (l : Link K) (pf : Frame K) (pv : Vec6 K), pf.att.IsRot → l.body.frame.att.IsRot →
      l.body.frame = pf.cascade l.adj → l.body.vel = l.joint.prp.incVel (l.adj.xform6Lin pv) →
      l.body.frame.att.mulVec (twist l.joint.prp).lin +
        cross (l.body.frame.att.mulVec (twist l.joint.prp).ang) (P - l.body.frame.pos) =
        rigidVel l.body.frame l.body.vel P - rigidVel pf pv P := by
    intro l pf pv hp hl e1 e2
    have ha := adj_isRot hp hl e1
    have k1 : l.body.frame.att.mulVec (l.adj.xform6Lin pv).ang = pf.att.mulVec pv.ang := by
      rw [e1]
      simp only [Frame.cascade, Frame.xform6Lin, Mat3.mulVecT6, Mat3.mul_mulVec, Vec6.linShift]
      rw [ha.mulVec_mulVecT]
    have k2 : l.body.frame.att.mulVec (l.adj.xform6Lin pv).lin =
        pf.att.mulVec pv.lin + cross (pf.att.mulVec pv.ang) (l.body.frame.pos - pf.pos) := by
      rw [e1]
      simp only [Frame.cascade, Frame.xform6Lin, Mat3.mulVecT6, Mat3.mul_mulVec, Vec6.linShift]
      rw [ha.mulVec_mulVecT, Mat3.mulVec_add, hp.mulVec_cross]
      congr 2
      vec_ring
    rw [e2, incVel_twist]
    unfold rigidVel
    simp only [Vec6.add_ang, Vec6.add_lin, Mat3.mulVec_add, k1, k2]
    generalize l.body.frame.att.mulVec (twist l.joint.prp).lin = a
    generalize l.body.frame.att.mulVec (twist l.joint.prp).ang = b
    generalize pf.att.mulVec pv.lin = d
    generalize pf.att.mulVec pv.ang = e
    vec_ring
  induction h with
  | here a c s =>
    intro pf pv hp hF hV hR l hl
    simp only [List.getLast?_singleton, Option.some.injEq] at hl
    subst hl
    simp only [List.map_cons, List.map_nil, List.sum_cons, List.sum_nil, add_zero]
    exact stepE _ _ _ hp (hR _ (by simp [LTree.toList])) hF.1 hV.1
  | @child a c s p hc ih =>
    intro pf pv hp hF hV hR l hl
    have ha := hR a (by simp [LTree.toList])
    have hl' : p.getLast? = some l := by
      rcases p with _ | ⟨b, p⟩
      · exact absurd rfl hc.ne_nil
      · simpa using hl
    simp only [List.map_cons, List.sum_cons]
    rw [ih ha hF.2.1 hV.2.1 (fun m hm => hR m (by simp [LTree.toList, hm])) l hl',
      stepE a pf pv hp ha hF.1 hV.1]
    abel
  | @sibl a c s p hs ih =>
    intro pf pv hp hF hV hR l hl
    exact ih hp hF.2.2 hV.2.2 (fun m hm => hR m (by simp [LTree.toList, hm])) l hl

/-! ## The state after forward kinematics and inverse dynamics -/

theorem LTree.updateWrench_map {α : Type*} (k : Link K → α)
    (h : ∀ (l : Link K) (w v : Vec6 K), k { l with joint := ⟨l.joint.prp.calcTrq w, v⟩ } = k l)
    (T : LTree (Link K)) : T.updateWrench.map k = T.map k := by
  induction T with
  | nil => rfl
  | node l c s ihc ihs => simp only [updateWrench, map, ihc, ihs, h]

theorem LTree.velOK_congr {pv : Vec6 K} {T T' : LTree (Link K)}
    (h : T.map (fun l => (l.body, l.adj, twist l.joint.prp)) =
      T'.map (fun l => (l.body, l.adj, twist l.joint.prp)))
    (hT : VelOK pv T) : VelOK pv T' := by
  induction T generalizing pv T' with
  | nil => cases T' <;> simp_all [map, VelOK]
  | node l c s ihc ihs =>
    rcases T' with _ | ⟨l', c', s'⟩
    · simp [map] at h
    · simp only [map, node.injEq, Prod.mk.injEq] at h
      obtain ⟨⟨h1, h2, h5⟩, h3, h4⟩ := h
      obtain ⟨a, b, d⟩ := hT
      refine ⟨by rw [← h1, ← h2, incVel_twist, ← h5, ← incVel_twist]; exact a, ?_, ihs h4 d⟩
      rw [← h1]; exact ihc h3 b

theorem twist_calcTrq (p : Prp K) (w : Vec6 K) : twist (p.calcTrq w) = twist p := by
  cases p <;> rfl

/-- What the Jacobian matrices read of a link. -/
def jacKey (l : Link K) : ℤ × ℕ × Frame K × (ℕ → Frame K → Option (Vec3 K)) ×
    (ℕ → Frame K → Option (Vec3 K)) × MP K :=
  (l.offset, l.size, l.body.frame, l.joint.prp.angAxis, l.joint.prp.linAxis, l.body.mp)

theorem LinkArray.setJointAll_link {set : Prp K → List K → Option (Prp K)} {α : Type*}
    (k : Link K → α) (h : ∀ (l l' : Link K) (buf : List K), l.setWith set buf = some l' → k l' = k l)
    {v : List K} {ls ls' : List (Link K)} (e : LinkArray.setJointAll set v ls = some ls') :
    ls'.map k = ls.map k := by
  induction ls generalizing ls' with
  | nil => simp only [setJointAll, Option.some.injEq] at e; rw [← e]
  | cons l ls ih =>
    simp only [setJointAll, Option.bind_eq_bind, Option.bind_eq_some_iff, Option.pure_def,
      Option.some.injEq] at e
    obtain ⟨l', h1, ls1, h2, rfl⟩ := e
    simp only [List.map_cons, ih h2, List.cons.injEq, and_true]
    simp only [Link.setAtOffset] at h1
    split_ifs at h1
    · exact h _ _ _ h1
    · simp only [Option.some.injEq] at h1; rw [h1]

theorem axes_setVel {p p' : Prp K} {buf : List K} (h : p.setVel buf = some p') :
    p'.size = p.size ∧ p'.angAxis = p.angAxis ∧ p'.linAxis = p.linAxis := by
  cases p <;> rcases buf with _ | ⟨a, _ | ⟨b, _ | ⟨c, _ | ⟨d, _ | ⟨e, _ | ⟨f, buf⟩⟩⟩⟩⟩⟩ <;>
    simp [Prp.setVel, Vec3.ofBuf, Vec6.ofBuf] at h <;> subst h <;>
    (refine ⟨rfl, ?_, ?_⟩ <;> funext i f <;> rcases i with _ | _ | _ | _ | _ | _ | i <;> rfl)

theorem axes_setAcc {p p' : Prp K} {buf : List K} (h : p.setAcc buf = some p') :
    p'.size = p.size ∧ p'.angAxis = p.angAxis ∧ p'.linAxis = p.linAxis := by
  cases p <;> rcases buf with _ | ⟨a, _ | ⟨b, _ | ⟨c, _ | ⟨d, _ | ⟨e, _ | ⟨f, buf⟩⟩⟩⟩⟩⟩ <;>
    simp [Prp.setAcc, Vec3.ofBuf, Vec6.ofBuf] at h <;> subst h <;>
    (refine ⟨rfl, ?_, ?_⟩ <;> funext i f <;> rcases i with _ | _ | _ | _ | _ | _ | i <;> rfl)

theorem axes_calcTrq (p : Prp K) (w : Vec6 K) :
    (p.calcTrq w).size = p.size ∧ (p.calcTrq w).angAxis = p.angAxis ∧
      (p.calcTrq w).linAxis = p.linAxis ∧ (p.calcTrq w).getVel = p.getVel := by
  cases p <;>
    (refine ⟨rfl, ?_, ?_, rfl⟩ <;> funext i f <;> rcases i with _ | _ | _ | _ | _ | _ | i <;> rfl)

theorem jacKey_setVel (l l' : Link K) (buf : List K) (h : l.setWith Prp.setVel buf = some l') :
    jacKey l' = jacKey l := by
  obtain ⟨p, hp, rfl⟩ := LinkArray.setWith_eq_some.1 h
  obtain ⟨h1, h2, h3⟩ := axes_setVel hp
  simp only [jacKey, Link.size, h1, h2, h3]

theorem jacKey_setAcc (l l' : Link K) (buf : List K) (h : l.setWith Prp.setAcc buf = some l') :
    (jacKey l', l'.joint.prp.getVel) = (jacKey l, l.joint.prp.getVel) := by
  obtain ⟨p, hp, rfl⟩ := LinkArray.setWith_eq_some.1 h
  obtain ⟨h1, h2, h3⟩ := axes_setAcc hp
  simp only [jacKey, Link.size, h1, h2, h3, LinkArray.setAcc_getVel _ _ _ hp]

/-- The links of a chain before and after inverse dynamics with the velocities `q`. -/
structure RateState (c1 c2 : Chain K) (q : List K) (T : LTree (Link K)) : Prop where
  shape : c2.shape = c1.shape
  length : c2.link.length = c1.link.length
  gather : Chain.gather c2.link c2.shape = some T
  wf : c2.WF
  frameOK : T.FrameOK Frame.ident
  velOK : T.VelOK 0
  rot : ∀ l ∈ T.toList, l.body.frame.att.IsRot
  key : c2.link.map jacKey = c1.link.map jacKey
  vel : ∀ (i : ℕ) (l : Link K), c2.link[i]? = some l → ∀ k < l.size,
    q.getD (l.offset.toNat + k) 0 = l.joint.prp.getVel.getD k 0

theorem getD_take_drop (v : List K) (a n k : ℕ) (h : k < n) (x : K) :
    ((v.drop a).take n).getD k x = v.getD (a + k) x := by
  simp only [List.getD_eq_getElem?_getD, List.getElem?_take, h, if_true, List.getElem?_drop]

end Roki
