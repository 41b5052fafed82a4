import Verif.Lemmas.VirtualWork4
import Verif.Lemmas.ChainFile5

/-! # Components of the joint torques -/

namespace Roki
set_option autoImplicit false
set_option linter.unusedSectionVars false
open Spec LinkArray
variable {K : Type*} [Field K]

theorem offsets_of_sizes {l1 l2 : List (Link K)} (h : l1.map (fun l : Link K => (l.offset, l.size)) =
    l2.map (fun l => (l.offset, l.size))) (s : ℕ) (hs : OffsetsFrom s l2) :
    OffsetsFrom s l1 ∧ sizes l1 = sizes l2 := by
  induction l1 generalizing l2 s with
  | nil => cases l2 <;> simp_all [OffsetsFrom, setOffsetFrom]
  | cons a l1 ih =>
    rcases l2 with _ | ⟨b, l2⟩
    · simp at h
    · simp only [List.map_cons, List.cons.injEq, Prod.mk.injEq] at h
      obtain ⟨⟨ha, hb⟩, ht⟩ := h
      obtain ⟨k1, k2⟩ := offsetsFrom_cons.1 hs
      obtain ⟨i1, i2⟩ := ih ht (s + b.size) k2
      refine ⟨offsetsFrom_cons.2 ⟨?_, ?_⟩, by rw [sizes_cons, sizes_cons, i2, hb]⟩
      · rw [ha, k1, offsetAt, offsetAt, hb]
      · rw [hb]; exact i1

/-- Forward kinematics poses a chain. -/
theorem posed_of_fk {c c1 : Chain K} (h : c.WF) (hr : ∀ l ∈ c.link, l.org.att.IsRot ∧ l.joint.prp.WF)
    (ho : setOffset c.link = c.link) (h1 : c.updateFK = some c1) :
    Posed c1 ∧ jointSize c1.link = jointSize c.link := by
  obtain ⟨T, -, hg, hw, -⟩ := h.updateFK h1
  have e : c1.link.map (fun l : Link K => (l.offset, l.size)) = c.link.map fun l => (l.offset, l.size) :=
    (ZTK.updateFK_map _ (fun _ _ => rfl) h1).1
  obtain ⟨o, z⟩ := offsets_of_sizes e 0 ho
  refine ⟨⟨hw, o, fun l hl => (C06_fk_rotation c c1 h h1 hr l hl).1, _, hg, LTree.frameOK_updateFrame _ _⟩, ?_⟩
  rw [jointSize_eq, jointSize_eq, z]

theorem statics_withExt (e : ℕ → WrenchList K) (c : Chain K) :
    (withExt e c).link.map statics = c.link.map statics := by
  apply List.ext_getElem?
  intro i
  simp only [withExt, List.getElem?_map, List.getElem?_mapIdx, Option.map_map]
  rfl

theorem Posed.withExt {c1 : Chain K} (h : Posed c1) (e : ℕ → WrenchList K) : Posed (withExt e c1) := by
  have hlen : (Spec.withExt e c1).link.length = c1.link.length := by simp [Spec.withExt]
  have hw : (Spec.withExt e c1).WF := h.wf.with_link hlen
  have hs := statics_withExt e c1
  refine ⟨hw, (offsets_of_statics hs 0 h.off).1, ?_, ?_⟩
  · intro l hl
    obtain ⟨i, hi⟩ := List.mem_iff_getElem?.1 hl
    have hi' : i < c1.link.length := by rw [← hlen]; exact (List.getElem?_eq_some_iff.1 hi).1
    have := forall_zip_statics hs hi (List.getElem?_eq_getElem hi')
    rw [(statics_iff.1 this).2.2.2.1]
    exact h.rot _ (List.getElem_mem hi')
  · obtain ⟨T0, hT0, hF⟩ := h.frame
    obtain ⟨T, hT⟩ := Chain.gather_exists (ls := (Spec.withExt e c1).link) (t := c1.shape)
      (fun i hi => hw.mem.1 hi)
    refine ⟨T, hT, LTree.frameOK_congr ?_ hF⟩
    have e := Chain.gather_map_eq hT hT0 statics hs
    have := congrArg (LTree.map fun s => (s.2.2.2.1, s.2.2.1)) e
    simpa [LTree.map_map, Function.comp_def, statics] using this.symm

theorem jointSize_withExt (e : ℕ → WrenchList K) {c : Chain K} (ho : setOffset c.link = c.link) :
    jointSize (withExt e c).link = jointSize c.link := by
  rw [jointSize_eq, jointSize_eq, (offsets_of_statics (statics_withExt e c) 0 ho).2]

/-- The torques of inverse dynamics on every virtual motion. -/
theorem Posed.work {c1 d1 : Chain K} (h : Posed c1) (hd : Posed d1)
    (hs : c1.link.map statics = d1.link.map statics) (hsh : d1.shape = c1.shape) {g : Vec6 K} {v a : List K}
    (hv : v.length = jointSize c1.link) (ha : a.length = jointSize c1.link) :
    ∃ c2 ls T τ, c1.invDyn g v a = some c2 ∧ IDRun c1 c2 g v a ls T ∧ idTorque g v a c1 = some τ ∧
      τ.length = jointSize c1.link ∧
      ∀ {g' : Vec6 K} {u b : List K} {d2 : Chain K}, u.length = jointSize d1.link →
        b.length = jointSize d1.link → d1.invDyn g' u b = some d2 →
        Spec.work τ u = (List.zipWith inertialWork c2.link d2.link).sum -
          (List.zipWith extWork c2.link d2.link).sum := by
  obtain ⟨c2, h2⟩ := h.invDyn g hv ha
  obtain ⟨ls, T, r⟩ := h.run hv ha h2
  obtain ⟨e1, e2⟩ := r.torques h
  refine ⟨c2, ls, T, _, h2, r, by rw [idTorque, h2]; exact e1, e2, ?_⟩
  intro g' u b d2 hu hb hd2
  obtain ⟨ms, U, r'⟩ := hd.run hu hb hd2
  obtain ⟨τ, t1, -, t3⟩ := virtual_work h r r' hs hsh
  rw [e1, Option.some.injEq] at t1
  subst t1
  exact t3

/-! ## Components -/

/-- The joint velocities with one unit component. -/
def unitVec (n k : ℕ) : List K := (List.replicate n 0).set k 1

theorem unitVec_length (n k : ℕ) : (unitVec n k : List K).length = n := by simp [unitVec]

theorem unitVec_getD (n k j : ℕ) (hk : k < n) :
    (unitVec n k : List K).getD j 0 = if j = k then 1 else 0 := by
  simp only [unitVec, List.getD_eq_getElem?_getD, List.getElem?_set, List.getElem?_replicate,
    List.length_replicate]
  by_cases h : j = k
  · subst h; simp [hk]
  · rw [if_neg (fun e => h e.symm), if_neg h]
    by_cases h' : j < n
    · rw [if_pos h']; rfl
    · rw [if_neg h']; rfl

theorem work_eq_sum {n : ℕ} {x y : List K} (hx : x.length = n) (hy : y.length = n) :
    work x y = ∑ j ∈ Finset.range n, x.getD j 0 * y.getD j 0 := by
  induction n generalizing x y with
  | zero =>
    rw [List.length_eq_zero_iff.1 hx]; simp [work]
  | succ n ih =>
    rcases x with _ | ⟨a, x⟩
    · simp at hx
    rcases y with _ | ⟨b, y⟩
    · simp at hy
    rw [Finset.sum_range_succ', ← (by simpa using ih (x := x) (y := y) (by simpa using hx) (by simpa using hy) :
      work x y = ∑ j ∈ Finset.range n, (a :: x).getD (j + 1) 0 * (b :: y).getD (j + 1) 0)]
    simp [work, add_comm]

theorem work_unitVec {n k : ℕ} {x : List K} (hx : x.length = n) (hk : k < n) :
    work x (unitVec n k) = x.getD k 0 := by
  rw [work_eq_sum hx (unitVec_length n k)]
  simp only [unitVec_getD n k _ hk, mul_ite, mul_one, mul_zero]
  rw [Finset.sum_ite_eq' (Finset.range n) k (fun j => x.getD j 0), if_pos (Finset.mem_range.2 hk)]

theorem jacMul_eq_sum {n : ℕ} {J : List (Vec3 K)} {x : List K} (hJ : J.length = n) (hx : x.length = n) :
    jacMul J x = ∑ j ∈ Finset.range n, x.getD j 0 • J.getD j 0 := by
  induction n generalizing x J with
  | zero =>
    rw [List.length_eq_zero_iff.1 hx]; simp [jacMul]
  | succ n ih =>
    rcases x with _ | ⟨a, x⟩
    · simp at hx
    rcases J with _ | ⟨b, J⟩
    · simp at hJ
    rw [Finset.sum_range_succ', ← (by simpa using ih (x := x) (J := J) (by simpa using hJ) (by simpa using hx) :
      jacMul J x = ∑ j ∈ Finset.range n, (a :: x).getD (j + 1) 0 • (b :: J).getD (j + 1) 0)]
    simp [jacMul, add_comm]

theorem jacMul_unitVec {n k : ℕ} {J : List (Vec3 K)} (hJ : J.length = n) (hk : k < n) :
    jacMul J (unitVec n k) = J.getD k 0 := by
  rw [jacMul_eq_sum hJ (unitVec_length n k)]
  simp only [unitVec_getD n k _ hk, ite_smul, one_smul, zero_smul]
  rw [Finset.sum_ite_eq' (Finset.range n) k (fun j => J.getD j 0), if_pos (Finset.mem_range.2 hk)]

theorem zipWith_sum_range {α β M : Type*} [AddCommMonoid M] {f : α → β → M} {F : ℕ → M} {l1 : List α}
    {l2 : List β} (hl : l1.length = l2.length)
    (h : ∀ (i : ℕ) (a : α) (b : β), l1[i]? = some a → l2[i]? = some b → f a b = F i) :
    (List.zipWith f l1 l2).sum = ∑ i ∈ Finset.range l1.length, F i := by
  induction l1 generalizing l2 F with
  | nil => simp
  | cons a l1 ih =>
    rcases l2 with _ | ⟨b, l2⟩
    · simp at hl
    rw [List.zipWith_cons_cons, List.sum_cons, List.length_cons, Finset.sum_range_succ',
      ih (by simpa using hl) (F := fun i => F (i + 1)) (fun i x y hx hy => h (i + 1) x y hx hy),
      h 0 a b rfl rfl, add_comm]

end Roki
