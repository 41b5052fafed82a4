import Verif.Props.IKEq
import Mathlib.Algebra.Order.BigOperators.Ring.Finset
import Mathlib.Algebra.Order.BigOperators.Group.Finset
import Mathlib.LinearAlgebra.Matrix.ToLinearEquiv
import Mathlib.LinearAlgebra.Matrix.NonsingularInverse
import Mathlib.Tactic.Linarith
import Mathlib.Tactic.LinearCombination
set_option autoImplicit false

/-!
# C58: what the default method for the joint velocities computes

`rkIKJointVelAD` solves a weighted least-squares problem with a damping that grows with the error.
-/

namespace Roki
open LinkArray
open Finset (range)
variable {K : Type*} [Field K] [LinearOrder K]

namespace Spec
/-- The elimination of ZM: an answer solves the equation, and there is always one unless the matrix is singular. -/
structure Gauss (gauss : ℕ → (ℕ → ℕ → K) → (ℕ → K) → Option (ℕ → K)) : Prop where
  sound : ∀ n m v x, gauss n m v = some x → ∀ i < n, ∑ j ∈ range n, m i j * x j = v i
  complete : ∀ n m v, gauss n m v = none → ∃ z : ℕ → K, (∃ i < n, z i ≠ 0) ∧ ∀ i < n, ∑ j ∈ range n, m i j * z j = 0

/-- The coefficient of the equation in row `k` for component `j`. -/
def ikCoef (M : List (List K)) (k j : ℕ) : K := (M.getD k []).getD j 0

/-- The squared error of the equation `M x = s` with row weights `w`. -/
def ikMiss (M : List (List K)) (s w : List K) (n : ℕ) (x : ℕ → K) : K :=
  ∑ k ∈ range M.length, w.getD k 0 * (∑ j ∈ range n, ikCoef M k j * x j - s.getD k 0) ^ 2

/-- The damping of component `i`: the weight of the joint plus the squared weighted error. -/
def ikDamp (s w wn : List K) (i : ℕ) : K := wn.getD i 0 + ∑ k ∈ range s.length, w.getD k 0 * s.getD k 0 ^ 2

/-- What the velocities should minimise: the squared error of the equation plus the damped squared velocities. -/
def ikCost (M : List (List K)) (s w wn : List K) (n : ℕ) (x : ℕ → K) : K :=
  ikMiss M s w n x + ∑ i ∈ range n, ikDamp s w wn i * x i ^ 2
end Spec

omit [LinearOrder K] in
theorem zipWith_sum {α β : Type*} (f : α → β → K) (a0 : α) (b0 : β) (a : List α) :
    ∀ b : List β, b.length = a.length → (List.zipWith f a b).sum = ∑ k ∈ range a.length, f (a.getD k a0) (b.getD k b0) := by
  induction a with
  | nil => intro b _; simp
  | cons x a ih =>
    intro b hb
    cases b with
    | nil => simp at hb
    | cons y b =>
      rw [List.zipWith_cons_cons, List.sum_cons, ih b (by simpa using hb), List.length_cons, Finset.sum_range_succ']
      simp [add_comm]

omit [LinearOrder K] in
theorem getD_zipWith_mul (a b : List K) (k : ℕ) (h : b.length = a.length) :
    (List.zipWith (fun a b => a * b) a b).getD k 0 = a.getD k 0 * b.getD k 0 := by
  by_cases hk : k < a.length
  · simp [List.getD_eq_getElem?_getD, hk, h]
  · simp [List.getD_eq_getElem?_getD, List.getElem?_eq_none, not_lt.1 hk, h]

section
variable (M : List (List K)) (s w wn v0 : List K)

/-- The matrix of the normal equation. -/
def normalMat (i j : ℕ) : K :=
  (∑ k ∈ range M.length, w.getD k 0 * (Spec.ikCoef M k i * Spec.ikCoef M k j)) + if i = j then Spec.ikDamp s w wn i else 0

/-- The right-hand side of the normal equation. -/
def normalVec (j : ℕ) : K := ∑ k ∈ range M.length, w.getD k 0 * (Spec.ikCoef M k j * s.getD k 0)

omit [LinearOrder K] in
theorem jointVelAD_eq (gauss : ℕ → (ℕ → ℕ → K) → (ℕ → K) → Option (ℕ → K)) (hs : s.length = M.length) (hw : w.length = M.length) :
    IK.jointVelAD gauss M s wn w v0 =
      (gauss v0.length (normalMat M s w wn) (normalVec M s w)).getD (fun i => v0.getD i 0) := by
  have h1 : (List.zipWith (fun a b => a * b) s w).length = M.length := by simp [hs, hw]
  have hm : ∀ i j, (List.zipWith (fun (r : List K) w => r.getD i 0 * w * r.getD j 0) M w).sum =
      ∑ k ∈ range M.length, w.getD k 0 * (Spec.ikCoef M k i * Spec.ikCoef M k j) := by
    intro i j
    rw [zipWith_sum _ [] 0 M w hw]
    exact Finset.sum_congr rfl fun k _ => by simp only [Spec.ikCoef]; ring
  have hv : ∀ j, (List.zipWith (fun (r : List K) c => r.getD j 0 * c) M (List.zipWith (fun a b => a * b) s w)).sum =
      normalVec M s w j := by
    intro j
    rw [zipWith_sum _ [] 0 M _ h1]
    refine Finset.sum_congr rfl fun k _ => ?_
    rw [getD_zipWith_mul s w k (by rw [hw, hs])]
    simp only [Spec.ikCoef]; ring
  have he : (List.zipWith (fun a b => a * b) s (List.zipWith (fun a b => a * b) s w)).sum =
      ∑ k ∈ range s.length, w.getD k 0 * s.getD k 0 ^ 2 := by
    rw [zipWith_sum _ 0 0 s _ (by rw [h1, hs])]
    refine Finset.sum_congr rfl fun k _ => ?_
    rw [getD_zipWith_mul s w k (by rw [hw, hs])]; ring
  simp only [IK.jointVelAD, hm, hv, he]
  congr 2
  funext i j
  simp only [normalMat, Spec.ikDamp]
  split_ifs with h
  · rfl
  · rw [add_zero]

omit [LinearOrder K] in
/-- The difference of the costs of two velocities. -/
theorem cost_diff (n : ℕ) (x y : ℕ → K)
    (hx : ∀ i < n, ∑ j ∈ range n, normalMat M s w wn i j * x j = normalVec M s w i) :
    Spec.ikCost M s w wn n y = Spec.ikCost M s w wn n x +
      ((∑ k ∈ range M.length, w.getD k 0 * (∑ j ∈ range n, Spec.ikCoef M k j * (y j - x j)) ^ 2) +
        ∑ i ∈ range n, Spec.ikDamp s w wn i * (y i - x i) ^ 2) := by
  have key : ∑ i ∈ range n, (y i - x i) * (∑ j ∈ range n, normalMat M s w wn i j * x j - normalVec M s w i) = 0 :=
    Finset.sum_eq_zero fun i hi => by rw [hx i (Finset.mem_range.1 hi), sub_self, mul_zero]
  have e1 : ∑ i ∈ range n, (y i - x i) * (∑ j ∈ range n, normalMat M s w wn i j * x j - normalVec M s w i) =
      (∑ k ∈ range M.length, w.getD k 0 * ((∑ i ∈ range n, Spec.ikCoef M k i * (y i - x i)) *
        (∑ j ∈ range n, Spec.ikCoef M k j * x j - s.getD k 0))) +
      ∑ i ∈ range n, Spec.ikDamp s w wn i * (y i - x i) * x i := by
    have a1 : ∀ i ∈ range n, (y i - x i) * (∑ j ∈ range n, normalMat M s w wn i j * x j - normalVec M s w i) =
        (∑ k ∈ range M.length, w.getD k 0 * (Spec.ikCoef M k i * (y i - x i) *
          (∑ j ∈ range n, Spec.ikCoef M k j * x j - s.getD k 0))) + Spec.ikDamp s w wn i * (y i - x i) * x i := by
      intro i hi
      have b1 : ∑ j ∈ range n, normalMat M s w wn i j * x j =
          (∑ k ∈ range M.length, w.getD k 0 * Spec.ikCoef M k i * ∑ j ∈ range n, Spec.ikCoef M k j * x j) +
            Spec.ikDamp s w wn i * x i := by
        simp only [normalMat, add_mul, Finset.sum_add_distrib, ite_mul, zero_mul, Finset.sum_ite_eq, hi, if_true,
          Finset.sum_mul, Finset.mul_sum]
        rw [Finset.sum_comm]
        congr 1
        exact Finset.sum_congr rfl fun k _ => Finset.sum_congr rfl fun j _ => by ring
      rw [b1, normalVec, mul_sub, mul_add, Finset.mul_sum, Finset.mul_sum, add_sub_right_comm, ← Finset.sum_sub_distrib]
      congr 1
      · exact Finset.sum_congr rfl fun k _ => by ring
      · ring
    rw [Finset.sum_congr rfl a1, Finset.sum_add_distrib, Finset.sum_comm]
    congr 1
    refine Finset.sum_congr rfl fun k _ => ?_
    rw [Finset.sum_mul, Finset.mul_sum]
  have e2 : Spec.ikMiss M s w n y = Spec.ikMiss M s w n x +
      ((∑ k ∈ range M.length, w.getD k 0 * (∑ j ∈ range n, Spec.ikCoef M k j * (y j - x j)) ^ 2) +
       2 * ∑ k ∈ range M.length, w.getD k 0 * ((∑ i ∈ range n, Spec.ikCoef M k i * (y i - x i)) *
        (∑ j ∈ range n, Spec.ikCoef M k j * x j - s.getD k 0))) := by
    simp only [Spec.ikMiss, Finset.mul_sum (range M.length), ← Finset.sum_add_distrib]
    refine Finset.sum_congr rfl fun k _ => ?_
    have : ∑ j ∈ range n, Spec.ikCoef M k j * (y j - x j) =
        (∑ j ∈ range n, Spec.ikCoef M k j * y j) - ∑ j ∈ range n, Spec.ikCoef M k j * x j := by
      rw [← Finset.sum_sub_distrib]
      exact Finset.sum_congr rfl fun j _ => by ring
    rw [this]; ring
  have e3 : ∑ i ∈ range n, Spec.ikDamp s w wn i * y i ^ 2 = (∑ i ∈ range n, Spec.ikDamp s w wn i * x i ^ 2) +
      ((∑ i ∈ range n, Spec.ikDamp s w wn i * (y i - x i) ^ 2) +
        2 * ∑ i ∈ range n, Spec.ikDamp s w wn i * (y i - x i) * x i) := by
    simp only [Finset.mul_sum (range n), ← Finset.sum_add_distrib]
    exact Finset.sum_congr rfl fun i _ => by ring
  rw [e1] at key
  simp only [Spec.ikCost]
  rw [e2, e3]
  linear_combination 2 * key

variable [IsStrictOrderedRing K]

theorem damp_pos (hw : ∀ k < s.length, 0 ≤ w.getD k 0) {i : ℕ} (hn : 0 < wn.getD i 0) : 0 < Spec.ikDamp s w wn i :=
  add_pos_of_pos_of_nonneg hn (Finset.sum_nonneg fun k hk => mul_nonneg (hw k (Finset.mem_range.1 hk)) (sq_nonneg _))

/-- With positive joint weights the elimination succeeds. -/
theorem normal_regular (n : ℕ) (hs : s.length = M.length) (hw : ∀ k < M.length, 0 ≤ w.getD k 0)
    (hn : ∀ i < n, 0 < wn.getD i 0) (z : ℕ → K)
    (hz : ∀ i < n, ∑ j ∈ range n, normalMat M s w wn i j * z j = 0) : ∀ i < n, z i = 0 := by
  have h0 : (∑ k ∈ range M.length, w.getD k 0 * (∑ j ∈ range n, Spec.ikCoef M k j * z j) ^ 2) +
      ∑ i ∈ range n, Spec.ikDamp s w wn i * z i ^ 2 = 0 := by
    have key : ∑ i ∈ range n, z i * ∑ j ∈ range n, normalMat M s w wn i j * z j = 0 :=
      Finset.sum_eq_zero fun i hi => by rw [hz i (Finset.mem_range.1 hi), mul_zero]
    have b1 : ∀ i ∈ range n, z i * ∑ j ∈ range n, normalMat M s w wn i j * z j =
        (∑ k ∈ range M.length, w.getD k 0 * ((Spec.ikCoef M k i * z i) * ∑ j ∈ range n, Spec.ikCoef M k j * z j)) +
          Spec.ikDamp s w wn i * z i ^ 2 := by
      intro i hi
      simp only [normalMat, add_mul, Finset.sum_add_distrib, ite_mul, zero_mul, Finset.sum_ite_eq, hi, if_true,
        Finset.sum_mul, Finset.mul_sum, mul_add]
      rw [Finset.sum_comm]
      congr 1
      · exact Finset.sum_congr rfl fun k _ => Finset.sum_congr rfl fun j _ => by ring
      · ring
    rw [Finset.sum_congr rfl b1, Finset.sum_add_distrib, Finset.sum_comm] at key
    refine Eq.trans ?_ key
    congr 1
    refine Finset.sum_congr rfl fun k _ => ?_
    rw [← Finset.mul_sum, ← Finset.sum_mul, sq]
  have hnn : 0 ≤ ∑ k ∈ range M.length, w.getD k 0 * (∑ j ∈ range n, Spec.ikCoef M k j * z j) ^ 2 :=
    Finset.sum_nonneg fun k hk => mul_nonneg (hw k (Finset.mem_range.1 hk)) (sq_nonneg _)
  have hd : ∀ i ∈ range n, 0 ≤ Spec.ikDamp s w wn i * z i ^ 2 := fun i hi =>
    mul_nonneg (damp_pos s w wn (by rw [hs]; exact hw) (hn i (Finset.mem_range.1 hi))).le (sq_nonneg _)
  have h1 : ∑ i ∈ range n, Spec.ikDamp s w wn i * z i ^ 2 = 0 :=
    le_antisymm (by linarith) (Finset.sum_nonneg hd)
  intro i hi
  have := (Finset.sum_eq_zero_iff_of_nonneg hd).1 h1 i (Finset.mem_range.2 hi)
  rcases mul_eq_zero.1 this with h | h
  · exact absurd h (damp_pos s w wn (by rw [hs]; exact hw) (hn i hi)).ne'
  · exact pow_eq_zero_iff (two_ne_zero) |>.1 h

/-- The velocities of the default method solve the normal equation. -/
theorem jointVelAD_normal {gauss : ℕ → (ℕ → ℕ → K) → (ℕ → K) → Option (ℕ → K)} (hg : Spec.Gauss gauss)
    (hs : s.length = M.length) (hlw : w.length = M.length) (hw : ∀ k < M.length, 0 ≤ w.getD k 0)
    (hn : ∀ i < v0.length, 0 < wn.getD i 0) : ∀ i < v0.length,
      ∑ j ∈ range v0.length, normalMat M s w wn i j * IK.jointVelAD gauss M s wn w v0 j = normalVec M s w i := by
  rw [jointVelAD_eq M s w wn v0 gauss hs hlw]
  cases hgs : gauss v0.length (normalMat M s w wn) (normalVec M s w) with
  | none =>
    obtain ⟨z, ⟨i, hi, hzi⟩, hz⟩ := hg.complete _ _ _ hgs
    exact absurd (normal_regular M s w wn v0.length hs hw hn z hz i hi) hzi
  | some x => exact hg.sound _ _ _ _ hgs
end

variable [IsStrictOrderedRing K]

/-- **C58** The velocities computed by the default method are the unique minimum of the squared weighted error of the
constraint equation plus the squared velocities, each weighted by the weight of its joint plus the squared weighted
error; in particular, the elimination never fails as long as the joint weights are positive. -/
theorem C58_minimum {gauss : ℕ → (ℕ → ℕ → K) → (ℕ → K) → Option (ℕ → K)} (hg : Spec.Gauss gauss)
    (M : List (List K)) (s w wn v0 : List K) (hs : s.length = M.length) (hlw : w.length = M.length)
    (hw : ∀ k < M.length, 0 ≤ w.getD k 0) (hn : ∀ i < v0.length, 0 < wn.getD i 0) (y : ℕ → K) :
    Spec.ikCost M s w wn v0.length (IK.jointVelAD gauss M s wn w v0) ≤ Spec.ikCost M s w wn v0.length y ∧
    (Spec.ikCost M s w wn v0.length y ≤ Spec.ikCost M s w wn v0.length (IK.jointVelAD gauss M s wn w v0) →
      ∀ i < v0.length, y i = IK.jointVelAD gauss M s wn w v0 i) := by
  have hx := jointVelAD_normal M s w wn v0 hg hs hlw hw hn
  have e := cost_diff M s w wn v0.length _ y hx
  have h1 : 0 ≤ ∑ k ∈ range M.length, w.getD k 0 *
      (∑ j ∈ range v0.length, Spec.ikCoef M k j * (y j - IK.jointVelAD gauss M s wn w v0 j)) ^ 2 :=
    Finset.sum_nonneg fun k hk => mul_nonneg (hw k (Finset.mem_range.1 hk)) (sq_nonneg _)
  have hd : ∀ i ∈ range v0.length, 0 ≤ Spec.ikDamp s w wn i * (y i - IK.jointVelAD gauss M s wn w v0 i) ^ 2 := fun i hi =>
    mul_nonneg (damp_pos s w wn (by rw [hs]; exact hw) (hn i (Finset.mem_range.1 hi))).le (sq_nonneg _)
  have h2 := Finset.sum_nonneg hd
  refine ⟨by linarith, fun hle i hi => ?_⟩
  have h3 : ∑ i ∈ range v0.length, Spec.ikDamp s w wn i * (y i - IK.jointVelAD gauss M s wn w v0 i) ^ 2 = 0 :=
    le_antisymm (by linarith) h2
  have := (Finset.sum_eq_zero_iff_of_nonneg hd).1 h3 i (Finset.mem_range.2 hi)
  rcases mul_eq_zero.1 this with h | h
  · exact absurd h (damp_pos s w wn (by rw [hs]; exact hw) (hn i hi)).ne'
  · exact sub_eq_zero.1 (pow_eq_zero_iff (two_ne_zero) |>.1 h)

/-- **C58** If all constraints are met, the default method gives the velocity zero. -/
theorem C58_rest {gauss : ℕ → (ℕ → ℕ → K) → (ℕ → K) → Option (ℕ → K)} (hg : Spec.Gauss gauss)
    (M : List (List K)) (s w wn v0 : List K) (hs : s.length = M.length) (hlw : w.length = M.length)
    (hw : ∀ k < M.length, 0 ≤ w.getD k 0) (hn : ∀ i < v0.length, 0 < wn.getD i 0) (h0 : ∀ x ∈ s, x = 0) :
    ∀ i < v0.length, IK.jointVelAD gauss M s wn w v0 i = 0 := by
  have hx := jointVelAD_normal M s w wn v0 hg hs hlw hw hn
  refine normal_regular M s w wn v0.length hs hw hn _ fun i hi => ?_
  rw [hx i hi, normalVec]
  refine Finset.sum_eq_zero fun k _ => ?_
  have : s.getD k 0 = 0 := by
    rw [List.getD_eq_getElem?_getD]
    cases h : s[k]? with
    | none => rfl
    | some a => exact h0 a (List.mem_of_getElem? h)
  rw [this, mul_zero, mul_zero]

omit [LinearOrder K] [IsStrictOrderedRing K] in
theorem weights_mem (ls : List (Link K)) (w : List K) (idx : List ℕ) : ∀ {wn : List K}, IK.weights ls w idx = some wn →
    ∀ x ∈ wn, ∃ i ∈ idx, w[i]? = some x := by
  induction idx with
  | nil => intro wn h x hx; simp only [IK.weights, Option.some.injEq] at h; rw [← h] at hx; simp at hx
  | cons i idx ih =>
    intro wn h x hx
    simp only [IK.weights, Option.bind_eq_bind, Option.bind_eq_some_iff, pure, Option.some.injEq] at h
    obtain ⟨l, hl, y, hy, r, hr, rfl⟩ := h
    rcases List.mem_append.1 hx with h | h
    · rw [List.mem_replicate] at h
      exact ⟨i, by simp, by rw [hy, h.2]⟩
    · obtain ⟨j, hj, e⟩ := ih hr x h
      exact ⟨j, List.mem_cons_of_mem _ hj, e⟩

omit [LinearOrder K] [IsStrictOrderedRing K] in
theorem Spec.ikCost_congr (M : List (List K)) (s w wn : List K) {n : ℕ} {x y : ℕ → K} (h : ∀ i ∈ range n, x i = y i) :
    Spec.ikCost M s w wn n x = Spec.ikCost M s w wn n y := by
  simp only [Spec.ikCost, Spec.ikMiss]
  congr 1
  · refine Finset.sum_congr rfl fun k _ => ?_
    congr 3
    exact Finset.sum_congr rfl fun i hi => by rw [h i hi]
  · exact Finset.sum_congr rfl fun i hi => by rw [h i hi]

/-- `rkIKSolveRate` after any history of calls on a solver: its velocities are those of
the method for the equation that `rkIKEq` set up, with weights of the right signs. -/
theorem solveRate_data [Zm K] [ZSqrt K]
    (c : Chain K) (jv : List (List K) → List K → List K → List K → List K → ℕ → K)
    (ho : setOffset c.link = c.link) (ops : List (IK.Op K)) (hs : ∀ o ∈ ops, o.Sized) (ik ik' : IK K)
    (h : (IK.create c jv).runAll ops = some ik) (hne : ik.clist ≠ [])
    (hreg : ∃ i, (Spec.ikJoints c.link ops i).isSome) (he : ik.solveRate = some ik')
    (hcw : ∀ x ∈ ik.clist, 0 ≤ x.attr.w.x ∧ 0 ≤ x.attr.w.y ∧ 0 ≤ x.attr.w.z) 
    (hjw : ∀ i x, Spec.ikJoints c.link ops i = some x → 0 < x) :
    ∃ q M, ik.eq = some q ∧ q.cmat = some M ∧ ik'.jvel.length = ik.jvel.length ∧ q.jvel.length = ik'.jvel.length ∧
      (q.csrv.take q.rows).length = (M.take q.rows).length ∧ (q.cwe.take q.rows).length = (M.take q.rows).length ∧
      (∀ k < (M.take q.rows).length, 0 ≤ (q.cwe.take q.rows).getD k 0) ∧ (∀ i < q.jvel.length, 0 < q.jwn.getD i 0) ∧
      ∀ i ∈ range q.jvel.length, ik'.jvel.getD i 0 =
        ik.jv (M.take q.rows) (q.csrv.take q.rows) q.jwn (q.cwe.take q.rows) q.jvel i := by
  have hj := IK.runAll_joints ops (IK.Joints.create c jv) h
  change IK.Joints c.link (Spec.ikJoints c.link ops) ik at hj
  have hb := IK.runAll_bufs ho ops (IK.Joints.create c jv) (IK.Bufs.create c _) hs h
  obtain ⟨⟨q, M, h1, hM, h2⟩, _⟩ := C40_velocity c _ ho ops ik ik' h hreg he
  obtain ⟨bs, hbs, hr, hev, M', hM', hrows⟩ := C40_equation c _ ho ops hs ik q h hne h1
  rw [hM] at hM'
  cases hM'
  obtain ⟨bs2, ys2, hbs2⟩ := IK.blocks_of_eq h1
  obtain ⟨q', e1, hc, hr', hev', wr, f⟩ := IK.eq_spec hj ho hb hne hbs2
  rw [h1] at e1
  cases e1
  obtain ⟨M2, hM2, hlM, hrow, _⟩ := wr.mat
  rw [hM] at hM2
  cases hM2
  have hle : q.rows ≤ ik.clist.length * 3 := by rw [hr]; exact hbs.after.2
  have hjq : q.jv = ik.jv := by rw [f]
  have hjl : q.jvel = ik.jvel := by rw [f]
  have hwn : q.jwn = ik.jwn := by rw [f]
  have henv := hj.env ho
  obtain ⟨i0, hi0⟩ := hreg
  have hlen := (hj.idx ⟨i0, (henv.sw i0).1 hi0⟩).2.2.2
  rw [hjq] at h2
  have hl' : ik'.jvel.length = q.jvel.length := by rw [h2]; simp
  have hlt : (M.take q.rows).length = q.rows := by rw [List.length_take]; omega
  have l1 : (q.csrv.take q.rows).length = (M.take q.rows).length := by
    rw [hlt, List.length_take, wr.lsrv]; omega
  have l2 : (q.cwe.take q.rows).length = (M.take q.rows).length := by
    rw [hlt, List.length_take, wr.lwe]; omega
  have hmemcell : ∀ {c' : Chain K} {m0 cs bs ys}, Spec.IkBlocks c' m0 cs bs ys → ∀ b ∈ bs, b.cell ∈ cs := by
    intro c' m0 cs bs ys hb
    induction hb with
    | nil => simp
    | off _ _ ih => intro b hb; exact List.mem_cons_of_mem _ (ih b hb)
    | on _ _ _ _ ih =>
      intro b hb
      rcases List.mem_cons.1 hb with rfl | hb
      · simp
      · exact List.mem_cons_of_mem _ (ih b hb)
  refine ⟨q, M, h1, hM, by rw [hl', hjl], hl'.symm, l1, l2, ?_, ?_, ?_⟩
  · intro k hk
    rw [hlt, hr] at hk
    obtain ⟨⟨b, s⟩, hbk⟩ : ∃ p, (Spec.ikRows bs)[k]? = some p := ⟨_, List.getElem?_eq_getElem hk⟩
    obtain ⟨row, e, _, _, _, _, hwk⟩ := hrows k b s hbk
    rw [List.getD_eq_getElem?_getD, List.getElem?_take_of_lt (by rw [hr]; exact hk), hwk]
    have hbm : b ∈ bs := by
      have := List.mem_of_getElem? hbk
      simp only [Spec.ikRows, List.mem_flatMap, List.mem_map, Prod.mk.injEq] at this
      obtain ⟨b', hb', _, _, rfl, _⟩ := this
      exact hb'
    obtain ⟨a1, a2, a3⟩ := hcw _ (hmemcell hbs b hbm)
    simp only [Option.getD_some, Vec3.get]
    split <;> assumption
  · intro i hi
    rw [hwn]
    rw [hjl, hlen] at hi
    rw [List.getD_eq_getElem?_getD, List.getElem?_eq_getElem hi]
    obtain ⟨j, hj1, hj2⟩ := weights_mem _ _ _ (hj.idx ⟨i0, (henv.sw i0).1 hi0⟩).2.2.1 _ (List.getElem_mem hi)
    rw [IK.mem_indexFrom] at hj1
    refine hjw j _ ?_
    rw [hj.reg j, if_pos (by simpa using hj1), hj2]
    rfl
  · intro i hi
    rw [h2, List.getD_eq_getElem?_getD, List.getElem?_map, List.getElem?_range (Finset.mem_range.1 hi)]
    rfl

/-- **C58** The same for `rkIKSolveRate` after any history of calls on a solver that uses the default method: the
velocities of the registered joints minimise the cost of the equation that `rkIKEq` set up. -/
theorem C58_solveRate [Zm K] [ZSqrt K] {gauss : ℕ → (ℕ → ℕ → K) → (ℕ → K) → Option (ℕ → K)} (hg : Spec.Gauss gauss)
    (c : Chain K) (jv : List (List K) → List K → List K → List K → List K → ℕ → K)
    (ho : setOffset c.link = c.link) (ops : List (IK.Op K)) (hs : ∀ o ∈ ops, o.Sized) (ik ik' : IK K)
    (h : (IK.create c jv).runAll ops = some ik) (hne : ik.clist ≠ [])
    (hjv : ik.jv = IK.jointVelAD gauss)
    (hreg : ∃ i, (Spec.ikJoints c.link ops i).isSome) (he : ik.solveRate = some ik')
    (hcw : ∀ x ∈ ik.clist, 0 ≤ x.attr.w.x ∧ 0 ≤ x.attr.w.y ∧ 0 ≤ x.attr.w.z) 
    (hjw : ∀ i x, Spec.ikJoints c.link ops i = some x → 0 < x)
    (y : ℕ → K) :
    ∃ q M, ik.eq = some q ∧ q.cmat = some M ∧ ik'.jvel.length = ik.jvel.length ∧
      Spec.ikCost (M.take q.rows) (q.csrv.take q.rows) (q.cwe.take q.rows) q.jwn ik'.jvel.length
          (fun i => ik'.jvel.getD i 0) ≤
        Spec.ikCost (M.take q.rows) (q.csrv.take q.rows) (q.cwe.take q.rows) q.jwn ik'.jvel.length y := by
  obtain ⟨q, M, h1, hM, hl, hl', l1, l2, p1, p2, hv⟩ := solveRate_data c jv ho ops hs ik ik' h hne hreg he hcw hjw
  rw [hjv] at hv
  refine ⟨q, M, h1, hM, hl, ?_⟩
  have hmin := (C58_minimum hg (M.take q.rows) (q.csrv.take q.rows) (q.cwe.take q.rows) q.jwn q.jvel l1 l2 p1 p2 y).1
  rw [← hl', Spec.ikCost_congr _ _ _ _ hv]
  exact hmin

/-! ## The hypotheses are met -/

open Classical in
/-- An elimination that satisfies the assumption, exact over every field; on one unknown it is a division. -/
noncomputable def gaussOf {F : Type*} [Field F] [LinearOrder F] (n : ℕ) (m : ℕ → ℕ → F) (v : ℕ → F) : Option (ℕ → F) :=
  if n = 1 then (if m 0 0 = 0 then none else some fun _ => v 0 / m 0 0)
  else if h : ∃ x : ℕ → F, ∀ i < n, ∑ j ∈ range n, m i j * x j = v i then some h.choose else none

theorem gaussOf_lawful {F : Type*} [Field F] [LinearOrder F] : Spec.Gauss (gaussOf (F := F)) := by
  constructor
  · intro n m v x h i hi
    simp only [gaussOf] at h
    split_ifs at h with h1 h2 h3
    · subst h1
      cases h
      obtain rfl : i = 0 := by omega
      simp [mul_div_cancel₀ _ h2]
    · cases h
      exact h3.choose_spec i hi
  · intro n m v h
    simp only [gaussOf] at h
    split_ifs at h with h1 h2 h3
    · subst h1
      refine ⟨fun _ => 1, ⟨0, by omega, one_ne_zero⟩, fun i hi => ?_⟩
      obtain rfl : i = 0 := by omega
      simp [h2]
    · let A : Matrix (Fin n) (Fin n) F := fun i j => m i j
      have hsum : ∀ (f : ℕ → F), ∑ j ∈ range n, f j = ∑ j : Fin n, f j := fun f => (Fin.sum_univ_eq_sum_range f n).symm
      by_cases hd : A.det = 0
      · obtain ⟨z, hz0, hz⟩ := Matrix.exists_mulVec_eq_zero_iff.2 hd
        obtain ⟨i, hi⟩ := Function.ne_iff.1 hz0
        refine ⟨fun j => if hj : j < n then z ⟨j, hj⟩ else 0, ⟨i, i.2, by simpa using hi⟩, fun k hk => ?_⟩
        rw [hsum]
        have := congrFun hz ⟨k, hk⟩
        simp only [Matrix.mulVec, dotProduct, Pi.zero_apply] at this
        rw [← this]
        exact Finset.sum_congr rfl fun j _ => by simp [A]
      · exfalso
        refine h3 ⟨fun j => if hj : j < n then (A⁻¹.mulVec fun i => v i) ⟨j, hj⟩ else 0, fun i hi => ?_⟩
        rw [hsum]
        have : (A.mulVec (A⁻¹.mulVec fun i => v i)) ⟨i, hi⟩ = v i := by
          rw [Matrix.mulVec_mulVec, Matrix.mul_nonsing_inv _ (isUnit_iff_ne_zero.2 hd), Matrix.one_mulVec]
        rw [← this]
        simp only [Matrix.mulVec, dotProduct]
        exact Finset.sum_congr rfl fun j _ => by simp [A, Matrix.mulVec, dotProduct]

/-- Two joints and one constraint whose error is not zero: the hypotheses of `C58_minimum` hold. -/
example : Spec.Gauss (gaussOf (F := ℚ)) ∧ (∀ k < 1, (0 : ℚ) ≤ [1].getD k 0) ∧ (∀ i < 2, (0 : ℚ) < [1, 2].getD i 0) ∧
    Spec.ikMiss [[1, 1]] [(3 : ℚ)] [1] 2 (fun _ => 0) = 9 := by
  refine ⟨gaussOf_lawful, by decide, by decide, by decide +kernel⟩

/-- The default method on that case. -/
noncomputable def Sample.ikAD : IK ℚ := IK.create Sample.sliders (IK.jointVelAD gaussOf)

set_option synthInstance.maxSize 1000 in
/-- A history that meets the hypotheses of `C58_solveRate`. -/
example : ∃ (ops : List (IK.Op ℚ)) (ik ik' : IK ℚ), setOffset Sample.sliders.link = Sample.sliders.link ∧
    (∀ o ∈ ops, o.Sized) ∧ Sample.ikAD.runAll ops = some ik ∧ ik.clist ≠ [] ∧ ik.jv = IK.jointVelAD gaussOf ∧
    (∃ i, (Spec.ikJoints Sample.sliders.link ops i).isSome) ∧ ik.solveRate = some ik' ∧
    (∀ x ∈ ik.clist, 0 ≤ x.attr.w.x ∧ 0 ≤ x.attr.w.y ∧ 0 ≤ x.attr.w.z) ∧
    (∀ i x, Spec.ikJoints Sample.sliders.link ops i = some x → 0 < x) ∧ ik'.jvel = [1 / 3] := by
  have key : (Sample.ikAD.runAll [.jointReg 0 1, Sample.regPos 5 1, .setRef 5 0 0 1]).bind (fun s => s.solveRate.map fun t =>
        (s.clist.map fun x => (x.attr.w.x, x.attr.w.y, x.attr.w.z), t.jvel)) = some ([(1, 1, 1)], [1 / 3]) := by
    decide +kernel
  simp only [Option.bind_eq_some_iff, Option.map_eq_some_iff, Prod.mk.injEq] at key
  obtain ⟨ik, h, ik', h1, h2, h3⟩ := key
  have hj : ∀ i, Spec.ikJoints Sample.sliders.link [.jointReg 0 1, Sample.regPos 5 1, .setRef 5 0 0 1] i =
      if i = 0 then some 1 else none := by
    intro i
    simp only [Spec.ikJoints, List.foldl, Spec.ikJointsStep, Sample.regPos]
    by_cases hi : i = 0
    · subst hi
      rw [if_pos ⟨rfl, _, rfl, by decide⟩, if_pos rfl]
    · rw [if_neg (fun h => hi (by exact_mod_cast h.1)), if_neg hi]
  refine ⟨_, ik, ik', rfl, ?_, h, ?_, ?_, ⟨0, by rw [hj]; rfl⟩, h1, ?_, ?_, h3⟩
  · simp [IK.Op.Sized, Sample.regPos, Jacobi.wldPos_sized]
  · intro hh; rw [hh] at h2; simp at h2
  · have : (Sample.ikAD.runAll [.jointReg 0 1, Sample.regPos 5 1, .setRef 5 0 0 1]).map IK.jv =
        some (IK.jointVelAD gaussOf) := rfl
    rw [h] at this
    simpa using this
  · intro x hx
    have := List.mem_map_of_mem (f := fun x : IKCell ℚ => (x.attr.w.x, x.attr.w.y, x.attr.w.z)) hx
    rw [h2] at this
    simp only [List.mem_singleton, Prod.mk.injEq] at this
    rw [this.1, this.2.1, this.2.2]
    decide
  · intro i x hx
    rw [hj] at hx
    split_ifs at hx
    cases hx
    decide

end Roki
