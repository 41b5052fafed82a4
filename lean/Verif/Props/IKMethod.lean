import Verif.Model.IKMethod
import Verif.Props.IKDescent
import Mathlib.Analysis.InnerProductSpace.PiL2
import Mathlib.Analysis.InnerProductSpace.ProdL2
import Mathlib.Topology.Algebra.Module.FiniteDimension
import Mathlib.Topology.MetricSpace.HausdorffDistance
set_option autoImplicit false

/-!
# C109: the other two methods for the joint velocities
-/

namespace Roki
open LinkArray
open Finset (range)

namespace Spec
variable {K : Type*} [Field K] [LinearOrder K]

/-- The squared velocities with the weights of the joints. -/
def ikSpeed (wn : List K) (n : ℕ) (x : ℕ → K) : K := ∑ i ∈ range n, wn.getD i 0 * x i ^ 2

/-- What `zLESolveMP` is for: no other answer has a smaller error, and no other with the same error has a smaller norm. -/
def SolvesMP (solve : List (List K) → List K → List K → List K → ℕ → ℕ → K) : Prop :=
  ∀ (M : List (List K)) (s w wn : List K) (n : ℕ), s.length = M.length → w.length = M.length → (∀ k < M.length, 0 ≤ w.getD k 0) →
    (∀ i < n, 0 < wn.getD i 0) → ∀ y : ℕ → K, ikMiss M s w n (solve M s wn w n) ≤ ikMiss M s w n y ∧
      (ikMiss M s w n y ≤ ikMiss M s w n (solve M s wn w n) → ikSpeed wn n (solve M s wn w n) ≤ ikSpeed wn n y)

/-- What `zLESolveSRDST` is for: no other answer has a smaller sum of the error and the norm. -/
def SolvesSR (solve : List (List K) → List K → List K → List K → ℕ → ℕ → K) : Prop :=
  ∀ (M : List (List K)) (s w wn : List K) (n : ℕ), s.length = M.length → w.length = M.length → (∀ k < M.length, 0 ≤ w.getD k 0) →
    (∀ i < n, 0 < wn.getD i 0) → ∀ y : ℕ → K, ikMiss M s w n (solve M s wn w n) + ikSpeed wn n (solve M s wn w n) ≤
      ikMiss M s w n y + ikSpeed wn n y
end Spec

section
variable {K : Type*} [Field K] [LinearOrder K] [IsStrictOrderedRing K]

/-- A quadratic function without constant term that is smallest at 1. -/
theorem quad_min {p Q : K} (h : ∀ r : K, -2 * p + Q ≤ -2 * r * p + r ^ 2 * Q) : p = Q := by
  have h0 := h 0
  have h2 := h 2
  by_cases hQ : Q = 0
  · subst hQ; simp only [mul_zero, add_zero] at h0 h2; linarith
  · have h3 := h (p / Q)
    have e : -2 * (p / Q) * p + (p / Q) ^ 2 * Q = -p ^ 2 / Q := by field_simp; ring
    rw [e] at h3
    have hpos : 0 < Q ∨ Q < 0 := (lt_or_gt_of_ne hQ).symm
    rcases hpos with hq | hq
    · rw [le_div_iff₀ hq] at h3
      have : (p - Q) ^ 2 ≤ 0 := by nlinarith
      have := pow_eq_zero_iff (two_ne_zero) |>.1 (le_antisymm this (sq_nonneg _))
      linarith
    · nlinarith

/-- A quadratic function without constant term that is nowhere negative has no linear term. -/
theorem quad_nonneg {p Q : K} (h : ∀ r : K, 0 ≤ -2 * r * p + r ^ 2 * Q) : p = 0 := by
  by_cases hQ : Q = 0
  · have h1 := h 1
    have h2 := h (-1)
    subst hQ
    linarith
  · have h3 := h (p / Q)
    have e : -2 * (p / Q) * p + (p / Q) ^ 2 * Q = -p ^ 2 / Q := by field_simp; ring
    rw [e] at h3
    have h1 := h 1
    have h2 := h (-1)
    have hq : 0 < Q := lt_of_le_of_ne (by linarith) (Ne.symm hQ)
    rw [le_div_iff₀ hq] at h3
    exact pow_eq_zero_iff (two_ne_zero) |>.1 (le_antisymm (by linarith) (sq_nonneg p))

theorem ikMiss_one (M : List (List K)) (s w : List K) (n : ℕ) (x : ℕ → K) :
    Spec.ikMiss M s w n x = Spec.ikMiss M s w n (fun i => 1 * x i) := by simp only [one_mul]

theorem ikSpeed_scale (wn : List K) (n : ℕ) (x : ℕ → K) (r : K) : Spec.ikSpeed wn n (fun i => r * x i) = r ^ 2 * Spec.ikSpeed wn n x := by
  simp only [Spec.ikSpeed, Finset.mul_sum]
  exact Finset.sum_congr rfl fun i _ => by ring

theorem ikSpeed_pos {wn : List K} {n : ℕ} (hn : ∀ i < n, 0 < wn.getD i 0) (x : ℕ → K) :
    0 ≤ Spec.ikSpeed wn n x ∧ (Spec.ikSpeed wn n x ≤ 0 → ∀ i < n, x i = 0) := by
  have hd : ∀ i ∈ range n, 0 ≤ wn.getD i 0 * x i ^ 2 := fun i hi => mul_nonneg (hn i (Finset.mem_range.1 hi)).le (sq_nonneg _)
  refine ⟨Finset.sum_nonneg hd, fun h i hi => ?_⟩
  have := (Finset.sum_eq_zero_iff_of_nonneg hd).1 (le_antisymm h (Finset.sum_nonneg hd)) i (Finset.mem_range.2 hi)
  rcases mul_eq_zero.1 this with h1 | h1
  · exact absurd h1 (hn i hi).ne'
  · exact pow_eq_zero_iff (two_ne_zero) |>.1 h1

/-- The derivative of the error at rest, by component `i`. -/
theorem pair_single (M : List (List K)) (s w : List K) {n i : ℕ} (hi : i < n) :
    ∑ k ∈ range M.length, w.getD k 0 * (s.getD k 0 * ∑ j ∈ range n, Spec.ikCoef M k j * (if j = i then 1 else 0)) = normalVec M s w i := by
  refine Finset.sum_congr rfl fun k _ => ?_
  have : ∑ j ∈ range n, Spec.ikCoef M k j * (if j = i then (1 : K) else 0) = Spec.ikCoef M k i := by
    simp [Finset.mem_range, hi]
  rw [this]; ring

theorem Downhill.step {jv : List (List K) → List K → List K → List K → List K → ℕ → K} (h : Downhill jv) (M : List (List K)) (s w wn v0 : List K)
    (hs : s.length = M.length) (hlw : w.length = M.length) (hw : ∀ k < M.length, 0 ≤ w.getD k 0) (hn : ∀ i < v0.length, 0 < wn.getD i 0)
    (r : K) (h0 : 0 < r) (h2 : r < 2) :
    Spec.ikMiss M s w v0.length (fun i => r * jv M s wn w v0 i) ≤ Spec.ikMiss M s w v0.length (fun _ => 0) ∧
    ((∃ i < v0.length, jv M s wn w v0 i ≠ 0) →
      Spec.ikMiss M s w v0.length (fun i => r * jv M s wn w v0 i) < Spec.ikMiss M s w v0.length (fun _ => 0)) := by
  obtain ⟨a1, a2, -⟩ := h M s w wn v0 hs hlw hw hn
  rw [ikMiss_scale M s w v0.length (jv M s wn w v0) r]
  have hq : 0 ≤ ∑ k ∈ range M.length, w.getD k 0 * (∑ j ∈ range v0.length, Spec.ikCoef M k j * jv M s wn w v0 j) ^ 2 :=
    Finset.sum_nonneg fun k hk => mul_nonneg (hw k (Finset.mem_range.1 hk)) (sq_nonneg _)
  set p := ∑ k ∈ range M.length, w.getD k 0 * (s.getD k 0 * ∑ j ∈ range v0.length, Spec.ikCoef M k j * jv M s wn w v0 j)
  set q := ∑ k ∈ range M.length, w.getD k 0 * (∑ j ∈ range v0.length, Spec.ikCoef M k j * jv M s wn w v0 j) ^ 2
  have e : r ^ 2 * q ≤ r ^ 2 * p := mul_le_mul_of_nonneg_left a1 (sq_nonneg _)
  have hp : 0 ≤ p := hq.trans a1
  have hr : 0 < r * (2 - r) := mul_pos h0 (by linarith)
  refine ⟨by nlinarith [mul_nonneg hr.le hp], fun ⟨i, hi, hne⟩ => ?_⟩
  have hp' : 0 < p := lt_of_le_of_ne hp fun hz => hne (a2 hz.symm i hi)
  nlinarith [mul_pos hr hp']

theorem Downhill.stop {jv : List (List K) → List K → List K → List K → List K → ℕ → K} (h : Downhill jv) (M : List (List K)) (s w wn v0 : List K)
    (hs : s.length = M.length) (hlw : w.length = M.length) (hw : ∀ k < M.length, 0 ≤ w.getD k 0) (hn : ∀ i < v0.length, 0 < wn.getD i 0) :
    (∀ i < v0.length, jv M s wn w v0 i = 0) ↔
      ∀ y : ℕ → K, Spec.ikMiss M s w v0.length (fun _ => 0) ≤ Spec.ikMiss M s w v0.length y := by
  constructor
  · intro hz y
    have hv := (h M s w wn v0 hs hlw hw hn).2.2 hz
    have key := ikMiss_scale M s w v0.length y 1
    have e : ∑ k ∈ range M.length, w.getD k 0 * (s.getD k 0 * ∑ j ∈ range v0.length, Spec.ikCoef M k j * y j) =
        ∑ j ∈ range v0.length, y j * normalVec M s w j := by
      simp only [normalVec, Finset.mul_sum]
      rw [Finset.sum_comm]
      exact Finset.sum_congr rfl fun j _ => Finset.sum_congr rfl fun k _ => by ring
    rw [e, Finset.sum_eq_zero (fun j hj => by rw [hv j (Finset.mem_range.1 hj), mul_zero])] at key
    have h1 : 0 ≤ ∑ k ∈ range M.length, w.getD k 0 * (∑ j ∈ range v0.length, Spec.ikCoef M k j * y j) ^ 2 :=
      Finset.sum_nonneg fun k hk => mul_nonneg (hw k (Finset.mem_range.1 hk)) (sq_nonneg _)
    rw [ikMiss_one M s w v0.length y, key]
    linarith
  · intro hm i hi
    by_contra hne
    have := (h.step M s w wn v0 hs hlw hw hn 1 one_pos one_lt_two).2 ⟨i, hi, hne⟩
    exact absurd (hm _) (not_le.2 this)

theorem jointVelSR_downhill {solve : List (List K) → List K → List K → List K → ℕ → ℕ → K} (hS : Spec.SolvesSR solve) :
    Downhill (IK.jointVelSR solve) := by
  intro M s w wn v0 hs hlw hw hn
  have hmin := hS M s w wn v0.length hs hlw hw hn
  change ∀ y, Spec.ikMiss M s w v0.length (IK.jointVelSR solve M s wn w v0) + Spec.ikSpeed wn v0.length (IK.jointVelSR solve M s wn w v0) ≤ _ at hmin
  set v := IK.jointVelSR solve M s wn w v0
  have hpq : ∑ k ∈ range M.length, w.getD k 0 * (s.getD k 0 * ∑ j ∈ range v0.length, Spec.ikCoef M k j * v j) =
      ∑ k ∈ range M.length, w.getD k 0 * (∑ j ∈ range v0.length, Spec.ikCoef M k j * v j) ^ 2 + Spec.ikSpeed wn v0.length v := by
    refine quad_min fun r => ?_
    have := hmin fun i => r * v i
    rw [ikMiss_one, ikMiss_scale, ikMiss_scale, ikSpeed_scale] at this
    linarith
  obtain ⟨s0, s1⟩ := ikSpeed_pos hn v
  have hq : 0 ≤ ∑ k ∈ range M.length, w.getD k 0 * (∑ j ∈ range v0.length, Spec.ikCoef M k j * v j) ^ 2 :=
    Finset.sum_nonneg fun k hk => mul_nonneg (hw k (Finset.mem_range.1 hk)) (sq_nonneg _)
  refine ⟨by linarith, fun hz => s1 (by linarith), fun hz i hi => ?_⟩
  have hz' : Spec.ikMiss M s w v0.length v = Spec.ikMiss M s w v0.length (fun _ => 0) := by
    refine Finset.sum_congr rfl fun k _ => ?_
    rw [Finset.sum_congr rfl fun j hj => by rw [hz j (Finset.mem_range.1 hj)]]
  refine quad_nonneg (Q := ∑ k ∈ range M.length, w.getD k 0 * (∑ j ∈ range v0.length, Spec.ikCoef M k j * (if j = i then (1 : K) else 0)) ^ 2 +
    Spec.ikSpeed wn v0.length fun j => if j = i then 1 else 0) fun r => ?_
  have := hmin fun j => r * if j = i then 1 else 0
  rw [hz', ikMiss_scale, ikSpeed_scale, pair_single M s w hi] at this
  linarith

theorem jointVelMP_downhill {solve : List (List K) → List K → List K → List K → ℕ → ℕ → K} (hS : Spec.SolvesMP solve) :
    Downhill (IK.jointVelMP solve) := by
  intro M s w wn v0 hs hlw hw hn
  have hmin := hS M s w wn v0.length hs hlw hw hn
  change ∀ y, Spec.ikMiss M s w v0.length (IK.jointVelMP solve M s wn w v0) ≤ _ ∧
    (_ → Spec.ikSpeed wn v0.length (IK.jointVelMP solve M s wn w v0) ≤ _) at hmin
  change ∀ y, _ ∧ (_ ≤ Spec.ikMiss M s w v0.length (IK.jointVelMP solve M s wn w v0) → _) at hmin
  set v := IK.jointVelMP solve M s wn w v0
  have hpq : ∑ k ∈ range M.length, w.getD k 0 * (s.getD k 0 * ∑ j ∈ range v0.length, Spec.ikCoef M k j * v j) =
      ∑ k ∈ range M.length, w.getD k 0 * (∑ j ∈ range v0.length, Spec.ikCoef M k j * v j) ^ 2 := by
    refine quad_min fun r => ?_
    have := (hmin fun i => r * v i).1
    rw [ikMiss_one, ikMiss_scale, ikMiss_scale] at this
    linarith
  obtain ⟨s0, s1⟩ := ikSpeed_pos hn v
  refine ⟨by linarith, fun hz => s1 ?_, fun hz i hi => ?_⟩
  · refine ((hmin fun _ => 0).2 ?_).trans ?_
    · rw [ikMiss_one M s w v0.length v, ikMiss_scale, ← hpq, hz]; simp
    · simp [Spec.ikSpeed]
  have hz' : Spec.ikMiss M s w v0.length v = Spec.ikMiss M s w v0.length (fun _ => 0) := by
    refine Finset.sum_congr rfl fun k _ => ?_
    rw [Finset.sum_congr rfl fun j hj => by rw [hz j (Finset.mem_range.1 hj)]]
  refine quad_nonneg (Q := ∑ k ∈ range M.length, w.getD k 0 * (∑ j ∈ range v0.length, Spec.ikCoef M k j * (if j = i then (1 : K) else 0)) ^ 2)
    fun r => ?_
  have := (hmin fun j => r * if j = i then 1 else 0).1
  rw [hz', ikMiss_scale, pair_single M s w hi] at this
  linarith

/-- C109, the equation: a step along the velocities of `rkIKJointVelMP` or of `rkIKJointVelSR`, of less than twice their length, does not increase
the weighted squared error of the equation; it reduces it unless the velocities are zero. -/
theorem C109_equation {solve : List (List K) → List K → List K → List K → ℕ → ℕ → K} {jv : List (List K) → List K → List K → List K → List K → ℕ → K}
    (hjv : (jv = IK.jointVelMP solve ∧ Spec.SolvesMP solve) ∨ (jv = IK.jointVelSR solve ∧ Spec.SolvesSR solve))
    (M : List (List K)) (s w wn v0 : List K) (hs : s.length = M.length) (hlw : w.length = M.length)
    (hw : ∀ k < M.length, 0 ≤ w.getD k 0) (hn : ∀ i < v0.length, 0 < wn.getD i 0) (r : K) (h0 : 0 < r) (h2 : r < 2) :
    Spec.ikMiss M s w v0.length (fun i => r * jv M s wn w v0 i) ≤ Spec.ikMiss M s w v0.length (fun _ => 0) ∧
    ((∃ i < v0.length, jv M s wn w v0 i ≠ 0) →
      Spec.ikMiss M s w v0.length (fun i => r * jv M s wn w v0 i) < Spec.ikMiss M s w v0.length (fun _ => 0)) := by
  have hd : Downhill jv := by
    rcases hjv with ⟨rfl, h⟩ | ⟨rfl, h⟩
    · exact jointVelMP_downhill h
    · exact jointVelSR_downhill h
  exact hd.step M s w wn v0 hs hlw hw hn r h0 h2

/-- C109, where the methods stop: the three methods, with the same weights, give zero velocities for the same equations, those of which the error
cannot be reduced. -/
theorem C109_stop {mp sr : List (List K) → List K → List K → List K → ℕ → ℕ → K} {gauss : ℕ → (ℕ → ℕ → K) → (ℕ → K) → Option (ℕ → K)}
    (hmp : Spec.SolvesMP mp) (hsr : Spec.SolvesSR sr) (hg : Spec.Gauss gauss)
    (M : List (List K)) (s w wn v0 : List K) (hs : s.length = M.length) (hlw : w.length = M.length)
    (hw : ∀ k < M.length, 0 ≤ w.getD k 0) (hn : ∀ i < v0.length, 0 < wn.getD i 0) :
    ((∀ i < v0.length, IK.jointVelMP mp M s wn w v0 i = 0) ↔
      ∀ y : ℕ → K, Spec.ikMiss M s w v0.length (fun _ => 0) ≤ Spec.ikMiss M s w v0.length y) ∧
    ((∀ i < v0.length, IK.jointVelSR sr M s wn w v0 i = 0) ↔ ∀ i < v0.length, IK.jointVelMP mp M s wn w v0 i = 0) ∧
    ((∀ i < v0.length, IK.jointVelAD gauss M s wn w v0 i = 0) ↔ ∀ i < v0.length, IK.jointVelMP mp M s wn w v0 i = 0) := by
  have h1 := (jointVelMP_downhill hmp).stop M s w wn v0 hs hlw hw hn
  have h2 := (jointVelSR_downhill hsr).stop M s w wn v0 hs hlw hw hn
  have h3 := (jointVelAD_downhill hg).stop M s w wn v0 hs hlw hw hn
  exact ⟨h1, h2.trans h1.symm, h3.trans h1.symm⟩

/-- C109, the exact method: if velocities exist that meet every row of the equation with a weight, those of `rkIKJointVelMP` do, and of all such
velocities they are the smallest. -/
theorem C109_exact {solve : List (List K) → List K → List K → List K → ℕ → ℕ → K} (hS : Spec.SolvesMP solve)
    (M : List (List K)) (s w wn v0 : List K) (hs : s.length = M.length) (hlw : w.length = M.length)
    (hw : ∀ k < M.length, 0 ≤ w.getD k 0) (hn : ∀ i < v0.length, 0 < wn.getD i 0) (y : ℕ → K)
    (hy : ∀ k < M.length, 0 < w.getD k 0 → ∑ j ∈ range v0.length, Spec.ikCoef M k j * y j = s.getD k 0) :
    (∀ k < M.length, 0 < w.getD k 0 → ∑ j ∈ range v0.length, Spec.ikCoef M k j * IK.jointVelMP solve M s wn w v0 j = s.getD k 0) ∧
    Spec.ikSpeed wn v0.length (IK.jointVelMP solve M s wn w v0) ≤ Spec.ikSpeed wn v0.length y := by
  obtain ⟨h1, h2⟩ := hS M s w wn v0.length hs hlw hw hn y
  have hy0 : Spec.ikMiss M s w v0.length y = 0 := by
    refine Finset.sum_eq_zero fun k hk => ?_
    have hk' := Finset.mem_range.1 hk
    rcases (hw k hk').eq_or_lt with h | h
    · rw [← h, zero_mul]
    · rw [hy k hk' h, sub_self, zero_pow two_ne_zero, mul_zero]
  have hnn : ∀ k ∈ range M.length, 0 ≤ w.getD k 0 * (∑ j ∈ range v0.length, Spec.ikCoef M k j * IK.jointVelMP solve M s wn w v0 j - s.getD k 0) ^ 2 :=
    fun k hk => mul_nonneg (hw k (Finset.mem_range.1 hk)) (sq_nonneg _)
  have h0 : Spec.ikMiss M s w v0.length (IK.jointVelMP solve M s wn w v0) = 0 :=
    le_antisymm (by rw [← hy0]; exact h1) (Finset.sum_nonneg hnn)
  refine ⟨fun k hk hwk => ?_, h2 (by rw [hy0]; exact h0.ge)⟩
  have := (Finset.sum_eq_zero_iff_of_nonneg hnn).1 h0 k (Finset.mem_range.2 hk)
  rcases mul_eq_zero.1 this with h | h
  · exact absurd h hwk.ne'
  · exact sub_eq_zero.1 (pow_eq_zero_iff (two_ne_zero) |>.1 h)
end

open Spec Jacobi

section
variable {c : Chain ℝ} {jv : List (List ℝ) → List ℝ → List ℝ → List ℝ → List ℝ → ℕ → ℝ} {ops : List (IK.Op ℝ)} {ik : IK ℝ}

/-- C109, downhill: what `C103_descent` says of the default method holds of `rkIKJointVelMP` and of `rkIKJointVelSR`. -/
theorem C109_descent {solve : List (List ℝ) → List ℝ → List ℝ → List ℝ → ℕ → ℕ → ℝ}
    (hjv : (ik.jv = IK.jointVelMP solve ∧ SolvesMP solve) ∨ (ik.jv = IK.jointVelSR solve ∧ SolvesSR solve))
    (ho : setOffset c.link = c.link) (hs : ∀ o ∈ ops, o.Sized) (h : (IK.create c jv).runAll ops = some ik)
    (hne : ik.clist ≠ []) (hreg : ∃ i, (ikJoints c.link ops i).isSome)
    (hcw : ∀ x ∈ ik.clist, 0 ≤ x.attr.w.x ∧ 0 ≤ x.attr.w.y ∧ 0 ≤ x.attr.w.z) (hjw : ∀ i x, ikJoints c.link ops i = some x → 0 < x)
    (hpos : ∀ x ∈ ik.clist, x.attr.isDisabled = false → IkPos ik.chain x)
    (hrest : ∀ i p, ikJoints c.link ops i = none → Owns ik.chain.link i p → ik.vel[p]? = some 0)
    {ik' : IK ℝ} (he : ik.solveRate = some ik') :
    (∀ {d d1 : ℝ → Chain ℝ} {t : ℝ}, Passes ik.chain d d1 t ik'.vel →
      ∃ r, HasDerivAt (fun s => ikMismatch (d1 s) ik.clist) r t ∧ r ≤ 0 ∧ (r = 0 ↔ ∀ x ∈ ik'.vel, x = 0)) ∧
    ((∀ x ∈ ik'.jvel, x = 0) → ∀ {d d1 : ℝ → Chain ℝ} {t : ℝ} {v : List ℝ}, Passes ik.chain d d1 t v →
      (∀ i p, ikJoints c.link ops i = none → Owns ik.chain.link i p → v[p]? = some 0) →
      HasDerivAt (fun s => ikMismatch (d1 s) ik.clist) 0 t) := by
  have hd : Downhill ik.jv := by
    rcases hjv with ⟨e, h⟩ | ⟨e, h⟩ <;> rw [e]
    · exact jointVelMP_downhill h
    · exact jointVelSR_downhill h
  exact ⟨fun P => descent_of ho hs h hne hd hreg hcw hjw hpos hrest he P.follows,
    fun hz _ _ _ _ P hv => stationary_of ho hs h hne hd hreg hcw hjw hpos hrest he hz P.follows hv⟩
end

/-! ### Routines that solve the two problems -/

namespace Sample

theorem nearest {E F : Type*} [AddCommGroup E] [Module ℝ E] [NormedAddCommGroup F] [InnerProductSpace ℝ F] [FiniteDimensional ℝ F]
    (L : E →ₗ[ℝ] F) (b : F) : ∃ x, ∀ y, ‖L x - b‖ ≤ ‖L y - b‖ := by
  have hc : IsClosed (LinearMap.range L : Set F) := Submodule.closed_of_finiteDimensional _
  obtain ⟨z, ⟨x, rfl⟩, hx⟩ := hc.exists_infDist_eq_dist ⟨0, Submodule.zero_mem _⟩ b
  refine ⟨x, fun y => ?_⟩
  have := Metric.infDist_le_dist_of_mem (x := b) (show L y ∈ (LinearMap.range L : Set F) from ⟨y, rfl⟩)
  rw [hx, dist_comm, dist_comm b, dist_eq_norm, dist_eq_norm] at this
  exact this

/-- The weighted motion of the constraints. -/
noncomputable def motion (M : List (List ℝ)) (w : List ℝ) (n : ℕ) : (Fin n → ℝ) →ₗ[ℝ] EuclideanSpace ℝ (Fin M.length) where
  toFun x := WithLp.toLp 2 fun k => Real.sqrt (w.getD k 0) * ∑ j : Fin n, ikCoef M k j * x j
  map_add' x y := by ext k; simp [mul_add, Finset.sum_add_distrib]
  map_smul' r x := by
    ext k
    simp only [Pi.smul_apply, smul_eq_mul, PiLp.smul_apply, RingHom.id_apply]
    rw [mul_left_comm, Finset.mul_sum (a := r)]
    congr 1
    exact Finset.sum_congr rfl fun j _ => by ring

/-- The weighted velocities. -/
noncomputable def speed (wn : List ℝ) (n : ℕ) : (Fin n → ℝ) →ₗ[ℝ] EuclideanSpace ℝ (Fin n) where
  toFun x := WithLp.toLp 2 fun i => Real.sqrt (wn.getD i 0) * x i
  map_add' x y := by ext k; simp [mul_add]
  map_smul' r x := by ext k; simp; ring

theorem miss_eq (M : List (List ℝ)) (s w : List ℝ) (n : ℕ) (hw : ∀ k < M.length, 0 ≤ w.getD k 0) (x : ℕ → ℝ) :
    ikMiss M s w n x = ‖motion M w n (fun i => x i) - WithLp.toLp 2 fun k : Fin M.length => Real.sqrt (w.getD k 0) * s.getD k 0‖ ^ 2 := by
  rw [EuclideanSpace.real_norm_sq_eq, ikMiss, Finset.sum_range]
  refine Finset.sum_congr rfl fun k _ => ?_
  simp only [motion, LinearMap.coe_mk, AddHom.coe_mk, PiLp.sub_apply, ← mul_sub, mul_pow, Real.sq_sqrt (hw k k.2), Finset.sum_range]

theorem speed_eq (wn : List ℝ) (n : ℕ) (hn : ∀ i < n, 0 < wn.getD i 0) (x : ℕ → ℝ) : ikSpeed wn n x = ‖speed wn n (fun i => x i)‖ ^ 2 := by
  rw [EuclideanSpace.real_norm_sq_eq, ikSpeed, Finset.sum_range]
  refine Finset.sum_congr rfl fun i _ => ?_
  simp only [speed, LinearMap.coe_mk, AddHom.coe_mk, mul_pow, Real.sq_sqrt (hn i i.2).le]

/-- Components of a vector. -/
def comps {n : ℕ} (x : Fin n → ℝ) (i : ℕ) : ℝ := if h : i < n then x ⟨i, h⟩ else 0

theorem comps_fin {n : ℕ} (x : Fin n → ℝ) : (fun i : Fin n => comps x i) = x := by
  funext i; simp [comps]

theorem exists_mp (M : List (List ℝ)) (s w wn : List ℝ) (n : ℕ) (hw : ∀ k < M.length, 0 ≤ w.getD k 0) (hn : ∀ i < n, 0 < wn.getD i 0) :
    ∃ v : ℕ → ℝ, ∀ y : ℕ → ℝ, ikMiss M s w n v ≤ ikMiss M s w n y ∧ (ikMiss M s w n y ≤ ikMiss M s w n v → ikSpeed wn n v ≤ ikSpeed wn n y) := by
  set b : EuclideanSpace ℝ (Fin M.length) := WithLp.toLp 2 fun k : Fin M.length => Real.sqrt (w.getD k 0) * s.getD k 0 with hb
  obtain ⟨x0, hx0⟩ := nearest (motion M w n) b
  obtain ⟨k0, hk0⟩ := nearest (speed wn n ∘ₗ (LinearMap.ker (motion M w n)).subtype) (-(speed wn n x0))
  have ev : motion M w n (x0 + k0) = motion M w n x0 := by rw [map_add, LinearMap.mem_ker.1 k0.2, add_zero]
  refine ⟨comps (x0 + (k0 : Fin n → ℝ)), fun y => ?_⟩
  rw [miss_eq M s w n hw, miss_eq M s w n hw, speed_eq wn n hn, speed_eq wn n hn, comps_fin, ev, ← hb]
  have h0 := hx0 fun i => y i
  refine ⟨pow_le_pow_left₀ (norm_nonneg _) h0 2, fun hle => ?_⟩
  have hle' := le_antisymm h0 (pow_le_pow_iff_left₀ (norm_nonneg _) (norm_nonneg _) two_ne_zero |>.1 hle)
  have hsame : motion M w n (fun i => y i) = motion M w n x0 := by
    set u := motion M w n x0 - b with hu
    set z := motion M w n (fun i => y i) - b with hz
    have hmid := hx0 ((1 / 2 : ℝ) • (x0 + fun i : Fin n => y i))
    have e : motion M w n ((1 / 2 : ℝ) • (x0 + fun i : Fin n => y i)) - b = (1 / 2 : ℝ) • (u + z) := by
      rw [map_smul, map_add, hu, hz]
      module
    rw [e, norm_smul] at hmid
    have hpar := parallelogram_law_with_norm ℝ u z
    rw [← hle'] at hpar
    have h2 : ‖u‖ ≤ 1 / 2 * ‖u + z‖ := by simpa using hmid
    have h3 : ‖u - z‖ = 0 := by
      have := norm_nonneg u
      have := norm_nonneg (u + z)
      have h4 : ‖u - z‖ * ‖u - z‖ ≤ 0 := by nlinarith
      exact mul_self_eq_zero.1 (le_antisymm h4 (mul_self_nonneg _))
    have h5 := sub_eq_zero.1 (norm_eq_zero.1 h3)
    have : motion M w n (fun i => y i) - b = motion M w n x0 - b := h5.symm
    exact sub_left_injective this
  have hk : (fun i : Fin n => y i) - x0 ∈ LinearMap.ker (motion M w n) := by
    rw [LinearMap.mem_ker, map_sub, hsame, sub_self]
  have h1 := hk0 ⟨_, hk⟩
  simp only [LinearMap.comp_apply, Submodule.subtype_apply, sub_neg_eq_add, map_sub, sub_add_cancel] at h1
  rw [map_add, add_comm]
  exact pow_le_pow_left₀ (norm_nonneg _) h1 2

theorem exists_sr (M : List (List ℝ)) (s w wn : List ℝ) (n : ℕ) (hw : ∀ k < M.length, 0 ≤ w.getD k 0) (hn : ∀ i < n, 0 < wn.getD i 0) :
    ∃ v : ℕ → ℝ, ∀ y : ℕ → ℝ, ikMiss M s w n v + ikSpeed wn n v ≤ ikMiss M s w n y + ikSpeed wn n y := by
  obtain ⟨x, hx⟩ := nearest (F := WithLp 2 (EuclideanSpace ℝ (Fin M.length) × EuclideanSpace ℝ (Fin n)))
    ((WithLp.linearEquiv 2 ℝ (EuclideanSpace ℝ (Fin M.length) × EuclideanSpace ℝ (Fin n))).symm.toLinearMap ∘ₗ (motion M w n).prod (speed wn n))
    (WithLp.toLp 2 (WithLp.toLp 2 fun k : Fin M.length => Real.sqrt (w.getD k 0) * s.getD k 0, 0))
  refine ⟨comps x, fun y => ?_⟩
  have h := pow_le_pow_left₀ (norm_nonneg _) (hx fun i => y i) 2
  rw [WithLp.prod_norm_sq_eq_of_L2, WithLp.prod_norm_sq_eq_of_L2] at h
  rw [miss_eq M s w n hw, miss_eq M s w n hw, speed_eq wn n hn, speed_eq wn n hn, comps_fin]
  simpa using h

open Classical in
/-- A routine that solves the first problem. -/
noncomputable def mp (M : List (List ℝ)) (s wn w : List ℝ) (n : ℕ) : ℕ → ℝ :=
  if h : (∀ k < M.length, 0 ≤ w.getD k 0) ∧ ∀ i < n, 0 < wn.getD i 0 then (exists_mp M s w wn n h.1 h.2).choose else fun _ => 0

theorem mp_solves : SolvesMP mp := by
  intro M s w wn n _ _ hw hn
  rw [mp, dif_pos ⟨hw, hn⟩]
  exact (exists_mp M s w wn n hw hn).choose_spec

open Classical in
/-- A routine that solves the second problem. -/
noncomputable def sr (M : List (List ℝ)) (s wn w : List ℝ) (n : ℕ) : ℕ → ℝ :=
  if h : (∀ k < M.length, 0 ≤ w.getD k 0) ∧ ∀ i < n, 0 < wn.getD i 0 then (exists_sr M s w wn n h.1 h.2).choose else fun _ => 0

theorem sr_solves : SolvesSR sr := by
  intro M s w wn n _ _ hw hn
  rw [sr, dif_pos ⟨hw, hn⟩]
  exact (exists_sr M s w wn n hw hn).choose_spec

theorem slide_run' (jv : List (List ℝ) → List ℝ → List ℝ → List ℝ → List ℝ → ℕ → ℝ) :
    ∃ ik ik' v x, (IK.create (Sample.railed 0 0) jv).runAll Sample.slideOps = some ik ∧
    ik.solveRate = some ik' ∧ ik'.vel = [v] ∧ ik'.jvel = [v] ∧ ik.clist = [x] ∧ ik.jv = jv ∧ ik.chain = Sample.railed 0 0 ∧
    x.attr = ⟨0, 0, 0, true, true, true, false, ⟨1, 1, 1⟩⟩ ∧ x.fns = IKFns.wldPos ∧ x.ref.cx = ⟨0, 0, 1⟩ := by
  have h0 := Sample.slid_eq 0 0
  generalize Sample.railed 0 0 = a at *
  cases h0
  exact ⟨_, _, _, _, rfl, rfl, rfl, rfl, rfl, rfl, rfl, rfl, rfl, rfl⟩

end Sample

/-- Routines with the properties that are assumed of ZM. -/
example : SolvesMP Sample.mp ∧ SolvesSR Sample.sr := ⟨Sample.mp_solves, Sample.sr_solves⟩

/-- The hypotheses of `C109_exact` are met by two joints that move one constraint. -/
example : (∀ k < [[(1 : ℝ), 1]].length, 0 ≤ [(1 : ℝ)].getD k 0) ∧ (∀ i < [(0 : ℝ), 0].length, 0 < [(1 : ℝ), 3].getD i 0) ∧
    ∀ k < [[(1 : ℝ), 1]].length, 0 < [(1 : ℝ)].getD k 0 →
      ∑ j ∈ range [(0 : ℝ), 0].length, ikCoef [[(1 : ℝ), 1]] k j * (fun j => if j = 0 then 2 else 0) j = [(2 : ℝ)].getD k 0 := by
  refine ⟨?_, ?_, ?_⟩
  · intro k hk; simp at hk; subst hk; norm_num
  · intro i hi
    simp only [List.length_cons, List.length_nil] at hi
    interval_cases i <;> norm_num
  · intro k hk _; simp at hk; subst hk; simp [ikCoef, Finset.sum_range_succ]

/-- The slider meets the hypotheses of `C109_descent` with both methods, with a velocity that is not zero: the error decreases. -/
example {solve : List (List ℝ) → List ℝ → List ℝ → List ℝ → ℕ → ℕ → ℝ} {jv : List (List ℝ) → List ℝ → List ℝ → List ℝ → List ℝ → ℕ → ℝ}
    (hjv : (jv = IK.jointVelMP solve ∧ SolvesMP solve) ∨ (jv = IK.jointVelSR solve ∧ SolvesSR solve)) :
    ∃ (ik ik' : IK ℝ) (v r : ℝ), (IK.create (Sample.railed 0 0) jv).runAll Sample.slideOps = some ik ∧
    ik.solveRate = some ik' ∧ ik'.vel = [v] ∧ v ≠ 0 ∧ HasDerivAt (fun s => ikMismatch (Sample.railed (v * s) v) ik.clist) r 0 ∧ r < 0 := by
  obtain ⟨ik, ik', v, x, h1, h2, h3, h3', h4, h5, h6, h7, h8, h9⟩ := Sample.slide_run' jv
  rw [← h5] at hjv
  obtain ⟨l, hl, hf, hs, ho⟩ := Sample.slid_link 0 0
  have hofs : setOffset (Sample.railed 0 0).link = (Sample.railed 0 0).link := by
    rw [hl]
    simp [setOffset, setOffsetFrom, Link.size, hs, ← ho]
  have hsz : ∀ o ∈ Sample.slideOps, o.Sized := by
    simp [Sample.slideOps, IK.Op.Sized, Jacobi.wldPos_sized]
  have hjw : ∀ i x, ikJoints (Sample.railed 0 0).link Sample.slideOps i = some x → 0 < x := by
    intro i x hx
    rw [Sample.slide_joints] at hx
    split_ifs at hx
    simp only [Option.some.injEq] at hx
    rw [← hx]; exact one_pos
  have hcw : ∀ y ∈ ik.clist, 0 ≤ y.attr.w.x ∧ 0 ≤ y.attr.w.y ∧ 0 ≤ y.attr.w.z := by
    intro y hy
    rw [h4, List.mem_singleton] at hy
    rw [hy, h7]; norm_num
  have hpos : ∀ y ∈ ik.clist, y.attr.isDisabled = false → IkPos ik.chain y := by
    intro y hy _
    rw [h4, List.mem_singleton] at hy
    rw [hy, h6, IkPos, h7, h8, hl]
    exact ⟨rfl, .inl ⟨rfl, by simp⟩⟩
  have hno : ∀ i p, ikJoints (Sample.railed 0 0).link Sample.slideOps i = none → Owns ik.chain.link i p → ∀ u : List ℝ, u[p]? = some 0 := by
    intro i p hi ⟨l', hl', _⟩
    rw [Sample.slide_joints] at hi
    rw [h6, hl] at hl'
    rcases i with _ | i
    · simp at hi
    · simp at hl'
  have hreg : ∃ i, (ikJoints (Sample.railed 0 0).link Sample.slideOps i).isSome := ⟨0, by rw [Sample.slide_joints]; rfl⟩
  have P := Sample.slide_passes v
  rw [← h6, ← h3] at P
  obtain ⟨t1, t2⟩ := C109_descent hjv hofs hsz h1 (by rw [h4]; simp) hreg hcw hjw hpos (fun i p hi hp => hno i p hi hp _) h2
  obtain ⟨r, hr, hle, hz⟩ := t1 P
  have hv : v ≠ 0 := by
    intro hv
    have P1 := Sample.slide_passes 1
    rw [← h6] at P1
    have hd := t2 (by rw [h3', hv]; simp) P1 (fun i p hi hp => hno i p hi hp _)
    have hm : ∀ s : ℝ, ikMismatch (Sample.railed (1 * s) 1) ik.clist = (1 - s) ^ 2 := by
      intro s
      rw [one_mul]
      obtain ⟨l, hl, hf, -⟩ := Sample.slid_link s 1
      rw [h4]
      simp [ikMismatch, h7, h8, h9, ikAxes, IKFns.wldPos, hl, hf, Frame.xform, Mat3.mulVec, Vec3.get]
    simp only [hm] at hd
    have hd' : HasDerivAt (fun s : ℝ => (1 - s) ^ 2) (-2) 0 := by
      have := ((hasDerivAt_id (0 : ℝ)).const_sub 1).pow 2
      refine this.congr_deriv ?_
      simp
    have := hd.unique hd'
    norm_num at this
  refine ⟨ik, ik', v, r, h1, h2, h3, hv, hr, lt_of_le_of_ne hle fun h0 => hv (hz.1 h0 v (by rw [h3]; simp))⟩

end Roki
