import Verif.Lemmas.Vec
import Verif.Model.Zm
import Mathlib.Data.Countable.Basic
import Mathlib.Data.Rat.Encodable
import Mathlib.Algebra.Order.Field.Rat
import Mathlib.Logic.Denumerable
import Mathlib.Tactic.Linarith
import Mathlib.Tactic.NormNum
set_option autoImplicit false

/-!
# External routines over the rational numbers

A second lawful instance, used only to evaluate concrete examples in the kernel.  The routines agree
with exact arithmetic at the arguments that the examples use: sine and cosine of zero, the attitude of
the zero vector, the inverse of the identity matrix, the tolerance test.  Elsewhere they are arbitrary
functions that satisfy the laws.
-/
namespace Roki.ZmRat

instance : Countable (Vec3 ℚ) :=
  Function.Injective.countable (f := fun v : Vec3 ℚ => (v.x, v.y, v.z)) (by
    rintro ⟨a, b, c⟩ ⟨d, e, f⟩ h; simpa using h)

instance : Countable (Mat3 ℚ) :=
  Function.Injective.countable (f := fun v : Mat3 ℚ => (v.cx, v.cy, v.cz)) (by
    rintro ⟨a, b, c⟩ ⟨d, e, f⟩ h; simpa using h)

/-- Every rational rotation is numbered by a vector that is not zero. -/
theorem exists_numbering : ∃ f : Vec3 ℚ → Mat3 ℚ, (∀ a, (f a).IsRot) ∧
    ∀ m : Mat3 ℚ, m.IsRot → ∃ a, a ≠ 0 ∧ f a = m := by
  have h1 : (1 : Mat3 ℚ).IsRot := Mat3.isRot_one
  haveI : Nonempty {m : Mat3 ℚ // m.IsRot} := ⟨⟨1, h1⟩⟩
  obtain ⟨g, hg⟩ := exists_surjective_nat {m : Mat3 ℚ // m.IsRot}
  refine ⟨fun a => (g (a.x.num.toNat - 1)).1, fun a => (g _).2, fun m hm => ?_⟩
  obtain ⟨n, hn⟩ := hg ⟨m, hm⟩
  refine ⟨⟨(n : ℚ) + 1, 0, 0⟩, ?_, ?_⟩
  · intro h
    have := congrArg Vec3.x h
    simp at this
    have h0 : (0 : ℚ) ≤ (n : ℚ) := Nat.cast_nonneg n
    linarith
  · have : ((n : ℚ) + 1).num = (n : ℤ) + 1 := by
      have : ((n : ℚ) + 1) = (((n : ℤ) + 1 : ℤ) : ℚ) := by push_cast; rfl
      rw [this, Rat.num_intCast]
    simp only [this]
    have h2 : ((n : ℤ) + 1).toNat - 1 = n := by omega
    rw [h2, hn]

open Classical in
/-- Routines over the rational numbers. -/
noncomputable def fromAA (a : Vec3 ℚ) : Mat3 ℚ := exists_numbering.choose a

open Classical in
noncomputable def toAA (m : Mat3 ℚ) : Vec3 ℚ :=
  if h : m.IsRot then (exists_numbering.choose_spec.2 m h).choose else 0

/-- The leading block of a matrix is the identity. -/
def isOne (n : ℕ) (h : ℕ → ℕ → ℚ) : Bool :=
  (List.range n).all fun i => (List.range n).all fun k => decide (h i k = if i = k then 1 else 0)

open Classical in
noncomputable def inv (n : ℕ) (h : ℕ → ℕ → ℚ) : ℕ → ℕ → ℚ :=
  if H : ∃ g : ℕ → ℕ → ℚ, ∀ i < n, ∀ k < n,
      ∑ j ∈ Finset.range n, h i j * g j k = if i = k then 1 else 0 then H.choose else h

noncomputable instance : Zm ℚ where
  sin _ := 0
  cos _ := 1
  pi := 3
  phaseNormalize q := if -3 < q ∧ q ≤ 3 then q else 0
  fromAA a := if a = 0 then 1 else fromAA a
  toAA m := if m = 1 then 0 else toAA m
  tiny x := decide (|x| ≤ 1 / 1000000000000)
  sgn x := if 0 < x then 1 else if x < 0 then -1 else 0
  matInv n h := if isOne n h then h else inv n h

theorem isOne_iff (n : ℕ) (h : ℕ → ℕ → ℚ) : isOne n h = true ↔ ∀ i < n, ∀ k < n, h i k = if i = k then 1 else 0 := by
  simp [isOne]

instance : LawfulZm ℚ where
  sin_sq_add_cos_sq q := by norm_num [Zm.sin, Zm.cos]
  sin_zero := rfl
  cos_zero := rfl
  pi_pos := by norm_num [Zm.pi]
  phase_gt q := by simp only [Zm.phaseNormalize, Zm.pi]; split_ifs with h; exact h.1; norm_num
  phase_le q := by simp only [Zm.phaseNormalize, Zm.pi]; split_ifs with h; exact h.2; norm_num
  phase_id q h1 h2 := if_pos ⟨h1, h2⟩
  sin_phase q := rfl
  cos_phase q := rfl
  fromAA_isRot a := by
    simp only [Zm.fromAA]
    split_ifs
    · exact Mat3.isRot_one
    · exact exists_numbering.choose_spec.1 a
  fromAA_zero := if_pos rfl
  fromAA_toAA m hm := by
    by_cases h : m = 1
    · have : Zm.toAA m = (0 : Vec3 ℚ) := if_pos h
      rw [this, h]
      exact if_pos rfl
    · have h1 : Zm.toAA m = (exists_numbering.choose_spec.2 m hm).choose := (if_neg h).trans (dif_pos hm)
      have := (exists_numbering.choose_spec.2 m hm).choose_spec
      rw [← h1] at this
      exact (if_neg this.1).trans this.2
  toAA_one := if_pos rfl
  tiny_zero := by simp [Zm.tiny]
  sgn_mul_self v := by
    simp only [Zm.sgn]
    split_ifs with h1 h2 <;> nlinarith
  matInv_right n h g hg := by
    simp only [Zm.matInv]
    split_ifs with h1
    · rw [isOne_iff] at h1
      intro i hi k hk
      rw [Finset.sum_eq_single k]
      · rw [h1 i hi k hk, h1 k hk k hk, if_pos rfl, mul_one]
      · intro j hj hjk
        rw [h1 j (Finset.mem_range.1 hj) k hk, if_neg hjk, mul_zero]
      · intro hh; exact absurd (Finset.mem_range.2 hk) hh
    · simp only [inv]
      rw [dif_pos ⟨g, hg⟩]
      exact Exists.choose_spec (⟨g, hg⟩ : ∃ g : ℕ → ℕ → ℚ, ∀ i < n, ∀ k < n,
        ∑ j ∈ Finset.range n, h i j * g j k = if i = k then 1 else 0)

end Roki.ZmRat
