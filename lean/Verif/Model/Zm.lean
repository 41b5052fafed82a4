import Verif.Model.Vec
import Mathlib.Algebra.Order.Field.Basic
import Mathlib.Algebra.BigOperators.Group.Finset.Basic

/-!
# External numerical routines

RoKi calls ZM / Zeo / libm for the functions collected in `Zm`.  They are not part of /repo.
The model is parametric in them; `LawfulZm` states what is assumed, and
`Verif/Lemmas/ZmReal.lean` builds a lawful instance over the real numbers, so the assumptions
are consistent.
-/

namespace Roki

/-- The numerical routines of ZM, Zeo and libm used by the modelled code. -/
class Zm (K : Type*) where
  /-- `zSinCos(q,&s,&c)`, first output. -/
  sin : K → K
  /-- `zSinCos(q,&s,&c)`, second output. -/
  cos : K → K
  /-- half turn, the bound of `zPhaseNormalize`. -/
  pi : K
  /-- `zPhaseNormalize`. -/
  phaseNormalize : K → K
  /-- `zMat3DFromAA`: rotation matrix of an angle-axis vector. -/
  fromAA : Vec3 K → Mat3 K
  /-- `zMat3DToAA`: an angle-axis vector of a rotation matrix. -/
  toAA : Mat3 K → Vec3 K
  /-- `zIsTiny`: tolerance test against zero. -/
  tiny : K → Bool
  /-- `zSgn`. -/
  sgn : K → K
  /-- `zMatInv` on an `n x n` matrix given by its elements. -/
  matInv : ℕ → (ℕ → ℕ → K) → (ℕ → ℕ → K)

/-- What the model assumes about the external routines. -/
class LawfulZm (K : Type*) [Field K] [LinearOrder K] [IsStrictOrderedRing K] [Zm K] : Prop where
  sin_sq_add_cos_sq : ∀ q : K, Zm.sin q * Zm.sin q + Zm.cos q * Zm.cos q = 1
  sin_zero : Zm.sin (0 : K) = 0
  cos_zero : Zm.cos (0 : K) = 1
  pi_pos : 0 < (Zm.pi : K)
  phase_gt : ∀ q : K, -Zm.pi < Zm.phaseNormalize q
  phase_le : ∀ q : K, Zm.phaseNormalize q ≤ Zm.pi
  phase_id : ∀ q : K, -Zm.pi < q → q ≤ Zm.pi → Zm.phaseNormalize q = q
  sin_phase : ∀ q : K, Zm.sin (Zm.phaseNormalize q) = Zm.sin q
  cos_phase : ∀ q : K, Zm.cos (Zm.phaseNormalize q) = Zm.cos q
  fromAA_isRot : ∀ a : Vec3 K, (Zm.fromAA a).IsRot
  fromAA_zero : Zm.fromAA (0 : Vec3 K) = 1
  fromAA_toAA : ∀ m : Mat3 K, m.IsRot → Zm.fromAA (Zm.toAA m) = m
  toAA_one : Zm.toAA (1 : Mat3 K) = 0
  tiny_zero : Zm.tiny (0 : K) = true
  sgn_mul_self : ∀ v : K, 0 ≤ Zm.sgn v * v
  matInv_right : ∀ (n : ℕ) (h g : ℕ → ℕ → K),
    (∀ i < n, ∀ k < n, ∑ j ∈ Finset.range n, h i j * g j k = if i = k then 1 else 0) →
    ∀ i < n, ∀ k < n, ∑ j ∈ Finset.range n, h i j * Zm.matInv n h j k = if i = k then 1 else 0

section
variable {K : Type*} [LinearOrder K]

/-- `zLimit(v,min,max)` (ZM); a bound of `±HUGE_VAL` is `none`. -/
def limit (v : K) (lo hi : Option K) : K :=
  let u := match hi with
    | none => v
    | some h => min v h
  match lo with
  | none => u
  | some l => max u l
end

section
variable {K : Type*} [Field K] [Zm K]
/-- `zMat3DError(a,b)` (Zeo): angle-axis vector of the rotation taking `b` to `a`. -/
def mat3Error (a b : Mat3 K) : Vec3 K := Zm.toAA (a.mul b.tr)

/-- `zAACascade(a,d)` (Zeo): the rotation `d` applied after the rotation `a`. -/
def aaCascade (a d : Vec3 K) : Vec3 K := Zm.toAA ((Zm.fromAA d).mul (Zm.fromAA a))
end

end Roki
