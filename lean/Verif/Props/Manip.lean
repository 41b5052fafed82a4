import Verif.Model.Manip
import Verif.Props.Placed
import Verif.Props.Jacobi
import Verif.Lemmas.IKDescent
import Verif.Props.IKError
import Verif.Lemmas.JacobiSize
import Mathlib.Analysis.Matrix.PosDef
import Mathlib.Algebra.Order.Star.Real
import Mathlib.LinearAlgebra.FiniteDimensional.Lemmas
import Mathlib.LinearAlgebra.Matrix.SchurComplement
import Mathlib.LinearAlgebra.Matrix.ToLinearEquiv
set_option autoImplicit false

/-!
# C104: manipulability

The measure of manipulability of a Jacobian matrix.
-/

namespace Roki
open Jacobi Matrix
open scoped Matrix

theorem gram_eq {r n : ℕ} (J : Matrix (Fin r) (Fin n) ℝ) : gram J = J * J.transpose := by
  ext i j; simp [gram, Matrix.mul_apply]

theorem gram_psd {r n : ℕ} (J : Matrix (Fin r) (Fin n) ℝ) : (gram J).PosSemidef := by
  rw [gram_eq]
  simpa using posSemidef_self_mul_conjTranspose J

theorem manip_eq_zero {r n : ℕ} (J : Matrix (Fin r) (Fin n) ℝ) : manip J = 0 ↔ (gram J).det = 0 := by
  rw [manip, Real.sqrt_eq_zero (gram_psd J).det_nonneg]

/-- **C104** The manipulability of a matrix is a number that is not negative: the root is never taken of a negative number. -/
theorem C104_nonneg {r n : ℕ} (J : Matrix (Fin r) (Fin n) ℝ) : 0 ≤ manip J ∧ manip J ^ 2 = (J * J.transpose).det := by
  refine ⟨Real.sqrt_nonneg _, ?_⟩
  rw [manip, Real.sq_sqrt (gram_psd J).det_nonneg, gram_eq]

/-- **C104** The manipulability is zero exactly where a direction is lost: there is a direction along which no joint velocities
cause any motion. -/
theorem C104_singular {r n : ℕ} (J : Matrix (Fin r) (Fin n) ℝ) :
    manip J = 0 ↔ ∃ u : Fin r → ℝ, u ≠ 0 ∧ ∀ q : Fin n → ℝ, u ⬝ᵥ (J *ᵥ q) = 0 := by
  rw [manip_eq_zero, ← Matrix.exists_vecMul_eq_zero_iff, gram_eq]
  refine exists_congr fun u => and_congr_right fun _ => ?_
  have h := vecMul_self_mul_conjTranspose_eq_zero J u
  rw [Matrix.conjTranspose_eq_transpose_of_trivial] at h
  rw [h]
  constructor
  · intro h q; rw [Matrix.dotProduct_mulVec, h, zero_dotProduct]
  · intro h
    refine dotProduct_eq_zero _ fun q => ?_
    rw [← Matrix.dotProduct_mulVec]; exact h q

/-- **C104** For as many joints as directions it is the absolute value of the determinant. -/
theorem C104_square {n : ℕ} (J : Matrix (Fin n) (Fin n) ℝ) : manip J = |J.det| := by
  rw [manip, gram_eq, Matrix.det_mul, Matrix.det_transpose, Real.sqrt_mul_self_eq_abs]

/-- **C104** With fewer joints than directions it is zero. -/
theorem C104_few_joints {r n : ℕ} (J : Matrix (Fin r) (Fin n) ℝ) (h : n < r) : manip J = 0 := by
  rw [C104_singular]
  have hk := LinearMap.ker_ne_bot_of_finrank_lt (f := J.transpose.mulVecLin) (by simpa using h)
  obtain ⟨u, hu, hne⟩ := (Submodule.ne_bot_iff _).1 hk
  refine ⟨u, hne, fun q => ?_⟩
  rw [LinearMap.mem_ker, Matrix.mulVecLin_apply, Matrix.mulVec_transpose] at hu
  rw [Matrix.dotProduct_mulVec, hu, zero_dotProduct]

/-- **C104** It does not depend on the axes in which the motion is expressed. -/
theorem C104_axes {r n : ℕ} (J : Matrix (Fin r) (Fin n) ℝ) (R : Matrix (Fin r) (Fin r) ℝ) (hR : R * R.transpose = 1) :
    manip (R * J) = manip J := by
  rw [manip, manip, gram_eq, gram_eq, Matrix.transpose_mul, Matrix.mul_assoc, ← Matrix.mul_assoc J, ← Matrix.mul_assoc R,
    Matrix.det_mul, Matrix.det_mul, mul_right_comm, ← Matrix.det_mul, hR, Matrix.det_one, one_mul]

/-! ## Robots -/

open Spec LinkArray

theorem gram_mat (J : Mat ℝ) (i j : Fin 3) : gram (mat J) i j = (J.map fun v => v.get i * v.get j).sum := by
  simp only [gram, mat]
  induction J with
  | nil => simp
  | cons v J ih =>
    rw [List.map_cons, List.sum_cons, ← ih]
    exact Fin.sum_univ_succ (n := J.length) fun k => ((v :: J)[k.1]).get i * ((v :: J)[k.1]).get j

theorem mat_mulVec (J : Mat ℝ) (q : List ℝ) (h : q.length = J.length) (i : Fin 3) :
    (mat J *ᵥ fun k => q[k.1]'(by rw [h]; exact k.2)) i = (jacMul J q).get i := by
  rw [jacMul_get i J q h, Matrix.mulVec, dotProduct, Finset.sum_range]
  refine Finset.sum_congr rfl fun k _ => ?_
  rw [List.getD_eq_getElem?_getD, List.getD_eq_getElem?_getD, List.getElem?_eq_getElem k.2, List.getElem?_eq_getElem (by rw [h]; exact k.2)]
  rfl

/-- **C104** Of a robot: the manipulability of the Jacobian matrix of a point of a link is zero exactly where there is a
direction in which the point cannot move, whatever the joint velocities. -/
theorem C104_robot (c c1 : Chain ℝ) (h : c.WF) (hr : ∀ l ∈ c.link, l.org.att.IsRot ∧ l.joint.prp.WF)
    (ho : setOffset c.link = c.link) (h1 : c.updateFK = some c1) (m : Mat ℝ) (hm : m.length = jointSize c.link) (i : ℕ)
    (hi : i < c.link.length) (p : Vec3 ℝ) :
    ∃ J, wldLin c1 i p m = some J ∧ (manip (mat J) = 0 ↔ ∃ u : Vec3 ℝ, u ≠ 0 ∧
      ∀ g vel acc c2 l, vel.length = jointSize c.link → c1.invDyn g vel acc = some c2 → c2.link[i]? = some l →
        dot u (pointVelocity l p) = 0) := by
  obtain ⟨hp, hz⟩ := posed_of_fk h hr ho h1
  have key : ∀ vel : List ℝ, vel.length = jointSize c.link → ∃ c2 l, c1.invDyn 0 vel (List.replicate (jointSize c1.link) 0) = some c2 ∧
      c2.link[i]? = some l := by
    intro vel hv
    obtain ⟨c2, e⟩ := hp.invDyn 0 (v := vel) (a := List.replicate (jointSize c1.link) 0) (by rw [hv, hz]) (by simp)
    obtain ⟨T, hs, -, -, hw1, -⟩ := rateState h hr ho h1 e hv
    have : c2.link.length = c.link.length := by
      obtain ⟨-, -, -, -, -, hn, -⟩ := h.updateFK h1
      rw [hs.length, hn]
    exact ⟨c2, c2.link[i], e, List.getElem?_eq_getElem (by omega)⟩
  obtain ⟨c2, l, e2, hl⟩ := key (List.replicate (jointSize c.link) 0) (by simp)
  obtain ⟨J, eJ, lJ, -⟩ := C11_linear_jacobian c c1 c2 _ _ _ h hr ho (by simp) h1 e2 m hm i l hl p
  refine ⟨J, eJ, ?_⟩
  have vel_eq : ∀ g vel acc c2 l, vel.length = jointSize c.link → c1.invDyn g vel acc = some c2 → c2.link[i]? = some l →
      jacMul J vel = pointVelocity l p := by
    intro g vel acc c2 l hv e hl
    obtain ⟨J', eJ', -, hJ'⟩ := C11_linear_jacobian c c1 c2 g vel acc h hr ho hv h1 e m hm i l hl p
    rw [eJ] at eJ'; cases eJ'; exact hJ'
  have hdot : ∀ (u : Fin 3 → ℝ) (w : Vec3 ℝ), (u ⬝ᵥ fun k => w.get k) = dot ⟨u 0, u 1, u 2⟩ w := by
    intro u w
    simp [dotProduct, Fin.sum_univ_three, dot, Vec3.get]
  rw [C104_singular]
  constructor
  · rintro ⟨u, hne, hu⟩
    refine ⟨⟨u 0, u 1, u 2⟩, fun h0 => hne ?_, ?_⟩
    · have h0 := Vec3.ext_iff.1 h0
      funext k
      fin_cases k
      · exact h0.1
      · exact h0.2.1
      · exact h0.2.2
    · intro g vel acc c2 l hv e hl
      have hlen : vel.length = J.length := by rw [hv, lJ, hm]
      have := hu fun k => vel[k.1]'(by rw [hlen]; exact k.2)
      rw [← vel_eq g vel acc c2 l hv e hl, ← hdot, ← this]
      congr 1
      funext k
      exact (mat_mulVec J vel hlen k).symm
  · rintro ⟨u, hne, hu⟩
    refine ⟨fun k => u.get k, fun h0 => hne ?_, ?_⟩
    · exact Vec3.ext_iff.2 ⟨congrFun h0 0, congrFun h0 1, congrFun h0 2⟩
    · intro q
      obtain ⟨c2, l, e, hl⟩ := key (List.ofFn q) (by rw [List.length_ofFn, lJ, hm])
      have h3 := hu _ _ _ c2 l (by rw [List.length_ofFn, lJ, hm]) e hl
      rw [← vel_eq _ _ _ c2 l (by rw [List.length_ofFn, lJ, hm]) e hl] at h3
      have h4 := hdot (fun k => u.get k) (jacMul J (List.ofFn q))
      rw [show (⟨u.get ((0 : Fin 3) : ℕ), u.get ((1 : Fin 3) : ℕ), u.get ((2 : Fin 3) : ℕ)⟩ : Vec3 ℝ) = u from rfl, h3] at h4
      rw [← h4]
      congr 1
      funext k
      rw [← mat_mulVec J (List.ofFn q) (by simp)]
      congr 1
      funext j
      simp

/-- **C104** Removing a joint, any column of the matrix, never increases it. -/
theorem C104_more_joints {r n : ℕ} (J : Matrix (Fin r) (Fin (n + 1)) ℝ) (k : Fin (n + 1)) :
    manip (J.submatrix id k.succAbove) ≤ manip J := by
  refine Real.sqrt_le_sqrt ?_
  have e : gram J = gram (J.submatrix id k.succAbove) + replicateCol Unit (fun i => J i k) * replicateRow Unit (fun i => J i k) := by
    ext i j
    simp only [gram, Matrix.add_apply, Matrix.submatrix_apply, id, Matrix.mul_apply, replicateCol_apply, replicateRow_apply,
      Finset.univ_unique, Finset.sum_singleton]
    rw [Fin.sum_univ_succAbove _ k, add_comm]
  have hp := gram_psd (J.submatrix id k.succAbove)
  rcases hp.det_nonneg.eq_or_lt with h0 | h0
  · rw [← h0]; exact (gram_psd J).det_nonneg
  · rw [e, det_add_replicateCol_mul_replicateRow (Ne.isUnit h0.ne')]
    refine le_mul_of_one_le_right h0.le ?_
    rw [Matrix.det_unique, Matrix.add_apply, Matrix.one_apply_eq]
    have hi := hp.inv.dotProduct_mulVec_nonneg (fun i => J i k)
    have : (replicateRow Unit (fun i => J i k) * (gram (J.submatrix id k.succAbove))⁻¹ * replicateCol Unit (fun i => J i k)) default default =
        star (fun i => J i k) ⬝ᵥ ((gram (J.submatrix id k.succAbove))⁻¹ *ᵥ fun i => J i k) := by
      rw [Matrix.mul_assoc]
      simp [Matrix.mul_apply, dotProduct, Matrix.mulVec]
    rw [this]
    linarith

theorem mulVec_get (R : Mat3 ℝ) (v : Vec3 ℝ) (i : Fin 3) :
    (R.mulVec v).get i = R.cx.get i * v.get 0 + R.cy.get i * v.get 1 + R.cz.get i * v.get 2 := by
  fin_cases i <;> simp [Mat3.mulVec, Vec3.get] <;> ring

/-- The matrix of a rotation. -/
def rotMat (R : Mat3 ℝ) : Matrix (Fin 3) (Fin 3) ℝ := fun i j => match j with
  | 0 => R.cx.get i
  | 1 => R.cy.get i
  | 2 => R.cz.get i

theorem rotMat_orth {R : Mat3 ℝ} (hR : R.IsRot) : rotMat R * (rotMat R).transpose = 1 := by
  rw [mul_eq_one_comm]
  obtain ⟨xx, yy, zz, xy, yz, zx, -⟩ := hR
  ext i j
  fin_cases i <;> fin_cases j <;>
    simp [Matrix.mul_apply, Fin.sum_univ_three, rotMat, Vec3.get, dot] at * <;> linarith

theorem manip_turn {R : Mat3 ℝ} (hR : R.IsRot) (J : Mat ℝ) : manip (mat (J.map R.mulVec)) = manip (mat J) := by
  rw [← C104_axes (mat J) (rotMat R) (rotMat_orth hR), manip, manip]
  congr 2
  ext i j
  rw [gram_mat, List.map_map]
  have : gram (rotMat R * mat J) i j = ((J.map fun v => (R.mulVec v).get i * (R.mulVec v).get j)).sum := by
    have hm : ∀ (a : Fin 3) (k : Fin J.length), (rotMat R * mat J) a k = (R.mulVec (J[k.1])).get a := by
      intro a k
      rw [mulVec_get, Matrix.mul_apply, Fin.sum_univ_three]
      rfl
    simp only [gram, hm]
    rw [← List.sum_ofFn]
    congr 1
    apply List.ext_getElem
    · simp
    · intro n h1 h2; simp
  rw [this]
  rfl

/-- **C104** Placing the robot elsewhere does not change the manipulability of a point of a link. -/
theorem C104_placement (c c1 : Chain ℝ) (X : Frame ℝ) (hX : X.att.IsRot) (h : c.WF)
    (hr : ∀ l ∈ c.link, l.org.att.IsRot ∧ l.joint.prp.WF) (ho : setOffset c.link = c.link) (h1 : c.updateFK = some c1) (m : Mat ℝ)
    (hm : m.length = jointSize c.link) (i : ℕ) (hi : i < c.link.length) (p : Vec3 ℝ) :
    ∃ d1 J J', (placed X c).updateFK = some d1 ∧ wldLin c1 i p m = some J ∧ wldLin d1 i p m = some J' ∧ manip (mat J') = manip (mat J) := by
  obtain ⟨d1, f1, hframe⟩ := C102_frames c c1 X h h1
  have hos : (placed X c).link.map (fun l : Link ℝ => (l.offset, l.size)) = c.link.map fun l => (l.offset, l.size) := by
    apply List.ext_getElem?
    intro i
    rw [List.getElem?_map, List.getElem?_map, placed_getElem]
    split
    · rw [Option.map_map]; rfl
    · rfl
  obtain ⟨o2, z2⟩ := offsets_of_sizes hos 0 ho
  have hr2 : ∀ l ∈ (placed X c).link, l.org.att.IsRot ∧ l.joint.prp.WF := by
    intro l hl
    obtain ⟨i, hi⟩ := List.mem_iff_getElem?.1 hl
    rw [placed_getElem] at hi
    split at hi
    · obtain ⟨m, hm, rfl⟩ := Option.map_eq_some_iff.1 hi
      obtain ⟨r1, r2⟩ := hr m (List.mem_of_getElem? hm)
      exact ⟨hX.mul r1, r2⟩
    · exact hr l (List.mem_of_getElem? hi)
  have hzz : jointSize (placed X c).link = jointSize c.link := by rw [jointSize_eq, jointSize_eq, z2]
  have key : ∀ vel : List ℝ, vel.length = jointSize c.link → ∃ J J', wldLin c1 i p m = some J ∧ wldLin d1 i p m = some J' ∧
      J.length = m.length ∧ J'.length = m.length ∧ jacMul J' vel = X.att.mulVec (jacMul J vel) := by
    intro vel hv
    obtain ⟨d1', c2, d2, g1, g2, g3, -, hl⟩ := C102_dynamics c c1 X hX h hr ho h1 0 rfl vel (List.replicate (jointSize c.link) 0) hv
      (by simp)
    rw [f1] at g1; cases g1
    obtain ⟨T, hs, -⟩ := rateState h hr ho h1 g2 hv
    obtain ⟨T', hs', -⟩ := rateState (placed_wf h) hr2 o2 f1 g3 (by rw [hzz, hv])
    have n1 : c2.link.length = c.link.length := by
      obtain ⟨-, -, -, -, -, hn, -⟩ := h.updateFK h1
      rw [hs.length, hn]
    have n2 : d2.link.length = c.link.length := by
      obtain ⟨-, -, -, -, -, hn, -⟩ := (placed_wf (X := X) h).updateFK f1
      rw [hs'.length, hn]; simp [placed]
    have e1 : c2.link[i]? = some c2.link[i] := List.getElem?_eq_getElem (by omega)
    have e2 : d2.link[i]? = some d2.link[i] := List.getElem?_eq_getElem (by omega)
    obtain ⟨x1, hx1, -, -, fx, -⟩ := hs.link e1
    obtain ⟨y1, hy1, -, -, fy, -⟩ := hs'.link e2
    obtain ⟨J, a1, a2, a3⟩ := C11_linear_jacobian c c1 c2 _ vel _ h hr ho hv h1 g2 m hm i _ e1 p
    obtain ⟨J', b1, b2, b3⟩ := C11_linear_jacobian (placed X c) d1 d2 _ vel _ (placed_wf h) hr2 o2 (by rw [hzz, hv]) f1 g3 m
      (by rw [hzz, hm]) i _ e2 p
    refine ⟨J, J', a1, b1, a2, b2, ?_⟩
    rw [a3, b3, pointVelocity, pointVelocity, (hl i _ _ e1 e2).1]
    have ff := (hframe i _ _ hx1 hy1).1
    rw [← fx, ← fy, ff, Frame.cascade, Mat3.mul_mulVec]
  obtain ⟨J, J', a1, b1, a2, b2, -⟩ := key (List.replicate (jointSize c.link) 0) (by simp)
  refine ⟨d1, J, J', f1, a1, b1, ?_⟩
  have hJ : J' = J.map X.att.mulVec := by
    apply List.ext_getElem
    · rw [List.length_map, a2, b2]
    · intro k hk1 hk2
      obtain ⟨J2, J2', c1, c2, -, -, hk⟩ := key (unitVec (jointSize c.link) k) (unitVec_length _ _)
      rw [a1] at c1; cases c1
      rw [b1] at c2; cases c2
      rw [jacMul_unitVec (by rw [b2, hm]) (by omega), jacMul_unitVec (by rw [a2, hm]) (by omega)] at hk
      rw [List.getElem_map]
      rw [List.getD_eq_getElem?_getD, List.getD_eq_getElem?_getD, List.getElem?_eq_getElem hk1,
        List.getElem?_eq_getElem (by rw [a2, ← b2]; exact hk1)] at hk
      exact hk
  rw [hJ, manip_turn hX]

/-! ### Examples -/

/-- Two sliders at right angles have manipulability one in the plane; in line they have none. -/
example : manip !![(1 : ℝ), 0; 0, 1] = 1 ∧ manip !![(1 : ℝ), 1; 0, 0] = 0 := by
  rw [C104_square, C104_square]; simp [Matrix.det_fin_two]

/-- A turning arm with a tip meets the hypotheses of `C104_robot`: it has one joint, so the tip cannot move in some direction. -/
example : ∃ c1 J, (Sample.tipArm 0).updateFK = some c1 ∧ wldLin c1 1 0 [0] = some J ∧ manip (mat J) = 0 := by
  obtain ⟨c1, hfk, -⟩ := Sample.tipArm_fk
  obtain ⟨J, hJ, -⟩ := C104_robot (Sample.tipArm 0) (c1 0) (Sample.tipArm_motion.wf 0) (Sample.tipArm_motion.rot' 0) rfl (hfk 0) [0] rfl 1
    (by decide) 0
  refine ⟨c1 0, J, hfk 0, hJ, C104_few_joints _ ?_⟩
  have : J.length = 1 := wldPos_sized (c1 0) ⟨1, 0, 0, true, true, true, false, 0⟩ [0] J hJ
  omega

end Roki
