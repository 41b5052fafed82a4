import Verif.Model.Jacobi
import Verif.Model.ABI
import Mathlib.LinearAlgebra.Matrix.Determinant.Basic
import Mathlib.Analysis.SpecialFunctions.Pow.NNReal
set_option autoImplicit false

/-! # Manipulability (src/rk_jacobi.c) -/

namespace Roki.Jacobi

/-- The product `zMulMatMatT( jacobi, jacobi, k )` of a matrix and its transpose, src/rk_jacobi.c:216. -/
def gram {r n : ℕ} (J : Matrix (Fin r) (Fin n) ℝ) : Matrix (Fin r) (Fin r) ℝ := fun i j => ∑ k, J i k * J j k

/-- `rkJacobiManip`, src/rk_jacobi.c:207-220, for a matrix of `r` rows and `n` columns.  `zMatDet` of ZM is the determinant; the
failure of the allocation of `k` is not modelled. -/
noncomputable def manip {r n : ℕ} (J : Matrix (Fin r) (Fin n) ℝ) : ℝ := Real.sqrt (gram J).det

/-- A Jacobian matrix, the list of its columns, as a matrix. -/
def mat (J : Mat ℝ) : Matrix (Fin 3) (Fin J.length) ℝ := fun i k => (J[k.1]'k.2).get i

end Roki.Jacobi
