import Verif.Model.IK
set_option autoImplicit false

/-!
# The other two methods for the joint velocities

The arguments are those of `jv` of the solver: `_c_mat`, `_c_srv`, `_j_wn`, `_c_we` and the former `_j_vel`, of which the size is used only.
-/

namespace Roki.IK
variable {K : Type*}

/-- `rkIKJointVelMP`, src/rk_ik.c:295-299.  `solve a b wn we n` is the answer of `zLESolveMP` (ZM), with `n` components. -/
def jointVelMP (solve : List (List K) → List K → List K → List K → ℕ → ℕ → K) (cmat : List (List K)) (csrv jwn cwe jvel : List K) : ℕ → K :=
  solve cmat csrv jwn cwe jvel.length

/-- `rkIKJointVelSR`, src/rk_ik.c:302-307.  `solve a b wn we n` is the answer of `zLESolveSRDST` (ZM), with `n` components; the copy of
`_c_srv` on line 304 protects it from being overwritten, which is not modelled. -/
def jointVelSR (solve : List (List K) → List K → List K → List K → ℕ → ℕ → K) (cmat : List (List K)) (csrv jwn cwe jvel : List K) : ℕ → K :=
  solve cmat csrv jwn cwe jvel.length

end Roki.IK
