import Verif.Spec.VirtualWork
set_option autoImplicit false

/-! # Specification: the coefficients of the velocities in the joint torques (C143) -/

namespace Roki.Spec
variable {K : Type*} [Field K]

/-- `k`-th joint torque by `rkChainID` and `rkChainGetJointTrqAll` for the joint velocities `vel`, without gravity and joint accelerations. -/
def torqueAt (c : Chain K) (vel : List K) (k : ℕ) : K :=
  ((idTorque 0 vel (List.replicate (LinkArray.jointSize c.link) 0) c).getD []).getD k 0

/-- The joint velocities of which only the `i`-th is not zero; it is one. -/
def single (n i : ℕ) : List K := (List.replicate n 0).set i 1

/-- The coefficient of the `i`-th and the `j`-th joint velocity in the `k`-th joint torque, found from four calls of `rkChainID`. -/
def coriolis (c : Chain K) (k i j : ℕ) : K :=
  let n := LinkArray.jointSize c.link
  (torqueAt c (List.zipWith (· + ·) (single n i) (single n j)) k - torqueAt c (single n i) k - torqueAt c (single n j) k +
    torqueAt c (List.replicate n 0) k) / 2

end Roki.Spec
