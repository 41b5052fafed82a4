import Verif.Spec.Coriolis
import Verif.Spec.Lagrange
set_option autoImplicit false

/-! # Specification: kinetic energy as a function of displacements and velocities (C143) -/

namespace Roki.Spec
open LinkArray

/-- What `rkChainKE` gives after `rkChainFK(c,q)` and `rkChainID(c,v,0)` without gravity. -/
noncomputable def kineticAt [Zm ℝ] (c : Chain ℝ) (q v : List ℝ) : Option ℝ :=
  (c.fk q).bind fun c1 => (c1.invDyn 0 v (List.replicate v.length 0)).map fun c2 => ke c2.link

/-- The inertia between the joint velocities `v` and `u` at the displacements `q`, found from three kinetic energies: that of the sum of the
velocities less those of each. -/
noncomputable def mutualInertia [Zm ℝ] (c : Chain ℝ) (q v u : List ℝ) : Option ℝ :=
  (kineticAt c q (List.zipWith (· + ·) v u)).bind fun e => (kineticAt c q v).bind fun e1 => (kineticAt c q u).map fun e2 => e - e1 - e2

end Roki.Spec
