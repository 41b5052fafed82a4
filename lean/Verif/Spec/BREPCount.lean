import Verif.Model.BREP
set_option autoImplicit false

/-! # Specification: the counter of discarded vertices (C68) -/

namespace Roki.Spec
open Brep
variable {K : Type*}

/-- The number of vertices of a boundary representation that are marked as discarded. -/
def discardedVerts (b : BREP K) : ℕ := (b.vs.reduceOption.filter fun v => v.discard).length

end Roki.Spec
