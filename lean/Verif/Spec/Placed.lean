import Verif.Spec.Kinematics
import Verif.Model.ChainTree
set_option autoImplicit false

/-! # Specification: a robot placed elsewhere (C102) -/

namespace Roki.Spec
variable {K : Type*} [Field K]

/-- The chain placed elsewhere: the original frame of the root (`rkChainOrgFrame(c)`) is moved by `X`. -/
def placed (X : Frame K) (c : Chain K) : Chain K :=
  { c with link := c.link.modify 0 fun l => { l with org := X.cascade l.org } }

/-- The acceleration `g` of the world, without angular part, in axes turned by `X`. -/
def turned (X : Frame K) (g : Vec6 K) : Vec6 K := ⟨X.att.mulVec g.lin, 0⟩

end Roki.Spec
