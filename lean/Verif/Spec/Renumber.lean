import Verif.Spec.Kinematics
import Verif.Spec.Tree
import Verif.Model.ChainTree
import Verif.Props.JointVector
set_option autoImplicit false

/-! # Specification: the same robot with its links numbered otherwise (C110) -/

namespace Roki.Spec
variable {K : Type*}

/-- `d` is the robot `c` described with another numbering of the links and another order of the children of each link: link `i` of
`c` is link `σ i` of `d`.  The links have the same ancestors (`path`) and the same properties (`link`), but not the same place in
the joint vectors. -/
structure Renumbered (σ : ℕ → ℕ) (c d : Chain K) : Prop where
  len : d.link.length = c.link.length
  inj : ∀ i j, i < c.link.length → j < c.link.length → σ i = σ j → i = j
  path : ∀ q, IsPath d.shape q ↔ ∃ p, IsPath c.shape p ∧ q = p.map σ
  link : ∀ (i : ℕ) (l : Link K), c.link[i]? = some l → ∃ m, d.link[σ i]? = some m ∧ m.org = l.org ∧ m.joint.prp = l.joint.prp ∧
    m.body.mp = l.body.mp ∧ m.body.extw = l.body.extw

/-- The joint vector `w` of `d` holds for the joint of link `σ i` the values that the joint vector `v` of `c` holds for the joint of
link `i`. -/
def SameValues (σ : ℕ → ℕ) (c d : Chain K) (v w : List K) : Prop :=
  ∀ (i : ℕ) (l m : Link K), c.link[i]? = some l → d.link[σ i]? = some m → slice w m = slice v l

end Roki.Spec
