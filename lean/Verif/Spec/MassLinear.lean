import Verif.Spec.VirtualWork
import Verif.Spec.Tree
set_option autoImplicit false

/-! # Specification: how the masses and loads of links enter the joint torques (C100, C101) -/

namespace Roki.Spec
variable {K : Type*} [Field K]

/-- The chain with the mass properties of link `i` replaced by `p i` (written through `rkLinkMP`) and its external wrenches by `e i`. -/
def withLoad (p : ℕ → MP K) (e : ℕ → WrenchList K) (c : Chain K) : Chain K :=
  { c with link := c.link.mapIdx fun i l => { l with body := { l.body with mp := p i, extw := e i } } }

/-- The mass, first moment and second moment (about the origin of the link) of `r` are `a` times those of `p` plus `b` times
those of `q`. -/
structure Blend (a b : K) (p q r : MP K) : Prop where
  mass : r.mass = a * p.mass + b * q.mass
  first : r.mass • r.com = a • (p.mass • p.com) + b • (q.mass • q.com)
  second : inertiaAbout r 0 = a • inertiaAbout p 0 + b • inertiaAbout q 0

/-- Total force and total moment about the origin of the link of the wrenches `e`, in link coordinates. -/
def resultant (e : WrenchList K) : Vec3 K × Vec3 K :=
  ((e.map fun w => w.w.lin).sum, (e.map fun w => w.w.ang + cross w.p w.w.lin).sum)

/-- Link `i` is carried by the joint of link `j`: `j` is on the path from the root to `i` (possibly `i` itself). -/
def Carries (c : Chain K) (j i : ℕ) : Prop := ∃ path, IsPath c.shape (path ++ [i]) ∧ j ∈ path ++ [i]

end Roki.Spec
