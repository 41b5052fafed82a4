import Verif.Model.Ellips

/-! # Specification of ellipsoids and principal axes -/

namespace Roki.Spec
set_option autoImplicit false
variable {K : Type*} [Field K]

/-- `e` are unit eigenvectors of `I` at right angles to each other, with their eigenvalues. -/
structure IsEig (I : Mat3 K) (e : Eig K) : Prop where
  xx : dot e.e1 e.e1 = 1
  yy : dot e.e2 e.e2 = 1
  zz : dot e.e3 e.e3 = 1
  xy : dot e.e1 e.e2 = 0
  yz : dot e.e2 e.e3 = 0
  zx : dot e.e3 e.e1 = 0
  h1 : I.mulVec e.e1 = e.v1 • e.e1
  h2 : I.mulVec e.e2 = e.v2 • e.e2
  h3 : I.mulVec e.e3 = e.v3 • e.e3

/-- The points of the surface of an ellipsoid: combinations of the half axes with coefficients on the unit sphere. -/
def surface (e : Ellips K) : Set (Vec3 K) :=
  {x | ∃ a b c : K, a * a + b * b + c * c = 1 ∧
    x = e.center + ((a * e.rx) • e.ax + ((b * e.ry) • e.ay + (c * e.rz) • e.az))}

/-- The textbook inertia ellipsoid (Poinsot, Cauchy) of a body with the inertia tensor `I` about the point `q`. -/
def momental (I : Mat3 K) (q : Vec3 K) : Set (Vec3 K) := {x | dot (x - q) (I.mulVec (x - q)) = 1}

end Roki.Spec
