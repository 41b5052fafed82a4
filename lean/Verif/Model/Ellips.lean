import Verif.Model.Body

/-! # Model of the inertial ellipsoid -/

namespace Roki
set_option autoImplicit false
variable {K : Type*}

/-- `zEllips3D` (Zeo): center, axes and radii.  The number of divisions for drawing is left out. -/
structure Ellips (K : Type*) where
  center : Vec3 K
  ax : Vec3 K
  ay : Vec3 K
  az : Vec3 K
  rx : K
  ry : K
  rz : K

/-- What `zMat3DSymEig` (Zeo) writes: three eigenvalues and three eigenvectors. -/
structure Eig (K : Type*) where
  v1 : K
  v2 : K
  v3 : K
  e1 : Vec3 K
  e2 : Vec3 K
  e3 : Vec3 K

/-- `rkMPInertiaEllips`, src/rk_body.c:89-96, and `rkBodyInertiaEllips`, include/roki/rk_body.h:215.  `eig` is `zMat3DSymEig`. -/
def MP.inertiaEllips (eig : Mat3 K → Eig K) (mp : MP K) : Ellips K :=
  let e := eig mp.inertia
  ⟨mp.com, e.e1, e.e2, e.e3, e.v1, e.v2, e.v3⟩

end Roki
