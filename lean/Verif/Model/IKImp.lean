import Verif.Model.IK
set_option autoImplicit false

/-! # Impedance controllers of the inverse kinematics solver (src/rk_ik_imp.c) -/

namespace Roki
variable {K : Type*} [Field K]

/-- `rkIKImp`, include/roki/rk_ik_imp.h:21-24: stiffness and damping per axis, set by `rkIKImpSetK` (26) and `rkIKImpSetC` (27). -/
structure IKImp (K : Type*) where
  k : Vec3 K
  c : Vec3 K

namespace IKImp

/-- `rkIKImpWldAtt`, src/rk_ik_imp.c:25-36. -/
def wldAtt [Zm K] (imp : IKImp K) (c : Chain K) (a : IKAttr K) (r : Mat3 K) : Option (Vec3 K) :=
  c.link[a.id]?.map fun l =>
    ikImpSRV (mat3Error r l.body.frame.att) (l.body.frame.att.mulVec l.body.vel.ang) imp.k imp.c

/-- `rkIKImpWldPos`, src/rk_ik_imp.c:39-50. -/
def wldPos (imp : IKImp K) (c : Chain K) (a : IKAttr K) (r : Mat3 K) : Option (Vec3 K) :=
  c.link[a.id]?.map fun l =>
    ikImpSRV (r.cx - l.body.frame.xform a.ap) (l.body.frame.att.mulVec (l.pointVel a.ap)) imp.k imp.c

/-- `rkIKImpWldCOM`, src/rk_ik_imp.c:53-61. -/
def wldCOM (imp : IKImp K) (c : Chain K) (_ : IKAttr K) (r : Mat3 K) : Option (Vec3 K) :=
  some (ikImpSRV (r.cx - c.wldCOM) c.comVel imp.k imp.c)

end IKImp
end Roki
