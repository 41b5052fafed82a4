import Verif.Model.Joint
set_option autoImplicit false

/-! # What a joint reports of its motor: rkJointMotorInertia, rkJointMotorInputTrq,
rkJointMotorRegistance and rkJointMotorDrivingTrq (include/roki/rk_joint.h:177-182)

The caller gives a buffer.  A buffer shorter than what is written is undefined behaviour: `none`. -/

namespace Roki.Prp
variable {K : Type*} [Field K]

/-- `zRawVecZero( val, n )` (`zVec3DZero`, `zMat3DZero`, `zVec6DZero`, `zMat6DZero`, `*val = 0.0`): the
first `n` elements of the buffer become zero. -/
def zeroFront (n : ℕ) (val : List K) : Option (List K) :=
  if n ≤ val.length then some (List.replicate n 0 ++ val.drop n) else none

/-- A motor writes its value to `*val`. -/
def putFirst (x : K) (val : List K) : Option (List K) :=
  match val with
  | _ :: t => some (x :: t)
  | [] => none

/-- `rkJointMotorInertia(j,i)`: rk_joint_fixed.c:61, rk_joint_revol.c:176-179, rk_joint_prism.c:169-172,
rk_joint_cylin.c:193-196, rk_joint_hooke.c:224-227, rk_joint_spher.c:187-190, rk_joint_float.c:193,
rk_joint_brfloat.c:200. -/
def motorInertiaBuf (p : Prp K) (val : List K) : Option (List K) :=
  match p with
  | fixed => some val
  | revol p => (zeroFront 1 val).bind (putFirst p.motor.inertia)
  | prism p => (zeroFront 1 val).bind (putFirst p.motor.inertia)
  | cylin p => (zeroFront 4 val).bind (putFirst p.motor.inertia)
  | hooke p => (zeroFront 4 val).bind (putFirst p.motor.inertia)
  | spher p => (zeroFront 9 val).bind (putFirst p.motor.inertia)
  | float _ => zeroFront 36 val
  | brfloat _ => zeroFront 36 val

/-- `rkJointMotorInputTrq(j,t)`: rk_joint_fixed.c:62, rk_joint_revol.c:181-184, rk_joint_prism.c:174-177,
rk_joint_cylin.c:197-200, rk_joint_hooke.c:229-232, rk_joint_spher.c:192-195, rk_joint_float.c:194,
rk_joint_brfloat.c:201. -/
def motorInputTrqBuf (p : Prp K) (val : List K) : Option (List K) :=
  match p with
  | fixed => some val
  | revol p => (zeroFront 1 val).bind (putFirst p.motor.inputTrq)
  | prism p => (zeroFront 1 val).bind (putFirst p.motor.inputTrq)
  | cylin p => (zeroFront 2 val).bind (putFirst p.motor.inputTrq)
  | hooke p => (zeroFront 2 val).bind (putFirst p.motor.inputTrq)
  | spher p => (zeroFront 3 val).bind (putFirst p.motor.inputTrq)
  | float _ => zeroFront 6 val
  | brfloat _ => zeroFront 6 val

/-- `rkJointMotorRegistance(j,r)`: rk_joint_fixed.c:63, rk_joint_revol.c:186-189, rk_joint_prism.c:179-182,
rk_joint_cylin.c:201-204, rk_joint_hooke.c:234-237, rk_joint_spher.c:197-200, rk_joint_float.c:195,
rk_joint_brfloat.c:202. -/
def motorResistanceBuf (p : Prp K) (val : List K) : Option (List K) :=
  match p with
  | fixed => some val
  | revol p => (zeroFront 1 val).bind (putFirst (p.motor.resistance p.vel))
  | prism p => (zeroFront 1 val).bind (putFirst (p.motor.resistance p.vel))
  | cylin p => (zeroFront 2 val).bind (putFirst (p.motor.resistance p.vel0))
  | hooke p => (zeroFront 2 val).bind (putFirst (p.motor.resistance p.vel0))
  | spher p => (zeroFront 3 val).bind (putFirst (p.motor.resistance p.vel.x))
  | float _ => zeroFront 6 val
  | brfloat _ => zeroFront 6 val

/-- `rkJointMotorDrivingTrq(j,t)`: rk_joint_fixed.c:64, rk_joint_revol.c:191-194, rk_joint_prism.c:184-187,
rk_joint_cylin.c:205-208, rk_joint_hooke.c:239-242, rk_joint_spher.c:202-205, rk_joint_float.c:196,
rk_joint_brfloat.c:203. -/
def motorDrivingTrqBuf (p : Prp K) (val : List K) : Option (List K) :=
  match p with
  | fixed => some val
  | revol p => (zeroFront 1 val).bind (putFirst (p.motor.drivingTrq p.vel p.acc))
  | prism p => (zeroFront 1 val).bind (putFirst (p.motor.drivingTrq p.vel p.acc))
  | cylin p => (zeroFront 2 val).bind (putFirst (p.motor.drivingTrq p.vel0 p.acc0))
  | hooke p => (zeroFront 2 val).bind (putFirst (p.motor.drivingTrq p.vel0 p.acc0))
  | spher p => (zeroFront 3 val).bind (putFirst (p.motor.drivingTrq p.vel.x p.acc.x))
  | float _ => zeroFront 6 val
  | brfloat _ => zeroFront 6 val

end Roki.Prp
