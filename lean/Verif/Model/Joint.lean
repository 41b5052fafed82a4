import Verif.Model.Motor

/-!
# Joints: src/rk_joint.c and src/rk_joint_{fixed,revol,prism,cylin,hooke,spher,float,brfloat}.c

A joint holds a pointer to a table of functions and a property block.  The model is an inductive
type with one constructor per table; every C entry point becomes one function by cases.
Buffers `double *val` are lists; a read past the end of a list is the outcome `none`.
-/

namespace Roki

/-- `rkJointFrictionPivot`, include/roki/rk_joint.h:25-28. -/
@[ext] structure FricPivot (K : Type*) where
  type : ℕ
  refDis : K
  prevTrq : K
deriving DecidableEq, Repr

/-- `rkJointRevolPrp` / `rkJointPrismPrp`, include/roki/rk_joint_revol.h,
include/roki/rk_joint_prism.h; `s`, `c` are the cached `_s`, `_c` (not used by the prismatic
joint), `lo`, `hi` are `min`, `max`. -/
@[ext] structure Dof1 (K : Type*) where
  dis : K
  vel : K
  acc : K
  trq : K
  lo : Option K
  hi : Option K
  stiffness : K
  viscosity : K
  coulomb : K
  s : K
  c : K
  tf : K
  sf : K
  motor : Motor K
  fp : FricPivot K
  u : K
deriving DecidableEq, Repr

/-- `rkJointCylinPrp` / `rkJointHookePrp`, include/roki/rk_joint_cylin.h,
include/roki/rk_joint_hooke.h.  Arrays of length two are pairs of fields.  For the cylindrical
joint only `s1`, `c1` (its `_s`, `_c`) are used. -/
@[ext] structure Dof2 (K : Type*) where
  dis0 : K
  dis1 : K
  vel0 : K
  vel1 : K
  acc0 : K
  acc1 : K
  trq0 : K
  trq1 : K
  lo0 : Option K
  lo1 : Option K
  hi0 : Option K
  hi1 : Option K
  stiffness0 : K
  stiffness1 : K
  viscosity0 : K
  viscosity1 : K
  coulomb0 : K
  coulomb1 : K
  s0 : K
  s1 : K
  c0 : K
  c1 : K
  tf0 : K
  tf1 : K
  sf0 : K
  sf1 : K
  motor : Motor K
  fp0 : FricPivot K
  fp1 : FricPivot K
  u0 : K
  u1 : K
deriving DecidableEq, Repr

/-- `rkJointSpherPrp`, include/roki/rk_joint_spher.h. -/
@[ext] structure SpherPrp (K : Type*) where
  aa : Vec3 K
  vel : Vec3 K
  acc : Vec3 K
  trq : Vec3 K
  att : Mat3 K
  motor : Motor K
deriving DecidableEq, Repr

/-- `rkJointFloatPrp` / `rkJointBrFloatPrp`, include/roki/rk_joint_float.h,
include/roki/rk_joint_brfloat.h; the thresholds `epf`, `ept` (`none` = `HUGE_VAL`) belong to the
breakable joint only. -/
@[ext] structure FloatPrp (K : Type*) where
  dis : Vec6 K
  vel : Vec6 K
  acc : Vec6 K
  trq : Vec6 K
  att : Mat3 K
  epf : Option K
  ept : Option K
deriving DecidableEq, Repr

/-- The pair (`com`, `prp`) of `rkJoint`, include/roki/rk_joint.h:90-94. -/
inductive Prp (K : Type*) where
  | fixed
  | revol (p : Dof1 K)
  | prism (p : Dof1 K)
  | cylin (p : Dof2 K)
  | hooke (p : Dof2 K)
  | spher (p : SpherPrp K)
  | float (p : FloatPrp K)
  | brfloat (p : FloatPrp K)
deriving DecidableEq, Repr

/-- `rkJoint`, include/roki/rk_joint.h:90-94. -/
@[ext] structure Joint (K : Type*) where
  prp : Prp K
  wrench : Vec6 K
deriving DecidableEq, Repr

/-- Read a `zVec3D` from a buffer. -/
def Vec3.ofBuf {K : Type*} : List K → Option (Vec3 K)
  | a :: b :: c :: _ => some ⟨a, b, c⟩
  | _ => none

/-- Read a `zVec6D` from a buffer. -/
def Vec6.ofBuf {K : Type*} : List K → Option (Vec6 K)
  | a :: b :: c :: d :: e :: f :: _ => some ⟨⟨a, b, c⟩, ⟨d, e, f⟩⟩
  | _ => none

/-- Components of a `zVec3D` in memory order. -/
def Vec3.toBuf {K : Type*} (v : Vec3 K) : List K := [v.x, v.y, v.z]

/-- Components of a `zVec6D` in memory order. -/
def Vec6.toBuf {K : Type*} (v : Vec6 K) : List K := v.lin.toBuf ++ v.ang.toBuf

namespace Prp
variable {K : Type*}

/-- `com->size`, the second field of each `rkJointCom` table (src/rk_joint_fixed.c:95,
rk_joint_revol.c, rk_joint_prism.c:333, rk_joint_cylin.c:392, rk_joint_hooke.c:360,
rk_joint_spher.c:269, rk_joint_float.c:259, rk_joint_brfloat.c:309). -/
def size : Prp K → ℕ
  | fixed => 0
  | revol _ => 1
  | prism _ => 1
  | cylin _ => 2
  | hooke _ => 2
  | spher _ => 3
  | float _ => 6
  | brfloat _ => 6

/-- `com->typestr`, the first field of each `rkJointCom` table. -/
def typeStr : Prp K → String
  | fixed => "fixed"
  | revol _ => "revolute"
  | prism _ => "prismatic"
  | cylin _ => "cylindrical"
  | hooke _ => "hooke"
  | spher _ => "spherical"
  | float _ => "float"
  | brfloat _ => "breakablefloat"

/-! ## Setters and getters -/

section
variable [Field K] [LinearOrder K] [Zm K]

/-- `rkJointLimDis`: rk_joint_revol.c:20-24, rk_joint_prism.c:20-22, rk_joint_cylin.c:22-29,
rk_joint_hooke.c:22-30, rk_joint_spher.c:18-20, rk_joint_float.c:16-18, rk_joint_brfloat.c:25-27,
rk_joint_fixed.c:14. -/
def limDis (p : Prp K) (val : List K) : Option (List K) :=
  match p with
  | fixed => some []
  | revol p => match val with
    | v :: _ => some [limit (Zm.phaseNormalize v) p.lo p.hi]
    | _ => none
  | prism p => match val with
    | v :: _ => some [limit v p.lo p.hi]
    | _ => none
  | cylin p => match val with
    | v :: w :: _ => some [limit v p.lo0 p.hi0, limit (Zm.phaseNormalize w) p.lo1 p.hi1]
    | _ => none
  | hooke p => match val with
    | v :: w :: _ =>
      some [limit (Zm.phaseNormalize v) p.lo0 p.hi0, limit (Zm.phaseNormalize w) p.lo1 p.hi1]
    | _ => none
  | spher _ => (Vec3.ofBuf val).map Vec3.toBuf
  | float _ => (Vec6.ofBuf val).map Vec6.toBuf
  | brfloat _ => (Vec6.ofBuf val).map Vec6.toBuf

/-- `rkJointSetDis`: rk_joint_fixed.c:17, rk_joint_revol.c:27-30, rk_joint_prism.c:25-27,
rk_joint_cylin.c:32-35, rk_joint_hooke.c:33-41, rk_joint_spher.c:23-26, rk_joint_float.c:21-24,
rk_joint_brfloat.c:30-33. -/
def setDis (p : Prp K) (val : List K) : Option (Prp K) :=
  match p with
  | fixed => some fixed
  | revol p => match val with
    | v :: _ =>
      let d := limit (Zm.phaseNormalize v) p.lo p.hi
      some (revol { p with dis := d, s := Zm.sin d, c := Zm.cos d })
    | _ => none
  | prism p => match val with
    | v :: _ => some (prism { p with dis := limit v p.lo p.hi })
    | _ => none
  | cylin p => match val with
    | v :: w :: _ =>
      let d1 := limit (Zm.phaseNormalize w) p.lo1 p.hi1
      some (cylin { p with dis0 := limit v p.lo0 p.hi0, dis1 := d1, s1 := Zm.sin d1, c1 := Zm.cos d1 })
    | _ => none
  | hooke p => match val with
    | v :: w :: _ =>
      let d0 := limit (Zm.phaseNormalize v) p.lo0 p.hi0
      let d1 := limit (Zm.phaseNormalize w) p.lo1 p.hi1
      some (hooke { p with
        dis0 := d0, s0 := Zm.sin d0, c0 := Zm.cos d0, dis1 := d1, s1 := Zm.sin d1, c1 := Zm.cos d1 })
    | _ => none
  | spher p => (Vec3.ofBuf val).map fun v => spher { p with aa := v, att := Zm.fromAA v }
  | float p => (Vec6.ofBuf val).map fun v => float { p with dis := v, att := Zm.fromAA v.ang }
  | brfloat p => (Vec6.ofBuf val).map fun v => brfloat { p with dis := v, att := Zm.fromAA v.ang }
end

/-- `rkJointSetVel`: rk_joint_revol.c:40-42, rk_joint_prism.c:37-39, rk_joint_cylin.c:45-47,
rk_joint_hooke.c:51-53, rk_joint_spher.c:30-32, rk_joint_float.c:28-30, rk_joint_brfloat.c:37-39. -/
def setVel (p : Prp K) (val : List K) : Option (Prp K) :=
  match p with
  | fixed => some fixed
  | revol p => match val with | v :: _ => some (revol { p with vel := v }) | _ => none
  | prism p => match val with | v :: _ => some (prism { p with vel := v }) | _ => none
  | cylin p => match val with
    | v :: w :: _ => some (cylin { p with vel0 := v, vel1 := w }) | _ => none
  | hooke p => match val with
    | v :: w :: _ => some (hooke { p with vel0 := v, vel1 := w }) | _ => none
  | spher p => (Vec3.ofBuf val).map fun v => spher { p with vel := v }
  | float p => (Vec6.ofBuf val).map fun v => float { p with vel := v }
  | brfloat p => (Vec6.ofBuf val).map fun v => brfloat { p with vel := v }

/-- `rkJointSetAcc`: rk_joint_revol.c:44-46, rk_joint_prism.c:41-43, rk_joint_cylin.c:49-51,
rk_joint_hooke.c:55-57, rk_joint_spher.c:34-36, rk_joint_float.c:32-34, rk_joint_brfloat.c:41-43. -/
def setAcc (p : Prp K) (val : List K) : Option (Prp K) :=
  match p with
  | fixed => some fixed
  | revol p => match val with | v :: _ => some (revol { p with acc := v }) | _ => none
  | prism p => match val with | v :: _ => some (prism { p with acc := v }) | _ => none
  | cylin p => match val with
    | v :: w :: _ => some (cylin { p with acc0 := v, acc1 := w }) | _ => none
  | hooke p => match val with
    | v :: w :: _ => some (hooke { p with acc0 := v, acc1 := w }) | _ => none
  | spher p => (Vec3.ofBuf val).map fun v => spher { p with acc := v }
  | float p => (Vec6.ofBuf val).map fun v => float { p with acc := v }
  | brfloat p => (Vec6.ofBuf val).map fun v => brfloat { p with acc := v }

/-- `rkJointSetTrq`: rk_joint_revol.c:48-50, rk_joint_prism.c:45-47, rk_joint_cylin.c:53-55,
rk_joint_hooke.c:59-61, rk_joint_spher.c:38-40, rk_joint_float.c:36-38, rk_joint_brfloat.c:45-47. -/
def setTrq (p : Prp K) (val : List K) : Option (Prp K) :=
  match p with
  | fixed => some fixed
  | revol p => match val with | v :: _ => some (revol { p with trq := v }) | _ => none
  | prism p => match val with | v :: _ => some (prism { p with trq := v }) | _ => none
  | cylin p => match val with
    | v :: w :: _ => some (cylin { p with trq0 := v, trq1 := w }) | _ => none
  | hooke p => match val with
    | v :: w :: _ => some (hooke { p with trq0 := v, trq1 := w }) | _ => none
  | spher p => (Vec3.ofBuf val).map fun v => spher { p with trq := v }
  | float p => (Vec6.ofBuf val).map fun v => float { p with trq := v }
  | brfloat p => (Vec6.ofBuf val).map fun v => brfloat { p with trq := v }

/-- `rkJointSetMin`: rk_joint_revol.c:32-34, rk_joint_prism.c:29-31, rk_joint_cylin.c:37-39,
rk_joint_hooke.c:43-45; ignored by the other types (rk_joint_spher.c:28, rk_joint_float.c:26). -/
def setMin (p : Prp K) (val : List K) : Option (Prp K) :=
  match p with
  | revol p => match val with | v :: _ => some (revol { p with lo := some v }) | _ => none
  | prism p => match val with | v :: _ => some (prism { p with lo := some v }) | _ => none
  | cylin p => match val with
    | v :: w :: _ => some (cylin { p with lo0 := some v, lo1 := some w }) | _ => none
  | hooke p => match val with
    | v :: w :: _ => some (hooke { p with lo0 := some v, lo1 := some w }) | _ => none
  | p => some p

/-- `rkJointSetMax`: rk_joint_revol.c:36-38, rk_joint_prism.c:33-35, rk_joint_cylin.c:41-43,
rk_joint_hooke.c:47-49; ignored by the other types. -/
def setMax (p : Prp K) (val : List K) : Option (Prp K) :=
  match p with
  | revol p => match val with | v :: _ => some (revol { p with hi := some v }) | _ => none
  | prism p => match val with | v :: _ => some (prism { p with hi := some v }) | _ => none
  | cylin p => match val with
    | v :: w :: _ => some (cylin { p with hi0 := some v, hi1 := some w }) | _ => none
  | hooke p => match val with
    | v :: w :: _ => some (hooke { p with hi0 := some v, hi1 := some w }) | _ => none
  | p => some p

/-- `rkJointGetDis`: rk_joint_revol.c:53-55, rk_joint_prism.c:50-52, rk_joint_cylin.c:58-60,
rk_joint_hooke.c:64-66, rk_joint_spher.c:43-45, rk_joint_float.c:41-43, rk_joint_brfloat.c:50-52.
The result is the list of values written to the buffer. -/
def getDis : Prp K → List K
  | fixed => []
  | revol p => [p.dis]
  | prism p => [p.dis]
  | cylin p => [p.dis0, p.dis1]
  | hooke p => [p.dis0, p.dis1]
  | spher p => p.aa.toBuf
  | float p => p.dis.toBuf
  | brfloat p => p.dis.toBuf

/-- `rkJointGetVel`: rk_joint_revol.c:65-67, rk_joint_prism.c:62-64, rk_joint_cylin.c:70-72,
rk_joint_hooke.c:76-78, rk_joint_spher.c:55-57, rk_joint_float.c:53-55, rk_joint_brfloat.c:62-64. -/
def getVel : Prp K → List K
  | fixed => []
  | revol p => [p.vel]
  | prism p => [p.vel]
  | cylin p => [p.vel0, p.vel1]
  | hooke p => [p.vel0, p.vel1]
  | spher p => p.vel.toBuf
  | float p => p.vel.toBuf
  | brfloat p => p.vel.toBuf

/-- `rkJointGetAcc`: rk_joint_revol.c:69-71, rk_joint_prism.c:66-68, rk_joint_cylin.c:74-76,
rk_joint_hooke.c:80-82, rk_joint_spher.c:59-61, rk_joint_float.c:57-59, rk_joint_brfloat.c:66-68. -/
def getAcc : Prp K → List K
  | fixed => []
  | revol p => [p.acc]
  | prism p => [p.acc]
  | cylin p => [p.acc0, p.acc1]
  | hooke p => [p.acc0, p.acc1]
  | spher p => p.acc.toBuf
  | float p => p.acc.toBuf
  | brfloat p => p.acc.toBuf

/-- `rkJointGetTrq`: rk_joint_revol.c:73-75, rk_joint_prism.c:70-72, rk_joint_cylin.c:78-80,
rk_joint_hooke.c:84-86, rk_joint_spher.c:63-65, rk_joint_float.c:61-63, rk_joint_brfloat.c:70-72. -/
def getTrq : Prp K → List K
  | fixed => []
  | revol p => [p.trq]
  | prism p => [p.trq]
  | cylin p => [p.trq0, p.trq1]
  | hooke p => [p.trq0, p.trq1]
  | spher p => p.trq.toBuf
  | float p => p.trq.toBuf
  | brfloat p => p.trq.toBuf

/-- `rkJointGetMin`: rk_joint_revol.c:57-59, rk_joint_prism.c:54-56, rk_joint_cylin.c:62-64,
rk_joint_hooke.c:68-70, rk_joint_spher.c:47-49, rk_joint_float.c:45-47, rk_joint_brfloat.c:54-56
(`none` = `-HUGE_VAL`). -/
def getMin : Prp K → List (Option K)
  | fixed => []
  | revol p => [p.lo]
  | prism p => [p.lo]
  | cylin p => [p.lo0, p.lo1]
  | hooke p => [p.lo0, p.lo1]
  | spher _ => [none, none, none]
  | float _ => [none, none, none, none, none, none]
  | brfloat _ => [none, none, none, none, none, none]

/-- `rkJointGetMax`: rk_joint_revol.c:61-63, rk_joint_prism.c:58-60, rk_joint_cylin.c:66-68,
rk_joint_hooke.c:72-74, rk_joint_spher.c:51-53, rk_joint_float.c:49-51, rk_joint_brfloat.c:58-60
(`none` = `HUGE_VAL`). -/
def getMax : Prp K → List (Option K)
  | fixed => []
  | revol p => [p.hi]
  | prism p => [p.hi]
  | cylin p => [p.hi0, p.hi1]
  | hooke p => [p.hi0, p.hi1]
  | spher _ => [none, none, none]
  | float _ => [none, none, none, none, none, none]
  | brfloat _ => [none, none, none, none, none, none]

section
variable [Field K] [Zm K]

/-- `rkJointCatDis`: rk_joint_fixed.c:20, rk_joint_revol.c:77-79, rk_joint_prism.c:74-76,
rk_joint_cylin.c:82-85, rk_joint_hooke.c:88-91, rk_joint_spher.c:67-74, rk_joint_float.c:65-73,
rk_joint_brfloat.c:74-82.  The result is the new content of the buffer `dis` (its first `size`
components). -/
def catDis (p : Prp K) (dis : List K) (k : K) (val : List K) : Option (List K) :=
  match p with
  | fixed => some []
  | revol _ => match dis, val with | d :: _, v :: _ => some [d + k * v] | _, _ => none
  | prism _ => match dis, val with | d :: _, v :: _ => some [d + k * v] | _, _ => none
  | cylin _ => match dis, val with
    | d :: e :: _, v :: w :: _ => some [d + v * k, e + w * k] | _, _ => none
  | hooke _ => match dis, val with
    | d :: e :: _, v :: w :: _ => some [d + v * k, e + w * k] | _, _ => none
  | spher _ => match Vec3.ofBuf dis, Vec3.ofBuf val with
    | some d, some v => some (aaCascade d (k • v)).toBuf
    | _, _ => none
  | float _ => match Vec6.ofBuf dis, Vec6.ofBuf val with
    | some d, some v => some (Vec6.mk (cat d.lin k v.lin) (aaCascade d.ang (k • v.ang))).toBuf
    | _, _ => none
  | brfloat _ => match Vec6.ofBuf dis, Vec6.ofBuf val with
    | some d, some v => some (Vec6.mk (cat d.lin k v.lin) (aaCascade d.ang (k • v.ang))).toBuf
    | _, _ => none

/-- `rkJointSubDis`: rk_joint_fixed.c:21, rk_joint_revol.c:81-83, rk_joint_prism.c:78-80,
rk_joint_cylin.c:87-90, rk_joint_hooke.c:93-96, rk_joint_spher.c:76-85, rk_joint_float.c:75-84,
rk_joint_brfloat.c:84-93. -/
def subDis (p : Prp K) (dis sdis : List K) : Option (List K) :=
  match p with
  | fixed => some []
  | revol _ => match dis, sdis with | d :: _, v :: _ => some [d - v] | _, _ => none
  | prism _ => match dis, sdis with | d :: _, v :: _ => some [d - v] | _, _ => none
  | cylin _ => match dis, sdis with
    | d :: e :: _, v :: w :: _ => some [d - v, e - w] | _, _ => none
  | hooke _ => match dis, sdis with
    | d :: e :: _, v :: w :: _ => some [d - v, e - w] | _, _ => none
  | spher _ => match Vec3.ofBuf dis, Vec3.ofBuf sdis with
    | some d, some v => some (mat3Error (Zm.fromAA d) (Zm.fromAA v)).toBuf
    | _, _ => none
  | float _ => match Vec6.ofBuf dis, Vec6.ofBuf sdis with
    | some d, some v =>
      some (Vec6.mk (d.lin - v.lin) (mat3Error (Zm.fromAA d.ang) (Zm.fromAA v.ang))).toBuf
    | _, _ => none
  | brfloat _ => match Vec6.ofBuf dis, Vec6.ofBuf sdis with
    | some d, some v =>
      some (Vec6.mk (d.lin - v.lin) (mat3Error (Zm.fromAA d.ang) (Zm.fromAA v.ang))).toBuf
    | _, _ => none
end

section
variable [Field K] [LinearOrder K] [Zm K]

/-- `rkJointSetDisCNT`: rk_joint_fixed.c:22, rk_joint_revol.c:86-95, rk_joint_prism.c:83-91,
rk_joint_cylin.c:93-103, rk_joint_hooke.c:99-108, rk_joint_spher.c:88-102,
rk_joint_float.c:87-103, rk_joint_brfloat.c:96-112.  As in C, the velocity of the first four types
is computed from the requested value `val` and not from the stored displacement. -/
def setDisCNT (p : Prp K) (val : List K) (dt : K) : Option (Prp K) :=
  match p with
  | fixed => some fixed
  | revol p => match val with
    | v :: _ =>
      let d := limit (Zm.phaseNormalize v) p.lo p.hi
      let vel := (v - p.dis) / dt
      some (revol { p with dis := d, s := Zm.sin d, c := Zm.cos d, vel := vel, acc := (vel - p.vel) / dt })
    | _ => none
  | prism p => match val with
    | v :: _ =>
      let vel := (v - p.dis) / dt
      some (prism { p with dis := limit v p.lo p.hi, vel := vel, acc := (vel - p.vel) / dt })
    | _ => none
  | cylin p => match val with
    | v :: w :: _ =>
      let d1 := limit (Zm.phaseNormalize w) p.lo1 p.hi1
      let vel0 := (v - p.dis0) / dt
      let vel1 := (w - p.dis1) / dt
      some (cylin { p with
        dis0 := limit v p.lo0 p.hi0, dis1 := d1, s1 := Zm.sin d1, c1 := Zm.cos d1,
        vel0 := vel0, vel1 := vel1, acc0 := (vel0 - p.vel0) / dt, acc1 := (vel1 - p.vel1) / dt })
    | _ => none
  | hooke p => match val with
    | v :: w :: _ =>
      let d0 := limit (Zm.phaseNormalize v) p.lo0 p.hi0
      let d1 := limit (Zm.phaseNormalize w) p.lo1 p.hi1
      let vel0 := (v - p.dis0) / dt
      let vel1 := (w - p.dis1) / dt
      some (hooke { p with
        dis0 := d0, s0 := Zm.sin d0, c0 := Zm.cos d0, dis1 := d1, s1 := Zm.sin d1, c1 := Zm.cos d1,
        vel0 := vel0, vel1 := vel1, acc0 := (vel0 - p.vel0) / dt, acc1 := (vel1 - p.vel1) / dt })
    | _ => none
  | spher p => (Vec3.ofBuf val).map fun v =>
      let att := Zm.fromAA v
      let vel := dt⁻¹ • mat3Error att p.att
      spher { p with aa := v, att := att, vel := vel, acc := dt⁻¹ • (vel - p.vel) }
  | float p => (Vec6.ofBuf val).map fun v =>
      let att := Zm.fromAA v.ang
      let vel : Vec6 K := ⟨dt⁻¹ • (v.lin - p.dis.lin), dt⁻¹ • mat3Error att p.att⟩
      float { p with dis := v, att := att, vel := vel, acc := dt⁻¹ • (vel - p.vel) }
  | brfloat p => (Vec6.ofBuf val).map fun v =>
      let att := Zm.fromAA v.ang
      let vel : Vec6 K := ⟨dt⁻¹ • (v.lin - p.dis.lin), dt⁻¹ • mat3Error att p.att⟩
      brfloat { p with dis := v, att := att, vel := vel, acc := dt⁻¹ • (vel - p.vel) }
end

/-! ## Motion -/

section
variable [Field K]

/-- Rotation about the z-axis with cached sine and cosine, applied to an attitude: lines 103-107 of
src/rk_joint_revol.c and 108-113 of src/rk_joint_cylin.c. -/
def rotZ (s c : K) (m : Mat3 K) : Mat3 K :=
  ⟨c • m.cx + s • m.cy, (-s) • m.cx + c • m.cy, m.cz⟩

/-- `zMat3DFromZYXSC(s0,c0,s1,c1,0,1)` (Zeo): rotation about z then y. -/
def zyMat (s0 c0 s1 c1 : K) : Mat3 K :=
  ⟨⟨c0 * c1, s0 * c1, -s1⟩, ⟨-s0, c0, 0⟩, ⟨c0 * s1, s0 * s1, c1⟩⟩

/-- `rkJointXform`: rk_joint_fixed.c:25-29, rk_joint_revol.c:98-109, rk_joint_prism.c:96-101,
rk_joint_cylin.c:106-117, rk_joint_hooke.c:111-120, rk_joint_spher.c:105-109,
rk_joint_float.c:106-112, rk_joint_brfloat.c:115-121. -/
def xform (p : Prp K) (fo : Frame K) : Frame K :=
  match p with
  | fixed => fo
  | revol p => ⟨fo.pos, rotZ p.s p.c fo.att⟩
  | prism p => ⟨cat fo.pos p.dis fo.att.cz, fo.att⟩
  | cylin p => ⟨cat fo.pos p.dis0 fo.att.cz, rotZ p.s1 p.c1 fo.att⟩
  | hooke p => ⟨fo.pos, fo.att.mul (zyMat p.s0 p.c0 p.s1 p.c1)⟩
  | spher p => ⟨fo.pos, fo.att.mul p.att⟩
  | float p => ⟨fo.xform p.dis.lin, fo.att.mul p.att⟩
  | brfloat p => ⟨fo.xform p.dis.lin, fo.att.mul p.att⟩

/-- `rkJointIncVel`: rk_joint_fixed.c:32, rk_joint_revol.c:112-114, rk_joint_prism.c:104-106,
rk_joint_cylin.c:120-123, rk_joint_hooke.c:123-127, rk_joint_spher.c:112-116,
rk_joint_float.c:115-119, rk_joint_brfloat.c:124-128. -/
def incVel (p : Prp K) (v : Vec6 K) : Vec6 K :=
  match p with
  | fixed => v
  | revol p => ⟨v.lin, ⟨v.ang.x, v.ang.y, v.ang.z + p.vel⟩⟩
  | prism p => ⟨⟨v.lin.x, v.lin.y, v.lin.z + p.vel⟩, v.ang⟩
  | cylin p => ⟨⟨v.lin.x, v.lin.y, v.lin.z + p.vel0⟩, ⟨v.ang.x, v.ang.y, v.ang.z + p.vel1⟩⟩
  | hooke p => ⟨v.lin, v.ang + ⟨-p.s1 * p.vel0, p.vel1, p.c1 * p.vel0⟩⟩
  | spher p => ⟨v.lin, v.ang + p.att.mulVecT p.vel⟩
  | float p => v + p.att.mulVecT6 p.vel
  | brfloat p => v + p.att.mulVecT6 p.vel

/-- `rkJointIncAccOnVel`: rk_joint_fixed.c:33, rk_joint_revol.c:116-119, rk_joint_prism.c:108-111,
rk_joint_cylin.c:125-130, rk_joint_hooke.c:129-138, rk_joint_spher.c:118-123,
rk_joint_float.c:121-130, rk_joint_brfloat.c:130-140. -/
def incAccOnVel (p : Prp K) (w : Vec3 K) (a : Vec6 K) : Vec6 K :=
  match p with
  | fixed => a
  | revol p => ⟨a.lin, ⟨a.ang.x + p.vel * w.y, a.ang.y - p.vel * w.x, a.ang.z⟩⟩
  | prism p => ⟨⟨a.lin.x + 2 * p.vel * w.y, a.lin.y - 2 * p.vel * w.x, a.lin.z⟩, a.ang⟩
  | cylin p =>
    ⟨⟨a.lin.x + 2 * p.vel0 * w.y, a.lin.y - 2 * p.vel0 * w.x, a.lin.z⟩,
     ⟨a.ang.x + p.vel1 * w.y, a.ang.y - p.vel1 * w.x, a.ang.z⟩⟩
  | hooke p =>
    ⟨a.lin, a.ang + cross w ⟨-p.s1 * p.vel0, p.vel1, p.c1 * p.vel0⟩
      + ⟨-p.c1 * (p.vel0 * p.vel1), 0, -p.s1 * (p.vel0 * p.vel1)⟩⟩
  | spher p => ⟨a.lin, a.ang + cross w (p.att.mulVecT p.vel)⟩
  | float p =>
    ⟨cat a.lin 2 (cross w (p.att.mulVecT p.vel.lin)), a.ang + cross w (p.att.mulVecT p.vel.ang)⟩
  | brfloat p =>
    ⟨cat a.lin 2 (cross w (p.att.mulVecT p.vel.lin)), a.ang + cross w (p.att.mulVecT p.vel.ang)⟩

/-- `rkJointIncAcc`: rk_joint_fixed.c:34, rk_joint_revol.c:122-124, rk_joint_prism.c:114-116,
rk_joint_cylin.c:133-136, rk_joint_hooke.c:140-144, rk_joint_spher.c:126-130,
rk_joint_float.c:133-137, rk_joint_brfloat.c:143-147. -/
def incAcc (p : Prp K) (a : Vec6 K) : Vec6 K :=
  match p with
  | fixed => a
  | revol p => ⟨a.lin, ⟨a.ang.x, a.ang.y, a.ang.z + p.acc⟩⟩
  | prism p => ⟨⟨a.lin.x, a.lin.y, a.lin.z + p.acc⟩, a.ang⟩
  | cylin p => ⟨⟨a.lin.x, a.lin.y, a.lin.z + p.acc0⟩, ⟨a.ang.x, a.ang.y, a.ang.z + p.acc1⟩⟩
  | hooke p => ⟨a.lin, a.ang + ⟨-p.s1 * p.acc0, p.acc1, p.c1 * p.acc0⟩⟩
  | spher p => ⟨a.lin, a.ang + p.att.mulVecT p.acc⟩
  | float p => a + p.att.mulVecT6 p.acc
  | brfloat p => a + p.att.mulVecT6 p.acc

/-- `rkJointCalcTrq`: rk_joint_fixed.c:37, rk_joint_revol.c:127-129, rk_joint_prism.c:119-121,
rk_joint_cylin.c:139-142, rk_joint_hooke.c:147-150, rk_joint_spher.c:133-135,
rk_joint_float.c:140-142, rk_joint_brfloat.c:150-152. -/
def calcTrq (p : Prp K) (f : Vec6 K) : Prp K :=
  match p with
  | fixed => fixed
  | revol p => revol { p with trq := f.ang.z }
  | prism p => prism { p with trq := f.lin.z }
  | cylin p => cylin { p with trq0 := f.lin.z, trq1 := f.ang.z }
  | hooke p => hooke { p with trq0 := -p.s1 * f.ang.x + p.c1 * f.ang.z, trq1 := f.ang.y }
  | spher p => spher { p with trq := p.att.mulVec f.ang }
  | float p => float { p with trq := p.att.mulVec6 f }
  | brfloat p => brfloat { p with trq := p.att.mulVec6 f }

/-- Row `i` of an attitude matrix seen from frame `f`: `_rkJointSpherAxis` rk_joint_spher.c:145-149,
`_rkJointFloatAxis` rk_joint_float.c:151-155, `_rkJointBrFloatAxis` rk_joint_brfloat.c:161-165. -/
def rowAxis (att : Mat3 K) (f : Frame K) (i : ℕ) : Vec3 K :=
  f.att.mulVec (match i with | 0 => att.tr.cx | 1 => att.tr.cy | _ => att.tr.cz)

/-- `rkJointAngAxis`: tables `_rk_joint_*_axis_ang` of each joint file (rk_joint_revol.c:137-139,
rk_joint_prism.c:131-133, rk_joint_cylin.c:151-154, rk_joint_hooke.c:168-180,
rk_joint_spher.c:163-167, rk_joint_float.c:169-176, rk_joint_brfloat.c).  `none` is the null
pointer returned by `_rkJointAxisNull` (src/rk_joint.c:96-98); an index past the size also gives
`none`. -/
def angAxis (p : Prp K) (i : ℕ) (f : Frame K) : Option (Vec3 K) :=
  match p, i with
  | revol _, 0 => some f.att.cz
  | cylin _, 1 => some f.att.cz
  | hooke p, 0 => some (cat ((-p.s1) • f.att.cx) p.c1 f.att.cz)
  | hooke _, 1 => some f.att.cy
  | spher p, 0 => some (rowAxis p.att f 0)
  | spher p, 1 => some (rowAxis p.att f 1)
  | spher p, 2 => some (rowAxis p.att f 2)
  | float p, 3 => some (rowAxis p.att f 0)
  | float p, 4 => some (rowAxis p.att f 1)
  | float p, 5 => some (rowAxis p.att f 2)
  | brfloat p, 3 => some (rowAxis p.att f 0)
  | brfloat p, 4 => some (rowAxis p.att f 1)
  | brfloat p, 5 => some (rowAxis p.att f 2)
  | _, _ => none

/-- `rkJointLinAxis`: tables `_rk_joint_*_axis_lin` of each joint file. -/
def linAxis (p : Prp K) (i : ℕ) (f : Frame K) : Option (Vec3 K) :=
  match p, i with
  | prism _, 0 => some f.att.cz
  | cylin _, 0 => some f.att.cz
  | float p, 0 => some (rowAxis p.att f 0)
  | float p, 1 => some (rowAxis p.att f 1)
  | float p, 2 => some (rowAxis p.att f 2)
  | brfloat p, 0 => some (rowAxis p.att f 0)
  | brfloat p, 1 => some (rowAxis p.att f 1)
  | brfloat p, 2 => some (rowAxis p.att f 2)
  | _, _ => none

/-- The cached values of the joint are those of some rotation: what `rkJointSetDis` establishes. -/
def WF : Prp K → Prop
  | fixed => True
  | revol p => p.s * p.s + p.c * p.c = 1
  | prism _ => True
  | cylin p => p.s1 * p.s1 + p.c1 * p.c1 = 1
  | hooke p => p.s0 * p.s0 + p.c0 * p.c0 = 1 ∧ p.s1 * p.s1 + p.c1 * p.c1 = 1
  | spher p => p.att.IsRot
  | float p => p.att.IsRot
  | brfloat p => p.att.IsRot
end

/-! ## Friction and motors -/

section
variable [Field K] [Zm K]

/-- `_rkJointRestTrq`, include/roki/rk_joint.h:269. -/
def restTrq (s v c dis vel : K) : K := -s * dis - v * vel - c * Zm.sgn vel

/-- `rkJointGetKFriction`: rk_joint_revol.c:165-167, rk_joint_prism.c:158-160,
rk_joint_cylin.c:183-186, rk_joint_hooke.c:212-215; the other types write nothing. -/
def getKFriction : Prp K → List K
  | revol p => [restTrq p.stiffness p.viscosity p.coulomb p.dis p.vel]
  | prism p => [restTrq p.stiffness p.viscosity p.coulomb p.dis p.vel]
  | cylin p => [restTrq p.stiffness0 p.viscosity0 p.coulomb0 p.dis0 p.vel0,
                restTrq p.stiffness1 p.viscosity1 p.coulomb1 p.dis1 p.vel1]
  | hooke p => [restTrq p.stiffness0 p.viscosity0 p.coulomb0 p.dis0 p.vel0,
                restTrq p.stiffness1 p.viscosity1 p.coulomb1 p.dis1 p.vel1]
  | _ => []
end

/-- `rkJointGetSFriction`: rk_joint_revol.c:161-163, rk_joint_prism.c:154-156,
rk_joint_cylin.c:179-182, rk_joint_hooke.c:207-210. -/
def getSFriction : Prp K → List K
  | revol p => [p.sf]
  | prism p => [p.sf]
  | cylin p => [p.sf0, p.sf1]
  | hooke p => [p.sf0, p.sf1]
  | _ => []

/-- `rkJointSetFriction`: rk_joint_revol.c:153-155, rk_joint_prism.c:146-148,
rk_joint_cylin.c:170-174, rk_joint_hooke.c:197-200. -/
def setFriction (p : Prp K) (val : List K) : Option (Prp K) :=
  match p with
  | revol p => match val with | v :: _ => some (revol { p with tf := v }) | _ => none
  | prism p => match val with | v :: _ => some (prism { p with tf := v }) | _ => none
  | cylin p => match val with
    | v :: w :: _ => some (cylin { p with tf0 := v, tf1 := w }) | _ => none
  | hooke p => match val with
    | v :: w :: _ => some (hooke { p with tf0 := v, tf1 := w }) | _ => none
  | p => some p

/-- `rkJointGetFriction`: rk_joint_revol.c:157-159, rk_joint_prism.c:150-152,
rk_joint_cylin.c:175-178, rk_joint_hooke.c:202-205. -/
def getFriction : Prp K → List K
  | revol p => [p.tf]
  | prism p => [p.tf]
  | cylin p => [p.tf0, p.tf1]
  | hooke p => [p.tf0, p.tf1]
  | _ => []

/-- `rkJointSetFrictionPivot(j,fp)`: rk_joint_revol.c:145-147 stores the caller's value;
rk_joint_prism.c:138-140, rk_joint_cylin.c:160-163 and rk_joint_hooke.c:187-190 instead copy the
joint's value into the caller's buffer.  The result is the joint and the caller's buffer after the
call. -/
def setFrictionPivot (p : Prp K) (fp : List (FricPivot K)) : Option (Prp K × List (FricPivot K)) :=
  match p with
  | revol p => match fp with
    | f :: fs => some (revol { p with fp := f }, f :: fs) | _ => none
  | prism p => match fp with
    | _ :: fs => some (prism p, p.fp :: fs) | _ => none
  | cylin p => match fp with
    | _ :: _ :: fs => some (cylin p, p.fp0 :: p.fp1 :: fs) | _ => none
  | hooke p => match fp with
    | _ :: _ :: fs => some (hooke p, p.fp0 :: p.fp1 :: fs) | _ => none
  | p => some (p, fp)

/-- `rkJointGetFrictionPivot(j,fp)`: rk_joint_revol.c:149-151 copies out; rk_joint_prism.c:142-144,
rk_joint_cylin.c:165-168 and rk_joint_hooke.c:192-195 instead overwrite the joint's value. -/
def getFrictionPivot (p : Prp K) (fp : List (FricPivot K)) : Option (Prp K × List (FricPivot K)) :=
  match p with
  | revol p => match fp with
    | _ :: fs => some (revol p, p.fp :: fs) | _ => none
  | prism p => match fp with
    | f :: fs => some (prism { p with fp := f }, f :: fs) | _ => none
  | cylin p => match fp with
    | f :: g :: fs => some (cylin { p with fp0 := f, fp1 := g }, f :: g :: fs) | _ => none
  | hooke p => match fp with
    | f :: g :: fs => some (hooke { p with fp0 := f, fp1 := g }, f :: g :: fs) | _ => none
  | p => some (p, fp)

/-- `rkJointGetMotor`: rk_joint_revol.c:170, rk_joint_prism.c:163, rk_joint_cylin.c:189,
rk_joint_hooke.c:218, rk_joint_spher.c:181; a null pointer for fixed and floating joints
(rk_joint_fixed.c:58, rk_joint_float.c:190, rk_joint_brfloat.c:196). -/
def getMotor : Prp K → Option (Motor K)
  | revol p => some p.motor
  | prism p => some p.motor
  | cylin p => some p.motor
  | hooke p => some p.motor
  | spher p => some p.motor
  | _ => none

/-- Write through the pointer returned by `rkJointGetMotor`. -/
def withMotor (p : Prp K) (m : Motor K) : Prp K :=
  match p with
  | revol p => revol { p with motor := m }
  | prism p => prism { p with motor := m }
  | cylin p => cylin { p with motor := m }
  | hooke p => hooke { p with motor := m }
  | spher p => spher { p with motor := m }
  | p => p

/-- `rkJointMotorSetInput`: rk_joint_revol.c:172-174, rk_joint_prism.c:165-167,
rk_joint_cylin.c:190-192, rk_joint_hooke.c:220-222, rk_joint_spher.c:183-185; no effect on the
other types. -/
def motorSetInput [LinearOrder K] (p : Prp K) (v : K) : Prp K :=
  match p with
  | revol p => revol { p with motor := p.motor.setInput v }
  | prism p => prism { p with motor := p.motor.setInput v }
  | cylin p => cylin { p with motor := p.motor.setInput v }
  | hooke p => hooke { p with motor := p.motor.setInput v }
  | spher p => spher { p with motor := p.motor.setInput v }
  | p => p

end Prp
end Roki
