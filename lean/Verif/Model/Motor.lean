import Verif.Model.Zm

/-! # Motors: src/rk_motor.c, src/rk_motor_none.c, src/rk_motor_dc.c, src/rk_motor_trq.c -/

namespace Roki

/-- `rkMotorDCPrp`, include/roki/rk_motor_dc.h (struct).  `_comp_k`, `_comp_l` and `tf` are not
read by any modelled function and are left out. -/
@[ext] structure DCPrp (K : Type*) where
  e : K
  k : K
  admit : K
  maxvol : Option K
  minvol : Option K
  decratio : K
  inertia : K
  inertiaGear : K
deriving DecidableEq, Repr

/-- `rkMotorTrqPrp`, include/roki/rk_motor_trq.h (struct). -/
@[ext] structure TrqPrp (K : Type*) where
  input : K
  max : Option K
  min : Option K
deriving DecidableEq, Repr

/-- `rkMotor` with its `com` table, include/roki/rk_motor.h:39-43 and the list
`RK_MOTOR_COM_ARRAY` 97-103.  The name of the motor is not modelled here. -/
inductive Motor (K : Type*) where
  | none
  | dc (p : DCPrp K)
  | trq (p : TrqPrp K)
deriving DecidableEq, Repr

namespace Motor
variable {K : Type*}

/-- typestr of the com tables: rk_motor_none.c, rk_motor_dc.c, rk_motor_trq.c. -/
def typeStr : Motor K → String
  | none => "none"
  | dc _ => "dc"
  | trq _ => "trq"

section
variable [LinearOrder K]
/-- `rkMotorSetInput`: `_rkMotorDCSetInput` src/rk_motor_dc.c:43-45, `_rkMotorTrqSetInput`
src/rk_motor_trq.c:25-27; no effect for `none` (src/rk_motor_none.c). -/
def setInput (m : Motor K) (v : K) : Motor K :=
  match m with
  | none => none
  | dc p => dc { p with e := limit v p.minvol p.maxvol }
  | trq p => trq { p with input := limit v p.min p.max }
end

section
variable [Field K]
/-- `rkMotorInertia` on a buffer initialised to 0 by the caller: `_rkMotorDCInertia`
src/rk_motor_dc.c:47-49, `_rkMotorTrqInertia` src/rk_motor_trq.c:29-31. -/
def inertia : Motor K → K
  | none => 0
  | dc p => p.decratio * p.decratio * (p.inertia + p.inertiaGear)
  | trq _ => 0

/-- `rkMotorInputTrq` on a buffer initialised to 0: src/rk_motor_dc.c:51-53,
src/rk_motor_trq.c:33-35. -/
def inputTrq : Motor K → K
  | none => 0
  | dc p => p.admit * p.decratio * p.k * p.e
  | trq p => p.input

/-- `rkMotorRegistance` on a buffer initialised to 0: src/rk_motor_dc.c:55-57,
src/rk_motor_trq.c:37-39. -/
def resistance (m : Motor K) (vel : K) : K :=
  match m with
  | none => 0
  | dc p => p.admit * ((p.decratio * p.k) * (p.decratio * p.k)) * vel
  | trq _ => 0

/-- `rkMotorDrivingTrq` on a buffer initialised to 0: src/rk_motor_dc.c:59-66,
src/rk_motor_trq.c:41-43. -/
def drivingTrq (m : Motor K) (vel acc : K) : K :=
  match m with
  | none => 0
  | dc p => (dc p).inputTrq - (dc p).resistance vel - (dc p).inertia * acc
  | trq p => (trq p).inputTrq
end

/-- `RK_MOTOR_COM_ARRAY`, include/roki/rk_motor.h:97-103, with the `_init` values of each type
(src/rk_motor_dc.c:22-35, src/rk_motor_trq.c:12-17). -/
def comArray [Field K] : List (Motor K) :=
  [ none,
    dc { e := 0, k := 258 / 10000, admit := 42373 / 100000, maxvol := some 24, minvol := some (-24),
         decratio := 120, inertia := 165 / 100000000, inertiaGear := 538 / 100000000 },
    trq { input := 0, max := Option.none, min := Option.none } ]

/-- `rkMotorQueryAssign`, src/rk_motor.c:21-31: first entry whose type string matches, a null
result when there is none. -/
def queryAssign [Field K] (str : String) : Option (Motor K) :=
  (comArray (K := K)).find? (fun m => m.typeStr == str)

end Motor
end Roki
