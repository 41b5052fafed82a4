import Verif.Model.Clone
import Verif.Model.LinkHeap
set_option autoImplicit false

/-!
# Writing and reading a chain: the ZTK part of src/rk_chain.c, src/rk_link.c, src/rk_joint_*.c and src/rk_motor*.c

A ZTK file is a list of sections, each with a tag, and a section is a list of fields, each with a key and the tokens after it.
The parser and the printer of numbers are in ZEDA and Zeo, outside /repo.  The model assumes of them:

* a number is read as it was written: the rounding of `%.10g` is not modelled;
* infinity is written and read as such;
* a vector or matrix is written and read as its components, a matrix row by row;
* `ZTKEvalKey` gives each field whose key is in the table to the function of that row; whether it goes through the file or through
  the table is not known from /repo, so the order is a parameter (`Order`), and the theorems hold for both;
* a key or a tag does not occur more often than the number in the table allows;
* `ZTKEvalKey` and `ZTKEvalTag` stop at the first function that returns the null pointer;
* `zName` of an object without a name is a default string, which is a parameter (`noname`).

A field with missing tokens or tokens of another kind is outside the model (`Res.ub`).
-/

namespace Roki.ZTK
variable {K σ : Type*}

/-- A token of a field of a ZTK file (ZEDA); e.g. what src/rk_joint_revol.c:294 prints and line 259 reads. -/
inductive Tok (K : Type*) where
  | str (s : String)
  | num (x : K)
  | inf (neg : Bool)
deriving DecidableEq, Repr

/-- A field of a ZTK file (ZEDA): the key and the tokens after it; e.g. src/rk_link.c:385 prints one. -/
structure Fld (K : Type*) where
  key : String
  val : List (Tok K)
deriving DecidableEq, Repr

/-- Sections with their tags, in the order of the file; written by `rkChainFPrintZTK`, src/rk_chain.c:733-749. -/
abbrev File (K : Type*) := List (String × List (Fld K))

/-- Outcome of a function that reads into an object: undefined behaviour, the null pointer (the object may have been changed), or
success; e.g. the functions src/rk_link.c:239-307. -/
inductive Res (σ : Type*) where
  | ub
  | null (s : σ)
  | ok (s : σ)
deriving DecidableEq, Repr

/-- Go on unless a null pointer was returned; e.g. src/rk_link.c:360-362. -/
def Res.bind {σ τ : Type*} (r : Res σ) (bad : σ → Res τ) (f : σ → Res τ) : Res τ :=
  match r with
  | .ub => .ub
  | .null s => bad s
  | .ok s => f s

/-- Go on with the object after success. -/
def Res.andThen (r : Res σ) (f : σ → Res σ) : Res σ := r.bind .null f

/-- The result is not looked at, as at src/rk_chain.c:718-723 and src/rk_link.c:362. -/
def Res.ignore (r : Res σ) : Res σ := r.bind .ok .ok

/-- A row of a `ZTKPrp` table, e.g. src/rk_link.c:334-347: key, reading function, printing function (which may be null, and
which may have undefined behaviour, `none`). -/
structure Row (σ K : Type*) where
  key : String
  rd : σ → List (Tok K) → Res σ
  pr : Option (σ → Option (List (Tok K)))

/-- The order in which `ZTKEvalKey` (ZEDA, e.g. src/rk_link.c:360) meets the fields of a section: that of the file or that of
the table. -/
inductive Order where
  | file
  | table
deriving DecidableEq, Repr

/-- What is done with a field when the file is followed. -/
def evalFld (tab : List (Row σ K)) (s : σ) (f : Fld K) : Res σ :=
  match tab.find? fun r => r.key == f.key with
  | none => .ok s
  | some r => r.rd s f.val

/-- `ZTKEvalKey` (ZEDA), e.g. src/rk_link.c:360. -/
def evalKeys (o : Order) (tab : List (Row σ K)) (sec : List (Fld K)) (s : σ) : Res σ :=
  match o with
  | .file => sec.foldl (fun r f => r.andThen fun s => evalFld tab s f) (.ok s)
  | .table => tab.foldl (fun r row =>
      (sec.filter fun f => f.key == row.key).foldl (fun r f => r.andThen fun s => row.rd s f.val) r) (.ok s)

/-- `ZTKPrpKeyFPrint` (ZEDA), e.g. src/rk_link.c:379: a field for each row with a printing function. -/
def printKeys : List (Row σ K) → σ → Option (List (Fld K))
  | [], _ => some []
  | r :: tab, s => match r.pr with
    | none => printKeys tab s
    | some p => (p s).bind fun v => (printKeys tab s).map fun fs => ⟨r.key, v⟩ :: fs

/-- The sections with a tag: what `ZTKEvalTag` (ZEDA), e.g. src/rk_chain.c:721, goes through. -/
def secs (tag : String) (f : File K) : List (List (Fld K)) := (f.filter fun s => s.1 == tag).map Prod.snd

/-- `ZTKEvalTag` (ZEDA) with a table of one row, e.g. src/rk_chain.c:721; the reading function gets the number of the section. -/
def evalTag (rd : σ → ℕ → List (Fld K) → Res σ) : ℕ → List (List (Fld K)) → σ → Res σ
  | _, [], s => .ok s
  | i, sec :: l, s => (rd s i sec).andThen fun s => evalTag rd (i + 1) l s

/-! ## Numbers -/

section
variable [Field K] [Zm K]
/-- `zDeg2Rad` (ZM), e.g. src/rk_joint_revol.c:259. -/
def deg2rad (x : K) : K := x * Zm.pi / 180
/-- `zRad2Deg` (ZM), e.g. src/rk_joint_revol.c:294. -/
def rad2deg (x : K) : K := x * 180 / Zm.pi
end

/-- A limit as it is printed: `none` is `-HUGE_VAL` for a lower limit (`neg`), `HUGE_VAL` for an upper one. -/
def tokLim (neg : Bool) : Option K → Tok K
  | none => .inf neg
  | some x => .num x

/-- A limit as it is read. -/
def limTok (neg : Bool) : Tok K → Option (Option K)
  | .num x => some (some x)
  | .inf b => if b = neg then some none else none
  | .str _ => none

/-- The three components of a vector (Zeo), e.g. src/rk_link.c:322. -/
def tokVec (v : Vec3 K) : List (Tok K) := [.num v.x, .num v.y, .num v.z]

/-- `zVec3DFromZTK` (Zeo), e.g. src/rk_link.c:260. -/
def vecTok : List (Tok K) → Option (Vec3 K)
  | .num x :: .num y :: .num z :: _ => some ⟨x, y, z⟩
  | _ => none

/-- The nine components of a matrix (Zeo), row by row, e.g. src/rk_link.c:325. -/
def tokMat (m : Mat3 K) : List (Tok K) :=
  [.num m.cx.x, .num m.cy.x, .num m.cz.x, .num m.cx.y, .num m.cy.y, .num m.cz.y, .num m.cx.z, .num m.cy.z, .num m.cz.z]

/-- `zMat3DFromZTK` (Zeo), e.g. src/rk_link.c:264. -/
def matTok : List (Tok K) → Option (Mat3 K)
  | .num a :: .num b :: .num c :: .num d :: .num e :: .num f :: .num g :: .num h :: .num i :: _ =>
    some ⟨⟨a, d, g⟩, ⟨b, e, h⟩, ⟨c, f, i⟩⟩
  | _ => none

/-! ## Motors -/

/-- A motor with its name; `none` is a null `com`: include/roki/rk_motor.h:39-43. -/
structure NMotor (K : Type*) where
  name : String
  motor : Option (Motor K)
deriving DecidableEq, Repr

/-- A row that reads one number. -/
def numRow (key : String) (set : σ → K → σ) (get : σ → K) : Row σ K where
  key := key
  rd := fun s ts => match ts with
    | .num x :: _ => .ok (set s x)
    | _ => .ub
  pr := some fun s => some [.num (get s)]

/-- A row that reads one limit. -/
def limRow (key : String) (neg : Bool) (set : σ → Option K → σ) (get : σ → Option K) : Row σ K where
  key := key
  rd := fun s ts => match ts with
    | t :: _ => match limTok neg t with
      | some x => .ok (set s x)
      | none => .ub
    | _ => .ub
  pr := some fun s => some [tokLim neg (get s)]

/-- `__ztk_prp_rkmotor`, src/rk_motor.c:63-66 with the functions 48-61. -/
def motorTab [Field K] : List (Row (NMotor K) K) :=
  [ { key := "name"
      rd := fun s ts => match ts with
        | .str n :: _ => .ok { s with name := n }
        | _ => .ub
      pr := some fun s => some [.str s.name] },
    { key := "type"
      rd := fun s ts => match ts with
        | .str n :: _ => match Motor.queryAssign n with
          | some m => .ok { s with motor := some m }
          | none => .null s
        | _ => .ub
      pr := some fun s => s.motor.map fun m => [.str m.typeStr] } ]

/-- `__ztk_prp_rkmotor_trq`, src/rk_motor_trq.c:63-66 with the functions 47-61. -/
def trqTab : List (Row (TrqPrp K) K) :=
  [ limRow "max" false (fun p x => { p with max := x }) (fun p => p.max),
    limRow "min" true (fun p x => { p with min := x }) (fun p => p.min) ]

/-- `__ztk_prp_rkmotor_dc`, src/rk_motor_dc.c:135-145 with the functions 70-133.  The two constants for compensation are not
part of the model of the motor. -/
def dcTab : List (Row (DCPrp K) K) :=
  [ numRow "motorconstant" (fun p x => { p with k := x }) (fun p => p.k),
    numRow "admittance" (fun p x => { p with admit := x }) (fun p => p.admit),
    limRow "maxvoltage" false (fun p x => { p with maxvol := x }) (fun p => p.maxvol),
    limRow "minvoltage" true (fun p x => { p with minvol := x }) (fun p => p.minvol),
    numRow "gearratio" (fun p x => { p with decratio := x }) (fun p => p.decratio),
    numRow "rotorinertia" (fun p x => { p with inertia := x }) (fun p => p.inertia),
    numRow "gearinertia" (fun p x => { p with inertiaGear := x }) (fun p => p.inertiaGear) ]

/-- `com->_fromZTK` of a motor: src/rk_motor_none.c:21, src/rk_motor_trq.c:68-71, src/rk_motor_dc.c:147-150. -/
def motorPrpRead (o : Order) (sec : List (Fld K)) : Motor K → Res (Motor K)
  | .none => .ok .none
  | .dc p => (evalKeys o dcTab sec p).bind (fun p => .null (.dc p)) fun p => .ok (.dc p)
  | .trq p => (evalKeys o trqTab sec p).bind (fun p => .null (.trq p)) fun p => .ok (.trq p)

/-- `com->_fprintZTK` of a motor: src/rk_motor_none.c:23, src/rk_motor_trq.c:73-76, src/rk_motor_dc.c:152-155. -/
def motorPrpPrint : Motor K → Option (List (Fld K))
  | .none => some []
  | .dc p => printKeys dcTab p
  | .trq p => printKeys trqTab p

/-- `rkMotorFromZTK`, src/rk_motor.c:68-74.  The result of line 72 is not looked at. -/
def motorRead [Field K] (o : Order) (noname : String) (sec : List (Fld K)) : Res (NMotor K) :=
  (evalKeys o motorTab sec ⟨noname, none⟩).andThen fun s =>
    match s.motor with
    | none => .ub
    | some m => (motorPrpRead o sec m).ignore.bind (fun _ => .ub) fun m => .ok { s with motor := some m }

/-- `rkMotorFPrintZTK`, src/rk_motor.c:76-82, without the empty line at the end. -/
def motorPrint [Field K] (m : NMotor K) : Option (List (Fld K)) :=
  (printKeys motorTab m).bind fun a => match m.motor with
    | none => none
    | some q => (motorPrpPrint q).map fun b => a ++ b

/-- `rkMotorArrayFind`, src/rk_motor.c:106-115.  The array is a null pointer when there is no motor (src/rk_chain.c:703), and
`zArrayFindName` then reads the size of a null array. -/
def motorFind (motors : List (NMotor K)) (name : String) : Option (Option (NMotor K)) :=
  if motors = [] then none else some (motors.find? fun m => m.name == name)

/-! ## Joints -/

/-- A joint with the name of its motor. -/
structure FJoint (K : Type*) where
  prp : Prp K
  mname : String
deriving DecidableEq, Repr

section
variable [Field K] [LinearOrder K] [Zm K]

/-- `com->_dis_fromZTK`: src/rk_joint_revol.c:257-262, rk_joint_prism.c:249-254, rk_joint_cylin.c:287-293,
rk_joint_hooke.c:271-275, rk_joint_spher.c:233-238, rk_joint_float.c:232-237, rk_joint_brfloat.c:266-271; the null pointer for a
fixed joint, rk_joint_fixed.c:144. -/
def disRead (p : Prp K) (ts : List (Tok K)) : Option (Prp K) :=
  match p, ts with
  | .revol _, .num x :: _ => p.setDis [deg2rad x]
  | .prism _, .num x :: _ => p.setDis [x]
  | .cylin _, .num x :: .num y :: _ => p.setDis [x, deg2rad y]
  | .hooke _, .num x :: .num y :: _ => p.setDis [deg2rad x, deg2rad y]
  | .spher _, ts => (vecTok ts).bind fun v => p.setDis v.toBuf
  | .float _, ts => (vecTok ts).bind fun v => (vecTok (ts.drop 3)).bind fun w => p.setDis (v.toBuf ++ w.toBuf)
  | .brfloat _, ts => (vecTok ts).bind fun v => (vecTok (ts.drop 3)).bind fun w => p.setDis (v.toBuf ++ w.toBuf)
  | _, _ => none

/-- `com->_dis_fprintZTK`: src/rk_joint_revol.c:293-295, rk_joint_prism.c:285-287, rk_joint_cylin.c:330-334,
rk_joint_hooke.c:312-314, rk_joint_spher.c:245-247, rk_joint_float.c:239-241, rk_joint_brfloat.c:281-283; the null pointer for a
fixed joint, rk_joint_fixed.c:146. -/
def disPrint : Prp K → Option (List (Tok K))
  | .fixed => none
  | .revol p => some [.num (rad2deg p.dis)]
  | .prism p => some [.num p.dis]
  | .cylin p => some [.num p.dis0, .num (rad2deg p.dis1)]
  | .hooke p => some [.num (rad2deg p.dis0), .num (rad2deg p.dis1)]
  | .spher p => some (tokVec p.aa)
  | .float p => some (tokVec p.dis.lin ++ tokVec p.dis.ang)
  | .brfloat p => some (tokVec p.dis.lin ++ tokVec p.dis.ang)

/-- The row `dis` of the tables of the joints, e.g. src/rk_joint_revol.c:319. -/
def disRow : Row (FJoint K) K where
  key := "dis"
  rd := fun s ts => match disRead s.prp ts with
    | some p => .ok { s with prp := p }
    | none => .ub
  pr := some fun s => disPrint s.prp

/-- The row `motor` of the tables of the joints: src/rk_joint_revol.c:287-291 and 314-316, and the same functions in
rk_joint_prism.c:279-283, 306-308, rk_joint_cylin.c:324-328, 365-367, rk_joint_hooke.c:306-310, 333-335,
rk_joint_spher.c:239-243, 248-250; with `rkMotorClone`, src/rk_motor.c:40-46. -/
def motorRow (motors : List (NMotor K)) : Row (FJoint K) K where
  key := "motor"
  rd := fun s ts => match ts with
    | .str n :: _ => match motorFind motors n with
      | none => .ub
      | some none => .null s
      | some (some m) => match m.motor with
        | none => .ub
        | some q => .ok ⟨s.prp.withMotor q, m.name⟩
    | _ => .ub
  pr := some fun s => some [.str s.mname]

/-- A row of a joint of one degree of freedom that reads one value. -/
def row1 {α : Type*} (key : String) (rd : Tok K → Option α) (tok : α → Tok K) (set : Dof1 K → α → Dof1 K) (get : Dof1 K → α) :
    Row (FJoint K) K where
  key := key
  rd := fun s ts => match s.prp, ts with
    | .revol p, t :: _ => match rd t with
      | some x => .ok { s with prp := .revol (set p x) }
      | none => .ub
    | .prism p, t :: _ => match rd t with
      | some x => .ok { s with prp := .prism (set p x) }
      | none => .ub
    | _, _ => .ub
  pr := some fun s => match s.prp with
    | .revol p => some [tok (get p)]
    | .prism p => some [tok (get p)]
    | _ => none

/-- A row of a joint of two degrees of freedom that reads two values. -/
def row2 {α : Type*} (key : String) (rd0 rd1 : Tok K → Option α) (tok0 tok1 : α → Tok K) (set : Dof2 K → α → α → Dof2 K)
    (get0 get1 : Dof2 K → α) : Row (FJoint K) K where
  key := key
  rd := fun s ts => match s.prp, ts with
    | .cylin p, t :: u :: _ => match rd0 t, rd1 u with
      | some x, some y => .ok { s with prp := .cylin (set p x y) }
      | _, _ => .ub
    | .hooke p, t :: u :: _ => match rd0 t, rd1 u with
      | some x, some y => .ok { s with prp := .hooke (set p x y) }
      | _, _ => .ub
    | _, _ => .ub
  pr := some fun s => match s.prp with
    | .cylin p => some [tok0 (get0 p), tok1 (get1 p)]
    | .hooke p => some [tok0 (get0 p), tok1 (get1 p)]
    | _ => none

/-- A number token. -/
def numTok : Tok K → Option K
  | .num x => some x
  | _ => none

/-- A limit in degrees, as printed at src/rk_joint_revol.c:296-301. -/
def tokDeg (neg : Bool) (x : Option K) : Tok K := tokLim neg (x.map rad2deg)

/-- A limit in degrees, as read at src/rk_joint_revol.c:263-270. -/
def degTok (neg : Bool) (t : Tok K) : Option (Option K) := (limTok neg t).map fun x => x.map deg2rad

/-- The rows for stiffness, viscosity and friction of a joint of one degree of freedom: src/rk_joint_revol.c:271-286 and
302-313, rk_joint_prism.c:263-278 and 294-305. -/
def coef1 : List (Row (FJoint K) K) :=
  [ row1 "stiffness" numTok .num (fun p x => { p with stiffness := x }) (fun p => p.stiffness),
    row1 "viscosity" numTok .num (fun p x => { p with viscosity := x }) (fun p => p.viscosity),
    row1 "coulomb" numTok .num (fun p x => { p with coulomb := x }) (fun p => p.coulomb),
    row1 "staticfriction" numTok .num (fun p x => { p with sf := x }) (fun p => p.sf) ]

/-- The same for two degrees of freedom: src/rk_joint_cylin.c:304-323 and 345-364, rk_joint_hooke.c:286-305 and 321-332. -/
def coef2 : List (Row (FJoint K) K) :=
  [ row2 "stiffness" numTok numTok .num .num (fun p x y => { p with stiffness0 := x, stiffness1 := y })
      (fun p => p.stiffness0) (fun p => p.stiffness1),
    row2 "viscosity" numTok numTok .num .num (fun p x y => { p with viscosity0 := x, viscosity1 := y })
      (fun p => p.viscosity0) (fun p => p.viscosity1),
    row2 "coulomb" numTok numTok .num .num (fun p x y => { p with coulomb0 := x, coulomb1 := y })
      (fun p => p.coulomb0) (fun p => p.coulomb1),
    row2 "staticfriction" numTok numTok .num .num (fun p x y => { p with sf0 := x, sf1 := y })
      (fun p => p.sf0) (fun p => p.sf1) ]

/-- A row of a floating joint that reads one threshold: src/rk_joint_brfloat.c:272-279 and 284-289. -/
def rowF (key : String) (set : FloatPrp K → Option K → FloatPrp K) (get : FloatPrp K → Option K) : Row (FJoint K) K where
  key := key
  rd := fun s ts => match s.prp, ts with
    | .brfloat p, t :: _ => match limTok false t with
      | some x => .ok { s with prp := .brfloat (set p x) }
      | none => .ub
    | _, _ => .ub
  pr := some fun s => match s.prp with
    | .brfloat p => some [tokLim false (get p)]
    | _ => none

/-- The tables of the joint types: src/rk_joint_revol.c:318-327, rk_joint_prism.c:310-319, rk_joint_cylin.c:369-378,
rk_joint_hooke.c:337-346, rk_joint_spher.c:252-255, rk_joint_float.c:243-245, rk_joint_brfloat.c:291-295; a fixed joint has none,
rk_joint_fixed.c:87-91. -/
def jointTab (motors : List (NMotor K)) : Prp K → List (Row (FJoint K) K)
  | .fixed => []
  | .revol _ => [ disRow,
      row1 "min" (degTok true) (tokDeg true) (fun p x => { p with lo := x }) (fun p => p.lo),
      row1 "max" (degTok false) (tokDeg false) (fun p x => { p with hi := x }) (fun p => p.hi) ] ++ coef1 ++ [motorRow motors]
  | .prism _ => [ disRow,
      row1 "min" (limTok true) (tokLim true) (fun p x => { p with lo := x }) (fun p => p.lo),
      row1 "max" (limTok false) (tokLim false) (fun p x => { p with hi := x }) (fun p => p.hi) ] ++ coef1 ++ [motorRow motors]
  | .cylin _ => [ disRow,
      row2 "min" (limTok true) (degTok true) (tokLim true) (tokDeg true) (fun p x y => { p with lo0 := x, lo1 := y })
        (fun p => p.lo0) (fun p => p.lo1),
      row2 "max" (limTok false) (degTok false) (tokLim false) (tokDeg false) (fun p x y => { p with hi0 := x, hi1 := y })
        (fun p => p.hi0) (fun p => p.hi1) ] ++ coef2 ++ [motorRow motors]
  | .hooke _ => [ disRow,
      row2 "min" (degTok true) (degTok true) (tokDeg true) (tokDeg true) (fun p x y => { p with lo0 := x, lo1 := y })
        (fun p => p.lo0) (fun p => p.lo1),
      row2 "max" (degTok false) (degTok false) (tokDeg false) (tokDeg false) (fun p x y => { p with hi0 := x, hi1 := y })
        (fun p => p.hi0) (fun p => p.hi1) ] ++ coef2 ++ [motorRow motors]
  | .spher _ => [disRow, motorRow motors]
  | .float _ => [disRow]
  | .brfloat _ => [ disRow,
      rowF "forcethreshold" (fun p x => { p with epf := x }) (fun p => p.epf),
      rowF "torquethreshold" (fun p x => { p with ept := x }) (fun p => p.ept) ]

/-- `rkJointFromZTK`, src/rk_joint.c:164-167.  The type of the joint does not change. -/
def jointRead (o : Order) (motors : List (NMotor K)) (sec : List (Fld K)) (j : FJoint K) : Res (FJoint K) :=
  evalKeys o (jointTab motors j.prp) sec j

/-- `rkJointFPrintZTK`, include/roki/rk_joint.h:318. -/
def jointPrint (j : FJoint K) : Option (List (Fld K)) := printKeys (jointTab [] j.prp) j

/-! ## Links -/

/-- A link with the name of the motor of its joint and the names of its shapes; `com` tells whether the joint has a type, that is,
the pointer `com` of include/roki/rk_joint.h is not null. -/
structure FLink (K : Type*) where
  link : Link K
  com : Bool
  mname : String
  shapes : List String

/-- `rkLinkInit`, src/rk_link.c:15-31.  The joint has no type yet; the model takes the fixed joint, which it gets at line 361 if no
type is read.  A link of the array before it is read is zeroed memory, which is not distinguished from this. -/
def linkInit (noname : String) : FLink K where
  link := { (Link.zeroed : Link K) with name := noname, joint := ⟨.fixed, 0⟩, body := Body.init, offset := -1,
                                         org := Frame.ident, adj := Frame.ident }
  com := false
  mname := noname
  shapes := []

/-- The rows of `__ztk_prp_rklink`, src/rk_link.c:334-347, up to `att`, with the functions 239-274 and 309-332.  `names` are the names of the
links in the array; `nullStr` is what the C library prints for a null string, which is undefined in the standard. -/
def linkTab (nullStr : Option String) (names : List String) : List (Row (FLink K) K) :=
  [ { key := "name"
      rd := fun s ts => match ts with
        | .str n :: _ => if n ∈ names then .null s else .ok { s with link := { s.link with name := n } }
        | _ => .ub
      pr := some fun s => some [.str s.link.name] },
    { key := "jointtype"
      rd := fun s ts => match ts with
        | .str n :: _ => match s.link.joint.queryAssign n with
          | none => .ub
          | some none => .null s
          | some (some j) => .ok { s with link := { s.link with joint := j }, com := true }
        | _ => .ub
      pr := some fun s => some [.str s.link.joint.prp.typeStr] },
    numRow "mass" (fun s x => { s with link := { s.link with body := { s.link.body with
        mp := { s.link.body.mp with mass := x } } } }) (fun s => s.link.body.mp.mass),
    { key := "stuff"
      rd := fun s ts => match ts with
        | .str n :: _ => .ok { s with link := { s.link with body := { s.link.body with stuff := some n } } }
        | _ => .ub
      pr := some fun s => match s.link.body.stuff with
        | some n => some [.str n]
        | none => nullStr.map fun n => [.str n] },
    { key := "COM"
      rd := fun s ts => match vecTok ts with
        | some v => .ok { s with link := { s.link with body := { s.link.body with mp := { s.link.body.mp with com := v } } } }
        | none => .ub
      pr := some fun s => some (tokVec s.link.body.mp.com) },
    { key := "inertia"
      rd := fun s ts => match matTok ts with
        | some m => .ok { s with link := { s.link with body := { s.link.body with mp := { s.link.body.mp with inertia := m } } } }
        | none => .ub
      pr := some fun s => some (tokMat s.link.body.mp.inertia) },
    { key := "pos"
      rd := fun s ts => match vecTok ts with
        | some v => .ok { s with link := { s.link with org := { s.link.org with pos := v } } }
        | none => .ub
      pr := some fun s => some (tokVec s.link.org.pos) },
    { key := "att"
      rd := fun s ts => match matTok ts with
        | some m => .ok { s with link := { s.link with org := { s.link.org with att := m } } }
        | none => .ub
      pr := some fun s => some (tokMat s.link.org.att) } ]

/-- The row `shape` of the same table, src/rk_link.c:346 with 299-307.  `shapes` are the names of the shapes of the chain, whose
array is a null pointer when there are none (src/rk_chain.c:604). -/
def shapeRow (shapes : List String) : Row (FLink K) K where
  key := "shape"
  rd := fun s ts => match ts with
    | .str n :: _ =>
      if shapes = [] then .ub
      else if n ∈ shapes then .ok { s with shapes := s.shapes ++ [n] } else .null s
    | _ => .ub
  pr := none

/-- `__ztk_prp_rklink`, src/rk_link.c:334-347.  The rows `rot`, `frame` and `DH` (lines 343-345), which are not printed, are left
out here; `linkTabZ` of `Verif/Model/PoseKeys.lean` has them. -/
def linkTabAll (nullStr : Option String) (names shapes : List String) : List (Row (FLink K) K) :=
  linkTab nullStr names ++ [shapeRow shapes]

/-- `rkLinkFromZTK`, src/rk_link.c:353-364.  The result of line 362 is not looked at. -/
def linkRead (o : Order) (noname : String) (names shapes : List String) (motors : List (NMotor K)) (sec : List (Fld K)) :
    Res (FLink K) :=
  (evalKeys o (linkTabAll none names shapes) sec (linkInit noname)).andThen fun s =>
    (jointRead o motors sec ⟨s.link.joint.prp, s.mname⟩).ignore.bind (fun _ => .ub) fun j =>
      .ok { s with link := { s.link with joint := { s.link.joint with prp := j.prp } }, com := true, mname := j.mname }

/-- `rkLinkFPrintZTK`, src/rk_link.c:375-387, without the empty line at the end; `parent` is the name of the parent. -/
def linkPrint (nullStr : Option String) (parent : Option String) (l : FLink K) : Option (List (Fld K)) :=
  (printKeys (linkTab nullStr []) l).bind fun a =>
    (jointPrint ⟨l.link.joint.prp, l.mname⟩).map fun b =>
      a ++ b ++ l.shapes.map (fun n => ⟨"shape", [.str n]⟩) ++
        match parent with
        | some p => [⟨"parent", [.str p]⟩]
        | none => []

/-! ## Chains -/

/-- `rkChain`, include/roki/rk_chain.h:20-31, as far as it is written to a file; the pointers of the links are apart. -/
structure Robot (K : Type*) where
  name : String
  motors : List (NMotor K)
  shapes : List String
  link : List (FLink K)
  node : List LinkHeap.Node

/-- The names of the links in the array, for `zArrayFindName` (ZEDA), e.g. src/rk_link.c:241. -/
def Robot.names (r : Robot K) : List String := r.link.map fun l => l.link.name

/-- `_rkChainMotorFromZTK`, src/rk_chain.c:598-600. -/
def rdMotor (o : Order) (noname : String) (ms : List (NMotor K)) (i : ℕ) (sec : List (Fld K)) : Res (List (NMotor K)) :=
  (motorRead o noname sec).bind (fun m => .null (ms.set i m)) fun m => .ok (ms.set i m)

/-- `_rkChainLinkFromZTK`, src/rk_chain.c:601-606. -/
def rdLink (o : Order) (noname : String) (r : Robot K) (i : ℕ) (sec : List (Fld K)) : Res (Robot K) :=
  let r0 := { r with link := r.link.set i (linkInit noname) }
  (linkRead o noname r0.names r.shapes r.motors sec).bind
    (fun l => .null { r with link := r.link.set i l }) fun l => .ok { r with link := r.link.set i l }

/-- `__ztk_prp_rklink_parent`, src/rk_link.c:349-351 with 289-298, for link `i`. -/
def parentTab (names : List String) (i : ℕ) : List (Row (List LinkHeap.Node) K) :=
  [ { key := "parent"
      rd := fun h ts => match ts with
        | .str n :: _ => match names.findIdx? (fun m => m == n) with
          | none => .null h
          | some p => match LinkHeap.addChild h p i with
            | some h' => .ok h'
            | none => .ub
        | _ => .ub
      pr := none } ]

/-- `_rkChainLinkConnectFromZTK`, src/rk_chain.c:607-610 with `rkLinkConnectFromZTK`, src/rk_link.c:366-373. -/
def rdParent (o : Order) (names : List String) (h : List LinkHeap.Node) (i : ℕ) (sec : List (Fld K)) :
    Res (List LinkHeap.Node) := evalKeys o (parentTab names i) sec h

/-- `__ztk_prp_rkchain_chain`, src/rk_chain.c:591-593 with 583-589. -/
def chainTab : List (Row (Robot K) K) :=
  [ { key := "name"
      rd := fun r ts => match ts with
        | .str n :: _ => .ok { r with name := n }
        | _ => .ub
      pr := some fun r => some [.str r.name] } ]

/-- Change the frame of link 0, which is the root: `rkChainOrgFrame`, include/roki/rk_chain.h. -/
def modOrg (r : Robot K) (f : Frame K → Frame K) : Res (Robot K) :=
  match r.link[0]? with
  | none => .ub
  | some l => .ok { r with link := r.link.set 0 { l with link := { l.link with org := f l.link.org } } }

/-- The rows of `__ztk_prp_rkchain_initkey`, src/rk_chain.c:647-652, that are printed, with the functions 616-623 and 640-645. -/
def initTab : List (Row (Robot K) K) :=
  [ { key := "pos"
      rd := fun r ts => match vecTok ts with
        | some v => modOrg r fun f => { f with pos := v }
        | none => .ub
      pr := some fun r => r.link[0]?.map fun l => tokVec l.link.org.pos },
    { key := "att"
      rd := fun r ts => match matTok ts with
        | some m => modOrg r fun f => { f with att := m }
        | none => .ub
      pr := some fun r => r.link[0]?.map fun l => tokMat l.link.org.att } ]

/-- The row `joint` of the same table, src/rk_chain.c:651 with 628-638. -/
def initJointRow : Row (Robot K) K where
  key := "joint"
  rd := fun r ts => match ts with
    | .str n :: ts => match r.names.findIdx? (fun m => m == n) with
      | none => .null r
      | some i => match r.link[i]? with
        | none => .ub
        | some l => match disRead l.link.joint.prp ts with
          | none => .ub
          | some p => .ok { r with link := r.link.set i { l with link := { l.link with joint := { l.link.joint with prp := p } } } }
    | _ => .ub
  pr := none

/-- `__ztk_prp_rkchain_initkey`, src/rk_chain.c:647-652.  The row `frame` (line 650), which is not printed, is left out; a file with
this key is read by `initTabZ` of `Verif/Model/PoseKeys.lean`. -/
def initTabAll : List (Row (Robot K) K) := initTab ++ [initJointRow]

/-- The loop of `_rkChainInitFPrintZTK`, src/rk_chain.c:666-671. -/
def initJointPrint : List (FLink K) → Option (List (Fld K))
  | [] => some []
  | l :: ls =>
    if l.link.joint.prp.size = 0 ∨ l.link.joint.prp.isNeutral = true then initJointPrint ls
    else (disPrint l.link.joint.prp).bind fun v =>
      (initJointPrint ls).map fun fs => ⟨"joint", .str l.link.name :: v⟩ :: fs

/-- `_rkChainInitFPrintZTK`, src/rk_chain.c:660-672. -/
def initPrint (r : Robot K) : Option (List (Fld K)) :=
  (printKeys initTab r).bind fun a => (initJointPrint r.link).map fun b => a ++ b

/-- The names of the shapes (Zeo), read at src/rk_chain.c:760-766 and written at line 739; the rest of a shape is not modelled. -/
def shapeName (sec : List (Fld K)) : Option String :=
  match sec with
  | [⟨"name", [.str n]⟩] => some n
  | _ => none

/-- The name of the parent of a link, src/rk_link.c:384-385. -/
def parentName (r : Robot K) (i : ℕ) : Option (Option String) :=
  match r.node[i]? with
  | none => none
  | some x => match x.parent with
    | none => some none
    | some p => r.link[p]?.map fun l => some l.link.name

/-- The loop of `rkChainFPrintZTK`, src/rk_chain.c:743-746, from link `i` on. -/
def linksPrint (nullStr : Option String) (r : Robot K) : ℕ → List (FLink K) → Option (File K)
  | _, [] => some []
  | i, l :: ls => (parentName r i).bind fun p => (linkPrint nullStr p l).bind fun a =>
      (linksPrint nullStr r (i + 1) ls).map fun b => ("link", a) :: b

/-- `rkChainFPrintZTK`, src/rk_chain.c:733-749.  The tags are those of include/roki/rk_chain.h:455-456, rk_link.h:373 and
rk_motor.h:75; optical information is not modelled. -/
def print (nullStr : Option String) (r : Robot K) : Option (File K) :=
  (printKeys chainTab r).bind fun a =>
    (r.motors.mapM motorPrint).bind fun b =>
      (linksPrint nullStr r 0 r.link).bind fun c =>
        (initPrint r).map fun d =>
          ("chain", a) :: r.shapes.map (fun n => ("shape", [⟨"name", [.str n]⟩])) ++ b.map (fun s => ("motor", s)) ++ c ++
            [("init", d)]

/-- Follow the pointers of the links: the recursion of `rkLinkUpdateFrame`, src/rk_link.c:118-128, and its like.  A recursion that
does not end is `none`; it ends within as many steps as there are links or never. -/
def toTree (h : List LinkHeap.Node) : ℕ → Option ℕ → Option (LTree ℕ)
  | 0, _ => none
  | _ + 1, none => some .nil
  | fuel + 1, some i => h[i]?.bind fun x => (toTree h fuel x.child).bind fun c =>
      (toTree h fuel x.sibl).map fun s => .node i c s

/-- The functions that evaluate the sections of the file: src/rk_chain.c:718-723 with 703-717, in `rkChainReadZTK`, 752-773.
Undefined behaviour is `none`. -/
def readParts (o : Order) (noname : String) (f : File K) : Option (Robot K) :=
  let nm := (secs "motor" f).length
  let nl := (secs "link" f).length
  ((secs "shape" f).mapM shapeName).bind fun shapes =>
    match evalTag (rdMotor o noname) 0 (secs "motor" f) (List.replicate nm ⟨noname, none⟩) with
    | .ub => none
    | .null ms | .ok ms =>
      let r0 : Robot K := { name := noname, motors := ms, shapes := shapes,
                            link := List.replicate nl (linkInit noname), node := LinkHeap.init nl }
      match evalTag (rdLink o noname) 0 (secs "link" f) r0 with
      | .ub => none
      | .null r | .ok r => match evalTag (rdParent o r.names) 0 (secs "link" f) r.node with
        | .ub => none
        | .null h | .ok h =>
          match evalTag (fun r _ sec => evalKeys o chainTab sec r) 0 (secs "chain" f) { r with node := h } with
          | .ub => none
          | .null r | .ok r => match evalTag (fun r _ sec => evalKeys o initTabAll sec r) 0 (secs "init" f) r with
            | .ub => none
            | .null r | .ok r => some r

/-- The chain with the mass of lines 724-725 and the offsets of line 726 of src/rk_chain.c, before the pose is computed. -/
def Robot.chain (r : Robot K) (t : LTree ℕ) : Chain K :=
  let ls := r.link.map fun l => l.link
  let m := LinkArray.calcMass ls
  { link := LinkArray.setOffset ls, shape := t, mass := if m = 0 then 1 else m, wldCOM := 0, comVel := 0, comAcc := 0 }

/-- `rkChainReadZTK`, src/rk_chain.c:752-773, with `rkChainFromZTK`, 699-730.  The result is what was read and the chain after
`rkChainUpdateFK` and `rkChainUpdateID`.  The null pointer, returned for a file without links, is `some none`, and `none` is
undefined behaviour or a recursion without end.  A joint without a type is met at line 726. -/
def read (o : Order) (noname : String) (g : Vec6 K) (f : File K) : Option (Option (Robot K × Chain K)) :=
  if secs "link" f = [] then some none
  else (readParts o noname f).bind fun r =>
    if r.link.any fun l => !l.com then none
    else (toTree r.node (r.node.length + 1) (some 0)).bind fun t =>
      (r.chain t).updateFK.bind fun c => (c.updateID g).map fun c => some (r, c)
end

end Roki.ZTK
