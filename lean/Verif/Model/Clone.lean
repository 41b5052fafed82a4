import Verif.Model.ChainTree
set_option autoImplicit false

/-!
# Creating and copying joints, links and chains: src/rk_joint.c, src/rk_link.c, src/rk_chain.c

Allocation succeeds and gives zeroed memory (`zAlloc`).  The pointer `com` of a joint is the constructor
of `Prp`.
-/

namespace Roki
variable {K : Type*}

section
variable [Field K]

/-- A zeroed property block of one degree of freedom after `_init`: rk_joint_revol.c:11-17,
rk_joint_prism.c:11-17. -/
def Dof1.fresh : Dof1 K :=
  { dis := 0, vel := 0, acc := 0, trq := 0, lo := none, hi := none, stiffness := 0, viscosity := 0,
    coulomb := 0, s := 0, c := 0, tf := 0, sf := 0, motor := Motor.none, fp := ⟨0, 0, 0⟩, u := 0 }

/-- A zeroed property block of two degrees of freedom after `_init`: rk_joint_cylin.c:11-19,
rk_joint_hooke.c:11-19. -/
def Dof2.fresh : Dof2 K :=
  { dis0 := 0, dis1 := 0, vel0 := 0, vel1 := 0, acc0 := 0, acc1 := 0, trq0 := 0, trq1 := 0,
    lo0 := none, lo1 := none, hi0 := none, hi1 := none, stiffness0 := 0, stiffness1 := 0,
    viscosity0 := 0, viscosity1 := 0, coulomb0 := 0, coulomb1 := 0, s0 := 0, s1 := 0, c0 := 0,
    c1 := 0, tf0 := 0, tf1 := 0, sf0 := 0, sf1 := 0, motor := Motor.none, fp0 := ⟨0, 0, 0⟩,
    fp1 := ⟨0, 0, 0⟩, u0 := 0, u1 := 0 }

namespace Prp

/-- A newly allocated and initialised property block of the same type, `com->_alloc` and `com->_init`:
the above and rk_joint_fixed.c:9-11, rk_joint_spher.c:11-15, rk_joint_float.c:11-13,
rk_joint_brfloat.c:15-22. -/
def fresh : Prp K → Prp K
  | fixed => fixed
  | revol _ => revol Dof1.fresh
  | prism _ => prism Dof1.fresh
  | cylin _ => cylin Dof2.fresh
  | hooke _ => hooke Dof2.fresh
  | spher _ => spher { aa := 0, vel := 0, acc := 0, trq := 0, att := 0, motor := Motor.none }
  | float _ => float { dis := 0, vel := 0, acc := 0, trq := 0, att := 0, epf := none, ept := none }
  | brfloat _ => brfloat { dis := 0, vel := 0, acc := 0, trq := 0, att := 0, epf := none, ept := none }

/-- `RK_JOINT_COM_ARRAY`, include/roki/rk_joint.h:336-347, each entry with its initial block. -/
def comArray : List (Prp K) :=
  [ fixed, revol Dof1.fresh, prism Dof1.fresh, cylin Dof2.fresh, hooke Dof2.fresh,
    spher { aa := 0, vel := 0, acc := 0, trq := 0, att := 0, motor := Motor.none },
    float { dis := 0, vel := 0, acc := 0, trq := 0, att := 0, epf := none, ept := none },
    brfloat { dis := 0, vel := 0, acc := 0, trq := 0, att := 0, epf := none, ept := none } ]

variable [LinearOrder K] [Zm K]

/-- `rkJointNeutral`, src/rk_joint.c:43-47. -/
def neutral (p : Prp K) : Option (Prp K) := p.setDis [0, 0, 0, 0, 0, 0]

/-- `rkJointIsNeutral`, src/rk_joint.c:50-59. -/
def isNeutral (p : Prp K) : Bool := (p.getDis.take p.size).all Zm.tiny

/-- `rkJointCopyState`, src/rk_joint.c:74-83.  The buffer of six numbers is filled by the getter; the
rest of it is not read by a joint of the same type. -/
def copyState (src dst : Prp K) : Option (Prp K) :=
  (dst.setDis src.getDis).bind fun d1 => (d1.setVel src.getVel).bind fun d2 =>
    (d2.setAcc src.getAcc).bind fun d3 => d3.setTrq src.getTrq

end Prp

namespace Joint
variable [LinearOrder K] [Zm K]

/-- `rkJointAssign`, src/rk_joint.c:16-23, with the table of `p`; the wrench is not touched. -/
def assign (j : Joint K) (p : Prp K) : Option (Joint K) :=
  p.fresh.neutral.map fun q => { j with prp := q }

/-- `rkJointQueryAssign`, src/rk_joint.c:25-33: outer `none` does not occur, inner `none` is the null
pointer. -/
def queryAssign (j : Joint K) (str : String) : Option (Option (Joint K)) :=
  match (Prp.comArray (K := K)).find? (fun p => p.typeStr == str) with
  | some p => (j.assign p).map some
  | none => some none

/-- `rkJointClone`, src/rk_joint.c:62-71; the motor is copied with `rkMotorClone`,
src/rk_motor.c:40-46. -/
def clone (org cln : Joint K) : Option (Joint K) :=
  (cln.assign org.prp).bind fun j => (org.prp.copyState j.prp).map fun q =>
    { j with prp := match org.prp.getMotor with | some m => q.withMotor m | none => q }

end Joint

namespace Link
variable [LinearOrder K] [Zm K]

/-- A zeroed link.  Its frames are zero, not the identity. -/
def zeroed : Link K :=
  { name := "", joint := ⟨.fixed, 0⟩,
    body := { mp := ⟨0, 0, 0⟩, frame := ⟨0, 0⟩, vel := 0, acc := 0, wldCOM := 0, comVel := 0, comAcc := 0,
              extw := [], stuff := none },
    offset := 0, org := ⟨0, 0⟩, adj := ⟨0, 0⟩,
    abi := { m := 0, i := 0, f := 0, b := 0, c := 0, wlist := [], w := 0, w0 := 0, b0 := 0, a0 := 0,
             path := false, axi := fun _ _ => 0, iaxi := fun _ _ => 0 } }

/-- `rkLinkClone`, src/rk_link.c:44-66.  The three pointers are translated to the array of the clone,
which is the same index tree here; see `Verif/Model/LinkHeap.lean` for the pointers themselves. -/
def clone (org cln : Link K) : Option (Link K) :=
  (org.joint.clone cln.joint).map fun j =>
    { cln with name := org.name, joint := j, body := org.body.clone cln.body, offset := org.offset, org := org.org }

/-- `rkLinkCopyState`, src/rk_link.c:69-76. -/
def copyState (src dst : Link K) : Option (Link K) :=
  (src.joint.prp.copyState dst.joint.prp).map fun p =>
    { dst with joint := ⟨p, src.joint.wrench⟩, body := src.body.copyState dst.body, adj := src.adj }

end Link

namespace Chain
variable [LinearOrder K] [Zm K]

/-- `rkChainClone`, src/rk_chain.c:47-76 with `rkChainCopyState` 79-89.  The name, the shapes and the
array of motors of the chain are not modelled. -/
def clone (org : Chain K) : Option (Chain K) :=
  if org.link.length = 0 then none
  else
    (org.link.mapM fun l : Link K => (l.clone Link.zeroed).bind fun l' => l.copyState l').map fun ls =>
      { link := ls, shape := org.shape, mass := org.mass, wldCOM := org.wldCOM, comVel := org.comVel,
        comAcc := org.comAcc }

/-- `rkChainCopyState`, src/rk_chain.c:79-89; `none` when the destination has fewer links. -/
def copyState (src dst : Chain K) : Option (Chain K) :=
  if src.link.length ≤ dst.link.length then
    ((List.zip src.link dst.link).mapM fun p : Link K × Link K => p.1.copyState p.2).map fun ls =>
      { dst with link := ls ++ dst.link.drop src.link.length, wldCOM := src.wldCOM, comVel := src.comVel,
                 comAcc := src.comAcc }
  else none

end Chain
end
end Roki
