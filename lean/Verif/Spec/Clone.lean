import Verif.Model.Clone
import Mathlib.Data.List.Forall2
import Mathlib.Data.Option.Basic
set_option autoImplicit false

/-! # Vocabulary for the statements about creating and cloning -/

namespace Roki
variable {K : Type*}

/-- Two links that a user cannot tell apart by kinematics or inverse dynamics: every value is the same,
and the same external forces are attached, in whatever order.  The workspace of forward dynamics,
which `rkChainABIAlloc` has to set up first, is not compared. -/
structure Link.Like (l l' : Link K) : Prop where
  name : l'.name = l.name
  joint : l'.joint = l.joint
  offset : l'.offset = l.offset
  org : l'.org = l.org
  adj : l'.adj = l.adj
  mp : l'.body.mp = l.body.mp
  frame : l'.body.frame = l.body.frame
  vel : l'.body.vel = l.body.vel
  acc : l'.body.acc = l.body.acc
  wldCOM : l'.body.wldCOM = l.body.wldCOM
  comVel : l'.body.comVel = l.body.comVel
  comAcc : l'.body.comAcc = l.body.comAcc
  stuff : l'.body.stuff = l.body.stuff
  extw : l'.body.extw.Perm l.body.extw

/-- Two chains with the same tree, the same totals and links that are alike. -/
structure Chain.Like (c c' : Chain K) : Prop where
  link : List.Forall₂ Link.Like c.link c'.link
  shape : c'.shape = c.shape
  mass : c'.mass = c.mass
  wldCOM : c'.wldCOM = c.wldCOM
  comVel : c'.comVel = c.comVel
  comAcc : c'.comAcc = c.comAcc

/-- The operations a user applies to a chain: set displacements or rates by an index list or all of them,
update the kinematics or the inverse dynamics, attach an external wrench to a link, remove all external
wrenches. -/
inductive Chain.Op (K : Type*) where
  | setDis (idx : List ℕ) (v : List K)
  | setDisAll (v : List K)
  | setRate (idx : List ℕ) (v a : List K)
  | setRateAll (v a : List K)
  | updateFK
  | updateID (g : Vec6 K)
  | fk (v : List K)
  | id (g : Vec6 K) (v a : List K)
  | fkCNT (g : Vec6 K) (v : List K) (dt : K)
  | push (i : ℕ) (w : Wrench K)
  | clear

section
variable [Field K] [LinearOrder K] [Zm K]

/-- One operation; `none` is undefined behaviour. -/
def Chain.Op.run (c : Chain K) : Chain.Op K → Option (Chain K)
  | .setDis idx v => (LinkArray.setJoint Prp.setDis idx v c.link).map fun ls => { c with link := ls }
  | .setDisAll v => (LinkArray.setJointAll Prp.setDis v c.link).map fun ls => { c with link := ls }
  | .setRate idx v a => (LinkArray.setJointRate idx v a c.link).map fun ls => { c with link := ls }
  | .setRateAll v a => (LinkArray.setJointRateAll v a c.link).map fun ls => { c with link := ls }
  | .updateFK => c.updateFK
  | .updateID g => c.updateID g
  | .fk v => c.fk v
  | .id g v a => c.invDyn g v a
  | .fkCNT g v dt => c.fkCNT g v dt
  | .push i w => c.link[i]?.map fun (l : Link K) =>
      { c with link := c.link.set i { l with body := { l.body with extw := l.body.extw.push w } } }
  | .clear => some { c with link := LinkArray.extWrenchDestroy c.link }

/-- A sequence of operations. -/
def Chain.runAll (c : Chain K) : List (Chain.Op K) → Option (Chain K)
  | [] => some c
  | o :: os => (o.run c).bind fun c' => c'.runAll os

/-- The property blocks a program gets by assigning a type to a joint and then using the state functions
and the motor, without setting limits, friction, stiffness, viscosity or break thresholds. -/
inductive Prp.Plain : Prp K → Prop
  | assign (j j' : Joint K) (str : String) : j.queryAssign str = some (some j') → Prp.Plain j'.prp
  | setDis (p p' : Prp K) (v : List K) : Prp.Plain p → p.setDis v = some p' → Prp.Plain p'
  | setVel (p p' : Prp K) (v : List K) : Prp.Plain p → p.setVel v = some p' → Prp.Plain p'
  | setAcc (p p' : Prp K) (v : List K) : Prp.Plain p → p.setAcc v = some p' → Prp.Plain p'
  | setTrq (p p' : Prp K) (v : List K) : Prp.Plain p → p.setTrq v = some p' → Prp.Plain p'
  | setDisCNT (p p' : Prp K) (v : List K) (dt : K) :
      Prp.Plain p → p.setDisCNT v dt = some p' → Prp.Plain p'
  | calcTrq (p : Prp K) (w : Vec6 K) : Prp.Plain p → Prp.Plain (p.calcTrq w)
  | motor (p : Prp K) (m : Motor K) : Prp.Plain p → Prp.Plain (p.withMotor m)
  | input (p : Prp K) (v : K) : Prp.Plain p → Prp.Plain (p.motorSetInput v)

/-- The angles of a joint are in (-π, π] and the cached values are those of the displacement. -/
def Prp.Settled : Prp K → Prop
  | .fixed => True
  | .revol p => -Zm.pi < p.dis ∧ p.dis ≤ Zm.pi ∧ p.s = Zm.sin p.dis ∧ p.c = Zm.cos p.dis
  | .prism _ => True
  | .cylin p => -Zm.pi < p.dis1 ∧ p.dis1 ≤ Zm.pi ∧ p.s1 = Zm.sin p.dis1 ∧ p.c1 = Zm.cos p.dis1
  | .hooke p => -Zm.pi < p.dis0 ∧ p.dis0 ≤ Zm.pi ∧ p.s0 = Zm.sin p.dis0 ∧ p.c0 = Zm.cos p.dis0 ∧
      -Zm.pi < p.dis1 ∧ p.dis1 ≤ Zm.pi ∧ p.s1 = Zm.sin p.dis1 ∧ p.c1 = Zm.cos p.dis1
  | .spher p => p.att = Zm.fromAA p.aa
  | .float p => p.att = Zm.fromAA p.dis.ang
  | .brfloat p => p.att = Zm.fromAA p.dis.ang

end
end Roki
