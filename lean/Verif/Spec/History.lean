import Verif.Spec.Renumber
import Verif.Model.ABI
set_option autoImplicit false

/-! # Specification: histories of a robot with its links numbered otherwise (C113) -/

namespace Roki.Spec
variable {K : Type*}

/-- Two links that agree in everything but their name and their place in the joint vectors. -/
structure SameLink (l m : Link K) : Prop where
  joint : m.joint = l.joint
  body : m.body = l.body
  org : m.org = l.org
  adj : m.adj = l.adj
  abi : m.abi = l.abi

/-- `d` is the robot `c`, in the same state, described with another numbering of the links and another order of the children of each
link: link `i` of `c` is link `σ i` of `d`. -/
structure Relabelled (σ : ℕ → ℕ) (c d : Chain K) : Prop where
  len : d.link.length = c.link.length
  inj : ∀ i j, i < c.link.length → j < c.link.length → σ i = σ j → i = j
  path : ∀ q, IsPath d.shape q ↔ ∃ p, IsPath c.shape p ∧ q = p.map σ
  link : ∀ (i : ℕ) (l : Link K), c.link[i]? = some l → ∃ m, d.link[σ i]? = some m ∧ SameLink l m
  mass : d.mass = c.mass
  wldCOM : d.wldCOM = c.wldCOM
  comVel : d.comVel = c.comVel
  comAcc : d.comAcc = c.comAcc

/-- What a user does to a robot: set the displacements, the velocities or the rates of the joints, with or without continuity, update kinematics,
velocities, inverse dynamics or forward dynamics, put an external wrench on a link, remove all of them, set the input of a motor, add a wrench for
the incremental update of forward dynamics, do that update, save and restore accelerations and biases. -/
inductive Act (K : Type*) where
  | setDis (v : List K)
  | setVel (v : List K)
  | setDisCNT (v : List K) (dt : K)
  | setRate (v a : List K)
  | updateFK
  | updateVel
  | updateID (g : Vec6 K)
  | calcMass
  | push (i : ℕ) (w : Wrench K)
  | clear
  | input (i : ℕ) (u : K)
  | alloc
  | updateABI (fx wr : Bool)
  | load (i : ℕ) (w : Wrench K)
  | unload (i : ℕ)
  | addForces (fx wr : Bool)
  | save
  | restore

section
variable [Field K] [LinearOrder K] [Zm K]

/-- The effect of an action; `none` is undefined behaviour. -/
def Act.run (c : Chain K) : Act K → Option (Chain K)
  | .setDis v => (LinkArray.setJointAll Prp.setDis v c.link).map fun ls => { c with link := ls }
  | .setVel v => (LinkArray.setJointAll Prp.setVel v c.link).map fun ls => { c with link := ls }
  | .setDisCNT v dt => (LinkArray.setJointAll (fun p v => p.setDisCNT v dt) v c.link).map fun ls => { c with link := ls }
  | .setRate v a => (LinkArray.setJointRateAll v a c.link).map fun ls => { c with link := ls }
  | .updateFK => c.updateFK
  | .updateVel => c.updateVel
  | .updateID g => c.updateID g
  | .calcMass => some c.calcMass
  | .push i w => if i < c.link.length then some { c with link := c.link.modify i fun l =>
      { l with body := { l.body with extw := l.body.extw.push w } } } else none
  | .clear => some { c with link := LinkArray.extWrenchDestroy c.link }
  | .input i u => if i < c.link.length then some { c with link := c.link.modify i fun l =>
      { l with joint := { l.joint with prp := l.joint.prp.motorSetInput u } } } else none
  | .alloc => some c.abiAlloc
  | .updateABI fx wr => c.abiUpdate fx wr
  | .load i w => if i < c.link.length then some { c with link := c.link.modify i fun l =>
      { l with abi := { l.abi with wlist := l.abi.wlist.push w } } } else none
  | .unload i => if i < c.link.length then some { c with link := c.link.modify i fun l =>
      { l with abi := { l.abi with wlist := [] } } } else none
  | .addForces fx wr => c.abiUpdateAddEx fx wr
  | .save => some c.abiPush
  | .restore => some c.abiPop

/-- A sequence of actions. -/
def runActs : List (Act K) → Chain K → Option (Chain K)
  | [], c => some c
  | a :: as, c => (a.run c).bind (runActs as)
end

/-- The same action on the two descriptions: the same joints get the same values, and the same links are meant. -/
inductive SameAct (σ : ℕ → ℕ) (c d : Chain K) : Act K → Act K → Prop
  | setDis {v w : List K} : v.length = LinkArray.jointSize c.link → w.length = LinkArray.jointSize d.link → SameValues σ c d v w →
      SameAct σ c d (.setDis v) (.setDis w)
  | setVel {v w : List K} : v.length = LinkArray.jointSize c.link → w.length = LinkArray.jointSize d.link → SameValues σ c d v w →
      SameAct σ c d (.setVel v) (.setVel w)
  | setDisCNT {v w : List K} (dt : K) : v.length = LinkArray.jointSize c.link → w.length = LinkArray.jointSize d.link →
      SameValues σ c d v w → SameAct σ c d (.setDisCNT v dt) (.setDisCNT w dt)
  | setRate {v w a b : List K} : v.length = LinkArray.jointSize c.link → w.length = LinkArray.jointSize d.link → SameValues σ c d v w →
      a.length = LinkArray.jointSize c.link → b.length = LinkArray.jointSize d.link → SameValues σ c d a b →
      SameAct σ c d (.setRate v a) (.setRate w b)
  | updateFK : SameAct σ c d .updateFK .updateFK
  | updateVel : SameAct σ c d .updateVel .updateVel
  | updateID (g : Vec6 K) : SameAct σ c d (.updateID g) (.updateID g)
  | calcMass : SameAct σ c d .calcMass .calcMass
  | push {i : ℕ} (w : Wrench K) : i < c.link.length → SameAct σ c d (.push i w) (.push (σ i) w)
  | clear : SameAct σ c d .clear .clear
  | input {i : ℕ} (u : K) : i < c.link.length → SameAct σ c d (.input i u) (.input (σ i) u)
  | alloc : SameAct σ c d .alloc .alloc
  | updateABI (fx wr : Bool) : SameAct σ c d (.updateABI fx wr) (.updateABI fx wr)
  | load {i : ℕ} (w : Wrench K) : i < c.link.length → SameAct σ c d (.load i w) (.load (σ i) w)
  | unload {i : ℕ} : i < c.link.length → SameAct σ c d (.unload i) (.unload (σ i))
  | addForces (fx wr : Bool) : SameAct σ c d (.addForces fx wr) (.addForces fx wr)
  | save : SameAct σ c d .save .save
  | restore : SameAct σ c d .restore .restore

end Roki.Spec
