import Verif.Model.ChainFile
import Verif.Spec.LinkHeap
set_option autoImplicit false

/-!
# Specification of writing a chain to a file and reading it back
-/

namespace Roki.Spec.File
open Roki.ZTK Roki.Spec.Forest
variable {K : Type*} [Field K]

/-- The motor without its input. -/
def restMotor : Motor K → Motor K
  | .none => .none
  | .dc p => .dc { p with e := 0 }
  | .trq p => .trq { p with input := 0 }

/-- What a file keeps of a joint: the type, the displacement and the attributes, but not velocity, acceleration, torque, friction
and the input of the motor, which are zero. -/
def rest : Prp K → Prp K
  | .fixed => .fixed
  | .revol p => .revol { (Dof1.fresh : Dof1 K) with
      dis := p.dis, s := p.s, c := p.c, lo := p.lo, hi := p.hi,
      stiffness := p.stiffness, viscosity := p.viscosity, coulomb := p.coulomb, sf := p.sf, motor := restMotor p.motor }
  | .prism p => .prism { (Dof1.fresh : Dof1 K) with
      dis := p.dis, lo := p.lo, hi := p.hi, stiffness := p.stiffness,
      viscosity := p.viscosity, coulomb := p.coulomb, sf := p.sf, motor := restMotor p.motor }
  | .cylin p => .cylin { (Dof2.fresh : Dof2 K) with
      dis0 := p.dis0, dis1 := p.dis1, s1 := p.s1, c1 := p.c1, lo0 := p.lo0,
      lo1 := p.lo1, hi0 := p.hi0, hi1 := p.hi1, stiffness0 := p.stiffness0, stiffness1 := p.stiffness1,
      viscosity0 := p.viscosity0, viscosity1 := p.viscosity1, coulomb0 := p.coulomb0, coulomb1 := p.coulomb1, sf0 := p.sf0,
      sf1 := p.sf1, motor := restMotor p.motor }
  | .hooke p => .hooke { (Dof2.fresh : Dof2 K) with
      dis0 := p.dis0, dis1 := p.dis1, s0 := p.s0, c0 := p.c0, s1 := p.s1,
      c1 := p.c1, lo0 := p.lo0, lo1 := p.lo1, hi0 := p.hi0, hi1 := p.hi1, stiffness0 := p.stiffness0,
      stiffness1 := p.stiffness1, viscosity0 := p.viscosity0, viscosity1 := p.viscosity1, coulomb0 := p.coulomb0,
      coulomb1 := p.coulomb1, sf0 := p.sf0, sf1 := p.sf1, motor := restMotor p.motor }
  | .spher p => .spher { aa := p.aa, vel := 0, acc := 0, trq := 0, att := p.att, motor := restMotor p.motor }
  | .float p => .float { dis := p.dis, vel := 0, acc := 0, trq := 0, att := p.att, epf := none, ept := none }
  | .brfloat p => .brfloat { dis := p.dis, vel := 0, acc := 0, trq := 0, att := p.att, epf := p.epf, ept := p.ept }

/-- The displacements of a joint that are angles about a fixed axis. -/
def angles : Prp K → List K
  | .revol p => [p.dis]
  | .cylin p => [p.dis1]
  | .hooke p => [p.dis0, p.dis1]
  | _ => []

/-- What a file keeps of a link, apart from shapes and parent. -/
def params (l : Link K) : String × MP K × Option String × Frame K × ℤ × Prp K :=
  (l.name, l.body.mp, l.body.stuff, l.org, l.offset, rest l.joint.prp)

variable [LinearOrder K] [Zm K]

/-- A robot that can be written and read back.  `t` is the tree that its pointers spell. -/
structure Writable (noname : String) (r : Robot K) (t : LTree ℕ) : Prop where
  /-- the links have names, which are distinct -/
  names : r.names.Nodup
  named : noname ∉ r.names
  /-- every link has a material and a joint -/
  stuff : ∀ l ∈ r.link, l.link.body.stuff.isSome
  com : ∀ l ∈ r.link, l.com = true
  /-- the motors of the chain have distinct names and a type -/
  motors : (r.motors.map fun m => m.name).Nodup
  typed : ∀ m ∈ r.motors, m.motor.isSome
  /-- the motor of a joint is one of them, or none and without a name; in both cases there is at least one motor in the chain -/
  drive : ∀ l ∈ r.link, ∀ q, l.link.joint.prp.getMotor = some q → r.motors ≠ [] ∧
    ((∃ m ∈ r.motors, m.name = l.mname ∧ m.motor.map restMotor = some (restMotor q)) ∨
      (l.mname = noname ∧ q = .none ∧ ∀ m ∈ r.motors, m.name ≠ noname))
  nodrive : ∀ l ∈ r.link, l.link.joint.prp.getMotor = none → l.mname = noname
  /-- a displacement is one that is not changed when it is set: within the limits, and with the sine and cosine that belong to it -/
  settled : ∀ l ∈ r.link, l.link.joint.prp.setDis l.link.joint.prp.getDis = some l.link.joint.prp
  normal : ∀ l ∈ r.link, l.link.joint.prp.isNeutral = true → ∀ a ∈ angles l.link.joint.prp, Zm.phaseNormalize a = a
  /-- the shapes of the links are shapes of the chain -/
  shapes : ∀ l ∈ r.link, ∀ s ∈ l.shapes, s ∈ r.shapes
  /-- the links form a tree with link 0 as its root -/
  size : r.node.length = r.link.length
  tree : Rep r.node none (some 0) t
  root : ∃ c, t = .node 0 c .nil
  all : t.toList.Perm (List.range r.link.length)

/-- The robot read agrees with the robot written in everything but the state of motion. -/
structure SameRobot (r r' : Robot K) : Prop where
  name : r'.name = r.name
  shapes : r'.shapes = r.shapes
  motors : r'.motors = r.motors.map fun m => { m with motor := m.motor.map restMotor }
  size : r'.link.length = r.link.length
  link : ∀ (i : ℕ) (l l' : FLink K), r.link[i]? = some l → r'.link[i]? = some l' →
    l'.link.name = l.link.name ∧ l'.link.joint.prp = rest l.link.joint.prp ∧ l'.mname = l.mname ∧ l'.shapes = l.shapes ∧
    l'.link.body.mp = l.link.body.mp ∧ l'.link.body.stuff = l.link.body.stuff ∧ l'.link.org = l.link.org
  parent : ∀ i : ℕ, r'.node[i]?.map (fun x => x.parent) = r.node[i]?.map (fun x => x.parent)

/-! ## Parents in a file -/

omit [Field K] [LinearOrder K] [Zm K]

/-- The values of the fields with a key. -/
def fieldVals (sec : List (Fld K)) (k : String) : List (List (Tok K)) := (sec.filter fun f => f.key = k).map Fld.val

/-- The file without the lines `parent: ...` of its links. -/
def noParents (f : File K) : File K :=
  f.map fun s => if s.1 = "link" then (s.1, s.2.filter fun x => x.key ≠ "parent") else s

/-- The sections of the links of the file declare the parents `pars`, given by number: no line, or one line with the name of the
link with that number. -/
def DeclareParents (names : List String) (f : File K) (pars : List (Option ℕ)) : Prop :=
  List.Forall₂ (fun s (par : Option ℕ) => match par with
    | none => fieldVals s.2 "parent" = []
    | some p => ∃ n, names[p]? = some n ∧ fieldVals s.2 "parent" = [[.str n]]) (f.filter fun s => s.1 = "link") pars

/-- Going from parent to parent leads from link `i` to link 0. -/
inductive LeadsToRoot (pars : List (Option ℕ)) : ℕ → Prop
  | root : LeadsToRoot pars 0
  | step {i p : ℕ} : pars[i]? = some (some p) → LeadsToRoot pars p → LeadsToRoot pars i

end Roki.Spec.File
