import Verif.Spec.History
import Verif.Model.Jacobi
set_option autoImplicit false

/-! # Specification: the mirror image of a robot (C140)

The mirror is the plane `y = 0`, which exchanges left and right.  Positions, velocities, accelerations and forces keep `x` and `z` and change the
sign of `y`; angular velocities, angular accelerations and moments do the opposite. -/

namespace Roki.Spec
variable {K : Type*}

namespace Mirror

section
variable [Neg K]

/-- The mirror image of a position, a linear velocity, a linear acceleration or a force. -/
def pol (v : Vec3 K) : Vec3 K := ⟨v.x, -v.y, v.z⟩
/-- The mirror image of an angle-axis vector, an angular velocity, an angular acceleration or a moment. -/
def axi (v : Vec3 K) : Vec3 K := ⟨-v.x, v.y, -v.z⟩
/-- The mirror image of an attitude or of an inertia tensor: mirror, apply the matrix, mirror back. -/
def mat (m : Mat3 K) : Mat3 K := ⟨pol m.cx, ⟨-m.cy.x, m.cy.y, -m.cy.z⟩, pol m.cz⟩
/-- A frame. -/
def frame (f : Frame K) : Frame K := ⟨pol f.pos, mat f.att⟩
/-- A linear quantity and an angular quantity. -/
def vec6 (v : Vec6 K) : Vec6 K := ⟨pol v.lin, axi v.ang⟩
/-- Force and moment with a point of action. -/
def load (w : Wrench K) : Wrench K := ⟨vec6 w.w, pol w.p⟩
/-- Mass, center of mass, inertia tensor. -/
def mp (m : MP K) : MP K := ⟨m.mass, pol m.com, mat m.inertia⟩

/-- The inertia of a body as a matrix that takes an acceleration to a force: mirror, apply the matrix, mirror back. -/
def mat6 (m : Mat6 K) : Mat6 K := ⟨mat m.ll, mat (-m.la), mat (-m.al), mat m.aa⟩

/-- A motor that drives a joint that is seen in reverse: the lower limit of its input becomes the upper one. -/
def motor : Motor K → Motor K
  | .none => .none
  | .dc p => .dc { p with e := -p.e, maxvol := p.minvol.map (- ·), minvol := p.maxvol.map (- ·) }
  | .trq p => .trq { p with input := -p.input, max := p.min.map (- ·), min := p.max.map (- ·) }

/-- The memory of friction of a joint that is seen in reverse. -/
def pivot (f : FricPivot K) : FricPivot K := { f with refDis := -f.refDis, prevTrq := -f.prevTrq }

/-- The state of a joint.  A slide along `z` and a turn about `y` are seen as they are; a turn about `x` or `z` is seen in reverse, so that its
lower limit becomes the upper one.  The motor of a cylindrical joint drives the slide, that of a universal joint the first turn. -/
def prp : Prp K → Prp K
  | .fixed => .fixed
  | .revol p => .revol { p with
      dis := -p.dis, vel := -p.vel, acc := -p.acc, trq := -p.trq, lo := p.hi.map (- ·), hi := p.lo.map (- ·), s := -p.s
      tf := -p.tf, u := -p.u, motor := motor p.motor, fp := pivot p.fp }
  | .prism p => .prism p
  | .cylin p => .cylin { p with
      dis1 := -p.dis1, vel1 := -p.vel1, acc1 := -p.acc1, trq1 := -p.trq1, lo1 := p.hi1.map (- ·), hi1 := p.lo1.map (- ·), s1 := -p.s1
      tf1 := -p.tf1, u1 := -p.u1, fp1 := pivot p.fp1 }
  | .hooke p => .hooke { p with
      dis0 := -p.dis0, vel0 := -p.vel0, acc0 := -p.acc0, trq0 := -p.trq0, lo0 := p.hi0.map (- ·), hi0 := p.lo0.map (- ·), s0 := -p.s0
      tf0 := -p.tf0, u0 := -p.u0, motor := motor p.motor, fp0 := pivot p.fp0 }
  | .spher p => .spher { p with aa := axi p.aa, vel := axi p.vel, acc := axi p.acc, trq := axi p.trq, att := mat p.att }
  | .float p => .float { p with dis := vec6 p.dis, vel := vec6 p.vel, acc := vec6 p.acc, trq := vec6 p.trq, att := mat p.att }
  | .brfloat p => .brfloat { p with dis := vec6 p.dis, vel := vec6 p.vel, acc := vec6 p.acc, trq := vec6 p.trq, att := mat p.att }

/-- A body. -/
def body (b : Body K) : Body K :=
  { b with
    mp := mp b.mp, frame := frame b.frame, vel := vec6 b.vel, acc := vec6 b.acc, wldCOM := pol b.wldCOM
    comVel := pol b.comVel, comAcc := pol b.comAcc, extw := b.extw.map load }

end

/-- Signs of the components of a joint: whether they are seen as they are or in reverse. -/
def signs [Neg K] [One K] : Prp K → List K
  | .fixed => []
  | .revol _ => [-1]
  | .prism _ => [1]
  | .cylin _ => [1, -1]
  | .hooke _ => [-1, 1]
  | .spher _ => [-1, 1, -1]
  | .float _ => [1, -1, 1, -1, 1, -1]
  | .brfloat _ => [1, -1, 1, -1, 1, -1]

/-- The sign of component `i` of a joint. -/
def sign [Neg K] [One K] (p : Prp K) (i : ℕ) : K := (signs p)[i]?.getD ((signs p).getLast?.getD 1)

section
variable [Neg K] [One K] [Mul K]

/-- A matrix that takes joint velocities to joint torques, or back. -/
def joint2 (p : Prp K) (h : ℕ → ℕ → K) : ℕ → ℕ → K := fun i j => sign p i * sign p j * h i j

/-- The working area of forward dynamics of a link with the joint `p`. -/
def abi (p : Prp K) (a : ABIPrp K) : ABIPrp K :=
  { a with
    m := mat6 a.m, i := mat6 a.i, f := vec6 a.f, b := vec6 a.b, c := vec6 a.c, wlist := a.wlist.map load, w := vec6 a.w, w0 := vec6 a.w0
    b0 := vec6 a.b0, a0 := vec6 a.a0, axi := joint2 p a.axi, iaxi := joint2 p a.iaxi }

/-- A link. -/
def link (l : Link K) : Link K :=
  { l with
    joint := ⟨prp l.joint.prp, vec6 l.joint.wrench⟩, body := body l.body, org := frame l.org, adj := frame l.adj, abi := abi l.joint.prp l.abi }

/-- A robot. -/
def chain (c : Chain K) : Chain K :=
  { c with link := c.link.map link, wldCOM := pol c.wldCOM, comVel := pol c.comVel, comAcc := pol c.comAcc }

/-- The input of the motor of a joint. -/
def drive (p : Prp K) (u : K) : K :=
  match p with
  | .revol _ => -u
  | .hooke _ => -u
  | _ => u
end

variable [Field K]

/-- The joint vector `w` is the mirror image of the joint vector `v`. -/
def Values (c : Chain K) (v w : List K) : Prop :=
  ∀ l ∈ c.link, slice w l = List.zipWith (· * ·) (signs l.joint.prp) (slice v l)

/-- The signs of the columns of a matrix with one column for every component of the joint vector. -/
def cols (ls : List (Link K)) : List K := ls.flatMap fun l => signs l.joint.prp

/-- A matrix in the mirror: its columns are seen with `T`, each with its sign. -/
def see (T : Vec3 K → Vec3 K) (L : List K) (m : Jacobi.Mat K) : Jacobi.Mat K := List.zipWith (fun k v => k • T v) L m

/-- The limits of the input of a motor. -/
def inputLimits : Motor K → Option K × Option K
  | .none => (none, none)
  | .dc p => (p.minvol, p.maxvol)
  | .trq p => (p.min, p.max)

/-- The lower limit of a turn, and of the input of its motor, is not above the upper one. -/
def InOrder [LE K] (p : Prp K) : Prop :=
  let ok (lim : Option K × Option K) : Prop := ∀ a ∈ lim.1, ∀ b ∈ lim.2, a ≤ b
  match p with
  | .revol p => ok (p.lo, p.hi) ∧ ok (inputLimits p.motor)
  | .cylin p => ok (p.lo1, p.hi1)
  | .hooke p => ok (p.lo0, p.hi0) ∧ ok (inputLimits p.motor)
  | _ => True

/-- The same action in the mirror.  Displacements must not be exact half turns: a turn by a half turn and the reverse one are not told apart.  For the
same reason the setting of displacements with continuity is compared for robots without spherical and floating joints. -/
inductive SameAct [LinearOrder K] [Zm K] (c : Chain K) : Act K → Act K → Prop
  | setDis {v w : List K} : Values c v w → (∀ x ∈ v, Zm.phaseNormalize x ≠ Zm.pi) → SameAct c (.setDis v) (.setDis w)
  | setVel {v w : List K} : Values c v w → SameAct c (.setVel v) (.setVel w)
  | setRate {v w a b : List K} : Values c v w → Values c a b → SameAct c (.setRate v a) (.setRate w b)
  | updateFK : SameAct c .updateFK .updateFK
  | updateVel : SameAct c .updateVel .updateVel
  | updateID (g : Vec6 K) : SameAct c (.updateID g) (.updateID (vec6 g))
  | calcMass : SameAct c .calcMass .calcMass
  | push (i : ℕ) (w : Wrench K) : SameAct c (.push i w) (.push i (load w))
  | clear : SameAct c .clear .clear
  | setDisCNT {v w : List K} (dt : K) : Values c v w → (∀ x ∈ v, Zm.phaseNormalize x ≠ Zm.pi) → (∀ l ∈ c.link, l.joint.prp.size ≤ 2) →
      SameAct c (.setDisCNT v dt) (.setDisCNT w dt)
  | input {i : ℕ} {l : Link K} (u : K) : c.link[i]? = some l → SameAct c (.input i u) (.input i (drive l.joint.prp u))
  | alloc : SameAct c .alloc .alloc
  | updateABI (fx wr : Bool) : SameAct c (.updateABI fx wr) (.updateABI fx wr)
  | load (i : ℕ) (w : Wrench K) : SameAct c (.load i w) (.load i (Mirror.load w))
  | unload (i : ℕ) : SameAct c (.unload i) (.unload i)
  | addForces (fx wr : Bool) : SameAct c (.addForces fx wr) (.addForces fx wr)
  | save : SameAct c .save .save
  | restore : SameAct c .restore .restore

/-- What is assumed of sine, cosine, normalisation of angles, the rotation of an angle-axis vector, tolerance tests and the inverse of a
matrix. -/
class Fair (K : Type*) [Field K] [Zm K] : Prop where
  sin : ∀ x : K, Zm.sin (-x) = -Zm.sin x
  cos : ∀ x : K, Zm.cos (-x) = Zm.cos x
  phase : ∀ x : K, Zm.phaseNormalize x ≠ Zm.pi → Zm.phaseNormalize (-x) = -Zm.phaseNormalize x
  fromAA : ∀ a : Vec3 K, Zm.fromAA (axi a) = mat (Zm.fromAA a)
  tiny : ∀ x : K, Zm.tiny (-x) = Zm.tiny x
  matInv : ∀ (n : ℕ) (s : ℕ → K) (h : ℕ → ℕ → K), (∀ i, s i = 1 ∨ s i = -1) →
    Zm.matInv n (fun i j => s i * s j * h i j) = fun i j => s i * s j * Zm.matInv n h i j

end Mirror
end Roki.Spec
