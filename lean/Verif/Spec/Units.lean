import Verif.Spec.History
import Verif.Model.Jacobi
set_option autoImplicit false

/-! # Specification: a robot described in other units of length, mass and time (C139)

Nothing in the interface says in which units the numbers are meant. `UnitSys` are the factors of a change of units, and the functions below convert
every quantity that kinematics, inverse dynamics and forward dynamics read or write.  Angles, directions and attitudes are kept.  Quantities that
these computations do not read (coefficients of friction, breaking thresholds) are left alone. -/

namespace Roki.Spec
variable {K : Type*}

/-- How many new units of length and of mass one old unit is, and how many old units of time one new unit is: `1000`, `1000` and `1` turn metres,
kilograms and seconds into millimetres, grams and seconds. -/
structure UnitSys (K : Type*) where
  len : K
  mass : K
  rate : K

namespace UnitSys

/-- The factors of lengths and masses are positive.  The factor of rates may be negative: then the clock runs backward, and what is compared is a
motion with the same motion in reverse. -/
structure Proper [Zero K] [LT K] (u : UnitSys K) : Prop where
  len : 0 < u.len
  mass : 0 < u.mass
  rate : u.rate ≠ 0

variable [Field K] (u : UnitSys K)

/-- Factor of forces: mass times length over time squared. -/
def force : K := u.mass * (u.len * (u.rate * u.rate))
/-- Factor of moments, and of energies: force times length. -/
def moment : K := u.force * u.len

/-- A frame. -/
def frame (f : Frame K) : Frame K := ⟨u.len • f.pos, f.att⟩
/-- A displacement: translation and angle-axis vector. -/
def dis (v : Vec6 K) : Vec6 K := ⟨u.len • v.lin, v.ang⟩
/-- Linear and angular velocity. -/
def vel (v : Vec6 K) : Vec6 K := ⟨(u.len * u.rate) • v.lin, u.rate • v.ang⟩
/-- Linear and angular acceleration. -/
def acc (v : Vec6 K) : Vec6 K := ⟨(u.len * (u.rate * u.rate)) • v.lin, (u.rate * u.rate) • v.ang⟩
/-- Force and moment. -/
def wrench (v : Vec6 K) : Vec6 K := ⟨u.force • v.lin, u.moment • v.ang⟩
/-- Force and moment with a point of action. -/
def load (w : Wrench K) : Wrench K := ⟨u.wrench w.w, u.len • w.p⟩
/-- Mass, center of mass, inertia tensor. -/
def mp (m : MP K) : MP K := ⟨u.mass * m.mass, u.len • m.com, (u.mass * (u.len * u.len)) • m.inertia⟩

/-- A matrix that takes accelerations to forces. -/
def mat6 (m : Mat6 K) : Mat6 K := ⟨u.mass • m.ll, (u.mass * u.len) • m.la, (u.mass * u.len) • m.al, (u.mass * (u.len * u.len)) • m.aa⟩

/-- A motor: `f` is the factor of the force or moment that it gives, `v` that of its velocity and `m` that of its inertia.  The unit of voltage is
chosen so that inputs of all motors have the same factor as forces; the products with currents are powers. -/
def motor (f v m : K) : Motor K → Motor K
  | .none => .none
  | .dc p => .dc { p with
      e := f * p.e, k := f / v * p.k, admit := v / f * p.admit, maxvol := p.maxvol.map (f * ·), minvol := p.minvol.map (f * ·)
      inertia := m * p.inertia, inertiaGear := m * p.inertiaGear }
  | .trq p => .trq { input := f * p.input, max := p.max.map (f * ·), min := p.min.map (f * ·) }

/-- The motor of a turn. -/
def turn : Motor K → Motor K := motor u.moment u.rate (u.mass * (u.len * u.len))
/-- The motor of a slide. -/
def slide : Motor K → Motor K := motor u.force (u.len * u.rate) u.mass

/-- The state of a joint: a rotation has no units of length, a slide has. -/
def prp : Prp K → Prp K
  | .fixed => .fixed
  | .revol p => .revol { p with
      vel := u.rate * p.vel, acc := u.rate * u.rate * p.acc, trq := u.moment * p.trq
      tf := u.moment * p.tf, u := u.moment * p.u, motor := u.turn p.motor }
  | .prism p => .prism { p with
      dis := u.len * p.dis, vel := u.len * u.rate * p.vel, acc := u.len * (u.rate * u.rate) * p.acc, trq := u.force * p.trq
      lo := p.lo.map (u.len * ·), hi := p.hi.map (u.len * ·), tf := u.force * p.tf, u := u.force * p.u, motor := u.slide p.motor }
  | .cylin p => .cylin { p with
      dis0 := u.len * p.dis0, vel0 := u.len * u.rate * p.vel0, acc0 := u.len * (u.rate * u.rate) * p.acc0, trq0 := u.force * p.trq0
      lo0 := p.lo0.map (u.len * ·), hi0 := p.hi0.map (u.len * ·)
      vel1 := u.rate * p.vel1, acc1 := u.rate * u.rate * p.acc1, trq1 := u.moment * p.trq1
      tf0 := u.force * p.tf0, u0 := u.force * p.u0, tf1 := u.moment * p.tf1, u1 := u.moment * p.u1, motor := u.slide p.motor }
  | .hooke p => .hooke { p with
      vel0 := u.rate * p.vel0, acc0 := u.rate * u.rate * p.acc0, trq0 := u.moment * p.trq0
      vel1 := u.rate * p.vel1, acc1 := u.rate * u.rate * p.acc1, trq1 := u.moment * p.trq1, motor := u.turn p.motor }
  | .spher p => .spher { p with vel := u.rate • p.vel, acc := (u.rate * u.rate) • p.acc, trq := u.moment • p.trq }
  | .float p => .float { p with dis := u.dis p.dis, vel := u.vel p.vel, acc := u.acc p.acc, trq := u.wrench p.trq }
  | .brfloat p => .brfloat { p with dis := u.dis p.dis, vel := u.vel p.vel, acc := u.acc p.acc, trq := u.wrench p.trq }

/-- A body. -/
def body (b : Body K) : Body K :=
  { b with
    mp := u.mp b.mp, frame := u.frame b.frame, vel := u.vel b.vel, acc := u.acc b.acc, wldCOM := u.len • b.wldCOM
    comVel := (u.len * u.rate) • b.comVel, comAcc := (u.len * (u.rate * u.rate)) • b.comAcc, extw := b.extw.map u.load }

/-- Factors of the components of a joint: `s` for a slide, `t` for a turn. -/
def factors (s t : K) : Prp K → List K
  | .fixed => []
  | .revol _ => [t]
  | .prism _ => [s]
  | .cylin _ => [s, t]
  | .hooke _ => [t, t]
  | .spher _ => [t, t, t]
  | .float _ => [s, s, s, t, t, t]
  | .brfloat _ => [s, s, s, t, t, t]

/-- Component `i` of a joint: `1` for a slide, the factor of lengths for a turn. -/
def arm (p : Prp K) (i : ℕ) : K := (factors 1 u.len p)[i]?.getD ((factors 1 u.len p).getLast?.getD 1)

/-- A matrix that takes joint accelerations to joint forces. -/
def joint2 (p : Prp K) (h : ℕ → ℕ → K) : ℕ → ℕ → K := fun i j => u.mass * (u.arm p i * u.arm p j) * h i j
/-- A matrix that takes joint forces to joint accelerations. -/
def joint2Inv (p : Prp K) (h : ℕ → ℕ → K) : ℕ → ℕ → K := fun i j => (u.mass * (u.arm p i * u.arm p j))⁻¹ * h i j

/-- The working area of forward dynamics of a link with the joint `p`. -/
def abi (p : Prp K) (a : ABIPrp K) : ABIPrp K :=
  { a with
    m := u.mat6 a.m, i := u.mat6 a.i, f := u.wrench a.f, b := u.wrench a.b, c := u.acc a.c, wlist := a.wlist.map u.load, w := u.wrench a.w
    w0 := u.wrench a.w0, b0 := u.wrench a.b0, a0 := u.acc a.a0, axi := u.joint2 p a.axi, iaxi := u.joint2Inv p a.iaxi }

/-- A link. -/
def link (l : Link K) : Link K :=
  { l with
    joint := ⟨u.prp l.joint.prp, u.wrench l.joint.wrench⟩, body := u.body l.body, org := u.frame l.org, adj := u.frame l.adj
    abi := u.abi l.joint.prp l.abi }

/-- A robot. -/
def chain (c : Chain K) : Chain K :=
  { c with
    link := c.link.map u.link, mass := u.mass * c.mass, wldCOM := u.len • c.wldCOM, comVel := (u.len * u.rate) • c.comVel
    comAcc := (u.len * (u.rate * u.rate)) • c.comAcc }

/-- The joint vector `w` holds what the joint vector `v` holds, with factor `s` for slides and factor `t` for turns. -/
def Values (s t : K) (c : Chain K) (v w : List K) : Prop :=
  ∀ l ∈ c.link, slice w l = List.zipWith (· * ·) (factors s t l.joint.prp) (slice v l)

/-- The factors of the columns of a matrix with one column for every component of the joint vector. -/
def cols (s t : K) (ls : List (Link K)) : List K := ls.flatMap fun l => factors s t l.joint.prp

/-- The columns of a matrix multiplied by factors. -/
def scale (L : List K) (m : Jacobi.Mat K) : Jacobi.Mat K := List.zipWith (fun k v => k • v) L m

/-- The input of the motor of a joint. -/
def drive (p : Prp K) (x : K) : K :=
  match p with
  | .revol _ => u.moment * x
  | .hooke _ => u.moment * x
  | .prism _ => u.force * x
  | .cylin _ => u.force * x
  | _ => x

/-- The test against zero and the inverse of a matrix do not depend on the units: there is no tolerance. -/
structure Blind (K : Type*) [Field K] [LT K] [Zm K] : Prop where
  tiny : ∀ k x : K, 0 < k → Zm.tiny (k * x) = Zm.tiny x
  matInv : ∀ (n : ℕ) (k : K) (w : ℕ → K) (h : ℕ → ℕ → K), 0 < k → (∀ i, 0 < w i) →
    Zm.matInv n (fun i j => k * (w i * w j) * h i j) = fun i j => (k * (w i * w j))⁻¹ * Zm.matInv n h i j

/-- The test against zero and the inverse of a matrix give the same in these units.  It follows from the absence of tolerances (`Blind`), and it needs
nothing if the units of length and mass are kept. -/
structure Fine [Zm K] : Prop where
  slide : ∀ x : K, Zm.tiny (u.mass * x) = Zm.tiny x
  turn : ∀ x : K, Zm.tiny (u.mass * (u.len * u.len) * x) = Zm.tiny x
  matInv : ∀ (n : ℕ) (p : Prp K) (h : ℕ → ℕ → K), Zm.matInv n (u.joint2 p h) = u.joint2Inv p (Zm.matInv n h)

/-- Forward dynamics of prismatic joints that are not mounted on the ground lacks a division by a mass (C26): it is compared for robots without
prismatic joints, or when the unit of mass is kept. -/
def Slides (c : Chain K) : Prop := u.mass = 1 ∨ ∀ l ∈ c.link, ∀ p, l.joint.prp ≠ .prism p

/-- The same action, with its arguments in other units.  In forward dynamics the acceleration of gravity is a constant, which
the user cannot give in other units (C29): it is compared when the number of this constant is the same in both systems of units. -/
inductive SameAct [Zm K] (c : Chain K) : Act K → Act K → Prop
  | setDis {v w : List K} : Values u.len 1 c v w → SameAct c (.setDis v) (.setDis w)
  | setVel {v w : List K} : Values (u.len * u.rate) u.rate c v w → SameAct c (.setVel v) (.setVel w)
  | setDisCNT {v w : List K} (dt : K) : Values u.len 1 c v w → SameAct c (.setDisCNT v dt) (.setDisCNT w (dt / u.rate))
  | setRate {v w a b : List K} : Values (u.len * u.rate) u.rate c v w → Values (u.len * (u.rate * u.rate)) (u.rate * u.rate) c a b →
      SameAct c (.setRate v a) (.setRate w b)
  | updateFK : SameAct c .updateFK .updateFK
  | updateVel : SameAct c .updateVel .updateVel
  | updateID (g : Vec6 K) : SameAct c (.updateID g) (.updateID (u.acc g))
  | calcMass : SameAct c .calcMass .calcMass
  | push (i : ℕ) (w : Wrench K) : SameAct c (.push i w) (.push i (u.load w))
  | clear : SameAct c .clear .clear
  | input {i : ℕ} {l : Link K} (x : K) : c.link[i]? = some l → SameAct c (.input i x) (.input i (u.drive l.joint.prp x))
  | alloc : SameAct c .alloc .alloc
  | updateABI (fx wr : Bool) : u.len * (u.rate * u.rate) = 1 → u.Fine → u.Slides c → SameAct c (.updateABI fx wr) (.updateABI fx wr)
  | load (i : ℕ) (w : Wrench K) : SameAct c (.load i w) (.load i (u.load w))
  | unload (i : ℕ) : SameAct c (.unload i) (.unload i)
  | addForces (fx wr : Bool) : u.Slides c → SameAct c (.addForces fx wr) (.addForces fx wr)
  | save : SameAct c .save .save
  | restore : SameAct c .restore .restore

end UnitSys
end Roki.Spec
