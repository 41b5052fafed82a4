import Verif.Model.ABI
set_option autoImplicit false

/-!
# Closed forms of the motion of three simple robots

The robots are those of the tests of the library, with arbitrary dimensions: a two-link arm in a plane
(/repo/test/scara_fk_test.c), a pendulum on a rotating arm (/repo/test/invpend_test.c, invpend.ztk) and a pendulum driven by a
motor (/repo/test/pend_abi_test.c, simple_pend.ztk).  The formulas are those of mechanics textbooks; they are written down in
the tests, which compare them with the library at random points.  Nothing here refers to the recursive functions of the library.
-/

namespace Roki.Textbook
variable {K : Type*} [Field K]

/-- Dimensions of the pendulum on a rotating arm: height of the arm, length of the arm, distance of the center of mass of the
pendulum from its axis, length of the pendulum, moment of inertia of the arm about the vertical axis, moment of inertia of
the pendulum across its axis, mass of the pendulum. -/
structure Dim (K : Type*) where
  H : K
  L1 : K
  L2 : K
  L3 : K
  I1 : K
  I2 : K
  M2 : K

/-- The sines and cosines of the two joint angles, the joint rates and the joint accelerations. -/
structure State (K : Type*) where
  s1 : K
  c1 : K
  s2 : K
  c2 : K
  dq1 : K
  dq2 : K
  ddq1 : K
  ddq2 : K

variable (d : Dim K) (x : State K)

/-- Position of the center of mass of the pendulum: the arm points along `(c1, s1, 0)`, the pendulum swings in the vertical
plane across it. -/
def com : Vec3 K := ⟨d.L1 * x.c1 + d.L2 * x.s1 * x.s2, d.L1 * x.s1 - d.L2 * x.c1 * x.s2, d.H + d.L2 * x.c2⟩

/-- Velocity of the center of mass of the pendulum, /repo/test/invpend_test.c:25-28. -/
def comVel : Vec3 K :=
  ⟨-d.L1 * x.dq1 * x.s1 + d.L2 * (x.dq2 * x.s1 * x.c2 + x.dq1 * x.c1 * x.s2),
   d.L1 * x.dq1 * x.c1 - d.L2 * (x.dq2 * x.c1 * x.c2 - x.dq1 * x.s1 * x.s2),
   -d.L2 * x.dq2 * x.s2⟩

/-- Angular velocity of the pendulum, /repo/test/invpend_test.c:29. -/
def angVel : Vec3 K := ⟨x.dq2 * x.c1, x.dq2 * x.s1, x.dq1⟩

/-- Acceleration of the center of mass of the pendulum less the acceleration of gravity `(0, 0, -G)`,
/repo/test/invpend_test.c:39-41. -/
def comAcc (G : K) : Vec3 K :=
  ⟨(-d.L1 * x.s1 + d.L2 * x.c1 * x.s2) * x.ddq1 + d.L2 * x.s1 * x.c2 * x.ddq2 + (-d.L1 * x.c1 - d.L2 * x.s1 * x.s2) * x.dq1 * x.dq1
     + 2 * d.L2 * x.c1 * x.c2 * x.dq1 * x.dq2 - d.L2 * x.s1 * x.s2 * x.dq2 * x.dq2,
   (d.L1 * x.c1 + d.L2 * x.s1 * x.s2) * x.ddq1 - d.L2 * x.c1 * x.c2 * x.ddq2 + (-d.L1 * x.s1 + d.L2 * x.c1 * x.s2) * x.dq1 * x.dq1
     + 2 * d.L2 * x.s1 * x.c2 * x.dq1 * x.dq2 + d.L2 * x.c1 * x.s2 * x.dq2 * x.dq2,
   G - d.L2 * x.s2 * x.ddq2 - d.L2 * x.c2 * x.dq2 * x.dq2⟩

/-- Angular acceleration of the pendulum, /repo/test/invpend_test.c:42. -/
def angAcc : Vec3 K := ⟨x.c1 * x.ddq2 - x.s1 * x.dq1 * x.dq2, x.s1 * x.ddq2 + x.c1 * x.dq1 * x.dq2, x.ddq1⟩

/-- Angular momentum about the origin, /repo/test/invpend_test.c:51-54. -/
def angMom : Vec3 K :=
  ⟨-(d.M2 * (d.H * (d.L1 * x.c1 + d.L2 * x.s1 * x.s2) + d.L1 * d.L2 * x.c1 * x.c2 + d.L2 * d.L2 * x.s1 * x.s2 * x.c2)
      + d.I2 * x.s1 * x.s2 * x.c2) * x.dq1
     + (d.M2 * (d.H * d.L2 * x.c1 * x.c2 - d.L1 * d.L2 * x.s1 * x.s2 + d.L2 * d.L2 * x.c1) + d.I2 * x.c1) * x.dq2,
   (d.M2 * (d.H * (-d.L1 * x.s1 + d.L2 * x.c1 * x.s2) - d.L1 * d.L2 * x.s1 * x.c2 + d.L2 * d.L2 * x.c1 * x.s2 * x.c2)
      + d.I2 * x.c1 * x.s2 * x.c2) * x.dq1
     + (d.M2 * (d.H * d.L2 * x.s1 * x.c2 + d.L1 * d.L2 * x.c1 * x.s2 + d.L2 * d.L2 * x.s1) + d.I2 * x.s1) * x.dq2,
   (d.I1 + d.M2 * (d.L1 * d.L1 + d.L2 * d.L2 * x.s2 * x.s2) + d.I2 * x.s2 * x.s2) * x.dq1 - d.M2 * d.L1 * d.L2 * x.c2 * x.dq2⟩

/-- Kinetic energy, /repo/test/invpend_test.c:63-65. -/
def kinEnergy : K :=
  1 / 2 * (d.I1 + d.M2 * d.L1 * d.L1 + (d.I2 + d.M2 * d.L2 * d.L2) * x.s2 * x.s2) * x.dq1 * x.dq1
    - d.M2 * d.L1 * d.L2 * x.c2 * x.dq1 * x.dq2 + 1 / 2 * (d.I2 + d.M2 * d.L2 * d.L2) * x.dq2 * x.dq2

/-- Torque of the arm, /repo/test/invpend_test.c:74. -/
def trq1 : K :=
  (d.I1 + d.M2 * d.L1 * d.L1 + (d.M2 * d.L2 * d.L2 + d.I2) * x.s2 * x.s2) * x.ddq1 - d.M2 * d.L1 * d.L2 * x.c2 * x.ddq2
    + 2 * (d.M2 * d.L2 * d.L2 + d.I2) * x.s2 * x.c2 * x.dq1 * x.dq2 + d.M2 * d.L1 * d.L2 * x.s2 * x.dq2 * x.dq2

/-- Torque of the pendulum, /repo/test/invpend_test.c:75. -/
def trq2 (G : K) : K :=
  -d.M2 * d.L1 * d.L2 * x.c2 * x.ddq1 + (d.M2 * d.L2 * d.L2 + d.I2) * x.ddq2
    - (d.M2 * d.L2 * d.L2 + d.I2) * x.s2 * x.c2 * x.dq1 * x.dq1 - d.M2 * G * d.L2 * x.s2

/-- The pendulum of /repo/test/invpend.ztk with the dimensions `d`: a base at the origin, an arm that turns about the vertical
axis at the height `H`, a pendulum that turns about the arm at its end, a tip.  The rest of the state of the four links
is arbitrary. -/
structure IsInvPend (l0 l1 l2 l3 : Link K) : Prop where
  j0 : l0.joint.prp = .fixed
  j1 : ∃ p : Dof1 K, l1.joint.prp = .revol p ∧ p.lo = none ∧ p.hi = none
  j2 : ∃ p : Dof1 K, l2.joint.prp = .revol p ∧ p.lo = none ∧ p.hi = none
  j3 : l3.joint.prp = .fixed
  o0 : l0.org = ⟨0, 1⟩
  o1 : l1.org = ⟨⟨0, 0, d.H⟩, 1⟩
  o2 : l2.org = ⟨⟨d.L1, 0, 0⟩, ⟨⟨0, 0, 1⟩, ⟨0, -1, 0⟩, ⟨1, 0, 0⟩⟩⟩
  o3 : l3.org = ⟨⟨d.L3, 0, 0⟩, ⟨⟨0, 0, 1⟩, ⟨0, -1, 0⟩, ⟨1, 0, 0⟩⟩⟩
  m0 : l0.body.mp = ⟨0, 0, 0⟩
  m1 : l1.body.mp = ⟨0, 0, ⟨0, 0, ⟨0, 0, d.I1⟩⟩⟩
  m2 : l2.body.mp = ⟨d.M2, ⟨d.L2, 0, 0⟩, ⟨0, ⟨0, d.I2, 0⟩, ⟨0, 0, d.I2⟩⟩⟩
  m3 : l3.body.mp = ⟨0, 0, 0⟩
  e0 : l0.body.extw = []
  e1 : l1.body.extw = []
  e2 : l2.body.extw = []
  e3 : l3.body.extw = []
  f0 : l0.offset = -1
  f1 : l1.offset = 0
  f2 : l2.offset = 1
  f3 : l3.offset = -1

/-- A chain that is such a pendulum. -/
def InvPend (c : Chain K) : Prop :=
  ∃ l0 l1 l2 l3, c.link = [l0, l1, l2, l3] ∧ c.shape = .node 0 (.node 1 (.node 2 (.node 3 .nil .nil) .nil) .nil) .nil ∧
    IsInvPend d l0 l1 l2 l3

/-- Two turning links and a tip in a plane, /repo/test/scara_fk_test.c:14-27, with arms of the lengths `a`, `b`. -/
structure IsScara (a b : K) (l0 l1 l2 : Link K) : Prop where
  j0 : ∃ p : Dof1 K, l0.joint.prp = .revol p ∧ p.lo = none ∧ p.hi = none
  j1 : ∃ p : Dof1 K, l1.joint.prp = .revol p ∧ p.lo = none ∧ p.hi = none
  j2 : l2.joint.prp = .fixed
  o0 : l0.org = ⟨0, 1⟩
  o1 : l1.org = ⟨⟨0, a, 0⟩, 1⟩
  o2 : l2.org = ⟨⟨0, b, 0⟩, 1⟩

/-- A single turning link without limits of its angle, driven by a torque motor without limits and without external forces, after `rkChainABIAlloc`;
/repo/test/simple_pend.ztk with arbitrary mass properties and an arbitrary frame. -/
structure IsPend (l : Link K) : Prop where
  j : ∃ (p : Dof1 K) (m : TrqPrp K), l.joint.prp = .revol p ∧ p.lo = none ∧ p.hi = none ∧ p.tf = 0 ∧ p.motor = .trq m ∧
    m.min = none ∧ m.max = none
  e : l.body.extw = []
  f : l.offset = 0
  w : l.abi.wlist = []
  m : l.abi.m = Link.abiInertia l.body.mp

/-- Moment of inertia about the joint axis. -/
def axisInertia (mp : MP K) : K := mp.inertia.cz.z + mp.mass * (mp.com.x * mp.com.x + mp.com.y * mp.com.y)

/-- Moment of the weight about the joint axis when the body stands at the attitude `att`. -/
def weightMoment (mp : MP K) (att : Mat3 K) (G : K) : K := dot ⟨0, 0, 1⟩ (cross mp.com (att.mulVecT ⟨0, 0, -(mp.mass * G)⟩))

end Roki.Textbook
