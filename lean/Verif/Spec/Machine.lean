import Verif.Spec.MassLinear
import Verif.Spec.Kinematics
set_option autoImplicit false

/-! # Specification: one mechanism described by different links and joints (C128) -/

namespace Roki.Spec
variable {K : Type*} [Field K]

/-- Mass properties, and the external wrenches that act. -/
abbrev Load (K : Type*) := MP K × WrenchList K

/-- A load seen from a base to which it is fixed at the place `D`. -/
def Load.placed (D : Frame K) (x : Load K) : Load K :=
  (⟨x.1.mass, D.att.mulVec x.1.com + D.pos, (D.att.mul x.1.inertia).mul D.att.tr⟩,
   x.2.map fun w => ⟨⟨D.att.mulVec w.w.lin, D.att.mulVec w.w.ang⟩, D.att.mulVec w.p + D.pos⟩)

/-- The load of a link, in its own coordinates. -/
def loadOf (l : Link K) : Load K := (l.body.mp, l.body.extw)

/-- `x` has the mass, the first and second moments about the origin, and the resultant force and moment that `L` have together. -/
structure Totals (x : Load K) (L : List (Load K)) : Prop where
  mass : x.1.mass = (L.map fun y => y.1.mass).sum
  first : x.1.mass • x.1.com = (L.map fun y => y.1.mass • y.1.com).sum
  second : inertiaAbout x.1 0 = (L.map fun y => inertiaAbout y.1 0).sum
  force : (resultant x.2).1 = (L.map fun y => (resultant y.2).1).sum
  moment : (resultant x.2).2 = (L.map fun y => (resultant y.2).2).sum

/-- A link without mass and without external wrenches. -/
structure Bare (l : Link K) : Prop where
  mass : l.body.mp.mass = 0
  inertia : l.body.mp.inertia = 0
  extw : l.body.extw = []

/-- A cylindrical joint, and a prismatic and a revolute joint that have its displacement, velocity and acceleration. -/
def IsCylin (p q r : Prp K) : Prop :=
  ∃ (x : Dof2 K) (y z : Dof1 K), p = .cylin x ∧ q = .prism y ∧ r = .revol z ∧
    y.dis = x.dis0 ∧ y.vel = x.vel0 ∧ y.acc = x.acc0 ∧ z.s = x.s1 ∧ z.c = x.c1 ∧ z.vel = x.vel1 ∧ z.acc = x.acc1

/-- A universal (Hooke) joint, and two revolute joints that have its displacements, velocities and accelerations. -/
def IsHooke (p q r : Prp K) : Prop :=
  ∃ (x : Dof2 K) (y z : Dof1 K), p = .hooke x ∧ q = .revol y ∧ r = .revol z ∧
    y.s = x.s0 ∧ y.c = x.c0 ∧ y.vel = x.vel0 ∧ y.acc = x.acc0 ∧ z.s = x.s1 ∧ z.c = x.c1 ∧ z.vel = x.vel1 ∧ z.acc = x.acc1

/-- The quarter turn about x that puts the z-axis where the y-axis was. -/
def turnX : Frame K := ⟨0, ⟨⟨1, 0, 0⟩, ⟨0, 0, -1⟩, ⟨0, 1, 0⟩⟩⟩

/-- The siblings of one tree followed by those of another. -/
def beside {α : Type*} : LTree α → LTree α → LTree α
  | .nil, u => u
  | .node a c s, u => .node a c (beside s u)

/-- `Same R F L t u`: the trees of links `t` and `u` describe the same mechanism on the same base, which is divided into links and joints in different
ways.  `F` is the place of the base of `u` seen from the base of `t`; `L` are loads that `u` has on links fixed to the base and that `t` must have in
the base itself (in the coordinates of the base of `t`).
* `link`: a link of `t` and a link of `u` with the same joint.
* `cylin`: a link on a cylindrical joint is a link on a revolute joint whose parent, an empty link, is on a prismatic joint.
* `hooke`: a link on a universal joint is a link on a revolute joint whose parent, an empty link, is on a revolute joint at right angles.
* `fixed`: a link of `u` on a fixed joint becomes a part of the base.
`R D l m` is asked of every link `l` of `t` and the link `m` of `u` that is the same body; `D` is the place of `m` seen from `l`. -/
inductive Same (R : Frame K → Link K → Link K → Prop) : Frame K → List (Load K) → LTree (Link K) → LTree (Link K) → Prop
  | nil (F : Frame K) : Same R F [] .nil .nil
  | link {F : Frame K} {L M : List (Load K)} {l m : Link K} {c s c' s' : LTree (Link K)} :
      l.org = F.cascade m.org → l.joint.prp = m.joint.prp → Totals (loadOf l) (loadOf m :: M) → R Frame.ident l m →
      Same R Frame.ident M c c' → Same R F L s s' → Same R F L (.node l c s) (.node m c' s')
  | cylin {F : Frame K} {L M : List (Load K)} {l a m : Link K} {c s c' s' : LTree (Link K)} :
      l.org = F.cascade a.org → m.org = Frame.ident → IsCylin l.joint.prp a.joint.prp m.joint.prp → Bare a →
      Totals (loadOf l) (loadOf m :: M) → R Frame.ident l m →
      Same R Frame.ident M c c' → Same R F L s s' → Same R F L (.node l c s) (.node a (.node m c' .nil) s')
  | hooke {F : Frame K} {L M : List (Load K)} {l a m : Link K} {c s c' s' : LTree (Link K)} :
      l.org = F.cascade a.org → m.org = turnX → IsHooke l.joint.prp a.joint.prp m.joint.prp → Bare a →
      Totals (loadOf l) ((loadOf m).placed turnX :: M) → R turnX l m →
      Same R turnX M c c' → Same R F L s s' → Same R F L (.node l c s) (.node a (.node m c' .nil) s')
  | fixed {F : Frame K} {L M : List (Load K)} {m : Link K} {t u c' s' : LTree (Link K)} :
      m.joint.prp = .fixed → Same R (F.cascade m.org) M t c' → Same R F L u s' →
      Same R F ((loadOf m).placed (F.cascade m.org) :: (M ++ L)) (beside t u) (.node m c' s')

/-- The body of the links `l` and `m`, where `m` is at the place `D` on `l`, is in the same place and moves in the same way. -/
structure SameMotion (D : Frame K) (l m : Link K) : Prop where
  frame : m.body.frame = l.body.frame.cascade D
  ang : m.body.vel.ang = D.att.mulVecT l.body.vel.ang
  lin : m.body.vel.lin = D.att.mulVecT (l.body.vel.lin + cross l.body.vel.ang D.pos)
  angAcc : m.body.acc.ang = D.att.mulVecT l.body.acc.ang
  linAcc : m.body.acc.lin = D.att.mulVecT (l.body.acc.lin + cross l.body.acc.ang D.pos + cross l.body.vel.ang (cross l.body.vel.ang D.pos))

/-- `T` is the tree of the links of the chain. -/
def HasTree (c : Chain K) (T : LTree (Link K)) : Prop := T.map some = c.shape.map fun i => c.link[i]?

/-- The joint torques of the links of a tree, joint by joint, from the root. -/
def torquesOf (T : LTree (Link K)) : List K := T.toList.flatMap fun l => l.joint.prp.getTrq

end Roki.Spec
