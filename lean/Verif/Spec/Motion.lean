import Verif.Model.ChainTree
import Mathlib.Analysis.Calculus.Deriv.Basic
import Mathlib.Analysis.SpecialFunctions.Trigonometric.Basic

/-!
# Specification of motions

Derivatives of vectors and matrices by components, and what it means that the joints of a chain
move along a trajectory with the velocities (and accelerations) stored in them.
-/

namespace Roki.Spec

/-- `v'` is the derivative of `v` at `t`. -/
def VecDeriv (v : ℝ → Vec3 ℝ) (v' : Vec3 ℝ) (t : ℝ) : Prop :=
  HasDerivAt (fun s => (v s).x) v'.x t ∧ HasDerivAt (fun s => (v s).y) v'.y t ∧
  HasDerivAt (fun s => (v s).z) v'.z t

/-- `m'` is the derivative of `m` at `t`. -/
def MatDeriv (m : ℝ → Mat3 ℝ) (m' : Mat3 ℝ) (t : ℝ) : Prop :=
  VecDeriv (fun s => (m s).cx) m'.cx t ∧ VecDeriv (fun s => (m s).cy) m'.cy t ∧
  VecDeriv (fun s => (m s).cz) m'.cz t

/-- A rotation moves with the angular velocity `w` given in the fixed frame: `R' = w x R`. -/
def RotMotion (R : ℝ → Mat3 ℝ) (w : Vec3 ℝ) (t : ℝ) : Prop :=
  MatDeriv R ((Mat3.skew w).mul (R t)) t

/-- A joint moves: its type does not change, and at every time the velocity stored in it is the
rate of change of its displacement. -/
inductive JointMotion : (ℝ → Prp ℝ) → Prop
  | fixed : JointMotion fun _ => .fixed
  | revol (d : ℝ → Dof1 ℝ) : (∀ t, (d t).s = Real.sin (d t).dis ∧ (d t).c = Real.cos (d t).dis ∧
      HasDerivAt (fun s => (d s).dis) (d t).vel t) → JointMotion fun s => .revol (d s)
  | prism (d : ℝ → Dof1 ℝ) : (∀ t, HasDerivAt (fun s => (d s).dis) (d t).vel t) →
      JointMotion fun s => .prism (d s)
  | cylin (d : ℝ → Dof2 ℝ) : (∀ t, (d t).s1 = Real.sin (d t).dis1 ∧ (d t).c1 = Real.cos (d t).dis1 ∧
      HasDerivAt (fun s => (d s).dis0) (d t).vel0 t ∧ HasDerivAt (fun s => (d s).dis1) (d t).vel1 t) →
      JointMotion fun s => .cylin (d s)
  | hooke (d : ℝ → Dof2 ℝ) : (∀ t, (d t).s0 = Real.sin (d t).dis0 ∧ (d t).c0 = Real.cos (d t).dis0 ∧
      (d t).s1 = Real.sin (d t).dis1 ∧ (d t).c1 = Real.cos (d t).dis1 ∧
      HasDerivAt (fun s => (d s).dis0) (d t).vel0 t ∧ HasDerivAt (fun s => (d s).dis1) (d t).vel1 t) →
      JointMotion fun s => .hooke (d s)
  | spher (d : ℝ → SpherPrp ℝ) : (∀ t, (d t).att.IsRot ∧ RotMotion (fun s => (d s).att) (d t).vel t) →
      JointMotion fun s => .spher (d s)
  | float (d : ℝ → FloatPrp ℝ) : (∀ t, (d t).att.IsRot ∧
      RotMotion (fun s => (d s).att) (d t).vel.ang t ∧
      VecDeriv (fun s => (d s).dis.lin) (d t).vel.lin t) → JointMotion fun s => .float (d s)
  | brfloat (d : ℝ → FloatPrp ℝ) : (∀ t, (d t).att.IsRot ∧
      RotMotion (fun s => (d s).att) (d t).vel.ang t ∧
      VecDeriv (fun s => (d s).dis.lin) (d t).vel.lin t) → JointMotion fun s => .brfloat (d s)

/-- The accelerations stored in a joint are the rates of change of the velocities. -/
def AccMotion (p : ℝ → Prp ℝ) : Prop :=
  ∀ (t : ℝ) (k : ℕ), k < (p t).size →
    HasDerivAt (fun s => (p s).getVel.getD k 0) ((p t).getAcc.getD k 0) t

/-- The linear and the angular velocity of a floating joint are parallel (or one of them is zero).
True of every other joint. -/
def FloatScrew (p : Prp ℝ) : Prop :=
  ∀ d : FloatPrp ℝ, p = .float d ∨ p = .brfloat d → cross d.vel.lin d.vel.ang = 0

/-- A chain moves: the tree, the fixed frames and the mass properties do not change, and every joint
moves. -/
structure Motion (c : ℝ → Chain ℝ) : Prop where
  wf : ∀ s, (c s).WF
  shape : ∀ s s', (c s).shape = (c s').shape
  length : ∀ s s', (c s).link.length = (c s').link.length
  const : ∀ (i : ℕ) (l : ℝ → Link ℝ), (∀ s, (c s).link[i]? = some (l s)) →
    ∀ s s', (l s).org = (l s').org ∧ (l s).body.mp = (l s').body.mp
  rot : ∀ s, ∀ l ∈ (c s).link, l.org.att.IsRot
  joint : ∀ (i : ℕ) (l : ℝ → Link ℝ), (∀ s, (c s).link[i]? = some (l s)) →
    JointMotion fun s => (l s).joint.prp

end Roki.Spec
