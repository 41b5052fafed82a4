import Verif.Spec.IK
import Mathlib.Algebra.BigOperators.Group.Finset.Basic
set_option autoImplicit false

/-! # Inverse kinematics: what the constraint equation should be -/

namespace Roki.Spec
open Jacobi (Mat)
variable {K : Type*}

/-- The axes of a constraint that are switched on. -/
def ikAxes (a : IKAttr K) : List ℕ :=
  (if a.xon then [0] else []) ++ (if a.yon then [1] else []) ++ (if a.zon then [2] else [])

/-- A constraint with its Jacobian matrix, its error, and its reference velocity, which is the error plus the
accumulated error if the constraint is forced. -/
structure IkBlock (K : Type*) where
  cell : IKCell K
  jac : Mat K
  err : Vec3 K
  ref : Vec3 K

/-- The squared error of a constraint, weighted. -/
def ikSquare [Field K] (w e : Vec3 K) : K := w.x * e.x ^ 2 + w.y * e.y ^ 2 + w.z * e.z ^ 2

/-- The constraints that are switched on, in order, each evaluated at the chain, and all constraints after the
evaluation: each keeps its weighted error, and a forced one accumulates its error.  `m` is the contents of the work
matrix, into which the Jacobian matrices are written one after another. -/
inductive IkBlocks [Field K] [ZSqrt K] (c : Chain K) : Mat K → List (IKCell K) → List (IkBlock K) → List (IKCell K) → Prop
  | nil (m) : IkBlocks c m [] [] []
  | off {m x xs bs ys} : x.attr.isDisabled = true → IkBlocks c m xs bs ys → IkBlocks c m (x :: xs) bs (x :: ys)
  | on {m x xs bs ys J e} : x.attr.isDisabled = false → x.fns.cmat c x.attr m = some J →
      x.fns.srv c x.attr x.ref = some e → IkBlocks c J xs bs ys →
      IkBlocks c m (x :: xs) (⟨x, J, e, if x.attr.force then (x.fns.acm x.acm e).2 else e⟩ :: bs)
        ({ x with eval := ZSqrt.sqrt (ikSquare x.attr.w e),
                  acm := if x.attr.force then (x.fns.acm x.acm e).1 else x.acm } :: ys)

/-- The rows of the equation: one for every axis that is switched on. -/
def ikRows (bs : List (IkBlock K)) : List (IkBlock K × ℕ) := bs.flatMap fun b => (ikAxes b.cell.attr).map fun s => (b, s)

/-- The motion along axis `s` caused by the velocities of the joints that are not registered. -/
noncomputable def ikFree [Field K] (ls : List (Link K)) (reg : ℕ → Option K) (vel : List K) (J : Mat K) (s : ℕ) : K :=
  ∑ i ∈ Finset.range ls.length,
    if (reg i).isSome then 0 else
      match ls[i]? with
      | some l => ∑ j ∈ Finset.range l.joint.prp.size,
          (J.getD (l.offset.toNat + j) 0).get s * vel.getD (l.offset.toNat + j) 0
      | none => 0

/-- A row of the equation for axis `s` of a constraint with Jacobian matrix `J` and reference velocity `v`: the
coefficients are the columns of the registered joints, and the right-hand side is the reference velocity without the
motion of the other joints. -/
structure IkRow [Field K] (ls : List (Link K)) (reg : ℕ → Option K) (vel : List K) (J : Mat K) (v : Vec3 K) (s : ℕ)
    (row : List K) (e : K) : Prop where
  coef : ∀ i l, ls[i]? = some l → (reg i).isSome → ∀ j < l.joint.prp.size,
    ∃ u, J[l.offset.toNat + j]? = some u ∧ row[ikOfs ls reg i + j]? = some (u.get s)
  rhs : e = v.get s - ikFree ls reg vel J s

end Roki.Spec

namespace Roki.IK
variable {K : Type*}

/-- The function that computes the Jacobian matrix fills the given matrix: it keeps its size. -/
def KeepsSize (f : IKFns K) : Prop := ∀ c a m J, f.cmat c a m = some J → J.length = m.length

/-- The functions of the constraints that a history registers keep the size of the matrix. -/
def Op.Sized : Op K → Prop
  | .cellReg _ _ _ fns => KeepsSize fns
  | _ => True

end Roki.IK
