import Verif.Lemmas.ZmRat
import Verif.Spec.IK
import Verif.Spec.Samples
set_option autoImplicit false

/-! # Solvers over the rational numbers, for concrete examples -/

namespace Roki

/-- Square roots of rational numbers, exact on squares. -/
instance : ZSqrt ℚ := ⟨fun x => (Nat.sqrt x.num.toNat : ℚ) / (Nat.sqrt x.den : ℚ)⟩

namespace Sample

/-- Elimination for one unknown, exact: `none` if the coefficient is zero. -/
def gauss1 (n : ℕ) (m : ℕ → ℕ → ℚ) (v : ℕ → ℚ) : Option (ℕ → ℚ) :=
  if n = 1 then (if m 0 0 = 0 then none else some fun _ => v 0 / m 0 0) else none

/-- A slider along its z axis. -/
def slider (name : String) : Link ℚ := link name (.prism (dof1 0 0 0 0 1 none none)) mp1 Frame.ident

/-- Two sliders, the second on the first. -/
def sliders : Chain ℚ :=
  { link := LinkArray.setOffset [slider "a", slider "b"], shape := .node 0 (.node 1 .nil .nil) .nil,
    mass := 2, wldCOM := 0, comVel := 0, comAcc := 0 }

/-- A solver on the two sliders. -/
def ik : IK ℚ := IK.create sliders (IK.jointVelAD gauss1)

/-- No attribute is given. -/
def noMask : IKMask := ⟨false, false, false, false, false⟩

/-- The attribute of a constraint on link `i`. -/
def attrOf (i : ℕ) : IKAttr ℚ := ⟨i, 0, 0, false, false, false, false, ⟨1, 1, 1⟩⟩

/-- Registration of a constraint on the position of link `i`. -/
def regPos (ptr i : ℕ) : IK.Op ℚ := .cellReg ptr (some (attrOf i)) ⟨true, false, false, false, false⟩ IKFns.wldPos

end Sample
end Roki
