import Verif.Model.ChainTree
import Verif.Model.Zm
set_option autoImplicit false

/-!
# The tool `rk_mp`: app/rk_mp.c
-/

namespace Roki.RkMP
variable {K : Type*} [Field K]

/-- The loop of `rk_mpLinkList`: app/rk_mp.c:85-95.  Input tokens are integers, or `none` for a token that `scanf` does not
convert or the end of input.  The test of line 88 accepts every non-negative number, since `rkChainLink`
(include/roki/rk_chain.h:34) is the address of an array element, without a test of the bound.  The cells are inserted
at the head and copied from the tail (lines 100-102): the list is in the order of entry. -/
def readIDs : List (Option ℤ) → List ℕ
  | [] => []
  | none :: _ => []
  | some i :: rest => if i < 0 then [] else i.toNat :: readIDs rest

/-- `rk_mpLinkList`: app/rk_mp.c:75-105.  `none` is a null index. -/
def linkList (input : List (Option ℤ)) : Option (List ℕ) :=
  match readIDs input with
  | [] => none
  | l => some l

/-- `rk_mpShiftInertia`: app/rk_mp.c:107-123. -/
def shiftInertia (i : Mat3 K) (m : K) (s : Vec3 K) : Mat3 K :=
  let xx := s.x * s.x
  let yy := s.y * s.y
  let zz := s.z * s.z
  let xy := s.x * s.y
  let yz := s.y * s.z
  let zx := s.z * s.x
  i + m • (⟨⟨yy + zz, -xy, -zx⟩, ⟨-xy, zz + xx, -yz⟩, ⟨-zx, -yz, xx + yy⟩⟩ : Mat3 K)

/-- `rk_mpCatInertia`: app/rk_mp.c:125-132. -/
def catInertia (is att : Mat3 K) (m : K) (s : Vec3 K) (i : Mat3 K) : Mat3 K :=
  i + shiftInertia (Mat3.rot att is) m s

/-- The loop of `rk_mpCalc`: app/rk_mp.c:144-152.  `none` is an access outside the array of links. -/
def calcLoop (c : Chain K) : List ℕ → MP K → Option (MP K)
  | [], mp => some mp
  | i :: is, mp => (c.link[i]?).bind fun l => calcLoop c is
      ⟨mp.mass + l.body.mp.mass, cat mp.com l.body.mp.mass l.body.wldCOM,
        catInertia l.body.mp.inertia l.body.frame.att l.body.mp.mass l.body.wldCOM mp.inertia⟩

/-- `rk_mpCalc`: app/rk_mp.c:134-158. -/
def calcMP [Zm K] (c : Chain K) (index : List ℕ) : Option (MP K) :=
  (calcLoop c index ⟨0, 0, 0⟩).map fun mp =>
    let com := if Zm.tiny mp.mass then mp.com else mp.mass⁻¹ • mp.com
    ⟨mp.mass, com, shiftInertia mp.inertia (-mp.mass) (-com)⟩

/-- `main` after the model and the pose have been read: app/rk_mp.c:166-170.  The outer `none` is undefined behaviour, the
inner one the exit without a result. -/
def main [Zm K] (c : Chain K) (input : List (Option ℤ)) : Option (Option (MP K)) :=
  match linkList input with
  | none => some none
  | some index => (calcMP c index).map some

end Roki.RkMP
