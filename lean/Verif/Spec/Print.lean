import Verif.Spec.Tree
import Verif.Model.Print
set_option autoImplicit false

/-! # Reading what is printed of a chain -/

namespace Roki.Spec
variable {K α : Type*}

/-- `p` is the parent of `i` in a tree. -/
def IsParent (t : LTree α) (p i : α) : Prop := ∃ path, IsPath t (path ++ [p, i])

/-- In an indented list, the line above to which the line `r` belongs: the nearest of the lines `above` with a smaller indentation. -/
def owner (above : List (ℕ × α)) (r : ℕ × α) : Option α := (above.reverse.find? fun q => decide (q.1 < r.1)).map Prod.snd

/-- What the line of a link says of it: name, type of the joint, offset. -/
def label (l : Roki.Link K) : String × String × ℤ := (l.name, l.joint.prp.typeStr, l.offset)

/-- The connection of a chain as a tree of what is said of its links. -/
def labels (c : Chain K) : LTree (Option (String × String × ℤ)) := c.shape.map fun i => c.link[i]?.map label

/-- A listing of wrenches read from its end: the wrenches before the first name, and the wrenches after each name. -/
def readWrenches : List (Print.WLine K) → List (Wrench K) × List (String × List (Wrench K))
  | .link n :: t => ([], (n, (readWrenches t).1) :: (readWrenches t).2)
  | .force f :: .torque q :: .point p :: t => (⟨⟨f, q⟩, p⟩ :: (readWrenches t).1, (readWrenches t).2)
  | _ => ([], [])

/-- A printed posture read: the rows of name, offset, frame with respect to the parent and frame in the world. -/
def readPosture : List (Print.PLine K) → List (String × ℤ × Frame K × Frame K)
  | .chain _ :: t => readPosture t
  | .link n o :: .adjacent :: .frame a :: .world :: .frame w :: t => (n, o, a, w) :: readPosture t
  | _ => []

end Roki.Spec
