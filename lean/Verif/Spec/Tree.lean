import Verif.Model.Link

/-! # Paths of a tree -/

namespace Roki.Spec
variable {α : Type*}

/-- `IsPath t p`: `p` is the list of elements from the top level of the tree `t` down to one of its
elements, following first-child and next-sibling links.  Only the elements entered through their
own child link are on the path, that is, the ancestors of the last element and itself. -/
inductive IsPath : LTree α → List α → Prop
  | here (a : α) (c s : LTree α) : IsPath (.node a c s) [a]
  | child {a : α} {c s : LTree α} {p : List α} : IsPath c p → IsPath (.node a c s) (a :: p)
  | sibl {a : α} {c s : LTree α} {p : List α} : IsPath s p → IsPath (.node a c s) p

end Roki.Spec
