import Verif.Model.LinkHeap
import Mathlib.Logic.Relation
set_option autoImplicit false

/-!
# Specification of the forest made by connecting links
-/

namespace Roki.Spec.Forest
open Roki.LinkHeap

/-- `b` is `a` or below `a`, after the calls `ops`, each given by parent and child. -/
def Below (ops : List (ℕ × ℕ)) (a b : ℕ) : Prop := Relation.ReflTransGen (fun p c => (p, c) ∈ ops) a b

/-- The calls that respect the rules: each attaches one of the `n` links to another one, the link attached has not been attached
before, and the new parent is not below it. -/
def Proper (n : ℕ) (ops : List (ℕ × ℕ)) : Prop :=
  ∀ pre p c post, ops = pre ++ (p, c) :: post →
    p < n ∧ c < n ∧ (∀ q, (q, c) ∉ pre) ∧ ¬ Below pre c p

/-- The links attached to `p`, in the order of the calls. -/
def kids (ops : List (ℕ × ℕ)) (p : ℕ) : List ℕ := (ops.filter fun op => op.1 = p).map Prod.snd

/-- The links met when following the sibling pointers. -/
inductive Sibs (h : List Node) : Option ℕ → List ℕ → Prop
  | nil : Sibs h none []
  | cons {i : ℕ} {n : Node} {l : List ℕ} : h[i]? = some n → Sibs h n.sibl l → Sibs h (some i) (i :: l)

/-- The links met by a recursive function that visits a link, then goes to its child, then to its sibling. -/
inductive Visits (h : List Node) : Option ℕ → List ℕ → Prop
  | nil : Visits h none []
  | node {i : ℕ} {n : Node} {l m : List ℕ} : h[i]? = some n → Visits h n.child l → Visits h n.sibl m →
      Visits h (some i) (i :: (l ++ m))

/-- The pointers below `o` spell the tree, with `par` as the parent of its top level. -/
inductive Rep (h : List Node) : Option ℕ → Option ℕ → LTree ℕ → Prop
  | nil (par : Option ℕ) : Rep h par none .nil
  | node {par : Option ℕ} {i : ℕ} {x : Node} {c s : LTree ℕ} : h[i]? = some x → x.parent = par → Rep h (some i) x.child c →
      Rep h par x.sibl s → Rep h par (some i) (.node i c s)

/-- The pointers of `n` links agree with the calls `ops`. -/
structure IsForest (n : ℕ) (ops : List (ℕ × ℕ)) (h : List Node) : Prop where
  /-- no link appears or disappears -/
  length : h.length = n
  /-- the parent of a link is the one it was attached to -/
  parent : ∀ i x, h[i]? = some x → ∀ p, x.parent = some p ↔ (p, i) ∈ ops
  /-- the children of a link are those attached to it, in the order of attachment -/
  kids : ∀ i x, h[i]? = some x → Sibs h x.child (kids ops i)
  /-- from a link that is not attached, the recursion ends and visits what is below it, each link once -/
  visits : ∀ i x, h[i]? = some x → x.parent = none → ∃ l, Visits h (some i) l ∧ l.Nodup ∧ ∀ j, j ∈ l ↔ Below ops i j

end Roki.Spec.Forest
