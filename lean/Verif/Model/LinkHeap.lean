import Verif.Model.Link
set_option autoImplicit false

/-!
# Connecting links

The pointers of an array of links; a pointer to a link is its number in the array, the null pointer is `none`.
-/

namespace Roki.LinkHeap

/-- `parent`, `child`, `sibl` of `rkLink`, include/roki/rk_link.h:44-46. -/
structure Node where
  parent : Option ℕ
  child : Option ℕ
  sibl : Option ℕ
deriving DecidableEq, Repr

/-- `n` links initialised by `rkLinkInit`, src/rk_link.c:26-28. -/
def init (n : ℕ) : List Node := List.replicate n ⟨none, none, none⟩

/-- The loop of `rkLinkAddSibl`, src/rk_link.c:81.  The loop ends within as many turns as there are links or never; a loop without end
is `none`. -/
def lastSibl (h : List Node) : ℕ → ℕ → Option ℕ
  | 0, _ => none
  | fuel + 1, l =>
    match h[l]? with
    | none => none
    | some n => match n.sibl with
      | none => some l
      | some s => lastSibl h fuel s

/-- `rkLinkAddSibl`, src/rk_link.c:79-83. -/
def addSibl (h : List Node) (l bl : ℕ) : Option (List Node) :=
  (lastSibl h h.length l).bind fun m => h[m]?.map fun n => h.set m { n with sibl := some bl }

/-- `rkLinkAddChild`, src/rk_link.c:86-91. -/
def addChild (h : List Node) (l cl : ℕ) : Option (List Node) :=
  h[cl]?.bind fun c =>
    let h1 := h.set cl { c with parent := some l }
    h1[l]?.bind fun n => match n.child with
      | none => some (h1.set l { n with child := some cl })
      | some k => addSibl h1 k cl

/-- A sequence of calls of `rkLinkAddChild` (src/rk_link.c:86-91) on `n` new links, e.g. example/chain/fk_hooke_test.c:87-89; each
call is given by the parent and the child. -/
def build (n : ℕ) (ops : List (ℕ × ℕ)) : Option (List Node) := ops.foldlM (fun h op => addChild h op.1 op.2) (init n)

end Roki.LinkHeap
