import Verif.Model.ChainTree
set_option autoImplicit false

/-!
# What is printed of a chain: connection, posture and external wrenches

`rkChainConnectionFPrint` prints text without numbers of type `double`, so it is modelled character by character.  The other two
print vectors and frames by functions of Zeo (`zVec3DFPrint`, `zFrame3DFPrint`), so they are modelled line by line, with the values
that are printed in the lines; the digits of these values are not modelled.
-/

namespace Roki.Print
variable {K : Type*}

/-- `%d` of `fprintf`, e.g. at src/rk_link.c:404. -/
def dec : ℤ → List Char
  | .ofNat n => Nat.toDigits 10 n
  | .negSucc n => '-' :: Nat.toDigits 10 (n + 1)

/-- One call of `rkLinkConnectionFPrint` without its recursive calls, src/rk_link.c:403-404; `zFIndent` (ZEDA) prints `n` spaces. -/
def connLine (n : ℕ) (l : Link K) : List Char :=
  List.replicate n ' ' ++ "|-".toList ++ l.name.toList ++ " (".toList ++ l.joint.prp.typeStr.toList ++ ":".toList ++ dec l.offset ++
    ")\n".toList

/-- `rkLinkConnectionFPrint`, src/rk_link.c:401-410, with `RK_LINK_CONNECTION_INDENT` of line 400; the calls for null pointers are
the tests of lines 406 and 408. -/
def connAt (ls : List (Link K)) : LTree ℕ → ℕ → Option (List Char)
  | .nil, _ => some []
  | .node i c s, n =>
    ls[i]?.bind fun l => (connAt ls c (n + 2)).bind fun a => (connAt ls s n).map fun b => connLine n l ++ (a ++ b)

/-- `rkChainConnectionFPrint`, src/rk_chain.c:836-840.  `rkChainRoot` is the first element of the array; the name of an empty chain's
root is read through a null pointer (`none`). -/
def connection (name : String) (c : Chain K) : Option (List Char) :=
  if c.shape.isNil then none else
    (connAt c.link c.shape 0).map fun t => "Chain : ".toList ++ name.toList ++ "\n".toList ++ t

/-- A line of the posture of a chain: src/rk_chain.c:830 and src/rk_link.c:392-396. -/
inductive PLine (K : Type*) where
  | chain (name : String)
  | link (name : String) (offset : ℤ)
  | adjacent
  | world
  | frame (f : Frame K)
deriving DecidableEq, Repr

/-- `rkLinkPostureFPrint`, src/rk_link.c:390-397. -/
def linkPosture (l : Link K) : List (PLine K) := [.link l.name l.offset, .adjacent, .frame l.adj, .world, .frame l.body.frame]

/-- `rkChainPostureFPrint`, src/rk_chain.c:826-833. -/
def posture (name : String) (c : Chain K) : List (PLine K) := .chain name :: c.link.flatMap linkPosture

/-- A line of the list of the external wrenches: src/rk_chain.c:849 and src/rk_force.c:49-54. -/
inductive WLine (K : Type*) where
  | link (name : String)
  | force (v : Vec3 K)
  | torque (v : Vec3 K)
  | point (v : Vec3 K)
deriving DecidableEq, Repr

/-- `rkWrenchFPrint`, src/rk_force.c:45-55. -/
def wrench (w : Wrench K) : List (WLine K) := [.force w.w.lin, .torque w.w.ang, .point w.p]

/-- `rkLinkExtWrenchFPrint`, src/rk_link.c:413-419. -/
def linkExtWrench (l : Link K) : List (WLine K) := l.body.extw.flatMap wrench

/-- `rkChainExtWrenchFPrint`, src/rk_chain.c:843-852. -/
def extWrench (c : Chain K) : List (WLine K) :=
  c.link.flatMap fun l => if l.body.extw.length ≠ 0 then .link l.name :: linkExtWrench l else []

end Roki.Print
