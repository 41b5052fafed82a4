import Verif.Model.ChainTree

/-!
# Jacobian matrices (src/rk_jacobi.c)

A matrix with three rows is the list of its columns.  Writing a column outside the matrix is the
outcome `none` (`zMatSetElemNC` does not check the index).
-/

namespace Roki
set_option autoImplicit false

/-- The chain of `parent` pointers from link `i` up to a link without parent, that is, of the links
visited by the loops `for( l=rkChainLink(c,id); ...; l=rkLinkParent(l) )` of src/rk_jacobi.c. -/
def LTree.pathUp : LTree ℕ → ℕ → Option (List ℕ)
  | .nil, _ => none
  | .node j c s, i =>
    if i = j then some [j]
    else
      match c.pathUp i with
      | some p => some (p ++ [j])
      | none => s.pathUp i

namespace Jacobi
variable {K : Type*} [Field K]

/-- A matrix with three rows, as the list of its columns. -/
abbrev Mat (K : Type*) := List (Vec3 K)

/-- Apply `f` to column `c`: the macros `__rk_jacobi_set_vector`, `__rk_jacobi_add_vector`,
`__rk_jacobi_sub_vector` and `__rk_jacobi_cat_vector`, src/rk_jacobi.c:14-36. -/
def modCol (f : Vec3 K → Vec3 K) (m : Mat K) (c : ℤ) : Option (Mat K) :=
  if 0 ≤ c ∧ c < m.length then some (m.modify c.toNat f) else none

/-- `zMatZero`. -/
def zero (m : Mat K) : Mat K := m.map fun _ => 0

/-- `__rk_jacobi_set_vector`, src/rk_jacobi.c:14-18. -/
def opSet (_ s : Vec3 K) : Vec3 K := s
/-- `__rk_jacobi_add_vector`, src/rk_jacobi.c:20-24. -/
def opAdd (v s : Vec3 K) : Vec3 K := v + s
/-- `__rk_jacobi_sub_vector`, src/rk_jacobi.c:26-30. -/
def opSub (v s : Vec3 K) : Vec3 K := v - s
/-- `__rk_jacobi_cat_vector`, src/rk_jacobi.c:32-36. -/
def opCat (k : K) (v s : Vec3 K) : Vec3 K := v + k • s

/-- `_rkJacobiLinCol`, src/rk_jacobi.c:48-58, with the world frame of the link. -/
def linCol (l : Link K) (p : Vec3 K) (i : ℕ) : Option (Vec3 K) :=
  match l.joint.prp.linAxis i l.body.frame with
  | some s => some s
  | none =>
    match l.joint.prp.angAxis i l.body.frame with
    | some a => some (cross a (p - l.body.frame.pos))
    | none => none

/-- `rkJointAngAxis( rkLinkJoint(l), i, rkLinkWldFrame(l), s )`. -/
def angCol (l : Link K) (i : ℕ) : Option (Vec3 K) := l.joint.prp.angAxis i l.body.frame

/-- `if( ... ) op( m, rkLinkOffset(l)+__i, k, s );` with the optional vector `col`. -/
def colAt (op : Vec3 K → Vec3 K → Vec3 K) (col : Option (Vec3 K)) (m : Mat K) (c : ℤ) :
    Option (Mat K) :=
  match col with
  | some s => modCol (fun v => op v s) m c
  | none => some m

/-- The macros `__rk_jacobi_ang_col` (src/rk_jacobi.c:38-44) and `__rk_jacobi_lin_col` (60-66): the
loop over the degrees of freedom of the joint of `l`. -/
def colLoop (op : Vec3 K → Vec3 K → Vec3 K) (l : Link K) (col : ℕ → Option (Vec3 K)) (m : Mat K) :
    Option (Mat K) :=
  (List.range l.size).foldlM (fun m i => colAt op (col i) m (l.offset + i)) m

/-- `for( l=...; ; l=rkLinkParent(l) ){ f; if( l == rkChainRoot(c) ) break; }`; the root of a chain
is link 0.  The list is the remaining chain of parents; its end is a null pointer. -/
def walk (f : Link K → Mat K → Option (Mat K)) (ls : List (Link K)) : List ℕ → Mat K → Option (Mat K)
  | [], _ => none
  | i :: p, m => do
    let l : Link K ← ls[i]?
    let m' ← f l m
    if i = 0 then some m' else walk f ls p m'

/-- `rkChainLinkWldAngJacobi`, src/rk_jacobi.c:69-80. -/
def wldAng (c : Chain K) (id : ℕ) (m : Mat K) : Option (Mat K) :=
  (c.shape.pathUp id).bind fun p => walk (fun l m => colLoop opSet l (angCol l) m) c.link p (zero m)

/-- `rkChainLinkWldLinJacobi`, src/rk_jacobi.c:83-95. -/
def wldLin (c : Chain K) (id : ℕ) (p : Vec3 K) (m : Mat K) : Option (Mat K) := do
  let l : Link K ← c.link[id]?
  let tp := l.body.frame.xform p
  (c.shape.pathUp id).bind fun path => walk (fun l m => colLoop opSet l (linCol l tp) m) c.link path (zero m)

/-- `for( l=...; l!=rkChainRoot(c); l=rkLinkParent(l) ) f;` -/
def walkBelow (f : Link K → Mat K → Option (Mat K)) (ls : List (Link K)) :
    List ℕ → Mat K → Option (Mat K)
  | [], _ => none
  | i :: p, m =>
    if i = 0 then some m
    else do
      let l : Link K ← ls[i]?
      let m' ← f l m
      walkBelow f ls p m'

/-- The first loop of `rkChainLinkToLinkAngJacobi`, src/rk_jacobi.c:105-108; the flag tells that the
function returns from inside of the loop. -/
def walkAngTo (f : Link K → Mat K → Option (Mat K)) (from_ : ℕ) (ls : List (Link K)) :
    List ℕ → Mat K → Option (Bool × Mat K)
  | [], _ => none
  | i :: p, m =>
    if i = 0 then some (false, m)
    else if i = from_ then some (true, m)
    else do
      let l : Link K ← ls[i]?
      let m' ← f l m
      walkAngTo f from_ ls p m'

/-- `rkChainLinkToLinkAngJacobi`, src/rk_jacobi.c:99-112. -/
def linkToLinkAng (c : Chain K) (from_ to_ : ℕ) (m : Mat K) : Option (Mat K) :=
  (c.shape.pathUp to_).bind fun p => do
  let (ret, m1) ← walkAngTo (fun l m => colLoop opSet l (angCol l) m) from_ c.link p (zero m)
  if ret then some m1
  else (c.shape.pathUp from_).bind fun q =>
    walkBelow (fun l m => colLoop opSub l (angCol l) m) c.link q m1

/-- The first loop of `rkChainLinkToLinkLinJacobi`, src/rk_jacobi.c:123-127. -/
def walkLinTo (f : Link K → Mat K → Option (Mat K)) (from_ : ℕ) (ls : List (Link K)) :
    List ℕ → Mat K → Option (Bool × Mat K)
  | [], _ => none
  | i :: p, m =>
    if i = from_ then some (true, m)
    else do
      let l : Link K ← ls[i]?
      let m' ← f l m
      if i = 0 then some (false, m') else walkLinTo f from_ ls p m'

/-- `rkChainLinkToLinkLinJacobi`, src/rk_jacobi.c:116-133. -/
def linkToLinkLin (c : Chain K) (from_ to_ : ℕ) (p : Vec3 K) (m : Mat K) : Option (Mat K) := do
  let l : Link K ← c.link[to_]?
  let tp := l.body.frame.xform p
  (c.shape.pathUp to_).bind fun path => do
  let (ret, m1) ← walkLinTo (fun l m => colLoop opSet l (linCol l tp) m) from_ c.link path (zero m)
  if ret then some m1
  else (c.shape.pathUp from_).bind fun q =>
    walk (fun l m => colLoop opSub l (linCol l tp) m) c.link q m1

/-- The body of the loop of `rkChainCOMJacobi`, src/rk_jacobi.c:144-151, for link `i`. -/
def comLink [DecidableEq K] (c : Chain K) (m : Mat K) (i : ℕ) : Option (Mat K) := do
  let li : Link K ← c.link[i]?
  if li.body.mp.mass = 0 then some m
  else (c.shape.pathUp i).bind fun path =>
      walk (fun l m => colLoop (opCat (li.body.mp.mass / c.mass)) l (linCol l li.body.wldCOM) m)
        c.link path m

/-- `rkChainCOMJacobi`, src/rk_jacobi.c:136-153. -/
def com [DecidableEq K] (c : Chain K) (m : Mat K) : Option (Mat K) :=
  (List.range c.link.length).foldlM (comLink c) (zero m)

/-- The loop over the degrees of freedom of src/rk_jacobi.c:167-176: `inertia`, `mass` and `com` are
those of the link whose momentum is considered, `p` the reference point. -/
def amLoop (inertia : Mat3 K) (mass : K) (com p : Vec3 K) (l : Link K) (m : Mat K) :
    Option (Mat K) :=
  (List.range l.size).foldlM (fun m i =>
    (colAt (fun v s => opAdd v (inertia.mulVec s)) (angCol l i) m (l.offset + i)).bind fun m1 =>
      colAt (fun v s => opCat mass v (cross (com - p) s)) (linCol l com i) m1 (l.offset + i)) m

/-- `_rkChainLinkAMJacobi`, src/rk_jacobi.c:157-180. -/
def linkAM' (c : Chain K) (p : Vec3 K) (m : Mat K) (id : ℕ) : Option (Mat K) := do
  let li : Link K ← c.link[id]?
  (c.shape.pathUp id).bind fun path =>
  walk (amLoop li.wldInertia li.body.mp.mass li.body.wldCOM p) c.link path m

/-- `rkChainLinkAMJacobi`, src/rk_jacobi.c:183-187. -/
def linkAM (c : Chain K) (id : ℕ) (p : Vec3 K) (m : Mat K) : Option (Mat K) :=
  linkAM' c p (zero m) id

/-- `rkChainAMJacobi`, src/rk_jacobi.c:190-199. -/
def am (c : Chain K) (p : Vec3 K) (m : Mat K) : Option (Mat K) :=
  (List.range c.link.length).foldlM (linkAM' c p) (zero m)

/-- `rkChainAMCOMJacobi`, src/rk_jacobi.c:202-205. -/
def amCOM (c : Chain K) (m : Mat K) : Option (Mat K) := am c c.wldCOM m

end Jacobi
end Roki
