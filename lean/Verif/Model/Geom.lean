import Verif.Model.ChainTree
set_option autoImplicit false

/-!
# Vertices and the bounding ball of a chain, the nearest vertex of a body

The shapes of a link are given as a list, for every link of the chain; the lists of pointers of Zeo are not modelled.  Vertices are
added to the head of the list or to its tail, which the theorems do not tell apart.
-/

namespace Roki
variable {K σ : Type*}

/-- The routines of Zeo on shapes that src/rk_chain.c:538-566 uses: the vertices, if the shape is a polyhedron
(`zShape3DVert`), `zShape3DXform`, and the vertices of the result of `zShape3DToPH`. -/
class ShapeOps (K σ : Type*) where
  vert : σ → Option (List (Vec3 K))
  xform : Frame K → σ → σ
  toPH : σ → Option (List (Vec3 K))

namespace Geom
section
variable [Field K] [ShapeOps K σ]

/-- What `rkChainVertList` has made: the list, the number of clones that are not destroyed, and whether it returns a null pointer,
src/rk_chain.c:538-566. -/
structure VertState (K : Type*) where
  list : List (Vec3 K)
  clones : ℕ
  failed : Bool
deriving DecidableEq

/-- Body of the loop over the shapes of a link: src/rk_chain.c:549-563.  Requests for memory are granted. -/
def vertShape (f : Frame K) (st : VertState K) (s : σ) : VertState K :=
  if st.failed then st
  else match ShapeOps.vert (K := K) s with
    | some vs => { st with list := st.list ++ vs.map f.xform }
    | none =>
      match ShapeOps.toPH (ShapeOps.xform f s) with
      | none => { st with clones := st.clones + 1, failed := true }
      | some vs => { st with list := st.list ++ vs }

/-- Body of the loop over the links: src/rk_chain.c:546-564. -/
def vertLink (st : VertState K) (x : Link K × List σ) : VertState K := x.2.foldl (vertShape x.1.body.frame) st

/-- `rkChainVertList`: src/rk_chain.c:538-566. -/
def vertList (c : Chain K) (shapes : List (List σ)) : VertState K := (c.link.zip shapes).foldl vertLink ⟨[], 0, false⟩

/-- A ball. -/
structure Ball (K : Type*) where
  center : Vec3 K
  radius : K

/-- `rkChainBBall`: src/rk_chain.c:569-579; `bball` is `zBBall3DPL` (Zeo). -/
def chainBBall (bball : List (Vec3 K) → Ball K) (c : Chain K) (shapes : List (List σ)) : Option (Ball K) :=
  if (vertList c shapes).failed then none else some (bball (vertList c shapes).list)

/-- `rkBodyContigVert`: src/rk_body.c:288-294; `contig` is `zShapeListContigVert` (Zeo), which returns the vertex and the distance. -/
def contigVert (contig : List σ → Vec3 K → Option (Vec3 K × K)) (b : Body K) (shapes : List σ) (p : Vec3 K) : Option (Vec3 K × K) :=
  contig shapes (b.frame.xformInv p)

end
end Geom
end Roki
