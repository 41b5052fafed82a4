import Verif.Spec.CD
set_option autoImplicit false

/-!
# A scene that is moved as a whole
-/

namespace Roki.Spec
variable {K : Type*} [Field K] {G : CDGeo K}

/-- The routines on bounding boxes and polyhedra do not depend on where things are: moved by `X`, the same things collide, and the
results are moved by `X`.  Colliding oriented boxes have colliding axis-aligned boxes.  Nothing is supposed of the axis-aligned boxes
of moved things, nor of the directions that `zVec3DOrthoSpace` chooses. -/
structure Spatial (G : CDGeo K) (X : Frame K) : Prop where
  boxX : ∀ b f, G.boxX (G.boxX b f) X = G.boxX b (X.cascade f)
  colBox : ∀ a b, G.colBox (G.boxX a X) (G.boxX b X) = G.colBox a b
  colPH : ∀ a b, G.colPH (posed a X) (posed b X) = G.colPH a b
  inside : ∀ a x, G.inside (posed a X) (X.xform x) = G.inside a x
  closest : ∀ a x, G.closest (posed a X) (X.xform x) = X.xform (G.closest a x)
  tiny : ∀ v, G.tiny (X.att.mulVec v) = G.tiny v
  normalize : ∀ v, G.normalize (X.att.mulVec v) = X.att.mulVec (G.normalize v)
  intersect : ∀ a b, G.intersect (posed a X) (posed b X) = (G.intersect a b).map fun c => posed c X
  enclose : ∀ a b, G.colBox a b = true → G.colAABB (G.toAABB a) (G.toAABB b) = true

/-- A call when all links are moved by `X`. -/
def moveOp (X : Frame K) : CD.Op K G → CD.Op K G
  | .chainReg W c l s => .chainReg (fun i => X.cascade (W i)) c l s
  | .chainUnreg c => .chainUnreg c
  | .pairReg a b => .pairReg a b
  | .pairUnreg a b => .pairUnreg a b
  | .pairChainUnreg c => .pairChainUnreg c
  | .fric t => .fric t
  | .aabb W => .aabb fun i => X.cascade (W i)
  | .obb W => .obb fun i => X.cascade (W i)
  | .gjk W => .gjk fun i => X.cascade (W i)
  | .gjkOnly W => .gjkOnly fun i => X.cascade (W i)
  | .vert W => .vert fun i => X.cascade (W i)
  | .obbVert W => .obbVert fun i => X.cascade (W i)
  | .vol W => .vol fun i => X.cascade (W i)

/-- The axis-aligned boxes alone are checked only if `X` does not change what they say. -/
def Op.Aligned (X : Frame K) : CD.Op K G → Prop
  | .aabb _ => ∀ a b, G.colAABB (G.toAABB (G.boxX a X)) (G.toAABB (G.boxX b X)) = G.colAABB (G.toAABB a) (G.toAABB b)
  | _ => True

/-- A contact vertex of the moved scene: the same vertex of the same cell, with the normal turned and the points moved; in the frame
of the other link the normal and the points are the same.  The axes are not compared. -/
structure MovedVert (X : Frame K) (u v : CDVert K) : Prop where
  cell : v.cell = u.cell
  idx : v.idx = u.idx
  type : v.type = u.type
  norm : v.norm = X.att.mulVec u.norm
  pro : v.pro = X.xform u.pro
  ref : v.ref = X.xform u.ref
  norm' : v.norm' = u.norm'
  pro' : v.pro' = u.pro'
  ref' : v.ref' = u.ref'

/-- A pair of the moved scene: the same cells, the same mark, the same contact vertices in the same order, moved, and the collision
volume moved. -/
structure MovedPair (X : Frame K) (p q : CDPair K) : Prop where
  c0 : q.c0 = p.c0
  c1 : q.c1 = p.c1
  isCol : q.isCol = p.isCol
  vlist : List.Forall₂ (MovedVert X) p.vlist q.vlist
  colvol : q.colvol = posed p.colvol X

/-- A cell of the moved scene. -/
def moveCell (X : Frame K) (c : CDCell K G) : CDCell K G :=
  { c with ph := posed c.ph X, obb := G.boxX c.obb X, aabb := G.toAABB (G.boxX c.obb X) }

/-- The collision detector of the moved scene. -/
structure MovedCD (X : Frame K) (cd cd' : CD K G) : Prop where
  cells : cd'.cells = cd.cells.map (moveCell X)
  pairs : List.Forall₂ (MovedPair X) cd.pairs cd'.pairs
  colnum : cd'.colnum = cd.colnum
  defType : cd'.defType = cd.defType
  next : cd'.next = cd.next

end Roki.Spec
