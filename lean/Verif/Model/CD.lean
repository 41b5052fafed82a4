import Verif.Model.Vec
set_option autoImplicit false

/-!
# Collision detection: src/rk_cd.c

Cells and pairs are referred to by addresses, which are numbers that are never used twice; using the address of a cell
that does not exist (any more) is undefined: `none`.  Lists are in the order of `zListForEach`, so that `zListInsertHead`
appends at the end.  Memory allocation does not fail.  The world frames of the links, which the functions read through
`rkLinkWldFrame`, are an argument `W`.
-/

namespace Roki

/-- `zPH3D` (Zeo): vertices, and faces as triples of indices of vertices. -/
structure PH (K : Type*) where
  vert : List (Vec3 K)
  face : List (ℕ × ℕ × ℕ)

/-- The geometric routines of Zeo that the collision detector uses.  `toPH` is `zShape3DToPH`, `bbOf` is `zOBB3D` of the
vertices, `boxX` is `zBox3DXform`, `toAABB` is `zBox3DToAABox3D`, `boxPH` is `zBox3DToPH`; `colAABB`, `colBox` and
`colPH` are `zColChkAABox3D`, `zColChkBox3D` and `zColChkPH3D`; `inside` is `zPH3DPointIsInside`, `closest` is
`zPH3DClosest`, `tiny` is `zVec3DIsTiny`, `normalize` is `zVec3DNormalizeNCDRC`, `ortho` is `zVec3DOrthoSpace`,
`intersect` is `zIntersectPH3D`. -/
structure CDGeo (K : Type*) where
  Shape : Type
  Box : Type
  AABox : Type
  toPH : Shape → Option (PH K)
  bbOf : PH K → Box
  boxX : Box → Frame K → Box
  toAABB : Box → AABox
  boxPH : Box → PH K
  colAABB : AABox → AABox → Bool
  colBox : Box → Box → Bool
  colPH : PH K → PH K → Bool
  inside : PH K → Vec3 K → Bool
  closest : PH K → Vec3 K → Vec3 K
  tiny : Vec3 K → Bool
  normalize : Vec3 K → Vec3 K
  ortho : Vec3 K → Vec3 K × Vec3 K
  intersect : PH K → PH K → Option (PH K)

/-- `rkContactFricType`, include/roki/rk_contact.h:20. -/
inductive Fric where
  | sf
  | kf
deriving DecidableEq

variable {K : Type*}

/-- `rkCDCellDat`, include/roki/rk_cd.h:24-41, with the address of the cell; `ph0` is the polyhedron of the shape in the
frame of the link.  The members for a fake crawler are left out. -/
structure CDCell (K : Type*) (G : CDGeo K) where
  ptr : ℕ
  shape : G.Shape
  link : ℕ
  chain : ℕ
  stat : Bool
  ph0 : PH K
  bb : G.Box
  aabb : G.AABox
  obb : G.Box
  ph : PH K
  bbUpd : Bool
  phUpd : Bool

/-- `rkCDVertDat`, include/roki/rk_cd.h:60-76.  The vertex is identified by its cell and its index.  The members `f`, `dir`
and `vel` are left out. -/
structure CDVert (K : Type*) where
  cell : ℕ
  idx : ℕ
  norm : Vec3 K
  axis0 : Vec3 K
  axis1 : Vec3 K
  axis2 : Vec3 K
  pro : Vec3 K
  ref : Vec3 K
  norm' : Vec3 K
  axis0' : Vec3 K
  axis1' : Vec3 K
  axis2' : Vec3 K
  pro' : Vec3 K
  ref' : Vec3 K
  type : Fric

/-- `rkCDPairDat`, include/roki/rk_cd.h:91-104: the addresses of the two cells, the flag, the vertices and the collision
volume.  The other members are left out. -/
structure CDPair (K : Type*) where
  c0 : ℕ
  c1 : ℕ
  isCol : Bool
  vlist : List (CDVert K)
  colvol : PH K

/-- `rkCD`, include/roki/rk_cd.h:110-115; `next` is the next address. -/
structure CD (K : Type*) (G : CDGeo K) where
  cells : List (CDCell K G)
  pairs : List (CDPair K)
  colnum : ℕ
  defType : Fric
  next : ℕ

/-- `zPH3DInit` (Zeo). -/
def PH.empty : PH K := ⟨[], []⟩

/-- `zPH3DXform` (Zeo): the vertices of the first polyhedron, transformed, are written over those of the second, which
keeps its faces; `none` if there is not enough room. -/
def PH.xform [Field K] (src : PH K) (f : Frame K) (dest : PH K) : Option (PH K) :=
  if src.vert.length ≤ dest.vert.length then
    some ⟨src.vert.map f.xform ++ dest.vert.drop src.vert.length, dest.face⟩
  else none

namespace CD
variable [Field K] {G : CDGeo K}

/-- `rkCDCreate`, src/rk_cd.c:106-113. -/
def create : CD K G := ⟨[], [], 0, .kf, 1⟩

/-- `rkCDSetDefaultFricType`, src/rk_cd.c:199-202. -/
def setDefaultFricType (cd : CD K G) (t : Fric) : CD K G := { cd with defType := t }

/-- `_rkCDCellCreate`, src/rk_cd.c:24-48; `none` if the shape cannot be converted to a polyhedron. -/
def cellCreate (W : ℕ → Frame K) (ptr chain link : ℕ) (shape : G.Shape) (stat : Bool) : Option (CDCell K G) := do
  let ph0 ← G.toPH shape
  let ph ← ph0.xform (W link) ph0
  let obb := G.boxX (G.bbOf ph0) (W link)
  pure { ptr := ptr, shape := shape, link := link, chain := chain, stat := stat, ph0 := ph0, bb := G.bbOf ph0,
         aabb := G.toAABB obb, obb := obb, ph := ph, bbUpd := false, phUpd := false }

/-- `rkCDCellReg`, src/rk_cd.c:58-69. -/
def cellReg (W : ℕ → Frame K) (cd : CD K G) (chain link : ℕ) (shape : G.Shape) (stat : Bool) :
    Option (CDCell K G × CD K G) :=
  (cellCreate W cd.next chain link shape stat).map fun c => (c, { cd with cells := cd.cells ++ [c], next := cd.next + 1 })

/-- `rkCDCellUpdateBB`, src/rk_cd.c:72-79. -/
def updateBB (W : ℕ → Frame K) (c : CDCell K G) : CDCell K G :=
  if c.stat || c.bbUpd then c
  else { c with obb := G.boxX c.bb (W c.link), aabb := G.toAABB (G.boxX c.bb (W c.link)), bbUpd := true }

/-- `rkCDCellUpdatePH`, src/rk_cd.c:82-88. -/
def updatePH (W : ℕ → Frame K) (c : CDCell K G) : Option (CDCell K G) :=
  if c.stat || c.phUpd then some c
  else (c.ph0.xform (W c.link) c.ph).map fun ph => { c with ph := ph, phUpd := true }

/-- `_rkCDPairReg`, src/rk_cd.c:142-158: the new pair. -/
def newPair (c0 c1 : ℕ) : CDPair K := ⟨c0, c1, false, [], PH.empty⟩

/-- The conditions of the loop of `_rkCDPairCellReg`, src/rk_cd.c:167-176. -/
def pairable (a b : CDCell K G) : Bool :=
  !(a.stat && b.stat) && a.link != b.link &&
  !(a.chain == b.chain && G.colAABB a.aabb b.aabb && G.colBox a.obb b.obb && G.colPH a.ph b.ph)

/-- `_rkCDPairCellReg`, src/rk_cd.c:161-180. -/
def pairCellReg (cd : CD K G) (cell : CDCell K G) : CD K G :=
  { cd with pairs := cd.pairs ++ (cd.cells.filter fun a => pairable a cell).map fun a => newPair a.ptr cell.ptr }

/-- The body of the loops of `rkCDChainReg`, src/rk_cd.c:312-317, for one shape. -/
def shapeReg (W : ℕ → Frame K) (cd : CD K G) (chain link : ℕ) (shape : G.Shape) (stat : Bool) : Option (CD K G) :=
  (cd.cellReg W chain link shape stat).map fun p => if 1 < p.2.cells.length then p.2.pairCellReg p.1 else p.2

/-- The loops of `rkCDChainReg`, src/rk_cd.c:311-318, over the shapes with their links.  The flag is false if the
function stops early and returns the null pointer. -/
def shapesReg (W : ℕ → Frame K) (chain : ℕ) (stat : Bool) : List (ℕ × G.Shape) → CD K G → Bool × CD K G
  | [], cd => (true, cd)
  | (link, shape) :: l, cd =>
    match cd.shapeReg W chain link shape stat with
    | none => (false, cd)
    | some cd' => shapesReg W chain stat l cd'

/-- `rkCDChainReg`, src/rk_cd.c:306-319.  A chain is its address with the links, each with the list of its shapes. -/
def chainReg (W : ℕ → Frame K) (cd : CD K G) (chain : ℕ) (links : List (ℕ × List G.Shape)) (stat : Bool) :
    Bool × CD K G :=
  shapesReg W chain stat (links.flatMap fun l => l.2.map fun s => (l.1, s)) cd

/-- The cell at an address. -/
def deref (cs : List (CDCell K G)) (p : ℕ) : Option (CDCell K G) := cs.find? fun c => c.ptr == p

/-- A change of the cell at an address. -/
def store (cs : List (CDCell K G)) (c : CDCell K G) : List (CDCell K G) := cs.map fun d => if d.ptr = c.ptr then c else d

/-- The test of `rkCDPairReg` and `rkCDPairUnreg`, src/rk_cd.c:211-214 and 232-235. -/
def onLinks (cs : List (CDCell K G)) (l1 l2 : ℕ) (p : CDPair K) : Option Bool :=
  (deref cs p.c0).bind fun a => (deref cs p.c1).map fun b =>
    (a.link == l1 && b.link == l2) || (a.link == l2 && b.link == l1)

/-- The two inner loops of `rkCDPairReg`, src/rk_cd.c:217-221. -/
def linkPairs (l1 l2 : ℕ) : List (CDCell K G) → List (CDPair K)
  | [] => []
  | a :: cs =>
    ((cs.filter fun b => (a.link == l1 && b.link == l2) || (a.link == l2 && b.link == l1)).map fun b =>
      newPair a.ptr b.ptr) ++ linkPairs l1 l2 cs

/-- The first loop of `rkCDPairReg`, src/rk_cd.c:210-215. -/
def anyOn (cs : List (CDCell K G)) (l1 l2 : ℕ) : List (CDPair K) → Option Bool
  | [] => some false
  | p :: ps => (onLinks cs l1 l2 p).bind fun b => if b then some true else anyOn cs l1 l2 ps

/-- `rkCDPairReg`, src/rk_cd.c:205-223. -/
def pairReg (cd : CD K G) (l1 l2 : ℕ) : Option (CD K G) :=
  (anyOn cd.cells l1 l2 cd.pairs).map fun b =>
    if b then cd else { cd with pairs := cd.pairs ++ linkPairs l1 l2 cd.cells }

/-- The loop of the functions that unregister pairs: it removes the pairs for which the test is true. -/
def purge (test : CDPair K → Option Bool) : List (CDPair K) → Option (List (CDPair K))
  | [] => some []
  | p :: ps => (test p).bind fun b => (purge test ps).map fun r => if b then r else p :: r

/-- `rkCDPairUnreg`, src/rk_cd.c:226-243. -/
def pairUnreg (cd : CD K G) (l1 l2 : ℕ) : Option (CD K G) :=
  (purge (onLinks cd.cells l1 l2) cd.pairs).map fun ps => { cd with pairs := ps }

/-- `rkCDPairChainUnreg`, src/rk_cd.c:245-260. -/
def pairChainUnreg (cd : CD K G) (chain : ℕ) : Option (CD K G) :=
  (purge (fun p => (deref cd.cells p.c0).bind fun a => (deref cd.cells p.c1).map fun b =>
    a.chain == chain && b.chain == chain) cd.pairs).map fun ps => { cd with pairs := ps }

/-- `rkCDChainUnreg`, src/rk_cd.c:321-345. -/
def chainUnreg (cd : CD K G) (chain : ℕ) : Option (CD K G) :=
  (purge (fun p => (deref cd.cells p.c0).bind fun a => (deref cd.cells p.c1).map fun b =>
    a.chain == chain || b.chain == chain) cd.pairs).map fun ps =>
      { cd with pairs := ps, cells := cd.cells.filter fun c => c.chain != chain }

/-- `rkCDReset`, src/rk_cd.c:183-197. -/
def reset (cd : CD K G) : CD K G :=
  { cd with pairs := cd.pairs.map fun p => { p with isCol := false, colvol := PH.empty },
            cells := cd.cells.map fun c => { c with phUpd := false, bbUpd := false } }

/-- A loop over the pairs.  The body may change the pair and its two cells, and gives a number to be added to
`colnum`. -/
def forPairs (body : CDPair K → List (CDCell K G) → Option ((CDPair K × ℕ) × List (CDCell K G))) :
    List (CDPair K) → List (CDCell K G) → Option ((List (CDPair K) × ℕ) × List (CDCell K G))
  | [], cs => some (([], 0), cs)
  | p :: ps, cs => do
    let ((p', n), cs') ← body p cs
    let ((ps', m), cs'') ← forPairs body ps cs'
    pure ((p' :: ps', n + m), cs'')

/-- A function that runs a loop over the pairs without changing `colnum`. -/
def runPairs (cd : CD K G) (body : CDPair K → List (CDCell K G) → Option ((CDPair K × ℕ) × List (CDCell K G))) :
    Option (CD K G) :=
  (forPairs body cd.pairs cd.cells).map fun r => { cd with pairs := r.1.1, cells := r.2 }

/-- A function that sets `colnum` to zero and runs a loop over the pairs that adds to it. -/
def countPairs (cd : CD K G) (body : CDPair K → List (CDCell K G) → Option ((CDPair K × ℕ) × List (CDCell K G))) :
    Option (CD K G) :=
  (forPairs body cd.pairs cd.cells).map fun r => { cd with pairs := r.1.1, cells := r.2, colnum := r.1.2 }

/-- `rkCDCellUpdateBB` of the cell at an address. -/
def updBB (W : ℕ → Frame K) (cs : List (CDCell K G)) (p : ℕ) : Option (List (CDCell K G)) :=
  (deref cs p).map fun c => store cs (updateBB W c)

/-- `rkCDCellUpdatePH` of the cell at an address. -/
def updPH (W : ℕ → Frame K) (cs : List (CDCell K G)) (p : ℕ) : Option (List (CDCell K G)) :=
  (deref cs p).bind fun c => (updatePH W c).map fun c' => store cs c'

/-- The loop of `_rkCDColChkAABB`, src/rk_cd.c:347-358. -/
def aabbBody (W : ℕ → Frame K) (p : CDPair K) (cs : List (CDCell K G)) :
    Option ((CDPair K × ℕ) × List (CDCell K G)) := do
  let cs ← updBB W cs p.c0
  let cs ← updBB W cs p.c1
  let a ← deref cs p.c0
  let b ← deref cs p.c1
  pure ((if G.colAABB a.aabb b.aabb then { p with isCol := true } else p, 0), cs)

/-- The loop of `_rkCDColChkOBB`, src/rk_cd.c:360-368. -/
def obbBody (p : CDPair K) (cs : List (CDCell K G)) : Option ((CDPair K × ℕ) × List (CDCell K G)) :=
  if p.isCol then do
    let a ← deref cs p.c0
    let b ← deref cs p.c1
    pure ((if !G.colBox a.obb b.obb then { p with isCol := false } else p, 0), cs)
  else some ((p, 0), cs)

/-- The loop of `_rkCDColChkGJK`, src/rk_cd.c:370-385. -/
def gjkBody (W : ℕ → Frame K) (p : CDPair K) (cs : List (CDCell K G)) :
    Option ((CDPair K × ℕ) × List (CDCell K G)) :=
  if p.isCol then do
    let cs ← updPH W cs p.c0
    let cs ← updPH W cs p.c1
    let a ← deref cs p.c0
    let b ← deref cs p.c1
    pure ((if !G.colPH a.ph b.ph then { p with isCol := false } else p, 0), cs)
  else some ((p, 0), cs)

/-- The loop of `rkCDColChkGJKOnly`, src/rk_cd.c:413-419. -/
def gjkOnlyBody (W : ℕ → Frame K) (p : CDPair K) (cs : List (CDCell K G)) :
    Option ((CDPair K × ℕ) × List (CDCell K G)) := do
  let cs ← updPH W cs p.c0
  let cs ← updPH W cs p.c1
  let a ← deref cs p.c0
  let b ← deref cs p.c1
  pure ((if G.colPH a.ph b.ph then { p with isCol := true } else p, 0), cs)

/-- `rkCDColChkAABB`, src/rk_cd.c:387-392. -/
def colChkAABB (W : ℕ → Frame K) (cd : CD K G) : Option (CD K G) :=
  if cd.pairs.isEmpty then some cd else cd.reset.runPairs (aabbBody W)

/-- `rkCDColChkOBB`, src/rk_cd.c:394-398. -/
def colChkOBB (W : ℕ → Frame K) (cd : CD K G) : Option (CD K G) :=
  (cd.colChkAABB W).bind fun cd => cd.runPairs obbBody

/-- `rkCDColChkGJK`, src/rk_cd.c:400-404. -/
def colChkGJK (W : ℕ → Frame K) (cd : CD K G) : Option (CD K G) :=
  (cd.colChkOBB W).bind fun cd => cd.runPairs (gjkBody W)

/-- `rkCDColChkGJKOnly`, src/rk_cd.c:406-420. -/
def colChkGJKOnly (W : ℕ → Frame K) (cd : CD K G) : Option (CD K G) :=
  if cd.pairs.isEmpty then some cd else cd.reset.runPairs (gjkOnlyBody W)

/-- `zVec3DProj(v,n)` (Zeo): the part of `v` along `n`. -/
def proj (v n : Vec3 K) : Vec3 K := (dot v n / sqrNorm n) • n

/-- The branch of `_rkCDVertReg` for a vertex that is known from the last check, src/rk_cd.c:448-466. -/
def vertKeep (f : Frame K) (old : CDVert K) (x : Vec3 K) : CDVert K :=
  let v := f.xformInv x
  let pro' := v + proj (old.pro' - v) old.norm'
  { old with pro' := pro', norm := f.att.mulVec old.norm', pro := f.xform pro', ref := f.xform old.ref',
             axis0 := f.xform old.axis0', axis1 := f.xform old.axis1', axis2 := f.xform old.axis2' }

/-- The branch of `_rkCDVertReg` for a new vertex, src/rk_cd.c:467-482, with `_rkCDVertNorm`, 422-430; `none` if the
vertex is rejected. -/
def vertNew (t : Fric) (cell idx : ℕ) (f : Frame K) (ph : PH K) (x : Vec3 K) : Option (CDVert K) :=
  let pro := G.closest ph x
  if G.tiny (pro - x) then none
  else
    let n := G.normalize (pro - x)
    let (a1, a2) := G.ortho n
    some { cell := cell, idx := idx, norm := n, axis0 := n, axis1 := a1, axis2 := a2, pro := pro, ref := pro,
           norm' := f.att.mulVecT n, axis0' := f.xformInv n, axis1' := f.xformInv a1, axis2' := f.xformInv a2,
           pro' := f.xformInv pro, ref' := f.xformInv pro, type := t }

/-- `_rkCDVertReg`, src/rk_cd.c:432-485, for vertex `idx` at `x` of cell `c0` against cell `c1`; `old` is the list of the
last check.  If the list has several entries for the vertex, the last one counts. -/
def vertReg (W : ℕ → Frame K) (t : Fric) (old : List (CDVert K)) (c0 c1 : CDCell K G) (idx : ℕ) (x : Vec3 K) :
    Option (CDVert K) :=
  match (old.filter fun v => v.cell == c0.ptr && v.idx == idx).getLast? with
  | some v => some (vertKeep (W c1.link) v x)
  | none => vertNew (G := G) t c0.ptr idx (W c1.link) c1.ph x

/-- One of the two loops of `_rkCDPairColChkVert`, src/rk_cd.c:494-503: the vertices of `c0` that are inside `c1`. -/
def vertsIn (W : ℕ → Frame K) (t : Fric) (old : List (CDVert K)) (c0 c1 : CDCell K G) : List (CDVert K) :=
  (c0.ph.vert.zipIdx.filter fun x => G.inside c1.ph x.1).filterMap fun x => vertReg W t old c0 c1 x.2 x.1

/-- `_rkCDPairColChkVert`, src/rk_cd.c:487-510. -/
def pairVert (W : ℕ → Frame K) (t : Fric) (p : CDPair K) (a b : CDCell K G) : CDPair K × ℕ :=
  let vs := vertsIn W t p.vlist a b ++ vertsIn W t p.vlist b a
  ({ p with vlist := vs, isCol := if vs.isEmpty then false else p.isCol }, vs.length)

/-- The loop of `_rkCDColChkVert`, src/rk_cd.c:512-528. -/
def vertBody (W : ℕ → Frame K) (t : Fric) (p : CDPair K) (cs : List (CDCell K G)) :
    Option ((CDPair K × ℕ) × List (CDCell K G)) :=
  if p.isCol then do
    let cs ← updPH W cs p.c0
    let cs ← updPH W cs p.c1
    let a ← deref cs p.c0
    let b ← deref cs p.c1
    pure (pairVert W t p a b, cs)
  else some (({ p with vlist := [] }, 0), cs)

/-- `rkCDColChkVert`, src/rk_cd.c:530-534. -/
def colChkVert (W : ℕ → Frame K) (cd : CD K G) : Option (CD K G) :=
  (cd.colChkOBB W).bind fun cd => cd.countPairs (vertBody W cd.defType)

/-- The loop of `_rkCDColChkOBBVert`, src/rk_cd.c:536-569.  The polyhedra of both cells are replaced by their boxes.  The
vertices of the last check are identified by addresses in polyhedra that do not exist any more; they are not
recognised.  A vertex inside counts even if it is rejected. -/
def obbVertBody (W : ℕ → Frame K) (t : Fric) (p : CDPair K) (cs : List (CDCell K G)) :
    Option ((CDPair K × ℕ) × List (CDCell K G)) :=
  if p.isCol then do
    let a ← deref cs p.c0
    let b ← deref cs p.c1
    let a' := { a with ph := G.boxPH a.obb }
    let b' := { b with ph := G.boxPH b.obb }
    let vs := vertsIn W t [] a' b' ++ vertsIn W t [] b' a'
    let n := (a'.ph.vert.filter fun x => G.inside b'.ph x).length + (b'.ph.vert.filter fun x => G.inside a'.ph x).length
    pure (({ p with vlist := vs, isCol := if vs.isEmpty then false else p.isCol }, n), store (store cs a') b')
  else some (({ p with vlist := [] }, 0), cs)

/-- `rkCDColChkOBBVert`, src/rk_cd.c:571-575. -/
def colChkOBBVert (W : ℕ → Frame K) (cd : CD K G) : Option (CD K G) :=
  (cd.colChkOBB W).bind fun cd => cd.countPairs (obbVertBody W cd.defType)

/-- The loop of `_rkCDColVol`, src/rk_cd.c:577-598.  The axes and the centre are left out. -/
def volBody (W : ℕ → Frame K) (p : CDPair K) (cs : List (CDCell K G)) :
    Option ((CDPair K × ℕ) × List (CDCell K G)) :=
  if p.isCol then do
    let cs ← updPH W cs p.c0
    let cs ← updPH W cs p.c1
    let a ← deref cs p.c0
    let b ← deref cs p.c1
    match G.intersect a.ph b.ph with
    | none => pure (({ p with isCol := false }, 0), cs)
    | some v => pure (({ p with colvol := v }, 1), cs)
  else some ((p, 0), cs)

/-- `rkCDColVol`, src/rk_cd.c:600-604. -/
def colVol (W : ℕ → Frame K) (cd : CD K G) : Option (CD K G) :=
  (cd.colChkOBB W).bind fun cd => cd.countPairs (volBody W)

end CD
end Roki
