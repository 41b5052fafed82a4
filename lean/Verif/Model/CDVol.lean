import Verif.Model.CD
set_option autoImplicit false

/-!
# Collision volumes by boundary representations: src/rk_cd.c

A boundary representation (`zBREP`, Zeo) is the list of its vertices and of its triangles; its edges are not used here.  The
members `norm`, `axis` and `center` of a pair, which `Verif.Model.CD` leaves out, are `VolInfo`.
-/

namespace Roki
variable {K : Type*}

/-- `zBREP` (Zeo): the vertices of `vlist` and the corners of the faces of `flist`. -/
structure BRepS (K : Type*) where
  vert : List (Vec3 K)
  tri : List (Vec3 K × Vec3 K × Vec3 K)

/-- The routines of Zeo on boundary representations.  `ofPH` is `zPH3D2BREP`, `interBox` is `zIntersectPH3DBox` (`none`: the
boxes do not intersect), `ofPHIn` is `zPH3D2BREPInBox`, `trunc` is `zBREPTruncPH3D` (`none`: null pointer), `hull` is `zCH3DPL`,
`bary` is `zPH3DBarycenter`. -/
structure VolGeo (K : Type*) where
  Box : Type
  ofPH : PH K → BRepS K
  interBox : PH K → PH K → Option Box
  ofPHIn : PH K → Box → BRepS K
  trunc : BRepS K → PH K → Option (BRepS K)
  hull : List (Vec3 K) → PH K
  bary : PH K → Vec3 K

/-- The members `norm`, `axis`, `center` of `rkCDPairDat`, include/roki/rk_cd.h:91-104, and whether the pair has rigid contact
information (`ci && rkContactInfoType(ci) == RK_CONTACT_RIGID`). -/
structure VolInfo (K : Type*) where
  norm : Vec3 K
  axis0 : Vec3 K
  axis1 : Vec3 K
  axis2 : Vec3 K
  center : Vec3 K
  rigid : Bool

namespace CD
variable [Field K] {G : CDGeo K}

/-- Twice the area vector of a triangle, src/rk_cd.c:613-615 and 619-621. -/
def areaVec (t : Vec3 K × Vec3 K × Vec3 K) : Vec3 K := cross (t.2.1 - t.1) (t.2.2 - t.1)

/-- `_rkCDIntegrationNormBREP`, src/rk_cd.c:606-629. -/
def brepNorm (G : CDGeo K) (b1 b2 : BRepS K) : Vec3 K :=
  let s := b2.tri.foldl (fun n t => n + areaVec t) (b1.tri.foldl (fun n t => n - areaVec t) 0)
  if G.tiny s then ⟨0, 0, 1⟩ else G.normalize s

/-- `_rkCDBREPMergeCH`, src/rk_cd.c:631-644. -/
def mergeCH (V : VolGeo K) (b1 b2 : BRepS K) : PH K := V.hull (b1.vert ++ b2.vert)

/-- `_rkCDColVolError`, src/rk_cd.c:646-660.  Indices of vertices are not negative. -/
def volError (ph : PH K) : Bool :=
  ph.face.any fun f => decide (f.1 > ph.vert.length) || decide (f.2.1 > ph.vert.length) || decide (f.2.2 > ph.vert.length)

/-- `zPH3DBarycenter`, as used at src/rk_cd.c:692, 594 and 743: it reads the corners of all faces, so it is undefined if one
does not exist. -/
def barycenter (V : VolGeo K) (ph : PH K) : Option (Vec3 K) :=
  if ph.face.all fun f => decide (f.1 < ph.vert.length) && decide (f.2.1 < ph.vert.length) && decide (f.2.2 < ph.vert.length)
  then some (V.bary ph) else none

/-- The axes and the center, src/rk_cd.c:688-692. -/
def volAxes (G : CDGeo K) (x : VolInfo K) (c : Vec3 K) : VolInfo K :=
  { x with axis0 := x.norm, axis1 := (G.ortho x.norm).1, axis2 := (G.ortho x.norm).2, center := c }

/-- `_rkCDPairColVolBREP`, src/rk_cd.c:662-697, for polyhedra `a`, `b` of the two cells. -/
def pairBREP (V : VolGeo K) (G : CDGeo K) (p : CDPair K) (x : VolInfo K) (a b : PH K) :
    Option ((CDPair K × VolInfo K) × ℕ) :=
  match V.trunc (V.ofPH a) b, V.trunc (V.ofPH b) a with
  | some b1, some b2 =>
    if b1.vert.isEmpty && b2.vert.isEmpty then some (({ p with isCol := false }, x), 0)
    else
      let x := { x with norm := brepNorm G b1 b2 }
      let vol := mergeCH V b1 b2
      if vol.vert.length < 4 || vol.face.length < 4 || volError vol then
        some (({ p with isCol := false, colvol := PH.empty }, x), 0)
      else (barycenter V vol).map fun c => (({ p with colvol := vol }, volAxes G x c), 1)
  | _, _ => some (({ p with isCol := false }, x), 0)

/-- A loop over the pairs with the members of `VolInfo`; see `forPairs`. -/
def forVols (body : CDPair K → VolInfo K → List (CDCell K G) → Option (((CDPair K × VolInfo K) × ℕ) × List (CDCell K G))) :
    List (CDPair K × VolInfo K) → List (CDCell K G) → Option ((List (CDPair K × VolInfo K) × ℕ) × List (CDCell K G))
  | [], cs => some (([], 0), cs)
  | p :: ps, cs => do
    let ((p', n), cs') ← body p.1 p.2 cs
    let ((ps', m), cs'') ← forVols body ps cs'
    pure ((p' :: ps', n + m), cs'')

/-- `rkCDColChkOBB` followed by a loop over the pairs that counts from zero; `xs` are the `VolInfo` of the pairs. -/
def volQuery (body : CDPair K → VolInfo K → List (CDCell K G) → Option (((CDPair K × VolInfo K) × ℕ) × List (CDCell K G)))
    (W : ℕ → Frame K) (cd : CD K G) (xs : List (VolInfo K)) : Option (CD K G × List (VolInfo K)) :=
  (cd.colChkOBB W).bind fun cd => (forVols body (cd.pairs.zip xs) cd.cells).map fun r =>
    ({ cd with pairs := r.1.1.map (·.1), cells := r.2, colnum := r.1.2 }, r.1.1.map (·.2))

/-- The loop of `_rkCDColVol`, src/rk_cd.c:577-598, with the axes and the center: the normal is not computed. -/
def volBodyX (V : VolGeo K) (W : ℕ → Frame K) (p : CDPair K) (x : VolInfo K) (cs : List (CDCell K G)) :
    Option (((CDPair K × VolInfo K) × ℕ) × List (CDCell K G)) :=
  if p.isCol then do
    let cs ← updPH W cs p.c0
    let cs ← updPH W cs p.c1
    let a ← deref cs p.c0
    let b ← deref cs p.c1
    match G.intersect a.ph b.ph with
    | none => pure ((({ p with isCol := false }, x), 0), cs)
    | some v => (barycenter V v).map fun c => ((({ p with colvol := v }, volAxes G x c), 1), cs)
  else some (((p, x), 0), cs)

/-- `rkCDColVol`, src/rk_cd.c:600-604. -/
def colVolX (V : VolGeo K) (W : ℕ → Frame K) (cd : CD K G) (xs : List (VolInfo K)) :=
  volQuery (volBodyX V W) W cd xs

/-- The loop of `_rkCDColVolBREP`, src/rk_cd.c:699-711. -/
def brepBody (V : VolGeo K) (W : ℕ → Frame K) (p : CDPair K) (x : VolInfo K) (cs : List (CDCell K G)) :
    Option (((CDPair K × VolInfo K) × ℕ) × List (CDCell K G)) :=
  if p.isCol then do
    let cs ← updPH W cs p.c0
    let cs ← updPH W cs p.c1
    let a ← deref cs p.c0
    let b ← deref cs p.c1
    (pairBREP V G p x a.ph b.ph).map fun r => (r, cs)
  else some (((p, x), 0), cs)

/-- `rkCDColVolBREP`, src/rk_cd.c:750-754. -/
def colVolBREP (V : VolGeo K) (W : ℕ → Frame K) (cd : CD K G) (xs : List (VolInfo K)) :=
  volQuery (brepBody V W) W cd xs

/-- The loop of `_rkCDColVolBREPVert`, src/rk_cd.c:762-781. -/
def brepVertBody (V : VolGeo K) (t : Fric) (W : ℕ → Frame K) (p : CDPair K) (x : VolInfo K) (cs : List (CDCell K G)) :
    Option (((CDPair K × VolInfo K) × ℕ) × List (CDCell K G)) :=
  if p.isCol then do
    let cs ← updPH W cs p.c0
    let cs ← updPH W cs p.c1
    let a ← deref cs p.c0
    let b ← deref cs p.c1
    if x.rigid then (pairBREP V G p x a.ph b.ph).map fun r => (r, cs)
    else some ((((pairVert W t p a b).1, x), (pairVert W t p a b).2), cs)
  else some ((({ p with vlist := [] }, x), 0), cs)

/-- `rkCDColVolBREPVert`, src/rk_cd.c:783-787. -/
def colVolBREPVert (V : VolGeo K) (W : ℕ → Frame K) (cd : CD K G) (xs : List (VolInfo K)) :=
  volQuery (brepVertBody V cd.defType W) W cd xs

/-- The body of the loop of `_rkCDColVolBREPFast`, src/rk_cd.c:722-747, for polyhedra `a`, `b`.  `ini` tells whether the local
array `brep` has been initialised, which `zPH3D2BREPInBox` does; `zBREPDestroy` at the label `CONTINUE` is undefined
otherwise. -/
def pairFast (V : VolGeo K) (G : CDGeo K) (ini : Bool) (p : CDPair K) (x : VolInfo K) (a b : PH K) :
    Option ((CDPair K × VolInfo K) × ℕ) :=
  match V.interBox a b with
  | none => if ini then some (({ p with isCol := false }, x), 0) else none
  | some ib =>
    match V.trunc (V.ofPHIn a ib) b, V.trunc (V.ofPHIn b ib) a with
    | some b1, some b2 =>
      if b1.vert.isEmpty && b2.vert.isEmpty then some (({ p with isCol := false }, x), 0)
      else
        let vol := mergeCH V b1 b2
        (barycenter V vol).map fun c => (({ p with colvol := vol }, volAxes G { x with norm := brepNorm G b1 b2 } c), 1)
    | _, _ => some (({ p with isCol := false }, x), 0)

/-- The loop of `_rkCDColVolBREPFast`, src/rk_cd.c:713-748.  After a pair for which the loop did not end, the array `brep` has
been initialised. -/
def fastLoop (V : VolGeo K) (W : ℕ → Frame K) : Bool → List (CDPair K × VolInfo K) → List (CDCell K G) →
    Option ((List (CDPair K × VolInfo K) × ℕ) × List (CDCell K G))
  | _, [], cs => some (([], 0), cs)
  | ini, p :: ps, cs =>
    if p.1.isCol then do
      let cs ← updPH W cs p.1.c0
      let cs ← updPH W cs p.1.c1
      let a ← deref cs p.1.c0
      let b ← deref cs p.1.c1
      let (p', n) ← pairFast V G ini p.1 p.2 a.ph b.ph
      let ((ps', m), cs') ← fastLoop V W true ps cs
      pure ((p' :: ps', n + m), cs')
    else do
      let ((ps', m), cs') ← fastLoop V W ini ps cs
      pure ((p :: ps', m), cs')

/-- `rkCDColVolBREPFast`, src/rk_cd.c:756-760. -/
def colVolBREPFast (V : VolGeo K) (W : ℕ → Frame K) (cd : CD K G) (xs : List (VolInfo K)) :
    Option (CD K G × List (VolInfo K)) :=
  (cd.colChkOBB W).bind fun cd => (fastLoop V W false (cd.pairs.zip xs) cd.cells).map fun r =>
    ({ cd with pairs := r.1.1.map (·.1), cells := r.2, colnum := r.1.2 }, r.1.1.map (·.2))

end CD
end Roki
