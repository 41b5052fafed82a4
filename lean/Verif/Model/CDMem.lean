import Verif.Model.Mem
set_option autoImplicit false

/-!
# Memory of the collision detector

The blocks that the functions of src/rk_cd.c obtain and release: cells with their polyhedra, pairs with their contact vertices,
planes and collision volumes.  Blocks, heap and denied requests are those of `Verif.Model.Mem`.  A polyhedron (`zPH3D`) is one
block, and `zPH3DDestroy` resets its pointers.  What the geometry decides (which pairs collide, which vertices are inside) is
given by an `Outcome` for each pair.  The boundary representations that some queries make and release are not modelled.
-/

namespace Roki.Mem

/-- `rkCDCell`, include/roki/rk_cd.h: its block, the block of its polyhedron, chain, link, type. -/
structure Cell where
  blk : ℕ
  ph : Option ℕ
  chain : ℕ
  link : ℕ
  stat : Bool
deriving DecidableEq

/-- `rkCDVert`: its block, and the polyhedron into which its pointer `vert` points (src/rk_cd.c:445). -/
structure CVert where
  blk : ℕ
  ph : Option ℕ
deriving DecidableEq

/-- `rkCDPair`: its block, its two cells, contact vertices, planes, collision volume. -/
structure CPair where
  blk : ℕ
  c0 : ℕ
  c1 : ℕ
  verts : List CVert
  planes : List ℕ
  vol : Option ℕ
deriving DecidableEq

/-- `rkCD`: the list of cells and the list of pairs. -/
structure CD where
  cells : List Cell
  pairs : List CPair
deriving DecidableEq

/-- What the geometry says about a pair: whether the boxes collide; for each vertex found inside, whether it belongs to the second
cell and whether it gets a normal (src/rk_cd.c:468-471); whether there is a collision volume and whether it is sound; whether the
contact is rigid (src/rk_cd.c:773). -/
structure Outcome where
  col : Bool
  verts : List (Bool × Bool)
  vol : Bool
  sound : Bool
  rigid : Bool

/-- No collision. -/
def Outcome.none : Outcome := ⟨false, [], false, false, false⟩

namespace CD

/-- `rkCDCreate`, src/rk_cd.c:106-113. -/
def create : CD := ⟨[], []⟩

/-- Access to a cell through a pointer of a pair (for instance src/rk_cd.c:354-355): undefined if the cell was released. -/
def getCell (cd : CD) (b : ℕ) : M Cell := do
  deref (some b)
  match cd.cells.find? fun c => c.blk = b with
  | none => fun _ => none
  | some c => pure c

/-- `_rkCDPairDestroy` and the release of the pair, src/rk_cd.c:116-121, 136-137. -/
def freePair (p : CPair) : M Unit := do
  IK.freeAll (p.verts.map (·.blk))
  IK.freeAll p.planes
  free p.vol
  free (some p.blk)

/-- `_rkCDCellDestroy` and the release of the cell, src/rk_cd.c:51-55, 131-132. -/
def freeCell (c : Cell) : M Unit := do
  free c.ph
  free (some c.blk)

/-- Cells in turn, src/rk_cd.c:129-133. -/
def freeCells : List Cell → M Unit
  | [] => pure ()
  | c :: cs => do
    freeCell c
    freeCells cs

/-- Pairs in turn, src/rk_cd.c:134-138. -/
def freePairs : List CPair → M Unit
  | [] => pure ()
  | p :: ps => do
    freePair p
    freePairs ps

/-- `rkCDDestroy`, src/rk_cd.c:124-139. -/
def destroy (cd : CD) : M CD := do
  freeCells cd.cells
  freePairs cd.pairs
  pure create

/-- `rkCDCellReg` with `_rkCDCellCreate`, src/rk_cd.c:24-68.  If the polyhedron cannot be copied, the cell is not released. -/
def cellReg (chain link : ℕ) (stat : Bool) : M (Option Cell) := do
  match ← alloc with
  | none => pure none
  | some b => do
    match ← alloc with
    | none => pure none
    | some p => pure (some ⟨b, some p, chain, link, stat⟩)

/-- `_rkCDPairCellReg` with `_rkCDPairReg`, src/rk_cd.c:142-180: the new pairs, the last one first.  `perm` says for each cell whether
it is in permanent collision with the new one.  The loop ends with a denied request. -/
def pairAll (c : Cell) : List Cell → List Bool → M (List CPair)
  | [], _ => pure []
  | d :: ds, perm =>
    if (d.stat && c.stat) || d.link == c.link then pairAll c ds perm.tail
    else do
      deref d.ph
      deref c.ph
      if d.chain == c.chain && perm.headD false then pairAll c ds perm.tail
      else do
        match ← alloc with
        | none => pure []
        | some b => do
          let ps ← pairAll c ds perm.tail
          pure (ps ++ [⟨b, d.blk, c.blk, [], [], none⟩])

/-- `rkCDChainReg`, src/rk_cd.c:307-320.  `shapes`: the link of each shape, and the permanent collisions. -/
def chainReg (chain : ℕ) (stat : Bool) : List (ℕ × List Bool) → CD → M (Bool × CD)
  | [], cd => pure (true, cd)
  | (link, perm) :: ss, cd => do
    match ← cellReg chain link stat with
    | none => pure (false, cd)
    | some c =>
      if (c :: cd.cells).length > 1 then do
        let ps ← pairAll c (c :: cd.cells) perm
        chainReg chain stat ss ⟨c :: cd.cells, ps ++ cd.pairs⟩
      else chainReg chain stat ss ⟨c :: cd.cells, cd.pairs⟩

/-- The pairs that are purged are released, the others stay (src/rk_cd.c:228-241, 248-258, 325-334).  `f` is the condition; it is
evaluated on the cells of the pair. -/
def purgePairs (cd : CD) (f : Cell → Cell → Bool) : List CPair → M (List CPair)
  | [] => pure []
  | p :: ps => do
    let a ← cd.getCell p.c0
    let b ← cd.getCell p.c1
    if f a b then do
      freePair p
      purgePairs cd f ps
    else do
      let r ← purgePairs cd f ps
      pure (p :: r)

/-- The cells of a chain are released, src/rk_cd.c:335-344. -/
def purgeCells (chain : ℕ) : List Cell → M (List Cell)
  | [] => pure []
  | c :: cs =>
    if c.chain == chain then do
      freeCell c
      purgeCells chain cs
    else do
      let r ← purgeCells chain cs
      pure (c :: r)

/-- `rkCDChainUnreg`, src/rk_cd.c:320-345. -/
def chainUnreg (chain : ℕ) (cd : CD) : M CD := do
  let ps ← purgePairs cd (fun a b => a.chain == chain || b.chain == chain) cd.pairs
  let cs ← purgeCells chain cd.cells
  pure ⟨cs, ps⟩

/-- Whether two cells belong to the two links, src/rk_cd.c:211-214. -/
def between (l1 l2 : ℕ) (a b : Cell) : Bool := (a.link == l1 && b.link == l2) || (a.link == l2 && b.link == l1)

/-- `rkCDPairUnreg`, src/rk_cd.c:223-242. -/
def pairUnreg (l1 l2 : ℕ) (cd : CD) : M CD := do
  let ps ← purgePairs cd (between l1 l2) cd.pairs
  pure { cd with pairs := ps }

/-- `rkCDPairChainUnreg`, src/rk_cd.c:244-259. -/
def pairChainUnreg (chain : ℕ) (cd : CD) : M CD := do
  let ps ← purgePairs cd (fun a b => a.chain == chain && b.chain == chain) cd.pairs
  pure { cd with pairs := ps }

/-- Whether some pair is between the two links, src/rk_cd.c:210-215. -/
def anyPair (cd : CD) (l1 l2 : ℕ) : List CPair → M Bool
  | [] => pure false
  | p :: ps => do
    let a ← cd.getCell p.c0
    let b ← cd.getCell p.c1
    if between l1 l2 a b then pure true else anyPair cd l1 l2 ps

/-- The inner loop of `rkCDPairReg`, src/rk_cd.c:218-221: the new pairs, the last one first; a denied request is ignored. -/
def pairInner (l1 l2 : ℕ) (a : Cell) : List Cell → M (List CPair)
  | [] => pure []
  | b :: bs =>
    if between l1 l2 a b then do
      match ← alloc with
      | none => pairInner l1 l2 a bs
      | some n => do
        let ps ← pairInner l1 l2 a bs
        pure (ps ++ [⟨n, a.blk, b.blk, [], [], none⟩])
    else pairInner l1 l2 a bs

/-- The outer loop, src/rk_cd.c:217. -/
def pairOuter (l1 l2 : ℕ) : List Cell → M (List CPair)
  | [] => pure []
  | a :: as => do
    let ps ← pairInner l1 l2 a as
    let qs ← pairOuter l1 l2 as
    pure (qs ++ ps)

/-- `rkCDPairReg`, src/rk_cd.c:205-221. -/
def pairReg (l1 l2 : ℕ) (cd : CD) : M CD := do
  let any ← anyPair cd l1 l2 cd.pairs
  if any then pure cd
  else do
    let ps ← pairOuter l1 l2 cd.cells
    pure { cd with pairs := ps ++ cd.pairs }

/-- `rkCDReset`, src/rk_cd.c:183-198, for the pairs. -/
def resetPairs : List CPair → M (List CPair)
  | [] => pure []
  | p :: ps => do
    IK.freeAll p.planes
    free p.vol
    let r ← resetPairs ps
    pure ({ p with planes := [], vol := none } :: r)

/-- `rkCDReset`, src/rk_cd.c:183-198. -/
def reset (cd : CD) : M CD := do
  let ps ← resetPairs cd.pairs
  pure { cd with pairs := ps }

/-- `_rkCDVertReg` for the vertices found inside, src/rk_cd.c:430-484, 494-503.  `a` and `b` are the two cells.  A vertex without
normal is released again; a denied request is ignored. -/
def vertRegs (a b : Cell) : List (Bool × Bool) → M (List CVert)
  | [] => pure []
  | (second, kept) :: l => do
    match ← alloc with
    | none => vertRegs a b l
    | some v => do
      deref a.ph
      deref b.ph
      if kept then do
        let r ← vertRegs a b l
        pure (r ++ [⟨v, if second then b.ph else a.ph⟩])
      else do
        free (some v)
        vertRegs a b l

/-- `_rkCDPairColChkVert`, src/rk_cd.c:487-510, after the update of the polyhedra (src/rk_cd.c:520-521). -/
def pairVert (cd : CD) (o : Outcome) (p : CPair) : M CPair := do
  let a ← cd.getCell p.c0
  let b ← cd.getCell p.c1
  deref a.ph
  deref b.ph
  let vs ← vertRegs a b o.verts
  IK.freeAll (p.verts.map (·.blk))
  pure { p with verts := vs }

/-- The release of the contact vertices of a pair without collision, src/rk_cd.c:523-526. -/
def dropVerts (p : CPair) : M CPair := do
  IK.freeAll (p.verts.map (·.blk))
  pure { p with verts := [] }

/-- `_rkCDColVol` for a pair, src/rk_cd.c:588-605; the volume is written over the former one. -/
def pairVol (cd : CD) (o : Outcome) (p : CPair) : M CPair := do
  let a ← cd.getCell p.c0
  let b ← cd.getCell p.c1
  deref a.ph
  deref b.ph
  if o.vol then do
    let v ← alloc
    pure { p with vol := v }
  else pure p

/-- `_rkCDPairColVolBREP`, src/rk_cd.c:662-698: as before, and a volume that is not sound is destroyed. -/
def pairBREP (cd : CD) (o : Outcome) (p : CPair) : M CPair := do
  let a ← cd.getCell p.c0
  let b ← cd.getCell p.c1
  deref a.ph
  deref b.ph
  if o.vol then do
    let v ← alloc
    if o.sound then pure { p with vol := v }
    else do
      free v
      pure { p with vol := none }
  else pure p

/-- The queries of src/rk_cd.c: those that only compare (`rkCDColChkAABB`, `rkCDColChkOBB`, `rkCDColChkGJK`, `rkCDColChkGJKOnly`),
`rkCDColChkVert`, `rkCDColVol`, `rkCDColVolBREP`, `rkCDColVolBREPFast` and `rkCDColVolBREPVert`.  (`rkCDColChkOBBVert` is `obbVert` below.) -/
inductive Query | check | vert | vol | brep | fast | brepVert
deriving DecidableEq

/-- What a query does to a pair after the test of the boxes (src/rk_cd.c:378-395, 517-527, 585-606, 704-712, 720-748, 767-780). -/
def queryPair (cd : CD) (q : Query) (o : Outcome) (p : CPair) : M CPair :=
  match q with
  | .check => do
    let a ← cd.getCell p.c0
    let b ← cd.getCell p.c1
    deref a.ph
    deref b.ph
    pure p
  | .vert => if o.col then pairVert cd o p else dropVerts p
  | .vol => if o.col then pairVol cd o p else pure p
  | .brep => if o.col then pairBREP cd o p else pure p
  | .fast => if o.col then pairVol cd o p else pure p
  | .brepVert => if o.col then (if o.rigid then pairBREP cd o p else pairVert cd o p) else dropVerts p

/-- All pairs in turn. -/
def queryPairs (cd : CD) (q : Query) : List CPair → List Outcome → M (List CPair)
  | [], _ => pure []
  | p :: ps, os => do
    let p' ← queryPair cd q (os.headD Outcome.none) p
    let r ← queryPairs cd q ps os.tail
    pure (p' :: r)

/-- A query: the reset of `rkCDColChkAABB` (src/rk_cd.c:386-391) or `rkCDColChkGJKOnly` (src/rk_cd.c:410), then the pairs. -/
def query (q : Query) (os : List Outcome) (cd : CD) : M CD := do
  let cd ← reset cd
  let ps ← queryPairs cd q cd.pairs os
  pure { cd with pairs := ps }

/-- The polyhedron of a cell is replaced by its bounding box (src/rk_cd.c:545-548). -/
def reshape (cd : CD) (b : ℕ) : M CD := do
  let c ← cd.getCell b
  free c.ph
  let p ← alloc
  pure { cd with cells := cd.cells.map fun d => if d.blk = b then { d with ph := p } else d }

/-- `_rkCDColChkOBBVert`, src/rk_cd.c:535-570.  The polyhedra of the two cells of each colliding pair are replaced in turn.
(Simplification: both are released, then both made; here one after the other.) -/
def obbPairs : List CPair → List Outcome → CD → M (CD × List CPair)
  | [], _, cd => pure (cd, [])
  | p :: ps, os, cd =>
    if (os.headD Outcome.none).col then do
      let cd ← reshape cd p.c0
      let cd ← reshape cd p.c1
      let a ← cd.getCell p.c0
      let b ← cd.getCell p.c1
      let vs ← vertRegs a b (os.headD Outcome.none).verts
      IK.freeAll (p.verts.map (·.blk))
      let (cd', r) ← obbPairs ps os.tail cd
      pure (cd', { p with verts := vs } :: r)
    else do
      let p' ← dropVerts p
      let (cd', r) ← obbPairs ps os.tail cd
      pure (cd', p' :: r)

/-- `rkCDColChkOBBVert`, src/rk_cd.c:573-577. -/
def obbVert (os : List Outcome) (cd : CD) : M CD := do
  let cd ← reset cd
  let (cd', ps) ← obbPairs cd.pairs os cd
  pure { cd' with pairs := ps }

/-- A plane is added to the list of planes of a pair by the user of the detector; nothing happens if there is no such pair or
the request is denied. -/
def addPlane (i : ℕ) (cd : CD) : M CD :=
  match cd.pairs[i]? with
  | none => pure cd
  | some p => do
    match ← alloc with
    | none => pure cd
    | some b => pure { cd with pairs := cd.pairs.set i { p with planes := b :: p.planes } }

/-- The calls. -/
inductive Op
  | chainReg (chain : ℕ) (stat : Bool) (shapes : List (ℕ × List Bool))
  | chainUnreg (chain : ℕ)
  | pairReg (l1 l2 : ℕ)
  | pairUnreg (l1 l2 : ℕ)
  | pairChainUnreg (chain : ℕ)
  | reset
  | query (q : Query) (os : List Outcome)
  | addPlane (i : ℕ)
  | destroy

/-- The effect of a call. -/
def step (cd : CD) : Op → M CD
  | .chainReg c s l => do
    let r ← chainReg c s l cd
    pure r.2
  | .chainUnreg c => chainUnreg c cd
  | .pairReg a b => pairReg a b cd
  | .pairUnreg a b => pairUnreg a b cd
  | .pairChainUnreg c => pairChainUnreg c cd
  | .reset => reset cd
  | .query q os => query q os cd
  | .addPlane i => addPlane i cd
  | .destroy => destroy cd

/-- A sequence of calls. -/
def run : List Op → CD → M CD
  | [], cd => pure cd
  | o :: os, cd => do
    let cd' ← step cd o
    run os cd'

end CD

end Roki.Mem
