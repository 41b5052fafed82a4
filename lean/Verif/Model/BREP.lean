import Verif.Model.Zm
import Mathlib.Algebra.Order.Field.Basic
import Mathlib.Data.List.ReduceOption
set_option autoImplicit false

/-!
# Boundary representations

Functional model of src/rk_cd_brep.c and src/rk_cd_brep_trunc.c.

Cells of the vertex, edge and face lists are numbered in the order of their allocation; a pointer to a cell is its number, and
a freed cell is `none`.  All loops of the code run over the cells of a list with `zListForEach` (Zeda: from the tail, the oldest
cell of a list filled with `zListInsertHead`, to the head), and no result depends on that order except the search of a vertex or
an edge, which meets the oldest cell first.  Reading a freed or a missing cell is undefined: the functions of the model return
`none`.  Allocation never fails in the model.
-/

namespace Roki.Brep
variable {K : Type*}

/-- Three cell numbers, `v[3]`, `e[3]` of `rkBREPFace`, include/roki/rk_cd_brep.h:66-71. -/
structure T3 where
  a : ℕ
  b : ℕ
  c : ℕ
deriving DecidableEq, Repr

/-- `x[i]`, include/roki/rk_cd_brep.h:66-71. -/
def T3.get (t : T3) : Fin 3 → ℕ
  | 0 => t.a
  | 1 => t.b
  | 2 => t.c

/-- `x[i] = n`, include/roki/rk_cd_brep.h:66-71. -/
def T3.put (t : T3) (i : Fin 3) (n : ℕ) : T3 :=
  match i with
  | 0 => { t with a := n }
  | 1 => { t with b := n }
  | 2 => { t with c := n }

/-- `rkBREPVert`, include/roki/rk_cd_brep.h:19-24.  `p` is the vector the member `p` points at, `ps` the member `_ps`.  The
member `_p` is only used inside `rkBREP2PH3D` and as a mark. -/
structure Vert (K : Type*) where
  p : Vec3 K
  ps : Vec3 K
  d : K
  org : Bool
  discard : Bool
deriving DecidableEq, Repr

/-- `rkBREPEdge`, include/roki/rk_cd_brep.h:43-47; `o0`, `o1` are `_v0[0]`, `_v0[1]` and `cut` is `_v`. -/
structure Edge where
  v0 : ℕ
  v1 : ℕ
  o0 : ℕ
  o1 : ℕ
  cut : Option ℕ
  org : Bool
  discard : Bool
deriving DecidableEq, Repr

/-- `rkBREPFace`, include/roki/rk_cd_brep.h:66-71; `ov`, `oe` are `_v0`, `_e0`.  The normal vector is never read. -/
structure Face where
  v : T3
  ov : T3
  e : T3
  oe : T3
  org : Bool
  discard : Bool
deriving DecidableEq, Repr

/-- `rkBREP`, include/roki/rk_cd_brep.h:79-84. -/
structure BREP (K : Type*) where
  vs : List (Option (Vert K))
  es : List (Option Edge)
  fs : List (Option Face)
  discard : ℕ
deriving DecidableEq, Repr

/-- Dereferencing a cell, e.g. src/rk_cd_brep_trunc.c:45. -/
def at? {α : Type*} (l : List (Option α)) (i : ℕ) : Option α := l[i]?.join

/-- `zPlane3D` (Zeo). -/
structure Plane (K : Type*) where
  vert : Vec3 K
  norm : Vec3 K
deriving DecidableEq, Repr

/-- `zTri3D` (Zeo), the three vertices. -/
structure Tri (K : Type*) where
  a : Vec3 K
  b : Vec3 K
  c : Vec3 K
deriving DecidableEq, Repr

/-- `zPH3D` (Zeo): vertices and faces. -/
structure PH (K : Type*) where
  vert : List (Vec3 K)
  face : List (Tri K)
deriving DecidableEq, Repr

/-- `rkBREPInit`, src/rk_cd_brep.c:19-24; the member `discard` is not initialised there, zero is taken. -/
def init : BREP K := ⟨[], [], [], 0⟩

section conv
variable [Field K] [Zm K]

/-- `zVec3DEqual` (Zeo): the components differ by tiny amounts. -/
def veq (v w : Vec3 K) : Bool := Zm.tiny (v.x - w.x) && Zm.tiny (v.y - w.y) && Zm.tiny (v.z - w.z)

/-- `rkBREPVertListFind`, src/rk_cd_brep.c:27-34. -/
def vertFind (vs : List (Option (Vert K))) (v : Vec3 K) : Option ℕ :=
  vs.findIdx? fun o => match o with | some c => veq c.p v | none => false

/-- `_rkBREPVertListFindnReg`, src/rk_cd_brep.c:37-51. -/
def vertFindReg (vs : List (Option (Vert K))) (v : Vec3 K) : ℕ × List (Option (Vert K)) :=
  match vertFind vs v with
  | some i => (i, vs)
  | none => (vs.length, vs ++ [some { p := v, ps := 0, d := 0, org := true, discard := false }])

/-- `rkBREPEdgeListFind`, src/rk_cd_brep.c:54-62. -/
def edgeFind (es : List (Option Edge)) (v1 v2 : ℕ) : Option ℕ :=
  es.findIdx? fun o => match o with
    | some e => (e.v0 == v1 && e.v1 == v2) || (e.v0 == v2 && e.v1 == v1)
    | none => false

/-- `_rkBREPEdgeListFindnReg`, src/rk_cd_brep.c:65-81. -/
def edgeFindReg (es : List (Option Edge)) (v1 v2 : ℕ) : ℕ × List (Option Edge) :=
  match edgeFind es v1 v2 with
  | some i => (i, es)
  | none => (es.length, es ++
      [some { v0 := v1, v1 := v2, o0 := v1, o1 := v2, cut := none, org := true, discard := false }])

/-- `_rkBREPFaceInsert`, src/rk_cd_brep.c:84-107. -/
def faceInsert (t : Tri K) (b : BREP K) : BREP K :=
  let r0 := vertFindReg b.vs t.a
  let r1 := vertFindReg r0.2 t.b
  let r2 := vertFindReg r1.2 t.c
  let v : T3 := ⟨r0.1, r1.1, r2.1⟩
  let s0 := edgeFindReg b.es v.b v.c
  let s1 := edgeFindReg s0.2 v.c v.a
  let s2 := edgeFindReg s1.2 v.a v.b
  let e : T3 := ⟨s0.1, s1.1, s2.1⟩
  { b with
    vs := r2.2, es := s2.2,
    fs := b.fs ++ [some { v := v, ov := v, e := e, oe := e, org := true, discard := false }] }

/-- `rkPH3D2BREP`, src/rk_cd_brep.c:115-129. -/
def ofPH (ph : PH K) : BREP K := ph.face.foldl (fun b t => faceInsert t b) init

/-- `rkPH3D2BREPInBox`, src/rk_cd_brep.c:132-147; `inBox` is `zColChkTriAABox3D` (Zeo).  The lists are not initialised. -/
def ofPHInBox (inBox : Tri K → Bool) (ph : PH K) (b : BREP K) : BREP K :=
  ph.face.foldl (fun b t => if inBox t then faceInsert t b else b) b

/-- What `zVec3DCopy( &vp->data.p, zPH3DVert(ph,i) )` of src/rk_cd_brep.c:162 copies.  The first argument is the address of the
member `p`, itself a pointer, so that the bytes of the pointer become the first component and the head of the next member `_ps`
the others; `ptr` stands for the bytes of pointers read as numbers. -/
def copied (ptr : ℕ → K) (i : ℕ) (v : Vert K) : Vec3 K := ⟨ptr i, v.ps.x, v.ps.y⟩

/-- `rkBREP2PH3D`, src/rk_cd_brep.c:150-174. -/
def toPH (ptr : ℕ → K) (b : BREP K) : Option (PH K) :=
  (b.fs.reduceOption.mapM fun (f : Face) =>
    match at? b.vs f.v.a, at? b.vs f.v.b, at? b.vs f.v.c with
    | some x, some y, some z => some (⟨copied ptr f.v.a x, copied ptr f.v.b y, copied ptr f.v.c z⟩ : Tri K)
    | _, _, _ => none).map fun fs =>
  ⟨(b.vs.mapIdx fun i (o : Option (Vert K)) => o.map (copied ptr i)).reduceOption, fs⟩

/-- `rkBREPReset`, src/rk_cd_brep.c:185-225. -/
def reset (b : BREP K) : BREP K where
  vs := b.vs.map fun o => o.bind fun v => if v.org then some { v with d := 0, discard := false } else none
  es := b.es.map fun o => o.bind fun e =>
    if e.org then some { e with v0 := e.o0, v1 := e.o1, cut := none, discard := false } else none
  fs := b.fs.map fun o => o.bind fun f => if f.org then some { f with v := f.ov, e := f.oe, discard := false } else none
  discard := 0

end conv

section trunc
variable [Field K] [LinearOrder K] [Zm K]

/-- The signed distance with tiny values taken as zero, src/rk_cd_brep_trunc.c:28-30. -/
def dist (pl : Plane K) (p : Vec3 K) : K :=
  let d := dot (p - pl.vert) pl.norm
  if Zm.tiny d then 0 else d

/-- `_rkBREPTruncBBCheck`, src/rk_cd_brep_trunc.c:20-34, the update of the vertices. -/
def bbCheck (pl : Plane K) (vs : List (Option (Vert K))) : List (Option (Vert K)) :=
  vs.map fun o => o.map fun v => if v.discard then v else { v with d := dist pl v.p }

/-- `_rkBREPTruncBBCheck`, src/rk_cd_brep_trunc.c:20-34, the value returned, for updated vertices. -/
def bbCount (vs : List (Option (Vert K))) : ℕ :=
  vs.countP fun o => match o with | some v => !v.discard && decide (0 < v.d) | none => false

/-- `zVec3DInterDiv` (Zeo). -/
def interDiv (v w : Vec3 K) (r : K) : Vec3 K := v + r • (w - v)

/-- The vertex cell made at src/rk_cd_brep_trunc.c:45-57. -/
def cutVert (a b : Vert K) : Vert K :=
  let p := interDiv a.p b.p (|a.d| / (|a.d| + |b.d|))
  { p := p, ps := p, d := 0, org := false, discard := false }

/-- `_rkBREPTruncIntersect`, src/rk_cd_brep_trunc.c:37-62. -/
def intersect : List (Option Edge) → List (Option (Vert K)) → Option (List (Option Edge) × List (Option (Vert K)))
  | [], vs => some ([], vs)
  | none :: es, vs => (intersect es vs).map fun r => (none :: r.1, r.2)
  | some e :: es, vs =>
    if e.discard then (intersect es vs).map fun r => (some e :: r.1, r.2)
    else match at? vs e.v0, at? vs e.v1 with
      | some a, some b =>
        if a.d * b.d < 0 then
          (intersect es (vs ++ [some (cutVert a b)])).map fun r => (some { e with cut := some vs.length } :: r.1, r.2)
        else (intersect es vs).map fun r => (some e :: r.1, r.2)
      | _, _ => none

/-- `f->e[i]->data._v` as used in src/rk_cd_brep_trunc.c:65-145.  A null pointer stored as a vertex is dereferenced later, so it
is taken as undefined here. -/
def cutOf (b : BREP K) (f : Face) (i : Fin 3) : Option ℕ := (at? b.es (f.e.get i)).bind fun e => e.cut

/-- A new edge cell, src/rk_cd_brep_trunc.c:80-82. -/
def newEdge (v0 v1 : ℕ) : Edge := { v0 := v0, v1 := v1, o0 := 0, o1 := 0, cut := none, org := false, discard := false }

/-- `_rkBREPTruncFaceA`, src/rk_cd_brep_trunc.c:65-104, on the face number `n`. -/
def truncFaceA (b : BREP K) (n : ℕ) (f : Face) (i1 i2 i3 : Fin 3) : Option (BREP K) :=
  (cutOf b f i2).bind fun p2 => (cutOf b f i3).map fun p3 =>
    let e4 := b.es.length
    let e5 := b.es.length + 1
    let up : Face :=
      { v := ⟨f.v.get i2, p2, p3⟩, e := ⟨e4, f.e.get i3, e5⟩, ov := ⟨0, 0, 0⟩, oe := ⟨0, 0, 0⟩, org := false,
        discard := false }
    let lo : Face := { f with e := f.e.put i3 e5, v := f.v.put i1 p2 }
    { b with es := b.es ++ [some (newEdge p2 p3), some (newEdge p2 (f.v.get i2))],
             fs := (b.fs.set n (some lo)) ++ [some up] }

/-- `_rkBREPTruncFaceV`, src/rk_cd_brep_trunc.c:107-125. -/
def truncFaceV (b : BREP K) (n : ℕ) (f : Face) (i1 i2 i3 : Fin 3) : Option (BREP K) :=
  (cutOf b f i3).bind fun p3 => (cutOf b f i2).map fun p2 =>
    let f' : Face := { f with e := f.e.put i1 b.es.length, v := (f.v.put i2 p3).put i3 p2 }
    { b with es := b.es ++ [some (newEdge p3 p2)], fs := b.fs.set n (some f') }

/-- `_rkBREPTruncFaceE`, src/rk_cd_brep_trunc.c:128-145. -/
def truncFaceE (b : BREP K) (n : ℕ) (f : Face) (i1 i2 i3 : Fin 3) : Option (BREP K) :=
  (cutOf b f i1).map fun p1 =>
    let f' : Face := { f with v := f.v.put i3 p1, e := f.e.put i2 b.es.length }
    { b with es := b.es ++ [some (newEdge (f.v.get i1) p1)], fs := b.fs.set n (some f') }

/-- `__z_brep_trunc_pat`, src/rk_cd_brep_trunc.c:203. -/
def pat (d : K) : ℕ := if d < 0 then 3 else if 0 < d then 1 else 0

/-- `_rkBREPTruncFace`, src/rk_cd_brep_trunc.c:204-234; `none` also stands for the failure of the default case. -/
def truncFace (b : BREP K) (n : ℕ) (f : Face) : Option (BREP K) :=
  match at? b.vs f.v.a, at? b.vs f.v.b, at? b.vs f.v.c with
  | some x, some y, some z =>
    match pat x.d ||| pat y.d <<< 2 ||| pat z.d <<< 4 with
    | 0x01 | 0x04 | 0x05 | 0x10 | 0x11 | 0x14 | 0x15 => some { b with fs := b.fs.set n (some { f with discard := true }) }
    | 0x00 | 0x03 | 0x0c | 0x0f | 0x30 | 0x33 | 0x3c | 0x3f => some b
    | 0x1f => truncFaceA b n f 2 0 1
    | 0x37 => truncFaceA b n f 1 2 0
    | 0x3d => truncFaceA b n f 0 1 2
    | 0x07 => truncFaceE b n f 2 0 1
    | 0x0d => truncFaceE b n f 2 1 0
    | 0x13 => truncFaceE b n f 1 0 2
    | 0x1c => truncFaceE b n f 0 1 2
    | 0x31 => truncFaceE b n f 1 2 0
    | 0x34 => truncFaceE b n f 0 2 1
    | 0x17 => truncFaceV b n f 0 1 2
    | 0x1d => truncFaceV b n f 1 2 0
    | 0x35 => truncFaceV b n f 2 0 1
    | _ => none
  | _, _, _ => none

/-- One turn of the loop over the faces, src/rk_cd_brep_trunc.c:244-245. -/
def truncStep (b : BREP K) (n : ℕ) : Option (BREP K) :=
  match at? b.fs n with
  | none => some b
  | some f => if f.discard then some b else truncFace b n f

/-- The loop over the faces, src/rk_cd_brep_trunc.c:244-245.  Faces made on the way are inserted at the tail, behind the loop
variable, and not visited. -/
def truncFaces (b : BREP K) : Option (BREP K) := (List.range b.fs.length).foldlM truncStep b

/-- `_rkBREPTruncEdgeShrink`, src/rk_cd_brep_trunc.c:148-160, one edge. -/
def shrink1 (vs : List (Option (Vert K))) (e : Edge) : Option Edge :=
  if e.discard then some e
  else match e.cut with
    | none => some e
    | some c => (at? vs e.v0).map fun a =>
      if 0 < a.d then { e with v0 := c, cut := none } else { e with v1 := c, cut := none }

/-- `_rkBREPTruncEdgeShrink`, src/rk_cd_brep_trunc.c:148-160. -/
def edgeShrink (vs : List (Option (Vert K))) (es : List (Option Edge)) : Option (List (Option Edge)) :=
  es.mapM fun o => match o with
    | none => some none
    | some e => (shrink1 vs e).map some

/-- The marks set at src/rk_cd_brep_trunc.c:177-183: vertices. -/
def usedV (fs : List (Option Face)) (i : ℕ) : Bool :=
  fs.any fun o => match o with | some f => !f.discard && (f.v.a == i || f.v.b == i || f.v.c == i) | none => false

/-- The marks set at src/rk_cd_brep_trunc.c:177-183: edges. -/
def usedE (fs : List (Option Face)) (i : ℕ) : Bool :=
  fs.any fun o => match o with | some f => !f.discard && (f.e.a == i || f.e.b == i || f.e.c == i) | none => false

/-- Whether the marking loop dereferences live cells only, src/rk_cd_brep_trunc.c:177-183. -/
def markable (b : BREP K) : Bool :=
  b.fs.all fun o => match o with
    | some f => f.discard || ((at? b.vs f.v.a).isSome && (at? b.vs f.v.b).isSome && (at? b.vs f.v.c).isSome &&
        (at? b.es f.e.a).isSome && (at? b.es f.e.b).isSome && (at? b.es f.e.c).isSome)
    | none => true

/-- `_rkBREPTruncGR`, src/rk_cd_brep_trunc.c:163-200. -/
def gr (b : BREP K) : Option (BREP K) :=
  if markable b then
    some { b with
      vs := b.vs.mapIdx fun i o => o.map fun v => if v.discard || usedV b.fs i then v else { v with discard := true }
      es := b.es.mapIdx fun i o => o.map fun e =>
        if e.discard then e else if usedE b.fs i then { e with cut := none } else { e with cut := none, discard := true }
      discard := b.discard +
        (b.vs.mapIdx fun i o => match o with | some v => !v.discard && !usedV b.fs i | none => false).count true }
  else none

/-- `rkBREPTrunc`, src/rk_cd_brep_trunc.c:238-251. -/
def trunc (b : BREP K) (pl : Plane K) : Option (BREP K) :=
  let vs := bbCheck pl b.vs
  if bbCount vs = 0 then some { b with vs := vs }
  else (intersect b.es vs).bind fun r =>
    (truncFaces { b with es := r.1, vs := r.2 }).bind fun b' =>
      (edgeShrink b'.vs b'.es).bind fun es => gr { b' with es := es }

/-- `rkBREPTruncPH3D`, src/rk_cd_brep_trunc.c:254-264; `pls` are the planes of the faces given by `zTri3DToPlane3D` (Zeo). -/
def truncPH (b : BREP K) (pls : List (Plane K)) : Option (BREP K) := pls.foldlM trunc b

end trunc
end Roki.Brep
