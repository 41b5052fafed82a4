import Verif.Model.BREP
set_option autoImplicit false

/-!
# Specification of boundary representations: triangles, surfaces, half spaces
-/

namespace Roki.Spec.Brep
open Roki.Brep
variable {K : Type*} [Field K] [LinearOrder K]

/-- The points of the closed triangle `abc`. -/
def InTri (a b c x : Vec3 K) : Prop :=
  ∃ s t u : K, 0 ≤ s ∧ 0 ≤ t ∧ 0 ≤ u ∧ s + t + u = 1 ∧ x = s • a + t • b + u • c

/-- The corners of a face. -/
def Corners (b : BREP K) (f : Face) (p q r : Vec3 K) : Prop :=
  ∃ x y z : Vert K, at? b.vs f.v.a = some x ∧ at? b.vs f.v.b = some y ∧ at? b.vs f.v.c = some z ∧
    p = x.p ∧ q = y.p ∧ r = z.p

/-- The surface of a boundary representation: the points of the faces that are not discarded. -/
def Surface (b : BREP K) (x : Vec3 K) : Prop :=
  ∃ f : Face, some f ∈ b.fs ∧ f.discard = false ∧ ∃ p q r, Corners b f p q r ∧ InTri p q r x

/-- Signed distance of a point from a plane, times the length of the normal vector. -/
def height (pl : Plane K) (x : Vec3 K) : K :=
  (x.x - pl.vert.x) * pl.norm.x + (x.y - pl.vert.y) * pl.norm.y + (x.z - pl.vert.z) * pl.norm.z

/-- The edge joins the two vertices, in either direction. -/
def Joins (e : Edge) (i j : ℕ) : Prop := (e.v0 = i ∧ e.v1 = j) ∨ (e.v0 = j ∧ e.v1 = i)

/-- The vertex is there and in use. -/
def VertUsed (b : BREP K) (i : ℕ) : Prop := ∃ v, at? b.vs i = some v ∧ v.discard = false

/-- A consistent boundary representation: every face in use has vertices in use and edges in use, the edge number `i` lying
opposite to the vertex number `i`; every edge in use joins vertices in use and is not marked as cut. -/
structure Consistent (b : BREP K) : Prop where
  vert : ∀ f, some f ∈ b.fs → f.discard = false → ∀ i, VertUsed b (f.v.get i)
  edge : ∀ f, some f ∈ b.fs → f.discard = false → ∀ i j k : Fin 3, i ≠ j → i ≠ k → j ≠ k →
    ∃ e, at? b.es (f.e.get i) = some e ∧ e.discard = false ∧ Joins e (f.v.get j) (f.v.get k)
  ends : ∀ e, some e ∈ b.es → e.discard = false → e.cut = none ∧ VertUsed b e.v0 ∧ VertUsed b e.v1

/-- Two positions that coincide within the tolerance of the code, component by component. -/
def Coincide [Zm K] (p q : Vec3 K) : Prop :=
  Zm.tiny (p.x - q.x) = true ∧ Zm.tiny (p.y - q.y) = true ∧ Zm.tiny (p.z - q.z) = true

/-- The corners of a triangle. -/
def corner (t : Tri K) : Fin 3 → Vec3 K
  | 0 => t.a
  | 1 => t.b
  | 2 => t.c

/-- A boundary representation that registers the triangles of `ts` without duplication. -/
structure Registers [Zm K] (ts : List (Tri K)) (b : BREP K) : Prop where
  /-- one face for each triangle, in order, with the three corners of the triangle -/
  faces : List.Forall₂ (fun t o => ∃ f : Face, o = some f ∧ f.discard = false ∧
    ∀ i, ∃ v, at? b.vs (f.v.get i) = some v ∧ Coincide v.p (corner t i)) ts b.fs
  /-- no position is registered twice -/
  vertOnce : ∀ i j u v, at? b.vs i = some u → at? b.vs j = some v → i < j → ¬ Coincide u.p v.p
  /-- no vertex but corners of triangles -/
  vertOnly : ∀ i v, at? b.vs i = some v → v.discard = false ∧ ∃ t ∈ ts, ∃ k, v.p = corner t k
  /-- no pair of vertices is joined twice -/
  edgeOnce : ∀ i j e e', at? b.es i = some e → at? b.es j = some e' → i ≠ j → ¬ Joins e e'.v0 e'.v1
  /-- no edge but sides of faces -/
  edgeOnly : ∀ i e, at? b.es i = some e → e.discard = false ∧ ∃ f, some f ∈ b.fs ∧ ∃ k, f.e.get k = i
  /-- the edges of a face are its sides -/
  consistent : Consistent b

end Roki.Spec.Brep
