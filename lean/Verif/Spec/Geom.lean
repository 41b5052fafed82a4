import Verif.Model.Geom
import Verif.Spec.Kinematics
import Verif.Spec.Tree
import Mathlib.Analysis.Convex.Hull
set_option autoImplicit false

/-!
# Specification of the space that a chain occupies
-/

namespace Roki.Spec.Geom
open Roki.Geom
variable {K σ : Type*} [Field K] [LinearOrder K] [ShapeOps K σ]

/-- The points of shapes, and what the routines of Zeo do to them: a transformation by a rotation and a translation moves the points, the
vertices of a polyhedron are points of it and enclose it, and the vertices of the polyhedron that is made of another shape are points of the shape. -/
structure Solids (K σ : Type*) [Field K] [LinearOrder K] [ShapeOps K σ] where
  pts : σ → Set (Vec3 K)
  xform : ∀ (f : Frame K) (s : σ) (p : Vec3 K), f.att.IsRot → (p ∈ pts (ShapeOps.xform f s) ↔ ∃ q ∈ pts s, p = f.xform q)
  vert : ∀ (s : σ) (vs : List (Vec3 K)), ShapeOps.vert s = some vs → (∀ v ∈ vs, v ∈ pts s) ∧ pts s ⊆ convexHull K {v | v ∈ vs}
  toPH : ∀ (s : σ) (vs : List (Vec3 K)), ShapeOps.toPH s = some vs → ∀ v ∈ vs, v ∈ pts s

/-- The link `i` of the chain is at `f`, by the original frames and the joint displacements of the links on the path from the root. -/
def LinkAt (c : Chain K) (i : ℕ) (f : Frame K) : Prop :=
  ∃ (path : List ℕ) (ms : List (Link K)), IsPath c.shape (path ++ [i]) ∧ (path ++ [i]).map (fun j => c.link[j]?) = ms.map some ∧
    f = product (ms.map linkFrame)

/-- The point `p` of space is occupied by the chain. -/
def Occupies (S : Solids K σ) (c : Chain K) (shapes : List (List σ)) (p : Vec3 K) : Prop :=
  ∃ i f ss s, LinkAt c i f ∧ shapes[i]? = some ss ∧ s ∈ ss ∧ ∃ q ∈ S.pts s, p = f.xform q

/-- All shapes are polyhedra. -/
def Polyhedral (K : Type*) [ShapeOps K σ] (shapes : List (List σ)) : Prop :=
  ∀ ss ∈ shapes, ∀ s ∈ ss, (ShapeOps.vert (K := K) s).isSome

/-- A point is in a ball. -/
def InBall (b : Ball K) (p : Vec3 K) : Prop := dot (p - b.center) (p - b.center) ≤ b.radius ^ 2

/-- A routine that encloses points by a ball. -/
def Encloses (bball : List (Vec3 K) → Ball K) : Prop := ∀ l, ∀ v ∈ l, InBall (bball l) v

/-- The vertex `v`, at the distance `d`, is nearest to `p` of the vertices of the shapes. -/
def Nearest (verts : σ → List (Vec3 K)) (shapes : List σ) (p v : Vec3 K) (d : K) : Prop :=
  (∃ s ∈ shapes, v ∈ verts s) ∧ 0 ≤ d ∧ d ^ 2 = dot (v - p) (v - p) ∧ ∀ s ∈ shapes, ∀ w ∈ verts s, d ^ 2 ≤ dot (w - p) (w - p)

end Roki.Spec.Geom
