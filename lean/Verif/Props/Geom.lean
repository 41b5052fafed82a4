import Verif.Spec.Geom
import Verif.Props.FK
import Mathlib.Analysis.Convex.Combination
import Mathlib.Tactic.NormNum.Ineq
set_option autoImplicit false

/-!
# C108: vertices and the bounding ball of a chain, the nearest vertex of a body
-/

namespace Roki
open Spec Spec.Geom Geom
variable {K σ : Type*} [Field K] [LinearOrder K] [IsStrictOrderedRing K] [ShapeOps K σ]

namespace Geom

omit [LinearOrder K] [IsStrictOrderedRing K] in
theorem vertShape_failed (f : Frame K) (st : VertState K) (s : σ) (h : st.failed = true) : vertShape f st s = st := by
  rw [vertShape, if_pos h]

omit [LinearOrder K] [IsStrictOrderedRing K] in
theorem vertShapes_failed (f : Frame K) : ∀ (ss : List σ) (st : VertState K), st.failed = true → ss.foldl (vertShape f) st = st := by
  intro ss
  induction ss with
  | nil => exact fun _ _ => rfl
  | cons s ss ih => intro st h; rw [List.foldl_cons, vertShape_failed f st s h, ih st h]

omit [LinearOrder K] [IsStrictOrderedRing K] in
theorem vertLinks_failed : ∀ (xs : List (Link K × List σ)) (st : VertState K), st.failed = true → xs.foldl vertLink st = st := by
  intro xs
  induction xs with
  | nil => exact fun _ _ => rfl
  | cons x xs ih => intro st h; rw [List.foldl_cons, vertLink, vertShapes_failed _ _ st h, ih st h]

/-- The vertices of a shape of a link at `f`. -/
def vertsOf (f : Frame K) (s : σ) : Option (List (Vec3 K)) :=
  match ShapeOps.vert (K := K) s with
  | some vs => some (vs.map f.xform)
  | none => ShapeOps.toPH (ShapeOps.xform f s)

omit [LinearOrder K] [IsStrictOrderedRing K] in
theorem vertShapes_ok (f : Frame K) : ∀ (ss : List σ) (st : VertState K), (ss.foldl (vertShape f) st).failed = false →
    st.failed = false ∧ (ss.foldl (vertShape f) st).clones = st.clones ∧
    (∀ v, v ∈ (ss.foldl (vertShape f) st).list ↔ v ∈ st.list ∨ ∃ s ∈ ss, ∃ vs, vertsOf f s = some vs ∧ v ∈ vs) ∧
    ∀ s ∈ ss, (vertsOf f s).isSome := by
  intro ss
  induction ss with
  | nil => intro st h; simpa using h
  | cons s ss ih =>
    intro st h
    rw [List.foldl_cons] at h ⊢
    obtain ⟨h1, h2, h3, h4⟩ := ih _ h
    have hst : st.failed = false := by
      by_contra hne
      rw [Bool.not_eq_false] at hne
      rw [vertShape_failed f st s hne, hne] at h1
      cases h1
    rw [vertShape, if_neg (by rw [hst]; decide)] at h1 h2 h3 h ⊢
    rcases hv : ShapeOps.vert (K := K) s with _ | vs
    · rcases hp : ShapeOps.toPH (K := K) (ShapeOps.xform f s) with _ | vs
      · simp only [hv, hp] at h1
        cases h1
      · have e : vertsOf f s = some vs := by simp only [vertsOf, hv, hp]
        simp only [hv, hp] at h1 h2 h3 h ⊢
        refine ⟨hst, h2, fun v => ?_, ?_⟩
        · rw [h3, List.mem_append, or_assoc]
          simp only [List.mem_cons, exists_eq_or_imp, e, Option.some.injEq, exists_eq_left']
        · intro s' hs'
          rcases List.mem_cons.1 hs' with rfl | hs'
          · rw [e]; rfl
          · exact h4 _ hs'
    · have e : vertsOf f s = some (vs.map f.xform) := by simp only [vertsOf, hv]
      simp only [hv] at h1 h2 h3 h ⊢
      refine ⟨hst, h2, fun v => ?_, ?_⟩
      · rw [h3, List.mem_append, or_assoc]
        simp only [List.mem_cons, exists_eq_or_imp, e, Option.some.injEq, exists_eq_left']
      · intro s' hs'
        rcases List.mem_cons.1 hs' with rfl | hs'
        · rw [e]; rfl
        · exact h4 _ hs'

omit [LinearOrder K] [IsStrictOrderedRing K] in
theorem vertLinks_ok : ∀ (xs : List (Link K × List σ)) (st : VertState K), (xs.foldl vertLink st).failed = false →
    st.failed = false ∧ (xs.foldl vertLink st).clones = st.clones ∧
    (∀ v, v ∈ (xs.foldl vertLink st).list ↔ v ∈ st.list ∨ ∃ x ∈ xs, ∃ s ∈ x.2, ∃ vs, vertsOf x.1.body.frame s = some vs ∧ v ∈ vs) := by
  intro xs
  induction xs with
  | nil => intro st h; simpa using h
  | cons x xs ih =>
    intro st h
    rw [List.foldl_cons] at h ⊢
    obtain ⟨h1, h2, h3⟩ := ih _ h
    obtain ⟨g1, g2, g3, -⟩ := vertShapes_ok _ _ _ h1
    refine ⟨g1, by rw [h2]; exact g2, fun v => ?_⟩
    rw [h3, vertLink, g3, or_assoc]
    simp only [List.mem_cons, exists_eq_or_imp]

omit [LinearOrder K] [IsStrictOrderedRing K] in
/-- The loops fail only on a shape that is not converted to a polyhedron. -/
theorem vertLinks_total : ∀ (xs : List (Link K × List σ)) (st : VertState K), st.failed = false →
    (∀ x ∈ xs, ∀ s ∈ x.2, (vertsOf x.1.body.frame s).isSome) → (xs.foldl vertLink st).failed = false := by
  have one : ∀ (f : Frame K) (ss : List σ) (st : VertState K), st.failed = false → (∀ s ∈ ss, (vertsOf f s).isSome) →
      (ss.foldl (vertShape f) st).failed = false := by
    intro f ss
    induction ss with
    | nil => exact fun _ h _ => h
    | cons s ss ih =>
      intro st h hs
      rw [List.foldl_cons]
      refine ih _ ?_ fun s' hs' => hs s' (List.mem_cons_of_mem _ hs')
      have := hs s (by simp)
      rw [vertsOf] at this
      rw [vertShape, if_neg (by rw [h]; decide)]
      rcases hv : ShapeOps.vert (K := K) s with _ | vs
      · rcases hp : ShapeOps.toPH (K := K) (ShapeOps.xform f s) with _ | vs
        · simp [hv, hp] at this
        · simpa only using h
      · simpa only using h
  intro xs
  induction xs with
  | nil => exact fun _ h _ => h
  | cons x xs ih =>
    intro st h hx
    rw [List.foldl_cons]
    exact ih _ (one _ _ _ h (hx x (by simp))) fun y hy => hx y (List.mem_cons_of_mem _ hy)

omit [LinearOrder K] [IsStrictOrderedRing K] in
theorem product_rot : ∀ {fs : List (Frame K)}, (∀ f ∈ fs, f.att.IsRot) → (product fs).att.IsRot := by
  intro fs
  induction fs with
  | nil => intro _; exact Mat3.isRot_one
  | cons f fs ih => intro h; exact (h f (by simp)).mul (ih fun g hg => h g (List.mem_cons_of_mem _ hg))

/-- A frame as an affine map. -/
def affine (f : Frame K) : Vec3 K →ᵃ[K] Vec3 K where
  toFun := f.xform
  linear :=
    { toFun := f.att.mulVec
      map_add' := fun a b => by ext1 <;> simp [Mat3.mulVec] <;> ring
      map_smul' := fun a b => by ext1 <;> simp [Mat3.mulVec] <;> ring }
  map_vadd' := fun p v => by ext1 <;> simp [Frame.xform, Mat3.mulVec] <;> ring

theorem hull_xform (f : Frame K) (vs : List (Vec3 K)) {q : Vec3 K} (h : q ∈ convexHull K {v | v ∈ vs}) :
    f.xform q ∈ convexHull K {v | v ∈ vs.map f.xform} := by
  have h1 : affine f q ∈ convexHull K (affine f '' {v | v ∈ vs}) := by
    rw [← AffineMap.image_convexHull]
    exact ⟨q, h, rfl⟩
  refine convexHull_mono ?_ h1
  rintro _ ⟨v, hv, rfl⟩
  exact List.mem_map.2 ⟨v, hv, rfl⟩

theorem ball_convex (b : Ball K) : Convex K {p | InBall b p} := by
  intro p hp q hq s t hs ht hst
  simp only [Set.mem_setOf_eq, InBall] at hp hq ⊢
  have e : s • p + t • q - b.center = s • (p - b.center) + t • (q - b.center) := by
    have : t = 1 - s := by linarith
    subst this
    ext1 <;> simp <;> ring
  rw [e]
  set a := p - b.center
  set c := q - b.center
  have h1 : dot (s • a + t • c) (s • a + t • c) = s * dot a a + t * dot c c - s * t * dot (a - c) (a - c) := by
    have : t = 1 - s := by linarith
    subst this
    simp [dot]; ring
  have h2 : 0 ≤ dot (a - c) (a - c) := by
    have := mul_self_nonneg (a - c).x
    have := mul_self_nonneg (a - c).y
    have := mul_self_nonneg (a - c).z
    simp only [dot]; linarith
  have h3 : 0 ≤ s * t * dot (a - c) (a - c) := mul_nonneg (mul_nonneg hs ht) h2
  rw [h1]
  have h4 : s * dot a a ≤ s * b.radius ^ 2 := mul_le_mul_of_nonneg_left hp hs
  have h5 : t * dot c c ≤ t * b.radius ^ 2 := mul_le_mul_of_nonneg_left hq ht
  have h6 : s * b.radius ^ 2 + t * b.radius ^ 2 = b.radius ^ 2 := by rw [← add_mul, hst, one_mul]
  linarith

omit [LinearOrder K] [IsStrictOrderedRing K] [ShapeOps K σ] in
/-- Where the links are after `rkChainUpdateFK`. -/
theorem linkAt_iff {c c' : Chain K} (w : c.WF) (h : c.updateFK = some c') {i : ℕ} {l : Link K} (hl : c'.link[i]? = some l) (f : Frame K) :
    LinkAt c i f ↔ f = l.body.frame := by
  obtain ⟨c'', e, -, hmap, hpath, hall⟩ := C06_fk_composition c w
  rw [h] at e
  cases e
  have hlen : c'.link.length = c.link.length := by
    have := congrArg List.length hmap
    simpa using this
  have hi : i < c.link.length := by rw [← hlen]; exact (List.getElem?_eq_some_iff.1 hl).1
  constructor
  · rintro ⟨path, ms, h1, h2, rfl⟩
    obtain ⟨⟨ms', h3, h4⟩, -⟩ := hall path i l h1 hl
    rw [h2] at h3
    rw [h4, List.map_injective_iff.2 (Option.some_injective _) h3]
  · rintro rfl
    obtain ⟨path, hp⟩ := hpath i hi
    obtain ⟨⟨ms, h3, h4⟩, -⟩ := hall path i l hp hl
    exact ⟨path, ms, hp, h3, h4⟩

end Geom

/-- C108, vertices: after `rkChainUpdateFK`, `rkChainVertList` succeeds unless a shape is not converted to a polyhedron.  It returns points that the
chain occupies only, leaves no clone behind, and if all shapes are polyhedra, all vertices are in the list where the pose puts them, and every point that the chain
occupies is enclosed by them. -/
theorem C108_vertices (S : Solids K σ) (c c' : Chain K) (w : c.WF) (h : c.updateFK = some c') (hrot : ∀ l ∈ c.link, (linkFrame l).att.IsRot)
    (shapes : List (List σ)) (hlen : shapes.length = c.link.length) :
    ((∀ ss ∈ shapes, ∀ s ∈ ss, ShapeOps.vert (K := K) s = none → ∀ f : Frame K, (ShapeOps.toPH (K := K) (ShapeOps.xform f s)).isSome) →
      (vertList c' shapes).failed = false) ∧
    ((vertList c' shapes).failed = false → (vertList c' shapes).clones = 0 ∧ ∀ v ∈ (vertList c' shapes).list, Occupies S c shapes v) ∧
    (Polyhedral K shapes → (vertList c' shapes).failed = false ∧
      (∀ (i : ℕ) f ss s vs, LinkAt c i f → shapes[i]? = some ss → s ∈ ss → ShapeOps.vert (K := K) s = some vs → ∀ v ∈ vs,
        f.xform v ∈ (vertList c' shapes).list) ∧
      ∀ p, Occupies S c shapes p → p ∈ convexHull K {v | v ∈ (vertList c' shapes).list}) := by
  have hlen' : c'.link.length = c.link.length := by
    obtain ⟨c'', e, -, hmap, -, -⟩ := C06_fk_composition c w
    rw [h] at e
    cases e
    have := congrArg List.length hmap
    simpa using this
  have hmem : ∀ (x : Link K × List σ), x ∈ c'.link.zip shapes ↔ ∃ i : ℕ, c'.link[i]? = some x.1 ∧ shapes[i]? = some x.2 := by
    intro x
    rw [List.mem_iff_getElem?]
    simp only [List.getElem?_zip_eq_some]
  have hfr : ∀ (i : ℕ) (l : Link K), c'.link[i]? = some l → l.body.frame.att.IsRot := by
    intro i l hl
    obtain ⟨path, ms, -, h2, h3⟩ := (linkAt_iff w h hl l.body.frame).2 rfl
    rw [h3]
    refine product_rot ?_
    intro f hf
    obtain ⟨m, hm, rfl⟩ := List.mem_map.1 hf
    have : some m ∈ (path ++ [i]).map (fun j => c.link[j]?) := by rw [h2]; exact List.mem_map.2 ⟨m, hm, rfl⟩
    obtain ⟨j, -, hj⟩ := List.mem_map.1 this
    exact hrot m (List.mem_of_getElem? hj)
  refine ⟨fun hp => ?_, fun hok => ?_, fun hp => ?_⟩
  · refine vertLinks_total _ _ rfl ?_
    intro x hx s hs
    obtain ⟨i, -, hx2⟩ := (hmem x).1 hx
    rw [vertsOf]
    rcases hv : ShapeOps.vert (K := K) s with _ | vs
    · exact hp _ (List.mem_of_getElem? hx2) s hs hv _
    · rfl
  · obtain ⟨-, h2, h3⟩ := vertLinks_ok _ _ hok
    refine ⟨h2, fun v hv => ?_⟩
    rcases (h3 v).1 hv with hv | ⟨x, hx, s, hs, vs, hvs, hv⟩
    · cases hv
    · obtain ⟨i, hx1, hx2⟩ := (hmem x).1 hx
      have key : ∃ q ∈ S.pts s, v = x.1.body.frame.xform q := by
        rw [vertsOf] at hvs
        rcases hsv : ShapeOps.vert (K := K) s with _ | us
        · simp only [hsv] at hvs
          exact (S.xform _ s v (hfr i _ hx1)).1 (S.toPH _ _ hvs v hv)
        · simp only [hsv, Option.some.injEq] at hvs
          subst hvs
          obtain ⟨q, hq, rfl⟩ := List.mem_map.1 hv
          exact ⟨q, (S.vert s us hsv).1 q hq, rfl⟩
      exact ⟨i, _, x.2, s, (linkAt_iff w h hx1 _).2 rfl, hx2, hs, key⟩
  · have hok : (vertList c' shapes).failed = false := by
      refine vertLinks_total _ _ rfl ?_
      intro x hx s hs
      obtain ⟨i, -, hx2⟩ := (hmem x).1 hx
      obtain ⟨vs, hv⟩ := Option.isSome_iff_exists.1 (hp _ (List.mem_of_getElem? hx2) s hs)
      simp only [vertsOf, hv, Option.isSome_some]
    obtain ⟨-, -, h3⟩ := vertLinks_ok _ _ hok
    have hall : ∀ (i : ℕ) f ss s vs, LinkAt c i f → shapes[i]? = some ss → s ∈ ss → ShapeOps.vert (K := K) s = some vs → ∀ v ∈ vs,
        f.xform v ∈ (vertList c' shapes).list := by
      intro i f ss s vs hf hss hs hvs v hv
      have hi : i < c'.link.length := by rw [hlen', ← hlen]; exact (List.getElem?_eq_some_iff.1 hss).1
      have hl := List.getElem?_eq_getElem hi
      rw [(linkAt_iff w h hl f).1 hf]
      refine (h3 _).2 (.inr ⟨(c'.link[i], ss), (hmem _).2 ⟨i, hl, hss⟩, s, hs, vs.map (c'.link[i]).body.frame.xform, ?_, List.mem_map.2 ⟨v, hv, rfl⟩⟩)
      simp only [vertsOf, hvs]
    refine ⟨hok, hall, ?_⟩
    rintro p ⟨i, f, ss, s, hf, hss, hs, q, hq, rfl⟩
    obtain ⟨vs, hvs⟩ := Option.isSome_iff_exists.1 (hp _ (List.mem_of_getElem? hss) s hs)
    refine convexHull_mono ?_ (hull_xform f vs ((S.vert s vs hvs).2 hq))
    intro v hv
    obtain ⟨u, hu, rfl⟩ := List.mem_map.1 hv
    exact hall i f ss s vs hf hss hs hvs u hu

/-- C108, the bounding ball: if all shapes are polyhedra, `rkChainBBall` returns a ball that every point is in that the chain occupies. -/
theorem C108_ball_partial (S : Solids K σ) (c c' : Chain K) (w : c.WF) (h : c.updateFK = some c') (hrot : ∀ l ∈ c.link, (linkFrame l).att.IsRot)
    (shapes : List (List σ)) (hlen : shapes.length = c.link.length) (hp : Polyhedral K shapes) (bball : List (Vec3 K) → Ball K)
    (hb : Encloses bball) : ∃ b, chainBBall bball c' shapes = some b ∧ ∀ p, Occupies S c shapes p → InBall b p := by
  obtain ⟨h1, -, h3⟩ := (C108_vertices S c c' w h hrot shapes hlen).2.2 hp
  refine ⟨bball (vertList c' shapes).list, by rw [chainBBall, h1]; rfl, fun p hpo => ?_⟩
  exact convexHull_min (fun v hv => hb _ v hv) (ball_convex _) (h3 p hpo)

omit [IsStrictOrderedRing K] [ShapeOps K σ] in
/-- C108, the nearest vertex: `rkBodyContigVert` returns the vertex, in the frame of the body, that is nearest to the point in space, and the distance in space. -/
theorem C108_nearest (verts : σ → List (Vec3 K)) (contig : List σ → Vec3 K → Option (Vec3 K × K))
    (hcontig : ∀ ss p v d, contig ss p = some (v, d) → Nearest verts ss p v d)
    (b : Body K) (hrot : b.frame.att.IsRot) (ss : List σ) (p v : Vec3 K) (d : K) (h : contigVert contig b ss p = some (v, d)) :
    Nearest (fun s => (verts s).map b.frame.xform) ss p (b.frame.xform v) d := by
  obtain ⟨⟨s, hs, hv⟩, h1, h2, h3⟩ := hcontig _ _ _ _ h
  have key : ∀ u : Vec3 K, dot (b.frame.xform u - p) (b.frame.xform u - p) = dot (u - b.frame.xformInv p) (u - b.frame.xformInv p) := by
    intro u
    have e : b.frame.xform u - p = b.frame.att.mulVec (u - b.frame.xformInv p) := by
      conv_lhs => rw [← Frame.xform_xformInv hrot p]
      ext1 <;> simp [Frame.xform, Mat3.mulVec] <;> ring
    rw [e, hrot.dot_mulVec_mulVec]
  refine ⟨⟨s, hs, List.mem_map.2 ⟨v, hv, rfl⟩⟩, h1, by rw [key, h2], ?_⟩
  intro s hs w hw
  obtain ⟨u, hu, rfl⟩ := List.mem_map.1 hw
  rw [key]
  exact h3 s hs u hu

/-! ## A concrete set of shapes -/

namespace Sample

/-- Polyhedra by their vertices, spheres, and surfaces that are not converted to polyhedra. -/
inductive Sh (K : Type*)
  | poly (vs : List (Vec3 K))
  | sphere (c : Vec3 K) (r : K)
  | surface (vs : List (Vec3 K))

/-- The polyhedron of a sphere has six vertices. -/
def octahedron (c : Vec3 K) (r : K) : List (Vec3 K) :=
  [c + ⟨r, 0, 0⟩, c - ⟨r, 0, 0⟩, c + ⟨0, r, 0⟩, c - ⟨0, r, 0⟩, c + ⟨0, 0, r⟩, c - ⟨0, 0, r⟩]

instance : ShapeOps K (Sh K) where
  vert
    | .poly vs => some vs
    | _ => none
  xform f
    | .poly vs => .poly (vs.map f.xform)
    | .sphere c r => .sphere (f.xform c) r
    | .surface vs => .surface (vs.map f.xform)
  toPH
    | .poly vs => some vs
    | .sphere c r => some (octahedron c r)
    | .surface _ => none

/-- The points of the shapes. -/
def shPts : Sh K → Set (Vec3 K)
  | .poly vs => convexHull K {v | v ∈ vs}
  | .sphere c r => {p | InBall ⟨c, r⟩ p}
  | .surface vs => convexHull K {v | v ∈ vs}

omit [ShapeOps K σ] in
theorem hull_xform_iff (f : Frame K) (vs : List (Vec3 K)) (p : Vec3 K) :
    p ∈ convexHull K {v | v ∈ vs.map f.xform} ↔ ∃ q ∈ convexHull K {v | v ∈ vs}, p = f.xform q := by
  have e : {v | v ∈ vs.map f.xform} = affine f '' {v | v ∈ vs} := by
    ext v
    simp only [Set.mem_setOf_eq, List.mem_map, Set.mem_image]
    rfl
  rw [e, ← AffineMap.image_convexHull]
  constructor
  · rintro ⟨q, hq, rfl⟩; exact ⟨q, hq, rfl⟩
  · rintro ⟨q, hq, rfl⟩; exact ⟨q, hq, rfl⟩

/-- The shapes obey the laws that are assumed of the routines of Zeo. -/
def solids : Solids K (Sh K) where
  pts := shPts
  xform := by
    intro f s p hf
    cases s with
    | poly vs => exact hull_xform_iff f vs p
    | surface vs => exact hull_xform_iff f vs p
    | sphere c r =>
      have key : ∀ q, InBall ⟨f.xform c, r⟩ (f.xform q) ↔ InBall ⟨c, r⟩ q := by
        intro q
        have e : f.xform q - f.xform c = f.att.mulVec (q - c) := by
          ext1 <;> simp [Frame.xform, Mat3.mulVec] <;> ring
        simp only [InBall, e, hf.dot_mulVec_mulVec]
      constructor
      · intro h
        refine ⟨f.xformInv p, ?_, (Frame.xform_xformInv hf p).symm⟩
        rw [← Frame.xform_xformInv hf p] at h
        exact (key _).1 h
      · rintro ⟨q, hq, rfl⟩
        exact (key q).2 hq
  vert := by
    intro s vs h
    cases s with
    | poly us => cases h; exact ⟨fun v hv => subset_convexHull K _ hv, le_refl _⟩
    | surface us => cases h
    | sphere c r => cases h
  toPH := by
    intro s vs h v hv
    cases s with
    | poly us => cases h; exact subset_convexHull K _ hv
    | surface us => cases h
    | sphere c r =>
      cases h
      simp only [octahedron, List.mem_cons, List.not_mem_nil, or_false] at hv
      rcases hv with rfl | rfl | rfl | rfl | rfl | rfl <;> simp [shPts, InBall, dot, pow_two]

omit [LinearOrder K] [IsStrictOrderedRing K] [ShapeOps K σ] in
theorem chain_attitudes : (Sample.chain (K := K)).link.map (fun l => (linkFrame l).att) = [1, 1, 1, 1] := by
  have hz : (Rz 0 1 : Mat3 K) = 1 := by simp only [Rz, neg_zero]; rfl
  have hy : (Ry 0 1 : Mat3 K) = 1 := by simp only [Ry, neg_zero]; rfl
  have e : (Sample.chain (K := K)).link.map (fun l => (linkFrame l).att) =
      [Mat3.mul 1 1, Mat3.mul 1 1, Mat3.mul 1 (Rz 0 1), Mat3.mul 1 ((Rz 0 1).mul (Ry 0 1))] := rfl
  rw [e, hz, hy]
  simp only [Mat3.one_mul']

omit [LinearOrder K] [IsStrictOrderedRing K] [ShapeOps K σ] in
theorem chain_linkRot : ∀ l ∈ (Sample.chain (K := K)).link, (linkFrame l).att.IsRot := by
  intro l hl
  have h : (linkFrame l).att ∈ (Sample.chain (K := K)).link.map (fun l => (linkFrame l).att) := List.mem_map.2 ⟨l, hl, rfl⟩
  rw [chain_attitudes] at h
  simp only [List.mem_cons, List.not_mem_nil, or_false, or_self] at h
  rw [h]; exact Mat3.isRot_one

/-- A cube of edge 2 on the arm, a tetrahedron on the wrist. -/
def shapes : List (List (Sh K)) :=
  [[], [], [.poly [⟨1, 1, 1⟩, ⟨1, 1, -1⟩, ⟨1, -1, 1⟩, ⟨1, -1, -1⟩, ⟨-1, 1, 1⟩, ⟨-1, 1, -1⟩, ⟨-1, -1, 1⟩, ⟨-1, -1, -1⟩]],
    [.poly [0, ⟨1, 0, 0⟩, ⟨0, 1, 0⟩, ⟨0, 0, 1⟩]]]

/-- A routine that encloses points by a ball. -/
def bigBall (l : List (Vec3 K)) : Ball K := ⟨0, (l.map fun v => 1 + dot v v).sum⟩

omit [LinearOrder K] [IsStrictOrderedRing K] [ShapeOps K σ] in
theorem dot_zero_sub (v : Vec3 K) : dot (v - 0) (v - 0) = dot v v := by rw [sub_zero]

omit [ShapeOps K σ] in
theorem dot_nonneg' (v : Vec3 K) : 0 ≤ dot v v := by
  have := mul_self_nonneg v.x
  have := mul_self_nonneg v.y
  have := mul_self_nonneg v.z
  simp only [dot]; linarith

omit [ShapeOps K σ] in
theorem bigBall_encloses : Encloses (bigBall (K := K)) := by
  intro l v hv
  have h1 : 1 + dot v v ≤ (l.map fun v => 1 + dot v v).sum := by
    refine List.single_le_sum ?_ _ (List.mem_map.2 ⟨v, hv, rfl⟩)
    intro x hx
    obtain ⟨u, -, rfl⟩ := List.mem_map.1 hx
    have := dot_nonneg' u
    linarith
  have h2 := dot_nonneg' v
  simp only [InBall, bigBall, dot_zero_sub]
  nlinarith

end Sample

/-- The hypotheses of the theorems are met by the sample chain with a cube and a tetrahedron; the cube is at (1,0,0) and the tetrahedron at (1,1,0). -/
example : ∃ c' : Chain ℚ, (Sample.chain (K := ℚ)).WF ∧ (Sample.chain (K := ℚ)).updateFK = some c' ∧
    (∀ l ∈ (Sample.chain (K := ℚ)).link, (linkFrame l).att.IsRot) ∧ Polyhedral ℚ (Sample.shapes (K := ℚ)) ∧ Encloses (Sample.bigBall (K := ℚ)) ∧
    (vertList c' (Sample.shapes (K := ℚ))).list = [⟨2, 1, 1⟩, ⟨2, 1, -1⟩, ⟨2, -1, 1⟩, ⟨2, -1, -1⟩, ⟨0, 1, 1⟩, ⟨0, 1, -1⟩, ⟨0, -1, 1⟩, ⟨0, -1, -1⟩,
      ⟨1, 1, 0⟩, ⟨2, 1, 0⟩, ⟨1, 2, 0⟩, ⟨1, 1, 1⟩] := by
  refine ⟨_, Sample.chain_wf, rfl, Sample.chain_linkRot, ?_, Sample.bigBall_encloses, ?_⟩
  · intro ss hss s hs
    simp only [Sample.shapes, List.mem_cons, List.not_mem_nil, or_false] at hss
    rcases hss with rfl | rfl | rfl | rfl <;> simp only [List.mem_cons, List.not_mem_nil, or_false] at hs <;> subst hs <;> rfl
  · decide +kernel

/-- The hypotheses of `C108_nearest` are met by a body at (1,2,3) that is turned about the z-axis; the vertices are at the distances 5 and 13. -/
example : ∃ (contig : List Unit → Vec3 ℚ → Option (Vec3 ℚ × ℚ)) (b : Body ℚ) (verts : Unit → List (Vec3 ℚ)),
    (∀ ss p v d, contig ss p = some (v, d) → Nearest verts ss p v d) ∧ b.frame.att.IsRot ∧
    contigVert contig b [()] ⟨1, 2, 3⟩ = some (⟨3, 4, 0⟩, 5) ∧ b.frame.xform ⟨3, 4, 0⟩ = ⟨-3, 5, 3⟩ := by
  refine ⟨fun ss p => if ss = [()] ∧ p = 0 then some (⟨3, 4, 0⟩, 5) else none,
    { (Body.init : Body ℚ) with frame := ⟨⟨1, 2, 3⟩, ⟨⟨0, 1, 0⟩, ⟨-1, 0, 0⟩, ⟨0, 0, 1⟩⟩⟩ },
    fun _ => [⟨3, 4, 0⟩, ⟨5, 0, 12⟩], ?_, ?_, ?_, ?_⟩
  · intro ss p v d h
    dsimp only at h
    split at h
    · rename_i hh
      obtain ⟨rfl, rfl⟩ := hh
      cases h
      refine ⟨⟨(), by simp, by simp⟩, by norm_num, by norm_num [dot], ?_⟩
      intro s _ w hw
      simp only [List.mem_cons, List.not_mem_nil, or_false] at hw
      rcases hw with rfl | rfl <;> norm_num [dot]
    · cases h
  · constructor <;> decide +kernel
  · decide +kernel
  · decide +kernel

/-- C108: where a shape is not a polyhedron, the ball is not a bounding ball.  With two spheres on a link, the smallest ball that encloses the vertices of
their polyhedra leaves out points of the spheres. -/
theorem C108_round_fails (bball : List (Vec3 ℝ) → Ball ℝ)
    (hsmall : ∀ l b, 0 ≤ b.radius → (∀ v ∈ l, InBall b v) → 0 ≤ (bball l).radius ∧ (bball l).radius ≤ b.radius) :
    ∃ (c' : Chain ℝ) (shapes : List (List (Sample.Sh ℝ))) (b : Ball ℝ) (p : Vec3 ℝ), (Sample.chain (K := ℝ)).updateFK = some c' ∧
      shapes.length = (Sample.chain (K := ℝ)).link.length ∧ chainBBall bball c' shapes = some b ∧
      Occupies Sample.solids Sample.chain shapes p ∧ ¬ InBall b p := by
  let shapes : List (List (Sample.Sh ℝ)) := [[.sphere 0 1, .sphere ⟨6, 8, 0⟩ 1], [], [], []]
  obtain ⟨c', hc', hshape, hmap, hpath, hall⟩ := C06_fk_composition (Sample.chain (K := ℝ)) Sample.chain_wf
  have hlen : shapes.length = (Sample.chain (K := ℝ)).link.length := rfl
  have h0 : LinkAt (Sample.chain (K := ℝ)) 0 Frame.ident := by
    refine ⟨[], [_], .here _ _ _, rfl, ?_⟩
    simp [product, linkFrame, jointFrame, Sample.link, Sample.flt, Frame.cascade, Frame.ident]
  have hx : ∀ v : Vec3 ℝ, Frame.ident.xform v = v := fun v => by simp [Frame.xform, Frame.ident]
  have occ : ∀ s ∈ ([.sphere 0 1, .sphere ⟨6, 8, 0⟩ 1] : List (Sample.Sh ℝ)), ∀ p ∈ Sample.shPts s, Occupies Sample.solids Sample.chain shapes p :=
    fun s hs p hp => ⟨0, Frame.ident, _, s, h0, rfl, hs, p, hp, (hx p).symm⟩
  have hok : (vertList c' shapes).failed = false := by
    refine (C108_vertices Sample.solids Sample.chain c' Sample.chain_wf hc' Sample.chain_linkRot shapes hlen).1 ?_
    intro ss hss s hs _ f
    simp only [shapes, List.mem_cons, List.not_mem_nil, or_false] at hss
    rcases hss with rfl | rfl | rfl | rfl <;> simp only [List.mem_cons, List.not_mem_nil, or_false] at hs
    rcases hs with rfl | rfl <;> rfl
  have hin : ∀ v ∈ (vertList c' shapes).list, InBall ⟨⟨3, 4, 0⟩, Real.sqrt 34⟩ v := by
    intro v hv
    obtain ⟨-, -, h3⟩ := vertLinks_ok _ _ hok
    rcases (h3 v).1 hv with hv | ⟨x, hx', s, hs, vs, hvs, hv⟩
    · cases hv
    obtain ⟨i, hi⟩ := List.mem_iff_getElem?.1 hx'
    rw [List.getElem?_zip_eq_some] at hi
    obtain ⟨hi1, hi2⟩ := hi
    have i0 : i = 0 := by
      rcases i with _ | _ | _ | _ | i
      · rfl
      all_goals (simp [shapes] at hi2; try (rw [hi2] at hs; cases hs))
    subst i0
    rw [← (linkAt_iff Sample.chain_wf hc' hi1 _).1 h0] at hvs
    simp only [shapes, List.getElem?_cons_zero, Option.some.injEq] at hi2
    rw [← hi2] at hs
    simp only [List.mem_cons, List.not_mem_nil, or_false] at hs
    rcases hs with rfl | rfl
    all_goals
      simp only [vertsOf, ShapeOps.vert, ShapeOps.toPH, ShapeOps.xform, hx, Option.some.injEq] at hvs
      subst hvs
      simp only [Sample.octahedron, List.mem_cons, List.not_mem_nil, or_false] at hv
      rcases hv with rfl | rfl | rfl | rfl | rfl | rfl <;> norm_num [InBall, dot]
  obtain ⟨r0, r1⟩ := hsmall _ ⟨_, _⟩ (Real.sqrt_nonneg 34) hin
  have hr : (bball (vertList c' shapes).list).radius ^ 2 ≤ 34 := by
    have := pow_le_pow_left₀ r0 r1 2
    simpa using this
  have ha := occ _ (.head _) ⟨-3/5, -4/5, 0⟩ (by norm_num [Sample.shPts, InBall, dot])
  have hb := occ _ (.tail _ (.head _)) ⟨33/5, 44/5, 0⟩ (by norm_num [Sample.shPts, InBall, dot])
  have e : chainBBall bball c' shapes = some (bball (vertList c' shapes).list) := by rw [chainBBall, hok]; rfl
  by_cases h : InBall (bball (vertList c' shapes).list) ⟨-3/5, -4/5, 0⟩
  · refine ⟨c', shapes, _, _, hc', hlen, e, hb, fun h' => ?_⟩
    simp only [InBall, dot, Vec3.sub_x, Vec3.sub_y, Vec3.sub_z] at h h'
    generalize (bball (vertList c' shapes).list).center = q at h h'
    nlinarith [sq_nonneg (q.x - 3), sq_nonneg (q.y - 4), sq_nonneg q.z]
  · exact ⟨c', shapes, _, _, hc', hlen, e, ha, h⟩

/-- C108: if a shape is not converted to a polyhedron, the clone of the shape is never destroyed. -/
theorem C108_leak_fails : ∃ c' : Chain ℚ, (Sample.chain (K := ℚ)).updateFK = some c' ∧
    (vertList c' [[(.sphere 0 1 : Sample.Sh ℚ), .surface [0]], [], [], []]).failed = true ∧
    (vertList c' [[(.sphere 0 1 : Sample.Sh ℚ), .surface [0]], [], [], []]).clones = 1 := by
  refine ⟨_, rfl, ?_, ?_⟩ <;> decide +kernel

end Roki
