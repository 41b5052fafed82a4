import Verif.Lemmas.BREPConv
import Verif.Lemmas.ZmRat
set_option autoImplicit false

/-!
# Properties C47, C48, C68, C69: boundary representations
-/

namespace Roki
open Roki.Brep Roki.Spec.Brep
variable {K : Type*} [Field K] [LinearOrder K] [IsStrictOrderedRing K] [Zm K]

/-! ## The example: a tetrahedron cut by a plane -/

/-- The corner of the unit cube. -/
def brepTetra : PH ℚ where
  vert := [⟨0, 0, 0⟩, ⟨1, 0, 0⟩, ⟨0, 1, 0⟩, ⟨0, 0, 1⟩]
  face := [⟨⟨0, 0, 0⟩, ⟨0, 1, 0⟩, ⟨1, 0, 0⟩⟩, ⟨⟨0, 0, 0⟩, ⟨1, 0, 0⟩, ⟨0, 0, 1⟩⟩, ⟨⟨0, 0, 0⟩, ⟨0, 0, 1⟩, ⟨0, 1, 0⟩⟩,
    ⟨⟨1, 0, 0⟩, ⟨0, 1, 0⟩, ⟨0, 0, 1⟩⟩]

/-- The horizontal plane at the height of one half, facing upward. -/
def brepHalf : Plane ℚ := ⟨⟨0, 0, 1 / 2⟩, ⟨0, 0, 1⟩⟩

theorem brep_tiny_rat (x : ℚ) (h : Zm.tiny x = true) : |x| ≤ 1 / 1000000000000 := of_decide_eq_true h

example : (ofPH brepTetra).vs.length = 4 ∧ (ofPH brepTetra).es.length = 6 ∧ (ofPH brepTetra).fs.length = 4 := by
  decide +kernel

/-- The cut tetrahedron: three new vertices, a face of the top replaced by a smaller one, or by two. -/
example : (trunc (ofPH brepTetra) brepHalf).map (fun b => (b.vs.length, b.es.length, b.fs.length, b.discard)) = some (7, 12, 7, 1) := by
  decide +kernel

/-! ## C47 -/

/-- **C47.**  Truncating a consistent boundary representation by any plane succeeds: no sign pattern of a face is left out and no
missing cell is read.  The result is consistent.  Its surface is a part of the surface before and lies beneath the plane, and every
point of the surface before that is beneath the plane stays, up to the tolerance of the code. -/
theorem C47_trunc {tol : K} (ht : 0 ≤ tol) (htol : ∀ x : K, Zm.tiny x = true → |x| ≤ tol) (b : BREP K) (hb : Consistent b)
    (pl : Plane K) : ∃ b', trunc b pl = some b' ∧ Consistent b' ∧
      (∀ x, Surface b' x → Surface b x ∧ height pl x ≤ tol) ∧
      ∀ x, Surface b x → height pl x < -tol → Surface b' x :=
  trunc_spec ht htol hb pl

/-- **C47**, for a polyhedron and any number of planes, one after another. -/
theorem C47_polyhedron [LawfulZm K] {tol : K} (ht : 0 ≤ tol) (htol : ∀ x : K, Zm.tiny x = true → |x| ≤ tol) (ph : PH K)
    (pls : List (Plane K)) : ∃ b', truncPH (ofPH ph) pls = some b' ∧ Consistent b' ∧
      (∀ x, Surface b' x → Surface (ofPH ph) x ∧ ∀ pl ∈ pls, height pl x ≤ tol) ∧
      ∀ x, Surface (ofPH ph) x → (∀ pl ∈ pls, height pl x < -tol) → Surface b' x :=
  truncPH_spec ht htol pls (ofPH_registers ph).consistent

/-- A face whose corners are all at or beneath the plane stays as it is, and one whose corners are all at or beyond the plane, not
all on it, is discarded. -/
theorem C47_whole (b b' : BREP K) (n : ℕ) (f : Face) (x y z : Vert K) (hx : at? b.vs f.v.a = some x)
    (hy : at? b.vs f.v.b = some y) (hz : at? b.vs f.v.c = some z) (h : truncFace b n f = some b') :
    ((x.d ≤ 0 ∧ y.d ≤ 0 ∧ z.d ≤ 0) → b' = b) ∧
    ((0 ≤ x.d ∧ 0 ≤ y.d ∧ 0 ≤ z.d) → (0 < x.d ∨ 0 < y.d ∨ 0 < z.d) →
      b' = { b with fs := b.fs.set n (some { f with discard := true }) }) := by
  have cases : ∀ d : K, (d < 0 ∧ pat d = 3) ∨ (0 < d ∧ pat d = 1) ∨ (d = 0 ∧ pat d = 0) := by
    intro d
    rcases lt_trichotomy d 0 with h | h | h
    · exact Or.inl ⟨h, by simp [pat, h]⟩
    · exact Or.inr (Or.inr ⟨h, by simp [pat, h]⟩)
    · exact Or.inr (Or.inl ⟨h, by simp [pat, h, h.not_gt]⟩)
  simp only [truncFace, hx, hy, hz] at h
  rcases cases x.d with ⟨sx, px⟩ | ⟨sx, px⟩ | ⟨sx, px⟩ <;> rcases cases y.d with ⟨sy, py⟩ | ⟨sy, py⟩ | ⟨sy, py⟩ <;>
    rcases cases z.d with ⟨sz, pz⟩ | ⟨sz, pz⟩ | ⟨sz, pz⟩ <;>
    rw [px, py, pz] at h <;> simp only [Nat.reduceShiftLeft, Nat.reduceOr] at h <;> constructor <;> rintro ⟨h1, h2, h3⟩ <;>
    first
      | (exfalso; linarith)
      | (exact (Option.some.inj h).symm)
      | (intro h4; exact (Option.some.inj h).symm)
      | (intro h4; exfalso; rcases h4 with h4 | h4 | h4 <;> linarith)

/-- The tetrahedron: the corner at the origin stays, the top goes. -/
example : ∃ b', truncPH (ofPH brepTetra) [brepHalf] = some b' ∧ Consistent b' ∧ Surface b' ⟨0, 0, 1 / 4⟩ ∧ ¬ Surface b' ⟨0, 0, 3 / 4⟩ ∧
    Surface (ofPH brepTetra) ⟨0, 0, 3 / 4⟩ := by
  have hs : ∀ z : ℚ, 0 ≤ z → z ≤ 1 → Surface (ofPH brepTetra) ⟨0, 0, z⟩ := by
    intro z h0 h1
    refine ⟨⟨⟨0, 2, 3⟩, ⟨0, 2, 3⟩, ⟨3, 4, 1⟩, ⟨3, 4, 1⟩, true, false⟩, by decide +kernel, rfl, ⟨0, 0, 0⟩, ⟨1, 0, 0⟩, ⟨0, 0, 1⟩,
      ⟨⟨⟨0, 0, 0⟩, 0, 0, true, false⟩, ⟨⟨1, 0, 0⟩, 0, 0, true, false⟩, ⟨⟨0, 0, 1⟩, 0, 0, true, false⟩, by decide +kernel,
        by decide +kernel, by decide +kernel, rfl, rfl, rfl⟩, 1 - z, 0, z, by linarith, le_rfl, h0, by ring, ?_⟩
    vec_ring
  obtain ⟨b', h1, h2, h3, h4⟩ := C47_polyhedron (K := ℚ) (tol := 1 / 1000000000000) (by norm_num) brep_tiny_rat brepTetra [brepHalf]
  refine ⟨b', h1, h2, h4 _ (hs _ (by norm_num) (by norm_num)) ?_, fun h => ?_, hs _ (by norm_num) (by norm_num)⟩
  · intro pl hp
    rw [List.mem_singleton] at hp
    subst hp
    norm_num [height, brepHalf]
  · have := (h3 _ h).2 brepHalf (by simp)
    norm_num [height, brepHalf] at this

/-! ## C48 -/

/-- **C48.**  Converting a polyhedron makes one face for each triangle, in order, with the corners of the triangle, registers every
position once and every pair of joined vertices once, registers nothing else, and gives every face its sides as edges. -/
theorem C48_registers [LawfulZm K] (ph : PH K) : Registers ph.face (ofPH ph) := ofPH_registers ph

/-- The conversion within a box is the conversion of the triangles that meet the box. -/
theorem C48_box (inBox : Tri K → Bool) (ph : PH K) : ofPHInBox inBox ph init = ofPH { ph with face := ph.face.filter inBox } := by
  simp only [ofPHInBox, ofPH, List.foldl_filter]

/-- If only zero counts as tiny, the surface is exactly the union of the triangles. -/
theorem C48_surface [LawfulZm K] (hx : ∀ x : K, Zm.tiny x = true → x = 0) (ph : PH K) (x : Vec3 K) :
    Surface (ofPH ph) x ↔ ∃ t ∈ ph.face, InTri t.a t.b t.c x := by
  have hr := ofPH_registers ph
  have hc : ∀ {p q : Vec3 K}, Coincide p q → p = q := by
    rintro p q ⟨h1, h2, h3⟩
    exact Vec3.ext (sub_eq_zero.1 (hx _ h1)) (sub_eq_zero.1 (hx _ h2)) (sub_eq_zero.1 (hx _ h3))
  constructor
  · rintro ⟨f, hf, _, p, q, r, ⟨u, v, w, h1, h2, h3, rfl, rfl, rfl⟩, ht⟩
    obtain ⟨n, hn⟩ := List.getElem?_of_mem hf
    rcases forall₂_at hr.faces n with ⟨_, h⟩ | ⟨t, o, g1, g2, f', rfl, _, g⟩
    · rw [hn] at h; simp at h
    · rw [hn] at g2
      obtain rfl := Option.some.inj (Option.some.inj g2)
      refine ⟨t, List.mem_of_getElem? g1, ?_⟩
      obtain ⟨u', k1, c1⟩ := g 0
      obtain ⟨v', k2, c2⟩ := g 1
      obtain ⟨w', k3, c3⟩ := g 2
      obtain rfl := Option.some.inj (h1.symm.trans k1)
      obtain rfl := Option.some.inj (h2.symm.trans k2)
      obtain rfl := Option.some.inj (h3.symm.trans k3)
      rwa [hc c1, hc c2, hc c3] at ht
  · rintro ⟨t, ht, hin⟩
    obtain ⟨n, hn⟩ := List.getElem?_of_mem ht
    rcases forall₂_at hr.faces n with ⟨h, _⟩ | ⟨t', o, g1, g2, f, rfl, hd, g⟩
    · rw [hn] at h; simp at h
    · rw [hn] at g1
      obtain rfl := Option.some.inj g1
      obtain ⟨u, k1, c1⟩ := g 0
      obtain ⟨v, k2, c2⟩ := g 1
      obtain ⟨w, k3, c3⟩ := g 2
      refine ⟨f, List.mem_of_getElem? g2, hd, _, _, _, ⟨u, v, w, k1, k2, k3, rfl, rfl, rfl⟩, ?_⟩
      rwa [hc c1, hc c2, hc c3]

/-- The tetrahedron has four vertices and six edges, each shared. -/
example : Registers brepTetra.face (ofPH brepTetra) ∧ (ofPH brepTetra).vs.length = 4 ∧ (ofPH brepTetra).es.length = 6 :=
  ⟨C48_registers brepTetra, by decide +kernel⟩

/-! ## C68 -/

/-- **C68.**  After any number of truncations, a reset gives back the converted polyhedron: every cell of it is as it was made, every
cell made by the truncations is gone, and so the surface is that of the polyhedron again. -/
theorem C68_reset [LawfulZm K] (ph : PH K) (pls : List (Plane K)) (b' : BREP K) (h : truncPH (ofPH ph) pls = some b') :
    (∀ i, at? (reset b').vs i = at? (ofPH ph).vs i ∧ at? (reset b').es i = at? (ofPH ph).es i ∧
      at? (reset b').fs i = at? (ofPH ph).fs i) ∧ (reset b').discard = 0 ∧ Consistent (reset b') ∧
    ∀ x, Surface (reset b') x ↔ Surface (ofPH ph) x := by
  have key : ∀ i, at? (reset b').vs i = at? (ofPH ph).vs i ∧ at? (reset b').es i = at? (ofPH ph).es i ∧
      at? (reset b').fs i = at? (ofPH ph).fs i := by
    intro i
    obtain ⟨h1, h2, h3⟩ := sim_truncPH pls h
    obtain ⟨ps, es, fs, h4, _⟩ := ofPH_reg ph
    have hr : reset (ofPH ph) = ofPH ph := by rw [h4, reset_mkB]
    have g := at?_reset (ofPH ph) i
    rw [hr] at g
    have g' := at?_reset b' i
    exact ⟨g'.1.trans ((h1 i).trans g.1.symm), g'.2.1.trans ((h2 i).trans g.2.1.symm), g'.2.2.trans ((h3 i).trans g.2.2.symm)⟩
  have mem : ∀ {α : Type} {l l' : List (Option α)}, (∀ i, at? l i = at? l' i) → ∀ x, some x ∈ l → some x ∈ l' := by
    intro α l l' h x hx
    obtain ⟨i, hi⟩ := mem_at? hx
    exact at?_mem ((h i).symm.trans hi)
  have mf := mem fun i => (key i).2.2
  have mf' := mem fun i => (key i).2.2.symm
  have hb := (ofPH_registers ph).consistent
  have vu : ∀ {i}, VertUsed (ofPH ph) i → VertUsed (reset b') i := by
    rintro i ⟨v, h1, h2⟩
    exact ⟨v, (key i).1.trans h1, h2⟩
  refine ⟨key, rfl, ⟨fun f hf hd i => vu (hb.vert f (mf f hf) hd i), ?_, ?_⟩, fun x => ⟨?_, ?_⟩⟩
  · intro f hf hd i j k h1 h2 h3
    obtain ⟨e, g1, g2⟩ := hb.edge f (mf f hf) hd i j k h1 h2 h3
    exact ⟨e, (key _).2.1.trans g1, g2⟩
  · intro e he hd
    obtain ⟨g1, g2, g3⟩ := hb.ends e (mem (fun i => (key i).2.1) e he) hd
    exact ⟨g1, vu g2, vu g3⟩
  · rintro ⟨f, hf, hd, p, q, r, ⟨u, v, w, h1, h2, h3, hpqr⟩, ht⟩
    exact ⟨f, mf f hf, hd, p, q, r, ⟨u, v, w, (key _).1.symm.trans h1, (key _).1.symm.trans h2, (key _).1.symm.trans h3, hpqr⟩, ht⟩
  · rintro ⟨f, hf, hd, p, q, r, ⟨u, v, w, h1, h2, h3, hpqr⟩, ht⟩
    exact ⟨f, mf' f hf, hd, p, q, r, ⟨u, v, w, (key _).1.trans h1, (key _).1.trans h2, (key _).1.trans h3, hpqr⟩, ht⟩

/-- The tetrahedron is cut, so that there is something to restore. -/
example : ∃ b', truncPH (ofPH brepTetra) [brepHalf] = some b' ∧ b' ≠ ofPH brepTetra ∧ at? b'.fs 1 ≠ at? (ofPH brepTetra).fs 1 ∧
    at? (reset b').fs 1 = at? (ofPH brepTetra).fs 1 := by
  obtain ⟨b', h1, h2⟩ : ∃ b', truncPH (ofPH brepTetra) [brepHalf] = some b' ∧ at? b'.fs 1 ≠ at? (ofPH brepTetra).fs 1 := by
    have : ((truncPH (ofPH brepTetra) [brepHalf]).map fun b' => decide (at? b'.fs 1 ≠ at? (ofPH brepTetra).fs 1)) = some true := by
      decide +kernel
    obtain ⟨b', h, h'⟩ := Option.map_eq_some_iff.1 this
    exact ⟨b', h, of_decide_eq_true h'⟩
  exact ⟨b', h1, fun h => h2 (h ▸ rfl), h2, ((C68_reset brepTetra [brepHalf] b' h1).1 1).2.2⟩

/-! ## C69 -/

omit [LinearOrder K] [IsStrictOrderedRing K] [Zm K] in
theorem brep_toPH_some (ptr : ℕ → K) (b : BREP K) (h : ∀ f, some f ∈ b.fs → ∀ i, (at? b.vs (f.v.get i)).isSome = true) :
    ∃ ph', toPH ptr b = some ph' ∧ ph'.face.length = b.fs.reduceOption.length ∧
      ph'.vert = (b.vs.mapIdx fun i (o : Option (Vert K)) => o.map (copied ptr i)).reduceOption := by
  obtain ⟨l, h1, h2⟩ := mapM_forall₂ (g := fun (f : Face) =>
    match at? b.vs f.v.a, at? b.vs f.v.b, at? b.vs f.v.c with
    | some x, some y, some z => some (⟨copied ptr f.v.a x, copied ptr f.v.b y, copied ptr f.v.c z⟩ : Tri K)
    | _, _, _ => none) b.fs.reduceOption (by
      intro f hf
      rw [List.reduceOption_mem_iff] at hf
      obtain ⟨x, hx⟩ := Option.isSome_iff_exists.1 (h f hf 0)
      obtain ⟨y, hy⟩ := Option.isSome_iff_exists.1 (h f hf 1)
      obtain ⟨z, hz⟩ := Option.isSome_iff_exists.1 (h f hf 2)
      refine ⟨⟨copied ptr f.v.a x, copied ptr f.v.b y, copied ptr f.v.c z⟩, ?_⟩
      change (match at? b.vs (f.v.get 0), at? b.vs (f.v.get 1), at? b.vs (f.v.get 2) with
        | some x, some y, some z => some (⟨copied ptr f.v.a x, copied ptr f.v.b y, copied ptr f.v.c z⟩ : Tri K)
        | _, _, _ => none) = _
      rw [hx, hy, hz])
  refine ⟨⟨(b.vs.mapIdx fun i (o : Option (Vert K)) => o.map (copied ptr i)).reduceOption, l⟩, ?_, h2.length_eq.symm, rfl⟩
  rw [toPH]
  exact congrArg _ h1

/-- **C69 fails.**  Whatever the polyhedron, converting it and converting it back gives vertices that all lie on the `x` axis: the code
copies the pointer to the position and not the position. -/
theorem C69_back_fails [LawfulZm K] (ptr : ℕ → K) (ph : PH K) : ∃ ph', toPH ptr (ofPH ph) = some ph' ∧
    ph'.face.length = ph.face.length ∧ ∀ v ∈ ph'.vert, v.y = 0 ∧ v.z = 0 := by
  obtain ⟨ps, es, fs, h1, h2⟩ := ofPH_reg ph
  obtain ⟨ph', h3, h4, h5⟩ := brep_toPH_some ptr (ofPH ph) (by
    intro f hf i
    obtain ⟨v, hv, _⟩ := (ofPH_registers ph).consistent.vert f hf (by
      rw [h1] at hf
      obtain ⟨q, _, hq⟩ := List.mem_map.1 hf
      obtain rfl := Option.some.inj hq
      rfl) i
    rw [hv]; rfl)
  refine ⟨ph', h3, ?_, ?_⟩
  · rw [h4, h2.faces.length_eq, h1, mkB]
    clear h1 h2 h3 h4
    induction fs with
    | nil => rfl
    | cons q l ih => rw [List.map_cons, mkF, List.reduceOption_cons_of_some, List.length_cons, List.length_cons, ih]
  · intro v hv
    rw [h5, List.reduceOption_mem_iff] at hv
    obtain ⟨i, hi, hv⟩ := List.mem_mapIdx.1 hv
    rw [Option.map_eq_some_iff] at hv
    obtain ⟨u, hu, rfl⟩ := hv
    have hm := List.getElem_mem hi
    rw [hu, h1] at hm
    obtain ⟨p, _, hp⟩ := List.mem_map.1 hm
    obtain rfl := Option.some.inj hp
    exact ⟨rfl, rfl⟩

/-- A plane with the face off the origin beyond. -/
def brepSlant : Plane ℚ := ⟨⟨1 / 4, 0, 0⟩, ⟨2 / 3, 1 / 3, 2 / 3⟩⟩

/-- **C69 fails** also for the faces: the ones discarded by a truncation come out again. -/
theorem C69_discarded_fails : ∃ b' : BREP ℚ, truncPH (ofPH brepTetra) [brepSlant] = some b' ∧
    ∀ ptr, ∃ ph', toPH ptr b' = some ph' ∧ (b'.fs.reduceOption.filter fun f => !f.discard).length < ph'.face.length := by
  have : ((truncPH (ofPH brepTetra) [brepSlant]).map fun b' => decide ((∀ f ∈ b'.fs.reduceOption,
      (at? b'.vs f.v.a).isSome && (at? b'.vs f.v.b).isSome && (at? b'.vs f.v.c).isSome) ∧
      (b'.fs.reduceOption.filter fun f => !f.discard).length < b'.fs.reduceOption.length)) = some true := by
    decide +kernel
  obtain ⟨b', h, h'⟩ := Option.map_eq_some_iff.1 this
  obtain ⟨h1, h2⟩ := of_decide_eq_true h'
  refine ⟨b', h, fun ptr => ?_⟩
  obtain ⟨ph', h3, h4, _⟩ := brep_toPH_some ptr b' (by
    intro f hf i
    have := h1 f (List.reduceOption_mem_iff.2 hf)
    simp only [Bool.and_eq_true] at this
    match i with
    | 0 => exact this.1.1
    | 1 => exact this.1.2
    | 2 => exact this.2)
  exact ⟨ph', h3, by rw [h4]; exact h2⟩

end Roki
