import Verif.Props.BREP
import Verif.Spec.BREPCount
set_option autoImplicit false

/-! # The counter of discarded vertices (C68) -/

namespace Roki
open Spec Brep
variable {K : Type*} [Field K] [LinearOrder K] [Zm K]

namespace Brep

def marked (o : Option (Vert K)) : Bool := match o with | some v => v.discard | none => false

omit [Field K] [LinearOrder K] [Zm K] in
theorem discarded_count (b : BREP K) : discardedVerts b = b.vs.countP marked := by
  unfold discardedVerts
  induction b.vs with
  | nil => rfl
  | cons o vs ih => cases o with
    | none => simpa [List.reduceOption_cons_of_none, marked] using ih
    | some v => cases hv : v.discard <;> simp [List.reduceOption_cons_of_some, marked, hv, ih]

omit [LinearOrder K] in
theorem vertFindReg_marked (vs : List (Option (Vert K))) (p : Vec3 K) : (vertFindReg vs p).2.countP marked = vs.countP marked := by
  unfold vertFindReg
  split <;> simp [marked]

theorem intersect_marked : ∀ (es : List (Option Edge)) (vs : List (Option (Vert K))) {r}, intersect es vs = some r → r.2.countP marked = vs.countP marked
  | [], vs, r, h => by simp only [intersect, Option.some.injEq] at h; subst h; rfl
  | none :: es, vs, r, h => by
    simp only [intersect, Option.map_eq_some_iff] at h
    obtain ⟨x, hx, rfl⟩ := h
    have := intersect_marked es vs hx; exact this
  | some e :: es, vs, r, h => by
    simp only [intersect] at h
    split at h
    · obtain ⟨x, hx, rfl⟩ := Option.map_eq_some_iff.1 h
      have := intersect_marked es vs hx; exact this
    split at h
    · split at h
      · obtain ⟨x, hx, rfl⟩ := Option.map_eq_some_iff.1 h
        have := intersect_marked es _ hx
        rw [this]; simp [marked, cutVert]
      · obtain ⟨x, hx, rfl⟩ := Option.map_eq_some_iff.1 h
        have := intersect_marked es vs hx; exact this
    · cases h

theorem truncFace_marked {b b' : BREP K} {n : ℕ} {f : Face} (h : truncFace b n f = some b') : b'.vs = b.vs ∧ b'.discard = b.discard := by
  have hA : ∀ i j k, truncFaceA b n f i j k = some b' → b'.vs = b.vs ∧ b'.discard = b.discard := by
    intro i j k h
    simp only [truncFaceA, Option.bind_eq_some_iff, Option.map_eq_some_iff] at h
    obtain ⟨_, _, _, _, rfl⟩ := h
    exact ⟨rfl, rfl⟩
  have hE : ∀ i j k, truncFaceE b n f i j k = some b' → b'.vs = b.vs ∧ b'.discard = b.discard := by
    intro i j k h
    simp only [truncFaceE, Option.map_eq_some_iff] at h
    obtain ⟨_, _, rfl⟩ := h
    exact ⟨rfl, rfl⟩
  have hV : ∀ i j k, truncFaceV b n f i j k = some b' → b'.vs = b.vs ∧ b'.discard = b.discard := by
    intro i j k h
    simp only [truncFaceV, Option.bind_eq_some_iff, Option.map_eq_some_iff] at h
    obtain ⟨_, _, _, _, rfl⟩ := h
    exact ⟨rfl, rfl⟩
  unfold truncFace at h
  split at h
  · split at h
    all_goals first
      | exact hA _ _ _ h
      | exact hE _ _ _ h
      | exact hV _ _ _ h
      | (simp only [Option.some.injEq] at h; subst h; exact ⟨rfl, rfl⟩)
      | cases h
  · cases h

theorem foldlM_marked : ∀ (is : List ℕ) {b b' : BREP K}, is.foldlM truncStep b = some b' → b'.vs = b.vs ∧ b'.discard = b.discard
  | [], b, b', h => by simp only [List.foldlM_nil, pure, Option.some.injEq] at h; subst h; exact ⟨rfl, rfl⟩
  | i :: is, b, b', h => by
    simp only [List.foldlM_cons, bind, Option.bind_eq_some_iff] at h
    obtain ⟨x, hx, h⟩ := h
    have hs : x.vs = b.vs ∧ x.discard = b.discard := by
      unfold truncStep at hx
      split at hx
      · simp only [Option.some.injEq] at hx; subst hx; exact ⟨rfl, rfl⟩
      · split at hx
        · simp only [Option.some.injEq] at hx; subst hx; exact ⟨rfl, rfl⟩
        · exact truncFace_marked hx
    obtain ⟨a, c⟩ := foldlM_marked is h
    exact ⟨a.trans hs.1, c.trans hs.2⟩

omit [LinearOrder K] [Zm K] [Field K] in
theorem mark_count (u : ℕ → Bool) : ∀ (vs : List (Option (Vert K))) (k : ℕ),
    (vs.mapIdx fun i o => o.map fun v => if v.discard || u (i + k) then v else { v with discard := true }).countP marked =
      vs.countP marked + (vs.mapIdx fun i o => match o with | some v => !v.discard && !u (i + k) | none => false).count true
  | [], _ => rfl
  | o :: vs, k => by
    have ih := mark_count u vs (k + 1)
    have e : ∀ i, i + 1 + k = i + (k + 1) := by intro i; omega
    simp only [List.mapIdx_cons, List.countP_cons, List.count_cons, e, zero_add]
    rw [ih]
    cases o with
    | none => simp [marked]
    | some v => cases hv : v.discard <;> cases hu : u k <;> simp [marked, hv] <;> omega

theorem gr_marked {b b' : BREP K} (h : gr b = some b') (hb : b.discard = b.vs.countP marked) : b'.discard = b'.vs.countP marked := by
  unfold gr at h
  split at h
  · simp only [Option.some.injEq] at h
    subst h
    have := mark_count (usedV b.fs) b.vs 0
    simp only [add_zero] at this
    show b.discard + _ = _
    rw [hb]
    exact this.symm
  · cases h

theorem bbCheck_marked (pl : Plane K) (vs : List (Option (Vert K))) : (bbCheck pl vs).countP marked = vs.countP marked := by
  unfold bbCheck
  rw [List.countP_map]
  congr 1
  funext o
  cases o with
  | none => rfl
  | some v => simp only [Function.comp, Option.map_some, marked]; split <;> rfl

end Brep

/-- **C68** Truncation counts the vertices that it discards: if the counter of a boundary representation is the number of its discarded vertices, then it is so after every
truncation by a plane. -/
theorem C68_count (b b' : BREP K) (pl : Plane K) (hb : b.discard = discardedVerts b) (h : trunc b pl = some b') : b'.discard = discardedVerts b' := by
  rw [discarded_count] at hb ⊢
  unfold trunc at h
  simp only at h
  split at h
  · simp only [Option.some.injEq] at h
    subst h
    show b.discard = _
    rw [hb]; exact (bbCheck_marked pl b.vs).symm
  · simp only [Option.bind_eq_some_iff] at h
    obtain ⟨r, hr, b1, h1, es, -, h2⟩ := h
    obtain ⟨e1, e2⟩ := foldlM_marked _ h1
    refine gr_marked h2 ?_
    show b1.discard = b1.vs.countP marked
    rw [e1, e2]
    show b.discard = r.2.countP marked
    rw [intersect_marked _ _ hr, bbCheck_marked, hb]

/-- **C68** The counter is right for a boundary representation made of a polyhedron, if it was zero at first, after any number of truncations by polyhedra, and after a
reset, whatever it was before. -/
theorem C68_count_history (ph : PH K) (pls : List (Plane K)) (b' : BREP K) (h : truncPH (ofPH ph) pls = some b') :
    b'.discard = discardedVerts b' ∧ (reset b').discard = discardedVerts (reset b') ∧ discardedVerts (reset b') = 0 := by
  have start : (ofPH ph).discard = discardedVerts (ofPH ph) := by
    rw [discarded_count, ofPH]
    have : ∀ (ts : List (Tri K)) (b : BREP K), b.discard = b.vs.countP marked →
        (ts.foldl (fun b t => faceInsert t b) b).discard = (ts.foldl (fun b t => faceInsert t b) b).vs.countP marked := by
      intro ts
      induction ts with
      | nil => intro b hb; exact hb
      | cons t ts ih =>
        intro b hb
        refine ih _ ?_
        show b.discard = (vertFindReg _ _).2.countP marked
        rw [vertFindReg_marked, vertFindReg_marked, vertFindReg_marked, hb]
    exact this _ _ rfl
  have run : ∀ (pls : List (Plane K)) (b b' : BREP K), b.discard = discardedVerts b → truncPH b pls = some b' → b'.discard = discardedVerts b' := by
    intro pls
    induction pls with
    | nil => intro b b' hb h; simp only [truncPH, List.foldlM_nil, pure, Option.some.injEq] at h; subst h; exact hb
    | cons pl pls ih =>
      intro b b' hb h
      simp only [truncPH, List.foldlM_cons, bind, Option.bind_eq_some_iff] at h
      obtain ⟨x, hx, h⟩ := h
      exact ih x b' (C68_count b x pl hb hx) h
  have hz : discardedVerts (reset b') = 0 := by
    rw [discarded_count, List.countP_eq_zero]
    intro o ho
    simp only [reset, List.mem_map] at ho
    obtain ⟨x, -, rfl⟩ := ho
    cases x with
    | none => simp [marked]
    | some v => by_cases hv : v.org <;> simp [marked, hv]
  exact ⟨run pls _ _ start h, by rw [hz]; rfl, hz⟩

/-- The tetrahedron cut in halves loses one vertex. -/
example : (truncPH (ofPH brepTetra) [brepHalf]).map (fun b => (b.discard, discardedVerts b)) = some (1, 1) := by decide +kernel

end Roki
