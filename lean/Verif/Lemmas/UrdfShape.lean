import Verif.Spec.UrdfShape
import Verif.Model.UrdfShape
import Verif.Lemmas.UrdfPlace7
set_option autoImplicit false

/-! # Shapes and materials of URDF documents -/

namespace Roki.Urdf.Doc
open ZTK Spec.UrdfDoc
variable {K : Type*}

/-- A loop that adds an entry for every element. -/
theorem foldlM_snoc {α β σ : Type*} (step : List β × σ → α → Option (List β × σ))
    (P : ℕ → α → σ → β → σ → Prop)
    (hstep : ∀ st a st', step st a = some st' → ∃ b, st'.1 = st.1 ++ [b] ∧ P st.1.length a st.2 b st'.2) :
    ∀ (as : List α) (st st' : List β × σ), as.foldlM step st = some st' →
      st'.1.length = st.1.length + as.length ∧ (∀ k < st.1.length, st'.1[k]? = st.1[k]?) ∧
      ∀ (k : ℕ) (a : α), as[k]? = some a → ∃ b m m', st'.1[st.1.length + k]? = some b ∧ P (st.1.length + k) a m b m' := by
  intro as
  induction as with
  | nil => intro st st' h; cases h; simp
  | cons a as ih =>
    intro st st' h
    rw [List.foldlM_cons] at h
    obtain ⟨s1, h1, h⟩ := Option.bind_eq_some_iff.1 h
    obtain ⟨b, e1, hP⟩ := hstep _ _ _ h1
    obtain ⟨i1, i2, i3⟩ := ih _ _ h
    have hl : s1.1.length = st.1.length + 1 := by rw [e1]; simp
    refine ⟨by rw [i1, hl, List.length_cons]; omega, fun k hk => ?_, ?_⟩
    · rw [i2 k (by omega), e1, List.getElem?_append_left hk]
    · rintro (_ | k) x hx
      · simp only [List.getElem?_cons_zero, Option.some.injEq] at hx
        subst hx
        refine ⟨b, _, _, ?_, hP⟩
        rw [Nat.add_zero, i2 _ (by omega), e1]
        simp
      · obtain ⟨b', m, m', g1, g2⟩ := i3 k x (by simpa using hx)
        rw [hl] at g1 g2
        refine ⟨b', m, m', ?_, ?_⟩
        · rw [← g1]; congr 1; omega
        · rwa [show st.1.length + (k + 1) = st.1.length + 1 + k by omega]

/-- The looks of the shapes of a link. -/
theorem lookLink_spec {init : Material K} {st st' : List (List (Look K)) × List (Material K)} {e : Elem K}
    (h : lookLink init st e = some st') : ∃ looks, st'.1 = st.1 ++ [looks] ∧ looks.length = (elems e "visual").length ∧
      ∀ (k : ℕ) v, (elems e "visual")[k]? = some v → ∃ lk lname name m m', looks[k]? = some lk ∧ linkName e = some lname ∧
        visualName lname k v = some name ∧ v.kids.foldlM (lookKid init name) (⟨none, none, none, none⟩, m) = some (lk, m') := by
  obtain ⟨lname, h1, h⟩ := Option.bind_eq_some_iff.1 h
  obtain ⟨r, h2, rfl⟩ := Option.map_eq_some_iff.1 h
  obtain ⟨a1, -, a3⟩ := foldlM_snoc (lookVisual init lname)
    (fun k v m lk m' => ∃ name, visualName lname k v = some name ∧
      v.kids.foldlM (lookKid init name) (⟨none, none, none, none⟩, m) = some (lk, m'))
    (fun st v st' hs => by
      obtain ⟨name, g1, hs⟩ := Option.bind_eq_some_iff.1 hs
      obtain ⟨r, g2, rfl⟩ := Option.map_eq_some_iff.1 hs
      exact ⟨_, rfl, name, g1, g2⟩) _ _ _ h2
  refine ⟨r.1, rfl, by simpa [elems] using a1, fun k v hv => ?_⟩
  obtain ⟨lk, m, m', b1, name, b2, b3⟩ := a3 k v hv
  simp only [List.length_nil, Nat.zero_add] at b1 b2
  exact ⟨lk, lname, name, m, m', b1, h1, b2, b3⟩

theorem looks_spec {init : Material K} {doc : Elem K} {ls : List (List (Look K))} {ms : List (Material K)}
    (h : looks init doc = some (ls, ms)) : ls.length = (elems doc "link").length ∧
      ∀ (i : ℕ) e, (elems doc "link")[i]? = some e → ∃ looks, ls[i]? = some looks ∧ looks.length = (elems e "visual").length ∧
        ∀ (k : ℕ) v, (elems e "visual")[k]? = some v → ∃ lk lname name m m', looks[k]? = some lk ∧ linkName e = some lname ∧
          visualName lname k v = some name ∧ v.kids.foldlM (lookKid init name) (⟨none, none, none, none⟩, m) = some (lk, m') := by
  obtain ⟨m0, -, h⟩ := Option.bind_eq_some_iff.1 h
  obtain ⟨a1, -, a3⟩ := foldlM_snoc (lookLink init)
    (fun _ e _ looks _ => looks.length = (elems e "visual").length ∧
      ∀ (k : ℕ) v, (elems e "visual")[k]? = some v → ∃ lk lname name m m', looks[k]? = some lk ∧ linkName e = some lname ∧
        visualName lname k v = some name ∧ v.kids.foldlM (lookKid init name) (⟨none, none, none, none⟩, m) = some (lk, m'))
    (fun st v st' hs => lookLink_spec hs) _ _ _ h
  refine ⟨by simpa [elems] using a1, fun i e he => ?_⟩
  obtain ⟨b, -, -, b1, b2⟩ := a3 i e he
  exact ⟨b, by simpa using b1, b2⟩

/-! ## Geometry -/

/-- The part of the look that the geometry sets. -/
def Look.geo (s : Look K) : Option String × Option (List (Tok K)) × Option (List (Tok K)) := (s.type, s.p1, s.p2)

theorem attrs_geo {α : Type*} (f : Look K → α → Look K) (hf : ∀ s t a, s.geo = t.geo → (f s a).geo = (f t a).geo) :
    ∀ (as : List α) (s t : Look K), s.geo = t.geo → (as.foldl f s).geo = (as.foldl f t).geo := by
  intro as
  induction as with
  | nil => exact fun _ _ h => h
  | cons a as ih => intro s t h; exact ih _ _ (hf _ _ _ h)

theorem geoKid_geo (s t : Look K) (e : Elem K) (h : s.geo = t.geo) : (geoKid s e).geo = (geoKid t e).geo := by
  simp only [Look.geo, Prod.mk.injEq] at h
  obtain ⟨h1, h2, h3⟩ := h
  rw [geoKid, geoKid]
  split_ifs
  · simp [evalBox, Look.geo, h3]
  · simp [evalSphere, Look.geo, h3]
  · rw [evalCylinder, evalCylinder]
    refine attrs_geo _ (fun s t a h => ?_) _ _ _ (by simp [Look.geo, h2, h3])
    simp only [Look.geo, Prod.mk.injEq] at h
    split_ifs <;> simp [Look.geo, h]
  · rw [evalMesh, evalMesh]
    refine attrs_geo _ (fun s t a h => ?_) _ _ _ (by simp [Look.geo, h2, h3])
    simp only [Look.geo, Prod.mk.injEq] at h
    split_ifs <;> simp [Look.geo, h]
  · simp [Look.geo, h1, h2, h3]

theorem geoKid_skip (s : Look K) (e : Elem K) (h : e.tag ∉ geoTags) : geoKid s e = s := by
  simp only [geoTags, List.mem_cons, List.not_mem_nil, or_false, not_or] at h
  obtain ⟨h1, h2, h3, h4⟩ := h
  rw [geoKid, if_neg h1, if_neg h2, if_neg h3, if_neg h4]

theorem evalGeometry_filter (e : Elem K) (s : Look K) :
    evalGeometry e s = (e.kids.filter fun k => k.tag ∈ geoTags).foldl geoKid s := by
  rw [evalGeometry]
  induction e.kids generalizing s with
  | nil => rfl
  | cons a as ih =>
    rw [List.foldl_cons, List.filter_cons]
    split_ifs with h
    · rw [List.foldl_cons, ih]
    · rw [geoKid_skip s a (by simpa using h), ih]

/-- The geometry of a shape comes from the elements `geometry` only. -/
theorem lookKids_geo {init : Material K} {name : String} : ∀ (es : List (Elem K)) (st st' : Look K × List (Material K)),
    es.foldlM (lookKid init name) st = some st' →
      st'.1.geo = ((es.filter fun k => k.tag = "geometry").foldl (fun s e => evalGeometry e s) st.1).geo := by
  have hg : ∀ (es : List (Elem K)) (s t : Look K), s.geo = t.geo →
      (es.foldl (fun s e => evalGeometry e s) s).geo = (es.foldl (fun s e => evalGeometry e s) t).geo :=
    attrs_geo _ fun s t e h => attrs_geo _ geoKid_geo _ _ _ h
  intro es
  induction es with
  | nil => intro st st' h; cases h; rfl
  | cons e es ih =>
    intro st st' h
    rw [List.foldlM_cons] at h
    obtain ⟨s1, h1, h⟩ := Option.bind_eq_some_iff.1 h
    rw [ih _ _ h, List.filter_cons]
    rw [lookKid] at h1
    split_ifs at h1 with g1 g2
    · cases h1
      rw [if_pos (by simp [g1]), List.foldl_cons]
    · rw [if_neg (by simp [g1])]
      refine hg _ _ _ ?_
      obtain ⟨n, -, h1⟩ := Option.bind_eq_some_iff.1 h1
      split_ifs at h1
      · cases h1; rfl
      · obtain ⟨m, -, rfl⟩ := Option.map_eq_some_iff.1 h1
        rfl
    · cases h1
      rw [if_neg (by simp [g1])]

/-- The last value of an attribute. -/
theorem attrs_kept {σ : Type*} (k : String) (get : σ → Option (List (Tok K))) (f : σ → String × List (Tok K) → σ)
    (h1 : ∀ s a, a.1 = k → get (f s a) = some a.2) (h2 : ∀ s a, a.1 ≠ k → get (f s a) = get s) :
    ∀ (as : List (String × List (Tok K))) (s : σ),
      get (as.foldl f s) = (((as.filter fun a => a.1 = k).map Prod.snd).getLast?).or (get s) := by
  intro as
  induction as with
  | nil => intro s; rfl
  | cons a as ih =>
    intro s
    rw [List.foldl_cons, ih, List.filter_cons]
    by_cases h : a.1 = k
    · rw [if_pos (by simpa using h), h1 _ _ h, List.map_cons, List.getLast?_cons]
      cases ((as.filter fun a => a.1 = k).map Prod.snd).getLast? <;> rfl
    · rw [if_neg (by simpa using h), h2 _ _ h]

theorem foldl_type {α : Type*} (f : Look K → α → Look K) (h : ∀ s a, (f s a).type = s.type) :
    ∀ (as : List α) (s : Look K), (as.foldl f s).type = s.type := by
  intro as
  induction as with
  | nil => intro s; rfl
  | cons a as ih => intro s; rw [List.foldl_cons, ih, h]

theorem evalCylinder_eq (e : Elem K) (s : Look K) : (evalCylinder e s).type = some e.tag ∧
    (evalCylinder e s).p1 = (attr e "radius").or s.p1 ∧ (evalCylinder e s).p2 = (attr e "length").or s.p2 := by
  refine ⟨?_, ?_, ?_⟩
  · rw [evalCylinder, foldl_type]
    intro s a; split_ifs <;> rfl
  · rw [evalCylinder, attrs_kept "radius" (fun s : Look K => s.p1)]
    · rfl
    · intro s a h; rw [if_pos h]
    · intro s a h; rw [if_neg h]; split_ifs <;> rfl
  · rw [evalCylinder, attrs_kept "length" (fun s : Look K => s.p2)]
    · rfl
    · intro s a h; rw [if_neg (by rw [h]; decide), if_pos h]
    · intro s a h; split_ifs <;> rfl

/-- The fields of a solid. -/
def solidFlds [Field K] : Solid K → List (Fld K)
  | .box x y z => [⟨"type", [.str "box"]⟩, ⟨"depth", [.num x]⟩, ⟨"width", [.num y]⟩, ⟨"height", [.num z]⟩]
  | .ball r => [⟨"type", [.str "sphere"]⟩, ⟨"radius", [.num r]⟩]
  | .cylinder r l => [⟨"type", [.str "cylinder"]⟩, ⟨"center", tokVec ⟨0, 0, l / 2⟩⟩, ⟨"center", tokVec ⟨0, 0, -(l / 2)⟩⟩,
      ⟨"radius", [.num r]⟩]

/-- The fields of the geometry that are written. -/
theorem outGeo_solid [Field K] [LinearOrder K] {init : Material K} {name : String} {v : Elem K} {m m' : List (Material K)}
    {lk : Look K} (h : v.kids.foldlM (lookKid init name) (⟨none, none, none, none⟩, m) = some (lk, m')) {s : Solid K} (hs : HasSolid v s) :
    ∃ t, lk.type = some t ∧ outGeo t lk = some (solidFlds s) := by
  obtain ⟨g, b, hg, hb, hs⟩ := hs
  have e := lookKids_geo _ _ _ h
  rw [show (v.kids.filter fun k => k.tag = "geometry") = [g] from hg, List.foldl_cons, List.foldl_nil, evalGeometry_filter, hb,
    List.foldl_cons, List.foldl_nil] at e
  simp only [Look.geo, Prod.mk.injEq] at e
  obtain ⟨e1, e2, e3⟩ := e
  rcases s with ⟨x, y, z⟩ | r | ⟨r, l⟩
  · obtain ⟨ht, hv⟩ := hs
    rw [geoKid, if_pos ht] at e1 e2
    refine ⟨_, e1, ?_⟩
    rw [ht, outGeo, if_pos rfl, outBox, e2]
    simp only [evalBox, hv, solidFlds]
  · obtain ⟨ht, hv⟩ := hs
    rw [geoKid, if_neg (by rw [ht]; decide), if_pos ht] at e1 e2
    refine ⟨_, e1, ?_⟩
    rw [ht, outGeo, if_neg (by decide), if_pos rfl, outSphere, e2]
    simp only [evalSphere, hv, solidFlds]
  · obtain ⟨ht, hv, hw, hl⟩ := hs
    rw [geoKid, if_neg (by rw [ht]; decide), if_neg (by rw [ht]; decide), if_pos ht] at e1 e2 e3
    obtain ⟨c1, c2, c3⟩ := evalCylinder_eq b (⟨none, none, none, none⟩ : Look K)
    rw [c1] at e1
    rw [c2, hv] at e2
    rw [c3, hw] at e3
    refine ⟨_, e1, ?_⟩
    rw [ht, outGeo, if_neg (by decide), if_neg (by decide), if_pos rfl, outCylinder, e2, e3]
    simp only [Option.some_or]
    rw [if_neg (by exact not_lt.2 hl.le), solidFlds]

theorem evalMesh_eq (e : Elem K) (s : Look K) : (evalMesh e s).type = some e.tag ∧
    (evalMesh e s).p1 = (attr e "filename").or s.p1 ∧ (evalMesh e s).p2 = (attr e "scale").or s.p2 := by
  refine ⟨?_, ?_, ?_⟩
  · rw [evalMesh, foldl_type]
    intro s a; split_ifs <;> rfl
  · rw [evalMesh, attrs_kept "filename" (fun s : Look K => s.p1)]
    · rfl
    · intro s a h; rw [if_pos h]
    · intro s a h; rw [if_neg h]; split_ifs <;> rfl
  · rw [evalMesh, attrs_kept "scale" (fun s : Look K => s.p2)]
    · rfl
    · intro s a h; rw [if_neg (by rw [h]; decide), if_pos h]
    · intro s a h; split_ifs <;> rfl

theorem outGeo_mesh [Field K] [LinearOrder K] {init : Material K} {name : String} {v : Elem K} {m m' : List (Material K)}
    {lk : Look K} (h : v.kids.foldlM (lookKid init name) (⟨none, none, none, none⟩, m) = some (lk, m')) {file : List (Tok K)}
    {scale : Option (List (Tok K))} (hs : HasMesh v file scale) :
    ∃ t, lk.type = some t ∧ outGeo t lk = some [⟨"import", file ++ scale.getD []⟩] := by
  obtain ⟨g, b, hg, hb, ht, hv, hw⟩ := hs
  have e := lookKids_geo _ _ _ h
  rw [show (v.kids.filter fun k => k.tag = "geometry") = [g] from hg, List.foldl_cons, List.foldl_nil, evalGeometry_filter, hb,
    List.foldl_cons, List.foldl_nil] at e
  simp only [Look.geo, Prod.mk.injEq] at e
  obtain ⟨e1, e2, e3⟩ := e
  rw [geoKid, if_neg (by rw [ht]; decide), if_neg (by rw [ht]; decide), if_neg (by rw [ht]; decide), if_pos ht] at e1 e2 e3
  obtain ⟨c1, c2, c3⟩ := evalMesh_eq b (⟨none, none, none, none⟩ : Look K)
  rw [c1] at e1
  rw [c2, hv] at e2
  rw [c3, hw, Option.or_none] at e3
  refine ⟨_, e1, ?_⟩
  rw [ht, outGeo, if_neg (by decide), if_neg (by decide), if_neg (by decide), if_pos rfl, outMesh, e2, e3]
  rfl

theorem mem_zip_flatten {α β : Type*} : ∀ {A : List (List α)} {B : List (List β)}, A.map List.length = B.map List.length →
    ∀ {i k : ℕ} {a b x y}, A[i]? = some a → B[i]? = some b → a[k]? = some x → b[k]? = some y → (x, y) ∈ A.flatten.zip B.flatten := by
  intro A
  induction A with
  | nil => intro B _ i k a b x y h; simp at h
  | cons a0 A ih =>
    rintro (_ | ⟨b0, B⟩) hl i k a b x y ha hb hx hy
    · simp at hl
    simp only [List.map_cons, List.cons.injEq] at hl
    rw [List.flatten_cons, List.flatten_cons, List.zip_append hl.1, List.mem_append]
    rcases i with _ | i
    · simp only [List.getElem?_cons_zero, Option.some.injEq] at ha hb
      subst ha hb
      left
      refine List.mem_iff_getElem?.2 ⟨k, ?_⟩
      rw [List.getElem?_zip_eq_some]
      exact ⟨hx, hy⟩
    · exact .inr (ih hl.2 (by simpa using ha) (by simpa using hb) hx hy)

/-! ## Names -/

theorem strTok_some {ts : List (Tok K)} {s : String} (h : strTok ts = some s) : ts = [.str s] := by
  rw [strTok.eq_def] at h
  split at h
  · cases h; rfl
  · cases h

theorem shapeNames_get (link : String) : ∀ (vs : List (Elem K)) (n k : ℕ), (shapeNames link n vs)[k]? = vs[k]?.map fun v =>
    match v.find "name" with
      | some [.str s] => s
      | _ => link ++ "_" ++ toString (n + k) := by
  intro vs
  induction vs with
  | nil => intro n k; simp [shapeNames]
  | cons v vs ih =>
    rintro n (_ | k)
    · simp only [shapeNames, List.getElem?_cons_zero, Option.map_some, Nat.add_zero]
      rfl
    · rw [shapeNames, List.getElem?_cons_succ, ih, List.getElem?_cons_succ]
      rw [show n + 1 + k = n + (k + 1) by omega]

theorem visualName_shape {n name : String} {vs : List (Elem K)} {k : ℕ} {v : Elem K} (hv : vs[k]? = some v)
    (h : visualName (some n) k v = some name) : (shapeNames n 0 vs)[k]? = some name := by
  rw [shapeNames_get, hv, Option.map_some]
  rw [visualName] at h
  split at h
  · rename_i ts hts
    rw [hts, strTok_some h]
  · rename_i hts
    rw [hts]
    simp only [Option.map_some, Option.some.injEq] at h
    simp only [Nat.zero_add, h]

theorem linkName_eq {e : Elem K} {n : String} (h : e.find "name" = some [.str n]) : linkName e = some (some n) := by
  rw [linkName, h]; rfl

/-! ## Types -/

theorem geoKid_type (s : Look K) (e : Elem K) : (geoKid s e).type = if e.tag ∈ geoTags then some e.tag else s.type := by
  by_cases h : e.tag ∈ geoTags
  · rw [if_pos h]
    rw [geoKid]
    split_ifs with h1 h2 h3 h4
    · rfl
    · rfl
    · exact (evalCylinder_eq e s).1
    · rw [evalMesh, foldl_type]
      intro s a; split_ifs <;> rfl
    · simp [geoTags, h1, h2, h3, h4] at h
  · rw [if_neg h, geoKid_skip s e h]

theorem geoKids_typed : ∀ (es : List (Elem K)) (s : Look K), (s.type.isSome ∨ ∃ e ∈ es, e.tag ∈ geoTags) →
    (es.foldl geoKid s).type.isSome := by
  intro es
  induction es with
  | nil => rintro s (h | ⟨e, he, -⟩); exacts [h, absurd he (by simp)]
  | cons a es ih =>
    rintro s h
    rw [List.foldl_cons]
    refine ih _ ?_
    rw [geoKid_type]
    by_cases ha : a.tag ∈ geoTags
    · left; rw [if_pos ha]; rfl
    · rw [if_neg ha]
      rcases h with h | ⟨e, he, ht⟩
      · exact .inl h
      · rcases List.mem_cons.1 he with rfl | he
        · exact absurd ht ha
        · exact .inr ⟨e, he, ht⟩

theorem geos_typed : ∀ (es : List (Elem K)) (s : Look K), (s.type.isSome ∨ ∃ g ∈ es, ∃ e ∈ g.kids, e.tag ∈ geoTags) →
    (es.foldl (fun s e => evalGeometry e s) s).type.isSome := by
  intro es
  induction es with
  | nil => rintro s (h | ⟨e, he, -⟩); exacts [h, absurd he (by simp)]
  | cons a es ih =>
    rintro s h
    rw [List.foldl_cons]
    refine ih _ ?_
    rcases h with h | ⟨e, he, ht⟩
    · exact .inl (geoKids_typed _ _ (.inl h))
    · rcases List.mem_cons.1 he with rfl | he
      · exact .inl (geoKids_typed _ _ (.inr ht))
      · exact .inr ⟨e, he, ht⟩

theorem look_typed {init : Material K} {name : String} {v : Elem K} {m m' : List (Material K)} {lk : Look K}
    (h : v.kids.foldlM (lookKid init name) (⟨none, none, none, none⟩, m) = some (lk, m'))
    (hv : ∃ g ∈ elems v "geometry", ∃ t ∈ geoTags, elems g t ≠ []) : lk.type.isSome := by
  have e := lookKids_geo _ _ _ h
  simp only [Look.geo, Prod.mk.injEq] at e
  rw [e.1]
  refine geos_typed _ _ (.inr ?_)
  obtain ⟨g, hg, t, ht, hne⟩ := hv
  obtain ⟨b, hb⟩ := List.exists_mem_of_ne_nil _ hne
  obtain ⟨h1, h2⟩ := List.mem_filter.1 hb
  refine ⟨g, hg, b, h1, ?_⟩
  have : b.tag = t := by simpa using h2
  rwa [this]

/-! ## Materials -/

theorem foldlM_mem {α β τ : Type*} (step : τ → α → Option τ) (mem : τ → β → Prop) (R : α → β → Prop)
    (hstep : ∀ st a st', step st a = some st' → ∀ x, mem st' x ↔ mem st x ∨ R a x) :
    ∀ (as : List α) (st st' : τ), as.foldlM step st = some st' → ∀ x, mem st' x ↔ mem st x ∨ ∃ a ∈ as, R a x := by
  intro as
  induction as with
  | nil => intro st st' h x; cases h; simp
  | cons a as ih =>
    intro st st' h x
    rw [List.foldlM_cons] at h
    obtain ⟨s1, h1, h⟩ := Option.bind_eq_some_iff.1 h
    rw [ih _ _ h, hstep _ _ _ h1]
    simp [or_assoc]

theorem foldlM_memIdx {α β τ : Type*} (step : τ → α → Option τ) (len : τ → ℕ) (mem : τ → β → Prop) (R : ℕ → α → β → Prop)
    (hstep : ∀ st a st', step st a = some st' → len st' = len st + 1 ∧ ∀ x, mem st' x ↔ mem st x ∨ R (len st) a x) :
    ∀ (as : List α) (st st' : τ), as.foldlM step st = some st' →
      ∀ x, mem st' x ↔ mem st x ∨ ∃ (k : ℕ) (a : α), as[k]? = some a ∧ R (len st + k) a x := by
  intro as
  induction as with
  | nil => intro st st' h x; cases h; simp
  | cons a as ih =>
    intro st st' h x
    rw [List.foldlM_cons] at h
    obtain ⟨s1, h1, h⟩ := Option.bind_eq_some_iff.1 h
    obtain ⟨e1, e2⟩ := hstep _ _ _ h1
    rw [ih _ _ h, e2, e1, or_assoc]
    refine or_congr Iff.rfl ⟨?_, ?_⟩
    · rintro (h | ⟨k, b, hb, h⟩)
      · exact ⟨0, a, rfl, h⟩
      · exact ⟨k + 1, b, by simpa using hb, by rwa [show len st + (k + 1) = len st + 1 + k by omega]⟩
    · rintro ⟨_ | k, b, hb, h⟩
      · simp only [List.getElem?_cons_zero, Option.some.injEq] at hb
        subst hb
        exact .inl h
      · exact .inr ⟨k, b, by simpa using hb, by rwa [show len st + 1 + k = len st + (k + 1) by omega]⟩

/-- The name of a material that is defined for the shape `sname`. -/
def matFor (sname : String) (n : Option String) : String :=
  match n with
  | none => sname
  | some s => if s = "" then sname else s

theorem lookKid_mem {init : Material K} {sname : String} {st st' : Look K × List (Material K)} {e : Elem K}
    (h : lookKid init sname st e = some st') (x : Material K) : x ∈ st'.2 ↔ x ∈ st.2 ∨ (e.tag = "material" ∧ e.kids ≠ [] ∧
      ∃ n, matName e = some n ∧ evalMaterial init (some (matFor sname n)) e = some x) := by
  rw [lookKid] at h
  split_ifs at h with h1 h2
  · cases h
    have : e.tag ≠ "material" := by rw [h1]; decide
    simp [this]
  · obtain ⟨n, hn, h⟩ := Option.bind_eq_some_iff.1 h
    split_ifs at h with h3
    · cases h
      have : e.kids = [] := by simpa using h3
      simp [this]
    · obtain ⟨m, hm, rfl⟩ := Option.map_eq_some_iff.1 h
      have hk : e.kids ≠ [] := by simpa using h3
      have hm : evalMaterial init (some (matFor sname n)) e = some m := hm
      simp only [List.mem_append, List.mem_singleton, h2, hn, Option.some.injEq, true_and, exists_eq_left', hm]
      refine or_congr Iff.rfl ⟨fun h => ⟨hk, h.symm⟩, fun h => h.2.symm⟩
  · cases h
    simp [h2]

theorem lookVisual_mem {init : Material K} {lname : Option String} {st st' : List (Look K) × List (Material K)} {e : Elem K}
    (h : lookVisual init lname st e = some st') : st'.1.length = st.1.length + 1 ∧ ∀ x, x ∈ st'.2 ↔ x ∈ st.2 ∨
      ∃ name, visualName lname st.1.length e = some name ∧ ∃ b ∈ elems e "material", b.kids ≠ [] ∧
        ∃ n, matName b = some n ∧ evalMaterial init (some (matFor name n)) b = some x := by
  obtain ⟨name, h1, h⟩ := Option.bind_eq_some_iff.1 h
  obtain ⟨r, h2, rfl⟩ := Option.map_eq_some_iff.1 h
  refine ⟨by simp, fun x => ?_⟩
  have := foldlM_mem (lookKid init name) (fun st x => x ∈ st.2) _ (fun st a st' h => lookKid_mem h) _ _ _ h2 x
  refine this.trans (or_congr Iff.rfl ?_)
  simp only [h1, Option.some.injEq, exists_eq_left']
  simp only [elems, List.mem_filter, decide_eq_true_eq, and_assoc]

theorem lookLink_mem {init : Material K} {st st' : List (List (Look K)) × List (Material K)} {e : Elem K}
    (h : lookLink init st e = some st') (x : Material K) : x ∈ st'.2 ↔ x ∈ st.2 ∨
      ∃ lname, linkName e = some lname ∧ ∃ (k : ℕ) (v : Elem K), (elems e "visual")[k]? = some v ∧
        ∃ name, visualName lname k v = some name ∧ ∃ b ∈ elems v "material", b.kids ≠ [] ∧
          ∃ n, matName b = some n ∧ evalMaterial init (some (matFor name n)) b = some x := by
  obtain ⟨lname, h1, h⟩ := Option.bind_eq_some_iff.1 h
  obtain ⟨r, h2, rfl⟩ := Option.map_eq_some_iff.1 h
  have := foldlM_memIdx (lookVisual init lname) (fun st => st.1.length) (fun st x => x ∈ st.2)
    (fun k v x => ∃ name, visualName lname k v = some name ∧ ∃ b ∈ elems v "material", b.kids ≠ [] ∧
        ∃ n, matName b = some n ∧ evalMaterial init (some (matFor name n)) b = some x) (fun st a st' h => lookVisual_mem h) _ _ _ h2 x
  refine this.trans (or_congr Iff.rfl ?_)
  simp only [h1, Option.some.injEq, exists_eq_left', List.length_nil, Nat.zero_add]
  rfl

theorem looks_mem {init : Material K} {doc : Elem K} {ls : List (List (Look K))} {ms : List (Material K)}
    (h : looks init doc = some (ls, ms)) (x : Material K) : x ∈ ms ↔ (∃ e ∈ elems doc "material", topMaterial init e = some x) ∨
      ∃ e ∈ elems doc "link", ∃ lname, linkName e = some lname ∧ ∃ (k : ℕ) (v : Elem K), (elems e "visual")[k]? = some v ∧
        ∃ name, visualName lname k v = some name ∧ ∃ b ∈ elems v "material", b.kids ≠ [] ∧
          ∃ n, matName b = some n ∧ evalMaterial init (some (matFor name n)) b = some x := by
  obtain ⟨m0, h1, h⟩ := Option.bind_eq_some_iff.1 h
  have := foldlM_mem (lookLink init) (fun st x => x ∈ st.2) _ (fun st a st' h => lookLink_mem h) _ _ _ h x
  refine this.trans (or_congr ?_ Iff.rfl)
  have hf := mapM_forall₂ h1
  constructor
  · intro hx
    obtain ⟨k, hk⟩ := List.mem_iff_getElem?.1 hx
    obtain ⟨a, ha, e⟩ := forall₂_get hf hk
    exact ⟨a, List.mem_of_getElem? ha, e⟩
  · rintro ⟨a, ha, e⟩
    obtain ⟨k, hk⟩ := List.mem_iff_getElem?.1 ha
    obtain ⟨b, hb, e'⟩ := forall₂_get hf.flip hk
    rw [e] at e'
    cases e'
    exact List.mem_of_getElem? hb

theorem evalMaterial_color (init : Material K) (name : Option String) {e : Elem K} {r g b a : K}
    (hc : HasColor e r g b a) : evalMaterial init name e = some ⟨name, r, g, b, a⟩ := by
  obtain ⟨c, hc, hv⟩ := hc
  have all : ∀ (es : List (Elem K)) (m : Material K), es.foldlM evalColor m =
      (es.filter fun k => k.tag = "color").foldlM evalColor m := by
    intro es
    induction es with
    | nil => exact fun _ => rfl
    | cons k es ih =>
      intro m
      rw [List.filter_cons]
      split_ifs with hk
      · rw [List.foldlM_cons, List.foldlM_cons]
        congr 1
        funext m
        exact ih m
      · rw [List.foldlM_cons, evalColor, if_neg (by simpa using hk)]
        exact ih m
  have hc' : (e.kids.filter fun k => k.tag = "color") = [c] := hc
  have ht : c.tag = "color" := by
    have : c ∈ e.kids.filter fun k => k.tag = "color" := by rw [hc']; simp
    simpa using (List.mem_filter.1 this).2
  rw [evalMaterial, all, hc', List.foldlM_cons, evalColor, if_pos ht, hv]
  rfl

theorem evalMaterial_name {init x : Material K} {name : Option String} {e : Elem K} (h : evalMaterial init name e = some x) : x.name = name := by
  have all : ∀ (es : List (Elem K)) (m x : Material K), es.foldlM evalColor m = some x → x.name = m.name := by
    intro es
    induction es with
    | nil => intro m x h; cases h; rfl
    | cons k es ih =>
      intro m x h
      rw [List.foldlM_cons] at h
      obtain ⟨s1, h1, h⟩ := Option.bind_eq_some_iff.1 h
      rw [ih _ _ h]
      rw [evalColor] at h1
      split_ifs at h1
      · obtain ⟨ts, -, rfl⟩ := Option.map_eq_some_iff.1 h1
        rw [getRGBA.eq_def]
        split <;> rfl
      · cases h1; rfl
  exact all _ _ _ h

/-- The material that a shape with one material refers to. -/
theorem look_material {init : Material K} {sname : String} {v b : Elem K} {m m' : List (Material K)} {lk : Look K}
    (h : v.kids.foldlM (lookKid init sname) (⟨none, none, none, none⟩, m) = some (lk, m')) (hb : elems v "material" = [b]) :
    ∃ n, matName b = some n ∧ lk.material = if b.kids = [] then n else some (matFor sname n) := by
  have all : ∀ (es : List (Elem K)) (st st' : Look K × List (Material K)), es.foldlM (lookKid init sname) st = some st' →
      (es.filter fun k => k.tag = "material") = [] → st'.1.material = st.1.material := by
    intro es
    induction es with
    | nil => intro st st' h _; cases h; rfl
    | cons k es ih =>
      intro st st' h hn
      rw [List.foldlM_cons] at h
      obtain ⟨s1, h1, h⟩ := Option.bind_eq_some_iff.1 h
      rw [List.filter_cons] at hn
      split_ifs at hn with hk
      rw [ih _ _ h hn]
      rw [lookKid, if_neg (by simpa using hk) (c := k.tag = "material")] at h1
      split_ifs at h1
      · cases h1
        have hg : ∀ (as : List (Elem K)) (s : Look K), (as.foldl geoKid s).material = s.material := by
          intro as
          induction as with
          | nil => exact fun _ => rfl
          | cons a as ih2 =>
            intro s
            rw [List.foldl_cons, ih2, geoKid]
            have h0 : ∀ (f : Look K → String × List (Tok K) → Look K), (∀ s a, (f s a).material = s.material) →
                ∀ (as : List (String × List (Tok K))) (s : Look K), (as.foldl f s).material = s.material := by
              intro f hf as
              induction as with
              | nil => exact fun _ => rfl
              | cons a as ih3 => intro s; rw [List.foldl_cons, ih3, hf]
            split_ifs
            · rfl
            · rfl
            · rw [evalCylinder, h0]; intro s a; split_ifs <;> rfl
            · rw [evalMesh, h0]; intro s a; split_ifs <;> rfl
            · rfl
        exact hg _ _
      · cases h1; rfl
  have hb' : (v.kids.filter fun k => k.tag = "material") = [b] := hb
  obtain ⟨l1, l2, e1, e2, e3, e4⟩ := List.filter_eq_cons_iff.1 hb'
  rw [e1, List.foldlM_append] at h
  obtain ⟨s1, h1, h⟩ := Option.bind_eq_some_iff.1 h
  rw [List.foldlM_cons] at h
  obtain ⟨s2, h2, h⟩ := Option.bind_eq_some_iff.1 h
  have hm := all _ _ _ h e4
  have ht : b.tag = "material" := by simpa using e3
  rw [lookKid, if_neg (by rw [ht]; decide), if_pos ht] at h2
  obtain ⟨n, hn, h2⟩ := Option.bind_eq_some_iff.1 h2
  refine ⟨n, hn, ?_⟩
  split_ifs at h2 with hk
  · cases h2
    rw [if_pos (by simpa using hk)]
    exact hm
  · obtain ⟨x, -, rfl⟩ := Option.map_eq_some_iff.1 h2
    rw [if_neg (by simpa using hk)]
    exact hm

end Roki.Urdf.Doc
