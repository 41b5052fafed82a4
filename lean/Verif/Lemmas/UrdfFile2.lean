import Verif.Lemmas.UrdfFile
set_option autoImplicit false

/-! # URDF documents: links and joints after the evaluation -/

namespace Roki.Urdf.Doc
open ZTK Spec.UrdfDoc
variable {K : Type*} [Field K]

/-! ## Folds -/

theorem foldl_last {α σ β : Type*} (π : σ → β) (f : σ → α → σ) (vs : α → List β)
    (h : ∀ s a, π (f s a) = (vs a).getLast?.getD (π s)) : ∀ (l : List α) (s : σ),
    π (l.foldl f s) = (l.flatMap vs).getLast?.getD (π s) := by
  intro l
  induction l with
  | nil => intro s; rfl
  | cons a l ih =>
    intro s
    rw [List.foldl_cons, ih, h, List.flatMap_cons, List.getLast?_append]
    cases (l.flatMap vs).getLast? <;> rfl

theorem flatMap_if {α β : Type*} (p : α → Prop) [DecidablePred p] (g : α → List β) (l : List α) :
    (l.flatMap fun a => if p a then g a else []) = (l.filter fun a => decide (p a)).flatMap g := by
  induction l with
  | nil => rfl
  | cons a l ih =>
    rw [List.flatMap_cons, List.filter_cons, ih]
    by_cases h : p a <;> simp [h]

theorem map_some_getLast {β : Type*} (l : List β) : (l.map some).getLast?.getD none = l.getLast? := by
  rw [List.getLast?_map]
  cases l.getLast? <;> rfl

theorem attrs_last (k : String) (l : List (String × List (Tok K))) :
    (l.flatMap fun a => if a.1 = k then [some a.2] else []) = ((l.filter fun a => a.1 = k).map Prod.snd).map some := by
  rw [flatMap_if (fun a : String × List (Tok K) => a.1 = k)]
  induction l.filter fun a => decide (a.1 = k) with
  | nil => rfl
  | cons a l ih => rw [List.flatMap_cons, ih]; rfl

/-! ## Names -/

/-- The link that an element names. -/
def resolve (names : List String) (e : Elem K) : Option ℕ :=
  ((e.find "link").bind strTok).bind fun n => names.findIdx? fun m => m == n

theorem findFrom_eq (n : String) : ∀ (ls : List (Link K)) (names : List String) (i : ℕ), ls.map (fun l => l.name) = names.map some →
    findFrom n i ls = some ((names.findIdx? fun m => m == n).map fun k => i + k) := by
  intro ls
  induction ls with
  | nil =>
    intro names i h
    rw [List.map_nil, eq_comm, List.map_eq_nil_iff] at h
    subst h
    rfl
  | cons l ls ih =>
    intro names i h
    rcases names with _ | ⟨m, names⟩
    · simp at h
    · simp only [List.map_cons, List.cons.injEq] at h
      rw [findFrom, h.1, Option.bind_some, ih names (i + 1) h.2, List.findIdx?_cons]
      by_cases hm : m = n
      · simp [hm]
      · simp only [hm, if_false, beq_iff_eq, Option.map_map]
        congr 2
        funext k
        simp only [Function.comp]
        omega

theorem findLink_eq {s : Info K} {names : List String} (hN : s.link.map (fun l => l.name) = names.map some) (n : String) :
    findLink s n = some (names.findIdx? fun m => m == n) := by
  rw [findLink, findFrom_eq n s.link names 0 hN]
  simp

/-! ## The elements of a joint -/

/-- What an element of a joint does to the joint. -/
def kidJoint (names : List String) (x : Joint K) (e : Elem K) : Joint K :=
  if e.tag = "parent" then { x with parent := resolve names e }
  else if e.tag = "child" then { x with child := resolve names e }
  else if e.tag = "dynamic" then e.attrs.foldl dynamicAttr x
  else if e.tag = "limit" then e.attrs.foldl limitAttr x
  else x

/-- Joint `j` becomes the joint of a link. -/
def setJoint (ls : List (Link K)) (o : Option ℕ) (j : ℕ) : List (Link K) :=
  match o with
  | none => ls
  | some l => ls.modify l fun x => { x with joint := some j }

theorem set_eq_modify {α : Type*} {l : List α} {i : ℕ} {x : α} (f : α → α) (h : l[i]? = some x) : l.set i (f x) = l.modify i f := by
  apply List.ext_getElem?
  intro k
  rw [List.getElem?_set, List.getElem?_modify]
  by_cases hk : i = k
  · subst hk
    obtain ⟨hl, e⟩ := List.getElem?_eq_some_iff.1 h
    simp [hl, e]
  · simp [hk]

theorem setJoint_names (ls : List (Link K)) (o : Option ℕ) (j : ℕ) : (setJoint ls o j).map (fun l => l.name) = ls.map fun l => l.name := by
  cases o with
  | none => rfl
  | some l =>
    apply List.ext_getElem?
    intro k
    simp only [setJoint, List.getElem?_map, List.getElem?_modify]
    cases ls[k]? with
    | none => rfl
    | some x => by_cases h : l = k <;> simp [h]

theorem set_self {α : Type*} {l : List α} {i : ℕ} {x : α} (h : l[i]? = some x) : l.set i x = l := by
  apply List.ext_getElem?
  intro k
  rw [List.getElem?_set]
  by_cases hk : i = k
  · subst hk
    obtain ⟨hl, e⟩ := List.getElem?_eq_some_iff.1 h
    simp [hl, e]
  · simp [hk]

theorem coreKid_eq {names : List String} {j : ℕ} {s s' : Info K} {e : Elem K} {x : Joint K} (h : coreKid j s e = some s')
    (hN : s.link.map (fun l => l.name) = names.map some) (hx : s.joint[j]? = some x) :
    s' = { s with joint := s.joint.set j (kidJoint names x e)
                  link := if e.tag = "child" then setJoint s.link (resolve names e) j else s.link } := by
  have mj : ∀ {f : Joint K → Joint K} {s' : Info K}, modJoint s j f = some s' → s' = { s with joint := s.joint.set j (f x) } := by
    intro f s' h
    rw [modJoint, hx] at h
    cases h
    rfl
  have se := set_self hx
  rw [coreKid] at h
  split_ifs at h with h1 h2 h3 h4 h5 h6
  · cases h
    simp [kidJoint, h1, se]
  · obtain ⟨n, hn, h⟩ := Option.bind_eq_some_iff.1 h
    rw [findLink_eq hN, Option.bind_some] at h
    rw [mj h]
    simp [kidJoint, h2, resolve, hn]
  · rw [evalChild] at h
    obtain ⟨n, hn, h⟩ := Option.bind_eq_some_iff.1 h
    rw [findLink_eq hN, Option.bind_some] at h
    obtain ⟨s1, h1, h⟩ := Option.bind_eq_some_iff.1 h
    have e1 := mj h1
    have er : resolve names e = names.findIdx? fun m => m == n := by rw [resolve, hn, Option.bind_some]
    rw [if_pos h3, er]
    split at h
    · next hi =>
      cases h
      rw [e1, hi]
      simp [kidJoint, h3, resolve, hn, setJoint, hi]
    · next l hi =>
      obtain ⟨y, hy, rfl⟩ := Option.map_eq_some_iff.1 h
      rw [e1] at hy ⊢
      rw [hi]
      simp only at hy
      rw [set_eq_modify (fun x => { x with joint := some j }) hy]
      simp [kidJoint, h3, resolve, hn, setJoint, hi]
  · cases h
    simp [kidJoint, h4, se]
  · rw [mj h]
    simp [kidJoint, h5]
  · rw [mj h]
    simp [kidJoint, h6]
  · cases h
    simp [kidJoint, h2, h3, h5, h6, se]

/-- The links after the elements of joint `j`. -/
def kidLinks (names : List String) (j : ℕ) (ks : List (Elem K)) (ls : List (Link K)) : List (Link K) :=
  (ks.filter fun e => e.tag = "child").foldl (fun ls e => setJoint ls (resolve names e) j) ls

theorem coreKids_eq {names : List String} {j : ℕ} : ∀ (ks : List (Elem K)) (s s' : Info K) (x : Joint K),
    ks.foldlM (coreKid j) s = some s' → s.link.map (fun l => l.name) = names.map some → s.joint[j]? = some x →
    s' = { s with joint := s.joint.set j (ks.foldl (kidJoint names) x), link := kidLinks names j ks s.link } := by
  intro ks
  induction ks with
  | nil =>
    intro s s' x h hN hx
    cases h
    simp [kidLinks, set_self hx]
  | cons e ks ih =>
    intro s s' x h hN hx
    rw [List.foldlM_cons] at h
    obtain ⟨s1, h1, h⟩ := Option.bind_eq_some_iff.1 h
    have e1 := coreKid_eq h1 hN hx
    obtain ⟨hl, -⟩ := List.getElem?_eq_some_iff.1 hx
    have hN1 : s1.link.map (fun l => l.name) = names.map some := by
      rw [e1]
      simp only
      split_ifs
      · rw [setJoint_names, hN]
      · exact hN
    have hx1 : s1.joint[j]? = some (kidJoint names x e) := by
      rw [e1]
      simp [hl]
    rw [ih s1 s' _ h hN1 hx1, e1]
    simp only [List.set_set, List.foldl_cons, kidLinks, List.filter_cons]
    split_ifs <;> simp_all

/-- The joint that an element stands for. -/
def jointOf (names : List String) (e : Elem K) : Joint K :=
  e.kids.foldl (kidJoint names) (e.attrs.foldl jointAttr (coreJoint newJoint))

theorem coreEval_eq {names : List String} {s s' : Info K} {e : Elem K} (h : coreEval s e = some s')
    (hN : s.link.map (fun l => l.name) = names.map some) :
    s' = { s with joint := s.joint ++ [jointOf names e], link := kidLinks names s.joint.length e.kids s.link } := by
  have := coreKids_eq (names := names) e.kids _ _ (e.attrs.foldl jointAttr (coreJoint newJoint)) h hN (by simp)
  rw [this]
  simp [jointOf]

/-! ## The fields of a joint -/

section
variable {names : List String}

theorem jointOf_last {β : Type*} (π : Joint K → Option β) (tag k : String) (get : List (Tok K) → Option β)
    (h0 : π (coreJoint newJoint) = none)
    (h1 : ∀ x a, π (jointAttr x a) = π x) (h2 : ∀ (x : Joint K) o, π { x with parent := o } = π x)
    (h3 : ∀ (x : Joint K) o, π { x with child := o } = π x)
    (h4 : ∀ x a, π (dynamicAttr x a) = if tag = "dynamic" ∧ a.1 = k then get a.2 else π x)
    (h5 : ∀ x a, π (limitAttr x a) = if tag = "limit" ∧ a.1 = k then get a.2 else π x)
    (ht : tag = "dynamic" ∨ tag = "limit") (e : Elem K) :
    π (jointOf names e) = (given e tag k).bind get := by
  have hn : ∀ l : List (String × List (Tok K)), π (l.foldl jointAttr (coreJoint newJoint)) = none := by
    intro l
    have := foldl_last π jointAttr (fun _ => []) (fun s a => h1 s a) l (coreJoint newJoint)
    rw [this, h0]
    have : (l.flatMap fun _ => ([] : List (Option β))) = [] := by simp
    rw [this]
    rfl
  have hd : ∀ (l : List (String × List (Tok K))) x, π (l.foldl dynamicAttr x) =
      (l.flatMap fun a => if tag = "dynamic" ∧ a.1 = k then [get a.2] else []).getLast?.getD (π x) := by
    intro l x
    refine foldl_last π dynamicAttr _ (fun x a => ?_) l x
    rw [h4]
    split_ifs <;> rfl
  have hl : ∀ (l : List (String × List (Tok K))) x, π (l.foldl limitAttr x) =
      (l.flatMap fun a => if tag = "limit" ∧ a.1 = k then [get a.2] else []).getLast?.getD (π x) := by
    intro l x
    refine foldl_last π limitAttr _ (fun x a => ?_) l x
    rw [h5]
    split_ifs <;> rfl
  have hk : ∀ (x : Joint K) (e : Elem K), π (kidJoint names x e) =
      (if e.tag = tag then (e.attrs.flatMap fun a => if a.1 = k then [get a.2] else []) else []).getLast?.getD (π x) := by
    intro x e
    have nil : ∀ l : List (String × List (Tok K)), (l.flatMap fun _ => ([] : List (Option β))) = [] := by simp
    have hd0 : tag ≠ "dynamic" → π (e.attrs.foldl dynamicAttr x) = π x := by
      intro h
      rw [hd]
      simp only [h, false_and, if_false, nil]
      rfl
    have hl0 : tag ≠ "limit" → π (e.attrs.foldl limitAttr x) = π x := by
      intro h
      rw [hl]
      simp only [h, false_and, if_false, nil]
      rfl
    rw [kidJoint]
    rcases ht with rfl | rfl
    · by_cases a : e.tag = "dynamic"
      · simp [a, hd]
      · rw [if_neg a, if_neg a]
        split_ifs
        · rw [h2]; rfl
        · rw [h3]; rfl
        · rw [hl0 (by decide)]; rfl
        · rfl
    · by_cases a : e.tag = "limit"
      · simp [a, hl]
      · rw [if_neg a, if_neg a]
        split_ifs
        · rw [h2]; rfl
        · rw [h3]; rfl
        · rw [hd0 (by decide)]; rfl
        · rfl
  rw [jointOf, foldl_last π (kidJoint names) _ hk, hn, flatMap_if (fun e : Elem K => e.tag = tag), given, elems]
  have e2 : ∀ l : List (String × List (Tok K)), (l.flatMap fun a => if a.1 = k then [get a.2] else []) =
      ((l.filter fun a => a.1 = k).map Prod.snd).map get := by
    intro l
    rw [flatMap_if (fun a : String × List (Tok K) => a.1 = k)]
    induction l.filter fun a => decide (a.1 = k) with
    | nil => rfl
    | cons a l ih => rw [List.flatMap_cons, ih]; rfl
  simp only [e2]
  have e3 : ∀ l : List (Elem K), (l.flatMap fun a => ((a.attrs.filter fun a => a.1 = k).map Prod.snd).map get) =
      (l.flatMap fun a => (a.attrs.filter fun a => a.1 = k).map Prod.snd).map get := by
    intro l
    rw [List.map_flatMap]
  rw [e3, List.getLast?_map]
  cases (List.flatMap (fun a => List.map Prod.snd (List.filter (fun a => decide (a.1 = k)) a.attrs))
    (List.filter (fun k => decide (k.tag = tag)) e.kids)).getLast? <;> rfl

theorem jointOf_lower (e : Elem K) : (jointOf names e).lower = given e "limit" "lower" := by
  rw [jointOf_last (fun x => x.lower) "limit" "lower" some rfl]
  · simp
  · intro x a; simp only [jointAttr]; split_ifs <;> rfl
  · intro x o; rfl
  · intro x o; rfl
  · intro x a; simp only [dynamicAttr]; split_ifs <;> simp_all
  · intro x a; simp only [limitAttr]; split_ifs <;> simp_all
  · exact .inr rfl

theorem jointOf_upper (e : Elem K) : (jointOf names e).upper = given e "limit" "upper" := by
  rw [jointOf_last (fun x => x.upper) "limit" "upper" some rfl]
  · simp
  · intro x a; simp only [jointAttr]; split_ifs <;> rfl
  · intro x o; rfl
  · intro x o; rfl
  · intro x a; simp only [dynamicAttr]; split_ifs <;> simp_all
  · intro x a; simp only [limitAttr]; split_ifs <;> simp_all
  · exact .inr rfl

theorem jointOf_damping (e : Elem K) : (jointOf names e).damping = given e "dynamic" "damping" := by
  rw [jointOf_last (fun x => x.damping) "dynamic" "damping" some rfl]
  · simp
  · intro x a; simp only [jointAttr]; split_ifs <;> rfl
  · intro x o; rfl
  · intro x o; rfl
  · intro x a; simp only [dynamicAttr]; split_ifs <;> simp_all
  · intro x a; simp only [limitAttr]; split_ifs <;> simp_all
  · exact .inl rfl

theorem jointOf_friction (e : Elem K) : (jointOf names e).friction = given e "dynamic" "friction" := by
  rw [jointOf_last (fun x => x.friction) "dynamic" "friction" some rfl]
  · simp
  · intro x a; simp only [jointAttr]; split_ifs <;> rfl
  · intro x o; rfl
  · intro x o; rfl
  · intro x a; simp only [dynamicAttr]; split_ifs <;> simp_all
  · intro x a; simp only [limitAttr]; split_ifs <;> simp_all
  · exact .inl rfl

theorem foldl_keep {α σ β : Type*} (π : σ → β) (f : σ → α → σ) (h : ∀ s a, π (f s a) = π s) (l : List α) (s : σ) :
    π (l.foldl f s) = π s := by
  induction l generalizing s with
  | nil => rfl
  | cons a l ih => rw [List.foldl_cons, ih, h]

theorem jointOf_type (e : Elem K) : (jointOf names e).type = (attr e "type").bind strTok := by
  have h1 : ∀ (x : Joint K) (e : Elem K), (kidJoint names x e).type = x.type := by
    intro x e
    rw [kidJoint]
    split_ifs
    · rfl
    · rfl
    · exact foldl_keep (fun x : Joint K => x.type) _ (fun x a => by simp only [dynamicAttr]; split_ifs <;> rfl) _ _
    · exact foldl_keep (fun x : Joint K => x.type) _ (fun x a => by simp only [limitAttr]; split_ifs <;> rfl) _ _
    · rfl
  rw [jointOf, foldl_keep (fun x : Joint K => x.type) _ h1,
    foldl_last (fun x : Joint K => x.type) jointAttr (fun a => if a.1 = "type" then [strTok a.2] else [])
      (fun x a => by simp only [jointAttr]; split_ifs <;> simp_all), attr, flatMap_if (fun a : String × List (Tok K) => a.1 = "type")]
  have : ∀ l : List (String × List (Tok K)), (l.flatMap fun a => [strTok a.2]) = (l.map Prod.snd).map strTok := by
    intro l
    induction l with
    | nil => rfl
    | cons a l ih => rw [List.flatMap_cons, ih]; rfl
  rw [this, List.getLast?_map]
  cases (List.map Prod.snd (List.filter (fun a => decide (a.1 = "type")) e.attrs)).getLast? <;> rfl

theorem jointOf_parent {e p : Elem K} (h : elems e "parent" = [p]) : (jointOf names e).parent = resolve names p := by
  have h1 : ∀ (x : Joint K) (e : Elem K), (kidJoint names x e).parent =
      (if e.tag = "parent" then [resolve names e] else []).getLast?.getD x.parent := by
    intro x e
    rw [kidJoint]
    split_ifs
    · rfl
    · rfl
    · exact foldl_keep (fun x : Joint K => x.parent) _ (fun x a => by simp only [dynamicAttr]; split_ifs <;> rfl) _ _
    · exact foldl_keep (fun x : Joint K => x.parent) _ (fun x a => by simp only [limitAttr]; split_ifs <;> rfl) _ _
    · rfl
  rw [jointOf, foldl_last (fun x : Joint K => x.parent) (kidJoint names) _ h1, flatMap_if (fun e : Elem K => e.tag = "parent")]
  rw [elems] at h
  rw [h]
  rfl

theorem jointOf_child {e p : Elem K} (h : elems e "child" = [p]) : (jointOf names e).child = resolve names p := by
  have h1 : ∀ (x : Joint K) (e : Elem K), (kidJoint names x e).child =
      (if e.tag = "child" then [resolve names e] else []).getLast?.getD x.child := by
    intro x e
    rw [kidJoint]
    split_ifs with a b
    · rw [a] at b; exact absurd b (by decide)
    · rfl
    · rfl
    · exact foldl_keep (fun x : Joint K => x.child) _ (fun x a => by simp only [dynamicAttr]; split_ifs <;> rfl) _ _
    · exact foldl_keep (fun x : Joint K => x.child) _ (fun x a => by simp only [limitAttr]; split_ifs <;> rfl) _ _
    · rfl
  rw [jointOf, foldl_last (fun x : Joint K => x.child) (kidJoint names) _ h1, flatMap_if (fun e : Elem K => e.tag = "child")]
  rw [elems] at h
  rw [h]
  rfl

theorem resolve_names {p : Elem K} {n : String} (h : p.find "link" = some [.str n]) :
    resolve names p = names.findIdx? fun m => m == n := by
  rw [resolve, h]
  rfl
end

end Roki.Urdf.Doc
