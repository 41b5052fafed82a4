import Verif.Lemmas.UrdfFile2
set_option autoImplicit false

/-! # URDF documents: the state after the evaluation -/

namespace Roki.Urdf.Doc
open ZTK Spec.UrdfDoc
variable {K : Type*} [Field K]

theorem foldlM_last {α σ β : Type*} (π : σ → β) (f : σ → α → Option σ) (vs : α → List β)
    (h : ∀ s a s', f s a = some s' → π s' = (vs a).getLast?.getD (π s)) : ∀ (l : List α) (s s' : σ),
    l.foldlM f s = some s' → π s' = (l.flatMap vs).getLast?.getD (π s) := by
  intro l
  induction l with
  | nil => intro s s' e; cases e; rfl
  | cons a l ih =>
    intro s s' e
    rw [List.foldlM_cons] at e
    obtain ⟨s1, h1, e⟩ := Option.bind_eq_some_iff.1 e
    rw [ih _ _ e, h _ _ _ h1, List.flatMap_cons, List.getLast?_append]
    cases (l.flatMap vs).getLast? <;> rfl

theorem foldlM_keep {α σ β : Type*} (π : σ → β) (f : σ → α → Option σ) (h : ∀ s a s', f s a = some s' → π s' = π s) :
    ∀ (l : List α) (s s' : σ), l.foldlM f s = some s' → π s' = π s := by
  intro l
  induction l with
  | nil => intro s s' e; cases e; rfl
  | cons a l ih =>
    intro s s' e
    rw [List.foldlM_cons] at e
    obtain ⟨s1, h1, e⟩ := Option.bind_eq_some_iff.1 e
    rw [ih _ _ e, h _ _ _ h1]

/-! ## Links -/

/-- The link that an element stands for. -/
def linkOf (zyx : K → K → K → Mat3 K) (e : Elem K) : Option (Link K) :=
  (match e.find "name" with
    | some ts => (strTok ts).map some
    | none => some none).bind fun name =>
  e.kids.foldlM (evalLinkKid zyx) ⟨name, ⟨0, 0, 0⟩, 0, [], none, none⟩

theorem evalLink_eq (zyx : K → K → K → Mat3 K) (s : Info K) (e : Elem K) :
    evalLink zyx s e = (linkOf zyx e).map fun l => { s with link := s.link ++ [l] } := by
  rw [evalLink, linkOf]
  rw [Option.map_bind]
  rfl

theorem evalLinks_eq {zyx : K → K → K → Mat3 K} : ∀ (es : List (Elem K)) (s s' : Info K), es.foldlM (evalLink zyx) s = some s' →
    ∃ ls, List.Forall₂ (fun e l => linkOf zyx e = some l) es ls ∧ s' = { s with link := s.link ++ ls } := by
  intro es
  induction es with
  | nil => intro s s' h; cases h; exact ⟨[], .nil, by simp⟩
  | cons e es ih =>
    intro s s' h
    rw [List.foldlM_cons] at h
    obtain ⟨s1, h1, h⟩ := Option.bind_eq_some_iff.1 h
    rw [evalLink_eq] at h1
    obtain ⟨l, hl, rfl⟩ := Option.map_eq_some_iff.1 h1
    obtain ⟨ls, h2, rfl⟩ := ih _ _ h
    exact ⟨l :: ls, .cons hl h2, by simp⟩

theorem evalVisual_keep {zyx : K → K → K → Mat3 K} {e : Elem K} {l l' : Link K} (h : evalVisual zyx e l = some l') :
    ∃ p, l' = { l with shapes := l.shapes ++ [p] } ∧ (∀ n, l.name = some n → shapeNames n l.shapes.length [e] = [p.name]) ∧
      (∀ g ∈ elems e "geometry", hasType g = true → p.typed = true) := by
  rw [evalVisual] at h
  obtain ⟨name, hn, h⟩ := Option.bind_eq_some_iff.1 h
  obtain ⟨p, hp, rfl⟩ := Option.map_eq_some_iff.1 h
  refine ⟨p, rfl, ?_, ?_⟩
  · intro n hl
    have e1 : p.name = name := by
      refine foldlM_keep (fun p : Shape K => p.name) _ ?_ _ _ _ hp
      intro s a s' h
      rw [evalVisualKid] at h
      split_ifs at h
      · obtain ⟨f, -, rfl⟩ := Option.map_eq_some_iff.1 h; rfl
      · cases h; rfl
      · cases h; rfl
    rw [e1]
    split at hn
    · next ts hts =>
      rw [strTok.eq_def] at hn
      split at hn
      · cases hn
        simp [shapeNames, hts]
      · cases hn
    · next hts =>
      rw [hl] at hn
      cases hn
      simp [shapeNames, hts]
  · intro g hg ht
    have : ∀ (ks : List (Elem K)) (s s' : Shape K), ks.foldlM (evalVisualKid zyx) s = some s' →
        (s.typed = true ∨ g ∈ ks.filter fun k => decide (k.tag = "geometry")) → s'.typed = true := by
      intro ks
      induction ks with
      | nil =>
        intro s s' h hs
        cases h
        simpa using hs
      | cons a ks ih =>
        intro s s' h hs
        rw [List.foldlM_cons] at h
        obtain ⟨s1, h1, h⟩ := Option.bind_eq_some_iff.1 h
        refine ih s1 s' h ?_
        rw [evalVisualKid] at h1
        rw [List.filter_cons] at hs
        by_cases ha : a.tag = "geometry"
        · simp only [ha, decide_true, if_true, List.mem_cons] at hs
          simp only [ha] at h1
          rw [if_neg (by decide), if_pos trivial] at h1
          cases h1
          rcases hs with hs | rfl | hs
          · left; simp [hs]
          · left; simp [ht]
          · right; exact hs
        · simp only [ha, decide_false, Bool.false_eq_true, if_false] at hs
          rcases hs with hs | hs
          · left
            rw [if_neg ha] at h1
            split_ifs at h1
            · obtain ⟨f, -, rfl⟩ := Option.map_eq_some_iff.1 h1; exact hs
            · cases h1; exact hs
          · right; exact hs
    exact this _ _ _ hp (.inr hg)

theorem evalInertial_mass {zyx : K → K → K → Mat3 K} {e : Elem K} {mp mp' : MP K} (h : evalInertial zyx e mp = some mp') :
    mp'.mass = (((elems e "mass").filterMap fun m => m.find "value").map fun ts => (num (some ts)).getD 0).getLast?.getD mp.mass := by
  obtain ⟨s, hs, rfl⟩ := Option.map_eq_some_iff.1 h
  have h1 := foldlM_last (fun s : Frame K × MP K => s.2.mass) (evalInertialKid zyx)
    (fun e => if e.tag = "mass" then ((e.find "value").toList.map fun ts => (num (some ts)).getD 0) else []) ?_ _ _ _ hs
  · simp only at h1
    rw [h1, flatMap_if (fun e : Elem K => e.tag = "mass"), elems]
    congr 2
    induction e.kids.filter fun k => decide (k.tag = "mass") with
    | nil => rfl
    | cons a l ih =>
      rw [List.flatMap_cons, ih, List.filterMap_cons]
      cases a.find "value" <;> rfl
  · intro s a s' h
    rw [evalInertialKid] at h
    split_ifs at h with a1 a2 a3
    · obtain ⟨f, -, rfl⟩ := Option.map_eq_some_iff.1 h
      simp [a1]
    · obtain ⟨m, hm, rfl⟩ := Option.map_eq_some_iff.1 h
      rw [evalMass] at hm
      obtain ⟨ts, hts, hm⟩ := Option.bind_eq_some_iff.1 hm
      obtain ⟨x, hx, rfl⟩ := Option.map_eq_some_iff.1 hm
      simp only [a2, if_true, hts, Option.toList_some, List.map_cons, List.map_nil, List.getLast?_singleton, Option.getD_some]
      rw [atof.eq_def] at hx
      split at hx
      · cases hx; rfl
      · cases hx
      · next h1 h2 =>
        cases hx
        rw [num.eq_def]
        split
        · next x r heq =>
          cases heq
          exact absurd rfl (h1 x r)
        · rfl
    · obtain ⟨m, hm, rfl⟩ := Option.map_eq_some_iff.1 h
      rw [evalInertia] at hm
      obtain ⟨x, -, rfl⟩ := Option.map_eq_some_iff.1 hm
      simp [a3]
    · cases h
      simp [a2]

theorem linkOf_spec {zyx : K → K → K → Mat3 K} {e : Elem K} {l : Link K} {n : String} (hn : e.find "name" = some [.str n])
    (h : linkOf zyx e = some l) :
    l.name = some n ∧ l.joint = none ∧ l.child = none ∧ l.mp.mass = (num (masses e).getLast?).getD 0 ∧
      (l.shapes.map fun p => p.name) = shapeNames n 0 (elems e "visual") ∧ (Shaped e → ∀ p ∈ l.shapes, p.typed = true) := by
  rw [linkOf, hn] at h
  simp only [strTok, Option.map_some, Option.bind_some] at h
  have hk : ∀ (s : Link K) (a : Elem K) (s' : Link K), evalLinkKid zyx s a = some s' →
      s'.name = s.name ∧ s'.joint = s.joint ∧ s'.child = s.child := by
    intro s a s' h
    rw [evalLinkKid] at h
    split_ifs at h
    · obtain ⟨m, -, rfl⟩ := Option.map_eq_some_iff.1 h
      exact ⟨rfl, rfl, rfl⟩
    · obtain ⟨p, rfl, -⟩ := evalVisual_keep h
      exact ⟨rfl, rfl, rfl⟩
    · cases h
      exact ⟨rfl, rfl, rfl⟩
  refine ⟨?_, ?_, ?_, ?_, ?_, ?_⟩
  · exact foldlM_keep (fun s : Link K => s.name) _ (fun s a s' h => (hk s a s' h).1) _ _ _ h
  · exact foldlM_keep (fun s : Link K => s.joint) _ (fun s a s' h => (hk s a s' h).2.1) _ _ _ h
  · exact foldlM_keep (fun s : Link K => s.child) _ (fun s a s' h => (hk s a s' h).2.2) _ _ _ h
  · have h1 := foldlM_last (fun s : Link K => s.mp.mass) (evalLinkKid zyx)
      (fun e => if e.tag = "inertial" then
        (((elems e "mass").filterMap fun m => m.find "value").map fun ts => (num (some ts)).getD 0) else []) ?_ _ _ _ h
    · simp only at h1
      rw [h1, flatMap_if (fun e : Elem K => e.tag = "inertial"), masses, elems]
      have e3 : ∀ l : List (Elem K), (l.flatMap fun e => ((elems e "mass").filterMap fun m => m.find "value").map
          fun ts => (num (some ts)).getD 0) = (l.flatMap fun e => (elems e "mass").filterMap fun m => m.find "value").map
            fun ts => (num (some ts)).getD 0 := by
        intro l
        rw [List.map_flatMap]
      rw [e3, List.getLast?_map]
      cases (List.flatMap (fun e => List.filterMap (fun m => m.find "value") (elems e "mass"))
        (List.filter (fun a => decide (a.tag = "inertial")) e.kids)).getLast? <;> rfl
    · intro s a s' h
      rw [evalLinkKid] at h
      split_ifs at h with a1 a2
      · obtain ⟨m, hm, rfl⟩ := Option.map_eq_some_iff.1 h
        rw [if_pos a1]
        exact evalInertial_mass hm
      · obtain ⟨p, rfl, -⟩ := evalVisual_keep h
        rw [if_neg a1]
        rfl
      · cases h
        rw [if_neg a1]
        rfl
  · have hsn : ∀ (vs ws : List (Elem K)) (k : ℕ), shapeNames n k (vs ++ ws) = shapeNames n k vs ++ shapeNames n (k + vs.length) ws := by
      intro vs
      induction vs with
      | nil => intro ws k; rfl
      | cons v vs ih =>
        intro ws k
        rw [List.cons_append, shapeNames, shapeNames, ih, List.length_cons, List.cons_append]
        congr 3
        omega
    have : ∀ (ks : List (Elem K)) (s s' : Link K), ks.foldlM (evalLinkKid zyx) s = some s' → s.name = some n →
        s'.shapes.map (fun p => p.name) = s.shapes.map (fun p => p.name) ++
          shapeNames n s.shapes.length (ks.filter fun k => k.tag = "visual") := by
      intro ks
      induction ks with
      | nil => intro s s' h _; cases h; simp [shapeNames]
      | cons a ks ih =>
        intro s s' h hs
        rw [List.foldlM_cons] at h
        obtain ⟨s1, h1, h⟩ := Option.bind_eq_some_iff.1 h
        have h2 := ih s1 s' h ((hk _ _ _ h1).1.trans hs)
        rw [h2, List.filter_cons]
        rw [evalLinkKid] at h1
        split_ifs at h1 with a1 a2
        · obtain ⟨m, hm, rfl⟩ := Option.map_eq_some_iff.1 h1
          have : a.tag ≠ "visual" := by rw [a1]; decide
          simp [this]
        · obtain ⟨p, rfl, hp, -⟩ := evalVisual_keep h1
          simp only [a2, decide_true, if_true]
          have := hsn [a] (ks.filter fun k => k.tag = "visual") s.shapes.length
          rw [List.singleton_append] at this
          rw [this, hp n hs]
          simp
        · cases h1
          simp [a2]
    exact this _ _ _ h rfl
  · intro hS
    have : ∀ (ks : List (Elem K)) (s s' : Link K), ks.foldlM (evalLinkKid zyx) s = some s' →
        (∀ v ∈ ks.filter fun k => k.tag = "visual", ∃ g ∈ elems v "geometry", hasType g = true) →
        (∀ p ∈ s.shapes, p.typed = true) → ∀ p ∈ s'.shapes, p.typed = true := by
      intro ks
      induction ks with
      | nil => intro s s' h _ hs; cases h; exact hs
      | cons a ks ih =>
        intro s s' h hv hs
        rw [List.foldlM_cons] at h
        obtain ⟨s1, h1, h⟩ := Option.bind_eq_some_iff.1 h
        refine ih s1 s' h (fun v hv' => hv v ?_) ?_
        · rw [List.filter_cons]
          split_ifs
          · exact List.mem_cons_of_mem _ hv'
          · exact hv'
        · rw [evalLinkKid] at h1
          split_ifs at h1 with a1 a2
          · obtain ⟨m, hm, rfl⟩ := Option.map_eq_some_iff.1 h1
            exact hs
          · obtain ⟨p, rfl, -, hp⟩ := evalVisual_keep h1
            intro q hq
            rcases List.mem_append.1 hq with hq | hq
            · exact hs q hq
            · rw [List.mem_singleton] at hq
              subst hq
              obtain ⟨g, hg, ht⟩ := hv a (by simp [List.filter_cons, a2])
              exact hp g hg ht
          · cases h1
            exact hs
    refine this _ _ _ h ?_ (by simp)
    intro v hv
    obtain ⟨g, hg, t, ht, hne⟩ := hS v hv
    refine ⟨g, hg, ?_⟩
    obtain ⟨k, hk⟩ := List.exists_mem_of_ne_nil _ hne
    rw [elems, List.mem_filter] at hk
    rw [hasType, List.any_eq_true]
    refine ⟨k, hk.1, ?_⟩
    have hk2 : k.tag = t := by simpa using hk.2
    rw [hk2]
    simp only [List.mem_cons, List.not_mem_nil, or_false] at ht
    rcases ht with rfl | rfl | rfl | rfl <;> decide

/-! ## Joints -/

/-- The links after the joints `es`, of which the first has the number `j`. -/
def linksAfter (names : List String) : ℕ → List (Elem K) → List (Link K) → List (Link K)
  | _, [], ls => ls
  | j, e :: es, ls => linksAfter names (j + 1) es (kidLinks names j e.kids ls)

theorem coreEvals_eq {names : List String} : ∀ (es : List (Elem K)) (s s' : Info K), es.foldlM coreEval s = some s' →
    s.link.map (fun l => l.name) = names.map some →
    s' = { s with joint := s.joint ++ es.map (jointOf names), link := linksAfter names s.joint.length es s.link } := by
  intro es
  induction es with
  | nil => intro s s' h _; cases h; simp [linksAfter]
  | cons e es ih =>
    intro s s' h hN
    rw [List.foldlM_cons] at h
    obtain ⟨s1, h1, h⟩ := Option.bind_eq_some_iff.1 h
    have e1 := coreEval_eq h1 hN
    have hN1 : s1.link.map (fun l => l.name) = names.map some := by
      rw [e1, ← hN]
      simp only [kidLinks]
      induction (e.kids.filter fun e => decide (e.tag = "child")) generalizing s with
      | nil => rfl
      | cons a l ih =>
        rw [List.foldl_cons]
        have := foldl_keep (fun ls : List (Link K) => ls.map fun l => l.name)
          (fun ls e => setJoint ls (resolve names e) s.joint.length) (fun ls a => setJoint_names _ _ _) l
        rw [this, setJoint_names]
    rw [ih s1 s' h hN1, e1]
    simp [linksAfter]

theorem linksAfter_get {names : List String} : ∀ (es : List (Elem K)) (j : ℕ) (ls : List (Link K)),
    (∀ e ∈ es, ∃ p, elems e "child" = [p]) →
    es.Pairwise (fun e e' => ∀ i, (jointOf names e).child = some i → (jointOf names e').child ≠ some i) → ∀ i : ℕ,
    (linksAfter names j es ls)[i]? = ls[i]?.map fun l => { l with
      joint := match es.findIdx? fun e => decide ((jointOf names e).child = some i) with
        | none => l.joint
        | some k => some (j + k) } := by
  intro es
  induction es with
  | nil =>
    intro j ls _ _ i
    rw [linksAfter]
    cases ls[i]? <;> rfl
  | cons e es ih =>
    intro j ls hc hp i
    obtain ⟨p, hp1⟩ := hc e (by simp)
    have e1 : kidLinks names j e.kids ls = setJoint ls (jointOf names e).child j := by
      rw [kidLinks, jointOf_child hp1]
      rw [elems] at hp1
      rw [hp1]
      rfl
    rw [List.pairwise_cons] at hp
    rw [linksAfter, e1, ih (j + 1) _ (fun e he => hc e (List.mem_cons_of_mem _ he)) hp.2 i]
    by_cases hi : (jointOf names e).child = some i
    · have hn : (es.findIdx? fun e => decide ((jointOf names e).child = some i)) = none := by
        rw [List.findIdx?_eq_none_iff]
        intro e' he'
        simpa using hp.1 e' he' i hi
      rw [List.findIdx?_cons, hn, hi]
      simp only [setJoint, List.getElem?_modify, decide_true, if_true]
      cases ls[i]? <;> rfl
    · have : (setJoint ls (jointOf names e).child j)[i]? = ls[i]? := by
        rcases hx : (jointOf names e).child with _ | m
        · rfl
        · rw [hx] at hi
          have : m ≠ i := fun h => hi (by rw [h])
          simp only [setJoint, List.getElem?_modify, this, if_false]
          cases ls[i]? <;> rfl
      rw [this, List.findIdx?_cons, decide_eq_false hi]
      simp only [Bool.false_eq_true, if_false]
      cases ls[i]? with
      | none => rfl
      | some l =>
        cases es.findIdx? fun e => decide ((jointOf names e).child = some i) with
        | none => rfl
        | some k =>
          simp only [Option.map_some, Option.some.injEq, Link.mk.injEq, true_and, and_true]
          omega

/-! ## The document -/

theorem findIdx_mem {links : List String} (hn : links.Nodup) {n : String} (h : n ∈ links) :
    ∃ i, (links.findIdx? fun m => m == n) = some i ∧ links[i]? = some n := by
  rcases hf : links.findIdx? fun m => m == n with _ | i
  · rw [List.findIdx?_eq_none_iff] at hf
    simpa using hf n h
  · refine ⟨i, rfl, ?_⟩
    rw [List.findIdx?_eq_some_iff_getElem] at hf
    obtain ⟨hl, he, -⟩ := hf
    rw [List.getElem?_eq_getElem hl]
    simpa using he

/-- The state after the evaluation, without frames and lists of children. -/
theorem eval_spec {zyx : K → K → K → Mat3 K} {doc : Elem K} {links : List String} {pars : List (Option ℕ)}
    (hd : Describes doc links pars) {s : Info K} (h : eval zyx doc = some s) :
    (∃ n, doc.find "name" = some [.str n] ∧ s.name = some n) ∧
      (core s).joint = (elems doc "joint").map (jointOf links) ∧
      ∃ ls, List.Forall₂ (fun e l => linkOf zyx e = some l) (elems doc "link") ls ∧ ∀ i : ℕ,
        (core s).link[i]? = ls[i]?.map fun l => { coreLink l with
          joint := (elems doc "joint").findIdx? fun e => decide ((jointOf links e).child = some i) } := by
  rw [eval] at h
  obtain ⟨s1, h1, h⟩ := Option.bind_eq_some_iff.1 h
  obtain ⟨ls, hls, rfl⟩ := evalLinks_eq _ _ _ h1
  have hnames : ls.map (fun l => l.name) = links.map some := by
    have hf : List.Forall₂ (fun e n => Elem.find e "name" = some [.str n]) (elems doc "link") links := by
      have := hd.named
      rw [← List.forall₂_eq_eq_eq, List.forall₂_map_left_iff, List.forall₂_map_right_iff] at this
      exact this
    have hls' : List.Forall₂ (fun e l => linkOf zyx e = some l) (elems doc "link") ls := hls
    revert hf hls'
    generalize elems doc "link" = es
    generalize links = ns
    clear hls h h1 hd
    intro hf hls
    induction hls generalizing ns with
    | nil => cases hf; rfl
    | cons a b ih =>
      cases hf with
      | cons c d =>
        rw [List.map_cons, List.map_cons, ih _ d, (linkOf_spec c a).1]
  have hc := foldlM_sim (c := core) (g := coreEval) (fun s s' e h => evalJoint_core s s' e h) _ _ _ h
  have hN : (core (⟨(doc.find "name").bind strTok, [] ++ ls, []⟩ : Info K)).link.map (fun l => l.name) = links.map some := by
    rw [← hnames]
    simp only [core, List.nil_append, List.map_map]
    rfl
  have := coreEvals_eq _ _ _ hc hN
  refine ⟨?_, ?_, ls, hls, ?_⟩
  · obtain ⟨n, hn⟩ := hd.name
    refine ⟨n, hn, ?_⟩
    have e2 : s.name = (core s).name := rfl
    rw [e2, this]
    simp only [core, hn]
    rfl
  · rw [this]
    simp [core, elems]
  · intro i
    rw [this]
    simp only [core, List.nil_append, List.map_nil, List.length_nil]
    rw [linksAfter_get]
    · rw [List.getElem?_map, Option.map_map]
      rcases hi : ls[i]? with _ | l
      · rfl
      · have hj : l.joint = none := by
          obtain ⟨e, he, hl⟩ : ∃ e, (elems doc "link")[i]? = some e ∧ linkOf zyx e = some l := by
            obtain ⟨hlt, hle⟩ := List.getElem?_eq_some_iff.1 hi
            have hlt' : i < (elems doc "link").length := by
              rw [show (elems doc "link").length = ls.length from hls.length_eq]; exact hlt
            exact ⟨_, List.getElem?_eq_getElem hlt', by
              have := (List.forall₂_iff_get.1 hls).2 i hlt' hlt
              rw [List.get_eq_getElem, List.get_eq_getElem, hle] at this
              exact this⟩
          have h4 := congrArg (fun l => l[i]?) hd.named
          simp only [List.getElem?_map, he, Option.map_some] at h4
          rcases hn : links[i]? with _ | n
          · rw [hn] at h4; simp at h4
          · rw [hn] at h4
            simp only [Option.map_some, Option.some.injEq] at h4
            exact (linkOf_spec h4 hl).2.1
        simp only [Option.map_some, Function.comp, Option.some.injEq]
        rw [show (List.filter (fun e => decide (e.tag = "joint")) doc.kids) = elems doc "joint" from rfl]
        cases (elems doc "joint").findIdx? fun e => decide ((jointOf links e).child = some i) with
        | none => simp [coreLink, hj]
        | some k => simp
    · intro e he
      obtain ⟨-, np, nc, -, ⟨p, hp, -⟩, -⟩ := hd.joints e he
      exact ⟨p, hp⟩
    · refine List.Pairwise.imp_of_mem ?_ hd.once
      intro e e' he he' hh i hi hi'
      obtain ⟨-, np, nc, -, ⟨p, hp, hpn⟩, -, hm⟩ := hd.joints e he
      obtain ⟨-, np', nc', -, ⟨p', hp', hpn'⟩, -, hm'⟩ := hd.joints e' he'
      rw [jointOf_child hp, resolve_names hpn] at hi
      rw [jointOf_child hp', resolve_names hpn'] at hi'
      obtain ⟨k, hk, hkn⟩ := findIdx_mem hd.nodup hm
      obtain ⟨k', hk', hkn'⟩ := findIdx_mem hd.nodup hm'
      rw [hk] at hi
      rw [hk'] at hi'
      cases hi
      cases hi'
      rw [hkn] at hkn'
      cases hkn'
      exact hh nc ⟨p, hp, hpn⟩ ⟨p', hp', hpn'⟩

end Roki.Urdf.Doc
