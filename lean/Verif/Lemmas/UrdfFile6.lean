import Verif.Lemmas.UrdfFile5
set_option autoImplicit false

/-! # URDF documents: the robot that is read -/

namespace Roki.Urdf.Doc
open ZTK Spec.UrdfDoc Spec.File
variable {K : Type*} [Field K]

/-- What is known of the state that is written. -/
structure StateOf (zyx : K → K → K → Mat3 K) (doc : Elem K) (links : List String) (s : Info K) : Prop where
  name : ∃ n, doc.find "name" = some [.str n] ∧ s.name = some n
  size : s.link.length = links.length
  link : ∀ (i : ℕ) (l : Link K), s.link[i]? = some l → ∃ e n, (elems doc "link")[i]? = some e ∧ links[i]? = some n ∧
    l.name = some n ∧ (l.joint = (elems doc "joint").findIdx? fun e => decide ((jointOf links e).child = some i)) ∧
    l.mp.mass = (num (masses e).getLast?).getD 0 ∧ (l.shapes.map fun p => p.name) = shapeNames n 0 (elems e "visual") ∧
    (Shaped e → ∀ p ∈ l.shapes, p.typed = true)
  joints : s.joint.length = (elems doc "joint").length
  joint : ∀ (j : ℕ) (x : Joint K), s.joint[j]? = some x → ∃ e, (elems doc "joint")[j]? = some e ∧ coreJoint x = jointOf links e

theorem forall₂_get {α β : Type*} {R : α → β → Prop} {l : List α} {l' : List β} (h : List.Forall₂ R l l') {i : ℕ} {b : β}
    (hb : l'[i]? = some b) : ∃ a, l[i]? = some a ∧ R a b := by
  obtain ⟨hlt, hle⟩ := List.getElem?_eq_some_iff.1 hb
  have hlt' : i < l.length := by rw [h.length_eq]; exact hlt
  refine ⟨_, List.getElem?_eq_getElem hlt', ?_⟩
  have := (List.forall₂_iff_get.1 h).2 i hlt' hlt
  rw [List.get_eq_getElem, List.get_eq_getElem, hle] at this
  exact this

theorem state_of_core {zyx : K → K → K → Mat3 K} {doc : Elem K} {links : List String} {pars : List (Option ℕ)}
    (hd : Describes doc links pars) {s0 s : Info K} (h : eval zyx doc = some s0) (hcore : core s = core s0) :
    StateOf zyx doc links s := by
  obtain ⟨⟨n, hn1, hn2⟩, hj, ls, hls, hl⟩ := eval_spec hd h
  have hlen : (elems doc "link").length = links.length := by
    have := congrArg List.length hd.named
    simpa using this
  have hcl : ∀ i : ℕ, (s.link.map coreLink)[i]? = ls[i]?.map fun l => { coreLink l with
          joint := (elems doc "joint").findIdx? fun e => decide ((jointOf links e).child = some i) } := by
    intro i
    rw [← hl i, ← hcore]
    rfl
  have hcj : s.joint.map coreJoint = (elems doc "joint").map (jointOf links) := by
    rw [← hj, ← hcore]
    rfl
  have hsz : s.link.length = ls.length := by
    have h1 : ∀ i : ℕ, (s.link[i]?).isSome = (ls[i]?).isSome := by
      intro i
      have := congrArg Option.isSome (hcl i)
      simpa using this
    by_contra hne
    rcases Nat.lt_or_gt_of_ne hne with hlt | hlt
    · have := h1 s.link.length
      simp [hlt] at this
    · have := h1 ls.length
      simp [hlt] at this
  refine ⟨⟨n, hn1, ?_⟩, ?_, ?_, ?_, ?_⟩
  · have : (core s).name = s0.name := by rw [hcore]; rfl
    rw [← hn2, ← this]
    rfl
  · rw [hsz, ← hlen, hls.length_eq]
  · intro i l hil
    have h1 := hcl i
    rw [List.getElem?_map, hil, Option.map_some] at h1
    rcases hls' : ls[i]? with _ | l'
    · rw [hls'] at h1; simp at h1
    rw [hls', Option.map_some, Option.some.injEq] at h1
    obtain ⟨e, he, hle⟩ := forall₂_get hls hls'
    have h4 := congrArg (fun l => l[i]?) hd.named
    simp only [List.getElem?_map, he, Option.map_some] at h4
    rcases hn : links[i]? with _ | n
    · rw [hn] at h4; simp at h4
    rw [hn] at h4
    simp only [Option.map_some, Option.some.injEq] at h4
    obtain ⟨a1, a2, a3, a4, a5, a6⟩ := linkOf_spec h4 hle
    refine ⟨e, n, he, rfl, ?_, ?_, ?_, ?_, ?_⟩
    · have := congrArg Link.name h1
      rw [← a1]; exact this
    · have := congrArg Link.joint h1
      exact this
    · have := congrArg (fun l : Link K => l.mp.mass) h1
      rw [← a4]; exact this
    · rw [← a5]
      have := congrArg (fun l : Link K => l.shapes.map fun p => p.name) h1
      simpa [coreLink, Function.comp_def, coreShape] using this
    · intro hS p hp
      have := congrArg (fun l : Link K => l.shapes) h1
      have hm : coreShape p ∈ (coreLink l).shapes := List.mem_map.2 ⟨p, hp, rfl⟩
      simp only at this
      rw [this] at hm
      obtain ⟨q, hq, e⟩ := List.mem_map.1 hm
      have := a6 hS q hq
      have e2 := congrArg (fun p : Shape K => p.typed) e
      simp only [coreShape] at e2
      rw [← e2]
      exact this
  · have := congrArg List.length hcj
    simpa using this
  · intro j x hx
    have := congrArg (fun l => l[j]?) hcj
    simp only [List.getElem?_map, hx, Option.map_some] at this
    rcases he : (elems doc "joint")[j]? with _ | e
    · rw [he] at this; simp at this
    · rw [he] at this
      exact ⟨e, rfl, by simpa using this⟩

theorem state_of {zyx : K → K → K → Mat3 K} {rot : Vec3 K → Mat3 K} {doc : Elem K} {links : List String} {pars : List (Option ℕ)}
    (hd : Describes doc links pars) {s0 s : Info K} (h : eval zyx doc = some s0) (hc : correctFrame rot s0 = some s) :
    StateOf zyx doc links s := state_of_core hd h (correctFrame_core hc)

/-! ## Parents -/

/-- The joint of the link number `i`: its child is the link. -/
theorem parent_of {doc : Elem K} {links : List String} {pars : List (Option ℕ)} (hd : Describes doc links pars) (i : ℕ) {n : String}
    (hi : links[i]? = some n) :
    match (elems doc "joint").findIdx? fun e => decide ((jointOf links e).child = some i) with
    | none => pars[i]? = some none
    | some j => ∃ e p np, (elems doc "joint")[j]? = some e ∧ (jointOf links e).parent = some p ∧ links[p]? = some np ∧
        pars[i]? = some (some p) ∧ Names e "child" n := by
  have hpl : i < pars.length := by
    rw [hd.size]
    exact (List.getElem?_eq_some_iff.1 hi).1
  have hch : ∀ e ∈ elems doc "joint", ∀ m, Names e "child" m → ((jointOf links e).child = some i ↔ m = n) := by
    intro e he m hm
    obtain ⟨p, hp, hpn⟩ := hm
    rw [jointOf_child hp, resolve_names hpn]
    constructor
    · intro h
      rw [List.findIdx?_eq_some_iff_getElem] at h
      obtain ⟨hl, he, -⟩ := h
      rw [List.getElem?_eq_getElem hl, Option.some.injEq] at hi
      rw [← hi]
      exact (beq_iff_eq.1 he).symm
    · rintro rfl
      exact findIdx_name hd.nodup hi
  rcases hf : (elems doc "joint").findIdx? fun e => decide ((jointOf links e).child = some i) with _ | j
  · simp only
    rw [List.findIdx?_eq_none_iff] at hf
    rcases hp : pars[i]? with _ | _ | p
    · rw [List.getElem?_eq_getElem hpl] at hp; simp at hp
    · rfl
    · exfalso
      have hpb := hd.below i p hp
      obtain ⟨e, he, h1, -⟩ := (hd.parents i p n _ hi (List.getElem?_eq_getElem hpb)).1 hp
      have := hf e he
      rw [(hch e he n h1).2 rfl] at this
      simp at this
  · simp only
    rw [List.findIdx?_eq_some_iff_getElem] at hf
    obtain ⟨hl, hc, -⟩ := hf
    have hem : (elems doc "joint")[j] ∈ elems doc "joint" := List.getElem_mem hl
    obtain ⟨-, np, nc, hnp, hnc, hmp, -⟩ := hd.joints _ hem
    obtain ⟨p, hp, hpn⟩ := findIdx_mem hd.nodup hmp
    have hnc' := (hch _ hem nc hnc).1 (by simpa using hc)
    subst hnc'
    refine ⟨_, p, np, List.getElem?_eq_getElem hl, ?_, hpn, (hd.parents i p nc np hi hpn).2 ⟨_, hem, hnc, hnp⟩, hnc⟩
    obtain ⟨q, hq, hqn⟩ := hnp
    rw [jointOf_parent hq, resolve_names hqn, hp]

/-! ## The file -/

variable [LinearOrder K] [IsStrictOrderedRing K] [Zm K] [LawfulZm K]

omit [IsStrictOrderedRing K] [LawfulZm K] in
theorem mapM_forall₂ {α β : Type*} {f : α → Option β} : ∀ {l : List α} {l' : List β}, l.mapM f = some l' →
    List.Forall₂ (fun a b => f a = some b) l l' := by
  intro l
  induction l with
  | nil => intro l' h; cases h; exact .nil
  | cons a l ih =>
    intro l' h
    rw [List.mapM_cons] at h
    obtain ⟨b, h1, h⟩ := Option.bind_eq_some_iff.1 h
    obtain ⟨bs, h2, h⟩ := Option.bind_eq_some_iff.1 h
    cases h
    exact .cons h1 (ih h2)

/-- The link of the robot that stands for the link `i` of the state. -/
def LinkOk (s : Info K) (n : String) (l : Link K) (fl : FLink K) (noname : String) : Prop :=
  ∃ p, ReadJoint (theJoint s l) p ∧ fl = readLink noname n l.mp (orgOf (theJoint s l)) (l.shapes.map fun p => p.name) p

theorem links_read (o : Order) (noname : String) {zyx : K → K → K → Mat3 K} {doc : Elem K} {links : List String}
    {pars : List (Option ℕ)} (hd : Describes doc links pars) {s : Info K} (hs : StateOf zyx doc links s) {shapes : List String}
    (hsh : ∀ l ∈ s.link, ∀ p ∈ l.shapes, p.name ∈ shapes) (hnum : ∀ e ∈ elems doc "joint", Numbers e)
    {ss : List (List (Fld K))} (h : s.link.mapM (outLink s) = some ss) :
    ∃ fls : List (FLink K), fls.length = s.link.length ∧ ss.length = s.link.length ∧
      List.Forall₂ (fun (l : FLink K) s => ∀ names : List String, l.link.name ∉ names →
        linkRead o noname names shapes [] s = .ok l) fls ss ∧
      (∀ (i : ℕ) (l : Link K) (fl : FLink K), s.link[i]? = some l → fls[i]? = some fl → ∃ n, links[i]? = some n ∧ LinkOk s n l fl noname) ∧
      ∀ (i : ℕ) (sec : List (Fld K)), ss[i]? = some sec → ∀ par, pars[i]? = some par → Declares links sec par := by
  have hf := mapM_forall₂ h
  -- one link
  have one : ∀ (i : ℕ) (l : Link K) (sec : List (Fld K)), s.link[i]? = some l → ss[i]? = some sec → ∃ n fl, links[i]? = some n ∧
      LinkOk s n l fl noname ∧ fl.link.name = n ∧ (∀ names : List String, n ∉ names → linkRead o noname names shapes [] sec = .ok fl) ∧
      ∀ par, pars[i]? = some par → Declares links sec par := by
    intro i l sec hl hsec
    obtain ⟨l', hl', ho⟩ := forall₂_get hf hsec
    rw [hl] at hl'
    cases hl'
    obtain ⟨e, n, he, hn, h1, h2, h3, h4, h5⟩ := hs.link i l hl
    obtain ⟨J, R, rfl, hJ, hR, hsome⟩ := outLink_eq ho h1
    have hRk : ∀ f ∈ R, f.key = "parent" := by
      intro f hf
      rw [ParentLine.eq_def] at hR
      split at hR
      · subst hR; simp at hf
      · obtain ⟨lp, np, -, -, rfl⟩ := hR
        rw [List.mem_singleton] at hf
        rw [hf]
    have hjx : ∀ y, theJoint s l = some y → ∃ j e, l.joint = some j ∧ (elems doc "joint")[j]? = some e ∧ coreJoint y = jointOf links e := by
      intro y hy
      obtain ⟨j, hj, hy⟩ := Option.bind_eq_some_iff.1 hy
      obtain ⟨e, he, hc⟩ := hs.joint j y hy
      exact ⟨j, e, hj, he, hc⟩
    obtain ⟨p, hp1, hp2⟩ := linkRead_secOf o noname shapes n (theJoint s l) J (orgOf (theJoint s l)) l.mp
      (l.shapes.map fun p => p.name) R hRk (by
        intro q hq
        obtain ⟨p, hp, rfl⟩ := List.mem_map.1 hq
        exact hsh l (List.mem_of_getElem? hl) p hp) hJ (by
        intro y hy
        obtain ⟨j, e, hj, he, hc⟩ := hjx y hy
        have hem := List.mem_of_getElem? he
        obtain ⟨⟨t, ht⟩, -⟩ := hd.joints e hem
        have hN := hnum e hem
        have c1 : y.type = (jointOf links e).type := by rw [← hc]; rfl
        have c2 : y.lower = (jointOf links e).lower := by rw [← hc]; rfl
        have c3 : y.upper = (jointOf links e).upper := by rw [← hc]; rfl
        have c4 : y.damping = (jointOf links e).damping := by rw [← hc]; rfl
        have c5 : y.friction = (jointOf links e).friction := by rw [← hc]; rfl
        rw [c1, c2, c3, c4, c5, jointOf_type, jointOf_lower, jointOf_upper, jointOf_damping, jointOf_friction]
        exact ⟨⟨t, by rw [ht]; rfl⟩, hN.lower, hN.upper, hN.damping, hN.friction⟩)
    refine ⟨n, _, hn, ⟨p, hp1, rfl⟩, rfl, hp2, ?_⟩
    intro par hpar
    have hvals : vals (secOf n ((theJoint s l).bind fun x => x.type) J (orgOf (theJoint s l)) l.mp (l.shapes.map fun p => p.name) R) "parent" =
        R.map Fld.val := by
      have hl : ∀ (k : String) (vs : List (List (Tok K))), k ≠ "parent" → (lines k vs).filter (fun f => f.key == "parent") = [] := by
        intro k vs hk
        rw [List.filter_eq_nil_iff]
        intro f hf
        rw [mem_lines hf]
        simpa using hk
      have hJ' : J.filter (fun f => f.key == "parent") = [] := by
        rw [List.filter_eq_nil_iff]
        intro f hf
        cases hx : theJoint s l with
        | none => rw [hx] at hJ; simp only [JointLines] at hJ; subst hJ; simp at hf
        | some x =>
          rw [hx] at hJ
          obtain ⟨lo, hi, -, -, rfl⟩ := hJ
          simp only [jLines, List.mem_append] at hf
          rcases hf with ((hf | hf) | hf) | hf <;> rw [mem_lines hf] <;> decide
      have hR' : R.filter (fun f => f.key == "parent") = R := by
        rw [List.filter_eq_self]
        intro f hf
        rw [hRk f hf]
        decide
      simp only [vals, secOf, List.filter_append]
      rw [hl _ _ (by decide), hl _ _ (by decide), hl _ _ (by decide), hl _ _ (by decide), hl _ _ (by decide), hl _ _ (by decide),
        hl _ _ (by decide), hl _ _ (by decide), hJ', hR']
      simp
    have hpo := parent_of hd i hn
    rw [← h2] at hpo
    rcases hlj : l.joint with _ | j
    · rw [hlj] at hpo
      simp only at hpo
      rw [hpar] at hpo
      cases hpo
      have : theJoint s l = none := by rw [theJoint, hlj]; rfl
      rw [this] at hR
      simp only [Option.bind_none, ParentLine] at hR
      rw [Declares, hvals, hR]
      rfl
    · rw [hlj] at hpo
      simp only at hpo
      obtain ⟨e', p', np, he', hp', hnp, hpp, -⟩ := hpo
      rw [hpar] at hpp
      cases hpp
      rcases hx : theJoint s l with _ | y
      · rw [hlj, hx] at hsome
        simp at hsome
      obtain ⟨j', e'', hj', he'', hc⟩ := hjx y hx
      rw [hlj] at hj'
      cases hj'
      rw [he'] at he''
      cases he''
      have : y.parent = some p' := by
        rw [← hp', ← hc]; rfl
      rw [hx, Option.bind_some, this] at hR
      obtain ⟨lp, np', hlp, hnp', rfl⟩ := hR
      obtain ⟨-, n', -, hn', hname, -⟩ := hs.link p' lp hlp
      rw [hnp'] at hname
      cases hname
      refine ⟨np', hn', ?_⟩
      rw [hx] at hvals
      rw [hvals]
      rfl
  have hlen := hf.length_eq
  -- all links
  have all : ∀ (k : ℕ), k ≤ s.link.length → ∃ fls : List (FLink K), fls.length = k ∧ ∀ (i : ℕ) (l : Link K) (sec : List (Fld K)) (fl : FLink K),
      s.link[i]? = some l → ss[i]? = some sec → fls[i]? = some fl → ∃ n, links[i]? = some n ∧
      LinkOk s n l fl noname ∧ fl.link.name = n ∧ (∀ names : List String, n ∉ names → linkRead o noname names shapes [] sec = .ok fl) := by
    intro k
    induction k with
    | zero => intro _; exact ⟨[], rfl, by simp⟩
    | succ k ih =>
      intro hk
      obtain ⟨fls, h1, h2⟩ := ih (by omega)
      obtain ⟨n, fl, a1, a2, a3, a4, -⟩ := one k s.link[k] ss[k] (List.getElem?_eq_getElem (by omega)) (List.getElem?_eq_getElem (by omega))
      refine ⟨fls ++ [fl], by simp [h1], ?_⟩
      intro i l sec fl' b1 b2 b3
      rw [List.getElem?_append] at b3
      split_ifs at b3 with c
      · exact h2 i l sec fl' b1 b2 b3
      · have hik : i = k := by
          have : i - fls.length < 1 := by
            have := (List.getElem?_eq_some_iff.1 b3).1
            simpa using this
          omega
        subst hik
        rw [h1, Nat.sub_self, List.getElem?_cons_zero, Option.some.injEq] at b3
        subst b3
        rw [List.getElem?_eq_getElem (by omega), Option.some.injEq] at b1 b2
        subst b1 b2
        exact ⟨n, a1, a2, a3, a4⟩
  obtain ⟨fls, g1, g2⟩ := all s.link.length le_rfl
  refine ⟨fls, g1, hlen.symm, ?_, ?_, ?_⟩
  · rw [List.forall₂_iff_get]
    refine ⟨by omega, fun i hi hi' names hnm => ?_⟩
    obtain ⟨n, -, -, e, h⟩ := g2 i s.link[i] ss[i] fls[i] (List.getElem?_eq_getElem (by omega)) (List.getElem?_eq_getElem hi')
      (List.getElem?_eq_getElem hi)
    exact h names (by rw [← e]; exact hnm)
  · intro i l fl b1 b2
    have hi : i < ss.length := by
      have := (List.getElem?_eq_some_iff.1 b1).1
      omega
    obtain ⟨n, a1, a2, -, -⟩ := g2 i l ss[i] fl b1 (List.getElem?_eq_getElem hi) b2
    exact ⟨n, a1, a2⟩
  · intro i sec b par hpar
    have hi : i < s.link.length := by
      have := (List.getElem?_eq_some_iff.1 b).1
      omega
    obtain ⟨n, fl, -, -, -, -, h⟩ := one i s.link[i] sec (List.getElem?_eq_getElem hi) b
    exact h par hpar

end Roki.Urdf.Doc
