import Verif.Lemmas.UrdfPlace2
import Verif.Lemmas.UrdfFile6
set_option autoImplicit false

/-! # URDF documents: the correction of the frames -/

namespace Roki.Urdf.Doc
open ZTK Spec.UrdfDoc
variable {K : Type*}

/-- The joint and the first child of every link. -/
def skelL (s : Info K) : List (Option ℕ × Option ℕ) := s.link.map fun l => (l.joint, l.child)
/-- The parent, the child and the sibling of every joint. -/
def skelJ (s : Info K) : List (Option ℕ × Option ℕ × Option ℕ) := s.joint.map fun x => (x.parent, x.child, x.sibling)

/-- Links and joints are connected as in a tree. -/
structure TreeS (L : List (Option ℕ × Option ℕ)) (J : List (Option ℕ × Option ℕ × Option ℕ)) : Prop where
  joint : ∀ (j : ℕ) (a b d : Option ℕ), J[j]? = some (a, b, d) → ∃ p c q r, a = some p ∧ b = some c ∧ L[p]? = some q ∧
    L[c]? = some (some j, r)
  down : ∀ (c k : ℕ) (q : Option ℕ), L[c]? = some (q, some k) → ∃ b d, J[k]? = some (some c, b, d)
  side : ∀ (j k : ℕ) (a b : Option ℕ), J[j]? = some (a, b, some k) → ∃ b' d, J[k]? = some (a, b', d)

/-- The joints that are visited from a joint. -/
inductive Vis (L : List (Option ℕ × Option ℕ)) (J : List (Option ℕ × Option ℕ × Option ℕ)) : ℕ → ℕ → Prop
  | here (j : ℕ) : Vis L J j j
  | down {j c k m : ℕ} {a d q : Option ℕ} : J[j]? = some (a, some c, d) → L[c]? = some (q, some k) → Vis L J k m → Vis L J j m
  | side {j k m : ℕ} {a b : Option ℕ} : J[j]? = some (a, b, some k) → Vis L J k m → Vis L J j m

theorem Vis.trans {L : List (Option ℕ × Option ℕ)} {J : List (Option ℕ × Option ℕ × Option ℕ)} {i j k : ℕ} (h : Vis L J i j)
    (h' : Vis L J j k) : Vis L J i k := by
  induction h with
  | here => exact h'
  | down h1 h2 _ ih => exact .down h1 h2 (ih h')
  | side h1 _ ih => exact .side h1 (ih h')

/-- What holds after `descend`. -/
theorem descend_all [Field K] {body : Info K → ℕ → ℕ → Joint K → Link K → Link K → Option (Info K)}
    {L : List (Option ℕ × Option ℕ)} {J : List (Option ℕ × Option ℕ × Option ℕ)} (T : TreeS L J) (R : Info K → Prop)
    (D : Info K → ℕ → Prop) (hR : ∀ s, R s → skelL s = L ∧ skelJ s = J)
    (hb : ∀ s s' j p c x par l, R s → s.joint[j]? = some x → x.parent = some p → x.child = some c → s.link[p]? = some par →
      s.link[c]? = some l → (∀ q, par.joint = some q → D s q) → body s j c x par l = some s' →
      R s' ∧ D s' j ∧ ∀ k, D s k → D s' k) :
    ∀ (fuel : ℕ) (s : Info K) (j : ℕ) (r : Bool × Info K), descend body fuel s j = some r → R s →
      (∀ p b d q r', J[j]? = some (some p, b, d) → L[p]? = some (some q, r') → D s q) →
      r.1 = true ∧ R r.2 ∧ (∀ k, D s k → D r.2 k) ∧ ∀ k, Vis L J j k → D r.2 k := by
  intro fuel
  induction fuel with
  | zero => intro s j r h; simp [descend] at h
  | succ fuel ih =>
    intro s j r h hs hup
    obtain ⟨sL, sJ⟩ := hR s hs
    rw [descend] at h
    obtain ⟨x, hx, h⟩ := Option.bind_eq_some_iff.1 h
    have hJ : J[j]? = some (x.parent, x.child, x.sibling) := by rw [← sJ, skelJ, List.getElem?_map, hx]; rfl
    obtain ⟨p, c, q0, r0, hp, hc, hLp, hLc⟩ := T.joint _ _ _ _ hJ
    rw [hp, hc] at h
    simp only at h
    obtain ⟨par, hpar, h⟩ := Option.bind_eq_some_iff.1 h
    obtain ⟨l, hl, h⟩ := Option.bind_eq_some_iff.1 h
    obtain ⟨s1, h1, h⟩ := Option.bind_eq_some_iff.1 h
    obtain ⟨r1, h2, h⟩ := Option.bind_eq_some_iff.1 h
    have hLp' : L[p]? = some (par.joint, par.child) := by rw [← sL, skelL, List.getElem?_map, hpar]; rfl
    have hLc' : L[c]? = some (l.joint, l.child) := by rw [← sL, skelL, List.getElem?_map, hl]; rfl
    have hq : ∀ q, par.joint = some q → D s q := by
      intro q hq
      rw [hq] at hLp'
      rw [hp] at hJ
      exact hup _ _ _ _ _ hJ hLp'
    obtain ⟨b1, b2, b3⟩ := hb s s1 j p c x par l hs hx hp hc hpar hl hq h1
    -- the joints of the child link
    have key : r1.1 = true ∧ R r1.2 ∧ (∀ k, D s1 k → D r1.2 k) ∧ ∀ k m, l.child = some k → Vis L J k m → D r1.2 m := by
      split at h2
      · next hch =>
        cases h2
        refine ⟨rfl, b1, fun _ h => h, ?_⟩
        intro k m hk
        rw [hch] at hk
        cases hk
      · next k hch =>
        have := ih s1 k r1 h2 b1 (by
          intro p' b d q r' e1 e2
          rw [hch] at hLc'
          obtain ⟨b', d', e3⟩ := T.down _ _ _ hLc'
          rw [e1] at e3
          cases e3
          rw [hLc] at e2
          cases e2
          exact b2)
        refine ⟨this.1, this.2.1, this.2.2.1, ?_⟩
        intro k' m hk
        rw [hch] at hk
        cases hk
        exact this.2.2.2 m
    obtain ⟨g1, g2, g3, g4⟩ := key
    rw [if_pos g1] at h
    have key2 : r.1 = true ∧ R r.2 ∧ (∀ k, D r1.2 k → D r.2 k) ∧ ∀ k m, x.sibling = some k → Vis L J k m → D r.2 m := by
      split at h
      · next hch =>
        cases h
        refine ⟨rfl, g2, fun _ h => h, ?_⟩
        intro k m hk
        rw [hch] at hk
        cases hk
      · next k hch =>
        have := ih r1.2 k r h g2 (by
          intro p' b d q r' e1 e2
          rw [hch] at hJ
          obtain ⟨b', d', e3⟩ := T.side _ _ _ _ hJ
          rw [e1, hp] at e3
          cases e3
          rw [hLp'] at e2
          simp only [Option.some.injEq, Prod.mk.injEq] at e2
          exact g3 _ (b3 _ (hq q e2.1)))
        refine ⟨this.1, this.2.1, this.2.2.1, ?_⟩
        intro k' m hk
        rw [hch] at hk
        cases hk
        exact this.2.2.2 m
    obtain ⟨i1, i2, i3, i4⟩ := key2
    refine ⟨i1, i2, fun k hk => i3 k (g3 k (b3 k hk)), ?_⟩
    intro m hv
    cases hv with
    | here => exact i3 _ (g3 _ b2)
    | down e1 e2 e3 =>
      rw [hJ, hc] at e1
      cases e1
      rw [hLc'] at e2
      simp only [Option.some.injEq, Prod.mk.injEq] at e2
      exact i3 _ (g4 _ _ e2.2 e3)
    | side e1 e2 =>
      rw [hJ] at e1
      simp only [Option.some.injEq, Prod.mk.injEq] at e1
      exact i4 _ _ e1.2.2 e2

variable [Field K]

/-- The frame of the child link of a joint, by the frames of the joints. -/
inductive AtJ (s : Info K) : ℕ → Frame K → Prop
  | root {j p : ℕ} {x : Joint K} {lp : Link K} : s.joint[j]? = some x → x.parent = some p → s.link[p]? = some lp → lp.joint = none →
      AtJ s j x.fl
  | step {j p q : ℕ} {x : Joint K} {lp : Link K} {f : Frame K} : s.joint[j]? = some x → x.parent = some p → s.link[p]? = some lp →
      lp.joint = some q → AtJ s q f → AtJ s j (f.cascade x.fl)

/-- A link after the first pass. -/
def link1 (f : Frame K) (l : Link K) : Link K :=
  { l with iw := f.att.rot l.mp.inertia, shapes := l.shapes.map fun p => { p with fw := f.cascade p.fl } }

/-- What the first pass does not change. -/
def j1 (x : Joint K) : Joint K := { x with fw := Frame.ident }
def l1 (l : Link K) : Link K := { l with iw := 0, shapes := l.shapes.map fun p => { p with fw := Frame.ident } }

theorem link1_of_l1 (f : Frame K) {l l' : Link K} (h : l1 l = l1 l') : link1 f l = link1 f l' := by
  have e : ∀ l : Link K, link1 f l = link1 f (l1 l) := by
    intro l
    simp only [link1, l1, List.map_map]
    rfl
  rw [e l, e l', h]

theorem get_of_map {α β : Type*} {f : α → β} {l l' : List α} (h : l.map f = l'.map f) {i : ℕ} {a : α} (ha : l[i]? = some a) :
    ∃ b, l'[i]? = some b ∧ f a = f b := by
  have := congrArg (fun l => l[i]?) h
  simp only [List.getElem?_map, ha, Option.map_some] at this
  rcases hb : l'[i]? with _ | b
  · rw [hb] at this; cases this
  · rw [hb] at this
    exact ⟨b, rfl, by simpa using this⟩

theorem skel_of_1 {s s' : Info K} (h1 : s.joint.map j1 = s'.joint.map j1) (h2 : s.link.map l1 = s'.link.map l1) :
    skelL s = skelL s' ∧ skelJ s = skelJ s' := by
  constructor
  · have := congrArg (List.map fun l : Link K => (l.joint, l.child)) h2
    rw [List.map_map, List.map_map] at this
    exact this
  · have := congrArg (List.map fun x : Joint K => (x.parent, x.child, x.sibling)) h1
    rw [List.map_map, List.map_map] at this
    exact this

theorem TreeS.of_skel {s : Info K} (T : TreeS (skelL s) (skelJ s)) {j : ℕ} {x : Joint K} (h : s.joint[j]? = some x) :
    ∃ p c lp lc, x.parent = some p ∧ x.child = some c ∧ s.link[p]? = some lp ∧ s.link[c]? = some lc ∧ lc.joint = some j := by
  have hJ : (skelJ s)[j]? = some (x.parent, x.child, x.sibling) := by rw [skelJ, List.getElem?_map, h]; rfl
  obtain ⟨p, c, q, r, h1, h2, h3, h4⟩ := T.joint _ _ _ _ hJ
  rw [skelL, List.getElem?_map] at h3 h4
  obtain ⟨lp, h3, -⟩ := Option.map_eq_some_iff.1 h3
  obtain ⟨lc, h4, e⟩ := Option.map_eq_some_iff.1 h4
  simp only [Prod.mk.injEq] at e
  exact ⟨p, c, lp, lc, h1, h2, h3, h4, e.1⟩

/-- What the first pass has done for a joint. -/
def D1 (s0 s : Info K) (k : ℕ) : Prop :=
  ∀ f, AtJ s0 k f → ∃ x0 c l0, s0.joint[k]? = some x0 ∧ x0.child = some c ∧ s0.link[c]? = some l0 ∧
    s.joint[k]? = some { x0 with fw := f } ∧ s.link[c]? = some (link1 f l0)

theorem xform1_step {s0 : Info K} (T : TreeS (skelL s0) (skelJ s0)) (s s' : Info K) (j p c : ℕ) (x : Joint K) (par l : Link K)
    (hR : s.joint.map j1 = s0.joint.map j1 ∧ s.link.map l1 = s0.link.map l1) (hx : s.joint[j]? = some x) (hp : x.parent = some p)
    (hc : x.child = some c) (hpar : s.link[p]? = some par) (hl : s.link[c]? = some l) (hD : ∀ q, par.joint = some q → D1 s0 s q)
    (h : xform1 s j c x par l = some s') :
    (s'.joint.map j1 = s0.joint.map j1 ∧ s'.link.map l1 = s0.link.map l1) ∧ D1 s0 s' j ∧ ∀ k, D1 s0 s k → D1 s0 s' k := by
  obtain ⟨fw, hfw, rfl⟩ := Option.map_eq_some_iff.1 h
  obtain ⟨x0, hx0, ex⟩ := get_of_map hR.1 hx
  obtain ⟨l0, hl0, el⟩ := get_of_map hR.2 hl
  obtain ⟨par0, hpar0, epar⟩ := get_of_map hR.2 hpar
  have ep : par.joint = par0.joint := by
    have := congrArg Link.joint epar
    exact this
  have efl : x.fl = x0.fl := by
    have := congrArg Joint.fl ex
    exact this
  have epp : x0.parent = some p := by rw [← hp]; have := congrArg Joint.parent ex; exact this.symm
  have ecc : x0.child = some c := by rw [← hc]; have := congrArg Joint.child ex; exact this.symm
  have hjl := (List.getElem?_eq_some_iff.1 hx).1
  have hcl := (List.getElem?_eq_some_iff.1 hl).1
  have hself : D1 s0 { s with
      joint := s.joint.set j { x with fw := fw }
      link := s.link.set c { l with
        iw := fw.att.rot l.mp.inertia, shapes := l.shapes.map fun p => { p with fw := fw.cascade p.fl } } } j := by
    intro f hf
    have e : fw = f := by
      cases hf with
      | root a1 a2 a3 a4 =>
        rw [hx0] at a1
        cases a1
        rw [epp] at a2
        cases a2
        rw [hpar0] at a3
        cases a3
        rw [ep, a4] at hfw
        cases hfw
        exact efl
      | step a1 a2 a3 a4 a5 =>
        rw [hx0] at a1
        cases a1
        rw [epp] at a2
        cases a2
        rw [hpar0] at a3
        cases a3
        rw [ep, a4] at hfw
        obtain ⟨y0, c', l0', b1, b2, b3, b4, b5⟩ := hD _ (by rw [ep, a4]) _ a5
        simp only [b4, Option.map_some] at hfw
        cases hfw
        rw [efl]
    subst e
    refine ⟨x0, c, l0, hx0, ecc, hl0, ?_, ?_⟩
    · simp only [List.getElem?_set_self hjl, Option.some.injEq]
      have := congrArg (fun x : Joint K => { x with fw := fw }) ex
      exact this
    · simp only [List.getElem?_set_self hcl, Option.some.injEq]
      exact link1_of_l1 fw el
  refine ⟨⟨?_, ?_⟩, hself, ?_⟩
  · rw [← hR.1]
    exact map_set_same _ hx rfl
  · rw [← hR.2]
    refine map_set_same _ hl ?_
    simp only [l1, List.map_map]
    rfl
  · intro k hk
    by_cases hkj : k = j
    · subst hkj
      exact hself
    intro f hf
    obtain ⟨y0, c', l0', b1, b2, b3, b4, b5⟩ := hk f hf
    refine ⟨y0, c', l0', b1, b2, b3, ?_, ?_⟩
    · simp only
      rw [List.getElem?_set_ne (Ne.symm hkj)]
      exact b4
    · have hcc : c ≠ c' := by
        rintro rfl
        obtain ⟨_, _, _, lc, -, d2, -, d4, d5⟩ := T.of_skel hx0
        obtain ⟨_, _, _, lc', -, d2', -, d4', d5'⟩ := T.of_skel b1
        rw [ecc] at d2
        cases d2
        rw [b2] at d2'
        cases d2'
        rw [d4] at d4'
        cases d4'
        rw [d5] at d5'
        cases d5'
        exact hkj rfl
      simp only
      rw [List.getElem?_set_ne hcc]
      exact b5

/-! ## The second pass -/

/-- The frame of a joint in the frame of its parent. -/
def RelFl (s : Info K) (par : Link K) (x : Joint K) (fl : Frame K) : Prop :=
  match par.joint with
  | none => fl = x.fw
  | some q => ∃ y, s.joint[q]? = some y ∧ fl = y.fw.xformF x.fw

/-- A link after the second pass. -/
def link2 (fl fw : Frame K) (l : Link K) : Link K :=
  { l with mp := { l.mp with inertia := fl.att.rotInv l.iw }, shapes := l.shapes.map fun p => { p with fl := fw.xformF p.fw } }

/-- What the second pass does not change. -/
def j2 (x : Joint K) : Joint K := { x with fl := Frame.ident }
def l2 (l : Link K) : Link K := { l with mp := { l.mp with inertia := 0 }, shapes := l.shapes.map fun p => { p with fl := Frame.ident } }

theorem link2_of_l2 (fl fw : Frame K) {l l' : Link K} (h : l2 l = l2 l') : link2 fl fw l = link2 fl fw l' := by
  have e : ∀ l : Link K, link2 fl fw l = link2 fl fw (l2 l) := by
    intro l
    simp only [link2, l2, List.map_map]
    rfl
  rw [e l, e l', h]

theorem skel_of_2 {s s' : Info K} (h1 : s.joint.map j2 = s'.joint.map j2) (h2 : s.link.map l2 = s'.link.map l2) :
    skelL s = skelL s' ∧ skelJ s = skelJ s' := by
  constructor
  · have := congrArg (List.map fun l : Link K => (l.joint, l.child)) h2
    rw [List.map_map, List.map_map] at this
    exact this
  · have := congrArg (List.map fun x : Joint K => (x.parent, x.child, x.sibling)) h1
    rw [List.map_map, List.map_map] at this
    exact this

/-- What the second pass has done for a joint. -/
def D2 (t s : Info K) (k : ℕ) : Prop :=
  ∃ x p c par l fl, t.joint[k]? = some x ∧ x.parent = some p ∧ x.child = some c ∧ t.link[p]? = some par ∧ t.link[c]? = some l ∧
    RelFl t par x fl ∧ s.joint[k]? = some { x with fl := fl } ∧ s.link[c]? = some (link2 fl x.fw l)

theorem xformInv1_step {t : Info K} (T : TreeS (skelL t) (skelJ t)) (s s' : Info K) (j p c : ℕ) (x : Joint K) (par l : Link K)
    (hR : s.joint.map j2 = t.joint.map j2 ∧ s.link.map l2 = t.link.map l2) (hx : s.joint[j]? = some x) (hp : x.parent = some p)
    (hc : x.child = some c) (hpar : s.link[p]? = some par) (hl : s.link[c]? = some l)
    (h : xformInv1 s j c x par l = some s') :
    (s'.joint.map j2 = t.joint.map j2 ∧ s'.link.map l2 = t.link.map l2) ∧ D2 t s' j ∧ ∀ k, D2 t s k → D2 t s' k := by
  obtain ⟨fl, hfl, rfl⟩ := Option.map_eq_some_iff.1 h
  obtain ⟨x0, hx0, ex⟩ := get_of_map hR.1 hx
  obtain ⟨l0, hl0, el⟩ := get_of_map hR.2 hl
  obtain ⟨par0, hpar0, epar⟩ := get_of_map hR.2 hpar
  have ep : par.joint = par0.joint := by
    have := congrArg Link.joint epar
    exact this
  have efw : x.fw = x0.fw := by
    have := congrArg Joint.fw ex
    exact this
  have epp : x0.parent = some p := by rw [← hp]; have := congrArg Joint.parent ex; exact this.symm
  have ecc : x0.child = some c := by rw [← hc]; have := congrArg Joint.child ex; exact this.symm
  have hjl := (List.getElem?_eq_some_iff.1 hx).1
  have hcl := (List.getElem?_eq_some_iff.1 hl).1
  have hself : D2 t { s with
      joint := s.joint.set j { x with fl := fl }
      link := s.link.set c { l with
        mp := { l.mp with inertia := fl.att.rotInv l.iw }
        shapes := l.shapes.map fun p => { p with fl := x.fw.xformF p.fw } } } j := by
    refine ⟨x0, p, c, par0, l0, fl, hx0, epp, ecc, hpar0, hl0, ?_, ?_, ?_⟩
    · rw [RelFl, ← ep]
      cases hq : par.joint with
      | none =>
        rw [hq] at hfl
        simp only [Option.some.injEq] at hfl
        rw [← hfl, efw]
      | some q =>
        rw [hq] at hfl
        simp only at hfl
        obtain ⟨y, hy, rfl⟩ := Option.map_eq_some_iff.1 hfl
        obtain ⟨y0, hy0, ey⟩ := get_of_map hR.1 hy
        have efy : y.fw = y0.fw := by
          have := congrArg Joint.fw ey
          exact this
        exact ⟨y0, hy0, by rw [efy, efw]⟩
    · simp only [List.getElem?_set_self hjl, Option.some.injEq]
      have := congrArg (fun x : Joint K => { x with fl := fl }) ex
      exact this
    · simp only [List.getElem?_set_self hcl, Option.some.injEq]
      rw [efw]
      exact link2_of_l2 fl x0.fw el
  refine ⟨⟨?_, ?_⟩, hself, ?_⟩
  · rw [← hR.1]
    exact map_set_same _ hx rfl
  · rw [← hR.2]
    refine map_set_same _ hl ?_
    simp only [l2, List.map_map]
    rfl
  · intro k hk
    by_cases hkj : k = j
    · subst hkj
      exact hself
    obtain ⟨y0, p', c', par', l', fl', b1, b2, b3, b4, b5, b6, b7, b8⟩ := hk
    refine ⟨y0, p', c', par', l', fl', b1, b2, b3, b4, b5, b6, ?_, ?_⟩
    · simp only
      rw [List.getElem?_set_ne (Ne.symm hkj)]
      exact b7
    · have hcc : c ≠ c' := by
        rintro rfl
        obtain ⟨_, _, _, lc, -, d2, -, d4, d5⟩ := T.of_skel hx0
        obtain ⟨_, _, _, lc', -, d2', -, d4', d5'⟩ := T.of_skel b1
        rw [ecc] at d2
        cases d2
        rw [b3] at d2'
        cases d2'
        rw [d4] at d4'
        cases d4'
        rw [d5] at d5'
        cases d5'
        exact hkj rfl
      simp only
      rw [List.getElem?_set_ne hcc]
      exact b8

/-! ## Both passes -/

/-- The frame that a joint gets. -/
def putJ (rot : Vec3 K → Mat3 K) (x : Joint K) (f : Frame K) : Frame K :=
  if x.type.any hasAxis then ⟨f.pos, (rot x.axis).mul f.att⟩ else f

/-- A joint and its child link after the correction. -/
theorem correctFrame_at {rot : Vec3 K → Mat3 K} {s0 s : Info K} (T : TreeS (skelL s0) (skelJ s0)) {root : Link K} {i0 : ℕ}
    (hroot : s0.link[i0]? = some root) (hfind : (s0.link.find? fun l => l.joint.isNone) = some root)
    (h : correctFrame rot s0 = some s)
    (hall : ∀ (k : ℕ) (x : Joint K), s0.joint[k]? = some x → ∃ k0, root.child = some k0 ∧ Vis (skelL s0) (skelJ s0) k0 k)
    (hrj : root.joint = none) {k : ℕ} {f : Frame K} (hf : AtJ s0 k f) :
    ∃ x0 p c lp l0 fl, s0.joint[k]? = some x0 ∧ x0.parent = some p ∧ x0.child = some c ∧ s0.link[p]? = some lp ∧ s0.link[c]? = some l0 ∧
      s.joint[k]? = some { x0 with fw := putJ rot x0 f, fl := fl } ∧
      s.link[c]? = some (link2 fl (putJ rot x0 f) (link1 f l0)) ∧
      (lp.joint = none → fl = putJ rot x0 f) ∧
      ∀ q y0 g, lp.joint = some q → s0.joint[q]? = some y0 → AtJ s0 q g → fl = (putJ rot y0 g).xformF (putJ rot x0 f) := by
  obtain ⟨xk, hxk⟩ : ∃ x, s0.joint[k]? = some x := by
    cases hf with
    | root a1 => exact ⟨_, a1⟩
    | step a1 => exact ⟨_, a1⟩
  obtain ⟨k0, hk0, hv⟩ := hall k xk hxk
  rw [correctFrame, hfind] at h
  simp only [hk0] at h
  obtain ⟨s1, h1, h⟩ := Option.bind_eq_some_iff.1 h
  obtain ⟨js, h2, h⟩ := Option.bind_eq_some_iff.1 h
  obtain ⟨r1, hr1, rfl⟩ := Option.map_eq_some_iff.1 h1
  obtain ⟨r2, hr2, rfl⟩ := Option.map_eq_some_iff.1 h
  have hup : ∀ p b d q r', (skelJ s0)[k0]? = some (some p, b, d) → (skelL s0)[p]? = some (some q, r') → False := by
    intro p b d q r' e1 e2
    have hL : (skelL s0)[i0]? = some (root.joint, some k0) := by rw [skelL, List.getElem?_map, hroot, ← hk0]; rfl
    obtain ⟨b', d', e3⟩ := T.down _ _ _ hL
    rw [e1] at e3
    cases e3
    rw [hL, hrj] at e2
    cases e2
  -- the first pass
  obtain ⟨-, R1, -, V1⟩ := descend_all T (fun s => s.joint.map j1 = s0.joint.map j1 ∧ s.link.map l1 = s0.link.map l1) (D1 s0)
    (fun s h => skel_of_1 h.1 h.2) (fun s s' j p c x par l a1 a2 a3 a4 a5 a6 a7 a8 => xform1_step T s s' j p c x par l a1 a2 a3 a4 a5 a6 a7 a8)
    _ s0 k0 r1 hr1 ⟨rfl, rfl⟩ (fun p b d q r' e1 e2 => (hup p b d q r' e1 e2).elim)
  have D : ∀ (m : ℕ) (x : Joint K), s0.joint[m]? = some x → D1 s0 r1.2 m := by
    intro m x hx
    obtain ⟨k0', e, hv⟩ := hall m x hx
    rw [hk0] at e
    cases e
    exact V1 m hv
  -- the axes
  have hreal : ∀ (m : ℕ) (x : Joint K) (g : Frame K), r1.2.joint[m]? = some { x with fw := g } → js[m]? = some { x with fw := putJ rot x g } := by
    intro m x g hm
    have hf := mapM_forall₂ h2
    have hlt : m < js.length := by
      rw [← hf.length_eq]
      exact (List.getElem?_eq_some_iff.1 hm).1
    obtain ⟨hlt', hle⟩ := List.getElem?_eq_some_iff.1 hm
    have := (List.forall₂_iff_get.1 hf).2 m hlt' hlt
    rw [List.get_eq_getElem, List.get_eq_getElem, hle] at this
    rw [List.getElem?_eq_getElem hlt]
    rw [realign] at this
    obtain ⟨ty, hty, e⟩ := Option.map_eq_some_iff.1 this
    rw [← e]
    have hty' : x.type = some ty := hty
    simp only [putJ, hty', Option.any_some]
    split_ifs <;> rfl
  set t : Info K := { r1.2 with joint := js } with ht
  have hjs2 : js.map (fun x => (x.parent, x.child, x.sibling)) = r1.2.joint.map fun x => (x.parent, x.child, x.sibling) := by
    have := mapM_core (fun x y => realign_core x y) _ _ h2
    have hf := mapM_forall₂ h2
    apply List.ext_getElem?
    intro m
    rw [List.getElem?_map, List.getElem?_map]
    rcases hm : r1.2.joint[m]? with _ | x
    · have : js[m]? = none := by
        rw [List.getElem?_eq_none_iff] at hm ⊢
        rw [← hf.length_eq]
        exact hm
      rw [this]
    · rw [hreal m x x.fw hm]
      rfl
  have hsk : skelL t = skelL s0 ∧ skelJ t = skelJ s0 := by
    obtain ⟨e1, e2⟩ := skel_of_1 R1.1 R1.2
    exact ⟨by rw [← e1]; rfl, by rw [← e2]; exact hjs2⟩
  have T2 : TreeS (skelL t) (skelJ t) := by rw [hsk.1, hsk.2]; exact T
  obtain ⟨-, -, -, V2⟩ := descend_all T2 (fun s => s.joint.map j2 = t.joint.map j2 ∧ s.link.map l2 = t.link.map l2) (D2 t)
    (fun s h => skel_of_2 h.1 h.2) (fun s s' j p c x par l a1 a2 a3 a4 a5 a6 a7 a8 => xformInv1_step T2 s s' j p c x par l a1 a2 a3 a4 a5 a6 a8)
    _ t k0 r2 hr2 ⟨rfl, rfl⟩ (fun p b d q r' e1 e2 => by
      rw [hsk.2] at e1
      rw [hsk.1] at e2
      exact (hup p b d q r' e1 e2).elim)
  obtain ⟨x, p, c, par, l, fl, b1, b2, b3, b4, b5, b6, b7, b8⟩ := V2 k (by rw [hsk.1, hsk.2]; exact hv)
  obtain ⟨x0, c', l0, c1, c2, c3, c4, c5⟩ := D k xk hxk f hf
  have hx := hreal k x0 f c4
  rw [show t.joint[k]? = js[k]? from rfl, hx] at b1
  cases b1
  rw [c2] at b3
  cases b3
  rw [show t.link[c]? = r1.2.link[c]? from rfl, c5] at b5
  cases b5
  obtain ⟨lp, hlp, elp⟩ := get_of_map R1.2 b4
  have ej : par.joint = lp.joint := by
    have := congrArg Link.joint elp
    exact this
  refine ⟨x0, p, c, lp, l0, fl, c1, b2, c2, hlp, c3, b7, b8, ?_, ?_⟩
  · intro hn
    rw [RelFl, ej, hn] at b6
    exact b6
  · intro q y0 g hq hy0 hg
    rw [RelFl, ej, hq] at b6
    obtain ⟨y, hy, rfl⟩ := b6
    obtain ⟨y0', c'', l0', d1, d2, d3, d4, d5⟩ := D q y0 hy0 g hg
    rw [hy0] at d1
    cases d1
    have := hreal q y0 g d4
    rw [show t.joint[q]? = js[q]? from rfl, this] at hy
    cases hy
    rfl

end Roki.Urdf.Doc
