import Verif.Lemmas.UrdfMass
import Verif.Lemmas.ChainFile5
import Verif.Props.FK
set_option autoImplicit false

/-! # URDF documents: the state that is written, and forward kinematics -/

namespace Roki.Urdf.Doc
open ZTK Spec.UrdfDoc Spec.File
variable {K : Type*} [Field K]

theorem descend_inv {body : Info K → ℕ → ℕ → Joint K → Link K → Link K → Option (Info K)} (I : Info K → Prop)
    (hb : ∀ s s' j c x par l, I s → s.joint[j]? = some x → x.child = some c → body s j c x par l = some s' → I s') :
    ∀ (fuel : ℕ) (s : Info K) (j : ℕ) (r : Bool × Info K), descend body fuel s j = some r → I s → I r.2 := by
  intro fuel
  induction fuel with
  | zero => intro s j r h; simp [descend] at h
  | succ fuel ih =>
    intro s j r h hI
    rw [descend] at h
    obtain ⟨x, hx, h⟩ := Option.bind_eq_some_iff.1 h
    split at h
    · rename_i p c hp hc
      obtain ⟨par, hpar, h⟩ := Option.bind_eq_some_iff.1 h
      obtain ⟨l, hl, h⟩ := Option.bind_eq_some_iff.1 h
      obtain ⟨s1, h1, h⟩ := Option.bind_eq_some_iff.1 h
      obtain ⟨r1, h2, h⟩ := Option.bind_eq_some_iff.1 h
      have i1 := hb _ _ _ _ _ _ _ hI hx hc h1
      have i2 : I r1.2 := by
        split at h2
        · cases h2; exact i1
        · exact ih _ _ _ h2 i1
      split_ifs at h
      · split at h
        · cases h; exact i2
        · exact ih _ _ _ h i2
      · cases h; exact i2
    · cases h; exact hI

/-- A link that is no child is left as it is. -/
theorem correctFrame_root {rot : Vec3 K → Mat3 K} {s0 s : Info K} (h : correctFrame rot s0 = some s) {i : ℕ} {l : Link K}
    (hl : s0.link[i]? = some l) (hno : ∀ (k : ℕ) (x : Joint K), s0.joint[k]? = some x → x.child ≠ some i) : s.link[i]? = some l := by
  rw [correctFrame] at h
  split at h
  · cases h; exact hl
  · obtain ⟨s1, h1, h⟩ := Option.bind_eq_some_iff.1 h
    obtain ⟨js, h2, h⟩ := Option.bind_eq_some_iff.1 h
    have step : ∀ (s s' : Info K) (j c : ℕ) (x y : Joint K) (l' : Link K), s.link[i]? = some l ∧ (∀ (k : ℕ) (x : Joint K), s.joint[k]? = some x → x.child ≠ some i) →
        s.joint[j]? = some x → x.child = some c → y.child = some c → s' = { s with joint := s.joint.set j y, link := s.link.set c l' } →
        s'.link[i]? = some l ∧ ∀ (k : ℕ) (x : Joint K), s'.joint[k]? = some x → x.child ≠ some i := by
      rintro s s' j c x y l' ⟨a1, a2⟩ hx hc hy rfl
      have hci : c ≠ i := by
        rintro rfl
        exact a2 j x hx hc
      constructor
      · simp only [List.getElem?_set_ne hci, a1]
      · intro k z hz
        by_cases hk : j = k
        · subst hk
          have hlt := (List.getElem?_eq_some_iff.1 hx).1
          simp only [List.getElem?_set_self hlt, Option.some.injEq] at hz
          rw [← hz, hy]
          simpa using hci
        · rw [List.getElem?_set_ne hk] at hz
          exact a2 k z hz
    have i1 : s1.link[i]? = some l ∧ ∀ (k : ℕ) (x : Joint K), s1.joint[k]? = some x → x.child ≠ some i := by
      split at h1
      · cases h1; exact ⟨hl, hno⟩
      · obtain ⟨r, hr, rfl⟩ := Option.map_eq_some_iff.1 h1
        refine descend_inv (fun s => s.link[i]? = some l ∧ ∀ (k : ℕ) (x : Joint K), s.joint[k]? = some x → x.child ≠ some i) ?_ _ _ _ _ hr ⟨hl, hno⟩
        intro s s' j c x par l' hI hx hc h
        obtain ⟨fw, -, rfl⟩ := Option.map_eq_some_iff.1 h
        exact step _ _ _ _ _ _ _ hI hx hc (by exact hc) rfl
    have i2 : ∀ (k : ℕ) (x : Joint K), js[k]? = some x → x.child ≠ some i := by
      intro k x hx
      have hf := mapM_forall₂ h2
      obtain ⟨y, hy, hxy⟩ := forall₂_get hf hx
      rw [realign] at hxy
      obtain ⟨t, -, rfl⟩ := Option.map_eq_some_iff.1 hxy
      have := i1.2 k y hy
      split_ifs <;> exact this
    split at h
    · cases h; exact i1.1
    · obtain ⟨r, hr, rfl⟩ := Option.map_eq_some_iff.1 h
      refine (descend_inv (fun s => s.link[i]? = some l ∧ ∀ (k : ℕ) (x : Joint K), s.joint[k]? = some x → x.child ≠ some i) ?_ _ _ _ _ hr ⟨i1.1, i2⟩).1
      intro s s' j c x par l' hI hx hc h
      obtain ⟨fw, -, rfl⟩ := Option.map_eq_some_iff.1 h
      exact step _ _ _ _ _ _ _ hI hx hc (by exact hc) rfl

/-- The link `i` of the state that is written, for the link of the document with the frame `F` that the program puts at `G`. -/
theorem state_at {rot : Vec3 K → Mat3 K} {zyx : K → K → K → Mat3 K} {doc : Elem K} {links : List String} {pars : List (Option ℕ)}
    (hd : Describes doc links pars) (ho : ∀ e ∈ elems doc "joint", OriginOk e) (ha : ∀ e ∈ elems doc "joint", AxisOk e)
    (hr : pars[0]? = some none) (hl : ∀ k < pars.length, LeadsToRoot pars k) {s0 s : Info K} (h0 : eval zyx doc = some s0)
    (h1 : correctFrame rot s0 = some s) {i : ℕ} {n : String} {F G : Frame K} (hn : links[i]? = some n) (hF : At zyx doc n F)
    (hG : Put rot doc n F G) : ∃ l0 l, s0.link[i]? = some l0 ∧ s.link[i]? = some l ∧
      ((pars[i]? = some none ∧ (∀ e ∈ elems doc "joint", ¬ Names e "child" n) ∧ theJoint s l = none ∧ l = l0) ∨
      ∃ e p np x Fp Gp, e ∈ elems doc "joint" ∧ Names e "child" n ∧ Names e "parent" np ∧ pars[i]? = some (some p) ∧ links[p]? = some np ∧
        At zyx doc np Fp ∧ Put rot doc np Fp Gp ∧ theJoint s l = some x ∧ x.fl = Gp.xformF G ∧ l = link2 x.fl G (link1 F l0)) := by
  have hs0 := state_of_core hd h0 rfl
  obtain ⟨l0, e1, e2⟩ := link_of hd h0 hn
  have hT := tree_of hd h0
  rcases parent_cases hd hn with ⟨b1, b2, b3⟩ | ⟨e, j, p, np, b1, b2, b3, b4, b5, b6, b7, b8⟩
  · have hk : s.link[i]? = some l0 := by
      refine correctFrame_root h1 e1 ?_
      intro k x hx hc
      obtain ⟨e, he, hcj⟩ := hs0.joint k x hx
      obtain ⟨p, c, np, nc, -, a2, -, a4, -, a6⟩ := joint_ends hd (List.mem_of_getElem? he)
      rw [← hcj] at a2
      have hc' : (coreJoint x).child = some i := hc
      rw [hc'] at a2
      cases a2
      rw [hn] at a4
      cases a4
      exact b2 e (List.mem_of_getElem? he) a6
    refine ⟨l0, l0, e1, hk, .inl ⟨b1, b2, ?_, rfl⟩⟩
    rw [theJoint, e2, b3]
    rfl
  · obtain ⟨n0, hn0⟩ : ∃ n0, links[0]? = some n0 := ⟨_, List.getElem?_eq_getElem (by
      rw [← hd.size]
      exact (List.getElem?_eq_some_iff.1 hr).1)⟩
    obtain ⟨root, hroot, hrootj⟩ := link_of hd h0 hn0
    have hrj : root.joint = none := by
      rcases parent_cases hd hn0 with ⟨-, -, h3⟩ | ⟨e, j, p, np, -, -, -, -, -, -, h7, -⟩
      · rw [hrootj, h3]
      · rw [hr] at h7; cases h7
    have hfind : (s0.link.find? fun l => l.joint.isNone) = some root := by
      obtain ⟨hlt, he⟩ := List.getElem?_eq_some_iff.1 hroot
      rcases hs : s0.link with _ | ⟨a, ls⟩
      · rw [hs] at hlt; simp at hlt
      · rw [hs] at hroot
        simp only [List.getElem?_cons_zero, Option.some.injEq] at hroot
        subst hroot
        rw [List.find?_cons_of_pos]
        rw [hrj]
        rfl
    have hall : ∀ (k : ℕ) (x : Joint K), s0.joint[k]? = some x → ∃ k0, root.child = some k0 ∧ Vis (skelL s0) (skelJ s0) k0 k := by
      intro k x hx
      obtain ⟨p, c, lp, lc, -, a2, -, a4, a5⟩ := hT.of_skel hx
      have hc : c < pars.length := by
        rw [hd.size, ← hs0.size]
        exact (List.getElem?_eq_some_iff.1 a4).1
      exact visited hd h0 hroot hr (hl c hc) lc k a4 a5
    have hj : l0.joint = some j := by rw [e2, b8]
    have hat := atJ_of hd h0 ho ha hF i l0 j hn e1 hj
    obtain ⟨x0, p', c, lp, l0', fl, c1, c2, c3, c4, c5, c6, c7, c8, c9⟩ := correctFrame_at hT hroot hfind h1 hall hrj hat
    obtain ⟨x0', d1, d2, -⟩ := joint_place hd h0 ho ha b1
    rw [c1] at d1
    cases d1
    have hc : c = i := by
      have : (coreJoint x0).child = some c := c3
      rw [d2, b6] at this
      cases this
      rfl
    have hp : p' = p := by
      have : (coreJoint x0).parent = some p' := c2
      rw [d2, b5] at this
      cases this
      rfl
    subst hc hp
    rw [e1] at c5
    cases c5
    have hGe : putJ rot x0 F = G := put_unique hd (put_of hd h0 ho ha rot b1 b2 c1 F) hG
    rw [hGe] at c6 c7 c8 c9
    have hpl : p' < pars.length := by rw [hd.size]; exact (List.getElem?_eq_some_iff.1 b4).1
    obtain ⟨Fp, hFp⟩ := at_exists hd zyx hr (hl p' hpl) np b4
    obtain ⟨Gp, hGp⟩ := put_exists hd rot np Fp
    refine ⟨l0, _, e1, c7, .inr ⟨e, p', np, { x0 with fw := G, fl := fl }, Fp, Gp, List.mem_of_getElem? b1, b2, b3, b7, b4, hFp, hGp, ?_, ?_, rfl⟩⟩
    · rw [theJoint, show (link2 fl G (link1 F l0)).joint = some j from hj, Option.bind_some]
      exact c6
    · change fl = Gp.xformF G
      obtain ⟨lp', f1, f2⟩ := link_of hd h0 b4
      rw [c4] at f1
      cases f1
      rcases parent_cases hd b4 with ⟨-, g2, g3⟩ | ⟨e', q, pp, npp, g1, g2, -, -, -, -, -, g8⟩
      · rw [c8 (by rw [f2, g3])]
        have : Fp = Frame.ident := at_unique hd hFp (.root np g2)
        subst this
        have : Gp = Frame.ident := put_unique hd hGp (.inr ⟨fun e he hn => absurd hn (g2 e he), rfl⟩)
        subst this
        have := Frame.cascade_xformF (f := (Frame.ident : Frame K)) Mat3.isRot_one G
        rw [Frame.ident_cascade] at this
        exact this.symm
      · have hq : lp.joint = some q := by rw [f2, g8]
        obtain ⟨y, hy, -⟩ := joint_of hd h0 g1
        rw [c9 q y Fp hq hy (atJ_of hd h0 ho ha hFp p' lp q b4 c4 hq), put_unique hd (put_of hd h0 ho ha rot g1 g2 hy Fp) hGp]

/-! ## Forward kinematics along the parents -/

theorem product_snoc (l : List (Frame K)) (f : Frame K) : Spec.product (l ++ [f]) = (Spec.product l).cascade f := by
  induction l with
  | nil =>
    simp only [List.nil_append, Spec.product]
    ext1 <;> simp
  | cons g l ih => simp only [List.cons_append, Spec.product, ih, Frame.cascade_assoc]

theorem fk_parents {c c' : Chain K} (w : c.WF) (h : c.updateFK = some c') {nodes : List LinkHeap.Node} {pars : List (Option ℕ)}
    (hrep : Spec.Forest.Rep nodes none (some 0) c.shape) (hp : ZTK.parents nodes = pars) (P : ℕ → Frame K → Prop)
    (hroot : ∀ (i : ℕ) (l : Roki.Link K), pars[i]? = some none → c.link[i]? = some l → P i (Spec.linkFrame l))
    (hstep : ∀ (i p : ℕ) (l : Roki.Link K) (f : Frame K), pars[i]? = some (some p) → c.link[i]? = some l → P p f →
      P i (f.cascade (Spec.linkFrame l))) : ∀ (i : ℕ) (l : Roki.Link K), c'.link[i]? = some l → P i l.body.frame := by
  obtain ⟨c2, e, -, hmap, hpath, hall⟩ := C06_fk_composition c w
  rw [h] at e
  cases e
  intro i l hl
  have hi : i < c.link.length := by
    have := congrArg List.length hmap
    rw [List.length_map, List.length_map] at this
    rw [← this]
    exact (List.getElem?_eq_some_iff.1 hl).1
  obtain ⟨path, hpa⟩ := hpath i hi
  obtain ⟨⟨ms, hms, hf⟩, -, -⟩ := hall path i l hpa hl
  rw [hf]
  have hline := hrep.line hpa
  rw [hp] at hline
  clear hf hl hpa hi hpath hall hmap h
  have key : ∀ (path : List ℕ) (i : ℕ) (ms : List (Roki.Link K)), Line pars none (path ++ [i]) →
      (path ++ [i]).map (fun j => c.link[j]?) = ms.map some → P i (Spec.product (ms.map Spec.linkFrame)) := by
    intro path
    induction path using List.reverseRecOn with
    | nil =>
      intro i ms h1 h2
      rw [List.nil_append] at h1 h2
      rcases ms with _ | ⟨m, ms⟩
      · simp at h2
      simp only [List.map_cons, List.map_nil, List.cons.injEq] at h2
      obtain rfl : ms = [] := by
        have := h2.2
        simpa using this.symm
      have := hroot i m h1.1 h2.1
      have e : Spec.product (List.map Spec.linkFrame [m]) = Spec.linkFrame m := by
        have := product_snoc [] (Spec.linkFrame m)
        rw [List.nil_append] at this
        rw [List.map_cons, List.map_nil, this]
        exact Frame.ident_cascade _
      rw [e]
      exact this
    | append_singleton path p ih =>
      intro i ms h1 h2
      rw [line_snoc] at h1
      obtain ⟨h1, h3⟩ := h1
      rw [List.getLast?_append, List.getLast?_singleton] at h3
      rw [List.map_append (l₂ := [i]), List.map_cons, List.map_nil] at h2
      rcases List.eq_nil_or_concat ms with rfl | ⟨ms, m, rfl⟩
      · simp at h2
      rw [List.concat_eq_append, List.map_append (l₂ := [m]), List.map_cons, List.map_nil] at h2
      obtain ⟨h4, h5⟩ := List.append_inj' h2 rfl
      rw [List.concat_eq_append, List.map_append, List.map_cons, List.map_nil, product_snoc]
      exact hstep i p m _ h3 (List.cons.inj h5).1 (ih p ms h1 h4)
  exact key path i ms hline hms

end Roki.Urdf.Doc
