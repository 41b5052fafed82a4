import Verif.Lemmas.UrdfPlace4
set_option autoImplicit false

/-! # URDF documents: the links of the document and the joints that the program keeps -/

namespace Roki.Urdf.Doc
open ZTK Spec.UrdfDoc Spec.File
variable {K : Type*} [Field K]

section
variable {doc : Elem K} {links : List String} {pars : List (Option ℕ)} (hd : Describes doc links pars)
include hd

theorem same_joint {e e' : Elem K} {n : String} (he : e ∈ elems doc "joint") (he' : e' ∈ elems doc "joint")
    (h : Names e "child" n) (h' : Names e' "child" n) : e = e' := by
  obtain ⟨i, hi⟩ := List.mem_iff_getElem?.1 he
  obtain ⟨j, hj⟩ := List.mem_iff_getElem?.1 he'
  have := joint_unique hd hi hj h h'
  subst this
  rw [hi] at hj
  cases hj
  rfl

/-- A link has one frame. -/
theorem at_unique {zyx : K → K → K → Mat3 K} {n : String} {f g : Frame K} (h : At zyx doc n f) (h' : At zyx doc n g) : f = g := by
  induction h generalizing g with
  | root n h =>
    cases h' with
    | root => rfl
    | joint e np n f he _ hc => exact absurd hc (h e he)
  | joint e np n f he hp hc _ ih =>
    cases h' with
    | root _ h' => exact absurd hc (h' e he)
    | joint e' np' n' f' he' hp' hc' h' =>
      obtain rfl := same_joint hd he he' hc hc'
      obtain rfl := names_unique hp hp'
      rw [ih h']

theorem put_unique {rot : Vec3 K → Mat3 K} {n : String} {f g g' : Frame K} (h : Put rot doc n f g) (h' : Put rot doc n f g') : g = g' := by
  rcases h with ⟨e, he, hn, ht, rfl⟩ | ⟨h, rfl⟩ <;> rcases h' with ⟨e', he', hn', ht', rfl⟩ | ⟨h', rfl⟩
  · rw [same_joint hd he he' hn hn']
  · exact absurd ht (h' e he hn)
  · exact absurd ht' (h e' he' hn')
  · rfl

/-- A joint of the document and its places in the lists. -/
theorem joint_at {e : Elem K} {n np : String} (he : e ∈ elems doc "joint") (hn : Names e "child" n) (hp : Names e "parent" np) :
    ∃ j i p : ℕ, (elems doc "joint")[j]? = some e ∧ links[i]? = some n ∧ links[p]? = some np ∧ (jointOf links e).parent = some p ∧
      (jointOf links e).child = some i ∧ pars[i]? = some (some p) := by
  obtain ⟨j, hj⟩ := List.mem_iff_getElem?.1 he
  obtain ⟨p, i, np', n', h1, h2, h3, h4, h5, h6⟩ := joint_ends hd he
  obtain rfl := names_unique hp h5
  obtain rfl := names_unique hn h6
  have := parent_of hd i h4
  rw [find_child hd hj h2] at this
  obtain ⟨e', p', np', a1, a2, a3, a4, a5⟩ := this
  rw [hj] at a1
  cases a1
  rw [h1] at a2
  cases a2
  exact ⟨j, i, p, hj, h4, h3, h1, h2, a4⟩

/-- The parent of a link. -/
theorem parent_cases {i : ℕ} {n : String} (hi : links[i]? = some n) :
    (pars[i]? = some none ∧ (∀ e ∈ elems doc "joint", ¬ Names e "child" n) ∧
      ((elems doc "joint").findIdx? fun e => decide ((jointOf links e).child = some i)) = none) ∨
    ∃ (e : Elem K) (j p : ℕ) (np : String), (elems doc "joint")[j]? = some e ∧ Names e "child" n ∧ Names e "parent" np ∧
      links[p]? = some np ∧ (jointOf links e).parent = some p ∧ (jointOf links e).child = some i ∧ pars[i]? = some (some p) ∧
      ((elems doc "joint").findIdx? fun e => decide ((jointOf links e).child = some i)) = some j := by
  have hpo := parent_of hd i hi
  rcases hf : (elems doc "joint").findIdx? fun e => decide ((jointOf links e).child = some i) with _ | j
  · rw [hf] at hpo
    refine .inl ⟨hpo, ?_, rfl⟩
    intro e he hn
    rw [List.findIdx?_eq_none_iff] at hf
    have := hf e he
    simp [names_child hd hi he hn] at this
  · rw [hf] at hpo
    obtain ⟨e, p, np, h1, h2, h3, h4, h5⟩ := hpo
    have he := List.mem_of_getElem? h1
    obtain ⟨p', c', np', nc', a1, a2, a3, a4, a5, a6⟩ := joint_ends hd he
    rw [h2] at a1
    cases a1
    rw [h3] at a3
    cases a3
    exact .inr ⟨e, j, p, np, h1, h5, a5, h3, h2, names_child hd hi he h5, h4, rfl⟩

theorem at_exists (zyx : K → K → K → Mat3 K) {i : ℕ} (hr : pars[0]? = some none) (hl : LeadsToRoot pars i) :
    ∀ n, links[i]? = some n → ∃ f, At zyx doc n f := by
  induction hl with
  | root =>
    intro n hn
    rcases parent_cases hd hn with ⟨-, h, -⟩ | ⟨e, j, p, np, -, -, -, -, -, -, h, -⟩
    · exact ⟨_, .root n h⟩
    · rw [hr] at h
      cases h
  | @step i p hp hlp ih =>
    intro n hn
    rcases parent_cases hd hn with ⟨h, -⟩ | ⟨e, j, p', np, h1, h2, h3, h4, -, -, h, -⟩
    · rw [hp] at h
      cases h
    · rw [hp] at h
      cases h
      obtain ⟨f, hf⟩ := ih np h4
      exact ⟨_, .joint e np n f (List.mem_of_getElem? h1) h3 h2 hf⟩

theorem put_exists (rot : Vec3 K → Mat3 K) (n : String) (f : Frame K) : ∃ g, Put rot doc n f g := by
  by_cases h : ∃ e ∈ elems doc "joint", Names e "child" n ∧ Turns e
  · obtain ⟨e, he, hn, ht⟩ := h
    exact ⟨_, .inl ⟨e, he, hn, ht, rfl⟩⟩
  · exact ⟨f, .inr ⟨fun e he hn ht => h ⟨e, he, hn, ht⟩, rfl⟩⟩

variable {zyx : K → K → K → Mat3 K} {s : Info K} (h : eval zyx doc = some s) (ho : ∀ e ∈ elems doc "joint", OriginOk e)
  (ha : ∀ e ∈ elems doc "joint", AxisOk e)
include h ho ha

theorem joint_place {j : ℕ} {e : Elem K} (he : (elems doc "joint")[j]? = some e) : ∃ x, s.joint[j]? = some x ∧
    coreJoint x = jointOf links e ∧ x.fl = origin zyx e ∧ x.axis = axisOf e := by
  obtain ⟨x, hx, hc⟩ := joint_of hd h he
  have := congrArg (fun l => l[j]?) (eval_places ho ha h)
  simp only [places, List.getElem?_map, hx, he, Option.map_some, Option.some.injEq, Prod.mk.injEq] at this
  exact ⟨x, hx, hc, this.1, this.2⟩

theorem atJ_of {n : String} {f : Frame K} (hat : At zyx doc n f) : ∀ (i : ℕ) (l : Link K) (j : ℕ), links[i]? = some n →
    s.link[i]? = some l → l.joint = some j → AtJ s j f := by
  induction hat with
  | root n hn =>
    intro i l j hi hl hj
    obtain ⟨l', h1, h2⟩ := link_of hd h hi
    rw [hl] at h1
    cases h1
    rcases parent_cases hd hi with ⟨-, -, h3⟩ | ⟨e, j, p, np, a1, a2, -⟩
    · rw [h2, h3] at hj
      cases hj
    · exact absurd a2 (hn e (List.mem_of_getElem? a1))
  | joint e np n f he hp hc hatp ih =>
    intro i l j hi hl hj
    obtain ⟨j', i', p, a1, a2, a3, a4, a5, -⟩ := joint_at hd he hc hp
    obtain ⟨l', h1, h2⟩ := link_of hd h hi
    rw [hl] at h1
    cases h1
    have hii : (jointOf links e).child = some i := names_child hd hi he hc
    rw [h2, find_child hd a1 hii] at hj
    cases hj
    obtain ⟨x, hx, hcj, hxf, -⟩ := joint_place hd h ho ha a1
    obtain ⟨lp, b1, b2⟩ := link_of hd h a3
    have hxp : x.parent = some p := by rw [← a4, ← hcj]; rfl
    rw [← hxf]
    rcases hq : lp.joint with _ | q
    · have : f = Frame.ident := by
        rcases parent_cases hd a3 with ⟨-, h3, -⟩ | ⟨_, _, _, _, _, _, _, _, _, _, _, h3⟩
        · exact at_unique hd hatp (.root np h3)
        · rw [← b2, hq] at h3
          cases h3
      rw [this, Frame.ident_cascade]
      exact .root hx hxp b1 hq
    · exact .step hx hxp b1 hq (ih p lp q a3 b1 hq)

theorem put_of (rot : Vec3 K → Mat3 K) {j : ℕ} {e : Elem K} {n : String} (he : (elems doc "joint")[j]? = some e) (hn : Names e "child" n)
    {x : Joint K} (hx : s.joint[j]? = some x) (f : Frame K) : Put rot doc n f (putJ rot x f) := by
  obtain ⟨x', hx', hc, -, hax⟩ := joint_place hd h ho ha he
  rw [hx] at hx'
  cases hx'
  have hem := List.mem_of_getElem? he
  have ht : x.type = (attr e "type").bind strTok := by rw [← jointOf_type (names := links) e, ← hc]; rfl
  have key : x.type.any hasAxis = true ↔ Turns e := by
    obtain ⟨t, hty⟩ := (hd.joints e hem).1
    rw [ht, hty]
    simp only [Option.bind_some, strTok, Option.any_some, hasAxis, Turns, hty, Option.some.injEq, List.cons.injEq, Tok.str.injEq, and_true]
    simp [or_assoc]
  rw [putJ]
  split_ifs with hif
  · exact .inl ⟨e, hem, hn, key.1 hif, by rw [hax]⟩
  · exact .inr ⟨fun e' he' hn' ht' => hif (key.2 (same_joint hd hem he' hn hn' ▸ ht')), rfl⟩

end

end Roki.Urdf.Doc
