import Verif.Lemmas.UrdfPlace3
import Verif.Lemmas.UrdfFile7
set_option autoImplicit false

/-! # URDF documents: the tree of the document -/

namespace Roki.Urdf.Doc
open ZTK Spec.UrdfDoc Spec.File
variable {K : Type*} [Field K]

theorem names_unique {e : Elem K} {tag n m : String} (h : Names e tag n) (h' : Names e tag m) : n = m := by
  obtain ⟨p, h1, h2⟩ := h
  obtain ⟨p', h1', h2'⟩ := h'
  rw [h1] at h1'
  cases h1'
  rw [h2] at h2'
  cases h2'
  rfl

section
variable {doc : Elem K} {links : List String} {pars : List (Option ℕ)} (hd : Describes doc links pars)
include hd

theorem joint_ends {e : Elem K} (he : e ∈ elems doc "joint") : ∃ (p c : ℕ) (np nc : String), (jointOf links e).parent = some p ∧
    (jointOf links e).child = some c ∧ links[p]? = some np ∧ links[c]? = some nc ∧ Names e "parent" np ∧ Names e "child" nc := by
  obtain ⟨-, np, nc, h1, h2, h3, h4⟩ := hd.joints e he
  obtain ⟨p, hp, hpn⟩ := findIdx_mem hd.nodup h3
  obtain ⟨c, hc, hcn⟩ := findIdx_mem hd.nodup h4
  refine ⟨p, c, np, nc, ?_, ?_, hpn, hcn, h1, h2⟩
  · obtain ⟨q, hq, hqn⟩ := h1
    rw [jointOf_parent hq, resolve_names hqn, hp]
  · obtain ⟨q, hq, hqn⟩ := h2
    rw [jointOf_child hq, resolve_names hqn, hc]

theorem joint_unique {i j : ℕ} {e e' : Elem K} {n : String} (hi : (elems doc "joint")[i]? = some e) (hj : (elems doc "joint")[j]? = some e')
    (h : Names e "child" n) (h' : Names e' "child" n) : i = j := by
  obtain ⟨k1, k2⟩ := List.getElem?_eq_some_iff.1 hi
  obtain ⟨j1, j2⟩ := List.getElem?_eq_some_iff.1 hj
  rcases lt_trichotomy i j with hlt | rfl | hlt
  · have := List.pairwise_iff_getElem.1 hd.once i j k1 j1 hlt n
    rw [k2, j2] at this
    exact absurd h' (this h)
  · rfl
  · have := List.pairwise_iff_getElem.1 hd.once j i j1 k1 hlt n
    rw [k2, j2] at this
    exact absurd h (this h')

theorem find_child {j c : ℕ} {e : Elem K} (he : (elems doc "joint")[j]? = some e) (hc : (jointOf links e).child = some c) :
    ((elems doc "joint").findIdx? fun e => decide ((jointOf links e).child = some c)) = some j := by
  rcases hf : (elems doc "joint").findIdx? fun e => decide ((jointOf links e).child = some c) with _ | i
  · rw [List.findIdx?_eq_none_iff] at hf
    have := hf e (List.mem_of_getElem? he)
    simp [hc] at this
  · rw [List.findIdx?_eq_some_iff_getElem] at hf
    obtain ⟨hl, hi, -⟩ := hf
    obtain ⟨_, c1, _, n1, -, a1, -, a2, -, a3⟩ := joint_ends hd (List.getElem_mem hl)
    obtain ⟨_, c2, _, n2, -, b1, -, b2, -, b3⟩ := joint_ends hd (List.mem_of_getElem? he)
    have hi' : (jointOf links (elems doc "joint")[i]).child = some c := by simpa using hi
    rw [hi'] at a1
    rw [hc] at b1
    cases a1
    cases b1
    rw [a2] at b2
    cases b2
    rw [joint_unique hd (List.getElem?_eq_getElem hl) he a3 b3]

variable {zyx : K → K → K → Mat3 K} {s : Info K} (h : eval zyx doc = some s)
include h

/-- The joint of an element. -/
theorem joint_of {j : ℕ} {e : Elem K} (he : (elems doc "joint")[j]? = some e) : ∃ x, s.joint[j]? = some x ∧ coreJoint x = jointOf links e := by
  have hs := state_of_core hd h rfl
  have hj : j < s.joint.length := by
    rw [hs.joints]
    exact (List.getElem?_eq_some_iff.1 he).1
  obtain ⟨e', he', hc⟩ := hs.joint j _ (List.getElem?_eq_getElem hj)
  rw [he] at he'
  cases he'
  exact ⟨_, List.getElem?_eq_getElem hj, hc⟩

/-- The link of a name. -/
theorem link_of {i : ℕ} {n : String} (hi : links[i]? = some n) : ∃ l, s.link[i]? = some l ∧
    l.joint = (elems doc "joint").findIdx? fun e => decide ((jointOf links e).child = some i) := by
  have hs := state_of_core hd h rfl
  have hj : i < s.link.length := by
    rw [hs.size]
    exact (List.getElem?_eq_some_iff.1 hi).1
  obtain ⟨e, n', -, -, -, hc, -⟩ := hs.link i _ (List.getElem?_eq_getElem hj)
  exact ⟨_, List.getElem?_eq_getElem hj, hc⟩

theorem tree_of : TreeS (skelL s) (skelJ s) := by
  have hs := state_of_core hd h rfl
  have hk := eval_kin hd h
  have joint : ∀ (j : ℕ) (a b d : Option ℕ), (skelJ s)[j]? = some (a, b, d) → ∃ p c q r, a = some p ∧ b = some c ∧ (skelL s)[p]? = some q ∧
      (skelL s)[c]? = some (some j, r) := by
    intro j a b d hj
    rw [skelJ, List.getElem?_map] at hj
    obtain ⟨x, hx, e⟩ := Option.map_eq_some_iff.1 hj
    simp only [Prod.mk.injEq] at e
    obtain ⟨e1, he, hc⟩ := hs.joint j x hx
    obtain ⟨p, c, np, nc, a1, a2, a3, a4, -⟩ := joint_ends hd (List.mem_of_getElem? he)
    obtain ⟨lp, b1, -⟩ := link_of hd h a3
    obtain ⟨lc, b2, b3⟩ := link_of hd h a4
    refine ⟨p, c, (lp.joint, lp.child), lc.child, ?_, ?_, by rw [skelL, List.getElem?_map, b1]; rfl, ?_⟩
    · rw [← e.1, ← a1, ← hc]; rfl
    · rw [← e.2.1, ← a2, ← hc]; rfl
    · rw [skelL, List.getElem?_map, b2, Option.map_some, b3, find_child hd he a2]
  have kin : ∀ (j : ℕ) a b, (kinJ s)[j]? = some (a, b) ↔ ∃ c, (skelJ s)[j]? = some (a, c, b) := by
    intro j a b
    rw [kinJ, skelJ, List.getElem?_map, List.getElem?_map]
    cases s.joint[j]? with
    | none => simp
    | some x => simp
  have kinl : ∀ (c : ℕ) q k, (skelL s)[c]? = some (q, k) → (kinL s)[c]? = some k := by
    intro c q k hc
    rw [skelL, List.getElem?_map] at hc
    obtain ⟨l, hl, e⟩ := Option.map_eq_some_iff.1 hc
    rw [kinL, List.getElem?_map, hl, Option.map_some]
    simp only [Prod.mk.injEq] at e
    rw [e.2]
  refine ⟨joint, ?_, ?_⟩
  · intro c k q hc
    obtain ⟨b, hb⟩ := hk.own c k _ (kinl _ _ _ hc) (.here k)
    obtain ⟨c', h2⟩ := (kin _ _ _).1 hb
    exact ⟨c', b, h2⟩
  · intro j k a b hj
    obtain ⟨p, c, q, r, rfl, -⟩ := joint j a b _ hj
    obtain ⟨o, h1, h2⟩ := hk.mem j p _ ((kin _ _ _).2 ⟨b, hj⟩)
    have h3 : Sib (kinJ s) o k := by
      have hj' := (kin j (some p) (some k)).2 ⟨b, hj⟩
      clear h1
      induction h2 with
      | here => exact .next hj' (.here k)
      | next e1 _ ih => exact .next e1 (ih hj hj')
    obtain ⟨b', hb⟩ := hk.own p k o h1 h3
    obtain ⟨c', h4⟩ := (kin _ _ _).1 hb
    exact ⟨c', b', h4⟩

/-- Every joint is visited. -/
theorem visited {root : Link K} (hroot : s.link[0]? = some root) (hr : pars[0]? = some none) {i : ℕ} (hl : LeadsToRoot pars i) :
    ∀ l j, s.link[i]? = some l → l.joint = some j → ∃ k0, root.child = some k0 ∧ Vis (skelL s) (skelJ s) k0 j := by
  have hs := state_of_core hd h rfl
  have hk := eval_kin hd h
  have key : ∀ (i : ℕ) (l : Link K) (n : String) (j : ℕ), s.link[i]? = some l → l.joint = some j → links[i]? = some n →
      ∃ x p, s.joint[j]? = some x ∧ x.parent = some p ∧ x.child = some i ∧ pars[i]? = some (some p) := by
    intro i l n j hi hj hn
    obtain ⟨l', hl', hj'⟩ := link_of hd h hn
    rw [hi] at hl'
    cases hl'
    have hpo := parent_of hd i hn
    rw [← hj', hj] at hpo
    obtain ⟨e, p, np, he, h1, h2, h3, h4⟩ := hpo
    obtain ⟨x, hx, hc⟩ := joint_of hd h he
    have := names_child hd hn (List.mem_of_getElem? he) h4
    exact ⟨x, p, hx, by rw [← h1, ← hc]; rfl, by rw [← this, ← hc]; rfl, h3⟩
  have sib : ∀ {o : Option ℕ} {j : ℕ}, Sib (kinJ s) o j → ∀ k, o = some k → Vis (skelL s) (skelJ s) k j := by
    intro o j hsib
    induction hsib with
    | here j => rintro k ⟨⟩; exact .here _
    | @next m j a b h1 h2 ih =>
      rintro k ⟨⟩
      rcases b with _ | b
      · cases h2
      rw [kinJ, List.getElem?_map] at h1
      obtain ⟨x, hx, e⟩ := Option.map_eq_some_iff.1 h1
      simp only [Prod.mk.injEq] at e
      refine .side (a := x.parent) (b := x.child) ?_ (ih b rfl)
      rw [skelJ, List.getElem?_map, hx, ← e.2]
      rfl
  induction hl with
  | root =>
    intro l j hl hj
    obtain ⟨e, n, -, hn, -⟩ := hs.link 0 l hl
    obtain ⟨x, p, -, -, -, hp⟩ := key 0 l n j hl hj hn
    rw [hr] at hp
    cases hp
  | @step i p hp hlp ih =>
    intro l j hl hj
    obtain ⟨e, n, -, hn, -⟩ := hs.link i l hl
    obtain ⟨x, p', hx, hxp, hxc, hp'⟩ := key i l n j hl hj hn
    rw [hp] at hp'
    cases hp'
    obtain ⟨o, h1, h2⟩ := hk.mem j p x.sibling (by rw [kinJ, List.getElem?_map, hx, ← hxp]; rfl)
    have hpl : p < s.link.length := by
      rw [hs.size]
      exact hd.below i p hp
    have hlp' := List.getElem?_eq_getElem hpl
    rw [kinL, List.getElem?_map, hlp', Option.map_some, Option.some.injEq] at h1
    rcases o with _ | k
    · cases h2
    have hv := sib h2 k rfl
    cases hlp with
    | root =>
      rw [hlp'] at hroot
      cases hroot
      exact ⟨k, h1, hv⟩
    | @step _ p2 hp2 _ =>
      obtain ⟨e2, n2, -, hn2, -⟩ := hs.link p _ hlp'
      have hpo := parent_of hd p hn2
      obtain ⟨lp, e1, e2⟩ := link_of hd h hn2
      rw [← e2] at hpo
      rcases hq : lp.joint with _ | q
      · rw [hq] at hpo
        simp only at hpo
        rw [hp2] at hpo
        cases hpo
      · obtain ⟨k0, hk0, hv0⟩ := ih lp q e1 hq
        obtain ⟨y, -, hy, -, hyc, -⟩ := key p lp n2 q e1 hq hn2
        rw [hlp'] at e1
        cases e1
        refine ⟨k0, hk0, hv0.trans (.down (a := y.parent) (c := p) (d := y.sibling) (k := k) (q := some q) ?_ ?_ hv)⟩
        · rw [skelJ, List.getElem?_map, hy, ← hyc]; rfl
        · rw [skelL, List.getElem?_map, hlp', ← hq, ← h1]; rfl

end

end Roki.Urdf.Doc
