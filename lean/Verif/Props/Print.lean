import Verif.Lemmas.Print
import Verif.Lemmas.ZmRat
import Verif.Props.FK
set_option autoImplicit false

/-!
# C117: what is printed of a chain
-/

namespace Roki
open Spec
variable {K : Type*} [Field K]
set_option linter.unusedSectionVars false

/-- **C117**, connection.  `rkChainConnectionFPrint` of a chain prints, after a line with the name of the chain, one line for each
link, none twice.  A line has spaces in front, then the name of the link, the type of its joint and the place of its values in the
joint vectors.  The link of the nearest line above that has fewer spaces in front is the parent of the link; there is no such line
exactly for link 0. -/
theorem C117_connection (name : String) (c : Chain K) (h : c.WF) : ∃ rows : List (ℕ × ℕ),
    Print.connection name c = some (s!"Chain : {name}\n".toList ++ rows.flatMap fun r => (c.link[r.2]?.map fun l =>
      List.replicate r.1 ' ' ++ ("|-" ++ l.name ++ " (" ++ l.joint.prp.typeStr ++ ":").toList ++ Print.dec l.offset ++ [')', '\n']).getD []) ∧
    (rows.map Prod.snd).Perm (List.range c.link.length) ∧
    ∀ above r below, rows = above ++ r :: below →
      (∀ p, owner above r = some p ↔ IsParent c.shape p r.2) ∧ (owner above r = none ↔ r.2 = 0) := by
  obtain ⟨t, ht⟩ := h.root
  refine ⟨Print.rows c.shape 0, ?_, by rw [Print.rows_snd]; exact h.perm, ?_⟩
  · rw [Print.connection, if_neg (by rw [ht]; simp [LTree.isNil]), Print.connAt_eq _ _ _ fun i hi => h.mem.1 hi, Option.map_some]
    congr 1
    simp only [String.toList_append, List.append_assoc]
    congr 3
    congr 1
    funext r
    congr 2
    funext l
    simp [Print.connLine]
  · intro above r below e
    have key := Print.owner_rows c.shape 0 [] above below r e
    rw [List.nil_append] at key
    have path0 : ∀ p, IsPath c.shape (p ++ [0]) → p = [] := by
      intro p hp
      have h0 : IsPath c.shape ([] ++ [0]) := by rw [ht]; exact .here _ _ _
      have := (LTree.pathUp_eq hp h.nodup).symm.trans (LTree.pathUp_eq h0 h.nodup)
      simpa using this
    rcases key with ⟨h1, h2⟩ | ⟨q, h1, path, h2⟩
    · have h1 : owner above r = none := by rw [h1]; rfl
      have h0 : r.2 = 0 := by
        rw [ht] at h2
        generalize hq : [r.2] = q at h2
        cases h2 with
        | here => simpa using hq
        | child h => exact absurd (List.cons.inj hq).2.symm h.ne_nil
        | sibl h => cases h
      refine ⟨fun p => ⟨fun e => by rw [h1] at e; simp at e, fun ⟨path, hp⟩ => ?_⟩, fun _ => h0, fun _ => h1⟩
      rw [h0] at hp
      have := path0 (path ++ [p]) (by simpa using hp)
      simp at this
    · refine ⟨fun p => ⟨fun e => ?_, fun ⟨path', hp⟩ => ?_⟩, fun e => by rw [h1] at e; simp at e, fun e => ?_⟩
      · rw [h1, Option.some.injEq] at e
        exact ⟨path, by rw [← e]; exact h2⟩
      · have a1 : IsPath c.shape ((path ++ [q]) ++ [r.2]) := by simpa using h2
        have a2 : IsPath c.shape ((path' ++ [p]) ++ [r.2]) := by simpa using hp
        have := (LTree.pathUp_eq a1 h.nodup).symm.trans (LTree.pathUp_eq a2 h.nodup)
        simp only [List.reverse_append, List.reverse_cons, List.reverse_nil, List.nil_append, List.singleton_append, Option.some.injEq,
          List.cons.injEq, true_and] at this
        rw [h1, this.1]
      · rw [e] at h2
        have := path0 (path ++ [q]) (by simpa using h2)
        simp at this

/-- **C117**, the text tells the tree.  If the names have no line breaks and the printed texts of two chains are the same, then the
chains have the same name and the same tree, with the same names, types of joints and places in the joint vectors in the same order
of siblings; only the numbering of the links may differ. -/
theorem C117_text (name name' : String) (c d : Chain K) (hc : c.WF) (hd : d.WF) (hn : '\n' ∉ name.toList) (hn' : '\n' ∉ name'.toList)
    (lc : ∀ l ∈ c.link, '\n' ∉ l.name.toList) (ld : ∀ l ∈ d.link, '\n' ∉ l.name.toList)
    (h : Print.connection name c = Print.connection name' d) : name = name' ∧ labels c = labels d := by
  obtain ⟨t, ht⟩ := hc.root
  obtain ⟨u, hu⟩ := hd.root
  rw [Print.connection, Print.connection, if_neg (by rw [ht]; simp [LTree.isNil]), if_neg (by rw [hu]; simp [LTree.isNil]),
    Print.connAt_eq _ _ _ fun i hi => hc.mem.1 hi, Print.connAt_eq _ _ _ fun i hi => hd.mem.1 hi, Option.map_some, Option.map_some,
    Option.some.injEq, List.append_assoc, List.append_assoc, List.append_assoc, List.append_assoc, List.append_cancel_left_eq] at h
  obtain ⟨h1, h2⟩ := Print.split_at (x := '\n') hn hn' h
  refine ⟨String.toList_inj.1 h1, ?_⟩
  have hr : ∀ {c : Chain K}, c.WF → ∀ r ∈ Print.rows c.shape 0, r.2 < c.link.length := by
    intro c h r hr
    exact h.mem.1 (by rw [← Print.rows_snd c.shape 0]; exact List.mem_map_of_mem hr)
  have h3 := Print.rowsText_inj c.link d.link lc ld _ _ (hr hc) (hr hd) h2
  refine (Print.rows_inj (labels c) (labels d) 0 [] [] (by simp) (by simp) ?_).1
  rw [List.append_nil, List.append_nil, labels, labels, Print.rows_map, Print.rows_map]
  exact h3

/-- **C117**, external wrenches.  `rkChainExtWrenchFPrint` lists, in the order of the array, the links on which external wrenches act,
each with the forces, torques and points of action of its wrenches; the links without external wrenches are not in the list. -/
theorem C117_wrenches (c : Chain K) :
    (readWrenches (Print.extWrench c)).2 = (c.link.filter fun l => l.body.extw.length != 0).map fun l => (l.name, l.body.extw) := by
  have one : ∀ (ws : List (Wrench K)) (r : List (Print.WLine K)),
      readWrenches (ws.flatMap Print.wrench ++ r) = (ws ++ (readWrenches r).1, (readWrenches r).2) := by
    intro ws r
    induction ws with
    | nil => simp
    | cons w ws ih => simp [Print.wrench, readWrenches, ih]
  have all : ∀ ls : List (Link K),
      readWrenches (ls.flatMap fun l => if l.body.extw.length ≠ 0 then Print.WLine.link l.name :: Print.linkExtWrench l else []) =
      ([], (ls.filter fun l => l.body.extw.length != 0).map fun l => (l.name, l.body.extw)) := by
    intro ls
    induction ls with
    | nil => rfl
    | cons l ls ih =>
      rw [List.flatMap_cons]
      by_cases hl : l.body.extw.length = 0
      · rw [if_neg (by simpa using hl), List.nil_append, ih, List.filter_cons_of_neg (by simpa using hl)]
      · rw [if_pos (by simpa using hl), List.cons_append, readWrenches, Print.linkExtWrench, one, ih, List.filter_cons_of_pos (by simpa using hl)]
        simp
  rw [Print.extWrench, all]

/-- **C117**, posture.  After `rkChainUpdateFK`, `rkChainPostureFPrint` prints the links in the order of the array, and the frame in
the world that is printed for a link is the frame in the world printed for its parent, followed by the frame with respect to the
parent that is printed for the link.  For link 0 the two printed frames are the same. -/
theorem C117_posture (name : String) (c : Chain K) (h : c.WF) : ∃ c', c.updateFK = some c' ∧
    (readPosture (Print.posture name c')).map (fun r => (r.1, r.2.1)) = c.link.map (fun l => (l.name, l.offset)) ∧
    (∀ r, (readPosture (Print.posture name c'))[0]? = some r → r.2.2.2 = r.2.2.1) ∧
    ∀ p i, IsParent c.shape p i → ∀ r s, (readPosture (Print.posture name c'))[p]? = some r →
      (readPosture (Print.posture name c'))[i]? = some s → s.2.2.2 = r.2.2.2.cascade s.2.2.1 := by
  obtain ⟨c', e, es, er, hp, hf⟩ := C06_fk_composition c h
  have rd : readPosture (Print.posture name c') = c'.link.map fun l => (l.name, l.offset, l.adj, l.body.frame) := by
    rw [Print.posture, readPosture]
    generalize c'.link = ls
    induction ls with
    | nil => rfl
    | cons l ls ih => simp [Print.linkPosture, readPosture, ih]
  have get : ∀ (i : ℕ) (r : String × ℤ × Frame K × Frame K), (c'.link.map fun l => (l.name, l.offset, l.adj, l.body.frame))[i]? = some r →
      ∃ l, c'.link[i]? = some l ∧ r = (l.name, l.offset, l.adj, l.body.frame) := by
    intro i r hr
    rw [List.getElem?_map] at hr
    obtain ⟨l, h1, h2⟩ := Option.map_eq_some_iff.1 hr
    exact ⟨l, h1, h2.symm⟩
  have same : ∀ (i : ℕ) (l m : Link K), c'.link[i]? = some l → c.link[i]? = some m → linkFrame m = linkFrame l ∧ True := by
    intro i l m h1 h2
    have := congrArg (fun l => l[i]?) er
    simp only [List.getElem?_map, h1, h2, Option.map_some, Option.some.injEq, eraseFK] at this
    refine ⟨?_, trivial⟩
    simp only [Link.mk.injEq] at this
    simp only [linkFrame, this.2.1, this.2.2.2.2.1]
  refine ⟨c', e, ?_, ?_, ?_⟩
  · rw [rd, List.map_map]
    have := congrArg (List.map fun l : Link K => (l.name, l.offset)) er
    simpa [List.map_map, Function.comp_def, eraseFK] using this
  · intro r hr
    rw [rd] at hr
    obtain ⟨l, hl, rfl⟩ := get 0 r hr
    obtain ⟨t, ht⟩ := h.root
    obtain ⟨⟨ms, h1, h2⟩, h3, -⟩ := hf [] 0 l (by rw [ht]; exact .here _ _ _) hl
    rcases ms with _ | ⟨m, ms⟩
    · simp at h1
    · simp only [List.nil_append, List.map_cons, List.map_nil, List.cons.injEq] at h1
      have : ms = [] := by simpa using h1.2.symm
      subst this
      rw [h2, h3, ← (same 0 l m hl h1.1).1]
      simp only [List.map_cons, List.map_nil, product]
      exact Frame.cascade_ident _
  · intro p i ⟨path, hpath⟩ r s hr hs
    rw [rd] at hr hs
    obtain ⟨x, hx, rfl⟩ := get p r hr
    obtain ⟨y, hy, rfl⟩ := get i s hs
    obtain ⟨⟨ms, h1, h2⟩, h3, -⟩ := hf (path ++ [p]) i y (by simpa using hpath) hy
    have hpp : IsPath c.shape (path ++ [p]) := by
      have : ∀ (t : LTree ℕ) (q : List ℕ), IsPath t q → ∀ a i, q = a ++ [i] → a ≠ [] → IsPath t a := by
        intro t q hq
        induction hq with
        | here b c s =>
          intro a i e ha
          rcases a with _ | ⟨x, a⟩
          · exact absurd rfl ha
          · simp at e
        | @child b c s q hq ih =>
          intro a i e ha
          rcases a with _ | ⟨x, a⟩
          · exact absurd rfl ha
          · simp only [List.cons_append, List.cons.injEq] at e
            obtain ⟨rfl, e⟩ := e
            rcases a with _ | ⟨y, a⟩
            · exact .here _ _ _
            · exact .child (ih (y :: a) i e (by simp))
        | sibl hq ih => exact fun a i e ha => .sibl (ih a i e ha)
      exact this _ _ hpath (path ++ [p]) i (by simp) (by simp)
    obtain ⟨⟨ms', h1', h2'⟩, -, -⟩ := hf path p x hpp hx
    obtain ⟨ns, z, rfl⟩ : ∃ ns z, ms = ns ++ [z] := by
      rcases List.eq_nil_or_concat ms with rfl | ⟨ns, z, rfl⟩
      · simp at h1
      · exact ⟨ns, z, by simp⟩
    rw [List.map_append, List.map_append (f := some), List.map_cons, List.map_nil, List.map_cons, List.map_nil] at h1
    obtain ⟨h5, h6⟩ := List.append_inj' h1 rfl
    have h7 : ns = ms' := by
      have := h5.symm.trans h1'
      exact List.map_injective_iff.2 (Option.some_injective _) this
    have h8 : c.link[i]? = some z := by simpa using h6
    rw [h2, h2', h7, List.map_append, List.map_cons, List.map_nil, product_append, product, product, h3, ← (same i y z hy h8).1]
    exact congrArg (product (ms'.map linkFrame)).cascade (Frame.cascade_ident _)

/-- The hypotheses of C117 are met by the sample chain, a tree of four links; its connection as printed. -/
example : (Sample.chain (K := ℚ)).WF ∧ (∀ l ∈ (Sample.chain (K := ℚ)).link, '\n' ∉ l.name.toList) :=
  ⟨Sample.chain_wf, by decide +kernel⟩

theorem C117_sample : Print.connection "robot" (Sample.chain (K := ℚ)) = some
    "Chain : robot\n|-base (float:0)\n  |-fixed (fixed:-1)\n  |-arm (revolute:6)\n    |-wrist (hooke:7)\n".toList := by decide +kernel

/-- A wrench is listed under the name of the link on which it acts, and no other link is listed. -/
theorem C117_wrench_sample : ∃ c : Chain ℚ, c.link.length = 4 ∧ (readWrenches (Print.extWrench c)).2 =
    [("arm", [⟨⟨⟨1, 2, 3⟩, 0⟩, ⟨0, 0, 1⟩⟩, ⟨⟨0, ⟨0, 1, 0⟩⟩, 0⟩])] :=
  ⟨{ Sample.chain with link := Sample.chain.link.map fun l => { l with body := { l.body with
      extw := if l.name = "arm" then [⟨⟨⟨1, 2, 3⟩, 0⟩, ⟨0, 0, 1⟩⟩, ⟨⟨0, ⟨0, 1, 0⟩⟩, 0⟩] else [] } } }, by decide +kernel, by decide +kernel⟩

end Roki
