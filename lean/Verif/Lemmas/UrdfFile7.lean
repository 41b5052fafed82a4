import Verif.Lemmas.UrdfFile6
set_option autoImplicit false

/-! # URDF documents: the file that is written is read -/

namespace Roki.Urdf.Doc
open ZTK Spec.UrdfDoc Spec.File
variable {K : Type*} [Field K] [LinearOrder K] [IsStrictOrderedRing K] [Zm K] [LawfulZm K]

omit [LinearOrder K] [IsStrictOrderedRing K] [Zm K] [LawfulZm K] in
theorem names_child {doc : Elem K} {links : List String} {pars : List (Option ℕ)} (hd : Describes doc links pars) {i : ℕ} {n : String}
    (hi : links[i]? = some n) {e : Elem K} (he : e ∈ elems doc "joint") (hn : Names e "child" n) : (jointOf links e).child = some i := by
  obtain ⟨p, hp, hpn⟩ := hn
  rw [jointOf_child hp, resolve_names hpn]
  have := ZTK.findIdx_name hd.nodup hi
  simpa [eq_comm] using this

theorem declares_of {names : List String} {f : File K} {pars : List (Option ℕ)}
    (h : List.Forall₂ (Declares names) (secs "link" f) pars) : DeclareParents names f pars := by
  have e : ∀ (sec : List (Fld K)) k, fieldVals sec k = vals sec k := by
    intro sec k
    rw [fieldVals, vals]
    rfl
  have e2 : secs "link" f = (f.filter fun s => s.1 = "link").map Prod.snd := by
    rw [secs]
    rfl
  rw [e2, List.forall₂_map_left_iff] at h
  refine h.imp fun s par hs => ?_
  cases par with
  | none => simp only [e]; exact hs
  | some p => simp only [e]; exact hs

/-- The parts of the robot without the connections. -/
theorem output_parts (o : Order) (noname : String) {zyx : K → K → K → Mat3 K} {doc : Elem K} {links : List String}
    {pars : List (Option ℕ)} (hd : Describes doc links pars) {s : Info K} (hs : StateOf zyx doc links s) (hno : noname ∉ links)
    (hnum : ∀ e ∈ elems doc "joint", Numbers e) (hshaped : ∀ e ∈ elems doc "link", Shaped e) {f : File K} (h : output s = some f) :
    ∃ r0, readParts o noname (noParents f) = some r0 ∧ r0.names = links ∧ DeclareParents links f pars ∧
      (secs "link" f).length = links.length ∧ doc.find "name" = some [.str r0.name] ∧
      r0.link.length = s.link.length ∧ r0.shapes = (s.link.flatMap fun l => l.shapes).map (fun p => p.name) ∧
      ∀ (i : ℕ) (l : Link K) (fl : FLink K), s.link[i]? = some l → r0.link[i]? = some fl → ∃ n, links[i]? = some n ∧ LinkOk s n l fl noname := by
  obtain ⟨name, hname, h⟩ := Option.bind_eq_some_iff.1 h
  obtain ⟨ss, hss, rfl⟩ := Option.map_eq_some_iff.1 h
  have hty : ∀ l ∈ s.link, ∀ p ∈ l.shapes, p.typed = true := by
    intro l hl p hp
    obtain ⟨i, hi⟩ := List.mem_iff_getElem?.1 hl
    obtain ⟨e, n, he, -, -, -, -, -, h5⟩ := hs.link i l hi
    exact h5 (hshaped e (List.mem_of_getElem? he)) p hp
  have hfil : (s.link.flatMap fun l => l.shapes).filter (fun p => p.typed) = s.link.flatMap fun l => l.shapes := by
    rw [List.filter_eq_self]
    intro p hp
    obtain ⟨l, hl, hp⟩ := List.mem_flatMap.1 hp
    exact hty l hl p hp
  rw [hfil]
  set shapes := (s.link.flatMap fun l => l.shapes).map (fun p => p.name) with hshapes
  obtain ⟨fls, g1, g2, g3, g4, g5⟩ := links_read o noname hd hs (shapes := shapes) (by
    intro l hl p hp
    exact List.mem_map.2 ⟨p, List.mem_flatMap.2 ⟨l, hl, hp⟩, rfl⟩) hnum hss
  have hnm : (fls.map fun l => l.link.name) = links := by
    apply List.ext_getElem?
    intro i
    rw [List.getElem?_map]
    rcases hf : fls[i]? with _ | fl
    · rw [List.getElem?_eq_none_iff, g1, hs.size] at hf
      rw [List.getElem?_eq_none_iff.2 hf]
      rfl
    · have hi : i < s.link.length := by
        have := (List.getElem?_eq_some_iff.1 hf).1
        omega
      obtain ⟨n, hn, p, -, rfl⟩ := g4 i s.link[i] fl (List.getElem?_eq_getElem hi) hf
      rw [hn]
      rfl
  have hfile : ((("chain", [⟨"name", [.str name]⟩]) :: ((s.link.flatMap fun l => l.shapes).map fun p => ("shape", [⟨"name", [.str p.name]⟩])) ++
      ss.map fun l => ("link", l)) : File K) =
      [[⟨"name", [.str name]⟩]].map (fun x => ("chain", x)) ++ (((shapes.map fun n => ([⟨"name", [.str n]⟩] : List (Fld K))).map fun x => ("shape", x)) ++
        ss.map fun x => ("link", x)) := by
    rw [hshapes, List.map_map, List.map_map]
    rfl
  rw [hfile]
  have s1 : ∀ t : String, t ≠ "chain" → t ≠ "shape" → t ≠ "link" → secs t ([[⟨"name", [.str name]⟩]].map (fun x => ("chain", x)) ++
      (((shapes.map fun n => ([⟨"name", [.str n]⟩] : List (Fld K))).map fun x => ("shape", x)) ++ ss.map fun x => ("link", x))) = [] := by
    intro t h1 h2 h3
    rw [secs_append, secs_append, secs_other (Ne.symm h1), secs_other (Ne.symm h2), secs_other (Ne.symm h3)]
    rfl
  set f : File K := [[⟨"name", [.str name]⟩]].map (fun x => ("chain", x)) ++
      (((shapes.map fun n => ([⟨"name", [.str n]⟩] : List (Fld K))).map fun x => ("shape", x)) ++ ss.map fun x => ("link", x)) with hf
  have s2 : secs "link" f = ss := by
    rw [hf, secs_append, secs_append, secs_other (by decide), secs_other (by decide), secs_same]
    rfl
  have s3 : secs "shape" f = shapes.map fun n => ([⟨"name", [.str n]⟩] : List (Fld K)) := by
    rw [hf, secs_append, secs_append, secs_other (by decide), secs_same, secs_other (by decide)]
    simp
  have s4 : secs "chain" f = [[⟨"name", [.str name]⟩]] := by
    rw [hf, secs_append, secs_append, secs_same, secs_other (by decide), secs_other (by decide)]
    rfl
  have s5 : secs "motor" f = [] := s1 _ (by decide) (by decide) (by decide)
  have s6 : secs "init" f = [] := s1 _ (by decide) (by decide) (by decide)
  refine ⟨⟨name, [], shapes, fls, LinkHeap.init ss.length⟩, ?_, hnm, ?_, ?_, ?_, g1, rfl, g4⟩
  · rw [readParts_eq, secs_noParents_link, secs_noParents (by decide), secs_noParents (by decide), secs_noParents (by decide),
      secs_noParents (by decide), s2, s3, s4, s5, s6, shapes_read, Option.bind_some]
    change Option.bind (some []) _ = _
    rw [Option.bind_some, List.length_map, evalTag_map (rdLink_dropParent o noname)]
    have := evalTag_any o noname shapes fls [] ss ⟨noname, [], shapes, List.replicate ss.length (linkInit noname), LinkHeap.init ss.length⟩
      g3 (by rw [List.nil_append, hnm]; exact hd.nodup) (by rw [List.nil_append, hnm]; exact hno) rfl rfl rfl
    rw [List.nil_append] at this
    change (Option.bind (Res.get (evalTag (rdLink o noname) ([] : List (FLink K)).length ss _)) _) = _
    rw [this]
    simp only [Res.get, Option.bind_some]
    rw [evalTag_noParent]
    simp only [Option.bind_some]
    rw [evalTag_one]
    cases o <;> rfl
  · refine declares_of ?_
    rw [s2, List.forall₂_iff_get]
    have hl : ss.length = pars.length := by rw [g2, hs.size, hd.size]
    refine ⟨hl, fun i hi hi' => g5 i _ (List.getElem?_eq_getElem hi) _ (List.getElem?_eq_getElem hi')⟩
  · rw [s2, g2, hs.size]
  · obtain ⟨n, h1, h2⟩ := hs.name
    rw [hname] at h2
    cases h2
    exact h1

/-- The robot is the one described. -/
theorem built_of {noname : String} {zyx : K → K → K → Mat3 K} {doc : Elem K} {links : List String} {pars : List (Option ℕ)}
    (hd : Describes doc links pars) {s : Info K} (hs : StateOf zyx doc links s) {r : Robot K} (h1 : r.names = links)
    (h2 : doc.find "name" = some [.str r.name]) (h3 : (r.node.map fun x => x.parent) = pars) (h4 : r.link.length = s.link.length)
    (h5 : r.shapes = (s.link.flatMap fun l => l.shapes).map (fun p => p.name))
    (h6 : ∀ (i : ℕ) (l : Link K) (fl : FLink K), s.link[i]? = some l → r.link[i]? = some fl → ∃ n, links[i]? = some n ∧ LinkOk s n l fl noname) :
    Built doc links pars r := by
  have key : ∀ (i : ℕ) (fl : FLink K), r.link[i]? = some fl → ∃ l n, s.link[i]? = some l ∧ links[i]? = some n ∧ LinkOk s n l fl noname := by
    intro i fl hfl
    have hi : i < s.link.length := by
      have := (List.getElem?_eq_some_iff.1 hfl).1
      omega
    obtain ⟨n, hn, ho⟩ := h6 i s.link[i] fl (List.getElem?_eq_getElem hi) hfl
    exact ⟨_, n, List.getElem?_eq_getElem hi, hn, ho⟩
  have hjn : ∀ (i : ℕ) (l : Link K) (n : String), s.link[i]? = some l → links[i]? = some n →
      l.joint = (elems doc "joint").findIdx? fun e => decide ((jointOf links e).child = some i) := by
    intro i l n hl hn
    obtain ⟨e, n', -, hn', -, hj, -⟩ := hs.link i l hl
    exact hj
  refine ⟨h2, h1, h3, ?_, ?_, ?_, ?_⟩
  · intro i e fl he hfl
    obtain ⟨l, n, hl, hn, p, -, rfl⟩ := key i fl hfl
    obtain ⟨e', n', he', -, -, -, hm, -⟩ := hs.link i l hl
    rw [he] at he'
    cases he'
    exact hm
  · intro i e fl he hfl
    obtain ⟨l, n, hl, hn, p, -, rfl⟩ := key i fl hfl
    obtain ⟨e', n', he', hn', -, -, -, hsn, -⟩ := hs.link i l hl
    rw [he] at he'
    cases he'
    rw [hn] at hn'
    cases hn'
    refine ⟨hsn, fun q hq => ?_⟩
    rw [h5]
    obtain ⟨p, hp, rfl⟩ := List.mem_map.1 (show q ∈ l.shapes.map (fun p => p.name) from hq)
    exact List.mem_map.2 ⟨p, List.mem_flatMap.2 ⟨l, List.mem_of_getElem? hl, hp⟩, rfl⟩
  · intro fl hfl e he hne
    obtain ⟨i, hi⟩ := List.mem_iff_getElem?.1 hfl
    obtain ⟨l, n, hl, hn, p, hp, rfl⟩ := key i fl hi
    have hne' : Names e "child" n := hne
    have hch := names_child hd hn he hne'
    have hpo := parent_of hd i hn
    rcases hfi : (elems doc "joint").findIdx? (fun e => decide ((jointOf links e).child = some i)) with _ | j
    · rw [List.findIdx?_eq_none_iff] at hfi
      have := hfi e he
      simp [hch] at this
    rw [hfi] at hpo
    obtain ⟨e', p', np, he', -, -, -, hne2⟩ := hpo
    have hee : e = e' := by
      obtain ⟨k, hk⟩ := List.mem_iff_getElem?.1 he
      obtain ⟨k1, k2⟩ := List.getElem?_eq_some_iff.1 hk
      obtain ⟨j1, j2⟩ := List.getElem?_eq_some_iff.1 he'
      rcases lt_trichotomy k j with hlt | rfl | hlt
      · have := List.pairwise_iff_getElem.1 hd.once k j k1 j1 hlt n
        rw [k2, j2] at this
        exact absurd hne2 (this hne')
      · rw [← k2, ← j2]
      · have := List.pairwise_iff_getElem.1 hd.once j k j1 k1 hlt n
        rw [k2, j2] at this
        exact absurd hne' (this hne2)
    subst hee
    have hj : l.joint = some j := by rw [hjn i l n hl hn, hfi]
    have hjl : j < s.joint.length := by
      rw [hs.joints]
      exact (List.getElem?_eq_some_iff.1 he').1
    have hx : theJoint s l = some s.joint[j] := by
      rw [theJoint, hj, Option.bind_some, List.getElem?_eq_getElem hjl]
    obtain ⟨e2, he2, hc⟩ := hs.joint j s.joint[j] (List.getElem?_eq_getElem hjl)
    rw [he'] at he2
    cases he2
    rw [hx] at hp
    generalize s.joint[j] = x at hp hc
    have c1 : x.type = (jointOf links e).type := by rw [← hc]; rfl
    have c2 : x.lower = (jointOf links e).lower := by rw [← hc]; rfl
    have c3 : x.upper = (jointOf links e).upper := by rw [← hc]; rfl
    have c4 : x.damping = (jointOf links e).damping := by rw [← hc]; rfl
    have c5 : x.friction = (jointOf links e).friction := by rw [← hc]; rfl
    intro t ht
    have h := hp.1 t (by rw [c1, jointOf_type, ht]; rfl)
    rw [c2, c3, c4, c5, jointOf_lower, jointOf_upper, jointOf_damping, jointOf_friction] at h
    split_ifs at h ⊢
    · obtain ⟨d, e1, a1, a2, a3, a4, a5, a6, a7, a8⟩ := h
      exact ⟨d, e1, a1, a2, a3, a4, a5, a6, a7, a8⟩
    · obtain ⟨d, e1, a1, a2, a3, a4, a5, a6, a7, a8⟩ := h
      exact ⟨d, e1, a1, a2, a3, a4, a5, a6, a7, a8⟩
    · exact h
    · exact h
  · intro fl hfl hno
    obtain ⟨i, hi⟩ := List.mem_iff_getElem?.1 hfl
    obtain ⟨l, n, hl, hn, p, hp, rfl⟩ := key i fl hi
    have hpo := parent_of hd i hn
    rcases hfi : (elems doc "joint").findIdx? (fun e => decide ((jointOf links e).child = some i)) with _ | j
    · have hx : theJoint s l = none := by rw [theJoint, hjn i l n hl hn, hfi]; rfl
      rw [hx] at hp
      exact hp.1
    · rw [hfi] at hpo
      obtain ⟨e', p', np, he', -, -, -, hne2⟩ := hpo
      exact absurd hne2 (hno e' (List.mem_of_getElem? he'))

end Roki.Urdf.Doc
