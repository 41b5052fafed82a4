import Verif.Lemmas.UrdfFile4
set_option autoImplicit false

/-! # URDF documents: reading the file that is written -/

namespace Roki.Urdf.Doc
open ZTK Spec.UrdfDoc Spec.File
variable {K : Type*} [Field K] [LinearOrder K] [IsStrictOrderedRing K] [Zm K] [LawfulZm K]

/-- Sections that are not those of the joint. -/
theorem known_secOf_joint (q : Prp K) (n : String) (t : Option String) (J : List (Fld K)) (org : Frame K) (mp : MP K)
    (sh : List String) (R : List (Fld K)) (hR : ∀ f ∈ R, f.key = "parent") :
    known (jointTab [] q) (secOf n t J org mp sh R) = known (jointTab [] q) J := by
  have hk := (jointTab_keys (K := K) [] q).2
  have hl : ∀ (k : String) (vs : List (List (Tok K))), k ∉ jointKeys → known (jointTab [] q) (lines k vs) = [] := by
    intro k vs h
    refine known_none fun f hf h' => h ?_
    rw [← mem_lines hf]
    exact hk _ h'
  have hr : known (jointTab [] q) R = [] := by
    refine known_none fun f hf h' => ?_
    have := hk _ h'
    rw [hR f hf] at this
    exact absurd this (by decide)
  simp only [secOf, known_append]
  rw [hl _ _ (by decide), hl _ _ (by decide), hl _ _ (by decide), hl _ _ (by decide), hl _ _ (by decide), hl _ _ (by decide),
    hl _ _ (by decide), hl _ _ (by decide), hr]
  simp

theorem known_secOf_link (names shapes : List String) (n : String) (t : Option String) (J : List (Fld K)) (org : Frame K) (mp : MP K)
    (sh : List String) (R : List (Fld K)) (hJ : ∀ f ∈ J, f.key ∈ jointKeys) (hR : ∀ f ∈ R, f.key = "parent") :
    known (linkTabAll none names shapes) (secOf n t J org mp sh R) = (fileGroups names shapes n t org mp sh).flatMap Group.flds := by
  have hl : ∀ (k : String) (vs : List (List (Tok K))), k ∈ linkKeys → known (linkTabAll (K := K) none names shapes) (lines k vs) = lines k vs := by
    intro k vs h
    refine known_all fun f hf => ?_
    rw [linkTabAll_keys, mem_lines hf]
    exact h
  have hr : known (linkTabAll (K := K) none names shapes) R = [] := by
    refine known_none fun f hf h' => ?_
    rw [linkTabAll_keys, hR f hf] at h'
    exact absurd h' (by decide)
  have hj : known (linkTabAll (K := K) none names shapes) J = [] := by
    refine known_none fun f hf h' => ?_
    rw [linkTabAll_keys] at h'
    have := hJ f hf
    revert this h'
    generalize f.key = k
    intro h' hk
    simp only [jointKeys, List.mem_cons, List.not_mem_nil, or_false] at hk
    rcases hk with rfl | rfl | rfl | rfl | rfl | rfl | rfl | rfl | rfl | rfl <;> exact absurd h' (by decide)
  simp only [secOf, known_append]
  rw [hl _ _ (by decide), hl _ _ (by decide), hl _ _ (by decide), hl _ _ (by decide), hl _ _ (by decide), hl _ _ (by decide),
    hl _ _ (by decide), hl _ _ (by decide), hr, hj, fileGroups_flds]
  simp

/-- The lines of the joint of a link. -/
def JointLines (x : Option (Joint K)) (J : List (Fld K)) : Prop :=
  match x with
  | none => J = []
  | some x => ∃ lo hi, outLim x.type x.lower = some lo ∧ outLim x.type x.upper = some hi ∧ J = jLines lo hi x.damping x.friction

/-- What is read from a section. -/
theorem linkRead_secOf (o : Order) (noname : String) (shapes : List String) (n : String) (x : Option (Joint K))
    (J : List (Fld K)) (org : Frame K) (mp : MP K) (sh : List String) (R : List (Fld K)) (hR : ∀ f ∈ R, f.key = "parent")
    (hs : ∀ s ∈ sh, s ∈ shapes) (hJx : JointLines x J) (hx : ∀ y, x = some y →
      (∃ t, y.type = some t) ∧ IsNum y.lower ∧ IsNum y.upper ∧ IsNum y.damping ∧ IsNum y.friction) :
    ∃ p, ReadJoint x p ∧ ∀ names : List String, n ∉ names →
      linkRead o noname names shapes [] (secOf n (x.bind fun x => x.type) J org mp sh R) = .ok (readLink noname n mp org sh p) := by
  have hJ : ∀ f ∈ J, f.key ∈ jointKeys := by
    intro f hf
    cases x with
    | none => simp only [JointLines] at hJx; subst hJx; simp at hf
    | some x =>
      obtain ⟨lo, hi, -, -, rfl⟩ := hJx
      simp only [jLines, List.mem_append] at hf
      rcases hf with ((hf | hf) | hf) | hf <;> rw [mem_lines hf] <;> decide
  obtain ⟨p0, h0, -⟩ := fold_groups o noname [] shapes n (x.bind fun x => x.type) org mp sh (by simp) hs
  obtain ⟨p, hp1, hp2⟩ : ∃ p, jointRead o [] (secOf n (x.bind fun x => x.type) J org mp sh R) ⟨p0, noname⟩ = .ok ⟨p, noname⟩ ∧
      ReadJoint x p := by
    cases x with
    | none =>
      cases h0
      refine ⟨.fixed, ?_, rfl, rfl⟩
      rw [jointRead]
      simp only [JointLines] at hJx
      subst hJx
      rw [← evalKeys_known, known_secOf_joint _ _ _ _ _ _ _ _ hR]
      cases o <;> rfl
    | some x =>
      obtain ⟨⟨t, ht⟩, a1, a2, a3, a4⟩ := hx x rfl
      obtain ⟨lo, hi, b1, b2, rfl⟩ := hJx
      rw [Option.bind_some, ht] at h0
      exact joint_out o noname x t ht a1 a2 a3 a4 b1 b2 h0 fun q => known_secOf_joint _ _ _ _ _ _ _ _ hR
  refine ⟨p, hp2, fun names hn => ?_⟩
  obtain ⟨p0', h0', h1⟩ := fold_groups o noname names shapes n (x.bind fun x => x.type) org mp sh hn hs
  rw [h0] at h0'
  cases h0'
  have hk := known_secOf_link names shapes n (x.bind fun x => x.type) J org mp sh R hJ hR
  have e1 : linkTabAll (K := K) none names shapes = (tabGroups names shapes n (x.bind fun x => x.type) org mp sh).map Prod.fst := rfl
  have h2 : ((tabGroups (K := K) names shapes n (x.bind fun x => x.type) org mp sh).map fun g => g.1.key).Nodup := by
    have : ((tabGroups (K := K) names shapes n (x.bind fun x => x.type) org mp sh).map fun g => g.1.key) = linkKeys := rfl
    rw [this]
    decide
  have h3 := evalKeys_perm o _ _ (fileGroups_perm names shapes n (x.bind fun x => x.type) org mp sh) h2 (by rw [← e1]; exact hk)
    (linkInit noname)
  rw [h1, ← e1] at h3
  rw [linkRead, h3, Res.andThen_ok]
  have e2 : ({ readLink noname n mp org sh p0 with com := (x.bind fun x => x.type).isSome } : FLink K).link.joint.prp = p0 := rfl
  have e3 : ({ readLink noname n mp org sh p0 with com := (x.bind fun x => x.type).isSome } : FLink K).mname = noname := rfl
  rw [e2, e3, hp1]
  rfl

/-! ## The sections that are written -/

omit [Field K] [LinearOrder K] [IsStrictOrderedRing K] [Zm K] [LawfulZm K] in
theorem optFld_lines (k : String) (v : Option (List (Tok K))) : optFld k v = lines k v.toList := by
  cases v <;> rfl

omit [IsStrictOrderedRing K] [LawfulZm K] in
theorem outMass_lines (mp : MP K) : outMass mp = lines "mass" (massVals mp) ++ lines "COM" (comVals mp) ++ lines "inertia" (inertiaVals mp) := by
  rw [outMass, massVals, comVals, inertiaVals, posVals]
  split_ifs <;> rfl

omit [IsStrictOrderedRing K] [LawfulZm K] in
theorem outJoint_eq {x : Joint K} {a : List (Fld K)} (h : outJoint x = some a) : ∃ lo hi, outLim x.type x.lower = some lo ∧
    outLim x.type x.upper = some hi ∧ a = lines "jointtype" (x.type.toList.map fun t => [.str (ztkType t)]) ++
      jLines lo hi x.damping x.friction ++ lines "pos" (posVals x.fl.pos) ++ lines "att" (attVals x.fl.att) := by
  rw [outJoint] at h
  obtain ⟨lo, h1, h⟩ := Option.bind_eq_some_iff.1 h
  obtain ⟨hi, h2, rfl⟩ := Option.map_eq_some_iff.1 h
  refine ⟨lo, hi, h1, h2, ?_⟩
  have e1 : (if tinyVec x.fl.pos then [] else [(⟨"pos", tokVec x.fl.pos⟩ : Fld K)]) = lines "pos" (posVals x.fl.pos) := by
    rw [posVals]; split_ifs <;> rfl
  have e2 : (if tinyMat x.fl.att then [] else [(⟨"att", tokMat x.fl.att⟩ : Fld K)]) = lines "att" (attVals x.fl.att) := by
    rw [attVals]; split_ifs <;> rfl
  rw [e1, e2]
  simp only [optFld_lines, jLines, List.append_assoc]
  cases x.type <;> rfl

/-- The joint of a link. -/
def theJoint (s : Info K) (l : Link K) : Option (Joint K) := l.joint.bind fun j => s.joint[j]?

/-- The frame of a link. -/
def orgOf : Option (Joint K) → Frame K
  | none => Frame.ident
  | some x => x.fl

/-- The line of the parent of a link. -/
def ParentLine (s : Info K) (p : Option ℕ) (R : List (Fld K)) : Prop :=
  match p with
  | none => R = []
  | some p => ∃ lp np, s.link[p]? = some lp ∧ lp.name = some np ∧ R = [⟨"parent", [.str np]⟩]

/-- The section of a link. -/
theorem outLink_eq {s : Info K} {l : Link K} {n : String} {sec : List (Fld K)} (h : outLink s l = some sec) (hn : l.name = some n) :
    ∃ J R, sec = secOf n ((theJoint s l).bind fun x => x.type) J (orgOf (theJoint s l)) l.mp (l.shapes.map fun p => p.name) R ∧
      JointLines (theJoint s l) J ∧ ParentLine s ((theJoint s l).bind fun x => x.parent) R ∧
      (l.joint.isSome → (theJoint s l).isSome) := by
  have hz : (tinyVec (Frame.ident : Frame K).pos) = true := by
    simp [tinyVec, Frame.ident, LawfulZm.tiny_zero]
  have hz2 : (tinyMat (Frame.ident : Frame K).att) = true := by
    simp [tinyMat, Frame.ident, LawfulZm.tiny_zero]
  have es : (l.shapes.map fun p => (⟨"shape", [.str p.name]⟩ : Fld K)) = lines "shape" ((l.shapes.map fun p => p.name).map fun n => [.str n]) := by
    simp [lines, Function.comp_def]
  simp only [outLink, hn, outMass_lines, es, Option.map_some, optFld_lines] at h
  rcases hj : l.joint with _ | j
  · simp only [hj] at h
    cases h
    refine ⟨[], [], ?_, by simp [theJoint, hj, JointLines], by simp [theJoint, hj, ParentLine], by simp⟩
    simp only [theJoint, hj, Option.bind_none, orgOf, secOf, posVals, attVals, hz, hz2, if_true, Option.toList_none, List.map_nil, lines,
      List.append_nil, Option.toList_some, List.append_assoc]
  · simp only [hj] at h
    obtain ⟨y, hy, h⟩ := Option.bind_eq_some_iff.1 h
    have ej : theJoint s l = some y := by rw [theJoint, hj, Option.bind_some, hy]
    obtain ⟨a, ha, h⟩ := Option.bind_eq_some_iff.1 h
    obtain ⟨b, hb, rfl⟩ := Option.map_eq_some_iff.1 h
    obtain ⟨lo, hi, h1, h2, rfl⟩ := outJoint_eq ha
    rw [ej]
    refine ⟨jLines lo hi y.damping y.friction, b, ?_, ⟨lo, hi, h1, h2, rfl⟩, ?_, by simp⟩
    · simp only [secOf, Option.bind_some, Option.toList_some, List.append_assoc, orgOf]
    · rw [Option.bind_some]
      rw [outParent.eq_def] at hb
      rcases hp : y.parent with _ | p
      · simp only [hp] at hb
        cases hb
        rfl
      · simp only [hp] at hb
        obtain ⟨lp, hlp, hb⟩ := Option.bind_eq_some_iff.1 hb
        obtain ⟨np, hnp, rfl⟩ := Option.map_eq_some_iff.1 hb
        exact ⟨lp, np, hlp, hnp, rfl⟩

/-! ## Links -/

/-- Reading the sections of links one after the other. -/
theorem evalTag_any (o : Order) (noname : String) (shapes : List String) :
    ∀ (ls pre : List (FLink K)) (ss : List (List (Fld K))) (st : Robot K),
      List.Forall₂ (fun (l : FLink K) s => ∀ names : List String, l.link.name ∉ names → linkRead o noname names shapes [] s = .ok l) ls ss →
      ((pre ++ ls).map fun l => l.link.name).Nodup → noname ∉ ((pre ++ ls).map fun l => l.link.name) →
      st.shapes = shapes → st.motors = [] →
      st.link = pre ++ List.replicate ss.length (linkInit noname) →
      evalTag (rdLink o noname) pre.length ss st = .ok { st with link := pre ++ ls } := by
  intro ls
  induction ls with
  | nil =>
    intro pre ss st h _ _ _ _ e
    cases h
    simp only [List.length_nil, List.replicate_zero, List.append_nil] at e
    simp [evalTag, ← e]
  | cons l ls ih =>
    intro pre ss st h hn hne hs hm e
    cases h with
    | @cons _ s _ ss h1 h2 =>
      have e0 : st.link.set pre.length (linkInit noname) = st.link := by
        rw [e, List.length_cons, List.replicate_succ, List.set_append_right _ _ (by simp)]
        simp
      have hnot : l.link.name ∉ Robot.names { st with link := st.link.set pre.length (linkInit noname) } := by
        rw [e0]
        simp only [Robot.names, e, List.map_append, List.mem_append, not_or, List.map_replicate]
        constructor
        · intro hh
          rw [List.map_append, List.nodup_append'] at hn
          refine hn.2.2 hh ?_
          simp
        · intro hh
          have := List.eq_of_mem_replicate hh
          refine hne ?_
          have e : (linkInit noname : FLink K).link.name = noname := rfl
          rw [e] at this
          rw [← this]
          simp
      have := ih (pre ++ [l]) ss { st with link := pre ++ l :: List.replicate ss.length (linkInit noname) } h2
        (by simpa using hn) (by simpa using hne) hs hm (by simp)
      rw [List.length_append, List.length_singleton] at this
      have hr := h1 _ hnot
      rw [← hs, ← hm] at hr
      rw [evalTag, rdLink, hr, Res.bind_ok, Res.andThen_ok]
      have e1 : st.link.set pre.length l = pre ++ l :: List.replicate ss.length (linkInit noname) := by
        rw [e, List.length_cons, List.replicate_succ, List.set_append_right _ _ (by simp)]
        simp
      rw [e1, this]
      simp

end Roki.Urdf.Doc
