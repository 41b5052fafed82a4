import Verif.Lemmas.ChainFile
set_option autoImplicit false

/-! # Reading and writing chains: lemmas on links -/

namespace Roki.ZTK
open Roki.Spec.File
variable {K : Type*} [Field K] [LinearOrder K] [IsStrictOrderedRing K] [Zm K] [LawfulZm K]

theorem mid_eq_rest {p : Prp K} (hs : p.setDis p.getDis = some p) (hn : p.isNeutral = true → ∀ a ∈ angles p, Zm.phaseNormalize a = a)
    (h : p.size = 0 ∨ p.isNeutral = true) : mid p = rest p := by
  have hi : p.size = 0 → p = .fixed := by cases p <;> simp [Prp.size]
  rcases h with h | h
  · rw [hi h]; rfl
  · have hn := hn h
    cases p with
    | fixed => rfl
    | revol p =>
      simp only [Prp.setDis, Prp.getDis, Option.some.injEq, Prp.revol.injEq] at hs
      simp only [angles, List.mem_singleton, forall_eq] at hn
      simp only [mid, rest, hn]
      have h1 := congrArg Dof1.dis hs
      have h2 := congrArg Dof1.s hs
      have h3 := congrArg Dof1.c hs
      simp only at h1 h2 h3
      rw [h1] at h2 h3
      rw [h2, h3]
    | prism p => rfl
    | cylin p =>
      simp only [Prp.setDis, Prp.getDis, Option.some.injEq, Prp.cylin.injEq] at hs
      simp only [angles, List.mem_singleton, forall_eq] at hn
      simp only [mid, rest, hn]
      have h1 := congrArg Dof2.dis1 hs
      have h2 := congrArg Dof2.s1 hs
      have h3 := congrArg Dof2.c1 hs
      simp only at h1 h2 h3
      rw [h1] at h2 h3
      rw [h2, h3]
    | hooke p =>
      simp only [Prp.setDis, Prp.getDis, Option.some.injEq, Prp.hooke.injEq] at hs
      simp only [angles, List.mem_cons, List.not_mem_nil, or_false, forall_eq_or_imp, forall_eq] at hn
      simp only [mid, rest, hn.1, hn.2]
      have h1 := congrArg Dof2.dis1 hs
      have h2 := congrArg Dof2.s1 hs
      have h3 := congrArg Dof2.c1 hs
      have h4 := congrArg Dof2.dis0 hs
      have h5 := congrArg Dof2.s0 hs
      have h6 := congrArg Dof2.c0 hs
      simp only at h1 h2 h3 h4 h5 h6
      rw [h1] at h2 h3
      rw [h4] at h5 h6
      rw [h2, h3, h5, h6]
    | spher p =>
      simp only [Prp.setDis, Prp.getDis, Vec3.toBuf, Vec3.ofBuf, Option.map_some, Option.some.injEq, Prp.spher.injEq] at hs
      simp only [mid, rest]
      have h1 := congrArg SpherPrp.att hs
      simp only at h1
      rw [h1]
    | float p =>
      simp only [Prp.setDis, Prp.getDis, Vec6.toBuf, Vec3.toBuf, Vec6.ofBuf, List.cons_append, List.nil_append, Option.map_some,
        Option.some.injEq, Prp.float.injEq] at hs
      simp only [mid, rest]
      have h1 := congrArg FloatPrp.att hs
      simp only at h1
      rw [h1]
    | brfloat p =>
      simp only [Prp.setDis, Prp.getDis, Vec6.toBuf, Vec3.toBuf, Vec6.ofBuf, List.cons_append, List.nil_append, Option.map_some,
        Option.some.injEq, Prp.brfloat.injEq] at hs
      simp only [mid, rest]
      have h1 := congrArg FloatPrp.att hs
      simp only at h1
      rw [h1]

theorem disRead_mid {p : Prp K} (hs : p.setDis p.getDis = some p) (h : p.size ≠ 0) :
    ∃ v, disPrint p = some v ∧ disRead (mid p) v = some (rest p) := by
  cases p with
  | fixed => simp [Prp.size] at h
  | revol p =>
    refine ⟨_, rfl, ?_⟩
    simp only [Prp.setDis, Prp.getDis, Option.some.injEq, Prp.revol.injEq] at hs
    simp only [disRead, mid, rest, Prp.setDis, deg2rad_rad2deg, Option.some.injEq, Prp.revol.injEq]
    have h1 := congrArg Dof1.dis hs
    have h2 := congrArg Dof1.s hs
    have h3 := congrArg Dof1.c hs
    simp only at h1 h2 h3
    rw [h2, h3, h1]
  | prism p =>
    refine ⟨_, rfl, ?_⟩
    simp only [Prp.setDis, Prp.getDis, Option.some.injEq, Prp.prism.injEq] at hs
    simp only [disRead, mid, rest, Prp.setDis, Option.some.injEq, Prp.prism.injEq]
    have h1 := congrArg Dof1.dis hs
    simp only at h1
    rw [h1]
  | cylin p =>
    refine ⟨_, rfl, ?_⟩
    simp only [Prp.setDis, Prp.getDis, Option.some.injEq, Prp.cylin.injEq] at hs
    simp only [disRead, mid, rest, Prp.setDis, deg2rad_rad2deg, Option.some.injEq, Prp.cylin.injEq]
    have h1 := congrArg Dof2.dis1 hs
    have h2 := congrArg Dof2.s1 hs
    have h3 := congrArg Dof2.c1 hs
    have h4 := congrArg Dof2.dis0 hs
    simp only at h1 h2 h3 h4
    rw [h2, h3, h1, h4]
  | hooke p =>
    refine ⟨_, rfl, ?_⟩
    simp only [Prp.setDis, Prp.getDis, Option.some.injEq, Prp.hooke.injEq] at hs
    simp only [disRead, mid, rest, Prp.setDis, deg2rad_rad2deg, Option.some.injEq, Prp.hooke.injEq]
    have h1 := congrArg Dof2.dis1 hs
    have h2 := congrArg Dof2.s1 hs
    have h3 := congrArg Dof2.c1 hs
    have h4 := congrArg Dof2.dis0 hs
    have h5 := congrArg Dof2.s0 hs
    have h6 := congrArg Dof2.c0 hs
    simp only at h1 h2 h3 h4 h5 h6
    rw [h2, h3, h1, h5, h6, h4]
  | spher p =>
    refine ⟨_, rfl, ?_⟩
    simp only [Prp.setDis, Prp.getDis, Vec3.toBuf, Vec3.ofBuf, Option.map_some, Option.some.injEq, Prp.spher.injEq] at hs
    have h1 := congrArg SpherPrp.att hs
    simp only at h1
    simp [disRead, mid, rest, Prp.setDis, vecTok, tokVec, Vec3.toBuf, Vec3.ofBuf]
    exact h1
  | float p =>
    refine ⟨_, rfl, ?_⟩
    simp only [Prp.setDis, Prp.getDis, Vec6.toBuf, Vec3.toBuf, Vec6.ofBuf, List.cons_append, List.nil_append, Option.map_some,
      Option.some.injEq, Prp.float.injEq] at hs
    have h1 := congrArg FloatPrp.att hs
    simp only at h1
    simp [disRead, mid, rest, Prp.setDis, vecTok, tokVec, Vec3.toBuf, Vec6.ofBuf]
    exact h1
  | brfloat p =>
    refine ⟨_, rfl, ?_⟩
    simp only [Prp.setDis, Prp.getDis, Vec6.toBuf, Vec3.toBuf, Vec6.ofBuf, List.cons_append, List.nil_append, Option.map_some,
      Option.some.injEq, Prp.brfloat.injEq] at hs
    have h1 := congrArg FloatPrp.att hs
    simp only at h1
    simp [disRead, mid, rest, Prp.setDis, vecTok, tokVec, Vec3.toBuf, Vec6.ofBuf]
    exact h1

omit [IsStrictOrderedRing K] [LawfulZm K] in
theorem queryAssign_typeStr (j : Joint K) (p : Prp K) : ∃ p0, p.fresh.neutral = some p0 ∧
    j.queryAssign p.typeStr = some (some { j with prp := p0 }) := by
  cases p <;> refine ⟨_, rfl, ?_⟩ <;> simp [Joint.queryAssign, Prp.comArray, Prp.typeStr, Joint.assign] <;> rfl

/-! ## Links -/

/-- A link after its section has been read. -/
def midLink (noname : String) (l : FLink K) : FLink K where
  link := { (linkInit noname : FLink K).link with
    name := l.link.name, joint := ⟨mid l.link.joint.prp, 0⟩,
    body := { (Body.init : Body K) with mp := l.link.body.mp, stuff := l.link.body.stuff }, org := l.link.org }
  com := true
  mname := l.mname
  shapes := l.shapes

/-- The groups of a printed link. -/
def linkGroups (nullStr : Option String) (names : List String) (stuff : String) (l : FLink K) : List (Group (FLink K) K) :=
  (linkTab nullStr names).zip [[[.str l.link.name]], [[.str l.link.joint.prp.typeStr]], [[.num l.link.body.mp.mass]],
    [[.str stuff]], [tokVec l.link.body.mp.com], [tokMat l.link.body.mp.inertia], [tokVec l.link.org.pos], [tokMat l.link.org.att]]

/-- The keys of a link. -/
def linkKeys : List String := ["name", "jointtype", "mass", "stuff", "COM", "inertia", "pos", "att", "shape"]

omit [IsStrictOrderedRing K] [LawfulZm K] in
theorem linkTabAll_keys (nullStr : Option String) (names shapes : List String) :
    keys (linkTabAll (K := K) nullStr names shapes) = linkKeys := rfl

omit [IsStrictOrderedRing K] [LawfulZm K] in
theorem rd_shapes (shapes : List String) : ∀ (l : List String), (∀ s ∈ l, s ∈ shapes) → ∀ s : FLink K,
    rdAll (shapeRow shapes) (l.map fun n => [.str n]) (.ok s) = .ok { s with shapes := s.shapes ++ l } := by
  intro l
  induction l with
  | nil => intro _ s; simp [rdAll]
  | cons a l ih =>
    intro h s
    have ha := h a (by simp)
    have hne : shapes ≠ [] := by rintro rfl; simp at ha
    have := ih (fun x hx => h x (List.mem_cons_of_mem _ hx)) { s with shapes := s.shapes ++ [a] }
    rw [rdAll] at this ⊢
    rw [List.map_cons, List.foldl_cons]
    simp only [Res.andThen_ok]
    have e : (shapeRow shapes).rd s [.str a] = .ok { s with shapes := s.shapes ++ [a] } := by simp [shapeRow, ha, hne]
    rw [e, this]
    simp

theorem link_roundtrip (o : Order) (noname : String) (nullStr : Option String) (names shapes : List String)
    (motors : List (NMotor K)) (parent : Option String) (l : FLink K) (hst : l.link.body.stuff.isSome)
    (hnm : l.link.name ∉ names) (hsh : ∀ s ∈ l.shapes, s ∈ shapes)
    (hm : ∀ q, l.link.joint.prp.getMotor = some q → motorFind motors l.mname = some (some ⟨l.mname, some (restMotor q)⟩) ∨
      (motorFind motors l.mname = some none ∧ q = .none ∧ l.mname = noname))
    (hn : l.link.joint.prp.getMotor = none → l.mname = noname) :
    ∃ sec, linkPrint nullStr parent l = some sec ∧ linkRead o noname names shapes motors sec = .ok (midLink noname l) ∧
      known (parentTab (K := K) names 0) sec = match parent with
        | some p => [⟨"parent", [.str p]⟩]
        | none => [] := by
  obtain ⟨stuff, hstuff⟩ := Option.isSome_iff_exists.1 hst
  obtain ⟨p0, hp0, hq⟩ := queryAssign_typeStr (⟨.fixed, 0⟩ : Joint K) l.link.joint.prp
  let G := linkGroups none names stuff l
  let J := (jointGroups motors l.mname l.link.joint.prp).flatMap Group.flds
  let S : List (Fld K) := l.shapes.map fun n => ⟨"shape", [.str n]⟩
  let P : List (Fld K) := match parent with
        | some p => [⟨"parent", [.str p]⟩]
        | none => []
  have hG : ∀ f ∈ G.flatMap Group.flds, f.key ∈ linkKeys ∧ f.key ≠ "shape" := by
    intro f hf
    obtain ⟨g, hg, e⟩ := mem_flds hf
    rw [e]
    have h1 : g.1 ∈ linkTab none names := List.mem_map.2 ⟨g, hg, rfl⟩
    have h2 : g.1.key ∈ keys (linkTab (K := K) none names) := List.mem_map.2 ⟨_, h1, rfl⟩
    have h3 : keys (linkTab (K := K) none names) = ["name", "jointtype", "mass", "stuff", "COM", "inertia", "pos", "att"] := rfl
    rw [h3] at h2
    revert h2
    generalize g.1.key = k
    simp only [List.mem_cons, List.not_mem_nil, or_false, linkKeys]
    rintro (rfl | rfl | rfl | rfl | rfl | rfl | rfl | rfl) <;> decide
  have hJ : ∀ f ∈ J, f.key ∈ keys (jointTab motors l.link.joint.prp) := by
    intro f hf
    obtain ⟨g, hg, e⟩ := mem_flds hf
    rw [e]
    exact List.mem_map.2 ⟨g.1, jointGroups_fst motors l.mname l.link.joint.prp ▸ List.mem_map.2 ⟨g, hg, rfl⟩, rfl⟩
  have hS : ∀ f ∈ S, f.key = "shape" := by
    intro f hf
    obtain ⟨n, _, rfl⟩ := List.mem_map.1 hf
    rfl
  have hP : ∀ f ∈ P, f.key = "parent" := by
    intro f hf
    rcases parent with _ | p
    · exact absurd hf (by simp [P])
    · simp only [P, List.mem_singleton] at hf
      rw [hf]
  have hdis : ∀ k, k ∈ jointKeys → k ∉ linkKeys ∧ k ≠ "parent" := by
    intro k hk
    simp only [jointKeys, List.mem_cons, List.not_mem_nil, or_false] at hk
    rcases hk with rfl | rfl | rfl | rfl | rfl | rfl | rfl | rfl | rfl | rfl <;> decide
  have hjk := (jointTab_keys motors l.link.joint.prp).2
  refine ⟨G.flatMap Group.flds ++ J ++ S ++ P, ?_, ?_, ?_⟩
  · have h1 : printKeys (linkTab nullStr []) l = some (G.flatMap Group.flds) := by
      simp only [printKeys, linkTab, numRow, hstuff]
      rfl
    simp only [linkPrint.eq_def, h1, Option.bind_some, jointPrint_eq motors, Option.map_some]
    rfl
  · let GS : List (Group (FLink K) K) := G ++ [(shapeRow shapes, l.shapes.map fun n => [.str n])]
    have e1 : linkTabAll (K := K) none names shapes = GS.map Prod.fst := rfl
    have e2 : GS.flatMap Group.flds = G.flatMap Group.flds ++ S := by
      simp only [GS, S, List.flatMap_append, List.flatMap_cons, List.flatMap_nil, List.append_nil, Group.flds, List.map_map]
      rfl
    have h4 : (GS.map fun g => g.1.key).Nodup := by
      have : (GS.map fun g => g.1.key) = linkKeys := rfl
      rw [this]
      decide
    have k1 : known (GS.map Prod.fst) (G.flatMap Group.flds ++ J ++ S ++ P) = GS.flatMap Group.flds := by
      rw [← e1, known_append, known_append, known_append, e2]
      rw [known_all (sec := G.flatMap Group.flds) (by rw [linkTabAll_keys]; exact fun f hf => (hG f hf).1),
        known_none (sec := J) (by rw [linkTabAll_keys]; exact fun f hf => (hdis _ (hjk _ (hJ f hf))).1),
        known_all (sec := S) (by rw [linkTabAll_keys]; exact fun f hf => hS f hf ▸ by decide),
        known_none (sec := P) (by rw [linkTabAll_keys]; exact fun f hf => hP f hf ▸ by decide)]
      simp
    have k2 : known (jointTab motors l.link.joint.prp) (G.flatMap Group.flds ++ J ++ S ++ P) = J := by
      rw [known_append, known_append, known_append]
      rw [known_none (sec := G.flatMap Group.flds) (fun f hf h => (hdis _ (hjk _ h)).1 (hG f hf).1), known_all hJ,
        known_none (sec := S) (fun f hf h => (hdis _ (hjk _ h)).1 (hS f hf ▸ by decide)),
        known_none (sec := P) (fun f hf h => (hdis _ (hjk _ h)).2 (hP f hf))]
      simp
    rw [linkRead, e1, evalKeys_among o GS h4 k1]
    have h6 : GS.foldl (fun r g => rdAll g.1 g.2 r) (.ok (linkInit noname)) =
        .ok { midLink noname l with link := { (midLink noname l).link with joint := ⟨p0, 0⟩ }, mname := noname } := by
      have e3 : G.foldl (fun r g => rdAll g.1 g.2 r) (.ok (linkInit noname)) =
        .ok { midLink noname l with link := { (midLink noname l).link with joint := ⟨p0, 0⟩ }, mname := noname, shapes := [] } := by
        simp [G, linkGroups, linkTab, rdAll, numRow, hnm, linkInit, hq, vecTok, tokVec, matTok, tokMat, midLink, hstuff, Body.init,
          Frame.ident, Link.zeroed]
      simp only [GS]
      rw [List.foldl_append, e3, List.foldl_cons, List.foldl_nil, rd_shapes shapes l.shapes hsh]
      rfl
    rw [h6]
    simp only [Res.andThen_ok, midLink]
    rw [joint_roundtrip o noname motors l.link.joint.prp p0 l.mname hp0 hm hn k2]
    rfl
  · have hk : keys (parentTab (K := K) names 0) = ["parent"] := rfl
    rw [known_append, known_append, known_append]
    rw [known_none (sec := G.flatMap Group.flds) (by
        intro f hf h
        rw [hk, List.mem_singleton] at h
        have := (hG f hf).1
        rw [h] at this
        exact absurd this (by decide)),
      known_none (sec := J) (by
        intro f hf h
        rw [hk, List.mem_singleton] at h
        exact (hdis _ (hjk _ (hJ f hf))).2 h),
      known_none (sec := S) (by
        intro f hf h
        rw [hk, List.mem_singleton, hS f hf] at h
        exact absurd h (by decide)),
      known_all (sec := P) (by
        intro f hf
        rw [hk, hP f hf]
        simp)]
    simp [P]

end Roki.ZTK
