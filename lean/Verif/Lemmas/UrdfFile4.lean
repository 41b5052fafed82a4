import Verif.Lemmas.UrdfFile3
import Verif.Lemmas.ChainFile6
import Verif.Spec.Kinematics
set_option autoImplicit false

/-! # URDF documents: reading the section of a link -/

namespace Roki.ZTK
variable {K σ : Type*}

/-- A section whose fields are in another order than the rows of the table. -/
theorem evalKeys_perm (o : Order) (gs gt : List (Group σ K)) (hp : gs.Perm gt) (hn : (gt.map fun g => g.1.key).Nodup)
    {sec : List (Fld K)} (hs : known (gt.map Prod.fst) sec = gs.flatMap Group.flds) (s : σ) :
    evalKeys o (gt.map Prod.fst) sec s = (match o with
      | .file => gs
      | .table => gt : List (Group σ K)).foldl (fun r g => rdAll g.1 g.2 r) (.ok s) := by
  have hng : (gs.map fun g => g.1.key).Nodup := (hp.map _).nodup_iff.2 hn
  rw [← evalKeys_known, hs]
  cases o with
  | file =>
    rw [evalKeys]
    have : ∀ (l : List (Group σ K)), (∀ g ∈ l, g.1 ∈ gt.map Prod.fst) → ∀ r : Res σ,
        (l.flatMap Group.flds).foldl (fun r f => r.andThen fun s => evalFld (gt.map Prod.fst) s f) r =
          l.foldl (fun r g => rdAll g.1 g.2 r) r := by
      intro l
      induction l with
      | nil => intro _ r; rfl
      | cons g l ih =>
        intro hl r
        rw [List.flatMap_cons, List.foldl_append, ih (fun x hx => hl x (List.mem_cons_of_mem _ hx)), List.foldl_cons,
          fold_row (by rwa [List.map_map]) (hl g (by simp)) g.flds (by
            intro f hf
            obtain ⟨v, _, rfl⟩ := List.mem_map.1 hf
            rfl)]
        congr 2
        rw [Group.flds, List.map_map]
        simp [Function.comp_def]
    exact this gs (fun g hg => List.mem_map.2 ⟨g, hp.mem_iff.1 hg, rfl⟩) _
  | table =>
    rw [evalKeys_table]
    have : ∀ (l : List (Group σ K)), (∀ g ∈ l, g ∈ gt) → ∀ r : Res σ,
        rdRows (gs.flatMap Group.flds) (l.map Prod.fst) r = l.foldl (fun r g => rdAll g.1 g.2 r) r := by
      intro l
      induction l with
      | nil => intro _ r; rfl
      | cons g l ih =>
        intro hl r
        rw [List.map_cons, rdRows, ih fun x hx => hl x (List.mem_cons_of_mem _ hx), List.foldl_cons, vals,
          filter_flds hng (hp.mem_iff.2 (hl g (by simp))), Group.flds, List.map_map]
        congr 2
        simp [Function.comp_def]
    exact this gt (fun _ h => h) _

end Roki.ZTK

namespace Roki.Urdf.Doc
open ZTK Spec.UrdfDoc Spec.File
variable {K : Type*} [Field K] [LinearOrder K] [IsStrictOrderedRing K] [Zm K] [LawfulZm K]

/-- The joint type that a section of the file stands for. -/
def ztkPrp : Option String → Prp K
  | none => .fixed
  | some t => if t = "revolute" ∨ t = "continuous" then .revol Dof1.fresh else if t = "prismatic" then .prism Dof1.fresh
    else if t = "float" then .float { dis := 0, vel := 0, acc := 0, trq := 0, att := 0, epf := none, ept := none } else .fixed

/-- A link as it is read from the section that is written for it. -/
def readLink (noname n : String) (mp : MP K) (org : Frame K) (shapes : List String) (p : Prp K) : FLink K where
  link := { (linkInit noname : FLink K).link with
    name := n, joint := ⟨p, 0⟩
    body := { (Body.init : Body K) with
      mp := ⟨mp.mass, if mp.mass = 0 then 0 else if tinyVec mp.com then 0 else mp.com, if mp.mass = 0 then 0 else mp.inertia⟩ }
    org := ⟨if tinyVec org.pos then 0 else org.pos, if tinyMat org.att then 1 else org.att⟩ }
  com := true
  mname := noname
  shapes := shapes

/-- The lines of a key. -/
def lines (k : String) (vs : List (List (Tok K))) : List (Fld K) := vs.map fun v => ⟨k, v⟩

omit [Field K] [LinearOrder K] [IsStrictOrderedRing K] [Zm K] [LawfulZm K] in
theorem mem_lines {k : String} {vs : List (List (Tok K))} {f : Fld K} (h : f ∈ lines k vs) : f.key = k := by
  obtain ⟨v, _, rfl⟩ := List.mem_map.1 h
  rfl

/-- The values of the lines of a link. -/
def posVals (v : Vec3 K) : List (List (Tok K)) := if tinyVec v then [] else [tokVec v]
def attVals (m : Mat3 K) : List (List (Tok K)) := if tinyMat m then [] else [tokMat m]
def massVals (mp : MP K) : List (List (Tok K)) := if mp.mass = 0 then [] else [[.num mp.mass]]
def comVals (mp : MP K) : List (List (Tok K)) := if mp.mass = 0 then [] else posVals mp.com
def inertiaVals (mp : MP K) : List (List (Tok K)) := if mp.mass = 0 then [] else [tokMat mp.inertia]

/-- A section as `outLink` writes it. -/
def secOf (n : String) (t : Option String) (J : List (Fld K)) (org : Frame K) (mp : MP K) (shapes : List String) (R : List (Fld K)) :
    List (Fld K) :=
  lines "name" [[.str n]] ++ lines "jointtype" (t.toList.map fun t => [.str (ztkType t)]) ++ J ++ lines "pos" (posVals org.pos) ++
    lines "att" (attVals org.att) ++ lines "mass" (massVals mp) ++ lines "COM" (comVals mp) ++ lines "inertia" (inertiaVals mp) ++
    lines "shape" (shapes.map fun n => [.str n]) ++ R

theorem phase_zero : Zm.phaseNormalize (0 : K) = 0 :=
  LawfulZm.phase_id 0 (by simpa using (LawfulZm.pi_pos : (0 : K) < Zm.pi)) LawfulZm.pi_pos.le

theorem query_ztkType (j : Roki.Joint K) (t : String) : ∃ p0, (ztkPrp (K := K) (some t)).neutral = some p0 ∧
    j.queryAssign (ztkType t) = some (some { j with prp := p0 }) := by
  have hz : ∀ p : Prp K, p.typeStr = ztkType t → p.fresh = ztkPrp (some t) → ∃ p0, (ztkPrp (K := K) (some t)).neutral = some p0 ∧
      j.queryAssign (ztkType t) = some (some { j with prp := p0 }) := by
    intro p h1 h2
    obtain ⟨p0, h3, h4⟩ := queryAssign_typeStr j p
    exact ⟨p0, by rw [← h2]; exact h3, by rw [← h1]; exact h4⟩
  rw [ztkType] at hz ⊢
  simp only [ztkPrp] at hz ⊢
  split_ifs at hz ⊢
  · exact hz (.revol Dof1.fresh) rfl rfl
  · exact hz (.prism Dof1.fresh) rfl rfl
  · exact hz (.float { dis := 0, vel := 0, acc := 0, trq := 0, att := 0, epf := none, ept := none }) rfl rfl
  · exact hz .fixed rfl rfl

/-- The groups of the section, in the order of the table. -/
def tabGroups (names shapes : List String) (n : String) (t : Option String) (org : Frame K) (mp : MP K) (sh : List String) :
    List (Group (FLink K) K) :=
  (linkTabAll none names shapes).zip [[[.str n]], t.toList.map fun t => [.str (ztkType t)], massVals mp, [], comVals mp,
    inertiaVals mp, posVals org.pos, attVals org.att, sh.map fun n => [.str n]]

/-- The same in the order of the file. -/
def fileGroups (names shapes : List String) (n : String) (t : Option String) (org : Frame K) (mp : MP K) (sh : List String) :
    List (Group (FLink K) K) :=
  [0, 1, 6, 7, 2, 4, 5, 8, 3].filterMap fun i => (tabGroups names shapes n t org mp sh)[i]?

omit [IsStrictOrderedRing K] [LawfulZm K] in
theorem fileGroups_perm (names shapes : List String) (n : String) (t : Option String) (org : Frame K) (mp : MP K) (sh : List String) :
    (fileGroups names shapes n t org mp sh).Perm (tabGroups names shapes n t org mp sh) := by
  have h : [0, 1, 6, 7, 2, 4, 5, 8, 3].Perm (List.range 9) := by decide
  exact h.filterMap _

omit [IsStrictOrderedRing K] [LawfulZm K] in
theorem fileGroups_flds (names shapes : List String) (n : String) (t : Option String) (org : Frame K) (mp : MP K) (sh : List String) :
    (fileGroups names shapes n t org mp sh).flatMap Group.flds =
      lines "name" [[.str n]] ++ lines "jointtype" (t.toList.map fun t => [.str (ztkType t)]) ++ lines "pos" (posVals org.pos) ++
    lines "att" (attVals org.att) ++ lines "mass" (massVals mp) ++ lines "COM" (comVals mp) ++ lines "inertia" (inertiaVals mp) ++
    lines "shape" (sh.map fun n => [.str n]) := by
  have : (fileGroups names shapes n t org mp sh).flatMap Group.flds =
      lines "name" [[.str n]] ++ (lines "jointtype" (t.toList.map fun t => [.str (ztkType t)]) ++ (lines "pos" (posVals org.pos) ++
    (lines "att" (attVals org.att) ++ (lines "mass" (massVals mp) ++ (lines "COM" (comVals mp) ++ (lines "inertia" (inertiaVals mp) ++
    (lines "shape" (sh.map fun n => [.str n]) ++ []))))))) := rfl
  rw [this]
  simp only [List.append_assoc, List.append_nil]

theorem fold_groups (o : Order) (noname : String) (names shapes : List String) (n : String) (t : Option String) (org : Frame K)
    (mp : MP K) (sh : List String) (hn : n ∉ names) (hs : ∀ s ∈ sh, s ∈ shapes) :
    ∃ p0, (ztkPrp (K := K) t).neutral = some p0 ∧ (match o with
      | .file => fileGroups names shapes n t org mp sh
      | .table => tabGroups names shapes n t org mp sh : List (Group (FLink K) K)).foldl (fun r g => rdAll g.1 g.2 r)
        (.ok (linkInit noname)) =
      .ok { readLink noname n mp org sh p0 with com := t.isSome } := by
  obtain ⟨p0, h0, h1⟩ : ∃ p0, (ztkPrp (K := K) t).neutral = some p0 ∧ ∀ (s : FLink K), s.link.joint = ⟨.fixed, 0⟩ → s.com = false →
      rdAll ((linkTab none names)[1]?.getD (shapeRow [])) (t.toList.map fun t => [.str (ztkType t)]) (.ok s) =
        .ok { s with link := { s.link with joint := ⟨p0, 0⟩ }, com := t.isSome } := by
    cases t with
    | none =>
      refine ⟨.fixed, rfl, fun s h h' => ?_⟩
      rw [← h]
      simp [rdAll, ← h']
    | some t =>
      obtain ⟨p0, h0, h1⟩ := query_ztkType (⟨.fixed, 0⟩ : Roki.Joint K) t
      refine ⟨p0, h0, fun s h h' => ?_⟩
      simp [rdAll, linkTab, h, h1]
  refine ⟨p0, h0, ?_⟩
  have hS : ∀ s : FLink K, rdAll (shapeRow shapes) (sh.map fun n => [.str n]) (.ok s) = .ok { s with shapes := s.shapes ++ sh } :=
    rd_shapes shapes sh hs
  have hN : ∀ s : FLink K, rdAll ((linkTab none names)[0]?.getD (shapeRow [])) [[.str n]] (.ok s) =
      .ok { s with link := { s.link with name := n } } := by
    intro s
    simp [rdAll, linkTab, hn]
  have hM : ∀ s : FLink K, s.link.body.mp.mass = 0 → rdAll ((linkTab none names)[2]?.getD (shapeRow [])) (massVals mp) (.ok s) =
      .ok { s with link := { s.link with body := { s.link.body with mp := { s.link.body.mp with mass := mp.mass } } } } := by
    intro s h
    rw [massVals]
    split_ifs with c
    · rw [c, ← h]; rfl
    · rfl
  have hC : ∀ s : FLink K, s.link.body.mp.com = 0 → rdAll ((linkTab none names)[4]?.getD (shapeRow [])) (comVals mp) (.ok s) =
      .ok { s with link := { s.link with body := { s.link.body with mp := { s.link.body.mp with
        com := if mp.mass = 0 then 0 else if tinyVec mp.com then 0 else mp.com } } } } := by
    intro s h
    rw [comVals, posVals]
    split_ifs with c
    · rw [← h]; rfl
    · rw [← h]; rfl
    · rfl
  have hI : ∀ s : FLink K, s.link.body.mp.inertia = 0 → rdAll ((linkTab none names)[5]?.getD (shapeRow [])) (inertiaVals mp) (.ok s) =
      .ok { s with link := { s.link with body := { s.link.body with mp := { s.link.body.mp with
        inertia := if mp.mass = 0 then 0 else mp.inertia } } } } := by
    intro s h
    rw [inertiaVals]
    split_ifs with c
    · rw [← h]; rfl
    · rfl
  have hP : ∀ s : FLink K, s.link.org.pos = 0 → rdAll ((linkTab none names)[6]?.getD (shapeRow [])) (posVals org.pos) (.ok s) =
      .ok { s with link := { s.link with org := { s.link.org with pos := if tinyVec org.pos then 0 else org.pos } } } := by
    intro s h
    rw [posVals]
    split_ifs with c
    · rw [← h]; rfl
    · rfl
  have hA : ∀ s : FLink K, s.link.org.att = 1 → rdAll ((linkTab none names)[7]?.getD (shapeRow [])) (attVals org.att) (.ok s) =
      .ok { s with link := { s.link with org := { s.link.org with att := if tinyMat org.att then 1 else org.att } } } := by
    intro s h
    rw [attVals]
    split_ifs with c
    · rw [← h]; rfl
    · rfl
  have hE : ∀ r : Res (FLink K), rdAll ((linkTab none names)[3]?.getD (shapeRow [])) [] r = r := fun _ => rfl
  cases o with
  | file =>
    change rdAll ((linkTab none names)[3]?.getD (shapeRow [])) [] (rdAll (shapeRow shapes) _
      (rdAll ((linkTab none names)[5]?.getD (shapeRow [])) _ (rdAll ((linkTab none names)[4]?.getD (shapeRow [])) _
      (rdAll ((linkTab none names)[2]?.getD (shapeRow [])) _ (rdAll ((linkTab none names)[7]?.getD (shapeRow [])) _
      (rdAll ((linkTab none names)[6]?.getD (shapeRow [])) _ (rdAll ((linkTab none names)[1]?.getD (shapeRow [])) _
      (rdAll ((linkTab none names)[0]?.getD (shapeRow [])) _ (.ok (linkInit noname)))))))))) = _
    rw [hN, h1 _ rfl rfl, hP _ rfl, hA _ rfl, hM _ rfl, hC _ rfl, hI _ rfl, hS, hE]
    rfl
  | table =>
    change rdAll (shapeRow shapes) _ (rdAll ((linkTab none names)[7]?.getD (shapeRow [])) _
      (rdAll ((linkTab none names)[6]?.getD (shapeRow [])) _ (rdAll ((linkTab none names)[5]?.getD (shapeRow [])) _
      (rdAll ((linkTab none names)[4]?.getD (shapeRow [])) _ (rdAll ((linkTab none names)[3]?.getD (shapeRow [])) [] 
      (rdAll ((linkTab none names)[2]?.getD (shapeRow [])) _ (rdAll ((linkTab none names)[1]?.getD (shapeRow [])) _
      (rdAll ((linkTab none names)[0]?.getD (shapeRow [])) _ (.ok (linkInit noname)))))))))) = _
    rw [hN, h1 _ rfl rfl, hM _ rfl, hE, hC _ rfl, hI _ rfl, hP _ rfl, hA _ rfl, hS]
    rfl

/-! ## The joint -/

/-- What is read from the section of a joint. -/
def ReadJoint0 (x : Option (Joint K)) (p : Prp K) : Prop :=
  match x with
  | none => p = .fixed
  | some x => ∀ t, x.type = some t →
    if t = "revolute" ∨ t = "continuous" then ∃ d : Dof1 K, p = .revol d ∧ d.dis = 0 ∧ d.lo = num x.lower ∧ d.hi = num x.upper ∧
      d.viscosity = (num x.damping).getD 0 ∧ d.coulomb = (num x.friction).getD 0 ∧ d.stiffness = 0 ∧ d.sf = 0 ∧ d.motor = .none
    else if t = "prismatic" then ∃ d : Dof1 K, p = .prism d ∧ d.dis = 0 ∧ d.lo = num x.lower ∧ d.hi = num x.upper ∧
      d.viscosity = (num x.damping).getD 0 ∧ d.coulomb = (num x.friction).getD 0 ∧ d.stiffness = 0 ∧ d.sf = 0 ∧ d.motor = .none
    else if t = "float" then ∃ d : FloatPrp K, p = .float d ∧ d.dis = 0
    else p = .fixed

/-- The same, and the joint is at zero. -/
def ReadJoint (x : Option (Joint K)) (p : Prp K) : Prop := ReadJoint0 x p ∧ Spec.jointFrame p = Frame.ident

omit [IsStrictOrderedRing K] [LawfulZm K] in
theorem rdo_revol {α : Type*} {key : String} {rd0 : Tok K → Option α} {tok0 : α → Tok K} {set : Dof1 K → α → Dof1 K}
    {g0 : Dof1 K → α} {v : Option (List (Tok K))} (x : α) (p : Dof1 K) (n : String) (h0 : v = none → set p x = p)
    (h1 : ∀ ts, v = some ts → ∃ t r, ts = t :: r ∧ rd0 t = some x) :
    rdAll (row1 key rd0 tok0 set g0) v.toList (.ok ⟨.revol p, n⟩) = .ok ⟨.revol (set p x), n⟩ := by
  cases v with
  | none => rw [h0 rfl]; rfl
  | some ts =>
    obtain ⟨t, r, rfl, h⟩ := h1 ts rfl
    simp [rdAll, row1, h]

omit [IsStrictOrderedRing K] [LawfulZm K] in
theorem rdo_prism {α : Type*} {key : String} {rd0 : Tok K → Option α} {tok0 : α → Tok K} {set : Dof1 K → α → Dof1 K}
    {g0 : Dof1 K → α} {v : Option (List (Tok K))} (x : α) (p : Dof1 K) (n : String) (h0 : v = none → set p x = p)
    (h1 : ∀ ts, v = some ts → ∃ t r, ts = t :: r ∧ rd0 t = some x) :
    rdAll (row1 key rd0 tok0 set g0) v.toList (.ok ⟨.prism p, n⟩) = .ok ⟨.prism (set p x), n⟩ := by
  cases v with
  | none => rw [h0 rfl]; rfl
  | some ts =>
    obtain ⟨t, r, rfl, h⟩ := h1 ts rfl
    simp [rdAll, row1, h]

/-- The lines of a joint of one degree of freedom. -/
def jLines (lo hi d f : Option (List (Tok K))) : List (Fld K) :=
  lines "min" lo.toList ++ lines "max" hi.toList ++ lines "viscosity" d.toList ++ lines "coulomb" f.toList

omit [LinearOrder K] [IsStrictOrderedRing K] [Zm K] [LawfulZm K] in
theorem num_of_isNum {v : Option (List (Tok K))} (h : IsNum v) : (v = none ∧ num v = none) ∨ ∃ x r, v = some (.num x :: r) ∧ num v = some x := by
  cases v with
  | none => exact .inl ⟨rfl, rfl⟩
  | some ts =>
    obtain ⟨x, r, rfl⟩ := h ts rfl
    exact .inr ⟨x, r, rfl, rfl⟩

/-- A limit as it is written. -/
def outLim (type : Option String) (v : Option (List (Tok K))) : Option (Option (List (Tok K))) :=
  match v with
  | none => some none
  | some ts => (ztkLimit type ts).map fun v => some [Tok.num v]

theorem joint_out (o : Order) (noname : String) (x : Joint K) (t : String) (ht : x.type = some t) (h1 : IsNum x.lower)
    (h2 : IsNum x.upper) (h3 : IsNum x.damping) (h4 : IsNum x.friction) {lo hi : Option (List (Tok K))}
    (hlo : outLim x.type x.lower = some lo) (hhi : outLim x.type x.upper = some hi) {p0 : Prp K}
    (h0 : (ztkPrp (K := K) (some t)).neutral = some p0) {sec : List (Fld K)}
    (hs : ∀ q : Prp K, known (jointTab [] q) sec = known (jointTab [] q) (jLines lo hi x.damping x.friction)) :
    ∃ p, jointRead o [] sec ⟨p0, noname⟩ = .ok ⟨p, noname⟩ ∧ ReadJoint (some x) p := by
  rw [ht] at hlo hhi
  have hr : ReadJoint0 (some x) = fun p : Prp K => if t = "revolute" ∨ t = "continuous" then ∃ d : Dof1 K, p = .revol d ∧ d.dis = 0 ∧ d.lo = num x.lower ∧ d.hi = num x.upper ∧
      d.viscosity = (num x.damping).getD 0 ∧ d.coulomb = (num x.friction).getD 0 ∧ d.stiffness = 0 ∧ d.sf = 0 ∧ d.motor = .none
    else if t = "prismatic" then ∃ d : Dof1 K, p = .prism d ∧ d.dis = 0 ∧ d.lo = num x.lower ∧ d.hi = num x.upper ∧
      d.viscosity = (num x.damping).getD 0 ∧ d.coulomb = (num x.friction).getD 0 ∧ d.stiffness = 0 ∧ d.sf = 0 ∧ d.motor = .none
    else if t = "float" then ∃ d : FloatPrp K, p = .float d ∧ d.dis = 0
    else p = .fixed := by
    funext p
    rw [ReadJoint0]
    simp only [ht, Option.some.injEq, forall_eq']
  have hn : ∀ q : Prp K, (match q with
      | .fixed => True
      | .float _ => True
      | _ => False) → evalKeys o (jointTab [] q) sec ⟨q, noname⟩ = .ok ⟨q, noname⟩ := by
    intro q hq
    rw [← evalKeys_known, hs, known_none]
    · cases o <;> simp [evalKeys, jointTab]
    · intro f hf hk
      simp only [jLines, List.mem_append] at hf
      have : f.key ∈ ["min", "max", "viscosity", "coulomb"] := by
        rcases hf with ((hf | hf) | hf) | hf <;> rw [mem_lines hf] <;> decide
      cases q with
      | fixed => simp [ZTK.keys, jointTab] at hk
      | float d =>
        simp only [ZTK.keys, jointTab, disRow, List.map_cons, List.map_nil, List.mem_singleton] at hk
        rw [hk] at this
        exact absurd this (by decide)
      | _ => exact hq.elim
  have hgs : ∀ q : Prp K, (match q with
      | .revol _ => True
      | .prism _ => True
      | _ => False) → evalKeys o (jointTab [] q) sec ⟨q, noname⟩ =
        ((jointTab [] q).zip [[], lo.toList, hi.toList, [], x.damping.toList, x.friction.toList, [], []]).foldl
          (fun r g => rdAll g.1 g.2 r) (.ok ⟨q, noname⟩) := by
    intro q hq
    have e1 : jointTab [] q = ((jointTab [] q).zip [[], lo.toList, hi.toList, [], x.damping.toList, x.friction.toList, [], []]).map Prod.fst := by
      cases q with
      | revol d => rfl
      | prism d => rfl
      | _ => exact hq.elim
    have e2 : known (jointTab [] q) (jLines lo hi x.damping x.friction) = jLines lo hi x.damping x.friction := by
      refine known_all fun f hf => ?_
      simp only [jLines, List.mem_append] at hf
      have : ZTK.keys (jointTab [] q) = ["dis", "min", "max", "stiffness", "viscosity", "coulomb", "staticfriction", "motor"] := by
        cases q with
        | revol d => rfl
        | prism d => rfl
        | _ => exact hq.elim
      rw [this]
      rcases hf with ((hf | hf) | hf) | hf <;> rw [mem_lines hf] <;> decide
    conv_lhs => rw [e1]
    refine evalKeys_among o _ ?_ ?_ _
    · have := (jointTab_keys [] q).1
      rw [e1, ZTK.keys, List.map_map] at this
      exact this
    · rw [← e1, hs, e2]
      have : jLines lo hi x.damping x.friction = [] ++ (lines "min" lo.toList ++ (lines "max" hi.toList ++ ([] ++
          (lines "viscosity" x.damping.toList ++ (lines "coulomb" x.friction.toList ++ ([] ++ ([] ++ []))))))) := by
        simp [jLines]
      rw [this]
      cases q with
      | revol d => rfl
      | prism d => rfl
      | _ => exact hq.elim
  rw [jointRead]
  simp only [ReadJoint, hr]
  simp only [ztkPrp] at h0
  have hnum : ∀ (v : Option (List (Tok K))), IsNum v →
      (v = none → num v = none) ∧ ∀ ts, v = some ts → ∃ t r, ts = t :: r ∧ numTok t = some ((num v).getD 0) := by
    intro v hv
    rcases num_of_isNum hv with ⟨rfl, e⟩ | ⟨y, r, rfl, e⟩
    · exact ⟨fun _ => e, by simp⟩
    · refine ⟨by simp, fun ts h => ⟨.num y, r, by simpa using h.symm, ?_⟩⟩
      rw [e]; rfl
  have nil : ∀ (row : Row (FJoint K) K) r, rdAll row [] r = r := fun _ _ => rfl
  by_cases c1 : t = "revolute" ∨ t = "continuous"
  · have hlim : ∀ (b : Bool) (v w : Option (List (Tok K))), IsNum v → outLim (some t) v = some w →
        (w = none → num v = none) ∧ ∀ ts, w = some ts → ∃ t r, ts = t :: r ∧ degTok b t = some (num v) := by
      intro b v w hv hw
      rcases num_of_isNum hv with ⟨rfl, e⟩ | ⟨y, r, rfl, e⟩
      · cases hw
        exact ⟨fun _ => e, by simp⟩
      · simp only [outLim, ztkLimit, if_pos c1, atof, Option.map_some, Option.some.injEq] at hw
        subst hw
        refine ⟨by simp, fun ts h => ⟨.num (rad2deg y), [], by simpa using h.symm, ?_⟩⟩
        rw [e]
        simp [degTok, limTok, deg2rad_rad2deg]
    rw [if_pos c1] at h0
    simp only [if_pos c1]
    simp only [Prp.neutral, Prp.setDis, Option.some.injEq] at h0
    subst h0
    rw [hgs _ trivial]
    let d0 : Dof1 K := { (Dof1.fresh : Dof1 K) with
      dis := limit (Zm.phaseNormalize 0) none none, s := Zm.sin (limit (Zm.phaseNormalize 0) none none), c := Zm.cos (limit (Zm.phaseNormalize 0) none none) }
    refine ⟨.revol { d0 with
      lo := num x.lower, hi := num x.upper, viscosity := (num x.damping).getD 0, coulomb := (num x.friction).getD 0 }, ?_, ⟨_, rfl, by simp [d0, limit, phase_zero], rfl, rfl, rfl, rfl, rfl, rfl, rfl⟩, by
        simp [d0, limit, phase_zero, Spec.jointFrame, LawfulZm.sin_zero, LawfulZm.cos_zero, Spec.Rz, Frame.ident, Mat3.ext_iff, Vec3.ext_iff]⟩
    simp only [jointTab, coef1, List.cons_append, List.nil_append, List.zip_cons_cons, List.zip_nil_left, List.foldl_cons,
      List.foldl_nil, nil]
    rw [rdo_revol (num x.lower) _ _ (fun h => by rw [(hlim true x.lower lo h1 hlo).1 h]; rfl) (hlim true x.lower lo h1 hlo).2,
      rdo_revol (num x.upper) _ _ (fun h => by rw [(hlim false x.upper hi h2 hhi).1 h]; rfl) (hlim false x.upper hi h2 hhi).2,
      rdo_revol ((num x.damping).getD 0) _ _ (fun h => by rw [(hnum x.damping h3).1 h]; rfl) (hnum x.damping h3).2,
      rdo_revol ((num x.friction).getD 0) _ _ (fun h => by rw [(hnum x.friction h4).1 h]; rfl) (hnum x.friction h4).2]
    rfl
  · rw [if_neg c1] at h0
    simp only [if_neg c1]
    by_cases c2 : t = "prismatic"
    · rw [if_pos c2] at h0
      simp only [if_pos c2]
      have hlim : ∀ (b : Bool) (v w : Option (List (Tok K))), IsNum v → outLim (some t) v = some w →
          (w = none → num v = none) ∧ ∀ ts, w = some ts → ∃ t r, ts = t :: r ∧ limTok b t = some (num v) := by
        intro b v w hv hw
        rcases num_of_isNum hv with ⟨rfl, e⟩ | ⟨y, r, rfl, e⟩
        · cases hw
          exact ⟨fun _ => e, by simp⟩
        · simp only [outLim, ztkLimit, if_neg c1, if_pos c2, atof, Option.map_some, Option.some.injEq] at hw
          subst hw
          refine ⟨by simp, fun ts h => ⟨.num y, [], by simpa using h.symm, ?_⟩⟩
          rw [e]
          simp [limTok]
      simp only [Prp.neutral, Prp.setDis, Option.some.injEq] at h0
      subst h0
      rw [hgs _ trivial]
      let d0 : Dof1 K := { (Dof1.fresh : Dof1 K) with dis := limit 0 none none }
      refine ⟨.prism { d0 with
        lo := num x.lower, hi := num x.upper, viscosity := (num x.damping).getD 0, coulomb := (num x.friction).getD 0 }, ?_, ⟨_, rfl, by simp [d0, limit], rfl, rfl, rfl, rfl, rfl, rfl, rfl⟩, by
          simp [d0, limit, Spec.jointFrame]; rfl⟩
      simp only [jointTab, coef1, List.cons_append, List.nil_append, List.zip_cons_cons, List.zip_nil_left, List.foldl_cons,
        List.foldl_nil, nil]
      rw [rdo_prism (num x.lower) _ _ (fun h => by rw [(hlim true x.lower lo h1 hlo).1 h]; rfl) (hlim true x.lower lo h1 hlo).2,
        rdo_prism (num x.upper) _ _ (fun h => by rw [(hlim false x.upper hi h2 hhi).1 h]; rfl) (hlim false x.upper hi h2 hhi).2,
        rdo_prism ((num x.damping).getD 0) _ _ (fun h => by rw [(hnum x.damping h3).1 h]; rfl) (hnum x.damping h3).2,
        rdo_prism ((num x.friction).getD 0) _ _ (fun h => by rw [(hnum x.friction h4).1 h]; rfl) (hnum x.friction h4).2]
      rfl
    · rw [if_neg c2] at h0
      simp only [if_neg c2]
      by_cases c3 : t = "float"
      · rw [if_pos c3] at h0
        simp only [if_pos c3]
        simp only [Prp.neutral, Prp.setDis, Vec6.ofBuf, Option.map_some, Option.some.injEq] at h0
        subst h0
        exact ⟨_, hn _ trivial, ⟨_, rfl, rfl⟩, by
          have := LawfulZm.fromAA_zero (K := K)
          simp only [Spec.jointFrame]
          rw [show (⟨0, 0, 0⟩ : Vec3 K) = 0 from rfl, this]
          rfl⟩
      · rw [if_neg c3] at h0
        simp only [if_neg c3]
        simp only [Prp.neutral, Prp.setDis, Option.some.injEq] at h0
        subst h0
        exact ⟨_, hn _ trivial, rfl, rfl⟩

end Roki.Urdf.Doc
