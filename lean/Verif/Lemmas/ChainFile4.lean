import Verif.Lemmas.ChainFile3
set_option autoImplicit false

/-!
# Lemmas for chain files: the initial pose, and the whole file
-/

namespace Roki.ZTK
open Spec.File Spec.Forest LinkHeap
variable {K : Type*} [Field K] [LinearOrder K] [IsStrictOrderedRing K] [Zm K] [LawfulZm K]

section

/-- A link after the whole file is read. -/
def finLink (noname : String) (l : FLink K) : FLink K :=
  { midLink noname l with link := { (midLink noname l).link with joint := ⟨rest l.link.joint.prp, 0⟩ } }

omit [IsStrictOrderedRing K] [LawfulZm K] in
theorem names_mid (noname : String) (pre ls : List (FLink K)) :
    (pre.map (finLink noname) ++ ls.map (midLink noname)).map (fun l => l.link.name) = (pre ++ ls).map fun l => l.link.name := by
  simp only [List.map_append, List.map_map]
  rfl

theorem initJoint_read (noname : String) : ∀ (ls pre : List (FLink K)) (st : Robot K),
    (∀ l ∈ ls, l.link.joint.prp.setDis l.link.joint.prp.getDis = some l.link.joint.prp) →
    (∀ l ∈ ls, l.link.joint.prp.isNeutral = true → ∀ a ∈ angles l.link.joint.prp, Zm.phaseNormalize a = a) →
    ((pre ++ ls).map fun l => l.link.name).Nodup →
    st.link = pre.map (finLink noname) ++ ls.map (midLink noname) →
    ∃ vs : List (List (Tok K)), initJointPrint ls = some (vs.map fun v => ⟨"joint", v⟩) ∧
      rdAll initJointRow vs (.ok st) = .ok { st with link := (pre ++ ls).map (finLink noname) } := by
  intro ls
  induction ls with
  | nil =>
    intro pre st _ _ _ e
    refine ⟨[], rfl, ?_⟩
    simp only [rdAll, List.foldl_nil]
    congr 1
    cases st
    simp_all
  | cons l ls ih =>
    intro pre st hs ha hn e
    have hs' := hs l (by simp)
    have ha' := ha l (by simp)
    have hfin : ∀ st' : Robot K, st'.link = (pre ++ [l]).map (finLink noname) ++ ls.map (midLink noname) →
        ∃ vs : List (List (Tok K)), initJointPrint ls = some (vs.map fun v => ⟨"joint", v⟩) ∧
        rdAll initJointRow vs (.ok st') = .ok { st' with link := (pre ++ l :: ls).map (finLink noname) } := by
      intro st' h
      have := ih (pre ++ [l]) st' (fun x hx => hs x (List.mem_cons_of_mem _ hx)) (fun x hx => ha x (List.mem_cons_of_mem _ hx))
        (by simpa using hn) h
      simpa using this
    by_cases hz : l.link.joint.prp.size = 0 ∨ l.link.joint.prp.isNeutral = true
    · have hm : midLink noname l = finLink noname l := by
        have := mid_eq_rest hs' ha' hz
        simp only [finLink, midLink, this]
      obtain ⟨vs, h1, h2⟩ := hfin st (by rw [e]; simp [hm])
      exact ⟨vs, by rw [initJointPrint, if_pos hz, h1], h2⟩
    · obtain ⟨v, h1, h2⟩ := disRead_mid hs' fun h => hz (Or.inl h)
      obtain ⟨vs, h3, h4⟩ := hfin { st with link := (pre ++ [l]).map (finLink noname) ++ ls.map (midLink noname) } rfl
      refine ⟨(.str l.link.name :: v) :: vs, ?_, ?_⟩
      · rw [initJointPrint, if_neg hz, h1, h3]
        rfl
      · have hf : st.names.findIdx? (fun m => m == l.link.name) = some pre.length := by
          refine findIdx_name ?_ ?_
          · rw [Robot.names, e, names_mid]
            exact hn
          · rw [Robot.names, e, names_mid]
            simp
        have hl : st.link[pre.length]? = some (midLink noname l) := by
          rw [e, List.getElem?_append_right (by simp)]
          simp
        have hp : (midLink noname l).link.joint.prp = mid l.link.joint.prp := rfl
        have hset : st.link.set pre.length { midLink noname l with link := { (midLink noname l).link with
            joint := { (midLink noname l).link.joint with prp := rest l.link.joint.prp } } } =
            (pre ++ [l]).map (finLink noname) ++ ls.map (midLink noname) := by
          rw [e, List.map_cons, List.set_append_right _ _ (by simp)]
          simp only [List.length_map, Nat.sub_self, List.set_cons_zero, List.map_append, List.map_cons, List.map_nil,
            List.append_assoc, List.cons_append, List.nil_append]
          rfl
        have hrd : initJointRow.rd st (.str l.link.name :: v) =
            .ok { st with link := (pre ++ [l]).map (finLink noname) ++ ls.map (midLink noname) } := by
          simp only [initJointRow, hf, hl, hp, h2, hset]
        have : rdAll initJointRow ((.str l.link.name :: v) :: vs) (.ok st) =
            rdAll initJointRow vs (initJointRow.rd st (.str l.link.name :: v)) := by
          simp [rdAll]
        rw [this, hrd, h4]

omit [Field K] [LinearOrder K] [IsStrictOrderedRing K] [Zm K] [LawfulZm K] in
theorem vecTok_tokVec (v : Vec3 K) : vecTok (tokVec v) = some v := rfl

omit [Field K] [LinearOrder K] [IsStrictOrderedRing K] [Zm K] [LawfulZm K] in
theorem matTok_tokMat (m : Mat3 K) : matTok (tokMat m) = some m := rfl

theorem init_roundtrip (o : Order) (noname : String) (r : Robot K) (hne : r.link ≠ []) (hn : r.names.Nodup)
    (hs : ∀ l ∈ r.link, l.link.joint.prp.setDis l.link.joint.prp.getDis = some l.link.joint.prp)
    (ha : ∀ l ∈ r.link, l.link.joint.prp.isNeutral = true → ∀ a ∈ angles l.link.joint.prp, Zm.phaseNormalize a = a) :
    ∃ d, initPrint r = some d ∧ ∀ st : Robot K, st.link = r.link.map (midLink noname) →
      evalKeys o initTabAll d st = .ok { st with link := r.link.map (finLink noname) } := by
  obtain ⟨vs, h1, -⟩ := initJoint_read noname r.link [] { r with link := r.link.map (midLink noname) } hs ha hn rfl
  obtain ⟨l0, ls, e⟩ := List.exists_cons_of_ne_nil hne
  have h0 : r.link[0]? = some l0 := by rw [e]; rfl
  refine ⟨[⟨"pos", tokVec l0.link.org.pos⟩, ⟨"att", tokMat l0.link.org.att⟩] ++ vs.map fun v => ⟨"joint", v⟩, ?_, fun st hst => ?_⟩
  · rw [initPrint, h1]
    simp only [initTab, printKeys, h0, Option.map_some, Option.bind_some]
  · obtain ⟨vs', h1', h2⟩ := initJoint_read noname r.link [] st hs ha hn hst
    rw [h1] at h1'
    have hv : vs = vs' := by
      have := Option.some.inj h1'
      refine List.map_injective_iff.2 (fun a b hab => ?_) this
      exact (Fld.mk.inj hab).2
    subst hv
    have hg : initTabAll (K := K) = (initTab.zip [[tokVec l0.link.org.pos], [tokMat l0.link.org.att]] ++ [(initJointRow, vs)]).map Prod.fst := rfl
    rw [hg, evalKeys_among o _ (by simp [initTab, initJointRow])]
    · have hz : st.link[0]? = some (midLink noname l0) := by rw [hst, List.getElem?_map, h0]; rfl
      have hset : ∀ f : Frame K → Frame K, f (midLink noname l0).link.org = (midLink noname l0).link.org → modOrg st f = .ok st := by
        intro f hf
        have hs : st.link.set 0 (midLink noname l0) = st.link := by
          rw [hst, e]; rfl
        simp only [modOrg, hz, hf, hs]
      have hp : (initTab (K := K)).zip [[tokVec l0.link.org.pos], [tokMat l0.link.org.att]] =
          [(⟨"pos", fun r ts => match vecTok ts with
            | some v => modOrg r fun f => { f with pos := v }
            | none => .ub, some fun r => r.link[0]?.map fun l => tokVec l.link.org.pos⟩, [tokVec l0.link.org.pos]),
           (⟨"att", fun r ts => match matTok ts with
            | some m => modOrg r fun f => { f with att := m }
            | none => .ub, some fun r => r.link[0]?.map fun l => tokMat l.link.org.att⟩, [tokMat l0.link.org.att])] := rfl
      have e1 : modOrg st (fun f => { f with pos := l0.link.org.pos }) = .ok st := hset _ rfl
      have e2 : modOrg st (fun f => { f with att := l0.link.org.att }) = .ok st := hset _ rfl
      rw [hp, List.cons_append, List.cons_append, List.nil_append]
      simp only [List.foldl_cons, List.foldl_nil, rdAll, Res.andThen_ok, vecTok_tokVec, matTok_tokMat, e1, e2]
      exact h2
    · rw [known_all]
      · simp [initTab, Group.flds, initJointRow]
      · rw [← hg]
        intro f hf
        simp only [List.cons_append, List.nil_append, List.mem_cons, List.mem_map] at hf
        rcases hf with rfl | rfl | ⟨v, _, rfl⟩ <;> simp [keys, initTabAll, initTab, initJointRow]

/-! ## The whole file -/

/-- The parents of the links. -/
def parents (h : List Node) : List (Option ℕ) := h.map fun x => x.parent

theorem parents_get (h : List Node) (i : ℕ) : (parents h)[i]? = h[i]?.map fun x => x.parent := by simp [parents]

theorem mem_ops_parents {h : List Node} {i : ℕ} {x : Node} (hx : h[i]? = some x) (p : ℕ) :
    x.parent = some p ↔ (p, i) ∈ opsFrom 0 (parents h) := by
  rw [mem_opsFrom]
  constructor
  · intro e
    exact ⟨i, by omega, by rw [parents_get, hx, ← e]; rfl⟩
  · rintro ⟨k, rfl, e⟩
    rw [Nat.zero_add] at hx
    rw [parents_get, hx] at e
    simpa using e

/-- A heap that spells a tree is built by the calls that its parents give. -/
theorem build_parents {h : List Node} {n : ℕ} (hl : h.length = n) {c : LTree ℕ} (hr : Rep h none (some 0) (.node 0 c .nil))
    (hp : (LTree.node 0 c .nil).toList.Perm (List.range n)) :
    Proper n (opsFrom 0 (parents h)) ∧ 0 < n ∧ (∀ q, (q, 0) ∉ opsFrom 0 (parents h)) ∧
      ∀ j < n, Below (opsFrom 0 (parents h)) 0 j := by
  have hmem : ∀ j, j ∈ (LTree.node 0 c .nil).toList ↔ j < n := fun j => by rw [hp.mem_iff, List.mem_range]
  have hn : 0 < n := (hmem 0).1 (by simp [LTree.toList])
  have hlen : (parents h).length = n := by simp [parents, hl]
  have hb : ∀ j < n, Below (opsFrom 0 (parents h)) 0 j := fun j hj =>
    below_of_rep (fun i x hx p => mem_ops_parents hx p) hr (fun q hq => by simp at hq)
      (fun _ i hi => by simpa [LTree.sibls] using hi) j ((hmem j).2 hj)
  have h0 : (parents h)[0]? = some none := by
    cases hr with
    | node h1 h2 _ _ => rw [parents_get, h1, Option.map_some, h2]
  refine ⟨?_, hn, fun q hq => ?_, hb⟩
  · have := proper_opsFrom (pars := parents h) (fun k p hk => ?_) h0 (by rwa [hlen])
    · rwa [hlen] at this
    · rw [hlen, ← hmem]
      have hk' := hk
      rw [parents_get] at hk'
      obtain ⟨x, hx, hxp⟩ := Option.map_eq_some_iff.1 hk'
      have hkl : k < n := by rw [← hlen]; exact (List.getElem?_eq_some_iff.1 hk).1
      rcases hr.parent ((hmem k).2 hkl) hx with ⟨h, _⟩ | ⟨q, hq, h⟩
      · rw [hxp] at h; simp at h
      · rw [hxp] at h
        exact Option.some.inj h ▸ hq
  · obtain ⟨k, e, hk⟩ := (mem_opsFrom _ _ _ _).1 hq
    obtain rfl : k = 0 := by omega
    rw [h0] at hk
    simp at hk

/-- Building by parents gives back the parents, and a tree. -/
theorem build_tree {pars : List (Option ℕ)} {n : ℕ} (hl : pars.length = n) (hp : Proper n (opsFrom 0 pars)) (hn : 0 < n)
    (h0 : ∀ q, (q, 0) ∉ opsFrom 0 pars) (hb : ∀ j < n, Below (opsFrom 0 pars) 0 j) :
    ∃ h c, build n (opsFrom 0 pars) = some h ∧ h.length = n ∧ parents h = pars ∧ Rep h none (some 0) (.node 0 c .nil) ∧
      (LTree.node 0 c .nil).toList.Perm (List.range n) ∧
      ∀ i x, h[i]? = some x → Sibs h x.child ((List.range n).filter fun k => pars[k]? = some (some i)) := by
  obtain ⟨h, F, h1, h2⟩ := build_inv n _ hp
  have hF := h2.isForest fun p c => Proper.lt hp
  obtain ⟨x, hx⟩ : ∃ x, h[0]? = some x := ⟨_, List.getElem?_eq_getElem (h2.len.symm ▸ hn)⟩
  have hxp : x.parent = none := by
    rcases hq : x.parent with _ | q
    · rfl
    · exact absurd ((h2.par 0 x hx q).1 hq) (h0 q)
  obtain ⟨c, hc⟩ := h2.root hx hxp
  obtain ⟨r, c', he, hr⟩ := h2.trees _ hc
  obtain ⟨rfl, rfl, _⟩ := LTree.node.inj he
  refine ⟨h, c, h1, h2.len, ?_, hr, ?_, ?_⟩
  · refine List.ext_getElem? fun i => ?_
    rw [parents_get]
    rcases hi : h[i]? with _ | y
    · rw [List.getElem?_eq_none_iff] at hi
      rw [h2.len] at hi
      rw [List.getElem?_eq_none (by omega)]
      rfl
    · have hil : i < pars.length := by rw [hl, ← h2.len]; exact (List.getElem?_eq_some_iff.1 hi).1
      have key : ∀ p, y.parent = some p ↔ pars[i]? = some (some p) := by
        intro p
        rw [h2.par i y hi p, mem_opsFrom]
        simp
      rw [Option.map_some, List.getElem?_eq_getElem hil]
      rw [List.getElem?_eq_getElem hil] at key
      rcases hy : y.parent with _ | p
      · rcases hpi : pars[i] with _ | q
        · rfl
        · have := (key q).2 (by rw [hpi])
          rw [hy] at this
          simp at this
      · exact ((key p).1 hy).symm
  · refine (List.perm_ext_iff_of_nodup (h2.nodup_tree hc) List.nodup_range).2 fun j => ?_
    rw [h2.mem_iff (fun p c => Proper.lt hp) hc j, List.mem_range]
    refine ⟨fun hb => ?_, hb j⟩
    rcases Relation.ReflTransGen.cases_tail hb with rfl | ⟨q, _, hq⟩
    · exact hn
    · exact Proper.lt hp hq
  · intro i x hx
    have := hF.kids i x hx
    rw [kids_opsFrom, hl] at this
    simpa using this

/-- The motors after reading. -/
def restMotors (ms : List (NMotor K)) : List (NMotor K) := ms.map fun m => { m with motor := m.motor.map restMotor }

omit [LinearOrder K] [IsStrictOrderedRing K] [Zm K] [LawfulZm K] in
theorem motorFind_rest {ms : List (NMotor K)} (hn : (ms.map fun m => m.name).Nodup) {m : NMotor K} (hm : m ∈ ms) {name : String}
    (he : m.name = name) {q : Motor K} (hq : m.motor.map restMotor = some (restMotor q)) :
    motorFind (restMotors ms) name = some (some ⟨name, some (restMotor q)⟩) := by
  have hne : restMotors ms ≠ [] := by
    rcases ms with _ | ⟨a, ms⟩
    · simp at hm
    · simp [restMotors]
  rw [motorFind, if_neg hne, Option.some.injEq, restMotors, List.find?_map]
  have hf : ms.find? ((fun m : NMotor K => m.name == name) ∘ fun m => { m with motor := m.motor.map restMotor }) = some m := by
    induction ms with
    | nil => simp at hm
    | cons a ms ih =>
      rw [List.map_cons, List.nodup_cons] at hn
      rw [List.find?_cons]
      rcases List.mem_cons.1 hm with rfl | hm
      · simp [he]
      · have : a.name ≠ name := by
          intro h
          exact hn.1 (List.mem_map.2 ⟨m, hm, by rw [he, h]⟩)
        have hb : (((fun m : NMotor K => m.name == name) ∘ fun m => { m with motor := m.motor.map restMotor }) a) = false := by
          simpa using this
        rw [hb]
        refine ih hn.2 hm ?_
        rcases ms with _ | ⟨b, ms⟩
        · simp at hm
        · simp [restMotors]
  rw [hf, Option.map_some, hq]
  simp [he]

omit [LinearOrder K] [IsStrictOrderedRing K] [Zm K] [LawfulZm K] in
theorem motorFind_absent {ms : List (NMotor K)} (hne : ms ≠ []) {name : String} (hn : ∀ m ∈ ms, m.name ≠ name) :
    motorFind (restMotors ms) name = some none := by
  rw [motorFind, if_neg (by simpa [restMotors] using hne), Option.some.injEq, restMotors, List.find?_map, Option.map_eq_none_iff,
    List.find?_eq_none]
  intro m hm
  simpa using hn m hm

theorem evalTag_one {σ : Type*} (rd : σ → ℕ → List (Fld K) → Res σ) (s : List (Fld K)) (st : σ) :
    evalTag rd 0 [s] st = (rd st 0 s).andThen Res.ok := by
  rw [evalTag]
  cases rd st 0 s <;> rfl

omit [Field K] [LinearOrder K] [IsStrictOrderedRing K] [Zm K] [LawfulZm K] in
theorem shapes_read (l : List String) :
    (l.map fun n => ([⟨"name", [.str n]⟩] : List (Fld K))).mapM shapeName = some l := by
  induction l with
  | nil => rfl
  | cons a l ih => rw [List.map_cons, List.mapM_cons, ih]; rfl

theorem parentName_isSome {r : Robot K} {t : LTree ℕ} {noname : String} (hw : Writable noname r t) {j : ℕ} (hj : j < r.link.length) :
    (parentName r j).isSome := by
  obtain ⟨x, hx⟩ : ∃ x, r.node[j]? = some x := ⟨_, List.getElem?_eq_getElem (hw.size.symm ▸ hj)⟩
  simp only [parentName, hx]
  rcases hp : x.parent with _ | p
  · rfl
  · rcases hw.tree.parent (hw.all.mem_iff.2 (List.mem_range.2 hj)) hx with ⟨h, _⟩ | ⟨q, hq, h⟩
    · rw [hp] at h; simp at h
    · rw [hp] at h
      cases h
      have : p < r.link.length := List.mem_range.1 (hw.all.mem_iff.1 hq)
      simp [List.getElem?_eq_getElem this]

omit [LinearOrder K] [IsStrictOrderedRing K] [Zm K] [LawfulZm K] in
theorem vals_of_known {names : List String} {i : ℕ} {sec : List (Fld K)} :
    vals sec "parent" = (known (parentTab (K := K) names i) sec).map Fld.val := by
  rw [vals, known]
  congr 1
  refine List.filter_congr fun f _ => ?_
  simp only [parentTab, List.any_cons, List.any_nil, Bool.or_false]
  rw [Bool.eq_iff_iff, beq_iff_eq, beq_iff_eq]
  exact eq_comm

/-- What is read from the file that was written. -/
theorem readParts_print (o : Order) (noname : String) (nullStr : Option String) (r : Robot K) (t : LTree ℕ)
    (hw : Writable noname r t) : ∃ f h c, print nullStr r = some f ∧ secs "link" f ≠ [] ∧
      readParts o noname f = some { name := r.name, motors := restMotors r.motors, shapes := r.shapes,
                                    link := r.link.map (finLink noname), node := h } ∧
      h.length = r.link.length ∧ parents h = parents r.node ∧ Rep h none (some 0) (.node 0 c .nil) ∧
      (LTree.node 0 c .nil).toList.Perm (List.range r.link.length) := by
  obtain ⟨c0, rfl⟩ := hw.root
  obtain ⟨g1, g2, g3, g4⟩ := build_parents hw.size hw.tree hw.all
  have hpl : (parents r.node).length = r.link.length := by simp [parents, hw.size]
  obtain ⟨h, c, k1, k2, k3, k4, k5, -⟩ := build_tree hpl g1 g2 g3 g4
  have hne : r.link ≠ [] := by rintro e; rw [e] at g2; simp at g2
  -- the sections
  obtain ⟨b, b1, b2, b3⟩ := motors_roundtrip o noname r.motors hw.typed
  obtain ⟨ss, s1, s2, s3⟩ := linksPrint_ok o noname nullStr r (restMotors r.motors) hw.stuff hw.shapes
    (fun l hl q hq => by
      obtain ⟨h1, ⟨m, hm, h2, h3⟩ | ⟨h2, h3, h4⟩⟩ := hw.drive l hl q hq
      · exact Or.inl (motorFind_rest hw.motors hm h2 h3)
      · exact Or.inr ⟨motorFind_absent h1 (h2 ▸ h4), h3, h2⟩) hw.nodrive r.link 0 (fun l hl => hl)
    (fun j _ hj => parentName_isSome hw (by omega))
  obtain ⟨d, d1, d2⟩ := init_roundtrip o noname r hne hw.names hw.settled hw.normal
  refine ⟨("chain", [⟨"name", [.str r.name]⟩]) :: r.shapes.map (fun n => ("shape", [⟨"name", [.str n]⟩])) ++
    b.map (fun s => ("motor", s)) ++ ss.map (fun s => ("link", s)) ++ [("init", d)], h, c, ?_, ?_, ?_, k2, k3, k4, k5⟩
  · simp only [print, chainTab, printKeys, Option.bind_some, Option.map_some, b1, s1, d1]
  all_goals
    have e0 : (("chain", [⟨"name", [.str r.name]⟩]) :: r.shapes.map (fun n => ("shape", [⟨"name", [.str n]⟩])) ++
      b.map (fun s => ("motor", s)) ++ ss.map (fun s => ("link", s)) ++ [("init", d)] : File K) =
      [[⟨"name", [.str r.name]⟩]].map (fun s => ("chain", s)) ++
      (r.shapes.map fun n => ([⟨"name", [.str n]⟩] : List (Fld K))).map (fun s => ("shape", s)) ++
      b.map (fun s => ("motor", s)) ++ ss.map (fun s => ("link", s)) ++ [d].map (fun s => ("init", s)) := by
      simp [List.map_map, Function.comp_def]
    rw [e0]
    have e1 : secs "link" ([[⟨"name", [.str r.name]⟩]].map (fun s => ("chain", s)) ++
      (r.shapes.map fun n => ([⟨"name", [.str n]⟩] : List (Fld K))).map (fun s => ("shape", s)) ++
      b.map (fun s => ("motor", s)) ++ ss.map (fun s => ("link", s)) ++ [d].map (fun s => ("init", s)) : File K) = ss := by
      simp only [secs_append, secs_same]
      rw [secs_other (by decide), secs_other (by decide), secs_other (by decide), secs_other (by decide)]
      simp
  · rw [e1]
    rintro rfl
    simp at s2
    exact hne (List.length_eq_zero_iff.1 s2.symm)
  · have e2 : secs "motor" ([[⟨"name", [.str r.name]⟩]].map (fun s => ("chain", s)) ++
      (r.shapes.map fun n => ([⟨"name", [.str n]⟩] : List (Fld K))).map (fun s => ("shape", s)) ++
      b.map (fun s => ("motor", s)) ++ ss.map (fun s => ("link", s)) ++ [d].map (fun s => ("init", s)) : File K) = b := by
      simp only [secs_append, secs_same]
      rw [secs_other (by decide), secs_other (by decide), secs_other (by decide), secs_other (by decide)]
      simp
    have e3 : secs "shape" ([[⟨"name", [.str r.name]⟩]].map (fun s => ("chain", s)) ++
      (r.shapes.map fun n => ([⟨"name", [.str n]⟩] : List (Fld K))).map (fun s => ("shape", s)) ++
      b.map (fun s => ("motor", s)) ++ ss.map (fun s => ("link", s)) ++ [d].map (fun s => ("init", s)) : File K) =
        (r.shapes.map fun n => ([⟨"name", [.str n]⟩] : List (Fld K))) := by
      simp only [secs_append, secs_same]
      rw [secs_other (by decide), secs_other (by decide), secs_other (by decide), secs_other (by decide)]
      simp
    have e4 : secs "chain" ([[⟨"name", [.str r.name]⟩]].map (fun s => ("chain", s)) ++
      (r.shapes.map fun n => ([⟨"name", [.str n]⟩] : List (Fld K))).map (fun s => ("shape", s)) ++
      b.map (fun s => ("motor", s)) ++ ss.map (fun s => ("link", s)) ++ [d].map (fun s => ("init", s)) : File K) =
        [[⟨"name", [.str r.name]⟩]] := by
      simp only [secs_append, secs_same]
      rw [secs_other (by decide), secs_other (by decide), secs_other (by decide), secs_other (by decide)]
      simp
    have e5 : secs "init" ([[⟨"name", [.str r.name]⟩]].map (fun s => ("chain", s)) ++
      (r.shapes.map fun n => ([⟨"name", [.str n]⟩] : List (Fld K))).map (fun s => ("shape", s)) ++
      b.map (fun s => ("motor", s)) ++ ss.map (fun s => ("link", s)) ++ [d].map (fun s => ("init", s)) : File K) = [d] := by
      simp only [secs_append, secs_same]
      rw [secs_other (by decide), secs_other (by decide), secs_other (by decide), secs_other (by decide)]
      simp
    rw [readParts, e1, e2, e3, e4, e5, shapes_read, Option.bind_some, b2, b3]
    have hF : List.Forall₂ (fun (l : FLink K) s => ∃ p, LinkSec o noname r (restMotors r.motors) l p s) r.link ss := by
      rw [List.forall₂_iff_get]
      refine ⟨s2.symm, fun i h1 h2 => ?_⟩
      obtain ⟨p, -, hp⟩ := s3 i _ _ (List.getElem?_eq_getElem h1) (List.getElem?_eq_getElem h2)
      exact ⟨p, hp⟩
    have hlink := evalTag_links o noname r (restMotors r.motors) r.link [] ss
      { name := noname, motors := restMotors r.motors, shapes := r.shapes,
        link := List.replicate ss.length (linkInit noname), node := LinkHeap.init ss.length } hF hw.names hw.named rfl rfl rfl
    have hnames : ∀ h0, (Robot.mk noname (restMotors r.motors) r.shapes (r.link.map (midLink noname)) h0).names = r.names := by
      intro h0
      simp only [Robot.names, List.map_map]
      rfl
    have hD : List.Forall₂ (Declares r.names) ss (parents r.node) := by
      rw [List.forall₂_iff_get]
      refine ⟨by rw [s2, hpl], fun i h1 h2 => ?_⟩
      have hi : i < r.link.length := s2 ▸ h1
      have hin : i < r.node.length := hw.size.symm ▸ hi
      obtain ⟨p, hpn, hp⟩ := s3 i _ _ (List.getElem?_eq_getElem hi) (List.getElem?_eq_getElem h1)
      have hv := vals_of_known (K := K) (names := []) (i := 0) (sec := ss[i])
      rw [hp.par] at hv
      rw [Nat.zero_add] at hpn
      simp only [parentName, List.getElem?_eq_getElem hin] at hpn
      have hpi : (parents r.node).get ⟨i, h2⟩ = r.node[i].parent := by simp [parents]
      rw [hpi]
      rcases hq : r.node[i].parent with _ | q
      · rw [hq] at hpn
        cases hpn
        exact hv
      · rw [hq] at hpn
        obtain ⟨l, hl, rfl⟩ := Option.map_eq_some_iff.1 hpn
        exact ⟨l.link.name, by simp [Robot.names, hl], hv⟩
    have hpar := evalTag_parents (K := K) o hw.names ss (parents r.node) 0 (LinkHeap.init ss.length) hD
    have hbuild : (opsFrom 0 (parents r.node)).foldlM (fun h op => addChild h op.1 op.2) (LinkHeap.init ss.length) = some h := by
      rw [s2]
      exact k1
    rw [hbuild] at hpar
    simp only [List.nil_append, List.length_nil] at hlink
    rw [restMotors] at *
    simp only [hlink]
    rw [hnames]
    simp only [hpar, evalTag_one]
    have hch : ∀ st : Robot K, evalKeys o chainTab [⟨"name", [.str r.name]⟩] st = .ok { st with name := r.name } := by
      intro st
      rw [chainTab, evalKeys_single]
      simp [rdAll, vals]
    rw [hch, Res.andThen_ok]
    simp only
    rw [d2 _ rfl, Res.andThen_ok]

end

end Roki.ZTK
