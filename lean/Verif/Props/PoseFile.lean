import Verif.Model.PoseFile
import Verif.Props.Apps
import Verif.Lemmas.ChainFile5
set_option autoImplicit false

/-! # Pose files -/

namespace Roki
open LinkArray Spec ZTK
variable {K : Type*} [Field K] [LinearOrder K] [IsStrictOrderedRing K] [Zm K] [LawfulZm K]

/-- The displacement of a joint is one that was set: within the limits, angles normalised, and the sine, cosine or attitude
that goes with it. -/
def Spec.DisSet (p : Prp K) : Prop := p.setDis p.getDis = some p

/-- Reading what was written of another joint of the type sets its displacement. -/
theorem disRead_disPrint {p q : Prp K} (h : q.typeStr = p.typeStr) (hz : p.size ≠ 0) :
    ∃ v q', disPrint p = some v ∧ disRead q v = some q' ∧ q.setDis p.getDis = some q' := by
  cases p <;> cases q <;> simp [Prp.typeStr] at h <;> first
    | (simp [Prp.size] at hz; done)
    | refine ⟨_, _, rfl, ?_, rfl⟩
  all_goals
    simp [disRead, Prp.setDis, Prp.getDis, deg2rad_rad2deg, vecTok, tokVec, Vec3.toBuf, Vec3.ofBuf, Vec6.ofBuf, Vec6.toBuf]

/-- A joint that gets the displacement of one that is like it makes the same frame. -/
theorem setDis_jointFrame {p q q' : Prp K} (hc : jointConst q = jointConst p) (hp : Spec.DisSet p)
    (h : q.setDis p.getDis = some q') : jointFrame q' = jointFrame p ∧ q'.getDis = p.getDis := by
  obtain ⟨q2, e1, e2, e3⟩ := setDis_const p q p p.getDis hc.symm hp
  rw [h, Option.some.injEq] at e1
  subst e1
  refine ⟨?_, e2⟩
  have := e3 Frame.ident
  rwa [xform_eq, xform_eq, Frame.ident_cascade, Frame.ident_cascade] at this

omit [IsStrictOrderedRing K] [LawfulZm K] in
theorem setDis_vel {p q : Prp K} {v : List K} (h : p.setDis v = some q) : q.getVel = p.getVel ∧ q.getAcc = p.getAcc := by
  cases p <;> rcases v with _ | ⟨a, _ | ⟨b, _ | ⟨c, _ | ⟨d, _ | ⟨e', _ | ⟨f, v⟩⟩⟩⟩⟩⟩ <;>
    simp [Prp.setDis, Vec3.ofBuf, Vec6.ofBuf] at h <;> subst h <;> exact ⟨rfl, rfl⟩

/-- A link as the functions for the pose see it. -/
def flink (l : Link K) : FLink K := ⟨l, true, "", []⟩

/-- What reading does to link `m` if link `l` was written. -/
def loadJoint (l m : Link K) : Link K :=
  if l.joint.prp.size = 0 ∨ l.joint.prp.isNeutral = true then m
  else { m with joint := { m.joint with prp := (m.joint.prp.setDis l.joint.prp.getDis).getD m.joint.prp } }

theorem poseJoint_read : ∀ (ls ms pre : List (Link K)) (st : Robot K),
    List.Forall₂ (fun l m => m.name = l.name ∧ m.joint.prp.typeStr = l.joint.prp.typeStr) ls ms →
    ((pre ++ ms).map fun l => l.name).Nodup → st.link = (pre ++ ms).map flink →
    ∃ vs : List (List (Tok K)), initJointPrint (ls.map flink) = some (vs.map fun v => ⟨"joint", v⟩) ∧
      rdAll initJointRow vs (.ok st) = .ok { st with link := (pre ++ List.zipWith loadJoint ls ms).map flink } := by
  intro ls
  induction ls with
  | nil =>
    intro ms pre st h _ e
    cases h
    refine ⟨[], rfl, ?_⟩
    simp only [rdAll, List.foldl_nil]
    congr 1
    cases st
    simp_all
  | cons l ls ih =>
    intro ms pre st h hn e
    obtain ⟨m, ms, rfl⟩ : ∃ m ms', ms = m :: ms' := by cases h; exact ⟨_, _, rfl⟩
    rw [List.forall₂_cons] at h
    obtain ⟨⟨h1, h2⟩, h3⟩ := h
    have hname : (loadJoint l m).name = m.name := by unfold loadJoint; split_ifs <;> rfl
    have hfin : ∀ st' : Robot K, st'.link = ((pre ++ [loadJoint l m]) ++ ms).map flink →
        ∃ vs : List (List (Tok K)), initJointPrint (ls.map flink) = some (vs.map fun v => ⟨"joint", v⟩) ∧
        rdAll initJointRow vs (.ok st') =
          .ok { st' with link := (pre ++ loadJoint l m :: List.zipWith loadJoint ls ms).map flink } := by
      intro st' h
      have := ih ms (pre ++ [loadJoint l m]) st' h3 (by simpa [hname] using hn) h
      simpa using this
    by_cases hz : l.joint.prp.size = 0 ∨ l.joint.prp.isNeutral = true
    · have hm : loadJoint l m = m := by rw [loadJoint, if_pos hz]
      obtain ⟨vs, a1, a2⟩ := hfin st (by rw [e, hm]; simp)
      refine ⟨vs, ?_, a2⟩
      rw [List.map_cons, initJointPrint, if_pos (by exact hz), a1]
    · obtain ⟨v, q', b1, b2, b3⟩ := disRead_disPrint h2 fun h => hz (Or.inl h)
      have hm : loadJoint l m = { m with joint := { m.joint with prp := q' } } := by
        rw [loadJoint, if_neg hz, b3, Option.getD_some]
      obtain ⟨vs, a1, a2⟩ := hfin { st with link := ((pre ++ [loadJoint l m]) ++ ms).map flink } rfl
      refine ⟨(.str l.name :: v) :: vs, ?_, ?_⟩
      · rw [List.map_cons, initJointPrint, if_neg (by exact hz), a1]
        simp only [flink, b1]
        rfl
      · have hnames : st.names = (pre ++ m :: ms).map fun l => l.name := by
          rw [Robot.names, e, List.map_map]; rfl
        have hf : st.names.findIdx? (fun x => x == l.name) = some pre.length := by
          rw [hnames]
          refine findIdx_name hn ?_
          simp [h1]
        have hl : st.link[pre.length]? = some (flink m) := by
          rw [e, List.getElem?_map, List.getElem?_append_right (le_refl _)]
          simp
        have hset : st.link.set pre.length (flink (loadJoint l m)) = ((pre ++ [loadJoint l m]) ++ ms).map flink := by
          rw [e, List.map_append, List.set_append_right _ _ (by simp)]
          simp
        have hrd : initJointRow.rd st (.str l.name :: v) =
            .ok { st with link := ((pre ++ [loadJoint l m]) ++ ms).map flink } := by
          rw [← hset, hm]
          simp only [initJointRow, hf, hl]
          simp only [flink, b2]
        have : rdAll initJointRow ((.str l.name :: v) :: vs) (.ok st) =
            rdAll initJointRow vs (initJointRow.rd st (.str l.name :: v)) := by
          simp [rdAll]
        rw [this, hrd, a2]
        rfl

theorem pose_read (o : Order) (g : Vec6 K) (c d : Chain K) (l0 m0 : Link K) (ls ms : List (Link K)) (hc : c.link = l0 :: ls)
    (hd : d.link = m0 :: ms) (hn : (d.link.map fun l => l.name).Nodup)
    (h : List.Forall₂ (fun l m => m.name = l.name ∧ m.joint.prp.typeStr = l.joint.prp.typeStr) c.link d.link) :
    ∃ f, posePrint c = some f ∧ poseRead o g f d =
      ({ d with link := List.zipWith loadJoint c.link ({ m0 with org := l0.org } :: ms) } : Chain K).updateFK.bind
        fun c => c.updateID g := by
  have h' : List.Forall₂ (fun l m => m.name = l.name ∧ m.joint.prp.typeStr = l.joint.prp.typeStr) c.link
      ({ m0 with org := l0.org } :: ms) := by
    rw [hc, hd, List.forall₂_cons] at h
    rw [hc, List.forall₂_cons]
    exact h
  obtain ⟨vs, a1, a2⟩ := poseJoint_read c.link ({ m0 with org := l0.org } :: ms) []
    { poseView d with link := ({ m0 with org := l0.org } :: ms).map flink } h' (by rw [hd] at hn; exact hn) rfl
  have hp : posePrint c = some [("init", [⟨"pos", tokVec l0.org.pos⟩, ⟨"att", tokMat l0.org.att⟩] ++ vs.map fun v => ⟨"joint", v⟩)] := by
    have a1' : initJointPrint (poseView c).link = some (vs.map fun v => ⟨"joint", v⟩) := a1
    have h0 : (poseView c).link[0]? = some (flink l0) := by simp [poseView, hc, flink]
    rw [posePrint, initPrint, a1']
    simp only [initTab, printKeys, h0, Option.map_some, Option.bind_some, flink]
  refine ⟨_, hp, ?_⟩
  have hg : initTabAll (K := K) = (initTab.zip [[tokVec l0.org.pos], [tokMat l0.org.att]] ++ [(initJointRow, vs)]).map Prod.fst := rfl
  have key : evalKeys o initTabAll ([⟨"pos", tokVec l0.org.pos⟩, ⟨"att", tokMat l0.org.att⟩] ++ vs.map fun v => ⟨"joint", v⟩)
      (poseView d) = .ok { poseView d with link := (List.zipWith loadJoint c.link ({ m0 with org := l0.org } :: ms)).map flink } := by
    rw [hg, evalKeys_among o _ (by simp [initTab, initJointRow])]
    · have hp : (initTab (K := K)).zip [[tokVec l0.org.pos], [tokMat l0.org.att]] =
          [(⟨"pos", fun r ts => match vecTok ts with
            | some v => modOrg r fun f => { f with pos := v }
            | none => .ub, some fun r => r.link[0]?.map fun l => tokVec l.link.org.pos⟩, [tokVec l0.org.pos]),
           (⟨"att", fun r ts => match matTok ts with
            | some m => modOrg r fun f => { f with att := m }
            | none => .ub, some fun r => r.link[0]?.map fun l => tokMat l.link.org.att⟩, [tokMat l0.org.att])] := rfl
      have e0 : (poseView d).link = flink m0 :: ms.map flink := by simp [poseView, hd, flink]
      have e1 : modOrg (poseView d) (fun f => { f with pos := l0.org.pos }) =
          .ok { poseView d with link := ({ m0 with org := { m0.org with pos := l0.org.pos } } :: ms).map flink } := by
        simp only [modOrg, e0, List.getElem?_cons_zero, List.set_cons_zero, flink, List.map_cons]
      have e2 : modOrg { poseView d with link := ({ m0 with org := { m0.org with pos := l0.org.pos } } :: ms).map flink }
          (fun f => { f with att := l0.org.att }) = .ok { poseView d with link := ({ m0 with org := l0.org } :: ms).map flink } := by
        simp only [modOrg, List.map_cons, List.getElem?_cons_zero, List.set_cons_zero, flink]
      rw [hp, List.cons_append, List.cons_append, List.nil_append]
      simp only [List.foldl_cons, List.foldl_nil, rdAll, Res.andThen_ok, vecTok_tokVec, matTok_tokMat, e1, e2]
      exact a2
    · rw [known_all]
      · simp [initTab, Group.flds, initJointRow]
      · rw [← hg]
        intro f hf
        simp only [List.cons_append, List.nil_append, List.mem_cons, List.mem_map] at hf
        rcases hf with rfl | rfl | ⟨v, _, rfl⟩ <;> simp [ZTK.keys, initTabAll, initTab, initJointRow]
  have hsecs : ∀ x : List (Fld K), secs "init" [("init", x)] = [x] := fun x => by simp [secs]
  rw [poseRead, hsecs]
  simp only [evalTag, key, Res.andThen_ok]
  rw [List.map_map, show (fun l : FLink K => l.link) ∘ flink = id from rfl, List.map_id]

omit [LinearOrder K] [IsStrictOrderedRing K] [Zm K] [LawfulZm K] in
theorem updateFK_total {c : Chain K} (h : c.WF) : ∃ d, c.updateFK = some d := by
  obtain ⟨ls, -, -, e, -, -⟩ := h.downAt (fun st (l : Link K) => l.updateFrame1 st) (fun l => l.body.frame) Frame.ident
  have e' : Chain.updateFrameAt none c.shape Frame.ident c.link = some ls := e
  exact ⟨_, by simp only [Chain.updateFK, Chain.updateFrame, e', Option.map_some]; rfl⟩

/-- The pose depends on the frames of the links with respect to their parents. -/
theorem pose_congr {c d c1 d1 : Chain K} (hc : c.WF) (hs : d.shape = c.shape) (hm : d.mass = c.mass)
    (hl : d.link.map (fun l => (linkFrame l, l.body.mp)) = c.link.map (fun l => (linkFrame l, l.body.mp)))
    (e : c.updateFK = some c1) (e' : d.updateFK = some d1) :
    d1.link.map (fun l => (l.body.frame, l.body.wldCOM)) = c1.link.map (fun l => (l.body.frame, l.body.wldCOM)) ∧
      d1.wldCOM = c1.wldCOM := by
  have len : d.link.length = c.link.length := by simpa using congrArg List.length hl
  have hd : d.WF := ⟨by rw [hs]; exact hc.root, by rw [hs, len]; exact hc.perm⟩
  obtain ⟨-, -, -, -, -, n1, m1⟩ := hc.updateFK e
  obtain ⟨-, -, -, -, -, n2, m2⟩ := hd.updateFK e'
  have hlink : d1.link.map (fun l => (l.body.frame, l.body.wldCOM)) = c1.link.map (fun l => (l.body.frame, l.body.wldCOM)) := by
    refine List.ext_getElem? fun i => ?_
    rw [List.getElem?_map, List.getElem?_map]
    by_cases hi : i < c.link.length
    · obtain ⟨p, q⟩ := LTree.exists_path (hc.mem.2 hi)
      obtain ⟨ms, m, a1, a2, a3⟩ := hc.fk_path e q
      obtain ⟨ms', m', b1, b2, b3⟩ := hd.fk_path e' (by rw [hs]; exact q)
      have hms : ms'.map linkFrame = ms.map linkFrame := by
        have t1 := congrArg (List.map (Option.map linkFrame)) a1
        have t2 := congrArg (List.map (Option.map linkFrame)) b1
        rw [List.map_map, List.map_map] at t1 t2
        have key : p.map (Option.map linkFrame ∘ fun j => d.link[j]?) = p.map (Option.map linkFrame ∘ fun j => c.link[j]?) := by
          refine List.map_congr_left fun j _ => ?_
          have := congrArg (fun x => x[j]?.map Prod.fst) hl
          simpa [Function.comp_def] using this
        rw [t1, t2] at key
        have : (ms'.map linkFrame).map some = (ms.map linkFrame).map some := by simpa [Function.comp_def] using key
        exact List.map_injective_iff.2 (Option.some_injective _) this
      have hm : linkFrame m' = linkFrame m ∧ m'.body.mp = m.body.mp := by
        have := congrArg (fun x => x[i]?) hl
        simpa [a2, b2] using this
      rw [a3, b3, hms, Option.map_some, Option.map_some]
      have hf := updateFrame1_frame m (product (ms.map linkFrame))
      have hf' := updateFrame1_frame m' (product (ms.map linkFrame))
      rw [hm.1] at hf'
      have hw : ∀ (l : Link K) (F : Frame K), (l.updateFrame1 F).body.wldCOM = (l.updateFrame1 F).body.frame.xform l.body.mp.com :=
        fun l F => rfl
      rw [hw, hw, hf, hf', hm.2]
    · rw [List.getElem?_eq_none (by omega), List.getElem?_eq_none (by omega)]
  refine ⟨hlink, ?_⟩
  have k1 := (updateFK_map (fun l : Link K => l.body.mp) (fun _ _ => rfl) e).1
  have k2 := (updateFK_map (fun l : Link K => l.body.mp) (fun _ _ => rfl) e').1
  have k3 : d.link.map (fun l => l.body.mp) = c.link.map (fun l => l.body.mp) := by
    have := congrArg (List.map Prod.snd) hl
    simpa [Function.comp_def] using this
  have hcom : ∀ {x y : Chain K}, x.updateFK = some y → y.wldCOM = LinkArray.calcCOM y.mass y.link := by
    intro x y h
    simp only [Chain.updateFK, Chain.updateFrame, Option.map_map, Option.map_eq_some_iff] at h
    obtain ⟨_, _, rfl⟩ := h
    rfl
  rw [hcom e, hcom e', m1, m2, hm]
  refine calcCOM_map _ _ _ (List.ext_getElem? fun i => ?_)
  have f1 := congrArg (fun x => x[i]?) hlink
  have f2 := congrArg (fun x => x[i]?) (k2.trans (k3.trans k1.symm))
  simp only [List.getElem?_map] at f1 f2 ⊢
  cases h1 : d1.link[i]? <;> cases h2 : c1.link[i]? <;> simp_all

/-- **C84 (partial)** Writing the pose of a chain with `rkChainInitWriteZTK` and reading it with `rkChainInitReadZTK` into the
same chain in any other pose, with the base anywhere: the displacements of all joints, the frames and centres of mass of
all links and the centre of mass of the chain are those of the chain that was written, and the velocities and
accelerations of the joints are kept.  Missing: joints that are neutral (all components tiny) when the pose is written have to be there already,
since they are not written, see `C84_neutral_fails`. -/
theorem C84_pose_partial (o : Order) (g : Vec6 K) (c c1 d : Chain K) (hw : c.WF) (hs : d.shape = c.shape) (hm : d.mass = c.mass)
    (hlen : d.link.length = c.link.length) (hn : (c.link.map fun l => l.name).Nodup)
    (hsame : ∀ (i : ℕ) l m, c.link[i]? = some l → d.link[i]? = some m → m.name = l.name ∧
      jointConst m.joint.prp = jointConst l.joint.prp ∧ (0 < i → m.org = l.org) ∧ m.body.mp = l.body.mp)
    (hset : ∀ l ∈ c.link, Spec.DisSet l.joint.prp) (e : c.updateFK = some c1)
    (hneu : ∀ (i : ℕ) l m, c.link[i]? = some l → d.link[i]? = some m → l.joint.prp.isNeutral = true →
      Spec.DisSet m.joint.prp ∧ m.joint.prp.getDis = l.joint.prp.getDis) :
    ∃ f d', posePrint c = some f ∧ poseRead o g f d = some d' ∧ d'.link.length = d.link.length ∧ d'.wldCOM = c1.wldCOM ∧
      ∀ (i : ℕ) l m l', c1.link[i]? = some l → d.link[i]? = some m → d'.link[i]? = some l' →
        l'.joint.prp.getDis = l.joint.prp.getDis ∧ l'.body.frame = l.body.frame ∧ l'.body.wldCOM = l.body.wldCOM ∧
        l'.joint.prp.getVel = m.joint.prp.getVel ∧ l'.joint.prp.getAcc = m.joint.prp.getAcc := by
  have hpos : 0 < c.link.length := by
    obtain ⟨t, ht⟩ := hw.root
    exact hw.mem.1 (by rw [ht]; simp [LTree.toList])
  obtain ⟨l0, ls, hc⟩ : ∃ l0 ls, c.link = l0 :: ls := List.exists_cons_of_ne_nil (List.ne_nil_of_length_pos hpos)
  obtain ⟨m0, ms, hd⟩ : ∃ m0 ms, d.link = m0 :: ms := List.exists_cons_of_ne_nil (List.ne_nil_of_length_pos (by omega))
  have hrel : List.Forall₂ (fun l m => m.name = l.name ∧ m.joint.prp.typeStr = l.joint.prp.typeStr) c.link d.link := by
    rw [List.forall₂_iff_get]
    refine ⟨hlen.symm, fun i h1 h2 => ?_⟩
    have := hsame i _ _ (List.getElem?_eq_getElem h1) (List.getElem?_eq_getElem h2)
    exact ⟨this.1, congrArg Prod.fst this.2.1⟩
  have hn' : (d.link.map fun l => l.name).Nodup := by
    have : d.link.map (fun l => l.name) = c.link.map fun l => l.name := by
      refine List.ext_getElem (by simp [hlen]) fun i h1 h2 => ?_
      rw [List.getElem_map, List.getElem_map]
      exact (hsame i _ _ (List.getElem?_eq_getElem _) (List.getElem?_eq_getElem _)).1
    rw [this]; exact hn
  obtain ⟨f, hf, hr⟩ := pose_read o g c d l0 m0 ls ms hc hd hn' hrel
  set ns : List (Link K) := List.zipWith loadJoint c.link ({ m0 with org := l0.org } :: ms) with hns
  have hnl : ns.length = c.link.length := by
    rw [hd] at hlen
    simp only [hns, List.length_zipWith, List.length_cons] at hlen ⊢
    omega
  have hget : ∀ (i : ℕ) l m n, c.link[i]? = some l → d.link[i]? = some m → ns[i]? = some n →
      linkFrame n = linkFrame l ∧ n.body.mp = l.body.mp ∧ n.joint.prp.getDis = l.joint.prp.getDis ∧
      n.joint.prp.getVel = m.joint.prp.getVel ∧ n.joint.prp.getAcc = m.joint.prp.getAcc := by
    intro i l m n hl hm hn
    obtain ⟨-, s2, s3, s4⟩ := hsame i l m hl hm
    obtain ⟨m', hm', q1, q2, q3⟩ : ∃ m', ({ m0 with org := l0.org } :: ms)[i]? = some m' ∧ m'.org = l.org ∧ m'.body = m.body ∧
        m'.joint = m.joint := by
      rcases i with _ | i
      · rw [hc] at hl; rw [hd] at hm
        simp only [List.getElem?_cons_zero, Option.some.injEq] at hl hm
        subst hl hm
        exact ⟨_, rfl, rfl, rfl, rfl⟩
      · refine ⟨m, ?_, s3 (by omega), rfl, rfl⟩
        rw [hd] at hm
        simpa using hm
    have hz : n = loadJoint l m' := by
      rw [hns, List.getElem?_zipWith, hl, hm'] at hn
      simpa using hn.symm
    subst hz
    by_cases hcase : l.joint.prp.size = 0 ∨ l.joint.prp.isNeutral = true
    · rw [loadJoint, if_pos hcase]
      have hne : l.joint.prp.isNeutral = true := by
        rcases hcase with h | h
        · cases hp : l.joint.prp <;> rw [hp] at h <;> simp [Prp.size] at h
          rfl
        · exact h
      obtain ⟨d1, d2⟩ := hneu i l m hl hm hne
      have d1' : m.joint.prp.setDis l.joint.prp.getDis = some m.joint.prp := by rw [← d2]; exact d1
      obtain ⟨j1, j2⟩ := setDis_jointFrame s2 (hset l (List.mem_of_getElem? hl)) d1'
      refine ⟨?_, by rw [q2, s4], by rw [q3]; exact j2, by rw [q3], by rw [q3]⟩
      rw [linkFrame, linkFrame, q1, q3, j1]
    · rw [loadJoint, if_neg hcase]
      obtain ⟨v, q', -, -, b3⟩ := disRead_disPrint (congrArg Prod.fst s2 : m.joint.prp.typeStr = _) fun h => hcase (Or.inl h)
      obtain ⟨j1, j2⟩ := setDis_jointFrame s2 (hset l (List.mem_of_getElem? hl)) b3
      have hva := setDis_vel b3
      rw [q3, b3, Option.getD_some]
      exact ⟨by rw [linkFrame, linkFrame]; simp only [q1, j1], by simp only [q2, s4], j2, hva.1, hva.2⟩
  have hnw : ({ d with link := ns } : Chain K).WF := ⟨by rw [hs]; exact hw.root, by rw [hs, hnl]; exact hw.perm⟩
  obtain ⟨d1, hd1⟩ : ∃ d1, ({ d with link := ns } : Chain K).updateFK = some d1 := updateFK_total hnw
  have hd1w : d1.WF := by obtain ⟨-, -, -, h, -⟩ := hnw.updateFK hd1; exact h
  obtain ⟨d2, hd2⟩ := updateID_total hd1w g
  have hmap : ns.map (fun l => (linkFrame l, l.body.mp)) = c.link.map fun l => (linkFrame l, l.body.mp) := by
    refine List.ext_getElem (by simp [hnl]) fun i h1 h2 => ?_
    rw [List.length_map] at h1 h2
    rw [List.getElem_map, List.getElem_map]
    have := hget i _ _ _ (List.getElem?_eq_getElem h2) (List.getElem?_eq_getElem (by omega : i < d.link.length))
      (List.getElem?_eq_getElem h1)
    rw [this.1, this.2.1]
  obtain ⟨p1, p2⟩ := pose_congr hw (d := { d with link := ns }) hs hm hmap e hd1
  obtain ⟨u1, -, u3⟩ := updateID_map (fun l : Link K => (l.body.frame, l.body.wldCOM)) (fun _ _ _ => rfl) (fun _ _ => rfl)
    (fun _ _ => rfl) hd2
  obtain ⟨w1, -, -⟩ := updateID_map (fun l : Link K => (l.joint.prp.getDis, l.joint.prp.getVel, l.joint.prp.getAcc)) (fun _ _ _ => rfl)
    (fun _ _ => rfl) (fun l w => by cases h : l.joint.prp <;> simp [Prp.calcTrq, Prp.getDis, Prp.getVel, Prp.getAcc]) hd2
  have w2 := (updateFK_map (fun l : Link K => (l.joint.prp.getDis, l.joint.prp.getVel, l.joint.prp.getAcc)) (fun _ _ => rfl) hd1).1
  have w3 := (updateFK_map (fun l : Link K => l.joint.prp.getDis) (fun _ _ => rfl) e).1
  have hd2l : d2.link.length = ns.length := by simpa using congrArg List.length (w1.trans w2)
  have hc1l : c1.link.length = c.link.length := by simpa using congrArg List.length w3
  refine ⟨f, d2, hf, by rw [hr, hd1, Option.bind_some, hd2], by omega, u3.trans p2, ?_⟩
  intro i l m l' hl hm hl'
  have hi : i < c.link.length := by
    have := (List.getElem?_eq_some_iff.1 hl).1
    omega
  have hg := hget i _ _ _ (List.getElem?_eq_getElem hi) hm (List.getElem?_eq_getElem (by omega : i < ns.length))
  have x1 := congrArg (fun x => x[i]?) (u1.trans p1)
  have x2 := congrArg (fun x => x[i]?) (w1.trans w2)
  have x3 := congrArg (fun x => x[i]?) w3
  simp only [List.getElem?_map, hl, hl', List.getElem?_eq_getElem hi, List.getElem?_eq_getElem (by omega : i < ns.length),
    Option.map_some, Option.some.injEq, Prod.mk.injEq] at x1 x2 x3
  exact ⟨by rw [x2.1, hg.2.2.1, x3], x1.1, x1.2, by rw [x2.2.1, hg.2.2.2.1], by rw [x2.2.2, hg.2.2.2.2]⟩

/-- **C84 fails** for a joint that is neutral when the pose is written: the file does not have it, and reading the file into the
chain in another pose leaves the joint there. -/
theorem C84_neutral_fails (o : Order) : ∃ (c d d' : Chain ℚ) (f : ZTK.File ℚ), c.fk [1, 0] = some d ∧ posePrint c = some f ∧
    poseRead o 0 f d = some d' ∧ (c.link.map fun l => l.joint.prp.getDis) = [[0], [0]] ∧
    (d'.link.map fun l => l.joint.prp.getDis) = [[1], [0]] := by
  have key : ∀ o : Order, (Sample.sliders.fk [1, 0]).bind (fun d => (posePrint Sample.sliders).bind fun f =>
      (poseRead o 0 f d).map fun d' => ((Sample.sliders.link.map fun l => l.joint.prp.getDis),
        (d'.link.map fun l => l.joint.prp.getDis))) = some ([[0], [0]], [[1], [0]]) := by
    intro o
    cases o <;> decide +kernel
  have := key o
  simp only [Option.bind_eq_some_iff, Option.map_eq_some_iff, Prod.mk.injEq] at this
  obtain ⟨d, h1, f, h2, d', h3, h4, h5⟩ := this
  exact ⟨_, d, d', f, h1, h2, h3, h4, h5⟩

/-- **C84 fails**: a pose file that names an unknown joint is not rejected, and the joints after it are not set. -/
theorem C84_unknown_fails (o : Order) : ∃ d' : Chain ℚ,
    poseRead o 0 [("init", [⟨"joint", [.str "a", .num 1]⟩, ⟨"joint", [.str "x", .num 1]⟩, ⟨"joint", [.str "b", .num 1]⟩])]
      Sample.sliders = some d' ∧ (Sample.sliders.link.map fun l => l.name) = ["a", "b"] ∧
    (d'.link.map fun l => l.joint.prp.getDis) = [[1], [0]] := by
  have key : ∀ o : Order, (poseRead o 0 [("init", [⟨"joint", [.str "a", .num 1]⟩, ⟨"joint", [.str "x", .num 1]⟩,
      ⟨"joint", [.str "b", .num 1]⟩])] Sample.sliders).map (fun d' => (d'.link.map fun l => l.joint.prp.getDis)) =
      some [[1], [0]] := by
    intro o
    cases o <;> decide +kernel
  have := key o
  simp only [Option.map_eq_some_iff] at this
  obtain ⟨d', h1, h2⟩ := this
  exact ⟨d', h1, rfl, h2⟩

/-- A pose with both sliders moved, read into the chain in another pose. -/
example (o : Order) : ((Sample.sliders.fk [1, 2]).bind fun c => (Sample.sliders.fk [3, 0]).bind fun d => (posePrint c).bind fun f =>
    (poseRead o 0 f d).map fun d' => (d'.link.map fun l => (l.joint.prp.getDis, l.body.frame.pos.z))) =
    some [([1], 1), ([2], 3)] := by
  cases o <;> decide +kernel

/-- Two sliders at given displacements. -/
noncomputable def Sample.slid (x y : ℚ) : Chain ℚ :=
  { Sample.sliders with link := LinkArray.setOffset [{ Sample.slider "a" with joint := ⟨.prism (dof1 x 0 0 0 1 none none), 0⟩ },
      { Sample.slider "b" with joint := ⟨.prism (dof1 y 0 0 0 1 none none), 0⟩ }] }

/-- The hypotheses of `C84_pose_partial` hold for the pose `(1, 0)` and a chain at `(3, 0)`. -/
example : (Sample.slid 1 0).WF ∧ ((Sample.slid 1 0).link.map fun l => l.name).Nodup ∧
    (∀ (i : ℕ) l m, (Sample.slid 1 0).link[i]? = some l → (Sample.slid 3 0).link[i]? = some m → m.name = l.name ∧
      jointConst m.joint.prp = jointConst l.joint.prp ∧ (0 < i → m.org = l.org) ∧ m.body.mp = l.body.mp) ∧
    (∀ l ∈ (Sample.slid 1 0).link, Spec.DisSet l.joint.prp) ∧
    (∀ (i : ℕ) l m, (Sample.slid 1 0).link[i]? = some l → (Sample.slid 3 0).link[i]? = some m →
      l.joint.prp.isNeutral = true → Spec.DisSet m.joint.prp ∧ m.joint.prp.getDis = l.joint.prp.getDis) := by
  refine ⟨⟨⟨_, rfl⟩, by decide⟩, by decide, ?_, ?_, ?_⟩
  · rintro (_ | _ | i) l m hl hm <;> cases hl <;> cases hm <;> exact ⟨rfl, rfl, fun _ => rfl, rfl⟩
  · intro l hl
    obtain ⟨i, hi⟩ := List.mem_iff_getElem?.1 hl
    rcases i with _ | _ | i <;> cases hi <;> rfl
  · rintro (_ | _ | i) l m hl hm hn <;> cases hl <;> cases hm
    · exact absurd hn (by decide +kernel)
    · exact ⟨rfl, rfl⟩
end Roki
