import Verif.Lemmas.Conf
import Verif.Spec.Samples
set_option autoImplicit false

/-!
# C56: recording and restoring the configuration of links
-/

namespace Roki
open Spec

namespace Spec

/-- A joint whose cached sines, cosines and attitude are those of its displacement, as setting a displacement leaves it. -/
def Settled (p : Prp ℝ) : Prop := p.setDis p.getDis = some p

/-- What a chain has in common with another one built from the same model file. -/
def confConst (l : Link ℝ) : (String × List (Option ℝ) × List (Option ℝ)) × Frame ℝ := (jointConst l.joint.prp, l.org)

end Spec

namespace Chain

theorem product_snoc {K : Type*} [Field K] (fs : List (Frame K)) (f : Frame K) :
    product (fs ++ [f]) = (product fs).cascade f := by
  rw [product_append]
  congr 1
  exact Frame.cascade_ident f

theorem ms_unique {ls : List (Link ℝ)} {p : List ℕ} {a b : List (Link ℝ)} (ha : p.map (fun j => ls[j]?) = a.map some)
    (hb : p.map (fun j => ls[j]?) = b.map some) : a = b :=
  List.map_injective_iff.2 (Option.some_injective _) (ha.symm.trans hb)

end Chain

open Chain Torsion in
/-- C56: the configuration of the links read from a chain and given to a chain built from the same model restores the
world frames of all the links, and the joint displacements of joints with at most two degrees of freedom, provided that
the first angle of every universal joint is less than a right angle. -/
theorem C56_roundtrip_partial (c d c' : Chain ℝ) (hc : c.WF) (hs : d.shape = c.shape)
    (hk : d.link.map confConst = c.link.map confConst) (hrot : ∀ l ∈ c.link, l.org.att.IsRot)
    (hset : ∀ l ∈ c.link, Settled l.joint.prp)
    (hh : ∀ l ∈ c.link, ∀ q, l.joint.prp = .hooke q → 0 < Real.cos q.dis0) (hc' : c.updateFK = some c') :
    ∃ d' d'', d.setConf c'.getConf = some d' ∧ d'.updateFK = some d'' ∧
      d''.link.map (·.body.frame) = c'.link.map (·.body.frame) ∧
      d'.link.map (·.body.frame) = c'.link.map (·.body.frame) ∧
      ∀ (i : ℕ) (l m : Link ℝ), c.link[i]? = some l → d''.link[i]? = some m → l.joint.prp.size ≤ 2 →
        m.joint.prp.getDis = l.joint.prp.getDis := by
  obtain ⟨cx, ec, -, hst, hpath, hall⟩ := C06_fk_composition c hc
  rw [hc', Option.some.injEq] at ec
  subst ec
  have hlen : c'.link.length = c.link.length := by simpa using congrArg List.length hst
  have hdl : d.link.length = c.link.length := by simpa using congrArg List.length hk
  have hr' := C06_fk_rotation c c' hc hc' fun l hl => ⟨hrot l hl, setDis_WF _ _ _ (hset l hl)⟩
  -- the frames are copied
  have e1 := setConfFrames_eq (fs := c'.link) (fun l hl => (hr' l hl).1) d.link (by omega)
  set ls1 := List.zipWith (fun (l f : Link ℝ) => { l with body := { l.body with frame := f.body.frame } })
    d.link c'.link with hls1
  have n1 : ls1.length = c.link.length := by rw [hls1, List.length_zipWith]; omega
  set F : ℕ → Frame ℝ := fun i => ((c'.link[i]?).map (·.body.frame)).getD Frame.ident with hFdef
  have hF' : ∀ (i : ℕ) (m : Link ℝ), c'.link[i]? = some m → m.body.frame = F i := by
    intro i m hm; simp [hFdef, hm]
  have g1 : ∀ (i : ℕ) (l : Link ℝ), ls1[i]? = some l → ∃ ld lc lc' : Link ℝ, d.link[i]? = some ld ∧ c.link[i]? = some lc ∧ c'.link[i]? = some lc' ∧
      l = { ld with body := { ld.body with frame := lc'.body.frame } } ∧ jointConst ld.joint.prp = jointConst lc.joint.prp ∧
      ld.org = lc.org := by
    intro i l hl
    have hi : i < c.link.length := by rw [← n1]; exact (List.getElem?_eq_some_iff.1 hl).1
    have h1 := List.getElem?_eq_getElem (l := d.link) (i := i) (by omega)
    have h2 := List.getElem?_eq_getElem (l := c.link) (i := i) hi
    have h3 := List.getElem?_eq_getElem (l := c'.link) (i := i) (by omega)
    have hkk : confConst d.link[i] = confConst c.link[i] := by
      have := congrArg (fun x => x[i]?) hk
      simpa [h1, h2] using this
    refine ⟨_, _, _, h1, h2, h3, ?_, congrArg Prod.fst hkk, congrArg Prod.snd hkk⟩
    rw [hls1, List.getElem?_zipWith, h1, h3] at hl
    exact (Option.some.inj hl).symm
  have hF1 : ∀ (i : ℕ) (l : Link ℝ), ls1[i]? = some l → l.body.frame = F i := by
    intro i l hl
    obtain ⟨ld, lc, lc', -, -, h3, rfl, -⟩ := g1 i l hl
    exact hF' i lc' h3
  -- the joint displacements are found
  obtain ⟨ls2, e2, n2, -, v2⟩ := confAt_spec F
    (fun i p => ∀ l, c.link[i]? = some l → (∀ f, p.xform f = l.joint.prp.xform f) ∧
      (l.joint.prp.size ≤ 2 → p.getDis = l.joint.prp.getDis)) c.shape none ls1 hc.nodup hF1 (by simp)
    (fun i hi => by rw [n1]; exact hc.mem.1 hi)
    (by
      intro path i l hp hl
      obtain ⟨ld, lc, lc', h1, h2, h3, rfl, k1, k2⟩ := g1 i l hl
      have hm : lc ∈ c.link := List.mem_iff_getElem?.2 ⟨i, h2⟩
      obtain ⟨⟨ms, hms, hf⟩, -⟩ := hall path i lc' hp h3
      -- the frame of the link from that of its parent
      have hstart : F i = (startFrame F (path.getLast?.or none) ld.org).cascade (jointFrame lc.joint.prp) ∧
          (startFrame F (path.getLast?.or none) ld.org).att.IsRot := by
        rw [← hF' i lc' h3, hf]
        rcases List.eq_nil_or_concat path with rfl | ⟨path0, p, rfl⟩
        · have : ms = [lc] := by
            have := hms
            simp only [List.nil_append, List.map_cons, List.map_nil, h2] at this
            cases ms with
            | nil => simp at this
            | cons a b => cases b <;> simp at this; rw [this]
          subst this
          refine ⟨?_, by simpa [startFrame, k2] using hrot lc hm⟩
          simp only [List.map_cons, List.map_nil, product, startFrame, List.getLast?_nil, Option.none_or, k2]
          exact Frame.cascade_ident _
        · rw [List.concat_eq_append] at hp hms ⊢
          have hp0 := LTree.isPath_prefix hp (by simp)
          have hpl : p < c'.link.length := by
            rw [hlen]; exact hc.mem.1 (hp0.mem p (by simp))
          have h4 := List.getElem?_eq_getElem hpl
          obtain ⟨⟨ms0, hms0, hf0⟩, -⟩ := hall path0 p _ hp0 h4
          have : ms = ms0 ++ [lc] := by
            refine ms_unique (p := path0 ++ [p] ++ [i]) hms ?_
            rw [List.map_append, hms0]
            simp [h2]
          subst this
          have hsf : startFrame F ((path0 ++ [p]).getLast?.or none) ld.org =
              (product (ms0.map linkFrame)).cascade lc.org := by
            simp only [List.getLast?_append, List.getLast?_singleton, Option.some_or, startFrame, k2, ← hF' p _ h4, hf0]
          refine ⟨?_, ?_⟩
          · rw [hsf, List.map_append, List.map_cons, List.map_nil, product_snoc]
            simp only [linkFrame, Frame.cascade_assoc]
          · rw [hsf, ← hf0]
            exact (hr' _ (List.getElem_mem hpl)).1.mul (hrot lc hm)
      obtain ⟨hs1, hs2⟩ := hstart
      have hdev : (startFrame F (path.getLast?.or none) ld.org).xformF (F i) = jointFrame lc.joint.prp := by
        rw [hs1]; exact Frame.xformF_cascade hs2 _
      obtain ⟨t, dis, p', h5, h6, h7, h8⟩ := conf_joint (hset lc hm) (hh lc hm)
      obtain ⟨q2, j1, j2, j3⟩ := setDis_const _ ld.joint.prp _ _ k1.symm h6
      refine ⟨(t, dis), q2, ?_, j1, ?_⟩
      · change ld.joint.prp.torsion ((startFrame F (path.getLast?.or none) ld.org).xformF (F i)) = _
        rw [hdev, torsion_const k1]; exact h5
      · intro l hl'
        rw [h2, Option.some.injEq] at hl'
        subst hl'
        exact ⟨fun f => by rw [j3, h7], fun hz => by rw [j2, h8 hz]⟩)
  have g2 : ∀ (i : ℕ) (m : Link ℝ), ls2[i]? = some m → ∃ lc lc' : Link ℝ, c.link[i]? = some lc ∧ c'.link[i]? = some lc' ∧ m.org = lc.org ∧
      m.body.frame = lc'.body.frame ∧ (∀ f, m.joint.prp.xform f = lc.joint.prp.xform f) ∧
      (lc.joint.prp.size ≤ 2 → m.joint.prp.getDis = lc.joint.prp.getDis) := by
    intro i m hm
    have hi : i < ls1.length := by rw [← n2]; exact (List.getElem?_eq_some_iff.1 hm).1
    have hl := List.getElem?_eq_getElem hi
    obtain ⟨prp, hq, hv⟩ := v2 i (hc.mem.2 (by omega)) _ hl
    obtain ⟨ld, lc, lc', h1, h2, h3, h4, k1, k2⟩ := g1 i _ hl
    rw [hm, Option.some.injEq] at hv
    rw [h4] at hv
    subst hv
    exact ⟨lc, lc', h2, h3, k2, rfl, (hq lc h2).1, (hq lc h2).2⟩
  set d' : Chain ℝ := { d with link := ls2 } with hd'
  have hwf : d'.WF := by
    refine ⟨?_, ?_⟩
    · rw [hd']; simpa [hs] using hc.root
    · rw [hd']; simpa [hs, n2, n1] using hc.perm
  obtain ⟨d'', e3, -, hst2, -, hall2⟩ := C06_fk_composition d' hwf
  have n3 : d''.link.length = ls2.length := by simpa using congrArg List.length hst2
  refine ⟨d', d'', ?_, e3, ?_, ?_, ?_⟩
  · simp only [setConf, getConf, e1, Option.bind_some, hs, e2, Option.map_some, hd']
  · refine List.ext_getElem (by simp; omega) fun i h1 h2 => ?_
    simp only [List.length_map] at h1 h2
    simp only [List.getElem_map]
    obtain ⟨path, hp⟩ := hpath i (by omega)
    have hp2 : IsPath d'.shape (path ++ [i]) := by rw [hd']; simpa [hs] using hp
    obtain ⟨⟨ms2, hms2, hf2⟩, -⟩ := hall2 path i _ hp2 (List.getElem?_eq_getElem h1)
    obtain ⟨⟨ms, hms, hf⟩, -⟩ := hall path i _ hp (List.getElem?_eq_getElem h2)
    rw [hf2, hf]
    congr 1
    have hL : ms2.length = ms.length := by
      have a := congrArg List.length hms2
      have b := congrArg List.length hms
      simp only [List.length_map] at a b
      omega
    refine List.ext_getElem (by simpa using hL) fun k k1 k2 => ?_
    simp only [List.length_map] at k1 k2
    simp only [List.getElem_map]
    have a := congrArg (fun x => x[k]?) hms2
    have b := congrArg (fun x => x[k]?) hms
    have hk' : k < (path ++ [i]).length := by
      have := congrArg List.length hms2
      simp only [List.length_map] at this
      omega
    simp only [List.getElem?_map, List.getElem?_eq_getElem k1, List.getElem?_eq_getElem k2,
      List.getElem?_eq_getElem hk', Option.map_some, Option.some.injEq] at a b
    obtain ⟨lc, -, x1, -, x2, -, x3, -⟩ := g2 _ _ a
    rw [b, Option.some.injEq] at x1
    subst x1
    rw [linkFrame, linkFrame, ← xform_eq, ← xform_eq, x2, x3]
  · refine List.ext_getElem (by simp [hd']; omega) fun i h1 h2 => ?_
    simp only [List.length_map] at h1 h2
    simp only [List.getElem_map]
    obtain ⟨lc, lc', -, y, -, x, -⟩ := g2 i _ (List.getElem?_eq_getElem h1)
    rw [List.getElem?_eq_getElem h2, Option.some.injEq] at y
    subst y
    exact x
  · intro i l m hl hm hz
    have him : i < ls2.length := by rw [← n3]; exact (List.getElem?_eq_some_iff.1 hm).1
    have h2 := List.getElem?_eq_getElem him
    obtain ⟨lc, -, y, -, -, -, -, x⟩ := g2 i _ h2
    rw [hl, Option.some.injEq] at y
    subst y
    rw [← x hz]
    have := congrArg (fun x => (x[i]?).map fun l => l.joint.prp.getDis) hst2
    simpa [hm, h2, hd', eraseFK] using this


/-! ### The code loses the first angle of a universal joint beyond a right angle -/

/-- A single link on a universal joint turned by half a turn about its first axis. -/
noncomputable def Sample.gimbal : Chain ℝ :=
  { link := [Sample.link "gimbal" (.hooke { Sample.dof2 0 0 0 (-1) 0 1 with dis0 := Real.pi }) Sample.mp1 Frame.ident],
    shape := .node 0 .nil .nil, mass := 1, wldCOM := 0, comVel := 0, comAcc := 0 }

theorem Torsion.phase_id' {q : ℝ} (h1 : -Real.pi < q) (h2 : q ≤ Real.pi) : (Zm.phaseNormalize q : ℝ) = q :=
  LawfulZm.phase_id q h1 h2

theorem Chain.single_fk (l : Link ℝ) (c : Chain ℝ) (hl : c.link = [l]) (hs : c.shape = .node 0 .nil .nil) :
    ∃ c' m, c.updateFK = some c' ∧ c'.link = [m] ∧ m.body.frame = linkFrame l := by
  have hw : c.WF := ⟨⟨_, hs⟩, by rw [hs, hl]; exact .refl _⟩
  obtain ⟨c', e, -, hst, -, hall⟩ := C06_fk_composition c hw
  have hlen : c'.link.length = 1 := by simpa [hl] using congrArg List.length hst
  obtain ⟨m, hm⟩ := List.length_eq_one_iff.1 hlen
  refine ⟨c', m, e, hm, ?_⟩
  obtain ⟨⟨ms, hms, hf⟩, -⟩ := hall [] 0 m (by rw [hs]; exact .here _ _ _) (by rw [hm]; rfl)
  have : ms = [l] := Chain.ms_unique (ls := c.link) (p := [] ++ [0]) hms (by rw [hl]; rfl)
  rw [hf, this]
  exact Frame.cascade_ident _

/-- C56 fails for a universal joint turned beyond a right angle about its first axis: restoring the configuration just
read, into the very same chain, moves the link. -/
theorem C56_hooke_fails : ∃ c c' d' d'' : Chain ℝ, c.WF ∧ (∀ l ∈ c.link, l.org.att.IsRot) ∧
    (∀ l ∈ c.link, Settled l.joint.prp) ∧ c.updateFK = some c' ∧ c.setConf c'.getConf = some d' ∧
    d'.updateFK = some d'' ∧ d''.link.map (·.body.frame) ≠ c'.link.map (·.body.frame) := by
  have hpi := Real.pi_pos
  have i1 : (Zm.phaseNormalize Real.pi : ℝ) = Real.pi := Torsion.phase_id' (by linarith) le_rfl
  have i0 : (Zm.phaseNormalize (0 : ℝ) : ℝ) = 0 := Torsion.phase_id' (by linarith) (by linarith)
  have sp : (Zm.sin Real.pi : ℝ) = 0 := Real.sin_pi
  have cp : (Zm.cos Real.pi : ℝ) = -1 := Real.cos_pi
  have s0 : (Zm.sin (0 : ℝ)) = 0 := Real.sin_zero
  have c0 : (Zm.cos (0 : ℝ)) = 1 := Real.cos_zero
  have a1 : (ZAtan.atan2 (0 : ℝ) (-1) : ℝ) = Real.pi := by
    have := Torsion.atan2_phase Real.pi one_pos
    rwa [Real.sin_pi, Real.cos_pi, mul_zero, one_mul, i1] at this
  have a2 : (ZAtan.atan2 (0 : ℝ) 1 : ℝ) = 0 := Complex.arg_one
  set q : Dof2 ℝ := { Sample.dof2 0 0 0 (-1) 0 1 with dis0 := Real.pi } with hq
  have hset : Settled (.hooke q) := by
    simp only [Settled, Prp.getDis, Prp.setDis, hq, Sample.dof2, limit, i1, i0, sp, cp, s0, c0]
  obtain ⟨c', m, e1, h1, h2⟩ := Chain.single_fk _ Sample.gimbal rfl rfl
  have hw : Sample.gimbal.WF := ⟨⟨_, rfl⟩, .refl _⟩
  have hr : ∀ l ∈ Sample.gimbal.link, l.org.att.IsRot := by
    intro l hl
    simp only [Sample.gimbal, List.mem_singleton] at hl
    subst hl; exact Mat3.isRot_one
  have hs : ∀ l ∈ Sample.gimbal.link, Settled l.joint.prp := by
    intro l hl
    simp only [Sample.gimbal, List.mem_singleton] at hl
    subst hl; exact hset
  have hrot := C06_fk_rotation _ c' hw e1 fun l hl => ⟨hr l hl, setDis_WF _ _ _ (hs l hl)⟩
  have hf : m.body.frame = jointFrame (.hooke q) := by
    rw [h2]; exact Frame.ident_cascade _
  have e2 := Chain.setConfFrames_eq (fs := c'.link) (fun l hl => (hrot l hl).1) Sample.gimbal.link (by rw [h1]; rfl)
  have ht : ∃ t, (Prp.hooke q).torsion (jointFrame (.hooke q)) = some (t, [0, Real.pi]) := by
    have m1 : ((Rz q.s0 q.c0).mul (Ry q.s1 q.c1)) = ⟨⟨-1, 0, 0⟩, ⟨0, -1, 0⟩, ⟨0, 0, 1⟩⟩ := by
      simp only [hq, Sample.dof2, Rz, Ry]; vec_ring
    simp only [Prp.torsion, jointFrame, m1, a1, sp, cp, Option.some.injEq, Prod.mk.injEq, exists_eq_left',
      List.cons.injEq, and_true]
    have b1 : (ZAtan.atan2 (-0 : ℝ) (-1 * -1 + 0 * 0) : ℝ) = 0 := by
      norm_num; exact a2
    rw [b1, c0]
    refine ⟨rfl, ?_⟩
    norm_num; exact a1
  obtain ⟨t, ht⟩ := ht
  set q' : Dof2 ℝ := { q with dis0 := 0, dis1 := Real.pi, s0 := 0, c0 := 1, s1 := 0, c1 := -1 } with hq'
  have hsd : (Prp.hooke q).setDis [0, Real.pi] = some (.hooke q') := by
    simp only [Prp.setDis, hq, hq', Sample.dof2, limit, i1, i0, sp, cp, s0, c0]
  set l1 : Link ℝ := { Sample.link "gimbal" (.hooke q) Sample.mp1 Frame.ident with
    body := { (Sample.link "gimbal" (.hooke q) Sample.mp1 Frame.ident).body with frame := m.body.frame } } with hl1
  have e3 : Sample.gimbal.setConf c'.getConf =
      some { Sample.gimbal with link := [{ l1 with joint := { l1.joint with prp := .hooke q' } }] } := by
    have e4 : Chain.confLink none 0 [l1] = some [{ l1 with joint := { l1.joint with prp := .hooke q' } }] := by
      refine Chain.confLink_eq (F := fun _ => jointFrame (.hooke q)) (x := (t, [0, Real.pi])) ?_ (by simp) rfl ?_ hsd
      · intro i l hl
        rcases i with _ | i
        · simp only [List.getElem?_cons_zero, Option.some.injEq] at hl
          subst hl; exact hf
        · simp at hl
      · have : Frame.xformF Frame.ident (jointFrame (.hooke q)) = jointFrame (.hooke q) := by
          have := Frame.xformF_cascade (f := Frame.ident) (Mat3.isRot_one (K := ℝ)) (jointFrame (.hooke q))
          rwa [Frame.ident_cascade] at this
        change (Prp.hooke q).torsion (Frame.xformF Frame.ident (jointFrame (.hooke q))) = _
        rw [this, ht]
    rw [Chain.setConf, Chain.getConf, e2, h1]
    have e6 : Chain.confAt none Sample.gimbal.shape [l1] = some [{ l1 with joint := { l1.joint with prp := .hooke q' } }] := by
      change Chain.confAt none (.node 0 .nil .nil) [l1] = _
      simp only [Chain.confAt, e4]
      rfl
    rw [Option.bind_some]
    change Option.map _ (Chain.confAt none Sample.gimbal.shape [l1]) = _
    rw [e6]
    rfl
  obtain ⟨d'', m', e5, h3, h4⟩ := Chain.single_fk _
    { Sample.gimbal with link := [{ l1 with joint := { l1.joint with prp := .hooke q' } }] } rfl rfl
  refine ⟨_, _, _, _, hw, hr, hs, e1, e3, e5, ?_⟩
  rw [h1, h3]
  simp only [List.map_cons, List.map_nil, ne_eq, List.cons.injEq, and_true]
  intro h
  rw [h4, hf] at h
  have h' := congrArg (fun f => f.att.cy.y) h
  simp only [linkFrame, jointFrame, hl1, Sample.link, Frame.ident_cascade, hq', hq, Sample.dof2, Rz, Ry] at h'
  simp [Mat3.mul, Mat3.mulVec, Vec3.add_y] at h'
  norm_num at h'

/-! ### A case that meets the hypotheses -/

/-- Three links: a fixed root, an arm turned by one radian and a wrist turned by one half of a radian about each axis. -/
noncomputable def Sample.posed : Chain ℝ :=
  { link := [Sample.link "root" .fixed Sample.mp1 Frame.ident,
      Sample.link "arm" (.revol (Sample.dof1 1 0 0 (Real.sin 1) (Real.cos 1) none (some 2))) Sample.mp1 ⟨⟨1, 0, 0⟩, 1⟩,
      Sample.link "wrist" (.hooke { Sample.dof2 0 0 (Real.sin (1 / 2)) (Real.cos (1 / 2)) (Real.sin (1 / 2))
        (Real.cos (1 / 2)) with dis0 := 1 / 2, dis1 := 1 / 2 }) Sample.mp1 ⟨⟨0, 1, 0⟩, 1⟩],
    shape := .node 0 (.node 1 (.node 2 .nil .nil) .nil) .nil, mass := 3, wldCOM := 0, comVel := 0, comAcc := 0 }

/-- The hypotheses of C56 are met by an arm with a bent elbow and wrist. -/
example : Sample.posed.WF ∧ (∀ l ∈ Sample.posed.link, l.org.att.IsRot) ∧
    (∀ l ∈ Sample.posed.link, Settled l.joint.prp) ∧
    (∀ l ∈ Sample.posed.link, ∀ q, l.joint.prp = .hooke q → 0 < Real.cos q.dis0) ∧
    ∃ c', Sample.posed.updateFK = some c' := by
  have hp := Real.two_le_pi
  have i1 : (Zm.phaseNormalize 1 : ℝ) = 1 := Torsion.phase_id' (by linarith) (by linarith)
  have i2 : (Zm.phaseNormalize (1 / 2) : ℝ) = 1 / 2 := Torsion.phase_id' (by linarith) (by linarith)
  have hw : Sample.posed.WF := ⟨⟨_, rfl⟩, .refl _⟩
  have hm : ∀ l ∈ Sample.posed.link, l = Sample.posed.link[0] ∨ l = Sample.posed.link[1] ∨ l = Sample.posed.link[2] := by
    intro l hl
    simpa [Sample.posed] using hl
  refine ⟨hw, ?_, ?_, ?_, (C06_fk_composition _ hw).imp fun c' h => h.1⟩
  · intro l hl
    rcases hm l hl with rfl | rfl | rfl <;> exact Mat3.isRot_one
  · intro l hl
    rcases hm l hl with rfl | rfl | rfl
    · rfl
    · change Prp.setDis (.revol _) [(1 : ℝ)] = _
      simp only [Prp.setDis, i1, Sample.posed, Sample.link, Sample.dof1, limit, List.getElem_cons_succ, List.getElem_cons_zero]
      norm_num
      exact ⟨rfl, rfl⟩
    · change Prp.setDis (.hooke _) [(1 / 2 : ℝ), 1 / 2] = _
      simp only [Prp.setDis, i2, Sample.posed, Sample.link, Sample.dof2, limit, List.getElem_cons_succ, List.getElem_cons_zero]
      rfl
  · intro l hl q hq
    rcases hm l hl with rfl | rfl | rfl
    · exact absurd hq (by simp [Sample.posed, Sample.link])
    · exact absurd hq (by simp [Sample.posed, Sample.link])
    · simp only [Sample.posed, Sample.link, List.getElem_cons_succ, List.getElem_cons_zero, Prp.hooke.injEq] at hq
      subst hq
      refine Real.cos_pos_of_mem_Ioo ⟨?_, ?_⟩ <;> simp only <;> linarith

end Roki
