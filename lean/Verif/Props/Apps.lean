import Verif.Model.Apps
import Verif.Lemmas.FKCNT
import Verif.Lemmas.IKStep
import Verif.Lemmas.IKRat
set_option autoImplicit false

/-! # The tools `rk_fk` and `rk_id` -/

namespace Roki
open LinkArray Spec
variable {K : Type*} [Field K] [LinearOrder K] [Zm K]

/-! ## What forward kinematics keeps -/

theorem setDis_jointConst {p q : Prp K} {v : List K} (h : p.setDis v = some q) : jointConst q = jointConst p := by
  cases p <;> rcases v with _ | ⟨a, _ | ⟨b, _ | ⟨c, _ | ⟨d, _ | ⟨e', _ | ⟨f, v⟩⟩⟩⟩⟩⟩ <;>
    simp [Prp.setDis, Vec3.ofBuf, Vec6.ofBuf] at h <;> subst h <;> rfl

omit [Field K] [LinearOrder K] [Zm K] in
theorem setJointAll_fkConst {set : Prp K → List K → Option (Prp K)}
    (hs : ∀ p v q, set p v = some q → jointConst q = jointConst p) (v : List K) : ∀ {ls ls' : List (Link K)},
    setJointAll set v ls = some ls' → ls'.map fkConst = ls.map fkConst
  | [], ls', h => by simp only [setJointAll, Option.some.injEq] at h; subst h; rfl
  | l :: ls, ls', h => by
    simp only [setJointAll, bind, Option.bind_eq_some_iff, pure, Option.some.injEq] at h
    obtain ⟨l', h1, ls1, h2, rfl⟩ := h
    rw [List.map_cons, List.map_cons, setJointAll_fkConst hs v h2]
    congr 1
    rw [Link.setAtOffset] at h1
    split_ifs at h1
    · obtain ⟨p, hp, rfl⟩ := setWith_eq_some.1 h1
      simp only [fkConst, hs _ _ _ hp]
    · rw [Option.some.injEq] at h1; rw [h1]

/-- Two chains that forward kinematics cannot tell apart. -/
structure SameConst (c d : Chain K) : Prop where
  shape : d.shape = c.shape
  mass : d.mass = c.mass
  link : d.link.map fkConst = c.link.map fkConst

omit [Field K] [LinearOrder K] [Zm K] in
theorem SameConst.refl (c : Chain K) : SameConst c c := ⟨rfl, rfl, rfl⟩
omit [Field K] [LinearOrder K] [Zm K] in
theorem SameConst.trans {c d e : Chain K} (h : SameConst c d) (g : SameConst d e) : SameConst c e :=
  ⟨g.shape.trans h.shape, g.mass.trans h.mass, g.link.trans h.link⟩

omit [LinearOrder K] [Zm K] in
theorem updateFK_const {c d : Chain K} (h : c.updateFK = some d) : SameConst c d := by
  obtain ⟨h1, h2⟩ := ZTK.updateFK_map fkConst (fun _ _ => rfl) h
  simp only [Chain.updateFK, Chain.updateFrame, Option.map_map, Option.map_eq_some_iff] at h
  obtain ⟨ls, -, rfl⟩ := h
  exact ⟨rfl, h2, h1⟩

theorem fk_const {c d : Chain K} {v : List K} (h : c.fk v = some d) : SameConst c d := by
  simp only [Chain.fk, bind, Option.bind_eq_some_iff] at h
  obtain ⟨ls, e, h⟩ := h
  have e1 : SameConst c { c with link := ls } :=
    ⟨rfl, rfl, setJointAll_fkConst (fun _ _ _ => setDis_jointConst) v e⟩
  exact e1.trans (updateFK_const h)

omit [LinearOrder K] [Zm K] in
theorem updateID_const {c d : Chain K} {g : Vec6 K} (h : c.updateID g = some d) : SameConst c d := by
  obtain ⟨h1, h2, -⟩ := ZTK.updateID_map fkConst (fun _ _ _ => rfl) (fun _ _ => rfl)
    (fun l w => by
      have : jointConst (l.joint.prp.calcTrq w) = jointConst l.joint.prp := by cases l.joint.prp <;> rfl
      simp only [fkConst, this]) h
  simp only [Chain.updateID, Chain.updateRate, Chain.updateWrench, bind, Option.bind_eq_some_iff,
    Option.map_eq_some_iff, pure, Option.some.injEq] at h
  obtain ⟨c1, ⟨l1, e1, rfl⟩, c2, ⟨l2, e2, rfl⟩, rfl⟩ := h
  exact ⟨rfl, h2, h1⟩

theorem setDisCNT_jointConst {p q : Prp K} {v : List K} {dt : K} (h : p.setDisCNT v dt = some q) :
    jointConst q = jointConst p := by
  cases p <;> rcases v with _ | ⟨a, _ | ⟨b, _ | ⟨c, _ | ⟨d, _ | ⟨e', _ | ⟨f, v⟩⟩⟩⟩⟩⟩ <;>
    simp [Prp.setDisCNT, Vec3.ofBuf, Vec6.ofBuf] at h <;> subst h <;> rfl

theorem fkCNT_const {c d : Chain K} {g : Vec6 K} {v : List K} {dt : K} (h : c.fkCNT g v dt = some d) : SameConst c d := by
  simp only [Chain.fkCNT, bind, Option.bind_eq_some_iff] at h
  obtain ⟨ls, e, c1, h1, h2⟩ := h
  have e1 : SameConst c { c with link := ls } :=
    ⟨rfl, rfl, setJointAll_fkConst (fun _ _ _ => setDisCNT_jointConst) v e⟩
  exact e1.trans ((updateFK_const h1).trans (updateID_const h2))

/-! ## `rk_fk` -/

theorem fkLoop_spec (zyx : Mat3 K → Vec3 K) (i : ℕ) {c : Chain K} (h : c.WF) (ho : setOffset c.link = c.link)
    (hi : i < c.link.length) : ∀ (seq : List (K × List K)) (_ : ∀ s ∈ seq, s.2.length = jointSize c.link) (t : K)
    (c' : Chain K) (_ : SameConst c c'),
    ∃ log, Apps.fkLoop zyx i seq t c' = some log ∧ log.length = seq.length ∧
      ∀ (k : ℕ) (s : K × List K), seq[k]? = some s → ∃ d l, c.fk s.2 = some d ∧ d.link[i]? = some l ∧
        log[k]? = some ⟨t + ((seq.take k).map Prod.fst).sum, l.body.frame.pos, zyx l.body.frame.att⟩
  | [], _, _, _, _ => ⟨[], rfl, rfl, by simp⟩
  | s :: seq, hd, t, c', hc => by
    obtain ⟨d1, d2, f1, f2, e, -⟩ := C07_fk_history_free c c' h hc.shape hc.mass hc.link ho s.2 (hd s (by simp))
    obtain ⟨log, e1, e2, e3⟩ := fkLoop_spec zyx i h ho hi seq (fun s hs => hd s (by simp [hs])) (t + s.1) d2
      (hc.trans (fk_const f2))
    have hl1 : d1.link.length = c.link.length := by simpa using congrArg List.length (fk_const f1).link
    have hl2 : d2.link.length = d1.link.length := by simpa using (congrArg List.length e).symm
    obtain ⟨l1, g1⟩ : ∃ l, d1.link[i]? = some l := ⟨_, List.getElem?_eq_getElem (by omega)⟩
    obtain ⟨l2, g2⟩ : ∃ l, d2.link[i]? = some l := ⟨_, List.getElem?_eq_getElem (by omega)⟩
    have hr : fkResult l1 = fkResult l2 := by
      have := congrArg (fun x => x[i]?) e
      simpa [g1, g2] using this
    simp only [fkResult, Prod.mk.injEq] at hr
    refine ⟨⟨t, l2.body.frame.pos, zyx l2.body.frame.att⟩ :: log, ?_, by simp [e2], ?_⟩
    · simp only [Apps.fkLoop, f2, Apps.fkOutput, g2, e1, bind, Option.bind_some, Option.map_some, pure]
    · rintro (_ | k) s' hs
      · simp only [List.getElem?_cons_zero, Option.some.injEq] at hs
        subst hs
        exact ⟨d1, l1, f1, g1, by simp [hr.2.2.1]⟩
      · obtain ⟨d, l, a1, a2, a3⟩ := e3 k s' (by simpa using hs)
        refine ⟨d, l, a1, a2, ?_⟩
        rw [List.getElem?_cons_succ, a3]
        simp [add_assoc]

/-- **C80** The log of `rk_fk`: one line for each step of the sequence and in its order, for a sequence of any length.  The
time of a line is the sum of the durations of the steps before it; position and attitude are those that `rkChainFK` on the
chain as it was read gives the link for the vector of this step, so that no step depends on the others. -/
theorem C80_fk_log (zyx : Mat3 K → Vec3 K) (c : Chain K) (h : c.WF) (ho : setOffset c.link = c.link) (i : ℕ)
    (hi : i < c.link.length) (seq : List (K × List K)) (hne : seq ≠ [])
    (hd : ∀ s ∈ seq, s.2.length = jointSize c.link) :
    ∃ log, Apps.rkFk zyx i seq c = some log ∧ log.length = seq.length ∧
      ∀ (k : ℕ) (s : K × List K), seq[k]? = some s → ∃ d l, c.fk s.2 = some d ∧ d.link[i]? = some l ∧
        log[k]? = some ⟨((seq.take k).map Prod.fst).sum, l.body.frame.pos, zyx l.body.frame.att⟩ := by
  rcases seq with _ | ⟨s, seq⟩
  · exact absurd rfl hne
  obtain ⟨d, -, f, -⟩ := C07_fk_history_free c c h rfl rfl rfl ho s.2 (hd s (by simp))
  obtain ⟨log, e1, e2, e3⟩ := fkLoop_spec zyx i h ho hi (s :: seq) hd 0 d (fk_const f)
  refine ⟨log, ?_, e2, fun k s' hs => ?_⟩
  · simp only [Apps.rkFk, List.head?_cons, f, bind, Option.bind_some, e1]
  · simpa using e3 k s' hs

/-- **C80 fails** for an empty sequence: the tool reads the vector of the first step before it looks whether there is one. -/
theorem C80_empty_fails (zyx : Mat3 K → Vec3 K) (c : Chain K) (i : ℕ) : Apps.rkFk zyx i [] c = none := rfl

/-! ## `rk_id` -/

/-- **C81** `rkChainFKCNT` is `rkChainFK` with the given vector, followed by `rkChainID` with the velocities and the
accelerations that `rkChainGetJointVelAll` and `rkChainGetJointAccAll` return afterwards. -/
theorem C81_continuous (c d : Chain K) (g : Vec6 K) (dis : List K) (dt : K) (ho : setOffset c.link = c.link)
    (h : c.fkCNT g dis dt = some d) (buf : List K) (hb : buf.length = jointSize c.link) :
    ∃ vel acc c1, getJointAll Prp.getVel d.link buf = some vel ∧ getJointAll Prp.getAcc d.link buf = some acc ∧
      c.fk dis = some c1 ∧ c1.invDyn g vel acc = some d := by
  have hk := Chain.Op.run_keys (.fkCNT g dis dt) (show (Chain.Op.fkCNT g dis dt).run c = some d from h)
  have hod : setOffset d.link = d.link := setOffset_keys hk.symm ho
  have hz : jointSize d.link = jointSize c.link := keys_sizes hk
  obtain ⟨vel, v1, v2, v3⟩ := C02_get_slices d.link buf hod (hb.trans hz.symm) Prp.getVel (by simp)
  obtain ⟨acc, a1, a2, a3⟩ := C02_get_slices d.link buf hod (hb.trans hz.symm) Prp.getAcc (by simp)
  obtain ⟨c1, e1, e2⟩ := fkCNT_eq (vel := vel) (acc := acc) h (fun l hl hofs => by
    by_cases hs : 0 < l.joint.prp.size
    · have w1 := v3 l hl hs
      have w2 := a3 l hl hs
      simp only [Spec.slice] at w1 w2
      exact ⟨_, _, by rw [← w1]; exact (List.take_append_drop _ _).symm,
        by rw [← w2]; exact (List.take_append_drop _ _).symm⟩
    · have : l.joint.prp.size = 0 := by omega
      have hp : l.joint.prp = .fixed := by cases hp : l.joint.prp <;> simp_all [Prp.size]
      exact ⟨_, _, by rw [hp]; rfl, by rw [hp]; rfl⟩)
  exact ⟨vel, acc, c1, v1, a1, e1, e2⟩
theorem setJointAll_CNT_ok {v : List K} (dt : K) : ∀ {ls ls' : List (Link K)}, setJointAll Prp.setDis v ls = some ls' →
    ∃ ms, setJointAll (fun p v => p.setDisCNT v dt) v ls = some ms
  | [], _, _ => ⟨[], rfl⟩
  | l :: ls, ls', h => by
    simp only [setJointAll, bind, Option.bind_eq_some_iff, pure, Option.some.injEq] at h
    obtain ⟨l', h1, ls1, h2, rfl⟩ := h
    obtain ⟨ms, e⟩ := setJointAll_CNT_ok dt h2
    have key : ∃ m, l.setAtOffset (fun p v => p.setDisCNT v dt) v = some m := by
      rw [Link.setAtOffset] at h1 ⊢
      split_ifs at h1 ⊢
      · obtain ⟨p, hp, rfl⟩ := setWith_eq_some.1 h1
        have : ∃ q, l.joint.prp.setDisCNT (v.drop l.offset.toNat) dt = some q := by
          generalize v.drop l.offset.toNat = w at hp
          generalize l.joint.prp = x at hp
          cases x <;> rcases w with _ | ⟨a, _ | ⟨b, _ | ⟨c, _ | ⟨d, _ | ⟨e', _ | ⟨f, v⟩⟩⟩⟩⟩⟩ <;>
            simp [Prp.setDis, Prp.setDisCNT, Vec3.ofBuf, Vec6.ofBuf] at hp ⊢
        obtain ⟨q, hq⟩ := this
        exact ⟨_, setWith_eq_some.2 ⟨q, hq, rfl⟩⟩
      · exact ⟨_, rfl⟩
    obtain ⟨m, hm⟩ := key
    exact ⟨m :: ms, by simp only [setJointAll, hm, e, bind, Option.bind_some, pure]⟩

omit [LinearOrder K] [Zm K] in
theorem updateID_total {c : Chain K} (h : c.WF) (g : Vec6 K) : ∃ c2, c.updateID g = some c2 := by
  obtain ⟨ls1, T, hT, e1, g1, n1⟩ := h.downAt (fun st (l : Link K) => l.updateRate1 st.1 st.2)
    (fun l => (l.body.vel, l.body.acc)) (0, g)
  have h1 : Chain.WF { c with link := ls1 } := h.with_link n1
  obtain ⟨ls2, T2, hT2, e2, g2, n2⟩ := h1.updateWrenchAt
  refine ⟨({ c with link := ls2 } : Chain K).calcCOMVel.calcCOMAcc, ?_⟩
  have e1' : Chain.updateRateAt none c.shape (0, g) c.link = some ls1 := e1
  have e2' : Chain.updateWrenchAt c.shape ls1 = some ls2 := e2
  simp only [Chain.updateID, Chain.updateRate, e1', Option.map_some, Chain.updateWrench, e2', bind, Option.bind_some, pure]

omit [LinearOrder K] [Zm K] in
theorem setJointRateAll_body {vel acc : List K} : ∀ {ls ls' : List (Link K)}, setJointRateAll vel acc ls = some ls' →
    ls'.map (fun l => l.body) = ls.map fun l => l.body
  | [], ls', h => by simp only [setJointRateAll, Option.some.injEq] at h; rw [← h]
  | l :: ls, ls', h => by
    simp only [setJointRateAll, bind, Option.bind_eq_some_iff, pure, Option.some.injEq] at h
    obtain ⟨m, h1, l', h2, ls1, h3, rfl⟩ := h
    rw [List.map_cons, List.map_cons, setJointRateAll_body h3]
    congr 1
    have : RateOf vel acc l l' := by unfold RateOf; rw [h1]; exact h2
    rw [this.prp.2]

/-- Continuous forward kinematics is defined on every well-formed chain. -/
theorem fkCNT_exists {c : Chain K} (h : c.WF) (ho : setOffset c.link = c.link) {dis : List K}
    (hd : dis.length = jointSize c.link) (g : Vec6 K) (dt : K) : ∃ d, c.fkCNT g dis dt = some d ∧ d.WF ∧
      keys d.link = keys c.link := by
  obtain ⟨ls0, e0⟩ := setJointAll_ok ho hd
  obtain ⟨ls, e⟩ := setJointAll_CNT_ok dt e0
  have w : Chain.WF { c with link := ls } := h.with_link (setJointAll_getElem e 0).2
  obtain ⟨u, T, -, x, -, n⟩ := w.downAt (fun pwf (l : Link K) => l.updateFrame1 pwf) (fun l => l.body.frame) Frame.ident
  have x' : Chain.updateFrameAt none c.shape Frame.ident ls = some u := x
  have w1 : Chain.WF (Chain.calcCOM { c with link := u }) := by
    have := w.with_link n
    exact ⟨this.root, this.perm⟩
  obtain ⟨d, hd⟩ := updateID_total w1 g
  obtain ⟨-, -, -, wd, -⟩ := w1.updateID hd
  have hh : c.fkCNT g dis dt = some d := by
    simp only [Chain.fkCNT, e, Chain.updateFK, Chain.updateFrame, x', bind, Option.bind_some, Option.map_some, hd]
  exact ⟨d, hh, wd, Chain.Op.run_keys (.fkCNT g dis dt) hh⟩

namespace Spec
/-- What the log of `rk_id` should be: `st k` is the chain before step `k`, starting from the pose of the first step; each
step is a continuous forward kinematics; each line has the sum of the durations of the steps before it, and the centre
of mass, its velocity, its acceleration (without gravity), the zero moment point, the attitude of the base, the angular
momentum about the centre of mass and the joint torques of the chain after the step. -/
structure IDRun (zyx : Mat3 K → Vec3 K) (z : K) (g : Vec6 K) (seq : List (K × List K)) (c : Chain K)
    (log : List (Apps.IDLine K)) (st : ℕ → Chain K) : Prop where
  length : log.length = seq.length
  first : ∀ s, seq[0]? = some s → c.fk s.2 = some (st 0)
  step : ∀ (k : ℕ) s, seq[k]? = some s → (st k).fkCNT g s.2 s.1 = some (st (k + 1))
  line : ∀ (k : ℕ) s, seq[k]? = some s → ∃ root o, (st (k + 1)).link[0]? = some root ∧ log[k]? = some o ∧
    o.t = ((seq.take k).map Prod.fst).sum ∧ o.com = (st (k + 1)).wldCOM ∧ o.comVel = (st (k + 1)).comVel ∧
    o.comAcc = (st (k + 1)).comAcc - g.lin ∧ o.zmp = LinkArray.zmp root z ∧ o.zyx = zyx root.body.frame.att ∧
    o.am = LinkArray.am (st (k + 1)).link (st (k + 1)).wldCOM ∧
    ∀ buf, buf.length = jointSize c.link → getJointAll Prp.getTrq (st (k + 1)).link buf = some o.trq
end Spec

theorem idLoop_spec (zyx : Mat3 K → Vec3 K) (z : K) (g : Vec6 K) (n : ℕ) : ∀ (seq : List (K × List K))
    (_ : ∀ s ∈ seq, s.2.length = n) (t : K) (c : Chain K) (_ : c.WF) (_ : 0 < c.link.length) (_ : setOffset c.link = c.link)
    (_ : jointSize c.link = n) (trq : List K) (_ : trq.length = n),
    ∃ (log : List (Apps.IDLine K)) (st : ℕ → Chain K), Apps.idLoop zyx z g seq t c trq = some log ∧ log.length = seq.length ∧ st 0 = c ∧
      (∀ (k : ℕ) s, seq[k]? = some s → (st k).fkCNT g s.2 s.1 = some (st (k + 1))) ∧
      ∀ (k : ℕ) s, seq[k]? = some s → ∃ root o, (st (k + 1)).link[0]? = some root ∧ log[k]? = some o ∧
        o.t = t + ((seq.take k).map Prod.fst).sum ∧ o.com = (st (k + 1)).wldCOM ∧ o.comVel = (st (k + 1)).comVel ∧
        o.comAcc = (st (k + 1)).comAcc - g.lin ∧ o.zmp = LinkArray.zmp root z ∧ o.zyx = zyx root.body.frame.att ∧
        o.am = LinkArray.am (st (k + 1)).link (st (k + 1)).wldCOM ∧
        ∀ buf, buf.length = n → getJointAll Prp.getTrq (st (k + 1)).link buf = some o.trq
  | [], _, _, c, _, _, _, _, _, _ => ⟨[], fun _ => c, rfl, rfl, rfl, by simp, by simp⟩
  | s :: seq, hd, t, c, h, hp, ho, hn, trq, ht => by
    obtain ⟨d, e, wd, hk⟩ := fkCNT_exists h ho ((hd s (by simp)).trans hn.symm) g s.1
    have hod : setOffset d.link = d.link := setOffset_keys hk.symm ho
    have hz : jointSize d.link = n := (keys_sizes hk).trans hn
    have hpd : 0 < d.link.length := by rw [keys_length hk]; exact hp
    have gt : ∀ buf : List K, buf.length = n → getJointAll Prp.getTrq d.link buf =
        some (d.link.map fun l => l.joint.prp.getTrq).flatten :=
      fun buf hb => getJointAll_eq _ getTrq_length d.link hod buf (hb.trans hz.symm)
    have gl : (d.link.map fun l => l.joint.prp.getTrq).flatten.length = n := by
      rw [← hz, jointSize_eq, List.length_flatten, List.map_map]
      simp [sizes, Function.comp_def, getTrq_length]
    obtain ⟨log, st, a1, a2, a3, a4, a5⟩ := idLoop_spec zyx z g n seq (fun s hs => hd s (by simp [hs])) (t + s.1) d wd hpd
      hod hz _ gl
    obtain ⟨root, hroot⟩ : ∃ l, d.link[0]? = some l := ⟨_, List.getElem?_eq_getElem hpd⟩
    refine ⟨⟨t, d.wldCOM, d.comVel, d.comAcc - g.lin, LinkArray.zmp root z, zyx root.body.frame.att,
        LinkArray.am d.link d.wldCOM, (d.link.map fun l => l.joint.prp.getTrq).flatten⟩ :: log,
      fun k => match k with | 0 => c | k + 1 => st k, ?_, ?_, rfl, ?_, ?_⟩
    · simp only [Apps.idLoop, e, Apps.idOutput, hroot, gt trq ht, a1, bind, Option.bind_some, pure]
    · simp [a2]
    · rintro (_ | k) s' hs
      · simp only [List.getElem?_cons_zero, Option.some.injEq] at hs
        subst hs
        simp only [a3, e]
      · exact a4 k s' (by simpa using hs)
    · rintro (_ | k) s' hs
      · simp only [List.getElem?_cons_zero, Option.some.injEq] at hs
        subst hs
        simp only [a3]
        exact ⟨root, _, hroot, List.getElem?_cons_zero, by simp, rfl, rfl, rfl, rfl, rfl, rfl, gt⟩
      · obtain ⟨r, o, b1, b2, b3, b4⟩ := a5 k s' (by simpa using hs)
        exact ⟨r, o, b1, by simpa using b2, by rw [b3]; simp [add_assoc], b4⟩

/-- **C81** The log of `rk_id`, for a sequence of any length: one line for each step and in its order, with the values of
`Spec.IDRun`. -/
theorem C81_id_log (zyx : Mat3 K → Vec3 K) (z : K) (g : Vec6 K) (c : Chain K) (h : c.WF)
    (ho : setOffset c.link = c.link) (hp : 0 < c.link.length) (seq : List (K × List K)) (hne : seq ≠ [])
    (hd : ∀ s ∈ seq, s.2.length = jointSize c.link) :
    ∃ log st, Apps.rkId zyx z g seq c = some log ∧ Spec.IDRun zyx z g seq c log st := by
  rcases seq with _ | ⟨s, seq⟩
  · exact absurd rfl hne
  obtain ⟨d, -, f, -⟩ := C07_fk_history_free c c h rfl rfl rfl ho s.2 (hd s (by simp))
  have hk := Chain.Op.run_keys (.fk s.2) (show (Chain.Op.fk s.2).run c = some d from f)
  have wd : d.WF := by
    have := fk_const f
    have hl : d.link.length = c.link.length := by simpa using congrArg List.length this.link
    have := h.with_link hl
    exact ⟨by rw [(fk_const f).shape]; exact this.root, by rw [(fk_const f).shape]; exact this.perm⟩
  obtain ⟨log, st, a1, a2, a3, a4, a5⟩ := idLoop_spec zyx z g (jointSize c.link) (s :: seq) hd 0 d wd
    (by rw [keys_length hk]; exact hp) (setOffset_keys hk.symm ho) (keys_sizes hk)
    (List.replicate (jointSize c.link) 0) (by simp)
  refine ⟨log, st, ?_, a2, ?_, a4, ?_⟩
  · simp only [Apps.rkId, List.head?_cons, f, bind, Option.bind_some, a1]
  · intro s' hs
    simp only [List.getElem?_cons_zero, Option.some.injEq] at hs
    subst hs
    rw [a3]; exact f
  · intro k s' hs
    simpa using a5 k s' hs

/-- **C81** The poses that `rk_id` logs are those of `rk_fk`: the centre of mass and the attitude of the base in a line are
those of `rkChainFK` with the vector of this step on the chain as it was read, whatever the steps before it. -/
theorem C81_id_pose (zyx : Mat3 K → Vec3 K) (z : K) (g : Vec6 K) (c : Chain K) (h : c.WF)
    (ho : setOffset c.link = c.link) (seq : List (K × List K)) (hd : ∀ s ∈ seq, s.2.length = jointSize c.link)
    (log : List (Apps.IDLine K)) (st : ℕ → Chain K) (hr : Spec.IDRun zyx z g seq c log st) (k : ℕ) (s : K × List K)
    (hs : seq[k]? = some s) : ∃ d o root, c.fk s.2 = some d ∧ log[k]? = some o ∧ o.com = d.wldCOM ∧
      d.link[0]? = some root ∧ o.zyx = zyx root.body.frame.att := by
  have hst : ∀ k : ℕ, k < seq.length → SameConst c (st k) := by
    intro k
    induction k with
    | zero => intro hk; exact fk_const (hr.first _ (List.getElem?_eq_getElem hk))
    | succ k ih => intro hk; exact (ih (by omega)).trans (fkCNT_const (hr.step k _ (List.getElem?_eq_getElem (by omega))))
  have hk : k < seq.length := (List.getElem?_eq_some_iff.1 hs).1
  have hc := hst k hk
  have hw : (st k).WF := ⟨by rw [hc.shape]; exact h.root, by
    rw [hc.shape]
    have : (st k).link.length = c.link.length := by simpa using congrArg List.length hc.link
    rw [this]; exact h.perm⟩
  have hob : setOffset (st k).link = (st k).link := by
    refine setOffset_keys (ls := c.link) ?_ ho
    have : ∀ ls : List (Link K), keys ls = (ls.map fkConst).map fun x =>
        ((if x.1.1 = "fixed" then 0 else if x.1.1 = "revolute" ∨ x.1.1 = "prismatic" then 1 else
          if x.1.1 = "cylindrical" ∨ x.1.1 = "hooke" then 2 else if x.1.1 = "spherical" then 3 else 6), x.2.1) := by
      intro ls
      simp only [keys, List.map_map]
      refine List.map_congr_left fun l _ => ?_
      cases hp : l.joint.prp <;> simp [Link.key, fkConst, jointConst, hp, Prp.typeStr, Prp.size]
    rw [this, this, hc.link]
  obtain ⟨d1, d2, f1, f2, e1, e2⟩ := C07_fk_history_free c (st k) h hc.shape hc.mass hc.link ho s.2
    (hd s (List.mem_of_getElem? hs))
  obtain ⟨vel, acc, c1, -, -, g1, g2⟩ := C81_continuous (st k) (st (k + 1)) g s.2 s.1 hob (hr.step k s hs)
    (List.replicate (jointSize (st k).link) 0) (by simp)
  rw [f2, Option.some.injEq] at g1
  subst g1
  simp only [Chain.invDyn, bind, Option.bind_eq_some_iff] at g2
  obtain ⟨ls, s1, s2⟩ := g2
  obtain ⟨t1, -, t2⟩ := ZTK.updateID_map (fun l => l.body.frame) (fun _ _ _ => rfl) (fun _ _ => rfl) (fun _ _ => rfl) s2
  have t3 := congrArg (List.map Body.frame) (setJointRateAll_body s1)
  simp only [List.map_map, Function.comp_def] at t3
  obtain ⟨root, o, r1, r2, r3, r4, -, -, -, r5, -⟩ := hr.line k s hs
  have e3 : d1.link[0]?.map (fun l => l.body.frame) = some root.body.frame := by
    have a1 := congrArg (fun x => (x[0]?).map fun y => y.2.2.1) e1
    have a2 := congrArg (fun x => x[0]?) (t1.trans t3)
    simp only [List.getElem?_map, Option.map_map, r1, Option.map_some] at a1 a2
    rw [a2]
    exact a1
  obtain ⟨root1, hr1, hr2⟩ := Option.map_eq_some_iff.1 e3
  exact ⟨d1, o, root1, f1, r2, by rw [r4, t2, e2], hr1, by rw [r5, hr2]⟩

section
variable [IsStrictOrderedRing K] [LawfulZm K]

omit [Field K] [IsStrictOrderedRing K] [LawfulZm K] in
theorem limDis_take (p : Prp K) (v : List K) : p.limDis (v.take p.size) = p.limDis v := by
  cases p <;> rcases v with _ | ⟨a, _ | ⟨b, _ | ⟨c, _ | ⟨d, _ | ⟨e', _ | ⟨f, v⟩⟩⟩⟩⟩⟩ <;> rfl

/-- A joint without its torque. -/
def noTrq (p : Prp K) : Prp K := (p.setTrq [0, 0, 0, 0, 0, 0]).getD p

omit [LinearOrder K] [IsStrictOrderedRing K] [LawfulZm K] in
theorem rates_noTrq (p p' : Prp K) (dt : K) : (VelDifferentiates p (noTrq p') dt ↔ VelDifferentiates p p' dt) ∧
    (AccDifferentiates p (noTrq p') dt ↔ AccDifferentiates p p' dt) := by
  cases p <;> cases p' <;> exact ⟨Iff.rfl, Iff.rfl⟩

/-- **C81 (partial)** The rates behind the log: if a step takes as long as the one before it, then the velocity of each
joint is the difference quotient of its displacements over the times of the two lines in the log, and so is the
acceleration of the velocities; for joints with limits if the displacement of the step is within them.  Missing are
steps of different durations, see `C81_time_fails`. -/
theorem C81_rates_partial (zyx : Mat3 K → Vec3 K) (z : K) (g : Vec6 K) (c : Chain K)
    (ho : setOffset c.link = c.link) (seq : List (K × List K))
    (log : List (Apps.IDLine K)) (st : ℕ → Chain K) (hr : Spec.IDRun zyx z g seq c log st) (k : ℕ) (s s' : K × List K)
    (hs : seq[k]? = some s) (hs' : seq[k + 1]? = some s') (hdt : s'.1 = s.1) (h0 : s.1 ≠ 0)
    (i : ℕ) (l l' : Link K) (hl : (st (k + 1)).link[i]? = some l) (hl' : (st (k + 2)).link[i]? = some l')
    (hw : l.joint.prp.WF) (hlim : Limited l.joint.prp → l.joint.prp.limDis (Spec.slice s'.2 l) = some (Spec.slice s'.2 l)) :
    ∃ o o', log[k]? = some o ∧ log[k + 1]? = some o' ∧
      VelDifferentiates l.joint.prp l'.joint.prp (o'.t - o.t) ∧ AccDifferentiates l.joint.prp l'.joint.prp (o'.t - o.t) := by
  obtain ⟨-, o, -, b2, b3, -⟩ := hr.line k s hs
  obtain ⟨-, o', -, b2', b3', -⟩ := hr.line (k + 1) s' hs'
  refine ⟨o, o', b2, b2', ?_⟩
  have ht : o'.t - o.t = s'.1 := by
    rw [b3, b3', List.take_succ, hs, hdt]
    simp
  rw [ht]
  have h1 := hr.step (k + 1) s' hs'
  have hof : setOffset (st (k + 1)).link = (st (k + 1)).link := by
    have : ∀ n : ℕ, n < seq.length → keys (st n).link = keys c.link := by
      intro n
      induction n with
      | zero =>
        intro hn
        have := hr.first _ (List.getElem?_eq_getElem hn)
        exact Chain.Op.run_keys (.fk _) (show (Chain.Op.fk _).run c = some (st 0) from this)
      | succ n ih =>
        intro hn
        have := hr.step n _ (List.getElem?_eq_getElem (by omega))
        exact (Chain.Op.run_keys (.fkCNT _ _ _) (show (Chain.Op.fkCNT g _ _).run (st n) = some (st (n + 1)) from this)).trans
          (ih (by omega))
    exact setOffset_keys (this (k + 1) (List.getElem?_eq_some_iff.1 hs').1).symm ho
  simp only [Chain.fkCNT, bind, Option.bind_eq_some_iff] at h1
  obtain ⟨ls, e1, c1, e2, e3⟩ := h1
  have m1 := (ZTK.updateID_map (fun l => noTrq l.joint.prp) (fun _ _ _ => rfl) (fun _ _ => rfl)
    (fun l w => by
      show noTrq (l.joint.prp.calcTrq w) = noTrq l.joint.prp
      cases l.joint.prp <;> rfl) e3).1
  have m2 := (ZTK.updateFK_map (fun l => noTrq l.joint.prp) (fun _ _ => rfl) e2).1
  have m3 := (setJointAll_getElem e1 i).1
  rw [hl, Option.bind_some] at m3
  have m4 : ls[i]?.map (fun l => noTrq l.joint.prp) = some (noTrq l'.joint.prp) := by
    have := congrArg (fun x => x[i]?) (m1.trans m2)
    simp only [List.getElem?_map, hl', Option.map_some] at this
    exact this.symm
  obtain ⟨l1, hl1, hn1⟩ := Option.map_eq_some_iff.1 m4
  rw [hl1] at m3
  rw [← (rates_noTrq l.joint.prp l'.joint.prp s'.1).1, ← (rates_noTrq l.joint.prp l'.joint.prp s'.1).2, ← hn1,
    (rates_noTrq _ _ _).1, (rates_noTrq _ _ _).2]
  rw [Link.setAtOffset] at m3
  split_ifs at m3 with hofs
  · obtain ⟨p, hp, rfl⟩ := setWith_eq_some.1 m3
    refine ⟨C05_velocity_partial _ _ _ _ (by rw [hdt]; exact h0) hw (fun hL => ?_) hp, C05_acceleration _ _ _ _ hp⟩
    have := hlim hL
    rwa [Spec.slice, limDis_take] at this
  · rw [Option.some.injEq] at m3
    subst m3
    have hz : ¬ 0 < l.joint.prp.size := fun hs => hofs (offset_nonneg hof (List.mem_of_getElem? hl) hs)
    cases hp : l.joint.prp <;> simp [hp, Prp.size] at hz
    exact ⟨trivial, rfl⟩
end

/-- **C81 fails** for steps of different durations: the velocity of a step is the displacement divided by the duration of
this step, while the times in the log differ by the duration of the step before.  Two sliders that move by 1 between the
lines at the times 0 and 1 get the velocity 1/2. -/
theorem C81_time_fails : ∃ o o' : Apps.IDLine ℚ,
    Apps.rkId (fun m => m.cx) 0 ⟨⟨0, 0, 10⟩, 0⟩ [(1, [0, 0]), (2, [1, 0])] Sample.sliders = some [o, o'] ∧
      o'.t - o.t = 1 ∧ o'.com - o.com = ⟨0, 0, 1⟩ ∧ o'.comVel = ⟨0, 0, 1 / 2⟩ := by
  have key : (Apps.rkId (fun m => m.cx) 0 ⟨⟨0, 0, 10⟩, 0⟩ [(1, [0, 0]), (2, [1, 0])] Sample.sliders).map (fun log =>
      (log.length, (log.zip log.tail).map fun p => (p.2.t - p.1.t, p.2.com - p.1.com, p.2.comVel))) =
      some (2, [(1, ⟨0, 0, 1⟩, ⟨0, 0, 1 / 2⟩)]) := by
    decide +kernel
  obtain ⟨log, e, h⟩ := Option.map_eq_some_iff.1 key
  rcases log with _ | ⟨o, _ | ⟨o', _ | ⟨o'', log⟩⟩⟩ <;> simp at h
  obtain ⟨h1, h2, h3⟩ := h
  exact ⟨o, o', e, h1, h2, by rw [h3]; norm_num⟩

/-- **C81 fails** when there is no zero moment point, as without gravity: the tool prints a variable that it has not
initialised. -/
theorem C81_zmp_fails : ∃ o : Apps.IDLine ℚ,
    Apps.rkId (fun m => m.cx) 0 0 [(1, [0, 0])] Sample.sliders = some [o] ∧ o.zmp = none := by
  have key : (Apps.rkId (fun m => m.cx) 0 0 [(1, [0, 0])] Sample.sliders).map (fun log => log.map fun o => o.zmp) =
      some [none] := by decide +kernel
  obtain ⟨log, e, h⟩ := Option.map_eq_some_iff.1 key
  rcases log with _ | ⟨o, _ | ⟨o', log⟩⟩ <;> simp at h
  exact ⟨o, e, h⟩

/-- The two sliders and three steps of different durations meet the hypotheses of `C80_fk_log` and `C81_id_log`, and the
lines are different. -/
example : Sample.sliders.WF ∧ setOffset Sample.sliders.link = Sample.sliders.link ∧ 1 < Sample.sliders.link.length ∧
    (∀ s ∈ [((1 : ℚ), [(0 : ℚ), 0]), (2, [1, 0]), (3, [1, 5])], s.2.length = jointSize Sample.sliders.link) ∧
    Apps.rkFk (fun m => m.cx) 1 [(1, [0, 0]), (2, [1, 0]), (3, [1, 5])] Sample.sliders =
      some [⟨0, ⟨0, 0, 0⟩, ⟨1, 0, 0⟩⟩, ⟨1, ⟨0, 0, 1⟩, ⟨1, 0, 0⟩⟩, ⟨3, ⟨0, 0, 6⟩, ⟨1, 0, 0⟩⟩] := by
  refine ⟨⟨⟨_, rfl⟩, List.Perm.refl _⟩, rfl, by decide, by decide, by decide +kernel⟩

/-- The hypotheses of `C81_rates_partial` are met by the two sliders and steps of the same duration, with velocities that
are not zero. -/
example : ∃ log st l l', Apps.rkId (fun m => m.cx) 0 ⟨⟨0, 0, 10⟩, 0⟩ [(2, [0, 0]), (2, [1, 0])] Sample.sliders = some log ∧
    Spec.IDRun (fun m => m.cx) 0 ⟨⟨0, 0, 10⟩, 0⟩ [(2, [0, 0]), (2, [1, 0])] Sample.sliders log st ∧
    (st 1).link[0]? = some l ∧ (st 2).link[0]? = some l' ∧ l.joint.prp.WF ∧ l'.joint.prp.getVel = [1 / 2] ∧
    l.joint.prp.limDis (Spec.slice [1, 0] l) = some (Spec.slice [1, 0] l) := by
  obtain ⟨log, st, e, hr⟩ := C81_id_log (fun m => m.cx) 0 ⟨⟨0, 0, 10⟩, 0⟩ Sample.sliders ⟨⟨_, rfl⟩, List.Perm.refl _⟩ rfl
    (by decide) [(2, [0, 0]), (2, [1, 0])] (by simp) (by decide)
  have h0 := hr.first _ rfl
  have h1 := hr.step 0 _ rfl
  have h2 := hr.step 1 _ rfl
  have k1 : ((Sample.sliders.fk [0, 0]).bind fun a => a.fkCNT ⟨⟨0, 0, 10⟩, 0⟩ [0, 0] 2).bind (fun b => (b.link[0]?).map fun l =>
      (l.offset, l.joint.prp.typeStr, l.joint.prp.limDis [1])) = some (0, "prismatic", some [1]) := by decide +kernel
  have k2 : (((Sample.sliders.fk [0, 0]).bind fun a => a.fkCNT ⟨⟨0, 0, 10⟩, 0⟩ [0, 0] 2).bind fun a =>
      a.fkCNT ⟨⟨0, 0, 10⟩, 0⟩ [1, 0] 2).bind (fun b => (b.link[0]?).map fun l => l.joint.prp.getVel) = some [1 / 2] := by
    decide +kernel
  rw [h0, Option.bind_some, h1] at k1 k2
  simp only [Option.bind_some] at k1 k2
  rw [h2] at k2
  obtain ⟨l, a1, a2⟩ := Option.map_eq_some_iff.1 k1
  obtain ⟨l', b1, b2⟩ := Option.map_eq_some_iff.1 k2
  simp only [Prod.mk.injEq] at a2
  obtain ⟨a2, a3, a4⟩ := a2
  cases hp : l.joint.prp <;> rw [hp] at a3 <;> simp [Prp.typeStr] at a3
  refine ⟨log, st, l, l', e, hr, a1, b1, by rw [hp]; trivial, b2, ?_⟩
  rw [Spec.slice, a2, hp]
  rw [hp] at a4
  exact a4
end Roki
