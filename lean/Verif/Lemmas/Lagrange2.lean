import Verif.Lemmas.Lagrange
import Verif.Props.VirtualWork
set_option autoImplicit false

/-! # Lagrange's equations: what forward kinematics and inverse dynamics leave in the links -/

namespace Roki
open Spec LinkArray

/-- Two joints with the same motion. -/
structure Like (p p' : Prp ℝ) : Prop where
  frame : jointFrame p = jointFrame p'
  vel : ∀ v, p.incVel v = p'.incVel v
  acc : ∀ w a, p.incAcc (p.incAccOnVel w a) = p'.incAcc (p'.incAccOnVel w a)

theorem drop_getD {q : List ℝ} {o : ℕ} (h : o < q.length) : q.drop o = q.getD o 0 :: q.drop (o + 1) := by
  rw [List.drop_eq_getElem_cons h, List.getD_eq_getElem?_getD, List.getElem?_eq_getElem h]; rfl

section
variable [Zm ℝ] [LawfulZm ℝ] (hsin : ∀ x : ℝ, Zm.sin x = Real.sin x) (hcos : ∀ x : ℝ, Zm.cos x = Real.cos x)

/-- `OffLimits` for one joint. -/
def Inside (p : Prp ℝ) (o : ℕ) (q : List ℝ) : Prop :=
  match p with
    | .revol d => limit (Zm.phaseNormalize (q.getD o 0)) d.lo d.hi = Zm.phaseNormalize (q.getD o 0)
    | .prism d => limit (q.getD o 0) d.lo d.hi = q.getD o 0
    | .cylin d => limit (q.getD o 0) d.lo0 d.hi0 = q.getD o 0 ∧
        limit (Zm.phaseNormalize (q.getD (o + 1) 0)) d.lo1 d.hi1 = Zm.phaseNormalize (q.getD (o + 1) 0)
    | .hooke d => limit (Zm.phaseNormalize (q.getD o 0)) d.lo0 d.hi0 = Zm.phaseNormalize (q.getD o 0) ∧
        limit (Zm.phaseNormalize (q.getD (o + 1) 0)) d.lo1 d.hi1 = Zm.phaseNormalize (q.getD (o + 1) 0)
    | _ => True

include hsin hcos in
theorem set_prp {p : Prp ℝ} (hp : Coord p) {o : ℕ} {q v a : List ℝ} (h1 : o + p.size ≤ q.length)
    (hv : v.length = q.length) (ha : a.length = q.length) (hlim : Inside p o q)
    {p0 p1 p2 : Prp ℝ} (e0 : p.setDis (q.drop o) = some p0) (e1 : p0.setVel (v.drop o) = some p1)
    (e2 : p1.setAcc (a.drop o) = some p2) :
    jointFrame p0 = jointFrame (place p o q v a) ∧ Like p2 (place p o q v a) ∧ p0.WF := by
  have hsq : ∀ x : ℝ, Zm.sin x * Zm.sin x + Zm.cos x * Zm.cos x = 1 := LawfulZm.sin_sq_add_cos_sq
  have hs : ∀ x : ℝ, Zm.sin (Zm.phaseNormalize x) = Real.sin x := fun x => by rw [LawfulZm.sin_phase, hsin]
  have hc : ∀ x : ℝ, Zm.cos (Zm.phaseNormalize x) = Real.cos x := fun x => by rw [LawfulZm.cos_phase, hcos]
  cases p with
  | spher d => exact hp.elim
  | float d => exact hp.elim
  | brfloat d => exact hp.elim
  | fixed =>
    simp only [Prp.setDis, Option.some.injEq] at e0; subst e0
    simp only [Prp.setVel, Option.some.injEq] at e1; subst e1
    simp only [Prp.setAcc, Option.some.injEq] at e2; subst e2
    exact ⟨rfl, ⟨rfl, fun _ => rfl, fun _ _ => rfl⟩, trivial⟩
  | revol d =>
    simp only [Prp.size] at h1
    rw [drop_getD (by omega)] at e0 e1 e2
    simp only [Inside] at hlim
    simp only [Prp.setDis, hlim, Option.some.injEq] at e0; subst e0
    simp only [Prp.setVel, Option.some.injEq] at e1; subst e1
    simp only [Prp.setAcc, Option.some.injEq] at e2; subst e2
    refine ⟨?_, ⟨?_, fun _ => rfl, fun _ _ => rfl⟩, hsq _⟩ <;> simp only [jointFrame, place, hs, hc]
  | prism d =>
    simp only [Prp.size] at h1
    rw [drop_getD (by omega)] at e0 e1 e2
    simp only [Inside] at hlim
    simp only [Prp.setDis, hlim, Option.some.injEq] at e0; subst e0
    simp only [Prp.setVel, Option.some.injEq] at e1; subst e1
    simp only [Prp.setAcc, Option.some.injEq] at e2; subst e2
    exact ⟨rfl, ⟨rfl, fun _ => rfl, fun _ _ => rfl⟩, trivial⟩
  | cylin d =>
    simp only [Prp.size] at h1
    rw [drop_getD (by omega), drop_getD (by omega)] at e0 e1 e2
    simp only [Inside] at hlim
    simp only [Prp.setDis, hlim, Option.some.injEq] at e0; subst e0
    simp only [Prp.setVel, Option.some.injEq] at e1; subst e1
    simp only [Prp.setAcc, Option.some.injEq] at e2; subst e2
    refine ⟨?_, ⟨?_, fun _ => rfl, fun _ _ => rfl⟩, hsq _⟩ <;> simp only [jointFrame, place, hs, hc]
  | hooke d =>
    simp only [Prp.size] at h1
    rw [drop_getD (by omega), drop_getD (by omega)] at e0 e1 e2
    simp only [Inside] at hlim
    simp only [Prp.setDis, hlim, Option.some.injEq] at e0; subst e0
    simp only [Prp.setVel, Option.some.injEq] at e1; subst e1
    simp only [Prp.setAcc, Option.some.injEq] at e2; subst e2
    refine ⟨?_, ⟨?_, fun _ => ?_, fun _ _ => ?_⟩, hsq _, hsq _⟩ <;>
      simp only [jointFrame, place, hs, hc, Prp.incVel, Prp.incAcc, Prp.incAccOnVel]

include hsin hcos in
/-- Setting displacement, velocity and acceleration of a link. -/
theorem set_place {l : Link ℝ} (hp : Coord l.joint.prp) {q v a : List ℝ}
    (h0 : l.joint.prp.size = 0 → l.offset = -1)
    (h1 : 0 < l.joint.prp.size → 0 ≤ l.offset ∧ l.offset.toNat + l.joint.prp.size ≤ q.length)
    (hv : v.length = q.length) (ha : a.length = q.length) {c : Chain ℝ} (hl : l ∈ c.link) (hlim : OffLimits c q)
    {l0 m1 m2 : Link ℝ} {F : Frame ℝ}
    (e0 : l.setAtOffset Prp.setDis q = some l0) (e1 : (l0.updateFrame1 F).setAtOffset Prp.setVel v = some m1)
    (e2 : m1.setAtOffset Prp.setAcc a = some m2) :
    linkFrame l0 = linkFrame (placed q v a l) ∧ m2.adj = linkFrame (placed q v a l) ∧
      Like m2.joint.prp (placed q v a l).joint.prp ∧ m2.body = (l0.updateFrame1 F).body ∧ l0.body = l.body ∧
      l0.joint.prp.WF := by
  have hlim : Inside l.joint.prp l.offset.toNat q := by
    have := hlim l hl
    simp only [Inside]
    split at this <;> simp_all
  by_cases hs : 0 < l.joint.prp.size
  · obtain ⟨ho, hb⟩ := h1 hs
    simp only [Link.setAtOffset, ho, if_true] at e0
    obtain ⟨p0, f0, rfl⟩ := setWith_eq_some.1 e0
    have ho1 : 0 ≤ (Link.updateFrame1 { l with joint := { l.joint with prp := p0 } } F).offset := ho
    rw [Link.setAtOffset, if_pos ho1] at e1
    obtain ⟨p1, f1, rfl⟩ := setWith_eq_some.1 e1
    rw [Link.setAtOffset, if_pos (by exact ho)] at e2
    obtain ⟨p2, f2, rfl⟩ := setWith_eq_some.1 e2
    obtain ⟨g1, g2, g3⟩ := set_prp hsin hcos hp hb hv ha hlim f0 f1 f2
    have e : linkFrame { l with joint := { l.joint with prp := p0 } } = linkFrame (placed q v a l) := by
      simp only [linkFrame, placed, g1]
    exact ⟨e, (updateFrame1_adj _ F).trans e, g2, rfl, rfl, g3⟩
  · have hz : l.joint.prp.size = 0 := by omega
    have ho := h0 hz
    have hneg : ¬ (0 ≤ l.offset) := by rw [ho]; decide
    rw [Link.setAtOffset, if_neg hneg] at e0
    simp only [Option.some.injEq] at e0; subst e0
    rw [Link.setAtOffset, if_neg (by exact hneg)] at e1
    simp only [Option.some.injEq] at e1; subst e1
    rw [Link.setAtOffset, if_neg (by exact hneg)] at e2
    simp only [Option.some.injEq] at e2; subst e2
    have hpl : (placed q v a l).joint.prp = l.joint.prp := by
      simp only [placed]
      generalize l.joint.prp = p at hz hp
      cases p <;> simp [Prp.size] at hz
      rfl
    have e : linkFrame l = linkFrame (placed q v a l) := by
      simp only [linkFrame, hpl]; rfl
    refine ⟨e, (updateFrame1_adj _ F).trans e, ?_, rfl, rfl, ?_⟩
    · rw [hpl]; exact ⟨rfl, fun _ => rfl, fun _ _ => rfl⟩
    · generalize l.joint.prp = p at hz hp
      cases p <;> simp [Prp.size] at hz
      trivial

theorem like_step {m l : Link ℝ} (hj : Like m.joint.prp l.joint.prp) (ha : m.adj = linkFrame l) (v a : Vec6 ℝ) :
    (m.updateRate1 v a).body.vel = stepVel v l ∧ (m.updateRate1 v a).body.acc = stepAcc v a l := by
  constructor
  · simp only [Link.updateRate1, Link.updateAcc1, Link.updateVel1, stepVel, Body.updateCOMVel, Body.updateCOMAcc, ha, hj.vel]
  · simp only [Link.updateRate1, Link.updateAcc1, Link.updateVel1, stepAcc, stepVel, Body.updateCOMVel,
      Body.updateCOMAcc, ha, Vec6.linShift, hj.vel, hj.acc]

/-- The links on a path. -/
def OnPath (c : Chain ℝ) (q : List ℕ) (ms : List (Link ℝ)) : Prop := q.map (fun j => c.link[j]?) = ms.map some

/-- A chain whose joints have coordinates. -/
structure Arm (c : Chain ℝ) : Prop where
  wf : c.WF
  off : setOffset c.link = c.link
  rot : ∀ l ∈ c.link, l.org.att.IsRot
  coord : ∀ l ∈ c.link, Coord l.joint.prp

theorem Arm.offset {c : Chain ℝ} (h : Arm c) {l : Link ℝ} (hl : l ∈ c.link) :
    (l.joint.prp.size = 0 → l.offset = -1) ∧
    (0 < l.joint.prp.size → 0 ≤ l.offset ∧ l.offset.toNat + l.joint.prp.size ≤ jointSize c.link) := by
  obtain ⟨-, -, -, h1, h2, -⟩ := C01_offsets_tile c.link
  rw [h.off] at h1 h2
  refine ⟨h1 l hl, fun hs => ?_⟩
  obtain ⟨a, b⟩ := h2 l hl hs
  exact ⟨a, by omega⟩

include hsin hcos in
/-- What forward kinematics and inverse dynamics leave in a link. -/
theorem Arm.run_path {c c1 c2 : Chain ℝ} (h : Arm c) {q v a : List ℝ} {g : Vec6 ℝ} (hq : q.length = jointSize c.link)
    (hv : v.length = jointSize c.link) (ha : a.length = jointSize c.link) (hlim : OffLimits c q)
    (e1 : c.fk q = some c1) (e2 : c1.invDyn g v a = some c2) {p : List ℕ} {i : ℕ} (hp : IsPath c.shape (p ++ [i]))
    {ms : List (Link ℝ)} {m : Link ℝ} (hms : OnPath c p ms) (hm : c.link[i]? = some m) :
    ∃ l, c2.link[i]? = some l ∧ l.body.mp = m.body.mp ∧ l.body.extw = m.body.extw ∧
      l.body.frame = product (((ms ++ [m]).map (placed q v a)).map linkFrame) ∧
      l.body.wldCOM = l.body.frame.xform m.body.mp.com ∧
      (l.body.vel, l.body.acc) =
        ((ms ++ [m]).map (placed q v a)).foldl (fun st m => (stepVel st.1 m, stepAcc st.1 st.2 m)) (0, g) ∧
      COMVelCurrent l ∧ COMAccCurrent l := by
  simp only [Chain.fk, Option.bind_eq_bind, Option.bind_eq_some_iff] at e1
  obtain ⟨ls0, f0, e1⟩ := e1
  simp only [Chain.invDyn, Option.bind_eq_bind, Option.bind_eq_some_iff] at e2
  obtain ⟨ls, fr, e2⟩ := e2
  rw [setJointRateAll_eq, Option.bind_eq_some_iff] at fr
  obtain ⟨ls1, f1, f2⟩ := fr
  have n0 := (setJointAll_getElem f0 0).2
  have n1 := (setJointAll_getElem f1 0).2
  have n2 := (setJointAll_getElem f2 0).2
  have w0 : Chain.WF { c with link := ls0 } := h.wf.with_link n0
  obtain ⟨-, -, -, w1, s1, k1, -⟩ := w0.updateFK e1
  have w2 : Chain.WF { c1 with link := ls } := w1.with_link (n2.trans n1)
  obtain ⟨c3, r3, hb, -⟩ := updateID_rate w2 e2
  obtain ⟨T, hT, hg, -, s3, k3, -⟩ := w2.updateRate r3
  rw [LTree.updateRate_eq] at hg
  have hs1 : c1.shape = c.shape := s1
  have hp2 : IsPath ({ c1 with link := ls } : Chain ℝ).shape (p ++ [i]) := by
    show IsPath c1.shape _; rw [hs1]; exact hp
  obtain ⟨ns, n, hns, hn, hc3⟩ := Chain.gather_down_path hT hg hp2
  -- one link
  have key : ∀ (j : ℕ) (l n : Link ℝ), c.link[j]? = some l → ls[j]? = some n → ∃ (l0 : Link ℝ) (F : Frame ℝ),
      ls0[j]? = some l0 ∧ c1.link[j]? = some (l0.updateFrame1 F) ∧
      linkFrame l0 = linkFrame (placed q v a l) ∧ n.adj = linkFrame (placed q v a l) ∧
      Like n.joint.prp (placed q v a l).joint.prp ∧ n.body = (l0.updateFrame1 F).body ∧ l0.body = l.body := by
    intro j l n hl hn
    have a0 := (setJointAll_getElem f0 j).1
    rw [hl, Option.bind_some] at a0
    obtain ⟨l0, hl0⟩ : ∃ l0, ls0[j]? = some l0 := by
      have : j < ls0.length := by rw [n0]; exact (List.getElem?_eq_some_iff.1 hl).1
      exact ⟨_, List.getElem?_eq_getElem this⟩
    rw [hl0] at a0
    obtain ⟨l1, hl1⟩ : ∃ l1, c1.link[j]? = some l1 := by
      have : j < c1.link.length := by
        have : j < ls0.length := (List.getElem?_eq_some_iff.1 hl0).1
        rw [k1]; exact this
      exact ⟨_, List.getElem?_eq_getElem this⟩
    obtain ⟨-, F, rfl⟩ := w0.fk_link e1 hl1 hl0
    have a1 := (setJointAll_getElem f1 j).1
    rw [hl1, Option.bind_some] at a1
    obtain ⟨m1, hm1⟩ : ∃ m1, ls1[j]? = some m1 := by
      have : j < ls1.length := by rw [n1]; exact (List.getElem?_eq_some_iff.1 hl1).1
      exact ⟨_, List.getElem?_eq_getElem this⟩
    rw [hm1] at a1
    have a2 := (setJointAll_getElem f2 j).1
    rw [hm1, Option.bind_some, hn] at a2
    have hmem := List.mem_iff_getElem?.2 ⟨j, hl⟩
    obtain ⟨o1, o2⟩ := h.offset hmem
    obtain ⟨x1, x2, x3, x4, x5, -⟩ := set_place hsin hcos (h.coord l hmem) o1 (by rw [hq]; exact o2) (hv.trans hq.symm)
      (ha.trans hq.symm) hmem hlim a0 a1 a2
    exact ⟨l0, F, hl0, hl1, x1, x2, x3, x4, x5⟩
  -- the fold
  have hfold : ∀ (p : List ℕ) (ms ns : List (Link ℝ)) (st : Vec6 ℝ × Vec6 ℝ),
      p.map (fun j => c.link[j]?) = ms.map some → p.map (fun j => ls[j]?) = ns.map some →
      ns.foldl (fun st (l : Link ℝ) => ((l.updateRate1 st.1 st.2).body.vel, (l.updateRate1 st.1 st.2).body.acc)) st
        = (ms.map (placed q v a)).foldl (fun st m => (stepVel st.1 m, stepAcc st.1 st.2 m)) st := by
    intro p
    induction p with
    | nil => intro ms ns st h1 h2; simp at h1 h2; subst h1 h2; rfl
    | cons j p ih =>
      intro ms ns st h1 h2
      rcases ms with _ | ⟨m, ms⟩
      · simp at h1
      rcases ns with _ | ⟨n, ns⟩
      · simp at h2
      simp only [List.map_cons, List.cons.injEq] at h1 h2
      obtain ⟨-, -, -, -, -, y2, y3, -⟩ := key j m n h1.1 h2.1
      rw [List.map_cons, List.foldl_cons, List.foldl_cons, ih ms ns _ h1.2 h2.2, (like_step y3 y2 _ _).1, (like_step y3 y2 _ _).2]
  obtain ⟨l0, F, hl0, hl1, y1, y2, y3, y4, y5⟩ := key i m n hm hn
  -- the frame
  obtain ⟨ms0, m0, z1, z2, z3⟩ := w0.fk_path e1 hp
  have hm0 : m0 = l0 := by have := z2; simp only [hl0, Option.some.injEq] at this; exact this.symm
  subst hm0
  have hF : (m0.updateFrame1 F) = m0.updateFrame1 (product (ms0.map linkFrame)) := by
    rw [hl1] at z3; exact Option.some.inj z3
  have hfr : ∀ (p : List ℕ) (ms ms0 : List (Link ℝ)), (∀ j ∈ p, ∃ n, ls[j]? = some n) →
      p.map (fun j => c.link[j]?) = ms.map some → p.map (fun j => ls0[j]?) = ms0.map some →
      ms0.map linkFrame = (ms.map (placed q v a)).map linkFrame := by
    intro p
    induction p with
    | nil => intro ms ms0 _ h1 h2; simp at h1 h2; subst h1 h2; rfl
    | cons j p ih =>
      intro ms ms0 hex h1 h2
      rcases ms with _ | ⟨m, ms⟩
      · simp at h1
      rcases ms0 with _ | ⟨n, ns⟩
      · simp at h2
      simp only [List.map_cons, List.cons.injEq] at h1 h2
      obtain ⟨n', hn'⟩ := hex j (by simp)
      obtain ⟨x0, _, hx0, -, y1, -⟩ := key j m n' h1.1 hn'
      rw [h2.1] at hx0; cases hx0
      rw [List.map_cons, List.map_cons, List.map_cons, y1, ih ms ns (fun k hk => hex k (by simp [hk])) h1.2 h2.2]
  have hex : ∀ j ∈ p, ∃ n, ls[j]? = some n := by
    intro j hj
    have : (fun j => ls[j]?) j ∈ ns.map some := by rw [← hns]; exact List.mem_map.2 ⟨j, hj, rfl⟩
    obtain ⟨n, -, e⟩ := List.mem_map.1 this
    exact ⟨n, e.symm⟩
  have hfr' := hfr p ms ms0 hex hms z1
  -- the link
  have hi2 : i < c2.link.length := by
    have := congrArg List.length hb
    simp only [List.length_map] at this
    rw [this]; exact (List.getElem?_eq_some_iff.1 hc3).1
  have hl2 : c2.link[i]? = some c2.link[i] := List.getElem?_eq_getElem hi2
  generalize c2.link[i] = l at hl2
  have hlb : l.body = (n.updateRate1 ((ms.map (placed q v a)).foldl (fun st m => (stepVel st.1 m, stepAcc st.1 st.2 m)) (0, g)).1
      ((ms.map (placed q v a)).foldl (fun st m => (stepVel st.1 m, stepAcc st.1 st.2 m)) (0, g)).2).body := by
    have := congrArg (fun x => x[i]?) hb
    simp only [List.getElem?_map, hl2, hc3, Option.map_some, Option.some.injEq] at this
    rw [this, hfold p ms ns (0, g) hms hns]
  have hfin : l.body.frame = product (((ms ++ [m]).map (placed q v a)).map linkFrame) := by
    rw [hlb]
    show n.body.frame = _
    rw [y4, hF, updateFrame1_frame, hfr', y1, List.map_append, List.map_append, List.map_cons, List.map_cons, List.map_nil,
      List.map_nil, product_append, show product [linkFrame (placed q v a m)] = linkFrame (placed q v a m) from Frame.cascade_ident _]
  refine ⟨l, hl2, ?_, ?_, hfin, ?_, ?_, ?_, ?_⟩
  · rw [hlb]; show n.body.mp = _; rw [y4]; show m0.body.mp = _; rw [y5]
  · rw [hlb]; show n.body.extw = _; rw [y4]; show m0.body.extw = _; rw [y5]
  · rw [hlb]
    show n.body.wldCOM = n.body.frame.xform m.body.mp.com
    rw [y4, ← y5]; rfl
  · rw [hlb, (like_step y3 y2 _ _).1, (like_step y3 y2 _ _).2, List.map_append, List.foldl_append]; rfl
  · have := hlb; unfold COMVelCurrent; rw [hlb]; rfl
  · unfold COMAccCurrent; rw [hlb]; rfl

end

end Roki
