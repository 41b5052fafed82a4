import Verif.Lemmas.ID

/-! # Passes along a path from the root -/

namespace Roki
open Spec
set_option linter.unusedSectionVars false
variable {K : Type*}

/-- The link at the end of a path after a downward pass. -/
theorem Chain.gather_down_path {σ : Type*} {f : σ → Link K → Link K} {g : Link K → σ} {st : σ}
    {ls ls' : List (Link K)} {t : LTree ℕ} {T : LTree (Link K)} (h : gather ls t = some T)
    (h' : gather ls' t = some (T.down f g st)) {p : List ℕ} {i : ℕ} (hp : IsPath t (p ++ [i])) :
    ∃ (ms : List (Link K)) (m : Link K), p.map (fun j => ls[j]?) = ms.map some ∧ ls[i]? = some m ∧
      ls'[i]? = some (f (ms.foldl (fun st l => g (f st l)) st) m) := by
  generalize hq : p ++ [i] = q at hp
  induction hp generalizing st T p with
  | here a c s =>
    obtain ⟨l, c1, s1, h1, h2, h3, rfl⟩ := gather_node.1 h
    simp only [LTree.down] at h'
    obtain ⟨l', c1', s1', h1', -, -, e⟩ := gather_node.1 h'
    have : p = [] ∧ i = a := by
      rcases p with _ | ⟨x, p⟩
      · simpa using hq
      · simp at hq
    obtain ⟨rfl, rfl⟩ := this
    simp only [LTree.node.injEq] at e
    exact ⟨[], l, rfl, h1, by rw [h1', ← e.1]; rfl⟩
  | @child a c s p' hc ih =>
    obtain ⟨l, c1, s1, h1, h2, h3, rfl⟩ := gather_node.1 h
    simp only [LTree.down] at h'
    obtain ⟨l', c1', s1', h1', h2', -, e⟩ := gather_node.1 h'
    simp only [LTree.node.injEq] at e
    rcases p with _ | ⟨x, p⟩
    · simp only [List.nil_append, List.cons.injEq] at hq
      exact absurd hq.2.symm hc.ne_nil
    · simp only [List.cons_append, List.cons.injEq] at hq
      rw [← e.2.1] at h2'
      obtain ⟨ms, m, e1, e2, e3⟩ := ih h2 h2' hq.2
      refine ⟨l :: ms, m, ?_, e2, ?_⟩
      · rw [List.map_cons, hq.1, h1, e1]; rfl
      · rw [e3]; rfl
  | @sibl a c s p' hs ih =>
    obtain ⟨l, c1, s1, h1, h2, h3, rfl⟩ := gather_node.1 h
    simp only [LTree.down] at h'
    obtain ⟨l', c1', s1', h1', h2', h3', e⟩ := gather_node.1 h'
    simp only [LTree.node.injEq] at e
    rw [← e.2.2] at h3'
    exact ih h3 h3' hq

variable [Field K]

/-- The velocity of the next link on a path. -/
def stepVel (v : Vec6 K) (l : Link K) : Vec6 K :=
  l.joint.prp.incVel ((linkFrame l).xform6Lin v)

/-- The acceleration of the next link on a path. -/
def stepAcc (v a : Vec6 K) (l : Link K) : Vec6 K :=
  l.joint.prp.incAcc (l.joint.prp.incAccOnVel (stepVel v l).ang
    ((linkFrame l).att.mulVecT6 ⟨a.lin + cross a.ang (linkFrame l).pos +
      cross v.ang (cross v.ang (linkFrame l).pos), a.ang⟩))

theorem updateVel1_vel {l : Link K} (h : l.adj = linkFrame l) (v : Vec6 K) :
    (l.updateVel1 v).body.vel = stepVel v l := by
  simp only [Link.updateVel1, stepVel, Body.updateCOMVel, h]

theorem updateRate1_vel {l : Link K} (h : l.adj = linkFrame l) (v a : Vec6 K) :
    (l.updateRate1 v a).body.vel = stepVel v l := by
  simp only [Link.updateRate1, Link.updateAcc1, Link.updateVel1, stepVel, Body.updateCOMVel,
    Body.updateCOMAcc, h]

theorem updateRate1_acc {l : Link K} (h : l.adj = linkFrame l) (v a : Vec6 K) :
    (l.updateRate1 v a).body.acc = stepAcc v a l := by
  simp only [Link.updateRate1, Link.updateAcc1, Link.updateVel1, stepAcc, stepVel, Body.updateCOMVel,
    Body.updateCOMAcc, h, Vec6.linShift]

/-- Two links with the same joint and original frame: the same frame, velocity and acceleration. -/
theorem step_congr {l m : Link K} (hj : l.joint = m.joint) (ho : l.org = m.org) :
    linkFrame l = linkFrame m ∧ (∀ v, stepVel v l = stepVel v m) ∧
      ∀ v a, stepAcc v a l = stepAcc v a m := by
  have h1 : linkFrame l = linkFrame m := by simp only [linkFrame, hj, ho]
  have h2 : ∀ v, stepVel v l = stepVel v m := fun v => by simp only [stepVel, hj, h1]
  exact ⟨h1, h2, fun v a => by simp only [stepAcc, hj, h1, h2]⟩

theorem foldl_frame (ms : List (Link K)) (st : Frame K) :
    ms.foldl (fun st l => (l.updateFrame1 st).body.frame) st = st.cascade (product (ms.map linkFrame)) := by
  induction ms generalizing st with
  | nil => exact (Frame.cascade_ident _).symm
  | cons m ms ih => rw [List.foldl_cons, ih, updateFrame1_frame, List.map_cons, cascade_product_cons]

/-- Every link after forward kinematics. -/
theorem Chain.WF.fk_path {c c1 : Chain K} (h : c.WF) (e1 : c.updateFK = some c1) {p : List ℕ} {i : ℕ}
    (hp : IsPath c.shape (p ++ [i])) :
    ∃ (ms : List (Link K)) (m : Link K), p.map (fun j => c.link[j]?) = ms.map some ∧
      c.link[i]? = some m ∧ c1.link[i]? = some (m.updateFrame1 (product (ms.map linkFrame))) := by
  obtain ⟨T, hT, hg, hw, hs, -⟩ := h.updateFK e1
  rw [LTree.updateFrame_eq, hs] at hg
  obtain ⟨ms, m, a, b, d⟩ := gather_down_path hT hg hp
  refine ⟨ms, m, a, b, ?_⟩
  rw [d, foldl_frame, Frame.ident_cascade]

theorem Chain.WF.fk_link {c c1 : Chain K} (h : c.WF) (e1 : c.updateFK = some c1) {i : ℕ} {l1 m : Link K}
    (hl : c1.link[i]? = some l1) (hm : c.link[i]? = some m) :
    l1.adj = linkFrame l1 ∧ ∃ F, l1 = m.updateFrame1 F := by
  have hi : i ∈ c.shape.toList := h.mem.2 (List.getElem?_eq_some_iff.1 hm).1
  obtain ⟨p, hp⟩ := LTree.exists_path hi
  obtain ⟨ms, m', -, b, d⟩ := h.fk_path e1 hp
  rw [hm] at b; cases b
  rw [hl] at d; cases d
  exact ⟨updateFrame1_adj _ _, _, rfl⟩

theorem Chain.WF.updateRate {c c2 : Chain K} (h : c.WF) {g : Vec6 K} (e : c.updateRate g = some c2) :
    ∃ T, Chain.gather c.link c.shape = some T ∧
      Chain.gather c2.link c.shape = some (T.updateRate 0 g) ∧ c2.WF ∧
      c2.shape = c.shape ∧ c2.link.length = c.link.length ∧ c2.mass = c.mass := by
  obtain ⟨ls1, T, hT, e1, g1, n1⟩ := h.downAt (fun st (l : Link K) => l.updateRate1 st.1 st.2)
    (fun l => (l.body.vel, l.body.acc)) (0, g)
  rw [← LTree.updateRate_eq] at g1
  simp only [Chain.updateRate, Chain.updateRateAt, e1, Option.map_some, Option.some.injEq] at e
  subst e
  exact ⟨T, hT, g1, h.with_link n1, rfl, n1, rfl⟩

/-- Frame, velocity and acceleration of a link after forward kinematics and the rate pass: folds
over the links, in the chain before the passes, on the path from the root. -/
theorem Chain.WF.rate_path {c c1 c2 : Chain K} {g : Vec6 K} (h : c.WF) (e1 : c.updateFK = some c1)
    (e2 : c1.updateRate g = some c2) {p : List ℕ} {i : ℕ} (hp : IsPath c.shape (p ++ [i])) :
    ∃ (ms : List (Link K)) (m l : Link K), (p ++ [i]).map (fun j => c.link[j]?) = (ms ++ [m]).map some ∧
      c.link[i]? = some m ∧
      c2.link[i]? = some l ∧ l.joint = m.joint ∧ l.org = m.org ∧ l.body.mp = m.body.mp ∧
      l.adj = linkFrame m ∧ l.body.frame = product ((ms ++ [m]).map linkFrame) ∧
      l.body.wldCOM = l.body.frame.xform m.body.mp.com ∧
      (l.body.vel, l.body.acc) =
        (ms ++ [m]).foldl (fun st m => (stepVel st.1 m, stepAcc st.1 st.2 m)) (0, g) ∧
      COMVelCurrent l ∧ COMAccCurrent l := by
  obtain ⟨T, hT, hg, hw, hs, hlen, -⟩ := h.updateFK e1
  obtain ⟨T2, hT2, hg2, hw2, hs2, hlen2, -⟩ := hw.updateRate e2
  rw [LTree.updateRate_eq] at hg2
  have hp1 := hp
  rw [← hs] at hp1
  obtain ⟨ms, m, a, b, d⟩ := h.fk_path e1 hp
  obtain ⟨ms1, m1, a1, b1, d1⟩ := Chain.gather_down_path hT2 hg2 hp1
  have hm1 : m1 = m.updateFrame1 (product (ms.map linkFrame)) := by
    rw [b1] at d; exact Option.some.inj d
  -- the fold over the links after forward kinematics is the fold over the links before
  have hfold : ∀ (p : List ℕ) (ms ms1 : List (Link K)) (st : Vec6 K × Vec6 K),
      p.map (fun j => c.link[j]?) = ms.map some → p.map (fun j => c1.link[j]?) = ms1.map some →
      ms1.foldl (fun st (l : Link K) => ((l.updateRate1 st.1 st.2).body.vel, (l.updateRate1 st.1 st.2).body.acc)) st
        = ms.foldl (fun st m => (stepVel st.1 m, stepAcc st.1 st.2 m)) st := by
    intro p
    induction p with
    | nil =>
      intro ms ms1 st h1 h2
      have e1 : ms = [] := by simpa using h1.symm
      have e2 : ms1 = [] := by simpa using h2.symm
      subst e1 e2; rfl
    | cons j p ih =>
      intro ms ms1 st h1 h2
      rcases ms with _ | ⟨x, ms⟩
      · simp at h1
      rcases ms1 with _ | ⟨y, ms1⟩
      · simp at h2
      simp only [List.map_cons, List.cons.injEq] at h1 h2
      obtain ⟨hadj, F, hF⟩ := h.fk_link e1 h2.1 h1.1
      simp only [List.foldl_cons]
      rw [ih ms ms1 _ h1.2 h2.2, updateRate1_vel hadj, updateRate1_acc hadj]
      obtain ⟨-, s2, s3⟩ := step_congr (l := y) (m := x) (by rw [hF]; rfl) (by rw [hF]; rfl)
      rw [s2, s3]
  have hadj : m1.adj = linkFrame m1 := by rw [hm1]; exact updateFrame1_adj _ _
  obtain ⟨-, s2, s3⟩ := step_congr (l := m1) (m := m) (by rw [hm1]; rfl) (by rw [hm1]; rfl)
  refine ⟨ms, m, _, ?_, b, d1, ?_, ?_, ?_, ?_, ?_, ?_, ?_, rfl, rfl⟩
  · simp [a, b]
  · rw [hm1]; rfl
  · rw [hm1]; rfl
  · rw [hm1]; rfl
  · rw [hm1]; exact updateFrame1_adj m (product (ms.map linkFrame))
  · rw [hm1]
    refine (updateFrame1_frame m (product (ms.map linkFrame))).trans ?_
    rw [List.map_append, product_append]
    congr 1
    exact (Frame.cascade_ident _).symm
  · rw [hm1]; rfl
  · rw [List.foldl_append, List.foldl_cons, List.foldl_nil, ← hfold p ms ms1 _ a a1,
      updateRate1_vel hadj, updateRate1_acc hadj, s2, s3]

end Roki
