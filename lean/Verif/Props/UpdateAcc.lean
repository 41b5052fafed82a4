import Verif.Lemmas.ID
import Verif.Lemmas.ZmRat
import Verif.Spec.Samples
set_option autoImplicit false

/-!
# C73: updating in steps, and updating again
-/

namespace Roki
variable {K : Type*} [Field K]

theorem LTree.updateAcc_updateVel (pv pa : Vec6 K) (T : LTree (Link K)) :
    (T.updateVel pv).updateAcc pv pa = T.updateRate pv pa := by
  induction T generalizing pv pa with
  | nil => rfl
  | node l c s ihc ihs =>
    simp only [LTree.updateVel, LTree.updateAcc, LTree.updateRate, Link.updateRate1]
    rw [ihs]
    congr 1
    exact ihc _ _

theorem LTree.updateFrame_twice (f : Frame K) (T : LTree (Link K)) :
    (T.updateFrame f).updateFrame f = T.updateFrame f := by
  induction T generalizing f with
  | nil => rfl
  | node l c s ihc ihs =>
    simp only [LTree.updateFrame]
    rw [ihs]
    congr 1
    exact ihc _

theorem LTree.updateRate_twice (pv pa : Vec6 K) (T : LTree (Link K)) :
    (T.updateRate pv pa).updateRate pv pa = T.updateRate pv pa := by
  induction T generalizing pv pa with
  | nil => rfl
  | node l c s ihc ihs =>
    simp only [LTree.updateRate]
    rw [ihs]
    congr 1
    exact ihc _ _

theorem Link.updateRate1_joint (l : Link K) (w v : Vec6 K) (pv pa : Vec6 K) :
    ({ l with joint := ⟨l.joint.prp.calcTrq w, v⟩ } : Link K).updateRate1 pv pa =
      { l.updateRate1 pv pa with joint := ⟨l.joint.prp.calcTrq w, v⟩ } := by
  have e1 : ∀ u, (l.joint.prp.calcTrq w).incVel u = l.joint.prp.incVel u := by intro u; cases l.joint.prp <;> rfl
  have e2 : ∀ a u, (l.joint.prp.calcTrq w).incAccOnVel a u = l.joint.prp.incAccOnVel a u := by
    intro a u; cases l.joint.prp <;> rfl
  have e3 : ∀ u, (l.joint.prp.calcTrq w).incAcc u = l.joint.prp.incAcc u := by intro u; cases l.joint.prp <;> rfl
  simp only [Link.updateRate1, Link.updateAcc1, Link.updateVel1, Body.updateCOMVel, e1, e2, e3]

theorem LTree.updateRate_updateWrench (pv pa : Vec6 K) (T : LTree (Link K)) (h : T.updateRate pv pa = T) :
    T.updateWrench.updateRate pv pa = T.updateWrench := by
  induction T generalizing pv pa with
  | nil => rfl
  | node l c s ihc ihs =>
    simp only [LTree.updateRate, LTree.node.injEq] at h
    obtain ⟨h1, h2, h3⟩ := h
    rw [h1] at h2
    simp only [LTree.updateWrench, LTree.updateRate, Link.updateRate1_joint, h1, ihs _ _ h3, ihc _ _ h2]

theorem LTree.updateWrench_twice (T : LTree (Link K)) : T.updateWrench.updateWrench = T.updateWrench := by
  induction T with
  | nil => rfl
  | node l c s ihc ihs =>
    have e : ∀ (p : Prp K) w, (p.calcTrq w).calcTrq w = p.calcTrq w := by intro p w; cases p <;> rfl
    simp only [LTree.updateWrench, ihc, ihs, e]

namespace Chain

/-- Two link arrays with the same tree are the same. -/
theorem WF.link_eq {c : Chain K} (h : c.WF) {ls ls' : List (Link K)} {T : LTree (Link K)}
    (h1 : gather ls c.shape = some T) (h2 : gather ls' c.shape = some T)
    (n1 : ls.length = c.link.length) (n2 : ls'.length = c.link.length) : ls = ls' := by
  have := map_eq_of_gather h1 h2 (n1.trans n2.symm) (fun i hi => h.mem.2 (n1 ▸ hi)) id rfl
  simpa using this

/-- A downward pass that is idempotent on trees is idempotent on link arrays. -/
theorem WF.downAt_twice {σ : Type*} {c : Chain K} (h : c.WF) (f : σ → Link K → Link K) (g : Link K → σ) (st : σ)
    (hT : ∀ T : LTree (Link K), (T.down f g st).down f g st = T.down f g st) :
    ∃ ls, Chain.downAt f g none c.shape st c.link = some ls ∧ Chain.downAt f g none c.shape st ls = some ls := by
  obtain ⟨ls, T, g0, e1, g1, n1⟩ := h.downAt f g st
  obtain ⟨ls2, T2, g2, e2, g3, n2⟩ := (h.with_link n1).downAt f g st
  simp only at g2 e2 g3 n2
  obtain rfl : T2 = T.down f g st := Option.some.inj (g2.symm.trans g1)
  rw [hT] at g3
  have := h.link_eq g1 g3 n1 (n2.trans n1)
  subst this
  exact ⟨ls, e1, e2⟩
end Chain

/-- **C73 (two steps).**  On a well-formed chain, updating the velocities of all links and then their accelerations does
exactly what updating both at once does, for every gravity. -/
theorem C73_two_steps (c : Chain K) (h : c.WF) (g : Vec6 K) :
    ∃ c1 c2, c.updateVel = some c1 ∧ c1.updateAcc g = some c2 ∧ c.updateRate g = some c2 := by
  obtain ⟨ls1, T, g0, e1, g1, n1⟩ := h.downAt (fun pvel (l : Link K) => l.updateVel1 pvel) (fun l => l.body.vel) 0
  obtain ⟨ls2, T2, g2, e2, g3, n2⟩ := (h.with_link n1).downAt
    (fun (st : Vec6 K × Vec6 K) (l : Link K) => l.updateAcc1 st.1 st.2) (fun l => (l.body.vel, l.body.acc)) (0, g)
  obtain ⟨ls3, T3, g4, e3, g5, n3⟩ := h.downAt
    (fun (st : Vec6 K × Vec6 K) (l : Link K) => l.updateRate1 st.1 st.2) (fun l => (l.body.vel, l.body.acc)) (0, g)
  simp only at g2 e2 g3 n2
  obtain rfl : T3 = T := Option.some.inj (g4.symm.trans g0)
  rw [← LTree.updateVel_eq] at g1
  obtain rfl : T2 = T3.updateVel 0 := Option.some.inj (g2.symm.trans g1)
  rw [← LTree.updateAcc_eq, LTree.updateAcc_updateVel] at g3
  rw [← LTree.updateRate_eq] at g5
  obtain rfl := h.link_eq g3 g5 (n2.trans n1) n3
  refine ⟨{ c with link := ls1 }, { c with link := ls2 }, ?_, ?_, ?_⟩
  · simp only [Chain.updateVel, Chain.updateVelAt, e1, Option.map_some]
  · simp only [Chain.updateAcc, Chain.updateAccAt, e2, Option.map_some]
  · simp only [Chain.updateRate, Chain.updateRateAt, e3, Option.map_some]

/-- **C73 (again).**  Updating the frames, the velocities and accelerations, or all quantities of inverse dynamics of a chain
that has just been updated changes nothing. -/
theorem C73_again (c : Chain K) (h : c.WF) (g : Vec6 K) :
    (∃ c1, c.updateFrame = some c1 ∧ c1.updateFrame = some c1) ∧
    (∃ c1, c.updateRate g = some c1 ∧ c1.updateRate g = some c1) ∧
    (∃ c1, c.updateID g = some c1 ∧ c1.updateID g = some c1) := by
  refine ⟨?_, ?_, ?_⟩
  · obtain ⟨ls, e1, e2⟩ := h.downAt_twice (fun pwf (l : Link K) => l.updateFrame1 pwf) (fun l => l.body.frame) Frame.ident
      (fun T => by rw [← LTree.updateFrame_eq, ← LTree.updateFrame_eq, LTree.updateFrame_twice])
    exact ⟨{ c with link := ls }, by simp only [Chain.updateFrame, Chain.updateFrameAt, e1, Option.map_some],
      by simp only [Chain.updateFrame, Chain.updateFrameAt, e2, Option.map_some]⟩
  · obtain ⟨ls, e1, e2⟩ := h.downAt_twice (fun (st : Vec6 K × Vec6 K) (l : Link K) => l.updateRate1 st.1 st.2)
      (fun l => (l.body.vel, l.body.acc)) (0, g)
      (fun T => by rw [← LTree.updateRate_eq, ← LTree.updateRate_eq, LTree.updateRate_twice])
    exact ⟨{ c with link := ls }, by simp only [Chain.updateRate, Chain.updateRateAt, e1, Option.map_some],
      by simp only [Chain.updateRate, Chain.updateRateAt, e2, Option.map_some]⟩
  · have ex : ∀ d : Chain K, d.WF → ∃ d1, d.updateID g = some d1 := by
      intro d hd
      obtain ⟨ls1, T, hT, e1, g1, n1⟩ := hd.downAt (fun st (l : Link K) => l.updateRate1 st.1 st.2)
        (fun l => (l.body.vel, l.body.acc)) (0, g)
      obtain ⟨ls2, T2, hT2, e2, g2, n2⟩ := (hd.with_link n1).updateWrenchAt
      have e2' : Chain.updateWrenchAt d.shape ls1 = some ls2 := e2
      exact ⟨_, by
        simp only [Chain.updateID, Chain.updateRate, Chain.updateRateAt, e1, Option.map_some, Option.bind_eq_bind,
          Option.bind_some, Chain.updateWrench, e2']; rfl⟩
    have hfield : ∀ d d1 : Chain K, d.updateID g = some d1 →
        d1 = ({ d with link := d1.link }.calcCOMVel).calcCOMAcc := by
      intro d d1 e
      simp only [Chain.updateID, Chain.updateRate, Chain.updateWrench, Option.bind_eq_bind, Option.bind_eq_some_iff,
        Option.map_eq_some_iff, Option.pure_def, Option.some.injEq] at e
      obtain ⟨d2, ⟨ls2, e2, rfl⟩, d3, ⟨ls3, e3, rfl⟩, rfl⟩ := e
      rfl
    obtain ⟨c1, e1⟩ := ex c h
    obtain ⟨T, hT, g1, w1, s1, n1, m1⟩ := h.updateID e1
    obtain ⟨c2, e2⟩ := ex c1 w1
    obtain ⟨T2, hT2, g2, w2, s2, n2, m2⟩ := w1.updateID e2
    obtain rfl : T2 = (T.updateRate 0 g).updateWrench := Option.some.inj (hT2.symm.trans g1)
    rw [LTree.updateRate_updateWrench _ _ _ (LTree.updateRate_twice _ _ _), LTree.updateWrench_twice] at g2
    rw [s2] at g2
    have hl : c2.link = c1.link := w1.link_eq g2 g1 n2 rfl
    have k1 := hfield _ _ e1
    have k2 := hfield _ _ e2
    refine ⟨c1, e1, ?_⟩
    rw [e2, k2, hl]
    conv_rhs => rw [k1]
    rw [k1]
    rfl

/-- The sample chain is well-formed, and with gravity its accelerations are not zero. -/
example : (Sample.chain : Chain ℚ).WF ∧ ∃ c1, (Sample.chain : Chain ℚ).updateRate ⟨⟨0, 0, 10⟩, 0⟩ = some c1 ∧
    c1.link.map (fun l => l.body.acc) ≠ (Sample.chain : Chain ℚ).link.map (fun l => l.body.acc) :=
  ⟨Sample.chain_wf, _, rfl, by decide +kernel⟩
end Roki
