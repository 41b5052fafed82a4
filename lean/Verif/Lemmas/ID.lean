import Verif.Lemmas.FK
import Verif.Lemmas.Sum
import Verif.Spec.Mechanics

/-! # Inverse dynamics: lemmas -/

namespace Roki
open Spec
set_option linter.unusedSectionVars false
variable {K : Type*} [Field K]

namespace LTree

/-- The frame of each link is that of its parent times the adjacent transformation. -/
def FrameOK (pf : Frame K) : LTree (Link K) → Prop
  | nil => True
  | node l c s => l.body.frame = pf.cascade l.adj ∧ FrameOK l.body.frame c ∧ FrameOK pf s

/-- The velocity of each link is that of its parent transferred plus the joint velocity. -/
def VelOK (pv : Vec6 K) : LTree (Link K) → Prop
  | nil => True
  | node l c s => l.body.vel = l.joint.prp.incVel (l.adj.xform6Lin pv) ∧ VelOK l.body.vel c ∧
      VelOK pv s

theorem frameOK_updateFrame (pf : Frame K) (T : LTree (Link K)) : FrameOK pf (T.updateFrame pf) := by
  induction T generalizing pf with
  | nil => trivial
  | node l c s ihc ihs => exact ⟨rfl, ihc _, ihs _⟩

theorem frameOK_congr {pf : Frame K} {T T' : LTree (Link K)}
    (h : T.map (fun l => (l.body.frame, l.adj)) = T'.map (fun l => (l.body.frame, l.adj)))
    (hT : FrameOK pf T) : FrameOK pf T' := by
  induction T generalizing pf T' with
  | nil => cases T' <;> simp_all [map, FrameOK]
  | node l c s ihc ihs =>
    rcases T' with _ | ⟨l', c', s'⟩
    · simp [map] at h
    · simp only [map, node.injEq, Prod.mk.injEq] at h
      obtain ⟨⟨h1, h2⟩, h3, h4⟩ := h
      obtain ⟨a, b, d⟩ := hT
      refine ⟨by rw [← h1, ← h2]; exact a, ?_, ihs h4 d⟩
      rw [← h1]; exact ihc h3 b

theorem velOK_updateRate (pv pa : Vec6 K) (T : LTree (Link K)) : VelOK pv (T.updateRate pv pa) := by
  induction T generalizing pv pa with
  | nil => trivial
  | node l c s ihc ihs => exact ⟨rfl, ihc _ _, ihs _ _⟩

theorem updateWrench_body (T : LTree (Link K)) :
    T.updateWrench.map (fun l => l.body) = T.map (fun l => l.body) := by
  induction T with
  | nil => rfl
  | node l c s ihc ihs => simp only [updateWrench, map, ihc, ihs]

theorem addChildWrench_eq (T : LTree (Link K)) (w : Vec6 K) :
    T.addChildWrench w = w + T.addChildWrench 0 := by
  induction T generalizing w with
  | nil => simp [addChildWrench]
  | node l c s _ ihs =>
    simp only [addChildWrench]
    rw [ihs, ihs (0 + _), zero_add, add_assoc]

end LTree

/-- The stored acceleration of the center of mass is up to date. -/
def COMAccCurrent (l : Link K) : Prop :=
  l.body.comAcc = triple l.body.vel.ang l.body.vel.ang l.body.mp.com +
    cross l.body.acc.ang l.body.mp.com + l.body.acc.lin

theorem mem_updateRate {pv pa : Vec6 K} {T : LTree (Link K)} {l : Link K}
    (h : l ∈ (T.updateRate pv pa).toList) : COMVelCurrent l ∧ COMAccCurrent l := by
  induction T generalizing pv pa with
  | nil => simp [LTree.updateRate, LTree.toList] at h
  | node a c s ihc ihs =>
    simp only [LTree.updateRate, LTree.toList, List.mem_cons, List.mem_append] at h
    rcases h with rfl | h | h
    · exact ⟨rfl, rfl⟩
    · exact ihc h
    · exact ihs h

theorem net_eq (l : WrenchList K) : l.net = (l.map Wrench.shift).sum := by
  simp only [WrenchList.net]; rw [foldl_add_eq, zero_add]

/-- The net wrench of a link, transferred to the world. -/
theorem xform6Ang_calcExtWrench (l : Link K) (h : l.body.frame.att.IsRot) :
    l.body.frame.xform6Ang l.body.calcExtWrench = extWrench l := by
  simp only [Body.calcExtWrench, net_eq, extWrench]
  rw [xform6Ang_sum]
  congr 1
  apply List.map_congr_left
  intro w _
  simp only [Frame.xform6Ang, Wrench.shift, Vec6.angShift, Mat3.mulVec6, aboutOrigin, Frame.xform,
    Mat3.mulVec_add, h.mulVec_cross, cross_add_left]
  congr 1
  abel

/-- The net wrench of a link, transferred to the world. -/
theorem extWrench_eq (l : Link K) (h : l.body.frame.att.IsRot) :
    (l.body.frame.att.mulVec6 l.body.calcExtWrench).angShift l.body.frame.pos = extWrench l :=
  xform6Ang_calcExtWrench l h

theorem triple_eq (a b c : Vec3 K) : triple a b c = cross a (cross b c) := rfl

/-- The inertial wrench of a link, transferred to the world. -/
theorem xform6Ang_netWrench (l : Link K) (h : l.body.frame.att.IsRot) (hc : COMAccCurrent l) :
    l.body.frame.xform6Ang (l.body.netWrench.angShift l.body.mp.com) = inertialWrench l := by
  have hc' : l.body.comAcc = _ := hc
  simp only [inertialWrench, aboutOrigin, comPos, mass, comAcc, worldInertia, angAcc, angVel,
    Frame.xform6Ang, Vec6.angShift, Mat3.mulVec6, Body.netWrench, hc', triple_eq, Frame.xform,
    Mat3.mul_mulVec, ← Mat3.mulVecT_eq, h.mulVecT_mulVec, ← h.mulVec_cross, ← Mat3.mulVec_smul]
  congr 1
  · congr 2; abel
  · simp only [Mat3.mulVec_add, cross_add_left, ← h.mulVec_cross, Mat3.mulVec_smul, cross_smul_right,
      cross_add_right, smul_add]
    abel

/-- **Wrench balance of a subtree.** -/
theorem wrench_balance (T : LTree (Link K)) (pf : Frame K) (hp : pf.att.IsRot) (hF : T.FrameOK pf)
    (hR : ∀ l ∈ T.toList, l.body.frame.att.IsRot) (hA : ∀ l ∈ T.toList, COMAccCurrent l) :
    pf.xform6Ang (T.updateWrench.addChildWrench 0) =
      (T.toList.map fun l => inertialWrench l - extWrench l).sum := by
  induction T generalizing pf with
  | nil => simp [LTree.updateWrench, LTree.addChildWrench, LTree.toList]
  | node l c s ihc ihs =>
    have hl := hR l (by simp [LTree.toList])
    have e1 := ihc l.body.frame hl hF.2.1 (fun m hm => hR m (by simp [LTree.toList, hm]))
      (fun m hm => hA m (by simp [LTree.toList, hm]))
    have e2 := ihs pf hp hF.2.2 (fun m hm => hR m (by simp [LTree.toList, hm]))
      (fun m hm => hA m (by simp [LTree.toList, hm]))
    simp only [LTree.updateWrench, LTree.addChildWrench, LTree.toList, List.map_cons, List.map_append,
      List.sum_cons, List.sum_append]
    rw [LTree.addChildWrench_eq, Frame.xform6Ang_add, e2, zero_add, ← Frame.cascade_xform6Ang hp,
      ← hF.1, Frame.xform6Ang_sub, LTree.addChildWrench_eq, Frame.xform6Ang_add, e1,
      xform6Ang_netWrench l hl (hA l (by simp [LTree.toList])), xform6Ang_calcExtWrench l hl]
    abel

/-- Torque projection and velocity map of each joint type are dual. -/
theorem jointPower_eq (p : Prp K) (f v : Vec6 K) :
    (List.zipWith (· * ·) (p.calcTrq f).getTrq p.getVel).sum = f.dot6 (p.incVel v - v) := by
  cases p <;> simp only [Prp.calcTrq, Prp.getTrq, Prp.getVel, Prp.incVel, Vec3.toBuf, Vec6.toBuf,
    List.zipWith_cons_cons, List.zipWith_nil_right, List.cons_append,
    List.nil_append, List.sum_cons, List.sum_nil] <;> vec_unfold <;> simp <;> ring

theorem getVel_calcTrq (p : Prp K) (f : Vec6 K) : (p.calcTrq f).getVel = p.getVel := by
  cases p <;> rfl

theorem dot6_xform (F : Frame K) (h : F.att.IsRot) (w v : Vec6 K) :
    (F.att.mulVec6 w).dot6 (F.att.mulVec6 v) = w.dot6 v := by
  simp only [Vec6.dot6, Mat3.mulVec6, h.dot_mulVec_mulVec]

/-- The power of the external wrenches in the link frame. -/
theorem extPower_eq (l : Link K) (h : l.body.frame.att.IsRot) :
    l.body.calcExtWrench.dot6 l.body.vel = extPower l := by
  simp only [Body.calcExtWrench, net_eq, extPower]
  rw [map_map_sum' (fun w : Vec6 K => w.dot6 l.body.vel) (by vec_ring) (fun a b => by vec_ring)]
  congr 1
  apply List.map_congr_left
  intro w _
  simp only [pointVelocity, angVel, h.dot_mulVec_mulVec, Wrench.shift]
  vec_ring

/-- The inertial power in the link frame. -/
theorem inertialPower_eq (l : Link K) (h : l.body.frame.att.IsRot) (hc : COMAccCurrent l) :
    (l.body.netWrench.angShift l.body.mp.com).dot6 l.body.vel = inertialPower l := by
  have hc' : l.body.comAcc = _ := hc
  simp only [inertialPower, mass, comAcc, comVel, worldInertia, angAcc, angVel,
    Mat3.mul_mulVec, ← Mat3.mulVecT_eq, h.mulVecT_mulVec, h.dot_mulVec_mulVec, Body.netWrench, hc',
    triple_eq]
  vec_ring

/-- **Power balance of a subtree.** -/
theorem power_balance (T : LTree (Link K)) (pv : Vec6 K) (hV : T.VelOK pv)
    (hR : ∀ l ∈ T.toList, l.body.frame.att.IsRot) (hA : ∀ l ∈ T.toList, COMAccCurrent l) :
    (T.updateWrench.toList.map jointPower).sum =
      (T.toList.map fun l => inertialPower l - extPower l).sum -
        (T.updateWrench.addChildWrench 0).dot6 pv := by
  induction T generalizing pv with
  | nil =>
    simp only [LTree.updateWrench, LTree.addChildWrench, LTree.toList, List.map_nil, List.sum_nil]
    vec_ring
  | node l c s ihc ihs =>
    have hl := hR l (by simp [LTree.toList])
    have e1 := ihc l.body.vel hV.2.1 (fun m hm => hR m (by simp [LTree.toList, hm]))
      (fun m hm => hA m (by simp [LTree.toList, hm]))
    have e2 := ihs pv hV.2.2 (fun m hm => hR m (by simp [LTree.toList, hm]))
      (fun m hm => hA m (by simp [LTree.toList, hm]))
    simp only [LTree.updateWrench, LTree.addChildWrench, LTree.toList, List.map_cons, List.map_append,
      List.sum_cons, List.sum_append]
    rw [LTree.addChildWrench_eq, e1, e2, LTree.addChildWrench_eq]
    simp only [jointPower, getVel_calcTrq]
    rw [jointPower_eq _ _ (l.adj.xform6Lin pv), ← hV.1, ← inertialPower_eq l hl (hA l (by simp [LTree.toList])),
      ← extPower_eq l hl]
    have hd : ∀ a b c d : Vec6 K, (a + b - c).dot6 (d - l.adj.xform6Lin pv) =
        a.dot6 d - c.dot6 d + b.dot6 d - (l.adj.xform6Ang (a + b - c)).dot6 pv := by
      intro a b c d
      have h1 := Frame.dot6_xform6Lin l.adj pv (a + b - c)
      have h2 : (l.adj.xform6Ang (a + b - c)).dot6 pv = (a + b - c).dot6 (l.adj.xform6Lin pv) := by
        rw [Vec6.dot6_comm, ← h1, Vec6.dot6_comm]
      rw [h2]
      simp only [Vec6.dot6, dot]
      simp
      ring
    rw [hd]
    have e3 : ∀ w : Vec6 K, (s.updateWrench.addChildWrench (0 + w)).dot6 pv =
        w.dot6 pv + (s.updateWrench.addChildWrench 0).dot6 pv := by
      intro w
      rw [zero_add, LTree.addChildWrench_eq, Vec6.dot6_add_left]
    rw [e3]
    ring

/-- What `rkChainUpdateID` does to the tree of links. -/
theorem Chain.WF.updateID {c c2 : Chain K} (h : c.WF) {g : Vec6 K} (e : c.updateID g = some c2) :
    ∃ T, Chain.gather c.link c.shape = some T ∧
      Chain.gather c2.link c2.shape = some (T.updateRate 0 g).updateWrench ∧ c2.WF ∧
      c2.shape = c.shape ∧ c2.link.length = c.link.length ∧ c2.mass = c.mass := by
  obtain ⟨ls1, T, hT, e1, g1, n1⟩ := h.downAt (fun st (l : Link K) => l.updateRate1 st.1 st.2)
    (fun l => (l.body.vel, l.body.acc)) (0, g)
  rw [← LTree.updateRate_eq] at g1
  have h1 : WF { c with link := ls1 } := h.with_link n1
  obtain ⟨ls2, T2, hT2, e2, g2, n2⟩ := h1.updateWrenchAt
  have : T2 = T.updateRate 0 g := by
    have := hT2.symm.trans g1; simpa using this
  subst this
  simp only [Chain.updateID, Chain.updateRate, Chain.updateRateAt, e1, Option.map_some,
    Option.bind_eq_bind, Option.bind_some, Chain.updateWrench] at e
  have e2' : Chain.updateWrenchAt c.shape ls1 = some ls2 := e2
  rw [e2'] at e
  simp only [Option.map_some, Option.bind_some, Option.pure_def, Option.some.injEq] at e
  subst e
  refine ⟨T, hT, g2, ?_, rfl, n2.trans n1, rfl⟩
  exact ⟨h1.root, (h1.with_link (ls := ls2) n2).perm⟩

/-- `rkChainUpdateFK` on the tree of links. -/
theorem Chain.WF.updateFK {c c2 : Chain K} (h : c.WF) (e : c.updateFK = some c2) :
    ∃ T, Chain.gather c.link c.shape = some T ∧
      Chain.gather c2.link c2.shape = some (T.updateFrame Frame.ident) ∧ c2.WF ∧
      c2.shape = c.shape ∧ c2.link.length = c.link.length ∧ c2.mass = c.mass := by
  obtain ⟨ls1, T, hT, e1, g1, n1⟩ := h.downAt (fun st (l : Link K) => l.updateFrame1 st)
    (fun l => l.body.frame) Frame.ident
  rw [← LTree.updateFrame_eq] at g1
  simp only [Chain.updateFK, Chain.updateFrame, Chain.updateFrameAt, e1, Option.map_some,
    Option.some.injEq] at e
  subst e
  exact ⟨T, hT, g1, ⟨h.root, (h.with_link n1).perm⟩, rfl, n1, rfl⟩

end Roki
