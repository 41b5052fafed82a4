import Verif.Spec.Textbook
import Verif.Lemmas.Vec
set_option autoImplicit false

/-! # The recursive functions on chains of three and four links in a row -/

namespace Roki.Textbook
variable {K : Type*} [Field K]

/-- The tree of the pendulum on an arm. -/
abbrev row4 : LTree ℕ := .node 0 (.node 1 (.node 2 (.node 3 .nil .nil) .nil) .nil) .nil

theorem downAt_row4 {σ : Type*} (f : σ → Link K → Link K) (g : Link K → σ) (st : σ) (l0 l1 l2 l3 : Link K) :
    Chain.downAt f g none row4 st [l0, l1, l2, l3] = some [f st l0, f (g (f st l0)) l1, f (g (f (g (f st l0)) l1)) l2,
      f (g (f (g (f (g (f st l0)) l1)) l2)) l3] := rfl

/-- One step of `updateWrenchAt`. -/
def wr (l : Link K) (a : Vec6 K) : Link K :=
  { l with joint := ⟨l.joint.prp.calcTrq (l.body.netWrench.angShift l.body.mp.com + a - l.body.calcExtWrench),
      l.body.netWrench.angShift l.body.mp.com + a - l.body.calcExtWrench⟩ }

theorem wr_revol {l : Link K} {p : Dof1 K} (h : l.joint.prp = .revol p) (a : Vec6 K) : (wr l a).joint.prp =
    .revol { p with trq := (l.body.netWrench.angShift l.body.mp.com + a - l.body.calcExtWrench).ang.z } := by
  simp only [wr, h, Prp.calcTrq]

theorem wrench_row4 (l0 l1 l2 l3 : Link K) : ∃ a3 : Vec6 K, a3 = 0 ∧
    Chain.updateWrenchAt row4 [l0, l1, l2, l3] =
    (let m3 := wr l3 a3
     let m2 := wr l2 (m3.adj.xform6Ang m3.joint.wrench)
     let m1 := wr l1 (m2.adj.xform6Ang m2.joint.wrench)
     let m0 := wr l0 (m1.adj.xform6Ang m1.joint.wrench)
     some [m0, m1, m2, m3]) := by
  refine ⟨0, rfl, ?_⟩
  simp [Chain.updateWrenchAt, Chain.addChildWrenchAt, wr]

end Roki.Textbook

namespace Roki.Textbook
variable {K : Type*} [Field K]

/-- Where the links stand. -/
structure Placed (d : Dim K) (x : State K) (l0 l1 l2 l3 : Link K) : Prop where
  a0 : l0.adj = ⟨0, 1⟩
  a1 : l1.adj = ⟨⟨0, 0, d.H⟩, ⟨⟨x.c1, x.s1, 0⟩, ⟨-x.s1, x.c1, 0⟩, ⟨0, 0, 1⟩⟩⟩
  a2 : l2.adj = ⟨⟨d.L1, 0, 0⟩, ⟨⟨0, -x.s2, x.c2⟩, ⟨0, -x.c2, -x.s2⟩, ⟨1, 0, 0⟩⟩⟩
  w0 : l0.body.frame = ⟨0, 1⟩
  w1 : l1.body.frame = ⟨⟨0, 0, d.H⟩, ⟨⟨x.c1, x.s1, 0⟩, ⟨-x.s1, x.c1, 0⟩, ⟨0, 0, 1⟩⟩⟩
  w2 : l2.body.frame = ⟨⟨d.L1 * x.c1, d.L1 * x.s1, d.H⟩,
    ⟨⟨x.s1 * x.s2, -(x.c1 * x.s2), x.c2⟩, ⟨x.s1 * x.c2, -(x.c1 * x.c2), -x.s2⟩, ⟨x.c1, x.s1, 0⟩⟩⟩
  g2 : l2.body.wldCOM = com d x

/-- The velocities and the accelerations of the links. -/
structure Moving (d : Dim K) (x : State K) (G : K) (l0 l1 l2 l3 : Link K) : Prop where
  v0 : l0.body.vel = 0
  v1 : l1.body.vel = ⟨0, ⟨0, 0, x.dq1⟩⟩
  v2 : l2.body.vel = ⟨⟨-(d.L1 * x.dq1 * x.s2), -(d.L1 * x.dq1 * x.c2), 0⟩, ⟨x.c2 * x.dq1, -(x.s2 * x.dq1), x.dq2⟩⟩
  a0 : l0.body.acc = ⟨⟨0, 0, G⟩, 0⟩
  a1 : l1.body.acc = ⟨⟨0, 0, G⟩, ⟨0, 0, x.ddq1⟩⟩
  a2 : l2.body.acc = ⟨⟨-(x.s2 * d.L1 * x.ddq1) + x.c2 * G, -(x.c2 * d.L1 * x.ddq1) - x.s2 * G, -(d.L1 * x.dq1 * x.dq1)⟩,
    ⟨x.c2 * x.ddq1 - x.s2 * x.dq1 * x.dq2, -(x.s2 * x.ddq1) - x.c2 * x.dq1 * x.dq2, x.ddq2⟩⟩
  c1 : l1.body.comVel = 0
  c2 : l2.body.comVel = ⟨-(d.L1 * x.dq1 * x.s2), -(d.L1 * x.dq1 * x.c2) + x.dq2 * d.L2, x.s2 * x.dq1 * d.L2⟩
  k1 : l1.body.comAcc = ⟨0, 0, G⟩
  k2 : l2.body.comAcc = ⟨-(x.s2 * d.L1 * x.ddq1) + x.c2 * G - (x.dq2 * x.dq2 + x.s2 * x.s2 * x.dq1 * x.dq1) * d.L2,
    -(x.c2 * d.L1 * x.ddq1) - x.s2 * G + (x.ddq2 - x.c2 * x.s2 * x.dq1 * x.dq1) * d.L2,
    -(d.L1 * x.dq1 * x.dq1) + (x.s2 * x.ddq1 + 2 * x.c2 * x.dq1 * x.dq2) * d.L2⟩

section
variable [LinearOrder K] [IsStrictOrderedRing K] [Zm K] [LawfulZm K]

theorem fk_invPend {d : Dim K} {l0 l1 l2 l3 : Link K} (h : IsInvPend d l0 l1 l2 l3) {c : Chain K} (hl : c.link = [l0, l1, l2, l3])
    (hs : c.shape = row4) (q1 q2 : K) {x : State K} (hx1 : x.s1 = Zm.sin q1) (hx2 : x.c1 = Zm.cos q1) (hx3 : x.s2 = Zm.sin q2)
    (hx4 : x.c2 = Zm.cos q2) :
    ∃ m0 m1 m2 m3 c1, c.fk [q1, q2] = some c1 ∧ c1.link = [m0, m1, m2, m3] ∧ c1.shape = row4 ∧ IsInvPend d m0 m1 m2 m3 ∧
      Placed d x m0 m1 m2 m3 := by
  obtain ⟨p1, e1, lo1, hi1⟩ := h.j1
  obtain ⟨p2, e2, lo2, hi2⟩ := h.j2
  have hset : LinkArray.setJointAll Prp.setDis [q1, q2] c.link = some [l0,
      { l1 with joint := { l1.joint with prp := .revol { p1 with dis := Zm.phaseNormalize q1, s := x.s1, c := x.c1 } } },
      { l2 with joint := { l2.joint with prp := .revol { p2 with dis := Zm.phaseNormalize q2, s := x.s2, c := x.c2 } } }, l3] := by
    rw [hl]
    simp [LinkArray.setJointAll, Link.setAtOffset, Link.setWith, h.f0, h.f1, h.f2, h.f3, e1, e2, Prp.setDis, lo1, hi1, lo2, hi2,
      limit, LawfulZm.sin_phase, LawfulZm.cos_phase, hx1, hx2, hx3, hx4]
  unfold Chain.fk
  rw [hset]
  simp only [Option.bind_eq_bind, Option.bind_some, Chain.updateFK, Chain.updateFrame, Chain.updateFrameAt]
  rw [hs]
  rw [downAt_row4]
  refine ⟨_, _, _, _, _, rfl, rfl, rfl, ?_, ?_⟩
  · exact
    { j0 := h.j0, j1 := ⟨_, rfl, lo1, hi1⟩, j2 := ⟨_, rfl, lo2, hi2⟩, j3 := h.j3, o0 := h.o0, o1 := h.o1, o2 := h.o2, o3 := h.o3,
      m0 := h.m0, m1 := h.m1, m2 := h.m2, m3 := h.m3, e0 := h.e0, e1 := h.e1, e2 := h.e2, e3 := h.e3, f0 := h.f0, f1 := h.f1,
      f2 := h.f2, f3 := h.f3 }
  · constructor <;>
    simp [Link.updateFrame1, Body.updateCOM, Prp.xform, Prp.rotZ, Frame.ident, Frame.cascade, Frame.xform, Mat3.mul, Mat3.mulVec, h.j0, h.o0,
      h.o1, h.o2, h.m2, Vec3.ext_iff, Mat3.ext_iff, Frame.ext_iff, com]
    all_goals and_intros <;> ring

omit [LinearOrder K] [IsStrictOrderedRing K] [Zm K] [LawfulZm K] in
theorem id_invPend {d : Dim K} {x : State K} {l0 l1 l2 l3 : Link K} (h : IsInvPend d l0 l1 l2 l3) (hp : Placed d x l0 l1 l2 l3)
    {c : Chain K} (hl : c.link = [l0, l1, l2, l3]) (hs : c.shape = row4) (G : K) (h2 : x.s2 * x.s2 + x.c2 * x.c2 = 1) :
    ∃ m0 m1 m2 m3 c1, c.invDyn ⟨⟨0, 0, G⟩, 0⟩ [x.dq1, x.dq2] [x.ddq1, x.ddq2] = some c1 ∧ c1.link = [m0, m1, m2, m3] ∧ c1.shape = row4 ∧
      IsInvPend d m0 m1 m2 m3 ∧ Placed d x m0 m1 m2 m3 ∧ Moving d x G m0 m1 m2 m3 ∧
      m1.joint.prp.getTrq = [trq1 d x] ∧ m2.joint.prp.getTrq = [trq2 d x G] := by
  obtain ⟨p1, e1, lo1, hi1⟩ := h.j1
  obtain ⟨p2, e2, lo2, hi2⟩ := h.j2
  have hset : LinkArray.setJointRateAll [x.dq1, x.dq2] [x.ddq1, x.ddq2] c.link = some [l0,
      { l1 with joint := { l1.joint with prp := .revol { p1 with vel := x.dq1, acc := x.ddq1 } } },
      { l2 with joint := { l2.joint with prp := .revol { p2 with vel := x.dq2, acc := x.ddq2 } } }, l3] := by
    rw [hl]
    simp [LinkArray.setJointRateAll, Link.setAtOffset, Link.setWith, h.f0, h.f1, h.f2, h.f3, e1, e2, Prp.setVel, Prp.setAcc]
  unfold Chain.invDyn
  rw [hset]
  simp only [Option.bind_eq_bind, Option.bind_some, Chain.updateID, Chain.updateRate, Chain.updateRateAt, Chain.updateWrench]
  rw [hs, downAt_row4]
  generalize hm0 : Link.updateRate1 l0 _ _ = m0
  generalize hm1 : Link.updateRate1 { l1 with joint := _ } _ _ = m1
  generalize hm2 : Link.updateRate1 { l2 with joint := _ } _ _ = m2
  generalize hm3 : Link.updateRate1 l3 _ _ = m3
  simp only [Option.map_some, Option.bind_some]
  have hi : IsInvPend d m0 m1 m2 m3 := by
    subst hm3 hm2 hm1 hm0
    exact
    { j0 := h.j0, j1 := ⟨_, rfl, lo1, hi1⟩, j2 := ⟨_, rfl, lo2, hi2⟩, j3 := h.j3, o0 := h.o0, o1 := h.o1, o2 := h.o2, o3 := h.o3,
      m0 := h.m0, m1 := h.m1, m2 := h.m2, m3 := h.m3, e0 := h.e0, e1 := h.e1, e2 := h.e2, e3 := h.e3, f0 := h.f0, f1 := h.f1,
      f2 := h.f2, f3 := h.f3 }
  have hpl : Placed d x m0 m1 m2 m3 := by
    subst hm3 hm2 hm1 hm0
    exact { a0 := hp.a0, a1 := hp.a1, a2 := hp.a2, w0 := hp.w0, w1 := hp.w1, w2 := hp.w2, g2 := hp.g2 }
  have hq1 : m1.joint.prp = .revol { p1 with vel := x.dq1, acc := x.ddq1 } := by rw [← hm1]; rfl
  have hq2 : m2.joint.prp = .revol { p2 with vel := x.dq2, acc := x.ddq2 } := by rw [← hm2]; rfl
  have v0 : m0.body.vel = 0 := by
    rw [← hm0]
    simp [Link.updateRate1, Link.updateVel1, Link.updateAcc1, Body.updateCOMVel, Body.updateCOMAcc, h.j0, hp.a0, Prp.incVel,
      Frame.xform6Lin, Vec6.linShift, Mat3.mulVecT6, Mat3.mulVecT, dot, cross, Vec6.ext_iff, Vec3.ext_iff]
  have a0 : m0.body.acc = ⟨⟨0, 0, G⟩, 0⟩ := by
    rw [← hm0]
    simp [Link.updateRate1, Link.updateVel1, Link.updateAcc1, Body.updateCOMVel, Body.updateCOMAcc, h.j0, hp.a0, Prp.incVel, Prp.incAcc,
      Prp.incAccOnVel,
      Frame.xform6Lin, Vec6.linShift, Mat3.mulVecT6, Mat3.mulVecT, dot, cross, Vec6.ext_iff, Vec3.ext_iff]
  rw [v0, a0] at hm1
  have v1 : m1.body.vel = ⟨0, ⟨0, 0, x.dq1⟩⟩ := by
    rw [← hm1]
    simp [Link.updateRate1, Link.updateVel1, Link.updateAcc1, Body.updateCOMVel, Body.updateCOMAcc, hp.a1, Prp.incVel,
      Frame.xform6Lin, Vec6.linShift, Mat3.mulVecT6, Mat3.mulVecT, dot, cross, Vec6.ext_iff, Vec3.ext_iff]
  have a1 : m1.body.acc = ⟨⟨0, 0, G⟩, ⟨0, 0, x.ddq1⟩⟩ := by
    rw [← hm1]
    simp [Link.updateRate1, Link.updateVel1, Link.updateAcc1, Body.updateCOMVel, Body.updateCOMAcc, hp.a1, Prp.incVel, Prp.incAcc,
      Prp.incAccOnVel,
      Frame.xform6Lin, Vec6.linShift, Mat3.mulVecT6, Mat3.mulVecT, dot, cross, Vec6.ext_iff, Vec3.ext_iff]
  have c1 : m1.body.comVel = 0 := by
    have : m1.body.comVel = m1.body.vel.lin + cross m1.body.vel.ang m1.body.mp.com := by rw [← hm1]; rfl
    rw [this, v1, hi.m1]
    simp [cross, Vec3.ext_iff]
  have k1 : m1.body.comAcc = ⟨0, 0, G⟩ := by
    have : m1.body.comAcc = triple m1.body.vel.ang m1.body.vel.ang m1.body.mp.com + cross m1.body.acc.ang m1.body.mp.com +
        m1.body.acc.lin := by rw [← hm1]; rfl
    rw [this, v1, a1, hi.m1]
    simp [cross, triple, Vec3.ext_iff]
  rw [v1, a1] at hm2
  have v2 : m2.body.vel = ⟨⟨-(d.L1 * x.dq1 * x.s2), -(d.L1 * x.dq1 * x.c2), 0⟩, ⟨x.c2 * x.dq1, -(x.s2 * x.dq1), x.dq2⟩⟩ := by
    rw [← hm2]
    simp [Link.updateRate1, Link.updateVel1, Link.updateAcc1, Body.updateCOMVel, Body.updateCOMAcc, hp.a2, Prp.incVel,
      Frame.xform6Lin, Vec6.linShift, Mat3.mulVecT6, Mat3.mulVecT, dot, cross, Vec6.ext_iff, Vec3.ext_iff]
    and_intros <;> ring
  have a2 : m2.body.acc = ⟨⟨-(x.s2 * d.L1 * x.ddq1) + x.c2 * G, -(x.c2 * d.L1 * x.ddq1) - x.s2 * G, -(d.L1 * x.dq1 * x.dq1)⟩,
      ⟨x.c2 * x.ddq1 - x.s2 * x.dq1 * x.dq2, -(x.s2 * x.ddq1) - x.c2 * x.dq1 * x.dq2, x.ddq2⟩⟩ := by
    rw [← hm2]
    simp [Link.updateRate1, Link.updateVel1, Link.updateAcc1, Body.updateCOMVel, Body.updateCOMAcc, hp.a2, Prp.incVel, Prp.incAcc,
      Prp.incAccOnVel,
      Frame.xform6Lin, Vec6.linShift, Mat3.mulVecT6, Mat3.mulVecT, dot, cross, Vec6.ext_iff, Vec3.ext_iff]
    and_intros <;> ring
  have c2 : m2.body.comVel = ⟨-(d.L1 * x.dq1 * x.s2), -(d.L1 * x.dq1 * x.c2) + x.dq2 * d.L2, x.s2 * x.dq1 * d.L2⟩ := by
    have : m2.body.comVel = m2.body.vel.lin + cross m2.body.vel.ang m2.body.mp.com := by rw [← hm2]; rfl
    rw [this, v2, hi.m2]
    simp [cross, Vec3.ext_iff]
  have k2 : m2.body.comAcc = ⟨-(x.s2 * d.L1 * x.ddq1) + x.c2 * G - (x.dq2 * x.dq2 + x.s2 * x.s2 * x.dq1 * x.dq1) * d.L2,
      -(x.c2 * d.L1 * x.ddq1) - x.s2 * G + (x.ddq2 - x.c2 * x.s2 * x.dq1 * x.dq1) * d.L2,
      -(d.L1 * x.dq1 * x.dq1) + (x.s2 * x.ddq1 + 2 * x.c2 * x.dq1 * x.dq2) * d.L2⟩ := by
    have : m2.body.comAcc = triple m2.body.vel.ang m2.body.vel.ang m2.body.mp.com + cross m2.body.acc.ang m2.body.mp.com +
        m2.body.acc.lin := by rw [← hm2]; rfl
    rw [this, v2, a2, hi.m2]
    simp [cross, triple, Vec3.ext_iff]
    and_intros <;> ring
  have hmv : Moving d x G m0 m1 m2 m3 :=
    { v0 := v0, v1 := v1, v2 := v2, a0 := a0, a1 := a1, a2 := a2, c1 := c1, c2 := c2, k1 := k1, k2 := k2 }
  obtain ⟨z, rfl, hw⟩ := wrench_row4 m0 m1 m2 m3
  rw [hw]
  simp only [Option.map_some, Option.bind_some]
  refine ⟨_, _, _, _, _, rfl, rfl, rfl, ?_, ?_, ?_, ?_, ?_⟩
  · exact
    { j0 := by simp [wr, hi.j0, Prp.calcTrq], j1 := ⟨_, wr_revol hq1 _, lo1, hi1⟩,
      j2 := ⟨_, wr_revol hq2 _, lo2, hi2⟩, j3 := by simp [wr, hi.j3, Prp.calcTrq], o0 := hi.o0, o1 := hi.o1, o2 := hi.o2, o3 := hi.o3,
      m0 := hi.m0, m1 := hi.m1, m2 := hi.m2, m3 := hi.m3, e0 := hi.e0, e1 := hi.e1, e2 := hi.e2, e3 := hi.e3, f0 := hi.f0, f1 := hi.f1,
      f2 := hi.f2, f3 := hi.f3 }
  · exact { a0 := hpl.a0, a1 := hpl.a1, a2 := hpl.a2, w0 := hpl.w0, w1 := hpl.w1, w2 := hpl.w2, g2 := hpl.g2 }
  · exact { v0 := v0, v1 := v1, v2 := v2, a0 := a0, a1 := a1, a2 := a2, c1 := c1, c2 := c2, k1 := k1, k2 := k2 }
  · rw [wr_revol hq1]
    simp [Prp.getTrq, wr, Body.netWrench, Body.calcExtWrench, WrenchList.net, hi.e1, hi.e2, hi.e3, hi.m1, hi.m2, hi.m3, hpl.a2, k1, k2, v1, v2, a1, a2,
      Vec6.angShift, Frame.xform6Ang, Mat3.mulVec6, Mat3.mulVec, cross, trq1]
    linear_combination (d.M2 * d.L1 * d.L1 * x.ddq1 + x.s2 * x.dq1 * x.dq1 * d.L2 * d.M2 * d.L1) * h2
  · rw [wr_revol hq2]
    simp [Prp.getTrq, wr, Body.netWrench, Body.calcExtWrench, WrenchList.net, hi.e2, hi.e3, hi.m2, hi.m3, k2, v2, a2,
      Vec6.angShift, Frame.xform6Ang, Mat3.mulVec6, Mat3.mulVec, cross, trq2]
    ring
end
end Roki.Textbook

namespace Roki.Textbook
variable {K : Type*} [Field K]

theorem downAt_one {σ : Type*} (f : σ → Link K → Link K) (g : Link K → σ) (st : σ) (l : Link K) :
    Chain.downAt f g none (.node 0 .nil .nil) st [l] = some [f st l] := rfl

theorem abiUpdate_one [Zm K] (fx : Bool) {c : Chain K} {l : Link K} (hl : c.link = [l]) (hs : c.shape = .node 0 .nil .nil)
    (h0 : l.size ≠ 0) :
    c.abiUpdate fx false = some { c with link := [((l.abiUpdateInit 0).abiBackward fx).abiForward fx 0] } := by
  have : LinkArray.jointSize c.link ≠ 0 := by
    rw [hl]
    simpa [LinkArray.jointSize] using h0
  rw [Chain.abiUpdate, if_neg this, hl, hs]
  rfl

end Roki.Textbook

namespace Roki.Textbook
variable {K : Type*} [Field K]

theorem updateFK_invPend {d : Dim K} {l0 l1 l2 l3 : Link K} (h : IsInvPend d l0 l1 l2 l3) {c : Chain K} (hl : c.link = [l0, l1, l2, l3])
    (hs : c.shape = row4) :
    ∃ c1 m0 m1 m2 m3, c.updateFK = some c1 ∧ c1.link = [m0, m1, m2, m3] ∧ c1.shape = row4 ∧ IsInvPend d m0 m1 m2 m3 := by
  rw [Chain.updateFK, Chain.updateFrame, Chain.updateFrameAt, hl, hs, downAt_row4]
  refine ⟨_, _, _, _, _, rfl, rfl, rfl, ?_⟩
  exact
    { j0 := h.j0, j1 := h.j1, j2 := h.j2, j3 := h.j3, o0 := h.o0, o1 := h.o1, o2 := h.o2, o3 := h.o3,
      m0 := h.m0, m1 := h.m1, m2 := h.m2, m3 := h.m3, e0 := h.e0, e1 := h.e1, e2 := h.e2, e3 := h.e3, f0 := h.f0, f1 := h.f1,
      f2 := h.f2, f3 := h.f3 }

theorem updateID_invPend {d : Dim K} {l0 l1 l2 l3 : Link K} (h : IsInvPend d l0 l1 l2 l3) {c : Chain K} (hl : c.link = [l0, l1, l2, l3])
    (hs : c.shape = row4) (g : Vec6 K) :
    ∃ c1 m0 m1 m2 m3, c.updateID g = some c1 ∧ c1.link = [m0, m1, m2, m3] ∧ c1.shape = row4 ∧ IsInvPend d m0 m1 m2 m3 := by
  obtain ⟨p1, e1, lo1, hi1⟩ := h.j1
  obtain ⟨p2, e2, lo2, hi2⟩ := h.j2
  simp only [Option.bind_eq_bind, Chain.updateID, Chain.updateRate, Chain.updateRateAt, Chain.updateWrench]
  rw [hl, hs, downAt_row4]
  generalize hm0 : Link.updateRate1 l0 _ _ = m0
  generalize hm1 : Link.updateRate1 l1 _ _ = m1
  generalize hm2 : Link.updateRate1 l2 _ _ = m2
  generalize hm3 : Link.updateRate1 l3 _ _ = m3
  simp only [Option.map_some, Option.bind_some]
  have hi : IsInvPend d m0 m1 m2 m3 := by
    subst hm3 hm2 hm1 hm0
    exact
    { j0 := h.j0, j1 := h.j1, j2 := h.j2, j3 := h.j3, o0 := h.o0, o1 := h.o1, o2 := h.o2, o3 := h.o3,
      m0 := h.m0, m1 := h.m1, m2 := h.m2, m3 := h.m3, e0 := h.e0, e1 := h.e1, e2 := h.e2, e3 := h.e3, f0 := h.f0, f1 := h.f1,
      f2 := h.f2, f3 := h.f3 }
  have hq1 : m1.joint.prp = .revol p1 := by rw [← hm1]; exact e1
  have hq2 : m2.joint.prp = .revol p2 := by rw [← hm2]; exact e2
  obtain ⟨z, rfl, hw⟩ := wrench_row4 m0 m1 m2 m3
  rw [hw]
  simp only [Option.map_some, Option.bind_some]
  refine ⟨_, _, _, _, _, rfl, rfl, rfl, ?_⟩
  exact
    { j0 := by simp [wr, hi.j0, Prp.calcTrq], j1 := ⟨_, wr_revol hq1 _, lo1, hi1⟩,
      j2 := ⟨_, wr_revol hq2 _, lo2, hi2⟩, j3 := by simp [wr, hi.j3, Prp.calcTrq], o0 := hi.o0, o1 := hi.o1, o2 := hi.o2, o3 := hi.o3,
      m0 := hi.m0, m1 := hi.m1, m2 := hi.m2, m3 := hi.m3, e0 := hi.e0, e1 := hi.e1, e2 := hi.e2, e3 := hi.e3, f0 := hi.f0, f1 := hi.f1,
      f2 := hi.f2, f3 := hi.f3 }

end Roki.Textbook
