import Verif.Lemmas.Textbook
import Verif.Lemmas.ZmReal
import Verif.Lemmas.ZmRat
import Verif.Model.PoseKeys
import Verif.Spec.Samples
set_option autoImplicit false

/-!
# C119: the closed forms of the tests, for all dimensions and all states of motion
-/

namespace Roki
open Textbook
variable {K : Type*} [Field K] [LinearOrder K] [IsStrictOrderedRing K] [Zm K] [LawfulZm K]

/-- C119: forward kinematics, then inverse dynamics of a pendulum on a rotating arm, whatever its dimensions, the state before and the
motion: the position, the velocity and the acceleration of the pendulum, the angular momentum, the kinetic energy
and the joint torques are those of the closed forms. -/
theorem C119_pendulum (d : Dim K) {c : Chain K} (h : InvPend d c) (q1 q2 dq1 dq2 ddq1 ddq2 G : K) :
    let x : State K := ⟨Zm.sin q1, Zm.cos q1, Zm.sin q2, Zm.cos q2, dq1, dq2, ddq1, ddq2⟩
    ∃ c1 : Chain K, (c.fk [q1, q2]).bind (fun c => c.invDyn ⟨⟨0, 0, G⟩, 0⟩ [dq1, dq2] [ddq1, ddq2]) = some c1 ∧ InvPend d c1 ∧
      (∃ l : Link K, c1.link[2]? = some l ∧ l.body.wldCOM = com d x ∧ l.body.frame.att.mulVec l.body.comVel = comVel d x ∧
        l.body.frame.att.mulVec l.body.vel.ang = angVel x ∧ l.body.frame.att.mulVec l.body.comAcc = comAcc d x G ∧
        l.body.frame.att.mulVec l.body.acc.ang = angAcc x) ∧
      LinkArray.am c1.link 0 = angMom d x ∧ LinkArray.ke c1.link = kinEnergy d x ∧
      LinkArray.getJointAll Prp.getTrq c1.link [0, 0] = some [trq1 d x, trq2 d x G] := by
  intro x
  obtain ⟨l0, l1, l2, l3, hl, hs, hp⟩ := h
  obtain ⟨m0, m1, m2, m3, c1, e1, hl1, hs1, hp1, hpl⟩ := fk_invPend hp hl hs q1 q2 (x := x) rfl rfl rfl rfl
  have h2 : x.s2 * x.s2 + x.c2 * x.c2 = 1 := LawfulZm.sin_sq_add_cos_sq q2
  have h1 : x.s1 * x.s1 + x.c1 * x.c1 = 1 := LawfulZm.sin_sq_add_cos_sq q1
  obtain ⟨n0, n1, n2, n3, c2, e2, hl2, hs2, hp2, hpl2, hmv, t1, t2⟩ := id_invPend hp1 hpl hl1 hs1 G h2
  have hv : n2.body.frame.att.mulVec n2.body.comVel = comVel d x := by
    rw [hpl2.w2, hmv.c2]
    simp [Mat3.mulVec, comVel, Vec3.ext_iff]
    and_intros
    · linear_combination (-(d.L1 * dq1 * x.s1)) * h2
    · linear_combination (d.L1 * dq1 * x.c1) * h2
    · ring
  refine ⟨c2, by rw [e1, Option.bind_some]; exact e2, ⟨_, _, _, _, hl2, hs2, hp2⟩, ⟨n2, by rw [hl2]; rfl, hpl2.g2, hv, ?_, ?_, ?_⟩, ?_, ?_, ?_⟩
  · rw [hpl2.w2, hmv.v2]
    simp [Mat3.mulVec, angVel, Vec3.ext_iff]
    and_intros
    · ring
    · ring
    · linear_combination dq1 * h2
  · rw [hpl2.w2, hmv.k2]
    simp [Mat3.mulVec, comAcc, Vec3.ext_iff]
    and_intros
    · linear_combination (-(d.L1 * x.s1 * ddq1) - d.L2 * x.s1 * x.s2 * dq1 * dq1) * h2
    · linear_combination (d.L1 * x.c1 * ddq1 + d.L2 * x.c1 * x.s2 * dq1 * dq1) * h2
    · linear_combination G * h2
  · rw [hpl2.w2, hmv.a2]
    simp [Mat3.mulVec, angAcc, Vec3.ext_iff]
    and_intros
    · linear_combination (-(x.s1 * dq1 * dq2)) * h2
    · linear_combination (x.c1 * dq1 * dq2) * h2
    · linear_combination ddq1 * h2
  · have hR : n2.body.frame.att.IsRot := by
      rw [hpl2.w2]
      constructor
      · simp only [dot]; linear_combination x.s2 * x.s2 * h1 + h2
      · simp only [dot]; linear_combination x.c2 * x.c2 * h1 + h2
      · simp only [dot]; linear_combination h1
      · simp only [dot]; linear_combination x.s2 * x.c2 * h1
      · simp only [dot]; ring
      · simp only [dot]; ring
      · simp only [cross, Vec3.mk.injEq]
        and_intros
        · linear_combination x.c1 * h2
        · linear_combination x.s1 * h2
        · ring
    have hg : n2.body.frame.att.mulVec (n2.body.mp.com - n2.body.frame.xformInv 0) = com d x := by
      rw [Mat3.mulVec_sub, Frame.xformInv, hR.mulVec_mulVecT, hp2.m2, hpl2.w2]
      simp [Mat3.mulVec, com, Vec3.ext_iff]
      and_intros <;> ring
    have hb : n2.body.frame.att.mulVec (n2.body.am (n2.body.frame.xformInv 0)) = d.M2 • cross (com d x) (comVel d x) +
        n2.body.frame.att.mulVec (n2.body.mp.inertia.mulVec n2.body.vel.ang) := by
      rw [Body.am, Mat3.mulVec_add, Mat3.mulVec_smul, hR.mulVec_cross, hg, hv, hp2.m2]
    rw [hl2]
    simp only [LinkArray.am, List.foldl, hb]
    simp [Body.am, hp2.m0, hp2.m1, hp2.m2, hp2.m3, hpl2.w1, hpl2.w2, hmv.v1, hmv.v2, Mat3.mulVec, com, comVel,
      cross, angMom, Vec3.ext_iff]
    and_intros
    · linear_combination (d.M2 * d.L2 * d.L2 * x.c1 * dq2) * h2
    · linear_combination (d.M2 * d.L2 * d.L2 * x.s1 * dq2) * h2
    · linear_combination (d.M2 * (d.L1 * d.L1 * dq1 + d.L2 * d.L2 * x.s2 * x.s2 * dq1 - d.L1 * d.L2 * dq2 * x.c2)) * h1
  · rw [hl2]
    simp [LinkArray.ke, Body.ke, hp2.m0, hp2.m1, hp2.m2, hp2.m3, hmv.v1, hmv.v2, hmv.c2, Mat3.mulVec, sqrNorm, dot, kinEnergy]
    linear_combination (1 / 2 * d.M2 * d.L1 * d.L1 * dq1 * dq1) * h2
  · rw [hl2]
    simp [LinkArray.getJointAll, LinkArray.writeAt, hp2.f0, hp2.f1, hp2.f2, hp2.f3, t1, t2, x]

/-- C119: the tip of a two-link arm in a plane, whatever the lengths of the arms, the angles and the state before. -/
theorem C119_scara (a b : K) {l0 l1 l2 : Link K} (h : IsScara a b l0 l1 l2) (q1 q2 : K) :
    ∃ m0 m1 n0 n1 n2 : Link K, l0.setWith Prp.setDis [q1] = some m0 ∧ l1.setWith Prp.setDis [q2] = some m1 ∧
      LTree.updateFrame Frame.ident (.node m0 (.node m1 (.node l2 .nil .nil) .nil) .nil) = .node n0 (.node n1 (.node n2 .nil .nil) .nil) .nil ∧
      n2.body.frame.pos = ⟨-a * Zm.sin q1 - b * (Zm.sin q1 * Zm.cos q2 + Zm.cos q1 * Zm.sin q2),
        a * Zm.cos q1 + b * (Zm.cos q1 * Zm.cos q2 - Zm.sin q1 * Zm.sin q2), 0⟩ := by
  obtain ⟨p0, e0, lo0, hi0⟩ := h.j0
  obtain ⟨p1, e1, lo1, hi1⟩ := h.j1
  refine ⟨_, _, _, _, _, by simp only [Link.setWith, e0, Prp.setDis, Option.map_some]; rfl,
    by simp only [Link.setWith, e1, Prp.setDis, Option.map_some]; rfl, by simp only [LTree.updateFrame]; rfl, ?_⟩
  simp [Link.updateFrame1, Body.updateCOM, Prp.xform, Prp.rotZ, Frame.ident, Frame.cascade, Mat3.mul, Mat3.mulVec, h.j2, h.o0,
      h.o1, h.o2, Vec3.ext_iff, limit, lo0, hi0, lo1, hi1, LawfulZm.sin_phase, LawfulZm.cos_phase]
  and_intros <;> ring

/-- C119: the same with the real sine and cosine, as /repo/test/scara_fk_test.c:40-42 writes it. -/
theorem C119_scara_real (a b : ℝ) {l0 l1 l2 : Link ℝ} (h : IsScara a b l0 l1 l2) (q1 q2 : ℝ) :
    ∃ m0 m1 n0 n1 n2 : Link ℝ, l0.setWith Prp.setDis [q1] = some m0 ∧ l1.setWith Prp.setDis [q2] = some m1 ∧
      LTree.updateFrame Frame.ident (.node m0 (.node m1 (.node l2 .nil .nil) .nil) .nil) = .node n0 (.node n1 (.node n2 .nil .nil) .nil) .nil ∧
      n2.body.frame.pos = ⟨-a * Real.sin q1 - b * Real.sin (q1 + q2), a * Real.cos q1 + b * Real.cos (q1 + q2), 0⟩ := by
  obtain ⟨m0, m1, n0, n1, n2, h0, h1, h2, h3⟩ := C119_scara a b h q1 q2
  refine ⟨m0, m1, n0, n1, n2, h0, h1, h2, ?_⟩
  rw [Real.sin_add, Real.cos_add]
  exact h3

/-- What the test of forward dynamics does in each round, /repo/test/pend_abi_test.c:44-57 and 66: set the angle `q`, the rate
`w` and the torque `u` of the motor, compute the acceleration. -/
def pendRound (fx : Bool) (q w u : K) (c : Chain K) : Option (Chain K × List K) :=
  (c.fk [q]).bind fun c1 => (LinkArray.setJointAll Prp.setVel [w] c1.link).bind fun ls =>
    (Chain.updateVel { c1 with link := ls }).bind fun c2 =>
      (Chain.abiUpdate fx false
        { c2 with link := c2.link.map fun l => { l with joint := { l.joint with prp := l.joint.prp.motorSetInput u } } }).bind fun c3 =>
         (LinkArray.getJointAll Prp.getAcc c3.link [0]).map fun a => (c3, a)

/-- C119: forward dynamics of a pendulum driven by a motor, whatever its frame, its mass properties, the state before and the motion:
the acceleration is the sum of the torque of the motor and the moment of the weight, divided by the moment of inertia about the
axis; the rate has no influence.  The pendulum remains ready for the next round. -/
theorem C119_driven (fx : Bool) {c : Chain K} {l : Link K} (hl : c.link = [l]) (hs : c.shape = .node 0 .nil .nil) (h : IsPend l)
    (ht : Zm.tiny (axisInertia l.body.mp) = false) (q w u : K) :
    ∃ (c' : Chain K) (l' : Link K), pendRound fx q w u c =
        some (c', [(u + weightMoment l.body.mp (l.org.att.mul ⟨⟨Zm.cos q, Zm.sin q, 0⟩, ⟨-Zm.sin q, Zm.cos q, 0⟩, ⟨0, 0, 1⟩⟩) rkG)
          / axisInertia l.body.mp]) ∧
      c'.link = [l'] ∧ c'.shape = .node 0 .nil .nil ∧ IsPend l' ∧ l'.body.mp = l.body.mp ∧ l'.org = l.org := by
  obtain ⟨p, m, e1, lo, hi, tf, e2, mn, mx⟩ := h.j
  unfold pendRound Chain.fk
  have hset : LinkArray.setJointAll Prp.setDis [q] c.link = some [
      { l with joint := { l.joint with prp := .revol { p with dis := Zm.phaseNormalize q, s := Zm.sin q, c := Zm.cos q } } }] := by
    rw [hl]
    simp [LinkArray.setJointAll, Link.setAtOffset, Link.setWith, h.f, e1, Prp.setDis, lo, hi, limit, LawfulZm.sin_phase, LawfulZm.cos_phase]
  rw [hset]
  simp only [Option.bind_eq_bind, Option.bind_some, Chain.updateFK, Chain.updateFrame, Chain.updateFrameAt, hs, downAt_one,
    Option.map_some, Chain.calcCOM]
  generalize hl1 : Link.updateFrame1 (K := K) _ _ = l1
  have hset2 : LinkArray.setJointAll Prp.setVel [w] [l1] = some [
      { l1 with joint := { l1.joint with prp := .revol { p with dis := Zm.phaseNormalize q, s := Zm.sin q, c := Zm.cos q, vel := w } } }] := by
    rw [← hl1]
    simp [LinkArray.setJointAll, Link.setAtOffset, Link.setWith, h.f, Prp.setVel, Link.updateFrame1, Body.updateCOM]
  rw [hset2]
  simp only [Option.bind_some, Chain.updateVel, Chain.updateVelAt, downAt_one, Option.map_some, List.map]
  generalize hl2 : Link.updateVel1 (K := K) _ _ = l2
  generalize hl3 : (⟨l2.name, _, _, _, _, _, _⟩ : Link K) = l3
  have hj : l3.joint.prp = .revol { p with dis := Zm.phaseNormalize q, s := Zm.sin q, c := Zm.cos q, vel := w, motor := .trq { m with input := u } } := by
    rw [← hl3, ← hl2]
    simp [Link.updateVel1, Body.updateCOMVel, Prp.motorSetInput, Motor.setInput, e2, mn, mx, limit]
  have hk : l3.body.mp = l.body.mp ∧ l3.org = l.org ∧ l3.body.extw = [] ∧ l3.offset = 0 ∧ l3.abi.wlist = [] ∧
      l3.abi.m = Link.abiInertia l.body.mp := by
    rw [← hl3, ← hl2, ← hl1]
    exact ⟨rfl, rfl, h.e, h.f, h.w, h.m⟩
  have ha : l3.body.frame.att = l.org.att.mul ⟨⟨Zm.cos q, Zm.sin q, 0⟩, ⟨-Zm.sin q, Zm.cos q, 0⟩, ⟨0, 0, 1⟩⟩ := by
    rw [← hl3, ← hl2, ← hl1]
    simp [Link.updateVel1, Body.updateCOMVel, Link.updateFrame1, Body.updateCOM, Frame.cascade, Frame.ident, Prp.xform, Prp.rotZ, Mat3.mul, 
      Mat3.mulVec, Mat3.ext_iff, Vec3.ext_iff]
  have hv : l3.body.vel.ang = ⟨0, 0, w⟩ := by
    rw [← hl3, ← hl2]
    simp [Link.updateVel1, Body.updateCOMVel, Prp.incVel, Frame.xform6Lin, Vec6.linShift, Mat3.mulVecT6, Mat3.mulVecT, dot, cross, Vec3.ext_iff]
  rw [abiUpdate_one fx rfl rfl (by rw [Link.size, hj]; simp [Prp.size])]
  simp only [Option.bind_some]
  generalize hl4 : Link.abiForward (K := K) fx 0 _ = l4
  obtain ⟨k1, k2, k3, k4, k5, k6⟩ := hk
  have hq : l4.joint.prp = .revol { p with
      dis := Zm.phaseNormalize q, s := Zm.sin q, c := Zm.cos q, vel := w, motor := .trq { m with input := u }, u := u,
      acc := (u + weightMoment l.body.mp (l.org.att.mul ⟨⟨Zm.cos q, Zm.sin q, 0⟩, ⟨-Zm.sin q, Zm.cos q, 0⟩, ⟨0, 0, 1⟩⟩) rkG)
          / axisInertia l.body.mp } := by
    have hI : (Link.abiInertia l.body.mp).aa.cz.z = axisInertia l.body.mp := by
      simp [Link.abiInertia, Mat3.mul, Mat3.mulVec, Mat3.skew, axisInertia]
      ring
    rw [← hl4]
    simp [Link.abiForward, Link.abiBackward, Link.abiUpdateInit, hj, Prp.abiDrivingTorque, Prp.abiQAcc, Prp.abiAxisInertia, Motor.inputTrq, Motor.resistance,
      Motor.inertia, tf, k1, k3, k5, k6, hv, Mat3.elem, Vec3.get, hI, Prp.invAxis, ht, WrenchList.net, Body.calcExtWrench, ha, Prp.incAccOnVel, triple,
      cross, Vec6.linShift, Mat3.mulVecT6, Vec6.dot6, dot, weightMoment, Mat3.mulVecT, Mat6.rowZA]
    rw [div_eq_mul_inv]
    ring
  have hf : l4.offset = 0 := by rw [← hl4]; exact k4
  have hget : LinkArray.getJointAll Prp.getAcc [l4] [(0 : K)] = some [(u + weightMoment l.body.mp
      (l.org.att.mul ⟨⟨Zm.cos q, Zm.sin q, 0⟩, ⟨-Zm.sin q, Zm.cos q, 0⟩, ⟨0, 0, 1⟩⟩) rkG) / axisInertia l.body.mp] := by
    simp [LinkArray.getJointAll, hf, hq, Prp.getAcc, LinkArray.writeAt]
  rw [hget]
  refine ⟨_, l4, rfl, rfl, rfl, ⟨⟨_, _, hq, lo, hi, tf, rfl, mn, mx⟩, ?_, hf, ?_, ?_⟩, ?_, ?_⟩
  · rw [← hl4]; exact k3
  · rw [← hl4]; exact k5
  · rw [← hl4]
    show l3.abi.m = Link.abiInertia l3.body.mp
    rw [k6, k1]
  · rw [← hl4]; exact k1
  · rw [← hl4]; exact k2

end Roki

namespace Roki
open Textbook ZTK

/-- A reader of frames that takes the three rows of the matrix of the attitude and the position, as the files of the tests have them. -/
def rowZeo (K : Type*) : PoseZeo K where
  aa := vecTok
  frame := fun
    | .num a :: .num b :: .num c :: .num x :: .num d :: .num e :: .num f :: .num y :: .num g :: .num h :: .num i :: .num z :: _ =>
      some ⟨⟨x, y, z⟩, ⟨⟨a, d, g⟩, ⟨b, e, h⟩, ⟨c, f, i⟩⟩⟩
    | _ => none
  dh := fun _ => none

/-- The file /repo/test/invpend.ztk with the dimensions `d`, with shapes that have only a name (see `shapeName`). -/
def invPendFile {K : Type*} [Field K] (d : Dim K) : File K :=
  [("chain", [⟨"name", [.str "inverted_pendulum"]⟩]),
   ("shape", [⟨"name", [.str "base"]⟩]),
   ("shape", [⟨"name", [.str "arm"]⟩]),
   ("shape", [⟨"name", [.str "pendulum"]⟩]),
   ("link", [⟨"name", [.str "base"]⟩, ⟨"jointtype", [.str "fixed"]⟩,
     ⟨"frame", [.num 1, .num 0, .num 0, .num 0, .num 0, .num 1, .num 0, .num 0, .num 0, .num 0, .num 1, .num 0]⟩,
     ⟨"shape", [.str "base"]⟩]),
   ("link", [⟨"name", [.str "arm"]⟩, ⟨"jointtype", [.str "revolute"]⟩, ⟨"stiffness", [.num 0]⟩, ⟨"viscosity", [.num 0]⟩, ⟨"mass", [.num 0]⟩,
     ⟨"inertia", [.num 0, .num 0, .num 0, .num 0, .num 0, .num 0, .num 0, .num 0, .num d.I1]⟩, ⟨"COM", [.num 0, .num 0, .num 0]⟩,
     ⟨"frame", [.num 1, .num 0, .num 0, .num 0, .num 0, .num 1, .num 0, .num 0, .num 0, .num 0, .num 1, .num d.H]⟩,
     ⟨"shape", [.str "arm"]⟩, ⟨"parent", [.str "base"]⟩]),
   ("link", [⟨"name", [.str "pendulum"]⟩, ⟨"jointtype", [.str "revolute"]⟩, ⟨"stiffness", [.num 0]⟩, ⟨"viscosity", [.num 0]⟩,
     ⟨"mass", [.num d.M2]⟩, ⟨"inertia", [.num 0, .num 0, .num 0, .num 0, .num d.I2, .num 0, .num 0, .num 0, .num d.I2]⟩,
     ⟨"frame", [.num 0, .num 0, .num 1, .num d.L1, .num 0, .num (-1), .num 0, .num 0, .num 1, .num 0, .num 0, .num 0]⟩,
     ⟨"COM", [.num d.L2, .num 0, .num 0]⟩, ⟨"shape", [.str "pendulum"]⟩, ⟨"parent", [.str "arm"]⟩]),
   ("link", [⟨"name", [.str "tip"]⟩, ⟨"jointtype", [.str "fixed"]⟩,
     ⟨"frame", [.num 0, .num 0, .num 1, .num d.L3, .num 0, .num (-1), .num 0, .num 0, .num 1, .num 0, .num 0, .num 0]⟩,
     ⟨"parent", [.str "pendulum"]⟩])]

variable {K : Type*} [Field K] [LinearOrder K] [IsStrictOrderedRing K] [Zm K] [LawfulZm K]

/-- What matters of a joint: fixed, or turning with its limits. -/
def jointView (p : Prp K) : Option (Option (Option K × Option K)) :=
  match p with
  | .fixed => some none
  | .revol p => some (some (p.lo, p.hi))
  | _ => none

/-- What matters of a link that has been read. -/
def linkView (l : FLink K) : Option (Option (Option K × Option K)) × Frame K × MP K × WrenchList K × Bool :=
  (jointView l.link.joint.prp, l.link.org, l.link.body.mp, l.link.body.extw, l.com)

omit [LinearOrder K] [IsStrictOrderedRing K] [Zm K] [LawfulZm K] in
theorem jointView_fixed {p : Prp K} (h : jointView p = some none) : p = .fixed := by
  cases p <;> simp_all [jointView]

omit [LinearOrder K] [IsStrictOrderedRing K] [Zm K] [LawfulZm K] in
theorem jointView_revol {p : Prp K} (h : jointView p = some (some (none, none))) :
    ∃ d : Dof1 K, p = .revol d ∧ d.lo = none ∧ d.hi = none := by
  cases p <;> simp_all [jointView]

omit [IsStrictOrderedRing K] [LawfulZm K] in
theorem readParts_view (d : Dim K) (o : Order) :
    (readPartsZ (rowZeo K) o "" (invPendFile d)).map (fun r => (r.link.map linkView, r.node)) =
    some ([(some none, ⟨0, 1⟩, ⟨0, 0, 0⟩, [], true),
      (some (some (none, none)), ⟨⟨0, 0, d.H⟩, 1⟩, ⟨0, 0, ⟨0, 0, ⟨0, 0, d.I1⟩⟩⟩, [], true),
      (some (some (none, none)), ⟨⟨d.L1, 0, 0⟩, ⟨⟨0, 0, 1⟩, ⟨0, -1, 0⟩, ⟨1, 0, 0⟩⟩⟩, ⟨d.M2, ⟨d.L2, 0, 0⟩, ⟨0, ⟨0, d.I2, 0⟩, ⟨0, 0, d.I2⟩⟩⟩, [], true),
      (some none, ⟨⟨d.L3, 0, 0⟩, ⟨⟨0, 0, 1⟩, ⟨0, -1, 0⟩, ⟨1, 0, 0⟩⟩⟩, ⟨0, 0, 0⟩, [], true)],
     [⟨none, some 1, none⟩, ⟨some 0, some 2, none⟩, ⟨some 1, some 3, none⟩, ⟨some 2, none, none⟩]) := by
  cases o
  · rfl
  · rfl

/-- C119: reading the file gives such a pendulum, in whatever order the library meets the lines. -/
theorem C119_file (d : Dim K) (o : Order) (g : Vec6 K) :
    ∃ r c, readZ (rowZeo K) o "" g (invPendFile d) = some (some (r, c)) ∧ InvPend d c := by
  have h := readParts_view d o
  rw [Option.map_eq_some_iff] at h
  obtain ⟨r, h1, h2⟩ := h
  rw [Prod.mk.injEq] at h2
  obtain ⟨h2, h3⟩ := h2
  obtain ⟨l0, l1, l2, l3, e⟩ : ∃ l0 l1 l2 l3, r.link = [l0, l1, l2, l3] := by
    have := congrArg List.length h2
    rw [List.length_map] at this
    exact List.length_eq_four.1 this
  rw [e] at h2
  simp only [List.map_cons, List.map_nil, List.cons.injEq, linkView, Prod.mk.injEq, and_true] at h2
  obtain ⟨⟨a1, a2, a3, a4, a5⟩, ⟨b1, b2, b3, b4, b5⟩, ⟨c1, c2, c3, c4, c5⟩, d1, d2, d3, d4, d5⟩ := h2
  have a0 := jointView_fixed a1
  obtain ⟨p1, b0, b6, b7⟩ := jointView_revol b1
  obtain ⟨p2, c0, c6, c7⟩ := jointView_revol c1
  have d0 := jointView_fixed d1
  have ht : toTree r.node (r.node.length + 1) (some 0) = some row4 := by rw [h3]; rfl
  have ha : ¬ (r.link.any fun l => !l.com) = true := by rw [e]; simp [a5, b5, c5, d5]
  have hls : (r.chain row4).link = [{ l0.link with offset := -1 }, { l1.link with offset := 0 }, { l2.link with offset := 1 },
      { l3.link with offset := -1 }] := by
    simp [Robot.chain, e, LinkArray.setOffset, LinkArray.setOffsetFrom, Link.size, a0, b0, c0, d0, Prp.size]
  have hp : IsInvPend d { l0.link with offset := -1 } { l1.link with offset := 0 } { l2.link with offset := 1 }
      { l3.link with offset := -1 } :=
    { j0 := a0, j1 := ⟨p1, b0, b6, b7⟩, j2 := ⟨p2, c0, c6, c7⟩, j3 := d0, o0 := a2, o1 := b2, o2 := c2, o3 := d2, m0 := a3, m1 := b3, m2 := c3,
      m3 := d3, e0 := a4, e1 := b4, e2 := c4, e3 := d4, f0 := rfl, f1 := rfl, f2 := rfl, f3 := rfl }
  have hne : secs "link" (invPendFile d) ≠ [] := by simp [secs, invPendFile]
  obtain ⟨c1, m0, m1, m2, m3, e1, e2, e3, e4⟩ := updateFK_invPend hp hls rfl
  obtain ⟨c2, n0, n1, n2, n3, f1, f2, f3, f4⟩ := updateID_invPend e4 e2 e3 g
  refine ⟨r, c2, ?_, _, _, _, _, f2, f3, f4⟩
  rw [readZ, if_neg hne, h1, Option.bind_some, if_neg ha, ht, Option.bind_some, e1, Option.bind_some, f1]
  rfl

omit [LinearOrder K] [IsStrictOrderedRing K] [Zm K] [LawfulZm K] in
/-- The arm of /repo/test/scara_fk_test.c is such an arm. -/
example (a b : K) : IsScara a b (Sample.link "l1" (.revol (Sample.dof1 0 0 0 0 1 none none)) ⟨0, 0, 0⟩ ⟨0, 1⟩)
    (Sample.link "l2" (.revol (Sample.dof1 0 0 0 0 1 none none)) ⟨0, 0, 0⟩ ⟨⟨0, a, 0⟩, 1⟩) (Sample.link "tip" .fixed ⟨0, 0, 0⟩ ⟨⟨0, b, 0⟩, 1⟩) :=
  ⟨⟨_, rfl, rfl, rfl⟩, ⟨_, rfl, rfl, rfl⟩, rfl, rfl, rfl, rfl⟩

/-- The pendulum of /repo/test/simple_pend.ztk. -/
def simplePend : Chain ℚ :=
  { link := LinkArray.setOffset [Sample.link "link1" (.revol { Sample.dof1 0 0 0 0 1 none none with motor := .trq ⟨0, none, none⟩ })
      ⟨3 / 10, ⟨1 / 5, 0, 0⟩, ⟨⟨1 / 50, 0, 0⟩, ⟨0, 1 / 20, 0⟩, ⟨0, 0, 1 / 20⟩⟩⟩ ⟨0, ⟨⟨0, 0, -1⟩, ⟨0, 1, 0⟩, ⟨1, 0, 0⟩⟩⟩],
    shape := .node 0 .nil .nil, mass := 3 / 10, wldCOM := 0, comVel := 0, comAcc := 0 }

/-- C119 applies to the pendulum of /repo/test/pend_abi_test.c after `rkChainABIAlloc`. -/
theorem C119_driven_applies : ∃ l : Link ℚ, simplePend.abiAlloc.link = [l] ∧ simplePend.abiAlloc.shape = .node 0 .nil .nil ∧ IsPend l ∧
    Zm.tiny (axisInertia l.body.mp) = false ∧ axisInertia l.body.mp = 1 / 20 + 3 / 10 * (1 / 5) ^ 2 ∧
    ∀ cq sq : ℚ, weightMoment l.body.mp (l.org.att.mul ⟨⟨cq, sq, 0⟩, ⟨-sq, cq, 0⟩, ⟨0, 0, 1⟩⟩) rkG = -(3 / 10 * rkG * (1 / 5) * sq) := by
  refine ⟨_, rfl, rfl, ⟨⟨_, _, rfl, rfl, rfl, rfl, rfl, rfl, rfl⟩, rfl, rfl, rfl, rfl⟩, by decide +kernel, by decide +kernel, fun cq sq => ?_⟩
  simp [weightMoment, Sample.link, Link.abiAlloc, Mat3.mul, Mat3.mulVec, Mat3.mulVecT, dot, cross]
  ring

end Roki
