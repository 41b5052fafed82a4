import Verif.Spec.MassLinear
import Verif.Lemmas.VirtualWork5
set_option autoImplicit false

/-! # Masses and loads in inverse dynamics -/

namespace Roki
set_option linter.unusedSectionVars false
open Spec LinkArray
variable {K : Type*} [Field K]

theorem prp_rates {p q : Prp K} (h : p.still = q.still) (hv : p.getVel = q.getVel) (ha : p.getAcc = q.getAcc) :
    twist p = twist q ∧ (∀ w, velAcc p w = velAcc q w) ∧ accTwist p = accTwist q := by
  cases p <;> cases q <;> simp only [Prp.still, Prp.revol.injEq, Prp.prism.injEq, Prp.cylin.injEq,
    Prp.hooke.injEq, Prp.spher.injEq, Prp.float.injEq, Prp.brfloat.injEq, reduceCtorEq] at h
  all_goals
    try simp only [Prp.getVel, Prp.getAcc, Vec3.toBuf, Vec6.toBuf, List.cons_append, List.nil_append, List.cons.injEq, and_true] at hv ha
    try simp only [Dof1.mk.injEq, Dof2.mk.injEq, SpherPrp.mk.injEq, FloatPrp.mk.injEq, true_and, and_true] at h
    simp only [twist, velAcc, accTwist, Prp.incVel, Prp.incAccOnVel, Prp.incAcc]
    try vec_unfold
    simp [h, hv, ha]

theorem calcTrq_blend {p q r : Prp K} (h1 : p.still = r.still) (h2 : q.still = r.still) (a b : K) (f g : Vec6 K) :
    (r.calcTrq (a • f + b • g)).getTrq = List.zipWith (fun x y => a * x + b * y) (p.calcTrq f).getTrq (q.calcTrq g).getTrq := by
  cases p <;> cases r <;> simp only [Prp.still, Prp.revol.injEq, Prp.prism.injEq, Prp.cylin.injEq,
    Prp.hooke.injEq, Prp.spher.injEq, Prp.float.injEq, Prp.brfloat.injEq, reduceCtorEq] at h1 <;>
    cases q <;> simp only [Prp.still, Prp.revol.injEq, Prp.prism.injEq, Prp.cylin.injEq,
    Prp.hooke.injEq, Prp.spher.injEq, Prp.float.injEq, Prp.brfloat.injEq, reduceCtorEq] at h2
  all_goals
    try simp only [Dof1.mk.injEq, Dof2.mk.injEq, SpherPrp.mk.injEq, FloatPrp.mk.injEq, true_and, and_true] at h1 h2
    simp only [Prp.calcTrq, Prp.getTrq, Vec3.toBuf, Vec6.toBuf, List.cons_append, List.nil_append, List.zipWith_cons_cons, List.zipWith_nil_left]
    try vec_unfold
    try simp [h1, h2]
    try (repeat' (first | trivial | refine ⟨?_, ?_⟩ | ring1))

/-- The wrench that a link needs for its own motion, about its origin, by mass, first and second moment. -/
theorem ownWrench_eq (b : Body K) :
    ({ b with comAcc := triple b.vel.ang b.vel.ang b.mp.com + cross b.acc.ang b.mp.com + b.acc.lin } : Body K).netWrench.angShift b.mp.com =
      ⟨b.mp.mass • b.acc.lin + cross b.acc.ang (b.mp.mass • b.mp.com) + cross b.vel.ang (cross b.vel.ang (b.mp.mass • b.mp.com)),
       cross b.vel.ang ((inertiaAbout b.mp 0).mulVec b.vel.ang) + (inertiaAbout b.mp 0).mulVec b.acc.ang +
        cross (b.mp.mass • b.mp.com) b.acc.lin⟩ := by
  simp only [Body.netWrench, Vec6.angShift, inertiaAbout, triple]
  vec_ring

theorem net_resultant (e : WrenchList K) : WrenchList.net e = ⟨(resultant e).1, (resultant e).2⟩ := by
  have key : ∀ (e : WrenchList K) (w : Vec6 K), e.foldl (fun w c => w + c.shift) w = w + ⟨(resultant e).1, (resultant e).2⟩ := by
    intro e
    induction e with
    | nil => intro w; simp only [List.foldl_nil, resultant, List.map_nil, List.sum_nil]; vec_ring
    | cons x e ih =>
      intro w
      rw [List.foldl_cons, ih]
      simp only [resultant, List.map_cons, List.sum_cons, Wrench.shift, Vec6.angShift]
      generalize (List.map (fun w : Wrench K => w.w.lin) e).sum = s
      generalize (List.map (fun w : Wrench K => w.w.ang + cross w.p w.w.lin) e).sum = t
      vec_ring
  rw [WrenchList.net, key]
  vec_ring

/-- Three states of a link before inverse dynamics. -/
structure PreLin (a b : K) (x y z : Link K) : Prop where
  adx : x.adj = z.adj
  ady : y.adj = z.adj
  stx : x.joint.prp.still = z.joint.prp.still
  sty : y.joint.prp.still = z.joint.prp.still
  vx : x.joint.prp.getVel = z.joint.prp.getVel
  vy : y.joint.prp.getVel = z.joint.prp.getVel
  ax : x.joint.prp.getAcc = z.joint.prp.getAcc
  ay : y.joint.prp.getAcc = z.joint.prp.getAcc
  mp : Blend a b x.body.mp y.body.mp z.body.mp
  ext : z.body.calcExtWrench = a • x.body.calcExtWrench + b • y.body.calcExtWrench

/-- Their wrenches after the rates are updated. -/
structure PostLin (a b : K) (x y z : Link K) : Prop where
  adx : x.adj = z.adj
  ady : y.adj = z.adj
  stx : x.joint.prp.still = z.joint.prp.still
  sty : y.joint.prp.still = z.joint.prp.still
  own : z.body.netWrench.angShift z.body.mp.com =
    a • x.body.netWrench.angShift x.body.mp.com + b • y.body.netWrench.angShift y.body.mp.com
  ext : z.body.calcExtWrench = a • x.body.calcExtWrench + b • y.body.calcExtWrench

theorem updateRate1_own (l : Link K) (v a : Vec6 K) :
    (l.updateRate1 v a).body.netWrench.angShift (l.updateRate1 v a).body.mp.com =
      ⟨l.body.mp.mass • (l.updateRate1 v a).body.acc.lin + cross (l.updateRate1 v a).body.acc.ang (l.body.mp.mass • l.body.mp.com) +
          cross (l.updateRate1 v a).body.vel.ang (cross (l.updateRate1 v a).body.vel.ang (l.body.mp.mass • l.body.mp.com)),
       cross (l.updateRate1 v a).body.vel.ang ((inertiaAbout l.body.mp 0).mulVec (l.updateRate1 v a).body.vel.ang) +
          (inertiaAbout l.body.mp 0).mulVec (l.updateRate1 v a).body.acc.ang +
        cross (l.body.mp.mass • l.body.mp.com) (l.updateRate1 v a).body.acc.lin⟩ :=
  ownWrench_eq (l.updateRate1 v a).body

theorem all3_rateLin {a b : K} {A B C : LTree (Link K)} (h : A.All3 (PreLin a b) B C) (v w : Vec6 K) :
    (A.updateRate v w).All3 (PostLin a b) (B.updateRate v w) (C.updateRate v w) := by
  induction A generalizing B C v w with
  | nil => rcases B with _ | _ <;> rcases C with _ | _ <;> simp_all [LTree.All3, LTree.updateRate]
  | node l c s ihc ihs =>
    rcases B with _ | ⟨m, c', s'⟩
    · simp [LTree.All3] at h
    rcases C with _ | ⟨n, c'', s''⟩
    · simp [LTree.All3] at h
    obtain ⟨r, rc, rs⟩ := h
    obtain ⟨t1, t2, t3⟩ := prp_rates r.stx r.vx r.ax
    obtain ⟨u1, u2, u3⟩ := prp_rates r.sty r.vy r.ay
    have hv1 : (l.updateRate1 v w).body.vel = (n.updateRate1 v w).body.vel := by
      rw [(updateRate1_eq l v w).1, (updateRate1_eq n v w).1, t1, r.adx]
    have hv2 : (m.updateRate1 v w).body.vel = (n.updateRate1 v w).body.vel := by
      rw [(updateRate1_eq m v w).1, (updateRate1_eq n v w).1, u1, r.ady]
    have ha1 : (l.updateRate1 v w).body.acc = (n.updateRate1 v w).body.acc := by
      rw [(updateRate1_eq l v w).2, (updateRate1_eq n v w).2, t3, t2, r.adx, hv1]
    have ha2 : (m.updateRate1 v w).body.acc = (n.updateRate1 v w).body.acc := by
      rw [(updateRate1_eq m v w).2, (updateRate1_eq n v w).2, u3, u2, r.ady, hv2]
    refine ⟨⟨r.adx, r.ady, r.stx, r.sty, ?_, r.ext⟩, ?_, ihs rs v w⟩
    · rw [updateRate1_own l, updateRate1_own m, updateRate1_own n, hv1, hv2, ha1, ha2, r.mp.mass, r.mp.second]
      have hf := r.mp.first
      rw [r.mp.mass] at hf
      rw [hf]
      generalize (n.updateRate1 v w).body.vel.ang = o
      generalize (n.updateRate1 v w).body.acc = y
      generalize inertiaAbout l.body.mp 0 = I
      generalize inertiaAbout m.body.mp 0 = J
      vec_ring
    · have e := ihc rc (n.updateRate1 v w).body.vel (n.updateRate1 v w).body.acc
      simp only [hv1, hv2, ha1, ha2]
      exact e

/-- Their joints after the wrenches are updated. -/
structure WrenchLin (a b : K) (x y z : Link K) : Prop where
  adx : x.adj = z.adj
  ady : y.adj = z.adj
  wr : z.joint.wrench = a • x.joint.wrench + b • y.joint.wrench
  trq : z.joint.prp.getTrq = List.zipWith (fun s t => a * s + b * t) x.joint.prp.getTrq y.joint.prp.getTrq

theorem addChild_lin {a b : K} {A B C : LTree (Link K)} (h : A.All3 (WrenchLin a b) B C) :
    C.addChildWrench 0 = a • A.addChildWrench 0 + b • B.addChildWrench 0 := by
  induction A generalizing B C with
  | nil =>
    rcases B with _ | _ <;> rcases C with _ | _ <;> simp only [LTree.All3] at h
    simp only [LTree.addChildWrench]; vec_ring
  | node l c s _ ihs =>
    rcases B with _ | ⟨m, c', s'⟩
    · simp [LTree.All3] at h
    rcases C with _ | ⟨n, c'', s''⟩
    · simp [LTree.All3] at h
    obtain ⟨r, -, rs⟩ := h
    simp only [LTree.addChildWrench]
    rw [LTree.addChildWrench_eq s'', LTree.addChildWrench_eq s', LTree.addChildWrench_eq s, ihs rs, r.wr, r.adx, r.ady]
    simp only [Frame.xform6Ang]
    generalize LTree.addChildWrench 0 s = p
    generalize LTree.addChildWrench 0 s' = q
    vec_ring

theorem all3_wrenchLin {a b : K} {A B C : LTree (Link K)} (h : A.All3 (PostLin a b) B C) :
    A.updateWrench.All3 (WrenchLin a b) B.updateWrench C.updateWrench := by
  induction A generalizing B C with
  | nil => rcases B with _ | _ <;> rcases C with _ | _ <;> simp_all [LTree.All3, LTree.updateWrench]
  | node l c s ihc ihs =>
    rcases B with _ | ⟨m, c', s'⟩
    · simp [LTree.All3] at h
    rcases C with _ | ⟨n, c'', s''⟩
    · simp [LTree.All3] at h
    obtain ⟨r, rc, rs⟩ := h
    have e := addChild_lin (ihc rc)
    have hw : LTree.addChildWrench (n.body.netWrench.angShift n.body.mp.com) c''.updateWrench - n.body.calcExtWrench =
        a • (LTree.addChildWrench (l.body.netWrench.angShift l.body.mp.com) c.updateWrench - l.body.calcExtWrench) +
        b • (LTree.addChildWrench (m.body.netWrench.angShift m.body.mp.com) c'.updateWrench - m.body.calcExtWrench) := by
      rw [LTree.addChildWrench_eq c.updateWrench, LTree.addChildWrench_eq c'.updateWrench, LTree.addChildWrench_eq c''.updateWrench, e,
        r.own, r.ext]
      generalize LTree.addChildWrench 0 c.updateWrench = p
      generalize LTree.addChildWrench 0 c'.updateWrench = q
      generalize l.body.netWrench.angShift l.body.mp.com = x
      generalize m.body.netWrench.angShift m.body.mp.com = y
      vec_ring
    refine ⟨⟨r.adx, r.ady, hw, ?_⟩, ihc rc, ihs rs⟩
    dsimp only
    rw [hw]
    exact calcTrq_blend r.stx r.sty a b _ _

end Roki
