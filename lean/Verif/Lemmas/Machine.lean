import Verif.Spec.Machine
import Verif.Lemmas.MassLinear
import Verif.Lemmas.Tree
import Verif.Lemmas.FK
set_option autoImplicit false

/-! # One mechanism described by different links and joints -/

namespace Roki.Machine
set_option linter.unusedSectionVars false
open Spec
variable {K : Type*} [Field K]

/-! ## Motion of a base seen from a displaced frame -/

def mvel (D : Frame K) (v : Vec6 K) : Vec6 K := D.xform6Lin v
def macc (D : Frame K) (v a : Vec6 K) : Vec6 K :=
  D.att.mulVecT6 ⟨a.lin + cross a.ang D.pos + cross v.ang (cross v.ang D.pos), a.ang⟩

theorem mvel_ident (v : Vec6 K) : mvel Frame.ident v = v := Frame.ident_xform6Lin v
theorem macc_ident (v a : Vec6 K) : macc Frame.ident v a = a := by
  simp only [macc]; vec_ring

theorem mvel_cascade {D : Frame K} (h : D.att.IsRot) (E : Frame K) (v : Vec6 K) : mvel (D.cascade E) v = mvel E (mvel D v) := by
  simp only [mvel, Frame.xform6Lin, Vec6.linShift, Mat3.mulVecT6, Frame.cascade_pos, Frame.cascade_att, Mat3.mul_mulVecT, cross_add_right,
    Mat3.mulVecT_add, h.mulVecT_cross, h.mulVecT_mulVec]
  ext <;> simp [add_assoc]

theorem macc_cascade {D : Frame K} (h : D.att.IsRot) (E : Frame K) (v a : Vec6 K) :
    macc (D.cascade E) v a = macc E (mvel D v) (macc D v a) := by
  simp only [mvel, macc, Frame.xform6Lin, Vec6.linShift, Mat3.mulVecT6, Frame.cascade_pos, Frame.cascade_att, Mat3.mul_mulVecT, cross_add_right,
    Mat3.mulVecT_add, h.mulVecT_cross, h.mulVecT_mulVec]
  congr 1
  abel

theorem rate_vel (l : Link K) (v a : Vec6 K) : (l.updateRate1 v a).body.vel = l.joint.prp.incVel (mvel l.adj v) := rfl
theorem rate_acc (l : Link K) (v a : Vec6 K) :
    (l.updateRate1 v a).body.acc = l.joint.prp.incAcc (l.joint.prp.incAccOnVel (l.joint.prp.incVel (mvel l.adj v)).ang (macc l.adj v a)) := rfl

/-! ## Own wrench of a load -/

def own (x : Load K) (v a : Vec6 K) : Vec6 K :=
  ⟨x.1.mass • a.lin + cross a.ang (x.1.mass • x.1.com) + cross v.ang (cross v.ang (x.1.mass • x.1.com)) - (resultant x.2).1,
   cross v.ang ((inertiaAbout x.1 0).mulVec v.ang) + (inertiaAbout x.1 0).mulVec a.ang + cross (x.1.mass • x.1.com) a.lin - (resultant x.2).2⟩

theorem own_link (l : Link K) (v a : Vec6 K) :
    (l.updateRate1 v a).body.netWrench.angShift (l.updateRate1 v a).body.mp.com - (l.updateRate1 v a).body.calcExtWrench =
      own (loadOf l) (l.updateRate1 v a).body.vel (l.updateRate1 v a).body.acc := by
  rw [updateRate1_own]
  have : (l.updateRate1 v a).body.calcExtWrench = WrenchList.net l.body.extw := rfl
  rw [this, net_resultant]
  rfl

theorem own_totals {x : Load K} {L : List (Load K)} (h : Totals x L) (v a : Vec6 K) : own x v a = (L.map fun y => own y v a).sum := by
  obtain ⟨h1, h2, h3, h4, h5⟩ := h
  unfold own
  rw [h2, h3, h4, h5, h1]
  clear h1 h2 h3 h4 h5
  induction L with
  | nil => simp only [List.map_nil, List.sum_nil]; vec_ring
  | cons y L ih =>
    simp only [List.map_cons, List.sum_cons]
    rw [← ih]
    generalize (List.map (fun y : Load K => y.1.mass) L).sum = p1
    generalize (List.map (fun y : Load K => y.1.mass • y.1.com) L).sum = p2
    generalize (List.map (fun y : Load K => inertiaAbout y.1 0) L).sum = p3
    generalize (List.map (fun y : Load K => (resultant y.2).1) L).sum = p4
    generalize (List.map (fun y : Load K => (resultant y.2).2) L).sum = p5
    generalize inertiaAbout y.1 0 = p6
    generalize (resultant y.2).1 = p7
    generalize (resultant y.2).2 = p8
    vec_ring

theorem own_bare {l : Link K} (h : Bare l) (v a : Vec6 K) : own (loadOf l) v a = 0 := by
  unfold own loadOf
  rw [h.mass, h.extw]
  simp only [resultant, inertiaAbout, h.mass, h.inertia, List.map_nil, List.sum_nil]
  vec_ring

/-- By mass, center of mass and inertia about it. -/
theorem own_com (x : Load K) (v a : Vec6 K) : own x v a =
    ⟨x.1.mass • (a.lin + cross a.ang x.1.com + cross v.ang (cross v.ang x.1.com)) - (resultant x.2).1,
     cross v.ang (x.1.inertia.mulVec v.ang) + x.1.inertia.mulVec a.ang +
      cross x.1.com (x.1.mass • (a.lin + cross a.ang x.1.com + cross v.ang (cross v.ang x.1.com))) - (resultant x.2).2⟩ := by
  unfold own
  simp only [inertiaAbout]
  generalize (resultant x.2).1 = p7
  generalize (resultant x.2).2 = p8
  vec_ring

theorem resultant_placed {D : Frame K} (h : D.att.IsRot) (e : WrenchList K) :
    resultant (e.map fun w => (⟨⟨D.att.mulVec w.w.lin, D.att.mulVec w.w.ang⟩, D.att.mulVec w.p + D.pos⟩ : Wrench K)) =
      (D.att.mulVec (resultant e).1, D.att.mulVec (resultant e).2 + cross D.pos (D.att.mulVec (resultant e).1)) := by
  simp only [resultant, List.map_map, Function.comp_def, Prod.mk.injEq]
  constructor
  · induction e with
    | nil => simp
    | cons w e ih => simp only [List.map_cons, List.sum_cons, ih, Mat3.mulVec_add]
  · induction e with
    | nil => simp only [List.map_nil, List.sum_nil]; vec_ring
    | cons w e ih =>
      simp only [List.map_cons, List.sum_cons]
      rw [ih]
      simp only [Mat3.mulVec_add, h.mulVec_cross, cross_add_right, cross_add_left]
      abel

theorem own_placed {D : Frame K} (h : D.att.IsRot) (x : Load K) (v a : Vec6 K) :
    own (x.placed D) v a = D.xform6Ang (own x (mvel D v) (macc D v a)) := by
  rw [own_com, own_com]
  unfold Load.placed
  dsimp only
  rw [resultant_placed h]
  generalize (resultant x.2).1 = p7
  generalize (resultant x.2).2 = p8
  have ht : ∀ I : Mat3 K, ∀ u, ((D.att.mul I).mul D.att.tr).mulVec u = D.att.mulVec (I.mulVec (D.att.mulVecT u)) := by
    intro I u; rw [Mat3.mul_mulVec, Mat3.mul_mulVec, Mat3.mulVecT_eq]
  have hc : ∀ u w, D.att.mulVec (cross (D.att.mulVecT u) w) = cross u (D.att.mulVec w) := by
    intro u w; rw [h.mulVec_cross, h.mulVec_mulVecT]
  simp only [ht, Frame.xform6Ang, Mat3.mulVec6, Vec6.angShift, mvel, macc, Frame.xform6Lin, Mat3.mulVecT6, Vec6.linShift,
    Mat3.mulVec_add, Mat3.mulVec_sub, Mat3.mulVec_smul, hc, h.mulVec_mulVecT, h.mulVec_cross]
  generalize D.att.mulVec x.1.com = k
  generalize D.att.mulVec p7 = p
  generalize D.att.mulVec p8 = q
  generalize D.att.mulVec (x.1.inertia.mulVec (D.att.mulVecT v.ang)) = r
  generalize D.att.mulVec (x.1.inertia.mulVec (D.att.mulVecT a.ang)) = s
  vec_ring

/-! ## The three passes -/

def run (X : Frame K) (v a : Vec6 K) (T : LTree (Link K)) : LTree (Link K) := ((T.updateFrame X).updateRate v a).updateWrench

def V (l : Link K) (v : Vec6 K) : Vec6 K := l.joint.prp.incVel (mvel (linkFrame l) v)
def A (l : Link K) (v a : Vec6 K) : Vec6 K := l.joint.prp.incAcc (l.joint.prp.incAccOnVel (V l v).ang (macc (linkFrame l) v a))

structure Done (l z : Link K) (X : Frame K) (v a w : Vec6 K) : Prop where
  org : z.org = l.org
  load : loadOf z = loadOf l
  adj : z.adj = linkFrame l
  frame : z.body.frame = X.cascade (linkFrame l)
  vel : z.body.vel = V l v
  acc : z.body.acc = A l v a
  wrench : z.joint.wrench = own (loadOf l) (V l v) (A l v a) + w
  prp : z.joint.prp = l.joint.prp.calcTrq z.joint.wrench

theorem run_node (l : Link K) (c s : LTree (Link K)) (X : Frame K) (v a : Vec6 K) :
    ∃ z, run X v a (.node l c s) = .node z (run (X.cascade (linkFrame l)) (V l v) (A l v a) c) (run X v a s) ∧
      Done l z X v a ((run (X.cascade (linkFrame l)) (V l v) (A l v a) c).addChildWrench 0) := by
  have hadj : (l.updateFrame1 X).adj = linkFrame l := xform_eq _ _
  have hf : (l.updateFrame1 X).body.frame = X.cascade (linkFrame l) := updateFrame1_frame l X
  have hv : ((l.updateFrame1 X).updateRate1 v a).body.vel = V l v := by rw [rate_vel, hadj]; rfl
  have ha : ((l.updateFrame1 X).updateRate1 v a).body.acc = A l v a := by rw [rate_acc, hadj]; rfl
  have hf' : ((l.updateFrame1 X).updateRate1 v a).body.frame = X.cascade (linkFrame l) := hf
  have hadj' : ((l.updateFrame1 X).updateRate1 v a).adj = linkFrame l := hadj
  have ho := own_link (l.updateFrame1 X) v a
  rw [hv, ha] at ho
  let l2 := (l.updateFrame1 X).updateRate1 v a
  let w := (run (X.cascade (linkFrame l)) (V l v) (A l v a) c).addChildWrench (l2.body.netWrench.angShift l2.body.mp.com) - l2.body.calcExtWrench
  refine ⟨{ l2 with joint := ⟨l2.joint.prp.calcTrq w, w⟩ }, ?_, rfl, rfl, hadj', hf', hv, ha, ?_, rfl⟩
  · unfold run
    simp only [LTree.updateFrame, LTree.updateRate, LTree.updateWrench, l2, w]
    rw [hv, ha, hf]
    rfl
  · have : loadOf (l.updateFrame1 X) = loadOf l := rfl
    rw [this] at ho
    show w = _
    simp only [w, l2]
    rw [← ho, LTree.addChildWrench_eq]
    abel

/-! ## Joints in series -/

theorem cylin_vel {p q r : Prp K} (h : IsCylin p q r) (v : Vec6 K) :
    p.incVel (mvel (jointFrame p) v) = r.incVel (mvel (jointFrame r) (q.incVel (mvel (jointFrame q) v))) := by
  obtain ⟨x, y, z, rfl, rfl, rfl, h1, h2, h3, h4, h5, h6, h7⟩ := h
  simp only [mvel, jointFrame, Prp.incVel, h1, h2, h3, h4, h5, h6, h7, Rz]
  vec_ring

theorem cylin_acc {p q r : Prp K} (h : IsCylin p q r) (v a : Vec6 K) :
    p.incAcc (p.incAccOnVel (p.incVel (mvel (jointFrame p) v)).ang (macc (jointFrame p) v a)) =
      r.incAcc (r.incAccOnVel (r.incVel (mvel (jointFrame r) (q.incVel (mvel (jointFrame q) v)))).ang
        (macc (jointFrame r) (q.incVel (mvel (jointFrame q) v))
          (q.incAcc (q.incAccOnVel (q.incVel (mvel (jointFrame q) v)).ang (macc (jointFrame q) v a))))) := by
  obtain ⟨x, y, z, rfl, rfl, rfl, h1, h2, h3, h4, h5, h6, h7⟩ := h
  simp only [mvel, macc, jointFrame, Prp.incVel, Prp.incAcc, Prp.incAccOnVel, h1, h2, h3, h4, h5, h6, h7, Rz]
  vec_ring

theorem cylin_frame {p q r : Prp K} (h : IsCylin p q r) : jointFrame p = (jointFrame q).cascade (jointFrame r) := by
  obtain ⟨x, y, z, rfl, rfl, rfl, h1, h2, h3, h4, h5, h6, h7⟩ := h
  simp only [jointFrame, h1, h4, h5]
  vec_ring

theorem hooke_frame {p q r : Prp K} (h : IsHooke p q r) :
    (jointFrame p).cascade turnX = (jointFrame q).cascade (turnX.cascade (jointFrame r)) := by
  obtain ⟨x, y, z, rfl, rfl, rfl, h1, h2, h3, h4, h5, h6, h7⟩ := h
  simp only [jointFrame, h1, h2, h5, h6, Rz, Ry, turnX]
  vec_ring

theorem hooke_vel {p q r : Prp K} (h : IsHooke p q r) (v : Vec6 K) :
    mvel turnX (p.incVel (mvel (jointFrame p) v)) =
      r.incVel (mvel (turnX.cascade (jointFrame r)) (q.incVel (mvel (jointFrame q) v))) := by
  obtain ⟨x, y, z, rfl, rfl, rfl, h1, h2, h3, h4, h5, h6, h7⟩ := h
  simp only [mvel, jointFrame, Prp.incVel, *, Rz, Ry, turnX]
  vec_ring

theorem hooke_acc {p q r : Prp K} (h : IsHooke p q r) (hp : p.WF) (v a : Vec6 K) :
    macc turnX (p.incVel (mvel (jointFrame p) v)) (p.incAcc (p.incAccOnVel (p.incVel (mvel (jointFrame p) v)).ang (macc (jointFrame p) v a))) =
      r.incAcc (r.incAccOnVel (r.incVel (mvel (turnX.cascade (jointFrame r)) (q.incVel (mvel (jointFrame q) v)))).ang
        (macc (turnX.cascade (jointFrame r)) (q.incVel (mvel (jointFrame q) v))
          (q.incAcc (q.incAccOnVel (q.incVel (mvel (jointFrame q) v)).ang (macc (jointFrame q) v a))))) := by
  obtain ⟨x, y, z, rfl, rfl, rfl, h1, h2, h3, h4, h5, h6, h7, h8⟩ := h
  obtain ⟨-, hp⟩ := hp
  simp only [mvel, macc, jointFrame, Prp.incVel, Prp.incAcc, Prp.incAccOnVel, h1, h2, h3, h4, h5, h6, h7, h8, Rz, Ry, turnX]
  vec_unfold
  refine ⟨⟨?_, ?_, ?_⟩, ?_, ?_, ?_⟩
  all_goals first
    | ring1
    | linear_combination (x.vel0 * (x.c0 * v.ang.x + x.s0 * v.ang.y)) * hp
    | linear_combination (-x.vel0 * (x.c0 * v.ang.x + x.s0 * v.ang.y)) * hp

theorem cylin_trq {p q r : Prp K} (h : IsCylin p q r) (w : Vec6 K) :
    (p.calcTrq w).getTrq = (q.calcTrq ((jointFrame r).xform6Ang w)).getTrq ++ (r.calcTrq w).getTrq := by
  obtain ⟨x, y, z, rfl, rfl, rfl, h1, h2, h3, h4, h5, h6, h7⟩ := h
  simp only [Prp.calcTrq, Prp.getTrq, jointFrame, Rz, List.cons_append, List.nil_append, List.cons.injEq, and_true]
  vec_ring

theorem hooke_trq {p q r : Prp K} (h : IsHooke p q r) (w : Vec6 K) :
    (p.calcTrq (turnX.xform6Ang w)).getTrq = (q.calcTrq ((turnX.cascade (jointFrame r)).xform6Ang w)).getTrq ++ (r.calcTrq w).getTrq := by
  obtain ⟨x, y, z, rfl, rfl, rfl, h1, h2, h3, h4, h5, h6, h7⟩ := h
  simp only [Prp.calcTrq, Prp.getTrq, jointFrame, Rz, turnX, h5, h6, List.cons_append, List.nil_append, List.cons.injEq, and_true]
  vec_ring

theorem cylin_calc {p q r : Prp K} (h : IsCylin p q r) (w x y : Vec6 K) : IsCylin (p.calcTrq w) (q.calcTrq x) (r.calcTrq y) := by
  obtain ⟨_, _, _, rfl, rfl, rfl, h⟩ := h
  exact ⟨_, _, _, rfl, rfl, rfl, h⟩

theorem hooke_calc {p q r : Prp K} (h : IsHooke p q r) (w x y : Vec6 K) : IsHooke (p.calcTrq w) (q.calcTrq x) (r.calcTrq y) := by
  obtain ⟨_, _, _, rfl, rfl, rfl, h⟩ := h
  exact ⟨_, _, _, rfl, rfl, rfl, h⟩

theorem isRot_turnX : (turnX : Frame K).att.IsRot := by
  constructor <;> simp only [turnX] <;> vec_ring

theorem bare_done {l z : Link K} (h : Bare l) (e : loadOf z = loadOf l) : Bare z := by
  simp only [loadOf, Prod.mk.injEq] at e
  exact ⟨by rw [e.1, h.mass], by rw [e.1, h.inertia], by rw [e.2, h.extw]⟩

/-! ## Siblings -/

theorem run_beside (X : Frame K) (v a : Vec6 K) (t u : LTree (Link K)) : run X v a (beside t u) = beside (run X v a t) (run X v a u) := by
  induction t with
  | nil => rfl
  | node l c s _ ih =>
    obtain ⟨z, e, -⟩ := run_node l c s X v a
    rw [e]
    simp only [beside]
    rw [← ih]
    have : run X v a (.node l c (beside s u)) = _ := rfl
    unfold run at e ⊢
    simp only [LTree.updateFrame, LTree.updateRate, LTree.updateWrench, LTree.node.injEq] at e ⊢
    exact ⟨e.1, e.2.1, trivial⟩

theorem addChild_beside (t u : LTree (Link K)) : (beside t u).addChildWrench 0 = t.addChildWrench 0 + u.addChildWrench 0 := by
  induction t with
  | nil => simp [beside, LTree.addChildWrench]
  | node l c s _ ih =>
    simp only [beside, LTree.addChildWrench]
    rw [LTree.addChildWrench_eq (beside s u), ih, LTree.addChildWrench_eq s (0 + _)]
    abel

theorem toList_beside {α : Type*} (t u : LTree α) : (beside t u).toList = t.toList ++ u.toList := by
  induction t with
  | nil => rfl
  | node l c s _ ih => simp [beside, LTree.toList, ih]

theorem torquesOf_node (l : Link K) (c s : LTree (Link K)) :
    torquesOf (.node l c s) = l.joint.prp.getTrq ++ (torquesOf c ++ torquesOf s) := by
  simp [torquesOf, LTree.toList]

theorem torquesOf_nil : torquesOf (.nil : LTree (Link K)) = [] := rfl

theorem torquesOf_beside (t u : LTree (Link K)) : torquesOf (beside t u) = torquesOf t ++ torquesOf u := by
  simp [torquesOf, toList_beside]

theorem addChild_node (l : Link K) (c s : LTree (Link K)) :
    (LTree.node l c s).addChildWrench 0 = l.adj.xform6Ang l.joint.wrench + s.addChildWrench 0 := by
  simp only [LTree.addChildWrench]
  rw [LTree.addChildWrench_eq, zero_add]

theorem sameMotion_of {D : Frame K} {l m : Link K} (h : m.body.frame = l.body.frame.cascade D) (hv : m.body.vel = mvel D l.body.vel)
    (ha : m.body.acc = macc D l.body.vel l.body.acc) : SameMotion D l m :=
  ⟨h, by rw [hv]; rfl, by rw [hv]; rfl, by rw [ha]; rfl, by rw [ha]; rfl⟩

/-! ## The simulation -/

/-- Wrenches of the loads that move with the base. -/
def loads (L : List (Load K)) (v a : Vec6 K) : Vec6 K := (L.map fun y => own y v a).sum

theorem simulation {R : Frame K → Link K → Link K → Prop} {F : Frame K} {L : List (Load K)} {t u : LTree (Link K)} (h : Same R F L t u) :
    ∀ (X : Frame K) (v a : Vec6 K), F.att.IsRot → (∀ m ∈ u.toList, m.org.att.IsRot ∧ m.joint.prp.WF) →
      Same SameMotion F L (run X v a t) (run (X.cascade F) (mvel F v) (macc F v a) u) ∧
      (run X v a t).addChildWrench 0 + loads L v a = F.xform6Ang ((run (X.cascade F) (mvel F v) (macc F v a) u).addChildWrench 0) ∧
      torquesOf (run X v a t) = torquesOf (run (X.cascade F) (mvel F v) (macc F v a) u) := by
  induction h with
  | nil F =>
    intro X v a _ _
    refine ⟨.nil _, ?_, rfl⟩
    show (0 : Vec6 K) + 0 = F.xform6Ang 0
    simp
  | @link F L M l m c s c' s' ho hp ht _ _ _ ihc ihs =>
    intro X v a hF hw
    have hm := hw m (by simp [LTree.toList])
    have hlf : linkFrame l = F.cascade (linkFrame m) := by simp only [linkFrame, ho, hp, Frame.cascade_assoc]
    have hV : V l v = V m (mvel F v) := by simp only [V, hlf, hp, mvel_cascade hF]
    have hA : A l v a = A m (mvel F v) (macc F v a) := by simp only [A, hV, hlf, hp, macc_cascade hF]
    obtain ⟨z, ez, dz⟩ := run_node l c s X v a
    obtain ⟨y, ey, dy⟩ := run_node m c' s' (X.cascade F) (mvel F v) (macc F v a)
    obtain ⟨ic1, ic2, ic3⟩ := ihc (X.cascade (linkFrame l)) (V l v) (A l v a) Mat3.isRot_one (fun m hm => hw m (by simp [LTree.toList, hm]))
    obtain ⟨is1, is2, is3⟩ := ihs X v a hF (fun m hm => hw m (by simp [LTree.toList, hm]))
    rw [Frame.cascade_ident, mvel_ident, macc_ident] at ic1 ic2 ic3
    rw [Frame.cascade_assoc, ← hlf, ← hV, ← hA] at ey dy
    have hwr : z.joint.wrench = y.joint.wrench := by
      rw [dz.wrench, dy.wrench, ← hV, ← hA, own_totals ht]
      rw [Frame.ident_xform6Ang] at ic2
      rw [← ic2]
      simp only [List.map_cons, List.sum_cons, loads]
      abel
    have hprp : z.joint.prp = y.joint.prp := by rw [dz.prp, dy.prp, hwr, hp]
    rw [ez, ey]
    refine ⟨.link (by rw [dz.org, dy.org, ho]) hprp (by rw [dz.load, dy.load]; exact ht) ?_ ic1 is1, ?_, ?_⟩
    · refine sameMotion_of ?_ ?_ ?_
      · rw [dz.frame, dy.frame, Frame.cascade_ident, hlf, Frame.cascade_assoc]
      · rw [dz.vel, dy.vel, mvel_ident, hV]
      · rw [dz.acc, dy.acc, macc_ident, hA]
    · rw [addChild_node, addChild_node, Frame.xform6Ang_add, ← is2, dz.adj, dy.adj, hlf, hwr, Frame.cascade_xform6Ang hF]
      abel
    · rw [torquesOf_node, torquesOf_node, hprp, ic3, is3]
  | @cylin F L M l q m c s c' s' ho hmo hp hb ht _ _ _ ihc ihs =>
    intro X v a hF hw
    have hm := hw m (by simp [LTree.toList])
    have hq := hw q (by simp [LTree.toList])
    have hlm : linkFrame m = jointFrame m.joint.prp := by simp only [linkFrame, hmo, Frame.ident_cascade]
    have hlf : linkFrame l = (F.cascade (linkFrame q)).cascade (linkFrame m) := by
      rw [hlm]; simp only [linkFrame, ho, cylin_frame hp, Frame.cascade_assoc]
    have hro : (F.cascade q.org).att.IsRot := hF.mul hq.1
    have hV : V l v = V m (V q (mvel F v)) := by
      simp only [V, hlm]
      rw [linkFrame, ho, mvel_cascade hro, cylin_vel hp, mvel_cascade hF, linkFrame, mvel_cascade hq.1]
    have hA : A l v a = A m (V q (mvel F v)) (A q (mvel F v) (macc F v a)) := by
      simp only [A, V, hlm]
      rw [linkFrame, ho, mvel_cascade hro, macc_cascade hro, cylin_acc hp, mvel_cascade hF, macc_cascade hF, linkFrame, mvel_cascade hq.1,
        macc_cascade hq.1]
    obtain ⟨z, ez, dz⟩ := run_node l c s X v a
    obtain ⟨x, ex, dx⟩ := run_node q (.node m c' .nil) s' (X.cascade F) (mvel F v) (macc F v a)
    obtain ⟨y, ey, dy⟩ := run_node m c' .nil ((X.cascade F).cascade (linkFrame q)) (V q (mvel F v)) (A q (mvel F v) (macc F v a))
    obtain ⟨ic1, ic2, ic3⟩ := ihc (X.cascade (linkFrame l)) (V l v) (A l v a) Mat3.isRot_one (fun m hm => hw m (by simp [LTree.toList, hm]))
    obtain ⟨is1, is2, is3⟩ := ihs X v a hF (fun m hm => hw m (by simp [LTree.toList, hm]))
    rw [Frame.cascade_ident, mvel_ident, macc_ident] at ic1 ic2 ic3
    have hX : ((X.cascade F).cascade (linkFrame q)).cascade (linkFrame m) = X.cascade (linkFrame l) := by
      rw [hlf]; simp only [Frame.cascade_assoc]
    rw [hX, ← hV, ← hA] at ey dy
    have hwr : z.joint.wrench = y.joint.wrench := by
      rw [dz.wrench, dy.wrench, ← hV, ← hA, own_totals ht]
      rw [Frame.ident_xform6Ang] at ic2
      rw [← ic2]
      simp only [List.map_cons, List.sum_cons, loads]
      abel
    have hn : ∀ (X : Frame K) (v a : Vec6 K), run X v a .nil = .nil := fun _ _ _ => rfl
    have hxw : x.joint.wrench = (linkFrame m).xform6Ang y.joint.wrench := by
      rw [dx.wrench, own_bare hb, ey, addChild_node, dy.adj, hn]
      simp [LTree.addChildWrench]
    rw [ez, ex, ey, hn]
    refine ⟨.cylin (by rw [dz.org, dx.org, ho]) (by rw [dy.org, hmo]) ?_ (bare_done hb dx.load) (by rw [dz.load, dy.load]; exact ht) ?_ ic1 is1, ?_, ?_⟩
    · rw [dz.prp, dx.prp, dy.prp]; exact cylin_calc hp _ _ _
    · refine sameMotion_of ?_ ?_ ?_
      · rw [dz.frame, dy.frame, Frame.cascade_ident, hX]
      · rw [dz.vel, dy.vel, mvel_ident, hV]
      · rw [dz.acc, dy.acc, macc_ident, hA]
    · rw [addChild_node, addChild_node, Frame.xform6Ang_add, ← is2, dz.adj, dx.adj, hlf, hwr, hxw,
        Frame.cascade_xform6Ang (f := F.cascade (linkFrame q)) (hF.mul (isRot_linkFrame hq.1 hq.2)), Frame.cascade_xform6Ang hF]
      abel
    · rw [torquesOf_node, torquesOf_node, torquesOf_node, torquesOf_nil, ic3, is3, dz.prp, dx.prp, dy.prp, hxw, hwr, hlm, cylin_trq hp]
      simp
  | @hooke F L M l q m c s c' s' ho hmo hp hb ht _ _ _ ihc ihs =>
    intro X v a hF hw
    have hm := hw m (by simp [LTree.toList])
    have hq := hw q (by simp [LTree.toList])
    have hlw : l.joint.prp.WF := by
      have h1 := hm.2
      have h2 := hq.2
      obtain ⟨_, _, _, e1, e2, e3, k1, k2, -, -, k3, k4, -⟩ := hp
      rw [e2] at h2; rw [e3] at h1; rw [e1]
      simp only [Prp.WF, k1, k2, k3, k4] at h1 h2 ⊢
      exact ⟨h2, h1⟩
    have hlm : linkFrame m = turnX.cascade (jointFrame m.joint.prp) := by simp only [linkFrame, hmo]
    have hlf : (linkFrame l).cascade turnX = (F.cascade (linkFrame q)).cascade (linkFrame m) := by
      rw [hlm]
      have := hooke_frame hp
      simp only [linkFrame, ho, Frame.cascade_assoc] at this ⊢
      rw [this]
    have hro : (F.cascade q.org).att.IsRot := hF.mul hq.1
    have hrl : (linkFrame l).att.IsRot := isRot_linkFrame (by rw [ho]; exact hro) hlw
    have hV : mvel turnX (V l v) = V m (V q (mvel F v)) := by
      simp only [V, hlm]
      rw [linkFrame, ho, mvel_cascade hro, hooke_vel hp, mvel_cascade hF, linkFrame, mvel_cascade hq.1]
    have hA : macc turnX (V l v) (A l v a) = A m (V q (mvel F v)) (A q (mvel F v) (macc F v a)) := by
      simp only [A, V, hlm]
      rw [linkFrame, ho, mvel_cascade hro, macc_cascade hro, hooke_acc hp hlw, mvel_cascade hF, macc_cascade hF, linkFrame, mvel_cascade hq.1,
        macc_cascade hq.1]
    obtain ⟨z, ez, dz⟩ := run_node l c s X v a
    obtain ⟨x, ex, dx⟩ := run_node q (.node m c' .nil) s' (X.cascade F) (mvel F v) (macc F v a)
    obtain ⟨y, ey, dy⟩ := run_node m c' .nil ((X.cascade F).cascade (linkFrame q)) (V q (mvel F v)) (A q (mvel F v) (macc F v a))
    obtain ⟨ic1, ic2, ic3⟩ := ihc (X.cascade (linkFrame l)) (V l v) (A l v a) isRot_turnX (fun m hm => hw m (by simp [LTree.toList, hm]))
    obtain ⟨is1, is2, is3⟩ := ihs X v a hF (fun m hm => hw m (by simp [LTree.toList, hm]))
    have hX : ((X.cascade F).cascade (linkFrame q)).cascade (linkFrame m) = (X.cascade (linkFrame l)).cascade turnX := by
      rw [Frame.cascade_assoc X (linkFrame l), hlf]; simp only [Frame.cascade_assoc]
    rw [hX, ← hV, ← hA] at ey dy
    have hwr : z.joint.wrench = turnX.xform6Ang y.joint.wrench := by
      rw [dz.wrench, dy.wrench, ← hV, ← hA, own_totals ht, Frame.xform6Ang_add, ← ic2]
      simp only [List.map_cons, List.sum_cons, loads]
      rw [own_placed isRot_turnX]
      abel
    have hn : ∀ (X : Frame K) (v a : Vec6 K), run X v a .nil = .nil := fun _ _ _ => rfl
    have hxw : x.joint.wrench = (linkFrame m).xform6Ang y.joint.wrench := by
      rw [dx.wrench, own_bare hb, ey, addChild_node, dy.adj, hn]
      simp [LTree.addChildWrench]
    rw [ez, ex, ey, hn]
    refine ⟨.hooke (by rw [dz.org, dx.org, ho]) (by rw [dy.org, hmo]) ?_ (bare_done hb dx.load) (by rw [dz.load, dy.load]; exact ht) ?_ ic1 is1, ?_, ?_⟩
    · rw [dz.prp, dx.prp, dy.prp]; exact hooke_calc hp _ _ _
    · refine sameMotion_of ?_ ?_ ?_
      · rw [dz.frame, dy.frame, hX]
      · rw [dz.vel, dy.vel, hV]
      · rw [dz.acc, dz.vel, dy.acc, hA]
    · rw [addChild_node, addChild_node, Frame.xform6Ang_add, ← is2, dz.adj, dx.adj, hwr, hxw, ← Frame.cascade_xform6Ang hrl, hlf,
        Frame.cascade_xform6Ang (f := F.cascade (linkFrame q)) (hF.mul (isRot_linkFrame hq.1 hq.2)), Frame.cascade_xform6Ang hF]
      abel
    · rw [torquesOf_node, torquesOf_node, torquesOf_node, torquesOf_nil, ic3, is3, dz.prp, dx.prp, dy.prp, hxw, hwr, hlm, hooke_trq hp]
      simp
  | @fixed F L M m t u c' s' hp _ _ iht ihu =>
    intro X v a hF hw
    have hm := hw m (by simp [LTree.toList])
    have hlm : linkFrame m = m.org := by simp only [linkFrame, hp]; exact Frame.cascade_ident _
    have hro : (F.cascade m.org).att.IsRot := hF.mul hm.1
    have hV : V m (mvel F v) = mvel (F.cascade m.org) v := by simp only [V, hlm, hp, Prp.incVel, mvel_cascade hF]
    have hA : A m (mvel F v) (macc F v a) = macc (F.cascade m.org) v a := by
      simp only [A, hlm, hp, Prp.incAcc, Prp.incAccOnVel, macc_cascade hF]
    obtain ⟨y, ey, dy⟩ := run_node m c' s' (X.cascade F) (mvel F v) (macc F v a)
    obtain ⟨it1, it2, it3⟩ := iht X v a hro (fun m hm => hw m (by simp [LTree.toList, hm]))
    obtain ⟨iu1, iu2, iu3⟩ := ihu X v a hF (fun m hm => hw m (by simp [LTree.toList, hm]))
    rw [hV, hA, hlm, Frame.cascade_assoc] at ey dy
    have hyp : y.joint.prp = .fixed := by rw [dy.prp, hp]; rfl
    rw [ey, run_beside]
    refine ⟨?_, ?_, ?_⟩
    · rw [← dy.load, ← dy.org]
      refine .fixed hyp ?_ iu1
      rw [dy.org]; exact it1
    · rw [addChild_beside, addChild_node, Frame.xform6Ang_add, ← iu2, dy.adj, hlm, ← Frame.cascade_xform6Ang hF, dy.wrench, hV, hA,
        Frame.xform6Ang_add, ← it2, ← own_placed hro]
      simp only [loads, List.map_cons, List.sum_cons, List.map_append, List.sum_append]
      abel
    · rw [torquesOf_node, torquesOf_beside, hyp, it3, iu3]
      rfl

end Roki.Machine
