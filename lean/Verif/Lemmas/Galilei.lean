import Verif.Spec.Galilei
import Verif.Lemmas.ABITree
import Verif.Lemmas.ID
import Verif.Lemmas.Path
set_option autoImplicit false

/-! # Lemmas: robots in uniform motion (C141) -/

namespace Roki
open Spec LinkArray
variable {K : Type*} [Field K]

namespace Galilei

theorem drift_zero (p : Prp K) : drift 0 p = p := by
  cases p <;> simp only [drift] <;> congr 1 <;> congr 1 <;> congr 1 <;> exact add_zero _

/-- The links of a robot in uniform motion as a tree. -/
def moveTree (V v : Vec3 K) : LTree (Link K) → LTree (Link K)
  | .nil => .nil
  | .node l c s => .node (moveLink V v l) (c.map (moveLink V 0)) (s.map (moveLink V 0))

theorem mulVecT_mul (a b : Mat3 K) (v : Vec3 K) : (a.mul b).mulVecT v = b.mulVecT (a.mulVecT v) := by vec_ring

/-- Velocities of links below the root. -/
theorem updateVel (V : Vec3 K) (T : LTree (Link K)) : ∀ (F : Frame K) (pv : Vec6 K),
    (T.updateFrame F).updateVel ⟨pv.lin + F.att.mulVecT V, pv.ang⟩ = ((T.updateFrame F).updateVel pv).map (moveLink V 0) := by
  induction T with
  | nil => intro F pv; rfl
  | node l c s ihc ihs =>
    intro F pv
    have e : (l.updateFrame1 F).updateVel1 ⟨pv.lin + F.att.mulVecT V, pv.ang⟩ = moveLink V 0 ((l.updateFrame1 F).updateVel1 pv) := by
      have key : ∀ (p : Prp K) (A : Frame K), p.incVel (A.xform6Lin ⟨pv.lin + F.att.mulVecT V, pv.ang⟩) =
          ⟨(p.incVel (A.xform6Lin pv)).lin + (F.cascade A).att.mulVecT V, (p.incVel (A.xform6Lin pv)).ang⟩ := by
        intro p A
        cases p <;> simp only [Prp.incVel] <;> vec_ring
      simp only [Link.updateVel1, Link.updateFrame1, Body.updateCOM, Body.updateCOMVel, moveLink, drift_zero, key]
      congr 2
      vec_ring
    simp only [LTree.updateFrame, LTree.updateVel, LTree.map, ihs, e]
    congr 1
    exact ihc _ _

theorem rootVel (v : Vec3 K) (l : Link K) (h : Floats l.joint.prp) (hr : l.org.att.IsRot) :
    (driftLink v (l.updateFrame1 Frame.ident)).updateVel1 0 =
      moveLink (l.org.att.mulVec v) v ((l.updateFrame1 Frame.ident).updateVel1 0) := by
  have r : ∀ A : Mat3 K, (l.org.att.mul A).mulVecT (l.org.att.mulVec v) = A.mulVecT v := fun A => by
    rw [mulVecT_mul]; congr 1; exact hr.mulVecT_mulVec v
  have key : ∀ q : Prp K, Floats q → (drift v q).incVel ((q.xform l.org).xform6Lin 0) =
      ⟨(q.incVel ((q.xform l.org).xform6Lin 0)).lin + (Frame.ident.cascade (q.xform l.org)).att.mulVecT (l.org.att.mulVec v),
        (q.incVel ((q.xform l.org).xform6Lin 0)).ang⟩ := by
    have ri : ∀ A : Frame K, (Frame.ident.cascade A).att = A.att := fun A => by vec_ring
    intro q hq
    cases q <;> first | exact absurd hq not_false | skip
    all_goals
      simp only [drift, Prp.incVel, Prp.xform, ri, r]
      vec_ring
  simp only [driftLink, Link.updateVel1, Link.updateFrame1, Body.updateCOM, Body.updateCOMVel, moveLink, key _ h]
  congr 2
  vec_ring

theorem init1 (V v : Vec3 K) (pv pv' : Vec6 K) (l : Link K) (h : pv'.ang = pv.ang) (h0 : pv.ang = 0 ∨ v = 0) :
    (moveLink V v l).abiUpdateInit pv' = moveLink V v (l.abiUpdateInit pv) := by
  have e : (drift v l.joint.prp).incAccOnVel (l.adj.att.mulVecT pv.ang) 0 = l.joint.prp.incAccOnVel (l.adj.att.mulVecT pv.ang) 0 := by
    rcases h0 with h0 | rfl
    · rw [h0]
      cases l.joint.prp <;> simp only [drift, Prp.incAccOnVel] <;> vec_ring
    · rw [drift_zero]
  simp only [Link.abiUpdateInit, moveLink, h, e, Body.calcExtWrench]

theorem init (V : Vec3 K) (T : LTree (Link K)) : ∀ pv pv' : Vec6 K, pv'.ang = pv.ang →
    (T.map (moveLink V 0)).abiInit pv' = (T.abiInit pv).map (moveLink V 0) := by
  induction T with
  | nil => intro _ _ _; rfl
  | node l c s ihc ihs =>
    intro pv pv' h
    simp only [LTree.abiInit] at ihc ihs ⊢
    simp only [LTree.map, LTree.down, init1 V 0 pv pv' l h (.inr rfl), ihs pv pv' h]
    congr 1
    exact ihc _ _ rfl

variable (V v : Vec3 K)

theorem add1 (l : Link K) (d : Mat6 K × Vec6 K) : (moveLink V v l).abiAdd d = moveLink V v (l.abiAdd d) := rfl

theorem backward1 [Zm K] (fx : Bool) (l : Link K) : (moveLink V v l).abiBackward fx = moveLink V v (l.abiBackward fx) := by
  have e1 : ∀ m h ih, (drift v l.joint.prp).abiAxisInertia fx m h ih = l.joint.prp.abiAxisInertia fx m h ih := by
    intro m h ih; cases l.joint.prp <;> rfl
  have e2 : (drift v l.joint.prp).abiDrivingTorque = drift v l.joint.prp.abiDrivingTorque := by
    cases l.joint.prp <;> rfl
  simp only [Link.abiBackward, moveLink, e1, e2]

theorem toParent (fx : Bool) (l : Link K) : (moveLink V v l).abiToParentI fx = l.abiToParentI fx ∧
    (moveLink V v l).abiToParentB fx = l.abiToParentB fx := by
  simp only [Link.abiToParentI, Link.abiToParentB, moveLink]
  cases l.joint.prp <;> exact ⟨rfl, rfl⟩

theorem back [Zm K] (fx : Bool) (T : LTree (Link K)) : (T.map (moveLink V v)).abiBack fx = ((T.abiBack fx).1.map (moveLink V v), (T.abiBack fx).2) := by
  induction T with
  | nil => rfl
  | node l c s ihc ihs =>
    simp only [LTree.map, LTree.abiBack, ihc, ihs, add1, backward1, (toParent V v fx _).1, (toParent V v fx _).2]

theorem step1 (fx wr : Bool) (pa : Vec6 K) (l : Link K) : LTree.abiStep fx wr pa (moveLink V v l) = moveLink V v (LTree.abiStep fx wr pa l) := by
  have e : ∀ m b j ih a, (drift v l.joint.prp).abiQAcc fx m b j ih a =
      (drift v (l.joint.prp.abiQAcc fx m b j ih a).1, (l.joint.prp.abiQAcc fx m b j ih a).2) := by
    intro m b j ih a
    cases l.joint.prp with
    | brfloat p => cases fx <;> rfl
    | _ => rfl
  have f : (moveLink V v l).abiForward fx pa = moveLink V v (l.abiForward fx pa) := by
    simp only [Link.abiForward, moveLink, e]
  cases wr
  · exact f
  · simp only [LTree.abiStep, if_true, f]; rfl

theorem fwd (fx wr : Bool) (T : LTree (Link K)) : ∀ pa : Vec6 K, (T.map (moveLink V v)).abiFwd fx wr pa = (T.abiFwd fx wr pa).map (moveLink V v) := by
  induction T with
  | nil => intro _; rfl
  | node l c s ihc ihs =>
    intro pa
    simp only [LTree.abiFwd] at ihc ihs ⊢
    simp only [LTree.map, LTree.down, step1, ihs]
    congr 1
    exact ihc _

/-- Forward dynamics of a robot in uniform motion, as a tree. -/
theorem forwardTree [Zm K] (fx wr : Bool) (T : LTree (Link K)) :
    ((((moveTree V v T).abiInit 0).abiBack fx).1).abiFwd fx wr 0 = moveTree V v ((((T.abiInit 0).abiBack fx).1).abiFwd fx wr 0) := by
  cases T with
  | nil => rfl
  | node l c s =>
    have i0 := init1 V v 0 0 l rfl (.inl rfl)
    have ic := init V c l.body.vel (moveLink V v l).body.vel rfl
    have is := init V s 0 0 rfl
    have n : ∀ (pv : Vec6 K) (l : Link K) (c s : LTree (Link K)), (LTree.node l c s).abiInit pv =
        .node (l.abiUpdateInit pv) (c.abiInit l.body.vel) (s.abiInit pv) := fun _ _ _ _ => rfl
    have n2 : ∀ (pa : Vec6 K) (l : Link K) (c s : LTree (Link K)), (LTree.node l c s).abiFwd fx wr pa =
        .node (LTree.abiStep fx wr pa l) (c.abiFwd fx wr (LTree.abiStep fx wr pa l).body.acc) (s.abiFwd fx wr pa) := fun _ _ _ _ => rfl
    simp only [moveTree, n, i0, ic, is, LTree.abiBack, back, add1, backward1, n2, step1, fwd]
    rfl

/-- Velocities and accelerations of links below the root. -/
theorem updateRate (T : LTree (Link K)) : ∀ (F : Frame K) (pv pa : Vec6 K),
    (T.updateFrame F).updateRate ⟨pv.lin + F.att.mulVecT V, pv.ang⟩ pa = ((T.updateFrame F).updateRate pv pa).map (moveLink V 0) := by
  induction T with
  | nil => intro F pv pa; rfl
  | node l c s ihc ihs =>
    intro F pv pa
    have key : ∀ (p : Prp K) (A : Frame K), p.incVel (A.xform6Lin ⟨pv.lin + F.att.mulVecT V, pv.ang⟩) =
        ⟨(p.incVel (A.xform6Lin pv)).lin + (F.cascade A).att.mulVecT V, (p.incVel (A.xform6Lin pv)).ang⟩ := by
      intro p A
      cases p <;> simp only [Prp.incVel] <;> vec_ring
    have e : (l.updateFrame1 F).updateRate1 ⟨pv.lin + F.att.mulVecT V, pv.ang⟩ pa = moveLink V 0 ((l.updateFrame1 F).updateRate1 pv pa) := by
      simp only [Link.updateRate1, Link.updateAcc1, Link.updateVel1, Link.updateFrame1, Body.updateCOM, Body.updateCOMVel, Body.updateCOMAcc, moveLink,
        drift_zero, key]
      congr 2
      vec_ring
    simp only [LTree.updateFrame, LTree.updateRate, LTree.map, ihs, e]
    congr 1
    exact ihc _ _ _

/-- The links of a robot with an additional velocity of the joint of the root, as a tree. -/
def driftTree (v : Vec3 K) : LTree (Link K) → LTree (Link K)
  | .nil => .nil
  | .node l c s => .node (driftLink v l) c s

theorem rootRate (g : Vec6 K) (l : Link K) (h : Floats l.joint.prp) (hr : l.org.att.IsRot) (hj : l.joint.prp.WF)
    (hs : cross (spin l.joint.prp) v = 0) :
    (driftLink v (l.updateFrame1 Frame.ident)).updateRate1 0 g =
      moveLink (l.org.att.mulVec v) v ((l.updateFrame1 Frame.ident).updateRate1 0 g) := by
  have e := rootVel v l h hr
  have a : ∀ (m : Link K) (V : Vec3 K), (∀ x, (drift v m.joint.prp).incAccOnVel m.body.vel.ang x = m.joint.prp.incAccOnVel m.body.vel.ang x) →
      (moveLink V v m).updateAcc1 0 g = moveLink V v (m.updateAcc1 0 g) := by
    intro m V hm
    have e2 : ∀ x, (drift v m.joint.prp).incAcc x = m.joint.prp.incAcc x := fun x => by cases m.joint.prp <;> rfl
    simp only [Link.updateAcc1, moveLink, Body.updateCOMAcc, hm, e2]
  simp only [Link.updateRate1, e]
  refine a _ _ fun x => ?_
  have w : ∀ q : Prp K, q.WF → Floats q → cross (spin q) v = 0 → ∀ A : Frame K,
      (drift v q).incAccOnVel (q.incVel (A.xform6Lin 0)).ang x = q.incAccOnVel (q.incVel (A.xform6Lin 0)).ang x := by
    intro q hq hf hs A
    have turn : ∀ (R : Mat3 K) (a : Vec3 K), R.IsRot → cross a v = 0 → cross (R.mulVecT a) (R.mulVecT v) = 0 := by
      intro R a hR ha
      rw [← hR.mulVecT_cross, ha]; vec_ring
    have wz : ∀ (R : Mat3 K) (u : Vec6 K), (A.xform6Lin 0 + R.mulVecT6 u).ang = R.mulVecT u.ang := fun R u => by vec_ring
    have add2 : ∀ (R : Mat3 K) (w a : Vec3 K), cross w (R.mulVecT (a + v)) = cross w (R.mulVecT a) + cross w (R.mulVecT v) := fun R w a => by vec_ring
    have plus : ∀ a : Vec3 K, a + 0 = a := add_zero
    cases q <;> first | exact absurd hf not_false | skip
    all_goals
      have t := turn _ _ hq hs
      simp only [spin] at t
      simp only [drift, Prp.incAccOnVel, Prp.incVel, wz, add2, t, plus]
  exact w _ hj h hs _

theorem wrench (T : LTree (Link K)) : (T.map (moveLink V v)).updateWrench = T.updateWrench.map (moveLink V v) ∧
    ∀ w, ((T.map (moveLink V v)).updateWrench).addChildWrench w = T.updateWrench.addChildWrench w := by
  induction T with
  | nil => exact ⟨rfl, fun _ => rfl⟩
  | node l c s ihc ihs =>
    have e : ∀ w, (drift v l.joint.prp).calcTrq w = drift v (l.joint.prp.calcTrq w) := fun w => by cases l.joint.prp <;> rfl
    have n : (moveLink V v l).body.netWrench = l.body.netWrench := rfl
    have h : (LTree.map (moveLink V v) (.node l c s)).updateWrench = ((LTree.node l c s).updateWrench).map (moveLink V v) := by
      simp only [LTree.map, LTree.updateWrench, ihs.1, n, ihc.2]
      rw [ihc.1]
      congr 1
      simp only [moveLink, e, Body.calcExtWrench]
    refine ⟨h, fun w => ?_⟩
    simp only [LTree.map, LTree.updateWrench, LTree.addChildWrench, ihs.2, n, ihc.2]
    rfl

theorem wrenchTree (T : LTree (Link K)) : (moveTree V v T).updateWrench = moveTree V v T.updateWrench := by
  cases T with
  | nil => rfl
  | node l c s =>
    have e : ∀ w, (drift v l.joint.prp).calcTrq w = drift v (l.joint.prp.calcTrq w) := fun w => by cases l.joint.prp <;> rfl
    have n : (moveLink V v l).body.netWrench = l.body.netWrench := rfl
    simp only [moveTree, LTree.updateWrench, (wrench V 0 s).1, n, (wrench V 0 c).2]
    rw [(wrench V 0 c).1]
    congr 1
    simp only [moveLink, e, Body.calcExtWrench]

/-! ## Trees of whole robots -/

theorem frameTree (v : Vec3 K) (F : Frame K) (T : LTree (Link K)) : (driftTree v T).updateFrame F = driftTree v (T.updateFrame F) := by
  cases T with
  | nil => rfl
  | node l c s =>
    have e : (driftLink v l).updateFrame1 F = driftLink v (l.updateFrame1 F) := by
      have x : ∀ f, (drift v l.joint.prp).xform f = l.joint.prp.xform f := fun f => by cases l.joint.prp <;> rfl
      simp only [Link.updateFrame1, driftLink, x]
    simp only [driftTree, LTree.updateFrame, e]
    rfl

theorem velTree {l : Link K} {t : LTree (Link K)} (h : Floats l.joint.prp) (hr : l.org.att.IsRot) :
    (driftTree v ((LTree.node l t .nil).updateFrame Frame.ident)).updateVel 0 =
      moveTree (l.org.att.mulVec v) v (((LTree.node l t .nil).updateFrame Frame.ident).updateVel 0) := by
  simp only [LTree.updateFrame, driftTree, LTree.updateVel, rootVel v l h hr, moveTree, LTree.map]
  congr 1
  exact updateVel _ _ _ _

theorem rateTree {l : Link K} {t : LTree (Link K)} (g : Vec6 K) (h : Floats l.joint.prp) (hr : l.org.att.IsRot) (hj : l.joint.prp.WF)
    (hs : cross (spin l.joint.prp) v = 0) :
    (driftTree v ((LTree.node l t .nil).updateFrame Frame.ident)).updateRate 0 g =
      moveTree (l.org.att.mulVec v) v (((LTree.node l t .nil).updateFrame Frame.ident).updateRate 0 g) := by
  simp only [LTree.updateFrame, driftTree, LTree.updateRate, rootRate v g l h hr hj hs, moveTree, LTree.map]
  congr 1
  exact updateRate _ _ _ _ _

/-! ## Arrays of links -/

theorem eq_of_gather {c : Chain K} (h : c.WF) {ls ls' : List (Link K)} {T : LTree (Link K)} (h1 : Chain.gather ls c.shape = some T)
    (h2 : Chain.gather ls' c.shape = some T) (n : ls.length = c.link.length) (n' : ls'.length = c.link.length) : ls = ls' := by
  have := Chain.map_eq_of_gather h1 h2 (n.trans n'.symm) (fun i hi => h.mem.2 (n ▸ hi)) id rfl
  simpa using this

theorem gather_map {ls ls' : List (Link K)} (f : Link K → Link K) {t : LTree ℕ} (h : ∀ i ∈ t.toList, ls'[i]? = (ls[i]?).map f) {T : LTree (Link K)}
    (hT : Chain.gather ls t = some T) : Chain.gather ls' t = some (T.map f) := by
  induction t generalizing T with
  | nil => simp only [Chain.gather, Option.some.injEq] at hT; subst hT; rfl
  | node i c s ihc ihs =>
    obtain ⟨l, c', s', h1, h2, h3, rfl⟩ := Chain.gather_node.1 hT
    rw [Chain.gather_node]
    refine ⟨_, _, _, ?_, ihc (fun j hj => h j (by simp [LTree.toList, hj])) h2, ihs (fun j hj => h j (by simp [LTree.toList, hj])) h3, rfl⟩
    rw [h i (by simp [LTree.toList]), h1]; rfl

theorem gather_root {c : Chain K} (h : c.WF) {ls : List (Link K)} (n : ls.length = c.link.length) {T : LTree (Link K)}
    (hT : Chain.gather ls c.shape = some T) : ∃ l t, T = .node l t .nil ∧ ls[0]? = some l := by
  obtain ⟨t, ht⟩ := h.root
  rw [ht] at hT
  obtain ⟨l, c', s', h1, h2, h3, rfl⟩ := Chain.gather_node.1 hT
  simp only [Chain.gather, Option.some.injEq] at h3
  subst h3
  exact ⟨l, c', rfl, h1⟩

theorem not_root {c : Chain K} (h : c.WF) {t : LTree ℕ} (ht : c.shape = .node 0 t .nil) : ∀ i ∈ t.toList, i ≠ 0 := by
  have := h.nodup
  rw [ht] at this
  simp only [LTree.toList, List.append_nil, List.nodup_cons] at this
  intro i hi e
  exact this.1 (e ▸ hi)

theorem gather_move {c : Chain K} (h : c.WF) {ls : List (Link K)} {T : LTree (Link K)} (hT : Chain.gather ls c.shape = some T) :
    Chain.gather (ls.mapIdx fun i l => moveLink V (if i = 0 then v else 0) l) c.shape = some (moveTree V v T) := by
  obtain ⟨t, ht⟩ := h.root
  have hn := not_root h ht
  rw [ht] at hT ⊢
  obtain ⟨l, c', s', h1, h2, h3, rfl⟩ := Chain.gather_node.1 hT
  simp only [Chain.gather, Option.some.injEq] at h3
  subst h3
  rw [Chain.gather_node]
  refine ⟨_, _, _, ?_, gather_map (moveLink V 0) (fun i hi => ?_) h2, rfl, rfl⟩
  · rw [List.getElem?_mapIdx, h1]; rfl
  · rw [List.getElem?_mapIdx, if_neg (hn i hi)]

theorem gather_drift {c : Chain K} (h : c.WF) {ls : List (Link K)} {T : LTree (Link K)} (hT : Chain.gather ls c.shape = some T) :
    Chain.gather (ls.modify 0 (driftLink v)) c.shape = some (driftTree v T) := by
  obtain ⟨t, ht⟩ := h.root
  have hn := not_root h ht
  rw [ht] at hT ⊢
  obtain ⟨l, c', s', h1, h2, h3, rfl⟩ := Chain.gather_node.1 hT
  simp only [Chain.gather, Option.some.injEq] at h3
  subst h3
  rw [Chain.gather_node]
  have m : ∀ T : LTree (Link K), T.map id = T := by intro T; induction T <;> simp_all [LTree.map]
  refine ⟨_, _, _, ?_, ?_, rfl, rfl⟩
  · rw [List.getElem?_modify, h1]; rfl
  · have := gather_map (ls' := ls.modify 0 (driftLink v)) id (fun i hi => ?_) h2
    · rwa [m] at this
    · have hi0 : ¬ 0 = i := fun e => hn i hi e.symm
      rw [List.getElem?_modify]
      simp only [if_neg hi0]
      cases ls[i]? <;> rfl

theorem drift_wf {c : Chain K} (h : c.WF) : (driftRoot v c).WF := h.with_link (by simp)

theorem move_wf {c : Chain K} (h : c.WF) : (moveChain V v c).WF := h.with_link (by simp)

/-- Forward kinematics does not read velocities. -/
theorem fk_drift {c : Chain K} (h : c.WF) : (driftRoot v c).updateFK = c.updateFK.map (driftRoot v) := by
  obtain ⟨ls1, T, hT, e1, g1, n1⟩ := h.downAt (fun st (l : Link K) => l.updateFrame1 st) (fun l => l.body.frame) Frame.ident
  obtain ⟨ls2, T2, hT2, e2, g2, n2⟩ := (drift_wf v h).downAt (fun st (l : Link K) => l.updateFrame1 st) (fun l => l.body.frame) Frame.ident
  rw [← LTree.updateFrame_eq] at g1 g2
  have q : T2 = driftTree v T := Option.some.inj (hT2.symm.trans (gather_drift v h hT))
  rw [q, frameTree] at g2
  have hn : ls2.length = c.link.length := n2.trans (by simp [driftRoot])
  have el : ls2 = ls1.modify 0 (driftLink v) := eq_of_gather h g2 (gather_drift v h g1) hn (by simpa using n1)
  simp only [Chain.updateFK, Chain.updateFrame, Chain.updateFrameAt]
  rw [e1, show Chain.downAt (fun st (l : Link K) => l.updateFrame1 st) (fun l => l.body.frame) none (driftRoot v c).shape Frame.ident
    (driftRoot v c).link = some ls2 from e2, el]
  simp only [Option.map_some, Chain.calcCOM, driftRoot, Option.some.injEq, Chain.mk.injEq, true_and, and_true]
  have : ∀ (m : K) (ls : List (Link K)), LinkArray.calcCOM m (ls.modify 0 (driftLink v)) = LinkArray.calcCOM m ls := by
    intro m ls
    cases ls with
    | nil => rfl
    | cons l ls => rfl
  exact this _ _

theorem vel_move {c0 c : Chain K} (h : c0.WF) (e : c0.updateFK = some c) {l : Link K} (hl : c0.link[0]? = some l) (hf : Floats l.joint.prp)
    (hr : l.org.att.IsRot) : (driftRoot v c).updateVel = c.updateVel.map (moveChain (l.org.att.mulVec v) v) := by
  obtain ⟨T0, hT0, hg, hw, hs, hn, -⟩ := h.updateFK e
  obtain ⟨l', t, rfl, hl'⟩ := gather_root h rfl hT0
  rw [hl] at hl'; cases hl'
  obtain ⟨ls1, T, hT, e1, g1, n1⟩ := hw.downAt (fun st (l : Link K) => l.updateVel1 st) (fun l => l.body.vel) 0
  obtain ⟨ls2, T2, hT2, e2, g2, n2⟩ := (drift_wf v hw).downAt (fun st (l : Link K) => l.updateVel1 st) (fun l => l.body.vel) 0
  rw [← LTree.updateVel_eq] at g1 g2
  have q : T2 = driftTree v T := Option.some.inj (hT2.symm.trans (gather_drift v hw hT))
  have q1 : T = _ := Option.some.inj (hT.symm.trans hg)
  rw [q, q1, velTree v hf hr] at g2
  rw [q1] at g1
  have hn2 : ls2.length = c.link.length := n2.trans (by simp [driftRoot])
  have el := eq_of_gather hw g2 (gather_move (l.org.att.mulVec v) v hw g1) hn2 (by simpa using n1)
  simp only [Chain.updateVel, Chain.updateVelAt]
  rw [e1, show Chain.downAt (fun st (l : Link K) => l.updateVel1 st) (fun l => l.body.vel) none (driftRoot v c).shape 0
    (driftRoot v c).link = some ls2 from e2, el]
  rfl

theorem jointSize_move (ls : List (Link K)) : LinkArray.jointSize (ls.mapIdx fun i l => moveLink V (if i = 0 then v else 0) l) =
    LinkArray.jointSize ls := by
  have : ∀ (l : Link K) (u : Vec3 K), (moveLink V u l).size = l.size := by
    intro l u; simp only [Link.size, moveLink]; cases l.joint.prp <;> rfl
  rw [LinkArray.jointSize_eq, LinkArray.jointSize_eq]
  simp only [sizes]
  congr 1
  apply List.ext_getElem
  · simp
  · intro i _ _; simp [this]

theorem abi_move [Zm K] {c : Chain K} (h : c.WF) (fx wr : Bool) (hs : LinkArray.jointSize c.link ≠ 0) :
    (moveChain V v c).abiUpdate fx wr = (c.abiUpdate fx wr).map (moveChain V v) := by
  obtain ⟨T, hT⟩ := Chain.gather_exists (ls := c.link) (t := c.shape) fun i hi => h.mem.1 hi
  obtain ⟨ls1, e1, g1, n1⟩ := h.abiUpdate fx wr hs hT
  obtain ⟨ls2, e2, g2, n2⟩ := (move_wf V v h).abiUpdate fx wr (fun q => hs ((jointSize_move V v _).symm.trans q)) (gather_move V v h hT)
  rw [forwardTree] at g2
  have el := eq_of_gather h g2 (gather_move V v h g1) (n2.trans (by simp [moveChain])) (by simpa using n1)
  rw [e1, e2, el]
  rfl

theorem id_move {c0 c : Chain K} (h : c0.WF) (e : c0.updateFK = some c) {l : Link K} (hl : c0.link[0]? = some l) (hf : Floats l.joint.prp)
    (hr : l.org.att.IsRot) (hj : l.joint.prp.WF) (hs : cross (spin l.joint.prp) v = 0) (g : Vec6 K) {c1 d1 : Chain K} (e1 : c.updateID g = some c1)
    (e2 : (driftRoot v c).updateID g = some d1) : d1.link = (moveChain (l.org.att.mulVec v) v c1).link := by
  obtain ⟨T0, hT0, hg, hw, hsh, hn, -⟩ := h.updateFK e
  obtain ⟨l', t, rfl, hl'⟩ := gather_root h rfl hT0
  rw [hl] at hl'; cases hl'
  obtain ⟨T, hT, g1, w1, s1, n1, -⟩ := hw.updateID e1
  obtain ⟨T2, hT2, g2, w2, s2, n2, -⟩ := (drift_wf v hw).updateID e2
  have q : T2 = driftTree v T := Option.some.inj (hT2.symm.trans (gather_drift v hw hT))
  have q1 : T = _ := Option.some.inj (hT.symm.trans hg)
  rw [q, q1, rateTree v g hf hr hj hs, wrenchTree, s2] at g2
  rw [q1, s1] at g1
  exact eq_of_gather hw g2 (gather_move (l.org.att.mulVec v) v hw g1) (n2.trans (by simp [driftRoot])) (by simpa [moveChain] using n1)

/-! ## Settings -/

theorem offset_ge {ls : List (Link K)} : ∀ {s : ℕ}, OffsetsFrom s ls → ∀ l ∈ ls, 0 ≤ l.offset → s ≤ l.offset.toNat := by
  induction ls with
  | nil => intro s _ l hl; simp at hl
  | cons a ls ih =>
    intro s h l hl h0
    obtain ⟨h1, h2⟩ := offsetsFrom_cons.1 h
    rcases List.mem_cons.1 hl with rfl | hl
    · rw [h1, offsetAt] at h0 ⊢
      split_ifs at h0 ⊢ with hs
      · simp
      · omega
    · have := ih h2 l hl h0; omega

theorem drop_addFirst (vel : List K) {k : ℕ} (hk : 3 ≤ k) : (addFirst v vel).drop k = vel.drop k := by
  obtain ⟨k, rfl⟩ := Nat.exists_eq_add_of_le hk
  match vel with
  | [] => rfl
  | [_] => rfl
  | [_, _] => rfl
  | _ :: _ :: _ :: r => rw [addFirst, Nat.add_comm]; rfl

theorem set_far (vel : List K) (ls : List (Link K)) (h : ∀ l ∈ ls, 0 ≤ l.offset → 3 ≤ l.offset.toNat) :
    setJointAll Prp.setVel (addFirst v vel) ls = setJointAll Prp.setVel vel ls := by
  induction ls with
  | nil => rfl
  | cons a ls ih =>
    have e : a.setAtOffset Prp.setVel (addFirst v vel) = a.setAtOffset Prp.setVel vel := by
      simp only [Link.setAtOffset]
      split_ifs with h0
      · rw [drop_addFirst v vel (h a (by simp) h0)]
      · rfl
    simp only [setJointAll, e, ih fun l hl => h l (by simp [hl])]

theorem set_drift (vel : List K) {ls : List (Link K)} (ho : setOffset ls = ls) {l : Link K} (hl : ls[0]? = some l) (hf : Floats l.joint.prp) :
    setJointAll Prp.setVel (addFirst v vel) ls = (setJointAll Prp.setVel vel ls).map fun ms => ms.modify 0 (driftLink v) := by
  cases ls with
  | nil => cases hl
  | cons a ls =>
    cases hl
    obtain ⟨h1, h2⟩ := offsetsFrom_cons.1 (show OffsetsFrom 0 (l :: ls) from ho)
    have hs : l.size = 6 := by
      simp only [Link.size]
      generalize l.joint.prp = q at hf
      cases q <;> first | rfl | exact absurd hf not_false
    have h0 : l.offset = 0 := by rw [h1, offsetAt, if_pos (by omega)]; rfl
    have far := set_far v vel ls fun m hm hp => by have := offset_ge h2 m hm hp; omega
    have e : l.setAtOffset Prp.setVel (addFirst v vel) = (l.setAtOffset Prp.setVel vel).map (driftLink v) := by
      simp only [Link.setAtOffset, h0, le_refl, if_true, Int.toNat_zero, List.drop_zero, Link.setWith]
      have : ∀ q : Prp K, Floats q → q.setVel (addFirst v vel) = (q.setVel vel).map (drift v) := by
        intro q hq
        cases q <;> first | exact absurd hq not_false | skip
        all_goals
          match vel with
          | [] => rfl
          | [_] => rfl
          | [_, _] => rfl
          | [_, _, _] => rfl
          | [_, _, _, _] => rfl
          | [_, _, _, _, _] => rfl
          | _ :: _ :: _ :: _ :: _ :: _ :: _ => rfl
      rw [this _ hf]
      cases l.joint.prp.setVel vel <;> rfl
    simp only [setJointAll, e, far]
    cases l.setAtOffset Prp.setVel vel with
    | none => rfl
    | some l' => cases setJointAll Prp.setVel vel ls <;> rfl

end Galilei
end Roki
