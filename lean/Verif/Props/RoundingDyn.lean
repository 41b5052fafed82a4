import Verif.Lemmas.RoundingDyn
import Verif.Props.Rounding
set_option autoImplicit false

/-!
# Rounding errors of inverse dynamics

C131.
-/

namespace Roki
open Spec

namespace Arith

/-! ## The passes over trees -/

/-- The loop over the children, on trees. -/
def addChildWrench (A : Arith) (w : Vec6 ℝ) : LTree (Link ℝ) → Vec6 ℝ
  | .nil => w
  | .node l _ s => addChildWrench A (A.add6 w (A.xform6Ang l.adj l.joint.wrench)) s

/-- The upward pass, on trees. -/
def updateWrench (A : Arith) : LTree (Link ℝ) → LTree (Link ℝ)
  | .nil => .nil
  | .node l c s =>
    let c' := updateWrench A c
    let w2 := A.sub6 (A.addChildWrench (A.angShift (A.netWrench l.body) l.body.mp.com) c') (A.extWrench l.body.extw)
    .node { l with joint := ⟨A.calcTrq l.joint.prp w2, w2⟩ } c' (updateWrench A s)

theorem addChildWrenchAt_gather (A : Arith) (ls : List (Link ℝ)) (t : LTree ℕ) (T : LTree (Link ℝ)) (h : Chain.gather ls t = some T) (w : Vec6 ℝ) :
    A.addChildWrenchAt w ls t = some (A.addChildWrench w T) := by
  induction t generalizing T w with
  | nil => simp only [Chain.gather, Option.some.injEq] at h; subst h; rfl
  | node i c s _ ihs =>
    obtain ⟨l, c', s', h1, h2, h3, rfl⟩ := Chain.gather_node.1 h
    simp only [Arith.addChildWrenchAt, h1, Arith.addChildWrench]
    exact ihs s' h3 _

open Chain in
theorem updateWrenchAt_refines (A : Arith) (t : LTree ℕ) :
    ∀ (ls : List (Link ℝ)) (T : LTree (Link ℝ)), t.toList.Nodup → gather ls t = some T →
    ∃ ls', A.updateWrenchAt t ls = some ls' ∧ gather ls' t = some (A.updateWrench T) ∧
      ls'.length = ls.length ∧ ∀ i, i ∉ t.toList → ls'[i]? = ls[i]? := by
  induction t with
  | nil =>
    intro ls T hn hg
    simp only [gather, Option.some.injEq] at hg
    subst hg
    exact ⟨ls, rfl, rfl, rfl, fun _ _ => rfl⟩
  | node i c s ihc ihs =>
    intro ls T hn hg
    obtain ⟨l, c', s', h1, h2, h3, rfl⟩ := gather_node.1 hg
    simp only [LTree.toList, List.nodup_cons, List.mem_append, not_or] at hn
    obtain ⟨⟨hic, his⟩, hcs⟩ := hn
    obtain ⟨hc, hs, hd⟩ := List.nodup_append.1 hcs
    have hlen : i < ls.length := by
      by_contra hh
      rw [List.getElem?_eq_none (by omega)] at h1; simp at h1
    set l0 : Link ℝ := { l with joint := { l.joint with wrench := A.angShift (A.netWrench l.body) l.body.mp.com } } with hl0
    obtain ⟨ls1, e1, g1, n1, u1⟩ := ihc (ls.set i l0) c' hc
      (by rw [← h2]; exact gather_congr fun j hj => by
            rw [List.getElem?_set_ne]; intro e; exact hic (e ▸ hj))
    have n1' : ls1.length = ls.length := by rw [n1, List.length_set]
    have u1i : ls1[i]? = some l0 := by rw [u1 i hic, List.getElem?_set_self hlen]
    have u1' : ∀ j, j ∉ c.toList → j ≠ i → ls1[j]? = ls[j]? := fun j hj hji => by
      rw [u1 j hj, List.getElem?_set_ne (Ne.symm hji)]
    have ew := A.addChildWrenchAt_gather ls1 c _ g1 (A.angShift (A.netWrench l.body) l.body.mp.com)
    set w2 := A.sub6 (A.addChildWrench (A.angShift (A.netWrench l.body) l.body.mp.com) (A.updateWrench c')) (A.extWrench l.body.extw) with hw2
    set l2 : Link ℝ := { l with joint := ⟨A.calcTrq l.joint.prp w2, w2⟩ } with hl2
    have hlen1 : i < ls1.length := by omega
    obtain ⟨ls2, e2, g2, n2, u2⟩ := ihs (ls1.set i l2) s' hs
      (by rw [← h3]; exact gather_congr fun j hj => by
            have hji : j ≠ i := fun e => his (e ▸ hj)
            rw [List.getElem?_set_ne (Ne.symm hji), u1' j (fun hjc => hd j hjc j hj rfl) hji])
    refine ⟨ls2, ?_, ?_, by rw [n2, List.length_set, n1'], ?_⟩
    · simp only [Arith.updateWrenchAt, h1, Option.bind_eq_bind, Option.bind_some]
      rw [e1]
      simp only [Option.bind_some, u1i]
      simp only [hl0]
      rw [ew]
      simp only [Option.bind_some]
      exact e2
    · rw [gather_node]
      refine ⟨l2, _, _, ?_, ?_, g2, rfl⟩
      · rw [u2 i his, List.getElem?_set_self hlen1]
      · rw [← g1]
        refine gather_congr fun j hj => ?_
        have hji : j ≠ i := fun e => hic (e ▸ hj)
        rw [u2 j fun hjs => hd j hj j hjs rfl, List.getElem?_set_ne (Ne.symm hji)]
    · intro j hj
      simp only [LTree.toList, List.mem_cons, List.mem_append, not_or] at hj
      rw [u2 j hj.2.2, List.getElem?_set_ne (Ne.symm hj.1), u1' j hj.2.1 hj.1]

theorem all3_down {σ : Type*} {R S : Link ℝ → Link ℝ → Link ℝ → Prop} (P : ℕ → σ → σ → σ → Prop) (N : ℕ) {f1 f2 f3 : σ → Link ℝ → Link ℝ} {g : Link ℝ → σ}
    (hf : ∀ n s1 s2 s3 a b c, n + 1 ≤ N → P n s1 s2 s3 → R a b c → S (f1 s1 a) (f2 s2 b) (f3 s3 c) ∧ P (n + 1) (g (f1 s1 a)) (g (f2 s2 b)) (g (f3 s3 c)))
    (A : LTree (Link ℝ)) : ∀ (B C : LTree (Link ℝ)) (n : ℕ) (s1 s2 s3 : σ), A.All3 R B C → P n s1 s2 s3 → n + A.toList.length ≤ N →
      (A.down f1 g s1).All3 S (B.down f2 g s2) (C.down f3 g s3) := by
  induction A with
  | nil =>
    intro B C n s1 s2 s3 h _ _
    cases B with
    | node => simp [LTree.All3] at h
    | nil => cases C with
      | node => simp [LTree.All3] at h
      | nil => trivial
  | node a c s ihc ihs =>
    intro B C n s1 s2 s3 h hP hN
    cases B with
    | nil => simp [LTree.All3] at h
    | node b c' s' => cases C with
      | nil => simp [LTree.All3] at h
      | node d c'' s'' =>
        simp only [LTree.toList, List.length_cons, List.length_append] at hN
        obtain ⟨h1, h2⟩ := hf n s1 s2 s3 a b d (by omega) hP h.1
        exact ⟨h1, ihc _ _ (n + 1) _ _ _ h.2.1 h2 (by omega), ihs _ _ n _ _ _ h.2.2 hP (by omega)⟩

theorem length_down {σ : Type*} (f : σ → Link ℝ → Link ℝ) (g : Link ℝ → σ) (T : LTree (Link ℝ)) : ∀ st, (T.down f g st).toList.length = T.toList.length := by
  induction T with
  | nil => intro st; rfl
  | node l c s ihc ihs => intro st; simp only [LTree.down, LTree.toList, List.length_cons, List.length_append, ihc, ihs]

/-! ## One link -/

/-- The inputs of three runs for one link. -/
structure Given (l' l L : Link ℝ) : Prop where
  prp : l'.joint.prp = l.joint.prp
  prpA : L.joint.prp = absJoint l.joint.prp
  mp : l'.body.mp = l.body.mp
  mpA : L.body.mp = ⟨|l.body.mp.mass|, abs3 l.body.mp.com, absM l.body.mp.inertia⟩
  extw : l'.body.extw = l.body.extw
  extwA : L.body.extw = l.body.extw.map fun w => { w with w := abs6 w.w, p := abs3 w.p }

/-- After forward kinematics. -/
structure Placed (v : ℝ) (N : ℕ) (l' l L : Link ℝ) : Prop where
  given : Given l' l L
  adj : ErrF v 4 l'.adj l.adj L.adj
  frame : ErrF v (8 * N) l'.body.frame l.body.frame L.body.frame
  wldCOM : Err3 v (8 * N + 4) l'.body.wldCOM l.body.wldCOM L.body.wldCOM

/-- After the downward pass. -/
structure Moved (v : ℝ) (N : ℕ) (l' l L : Link ℝ) : Prop where
  placed : Placed v N l' l L
  vel : Err6 v (15 * N) l'.body.vel l.body.vel L.body.vel
  acc : Err6 v (30 * N) l'.body.acc l.body.acc L.body.acc
  comVel : Err3 v (15 * N + 3) l'.body.comVel l.body.comVel L.body.comVel
  comAcc : Err3 v (30 * N + 6) l'.body.comAcc l.body.comAcc L.body.comAcc

/-- After the upward pass. -/
structure Loaded (v : ℝ) (N K : ℕ) (l' l L : Link ℝ) : Prop where
  mp : l'.body.mp = l.body.mp
  mpA : L.body.mp = ⟨|l.body.mp.mass|, abs3 l.body.mp.com, absM l.body.mp.inertia⟩
  frame : ErrF v (8 * N) l'.body.frame l.body.frame L.body.frame
  wldCOM : Err3 v (8 * N + 4) l'.body.wldCOM l.body.wldCOM L.body.wldCOM
  comVel : Err3 v (15 * N + 3) l'.body.comVel l.body.comVel L.body.comVel
  comAcc : Err3 v (30 * N + 6) l'.body.comAcc l.body.comAcc L.body.comAcc
  vel : Err6 v (15 * N) l'.body.vel l.body.vel L.body.vel
  acc : Err6 v (30 * N) l'.body.acc l.body.acc L.body.acc
  wrench : Err6 v K l'.joint.wrench l.joint.wrench L.joint.wrench
  trq : ∀ (j : ℕ) (x' x X : ℝ), l'.joint.prp.getTrq[j]? = some x' → l.joint.prp.getTrq[j]? = some x → L.joint.prp.getTrq[j]? = some X → Err v (K + 3) x' x X

variable {v : ℝ} {rnd : ℝ → ℝ}

section
variable (hr : RelError rnd v) (hv : 0 ≤ v)
include hr hv

theorem placed {l' l L : Link ℝ} (h : Given l' l L) (ho : l'.org = l.org) (hoA : L.org = absF l.org) {n N : ℕ} {f' f F : Frame ℝ} (hN : n + 1 ≤ N)
    (hf : ErrF v (8 * n) f' f F) :
    Placed v N ((rounded rnd).updateFrame1 l' f') (exact.updateFrame1 l f) (uncancelled.updateFrame1 L F) ∧
    ErrF v (8 * (n + 1)) ((rounded rnd).updateFrame1 l' f').body.frame (exact.updateFrame1 l f).body.frame (uncancelled.updateFrame1 L F).body.frame := by
  have adj : ErrF v 4 ((rounded rnd).jointXform l'.joint.prp l'.org) (exact.jointXform l.joint.prp l.org) (uncancelled.jointXform L.joint.prp L.org) := by
    rw [h.prp, h.prpA, ho, hoA]
    exact ErrF.jointXform hr hv l.joint.prp l.org
  have fr := ErrF.cascade (n := 8 * (n + 1)) hr hv hf adj (by omega)
  have hc : Err3 v 0 l'.body.mp.com l.body.mp.com L.body.mp.com := by rw [h.mp, h.mpA]; exact .self hv 0 _
  exact ⟨⟨⟨h.prp, h.prpA, h.mp, h.mpA, h.extw, h.extwA⟩, adj, fr.mono hv (by omega), .xform hr hv fr hc (by omega)⟩, fr⟩

theorem moved {l' l L : Link ℝ} {n N : ℕ} (h : Placed v N l' l L) {u' u U a' a A : Vec6 ℝ} (hN : n + 1 ≤ N) (hu : Err6 v (15 * n) u' u U) (ha : Err6 v (30 * n) a' a A) :
    Moved v N ((rounded rnd).updateRate1 l' u' a') (exact.updateRate1 l u a) (uncancelled.updateRate1 L U A) ∧
    Err6 v (15 * (n + 1)) ((rounded rnd).updateRate1 l' u' a').body.vel (exact.updateRate1 l u a).body.vel (uncancelled.updateRate1 L U A).body.vel ∧
    Err6 v (30 * (n + 1)) ((rounded rnd).updateRate1 l' u' a').body.acc (exact.updateRate1 l u a).body.acc (uncancelled.updateRate1 L U A).body.acc := by
  have e1 : Err6 v (15 * (n + 1)) ((rounded rnd).updateRate1 l' u' a').body.vel (exact.updateRate1 l u a).body.vel (uncancelled.updateRate1 L U A).body.vel := by
    have := Err6.incVel (n := 15 * (n + 1)) hr hv l.joint.prp (Err6.xform6Lin hr hv h.adj hu le_rfl) (by omega) (by omega)
    simp only [updateRate1, updateVel1, updateAcc1]
    rw [h.given.prp, h.given.prpA]
    exact this
  have e2 : Err6 v (30 * (n + 1)) ((rounded rnd).updateRate1 l' u' a').body.acc (exact.updateRate1 l u a).body.acc (uncancelled.updateRate1 L U A).body.acc := by
    have s0 := Err6.linShift hr hv ha h.adj.pos le_rfl
    have s1 := Err3.cross hr hv hu.ang (Err3.cross hr hv hu.ang h.adj.pos le_rfl) le_rfl
    have s2 : Err6 v (30 * n + 9) ⟨(rounded rnd).vadd ((rounded rnd).linShift a' l'.adj.pos).lin ((rounded rnd).cross u'.ang ((rounded rnd).cross u'.ang l'.adj.pos)),
        ((rounded rnd).linShift a' l'.adj.pos).ang⟩ ⟨exact.vadd (exact.linShift a l.adj.pos).lin (exact.cross u.ang (exact.cross u.ang l.adj.pos)), (exact.linShift a l.adj.pos).ang⟩
        ⟨uncancelled.vadd (uncancelled.linShift A L.adj.pos).lin (uncancelled.cross U.ang (uncancelled.cross U.ang L.adj.pos)), (uncancelled.linShift A L.adj.pos).ang⟩ :=
      ⟨.vadd hr hv s0.lin s1 (by omega) (by omega), s0.ang.mono hv (by omega)⟩
    have s3 := Err6.mulVecT6 hr hv h.adj.att s2 le_rfl
    have s4 := Err6.incAccOnVel (n := 30 * n + 22) hr hv l.joint.prp e1.ang s3 (by omega) (by omega)
    have s5 := Err6.incAcc (n := 30 * (n + 1)) hr hv l.joint.prp s4 (by omega) (by omega)
    simp only [updateRate1, updateVel1, updateAcc1] at s5 ⊢
    rw [h.given.prp, h.given.prpA] at s5 ⊢
    exact s5
  have e1' := e1.mono hv (k := 15 * N) (by omega)
  have e2' := e2.mono hv (k := 30 * N) (by omega)
  have hc : Err3 v 0 l'.body.mp.com l.body.mp.com L.body.mp.com := by rw [h.given.mp, h.given.mpA]; exact .self hv 0 _
  refine ⟨⟨⟨⟨h.given.prp, h.given.prpA, h.given.mp, h.given.mpA, h.given.extw, h.given.extwA⟩, h.adj, h.frame, h.wldCOM⟩, e1', e2',
    .vadd hr hv e1'.lin (.cross hr hv e1'.ang hc le_rfl) (by omega) (by omega), ?_⟩, e1, e2⟩
  exact Err3.vadd (a := 30 * N + 5) hr hv (.vadd hr hv (.cross hr hv e1'.ang (.cross hr hv e1'.ang hc le_rfl) le_rfl) (.cross hr hv e2'.ang hc le_rfl) (by omega) (by omega)) e2'.lin
    (by omega) (by omega)

theorem ext_error (l : WrenchList ℝ) : Err6 v (l.length + 3) ((rounded rnd).extWrench l) (exact.extWrench l)
    (uncancelled.extWrench (l.map fun w => { w with w := abs6 w.w, p := abs3 w.p })) := by
  have : ∀ (l : WrenchList ℝ) (k : ℕ) (w' w W : Vec6 ℝ), 3 ≤ k → Err6 v k w' w W →
      Err6 v (l.length + k) (l.foldl (fun w c => (rounded rnd).add6 w ((rounded rnd).angShift c.w c.p)) w')
        (l.foldl (fun w c => exact.add6 w (exact.angShift c.w c.p)) w)
        ((l.map fun w : Wrench ℝ => ({ w with w := abs6 w.w, p := abs3 w.p } : Wrench ℝ)).foldl (fun w c => uncancelled.add6 w (uncancelled.angShift c.w c.p)) W) := by
    intro l
    induction l with
    | nil => intro k w' w W _ h; simpa using h
    | cons c l ih =>
      intro k w' w W hk h
      have := ih (k + 1) _ _ _ (by omega) (Err6.add6 hr hv h (Err6.angShift (n := 3) hr hv (.self hv 0 c.w) (.self hv 0 c.p) (by omega)) (by omega) (by omega))
      rw [List.length_cons, show l.length + 1 + k = l.length + (k + 1) by ring]
      exact this
  exact this l 3 0 0 0 le_rfl (.zero 3)

theorem loaded {N M : ℕ} (A : LTree (Link ℝ)) : ∀ (B C : LTree (Link ℝ)), A.All3 (fun l' l L => Moved v N l' l L ∧ l.body.extw.length ≤ M) B C →
    (∀ K, 30 * N + M + 16 * A.toList.length ≤ K →
      ((rounded rnd).updateWrench A).All3 (Loaded v N K) (exact.updateWrench B) (uncancelled.updateWrench C)) ∧
    ∀ (m : ℕ) (w' w W : Vec6 ℝ), Err6 v (30 * N + M + 16 * m + 15) w' w W →
      Err6 v (30 * N + M + 16 * (m + A.toList.length) + 15) ((rounded rnd).addChildWrench w' ((rounded rnd).updateWrench A))
        (exact.addChildWrench w (exact.updateWrench B)) (uncancelled.addChildWrench W (uncancelled.updateWrench C)) := by
  induction A with
  | nil =>
    intro B C h
    cases B with
    | node => simp [LTree.All3] at h
    | nil => cases C with
      | node => simp [LTree.All3] at h
      | nil => exact ⟨fun K _ => trivial, fun m w' w W hw => hw.mono hv (by omega)⟩
  | node l' c s ihc ihs =>
    intro B C h
    cases B with
    | nil => simp [LTree.All3] at h
    | node l c' s' => cases C with
      | nil => simp [LTree.All3] at h
      | node L c'' s'' =>
        obtain ⟨⟨hm, hM⟩, hc, hs⟩ := h
        obtain ⟨c1, c2⟩ := ihc c' c'' hc
        obtain ⟨s1, s2⟩ := ihs s' s'' hs
        have g := hm.placed.given
        have hcom : Err3 v 0 l'.body.mp.com l.body.mp.com L.body.mp.com := by rw [g.mp, g.mpA]; exact .self hv 0 _
        have hmass : Err v 0 l'.body.mp.mass l.body.mp.mass L.body.mp.mass := by rw [g.mp, g.mpA]; exact .self hv 0 _
        have hin : ErrM v 0 l'.body.mp.inertia l.body.mp.inertia L.body.mp.inertia := by rw [g.mp, g.mpA]; exact .self hv 0 _
        have net : Err6 v (30 * N + 7) ((rounded rnd).netWrench l'.body) (exact.netWrench l.body) (uncancelled.netWrench L.body) :=
          ⟨.smul hr hv hmass hm.comAcc (by omega), .vadd hr hv (.cross hr hv hm.vel.ang (.mulVec hr hv hin hm.vel.ang le_rfl) le_rfl)
            (.mulVec hr hv hin hm.acc.ang le_rfl) (by omega) (by omega)⟩
        have w0 := Err6.angShift (n := 30 * N + M + 16 * 0 + 15) hr hv net hcom (by omega)
        have w1 := c2 0 _ _ _ w0
        have ext : Err6 v (M + 3) ((rounded rnd).extWrench l'.body.extw) (exact.extWrench l.body.extw) (uncancelled.extWrench L.body.extw) := by
          rw [g.extw, g.extwA]
          exact (ext_error hr hv l.body.extw).mono hv (by omega)
        have w2 := Err6.sub6 (n := 30 * N + M + 16 * (c.toList.length + 1)) hr hv w1 ext (by omega) (by omega)
        constructor
        · intro K hK
          simp only [LTree.toList, List.length_cons, List.length_append] at hK
          refine ⟨⟨g.mp, g.mpA, hm.placed.frame, hm.placed.wldCOM, hm.comVel, hm.comAcc, hm.vel, hm.acc, w2.mono hv (by omega), ?_⟩, c1 K (by omega), s1 K (by omega)⟩
          intro j x' x X h1 h2 h3
          rw [g.prp] at h1
          rw [g.prpA] at h3
          exact calcTrq_err hr hv l.joint.prp w2 (by omega) h1 h2 h3
        · intro m w' w W hw
          have step := Err6.add6 (n := 30 * N + M + 16 * (m + (c.toList.length + 1)) + 15) hr hv hw (Err6.xform6Ang hr hv hm.placed.adj w2 le_rfl) (by omega) (by omega)
          have := s2 _ _ _ _ step
          simp only [LTree.toList, List.length_cons, List.length_append]
          refine Err6.mono hv (a := 30 * N + M + 16 * (m + (c.toList.length + 1) + s.toList.length) + 15) ?_ (by omega)
          exact this

end

/-! ## Exact arithmetic gives the functions of the model -/

theorem exact_jointXform (p : Prp ℝ) (f : Frame ℝ) : exact.jointXform p f = p.xform f := by cases p <;> rfl
theorem exact_incVel (p : Prp ℝ) (u : Vec6 ℝ) : exact.incVel p u = p.incVel u := by cases p <;> rfl
theorem exact_incAcc (p : Prp ℝ) (u : Vec6 ℝ) : exact.incAcc p u = p.incAcc u := by cases p <;> rfl
theorem exact_incAccOnVel (p : Prp ℝ) (w : Vec3 ℝ) (u : Vec6 ℝ) : exact.incAccOnVel p w u = p.incAccOnVel w u := by cases p <;> rfl
theorem exact_calcTrq (p : Prp ℝ) (w : Vec6 ℝ) : exact.calcTrq p w = p.calcTrq w := by cases p <;> rfl

theorem exact_updateFrame1 (l : Link ℝ) (f : Frame ℝ) : exact.updateFrame1 l f = l.updateFrame1 f := by
  simp only [updateFrame1, exact_jointXform]; rfl

theorem exact_updateRate1 (l : Link ℝ) (u a : Vec6 ℝ) : exact.updateRate1 l u a = l.updateRate1 u a := by
  simp only [updateRate1, updateVel1, updateAcc1, exact_incVel, exact_incAcc, exact_incAccOnVel]; rfl

theorem exact_addChildWrenchAt (ls : List (Link ℝ)) (t : LTree ℕ) : ∀ w, exact.addChildWrenchAt w ls t = Chain.addChildWrenchAt w ls t := by
  induction t with
  | nil => intro w; rfl
  | node i c s _ ihs =>
    intro w
    rw [Arith.addChildWrenchAt, Chain.addChildWrenchAt]
    cases ls[i]? with
    | none => rfl
    | some l => exact ihs _

theorem exact_updateWrenchAt (t : LTree ℕ) : ∀ ls, exact.updateWrenchAt t ls = Chain.updateWrenchAt t ls := by
  induction t with
  | nil => intro ls; rfl
  | node i c s ihc ihs =>
    intro ls
    rw [Arith.updateWrenchAt, Chain.updateWrenchAt]
    simp only [ihc, ihs, exact_calcTrq, exact_addChildWrenchAt]
    rfl

/-- **C131** With exact arithmetic, `Arith.invDyn` is forward kinematics followed by inverse dynamics: the links come out the same. -/
theorem exact_invDyn (g : Vec6 ℝ) (c c1 c2 : Chain ℝ) (h1 : c.updateFK = some c1) (h2 : c1.updateID g = some c2) :
    ∃ d, exact.invDyn g c = some d ∧ d.link = c2.link := by
  simp only [Chain.updateFK, Chain.updateFrame, Chain.updateFrameAt, Option.map_eq_some_iff] at h1
  obtain ⟨_, ⟨ls1, e1, rfl⟩, rfl⟩ := h1
  simp only [Chain.updateID, Chain.updateRate, Chain.updateRateAt, Chain.updateWrench, bind, Option.bind_eq_some_iff, Option.map_eq_some_iff, pure, Option.some.injEq] at h2
  obtain ⟨_, ⟨ls2, e2, rfl⟩, _, ⟨ls3, e3, rfl⟩, rfl⟩ := h2
  refine ⟨{ c with link := ls3 }, ?_, rfl⟩
  simp only [invDyn, exact_updateFrame1, exact_updateRate1, exact_updateWrenchAt, e1, bind, Option.bind_some]
  have e2' : Chain.downAt (fun (st : Vec6 ℝ × Vec6 ℝ) l => l.updateRate1 st.1 st.2) (fun l => (l.body.vel, l.body.acc)) none c.shape (0, g) ls1 = some ls2 := e2
  rw [e2']
  simp only [Option.bind_some]
  have e3' : Chain.updateWrenchAt c.shape ls2 = some ls3 := e3
  rw [e3']
  rfl

end Arith

open Arith in
theorem Arith.runs {rnd : ℝ → ℝ} {v : ℝ} (hv : 0 ≤ v) (hr : RelError rnd v) (c : Chain ℝ) (h : c.WF) (g : Vec6 ℝ) {M : ℕ}
    (hM : ∀ l ∈ c.link, l.body.extw.length ≤ M) :
    ∃ c1 c2 d e, c.updateFK = some c1 ∧ c1.updateID g = some c2 ∧ (rounded rnd).invDyn g c = some d ∧ uncancelled.invDyn (abs6 g) (absChain c) = some e ∧
      c2.link.length = c.link.length ∧ d.link.length = c.link.length ∧ e.link.length = c.link.length ∧
      ∀ (i : ℕ) (l l' L : Link ℝ), c2.link[i]? = some l → d.link[i]? = some l' → e.link[i]? = some L → Loaded v c.link.length (46 * c.link.length + M) l' l L := by
  -- the three runs
  have run : ∀ (A : Arith) (g : Vec6 ℝ) (c : Chain ℝ), c.WF → ∃ T d, Chain.gather c.link c.shape = some T ∧ A.invDyn g c = some d ∧ d.link.length = c.link.length ∧
      Chain.gather d.link c.shape = some (A.updateWrench (((T.down (fun pwf l => A.updateFrame1 l pwf) (fun l => l.body.frame) Frame.ident)).down
        (fun st l => A.updateRate1 l st.1 st.2) (fun l => (l.body.vel, l.body.acc)) (0, g))) := by
    intro A g c h
    obtain ⟨ls1, T, hT, e1, g1, n1⟩ := h.downAt (fun pwf l => A.updateFrame1 l pwf) (fun l => l.body.frame) Frame.ident
    obtain ⟨ls2, T2, hT2, e2, g2, n2⟩ := (h.with_link n1).downAt (fun (st : Vec6 ℝ × Vec6 ℝ) l => A.updateRate1 l st.1 st.2) (fun l => (l.body.vel, l.body.acc)) (0, g)
    simp only at hT2 e2 g2 n2
    obtain rfl : T2 = _ := Option.some.inj (hT2.symm.trans g1)
    obtain ⟨ls3, e3, g3, n3, -⟩ := A.updateWrenchAt_refines c.shape ls2 _ h.nodup g2
    refine ⟨T, { c with link := ls3 }, hT, ?_, by simp only; omega, g3⟩
    simp only [invDyn, e1, e2, e3, bind, Option.bind_some]; rfl
  obtain ⟨c1, c2, k1, k2⟩ : ∃ c1 c2, c.updateFK = some c1 ∧ c1.updateID g = some c2 := by
    obtain ⟨ls1, -, -, e1, -, n1⟩ := h.downAt (fun pwf (l : Link ℝ) => l.updateFrame1 pwf) (fun l => l.body.frame) Frame.ident
    have w1 : Chain.WF { c with link := ls1 } := h.with_link n1
    obtain ⟨ls2, -, -, e2, -, n2⟩ := w1.downAt (fun st (l : Link ℝ) => l.updateRate1 st.1 st.2) (fun l => (l.body.vel, l.body.acc)) ((0 : Vec6 ℝ), g)
    have w2 : Chain.WF { c with link := ls2 } := h.with_link (n2.trans n1)
    obtain ⟨ls3, -, -, e3, -, -⟩ := w2.updateWrenchAt
    refine ⟨({ c with link := ls1 } : Chain ℝ).calcCOM, ({ ({ c with link := ls1 } : Chain ℝ).calcCOM with link := ls3 } : Chain ℝ).calcCOMVel.calcCOMAcc, ?_, ?_⟩
    · simp only [Chain.updateFK, Chain.updateFrame, Chain.updateFrameAt, e1, Option.map_some]
    · simp only [Chain.updateID, Chain.updateRate, Chain.updateRateAt, Chain.calcCOM]
      rw [e2]
      simp only [Option.map_some, bind, Option.bind_some, Chain.updateWrench]
      rw [e3]
      rfl
  obtain ⟨d0, hd0, hl0⟩ := exact_invDyn g c c1 c2 k1 k2
  obtain ⟨T, d1, hT, hd1, n1, g1⟩ := run exact g c h
  obtain rfl : d1 = d0 := Option.some.inj (hd1.symm.trans hd0)
  obtain ⟨T', d, hT', hd, n2, g2⟩ := run (rounded rnd) g c h
  obtain rfl : T' = T := Option.some.inj (hT'.symm.trans hT)
  have hA : (absChain c).WF :=
    have h' : Chain.WF { c with link := c.link.map absLink } := h.with_link (by simp)
    ⟨h'.1, h'.2⟩
  obtain ⟨TA, e, hTA, he, n3, g3⟩ := run uncancelled (abs6 g) (absChain c) hA
  refine ⟨c1, c2, d, e, k1, k2, hd, he, by rw [← hl0]; exact n1, n2, by simpa [absChain] using n3, ?_⟩
  have start : T'.All3 (fun l' l L => (Given l' l L ∧ l'.org = l.org ∧ L.org = absF l.org) ∧ l.body.extw.length ≤ M) T' TA := by
    refine all3_of_gather hT hT hTA fun i a b d ha hb hd => ?_
    obtain rfl : a = b := Option.some.inj (ha.symm.trans hb)
    have hd' : (c.link.map absLink)[i]? = some d := hd
    rw [List.getElem?_map, ha] at hd'
    obtain rfl : absLink a = d := Option.some.inj hd'
    exact ⟨⟨⟨rfl, rfl, rfl, rfl, rfl, rfl⟩, rfl, rfl⟩, hM a (List.mem_of_getElem? ha)⟩
  have hN : T'.toList.length = c.link.length := by
    have := congrArg List.length (Chain.gather_toList hT)
    simp only [List.length_map] at this
    rw [this, h.perm.length_eq, List.length_range]
  have t1 := all3_down (S := fun l' l L => Placed v c.link.length l' l L ∧ l.body.extw.length ≤ M) (fun n s1 s2 s3 => ErrF v (8 * n) s1 s2 s3) c.link.length
    (f1 := fun pwf l => (rounded rnd).updateFrame1 l pwf) (f2 := fun pwf l => exact.updateFrame1 l pwf) (f3 := fun pwf l => uncancelled.updateFrame1 l pwf)
    (g := fun l => l.body.frame) (fun n s1 s2 s3 a b c hn hP hab => by
      obtain ⟨x, y⟩ := Arith.placed hr hv hab.1.1 hab.1.2.1 hab.1.2.2 hn hP
      exact ⟨⟨x, hab.2⟩, y⟩)
    T' T' TA 0 Frame.ident Frame.ident Frame.ident start (.ident hv _) (by omega)
  have hN1 : (T'.down (fun pwf l => (rounded rnd).updateFrame1 l pwf) (fun l => l.body.frame) Frame.ident).toList.length = c.link.length := by
    rw [length_down, hN]
  have t2 := all3_down (S := fun l' l L => Moved v c.link.length l' l L ∧ l.body.extw.length ≤ M)
    (fun n s1 s2 s3 => Err6 v (15 * n) s1.1 s2.1 s3.1 ∧ Err6 v (30 * n) s1.2 s2.2 s3.2) c.link.length
    (f1 := fun (st : Vec6 ℝ × Vec6 ℝ) l => (rounded rnd).updateRate1 l st.1 st.2) (f2 := fun st l => exact.updateRate1 l st.1 st.2)
    (f3 := fun st l => uncancelled.updateRate1 l st.1 st.2) (g := fun l => (l.body.vel, l.body.acc))
    (fun n s1 s2 s3 a b c hn hP hab => by
      obtain ⟨x, y, z⟩ := moved hr hv hab.1 hn hP.1 hP.2
      exact ⟨⟨x, hab.2⟩, y, z⟩) _ _ _ 0 (0, g) (0, g) (0, abs6 g) t1 ⟨.zero _, .self hv _ g⟩ (by omega)
  have hN2 : ((T'.down (fun pwf l => (rounded rnd).updateFrame1 l pwf) (fun l => l.body.frame) Frame.ident).down (fun (st : Vec6 ℝ × Vec6 ℝ) l => (rounded rnd).updateRate1 l st.1 st.2)
      (fun l => (l.body.vel, l.body.acc)) (0, g)).toList.length = c.link.length := by
    rw [length_down, hN1]
  have t3 := (loaded hr hv _ _ _ t2).1 (46 * c.link.length + M) (by rw [hN2]; omega)
  intro i l l' L hl hl' hL
  have hi : i ∈ c.shape.toList := by
    have := (List.getElem?_eq_some_iff.1 hl').1
    exact h.mem.2 (by omega)
  exact gather_all3 g2 g1 g3 t3 hi hl' (by rw [hl0]; exact hl) hL

open Arith in
/-- **C131** Let every sum, difference and product of forward kinematics and inverse dynamics be rounded with a relative error of at most `v`.  Then for a robot of `N`
links with up to `M` external wrenches on a link, every joint torque is wrong by at most `(1+v)^(46N+M+3) - 1` times the size of the terms it is made of (which the torque itself does not exceed), and the
velocity, the acceleration and the wrench of every link likewise. -/
theorem C131_inverse_dynamics {rnd : ℝ → ℝ} {v : ℝ} (hv : 0 ≤ v) (hr : RelError rnd v) (c : Chain ℝ) (h : c.WF) (g : Vec6 ℝ) {M : ℕ}
    (hM : ∀ l ∈ c.link, l.body.extw.length ≤ M) :
    ∃ c1 c2 d e, c.updateFK = some c1 ∧ c1.updateID g = some c2 ∧ (rounded rnd).invDyn g c = some d ∧ uncancelled.invDyn (abs6 g) (absChain c) = some e ∧
      ∀ (i : ℕ) (l l' L : Link ℝ), c2.link[i]? = some l → d.link[i]? = some l' → e.link[i]? = some L →
        Within6 ((1 + v) ^ (15 * c.link.length) - 1) l'.body.vel l.body.vel L.body.vel ∧
        Within6 ((1 + v) ^ (30 * c.link.length) - 1) l'.body.acc l.body.acc L.body.acc ∧
        Within6 ((1 + v) ^ (46 * c.link.length + M) - 1) l'.joint.wrench l.joint.wrench L.joint.wrench ∧
        ∀ (j : ℕ) (x x' X : ℝ), l.joint.prp.getTrq[j]? = some x → l'.joint.prp.getTrq[j]? = some x' → L.joint.prp.getTrq[j]? = some X →
          |x| ≤ X ∧ |x' - x| ≤ ((1 + v) ^ (46 * c.link.length + M + 3) - 1) * X := by
  obtain ⟨c1, c2, d, e, k1, k2, k3, k4, -, -, -, H⟩ := Arith.runs hv hr c h g hM
  refine ⟨c1, c2, d, e, k1, k2, k3, k4, fun i l l' L hl hl' hL => ?_⟩
  have := H i l l' L hl hl' hL
  exact ⟨⟨⟨this.vel.lin.x.2, this.vel.lin.y.2, this.vel.lin.z.2⟩, ⟨this.vel.ang.x.2, this.vel.ang.y.2, this.vel.ang.z.2⟩⟩,
    ⟨⟨this.acc.lin.x.2, this.acc.lin.y.2, this.acc.lin.z.2⟩, ⟨this.acc.ang.x.2, this.acc.ang.y.2, this.acc.ang.z.2⟩⟩,
    ⟨⟨this.wrench.lin.x.2, this.wrench.lin.y.2, this.wrench.lin.z.2⟩, ⟨this.wrench.ang.x.2, this.wrench.ang.y.2, this.wrench.ang.z.2⟩⟩,
    fun j x x' X h1 h2 h3 => this.trq j x' x X h2 h1 h3⟩

open Arith in
/-- **C131** The same for numbers with 53 significant digits: the relative error grows at most in proportion to the number of links and of external wrenches. -/
theorem C131_robot (c : Chain ℝ) (h : c.WF) (g : Vec6 ℝ) {M : ℕ} (hM : ∀ l ∈ c.link, l.body.extw.length ≤ M) (hN : 46 * c.link.length + M + 3 ≤ 10 ^ 15) :
    ∃ c1 c2 d e, c.updateFK = some c1 ∧ c1.updateID g = some c2 ∧ (rounded nearest).invDyn g c = some d ∧ uncancelled.invDyn (abs6 g) (absChain c) = some e ∧
      ∀ (i : ℕ) (l l' L : Link ℝ), c2.link[i]? = some l → d.link[i]? = some l' → e.link[i]? = some L →
        ∀ (j : ℕ) (x x' X : ℝ), l.joint.prp.getTrq[j]? = some x → l'.joint.prp.getTrq[j]? = some x' → L.joint.prp.getTrq[j]? = some X →
          |x| ≤ X ∧ |x' - x| ≤ 2 * (46 * c.link.length + M + 3) / 2 ^ 53 * X := by
  obtain ⟨c1, c2, d, e, k1, k2, k3, k4, H⟩ := C131_inverse_dynamics (v := 1 / 2 ^ 53) (by positivity) C127_double c h g hM
  refine ⟨c1, c2, d, e, k1, k2, k3, k4, fun i l l' L hl hl' hL j x x' X h1 h2 h3 => ?_⟩
  obtain ⟨a1, a2⟩ := (H i l l' L hl hl' hL).2.2.2 j x x' X h1 h2 h3
  refine ⟨a1, a2.trans (mul_le_mul_of_nonneg_right ?_ ((abs_nonneg x).trans a1))⟩
  have hN' : (46 * c.link.length + M + 3 : ℝ) ≤ 10 ^ 15 := by exact_mod_cast hN
  have := Rounded.pow_linear (x := 1 / 2 ^ 53) (by positivity) (46 * c.link.length + M + 3) (by
    push_cast
    have : 2 * ((46 * (c.link.length : ℝ) + M + 3) * (1 / 2 ^ 53)) = 2 * (46 * c.link.length + M + 3) / 2 ^ 53 := by ring
    rw [this, div_le_one (by positivity)]
    linarith)
  refine this.trans (le_of_eq ?_)
  push_cast
  ring

/-- A branching robot with an external wrench on a link meets the hypotheses of `C131_inverse_dynamics` and `C131_robot`. -/
example (r : Chain ℝ) (l : Link ℝ) (hl : l.body.extw = []) (w : Wrench ℝ) :
    let c : Chain ℝ := { r with link := [l, { l with body := { l.body with extw := [w] } }, l], shape := .node 0 (.node 1 .nil (.node 2 .nil .nil)) .nil }
    c.WF ∧ (∀ l ∈ c.link, l.body.extw.length ≤ 1) ∧ 46 * c.link.length + 1 + 3 ≤ 10 ^ 15 :=
  ⟨⟨⟨_, rfl⟩, by simp [LTree.toList, List.range_succ]⟩, by simp [hl], by simp⟩

end Roki
