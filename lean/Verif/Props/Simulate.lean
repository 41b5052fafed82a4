import Verif.Props.Laws
import Verif.Props.ABIPos
import Verif.Props.PoseFile

set_option autoImplicit false

/-!
# Energy and momentum of a robot simulated by forward dynamics

C133, C134: along a motion whose accelerations are the ones `rkChainABI` computes, the mechanical energy of the chain changes at
the rate at which the motors, the friction of the joints and the external forces do work, and its momentum by the forces
that act on it.
-/

namespace Roki
open Spec LinkArray

section
variable {K : Type*} [Field K]

/-! ### The state left by forward dynamics -/

/-- The frames, the centers of mass and the velocities of a tree are those of its joints. -/
def LTree.Settled (pf : Frame K) (pv : Vec6 K) : LTree (Link K) → Prop
  | .nil => True
  | .node l c s => (l.adj = l.joint.prp.xform l.org ∧ l.body.frame = pf.cascade l.adj ∧
      l.body.wldCOM = l.body.frame.xform l.body.mp.com ∧ l.body.vel = l.joint.prp.incVel (l.adj.xform6Lin pv) ∧
      l.body.comVel = l.body.vel.lin + cross l.body.vel.ang l.body.mp.com) ∧
      LTree.Settled l.body.frame l.body.vel c ∧ LTree.Settled pf pv s

/-- What `LTree.Settled` reads of a link. -/
def Link.settledPart (l : Link K) := ((l.adj, l.joint.prp.xform l.org, l.body.frame, l.body.wldCOM, l.body.mp.com),
  (l.body.vel, l.joint.prp.incVel, l.body.comVel))

theorem LTree.settled_congr {pf : Frame K} {pv : Vec6 K} {T U : LTree (Link K)} (e : U.map Link.settledPart = T.map Link.settledPart)
    (h : T.Settled pf pv) : U.Settled pf pv := by
  induction T generalizing U pf pv with
  | nil => cases U <;> simp_all [LTree.map, LTree.Settled]
  | node l c s ihc ihs =>
    cases U with
    | nil => simp [LTree.map] at e
    | node m c' s' =>
      simp only [LTree.map, LTree.node.injEq] at e
      obtain ⟨e1, e2, e3⟩ := e
      obtain ⟨h1, h2, h3⟩ := h
      simp only [Link.settledPart, Prod.mk.injEq] at e1
      obtain ⟨⟨a1, a2, a3, a4, a5⟩, b1, b2, b3⟩ := e1
      refine ⟨?_, ?_, ihs e3 h3⟩
      · rw [a1, a2, a3, a4, a5, b1, b2, b3]; exact h1
      · rw [a3, b1]; exact ihc e2 h2

theorem LTree.settled_update (pf : Frame K) (pv : Vec6 K) (T : LTree (Link K)) :
    ((T.updateFrame pf).updateVel pv).Settled pf pv := by
  induction T generalizing pf pv with
  | nil => trivial
  | node l c s ihc ihs => exact ⟨⟨rfl, rfl, rfl, rfl, rfl⟩, ihc _ _, ihs _ _⟩

/-- Forward kinematics changes nothing of a settled tree. -/
theorem LTree.Settled.updateFrame {pf : Frame K} {pv : Vec6 K} {T : LTree (Link K)} (h : T.Settled pf pv) :
    T.updateFrame pf = T := by
  induction T generalizing pf pv with
  | nil => rfl
  | node l c s ihc ihs =>
    obtain ⟨⟨h1, h2, h3, -, -⟩, hc, hs⟩ := h
    have e : l.updateFrame1 pf = l := by
      obtain ⟨nm, j, b, o, org, adj, a⟩ := l
      obtain ⟨m, f, v, ac, w, cv, ca, x, st⟩ := b
      simp only [Link.updateFrame1, Body.updateCOM] at *
      subst h1; subst h2; subst h3; rfl
    rw [LTree.updateFrame, e, ihc hc, ihs hs]

/-- The rate pass changes nothing of a settled tree but the accelerations. -/
theorem LTree.Settled.updateRate {pf : Frame K} {pv pa : Vec6 K} {T : LTree (Link K)} (h : T.Settled pf pv) :
    (T.updateRate pv pa).map (fun l => (l.joint, l.body.mp, l.body.frame, l.body.wldCOM, l.body.vel, l.body.comVel, l.body.extw)) =
      T.map fun l => (l.joint, l.body.mp, l.body.frame, l.body.wldCOM, l.body.vel, l.body.comVel, l.body.extw) := by
  induction T generalizing pf pv pa with
  | nil => rfl
  | node l c s ihc ihs =>
    obtain ⟨⟨h1, h2, h3, h4, h5⟩, hc, hs⟩ := h
    have ev : (l.updateRate1 pv pa).body.vel = l.body.vel := h4.symm
    rw [LTree.updateRate, LTree.map, LTree.map, LTree.node.injEq]
    refine ⟨?_, ?_, ihs hs⟩
    · have ec : (l.updateRate1 pv pa).body.comVel = l.body.comVel := by
        rw [h5, h4]; rfl
      rw [ev, ec]; rfl
    · rw [ev]; exact ihc hc

theorem Link.settledPart_back [Zm K] (fx : Bool) (l : Link K) : (l.abiBackward fx).settledPart = l.settledPart := by
  obtain ⟨name, ⟨p, w⟩, body, off, org, adj, abi⟩ := l
  cases p <;> rfl

theorem Link.settledPart_step [Zm K] (fx wr : Bool) (l : Link K) (pa : Vec6 K) :
    (LTree.abiStep fx wr pa l).settledPart = l.settledPart := by
  obtain ⟨name, ⟨p, w⟩, body, off, org, adj, abi⟩ := l
  cases p <;> cases wr <;> (try cases fx) <;> rfl

/-- After `rkChainABI` the frames, the centers of mass and the velocities of the links are those of the joints. -/
theorem abi_settled [LinearOrder K] [Zm K] {c c1 : Chain K} {fx : Bool} {dis vel acc acc' : List K} (h : c.WF)
    (e : c.abi fx dis vel acc = some (c1, some acc')) :
    ∃ U : LTree (Link K), Chain.gather c1.link c1.shape = some U ∧ U.Settled Frame.ident 0 := by
  simp only [Chain.abi] at e
  split_ifs at e with hsz
  · simp at e
  simp only [Option.bind_eq_bind, Option.bind_eq_some_iff, Option.pure_def, Option.some.injEq,
    Prod.mk.injEq] at e
  obtain ⟨ls, e1, ls', e2, d1, e3, d2, e4, d3, e5, a3, e6, rfl, rfl⟩ := e
  have n0 : ls'.length = c.link.length := by
    rw [(setJointAll_getElem e2 0).2, (setJointAll_getElem e1 0).2]
  have w0 : Chain.WF { c with link := ls' } := h.with_link n0
  obtain ⟨T0, g0, g1, w1, s1, n1, -⟩ := w0.updateFK e3
  obtain ⟨ls2, T1, hT1, ev, gv, nv⟩ := w1.downAt (fun pvel (l : Link K) => l.updateVel1 pvel) (fun l => l.body.vel) 0
  rw [← LTree.updateVel_eq] at gv
  have hd2 : d2 = { d1 with link := ls2 } := by
    have hv' : Chain.updateVelAt none d1.shape 0 d1.link = some ls2 := ev
    rw [Chain.updateVel, hv'] at e4
    simpa using e4.symm
  have hT1' : T1 = T0.updateFrame Frame.ident := by
    have := hT1.symm.trans g1; simpa using this
  have w2 : d2.WF := by rw [hd2]; exact w1.with_link nv
  have gv2 : Chain.gather d2.link d2.shape = some (T1.updateVel 0) := by rw [hd2]; exact gv
  have hs1 : d1.shape = c.shape := s1
  have hs2 : d2.shape = c.shape := by rw [hd2]; exact hs1
  have z1 : ls.map (fun l : Link K => l.joint.prp.size) = c.link.map fun l => l.joint.prp.size :=
    setJointAll_keep _ (fun l buf p' hp => by simp only [isSetter_dis.size _ _ _ hp]) e1
  have z2 : ls'.map (fun l : Link K => l.joint.prp.size) = ls.map fun l => l.joint.prp.size :=
    setJointAll_keep _ (fun l buf p' hp => by simp only [isSetter_vel.size _ _ _ hp]) e2
  have n2 : d2.link.length = ls'.length := by rw [hd2]; exact nv.trans n1
  have z3 : d2.link.map (fun l : Link K => l.joint.prp.size) = ls'.map fun l => l.joint.prp.size := by
    refine Chain.map_eq_of_gather gv2 (hs2 ▸ g0) n2 (fun i hi => w2.mem.2 hi) _ ?_
    rw [LTree.updateVel_eq, LTree.down_map_inv (fun l : Link K => l.joint.prp.size) (by intro _ _; rfl), hT1', LTree.updateFrame_eq,
      LTree.down_map_inv (fun l : Link K => l.joint.prp.size) (by intro _ _; rfl)]
  have hz2 : jointSize d2.link ≠ 0 := by
    rw [jointSize_congr (z3.trans (z2.trans z1))]; exact hsz
  obtain ⟨ls3, e5', g3, n3⟩ := w2.abiUpdate fx true hz2 gv2
  have hk : d3.link.map Link.settledPart = d2.link.map Link.settledPart ∧ d3.shape = d2.shape := by
    simp only [Chain.abiUpdate, if_neg hz2, Option.bind_eq_bind, Option.bind_eq_some_iff, Option.pure_def,
      Option.some.injEq] at e5
    obtain ⟨l1, k1, l2, k2, l3, k3, rfl⟩ := e5
    refine ⟨?_, rfl⟩
    show l3.map Link.settledPart = _
    rw [Chain.abiForwardAt_keep _ (Link.settledPart_step fx true) k3,
      Chain.abiBackwardAt_keep _ (Link.settledPart_back fx) (fun _ _ => rfl) k2, Chain.abiInitAt_keep _ (fun _ _ => rfl) k1]
  rw [e5', Option.some.injEq] at e5
  subst e5
  refine ⟨_, g3, LTree.settled_congr (Chain.gather_map_eq g3 gv2 Link.settledPart hk.1) ?_⟩
  rw [hT1']
  exact LTree.settled_update _ _ _

end

/-! ## C133 -/

/-- A robot is simulated.  At the time `s` the program hands the chain `c s` (whose motors, friction torques and external forces
it may have set), the displacements `q s` and the velocities `v s` to `rkChainABI`, which leaves the chain `c1 s` and returns the
accelerations `a s`.  The chain is prepared for forward dynamics (`rkChainABIAlloc`), it has sound masses and inertia tensors
as in C96, and the motion follows the accelerations returned: the velocities held by the joints are the rates of change of the
displacements, and the accelerations held by them, those returned, the rates of change of the velocities.

The types of the joints are those for which forward dynamics is right, see `C26_inverse_of_forward_partial`. -/
structure Spec.Simulated [Zm ℝ] (tol : ℝ) (fx : ℝ → Bool) (c c1 : ℝ → Chain ℝ) (q v a buf : ℝ → List ℝ) : Prop where
  wf : ∀ s, (c s).WF
  offset : ∀ s, setOffset (c s).link = (c s).link
  sizeV : ∀ s, (v s).length = jointSize (c s).link
  sizeA : ∀ s, (buf s).length = jointSize (c s).link
  tiny : ∀ x : ℝ, tol < x → Zm.tiny x = false
  sound : ∀ s, ∀ l ∈ (c s).link, l.abi.m = Link.abiInertia l.body.mp ∧ Physical l.body.mp ∧ Heavy tol l ∧ l.abi.wlist = []
  root : ∀ s l, (c s).link[0]? = some l → l.joint.prp.ABIRootGood
  rest : ∀ s (i : ℕ) (l : Link ℝ), (c s).link[i + 1]? = some l → l.joint.prp.ABIGood
  unbroken : ∀ s, fx s = true → ∀ l ∈ (c s).link, ∀ p, l.joint.prp ≠ .brfloat p
  abi : ∀ s, (c s).abi (fx s) (q s) (v s) (buf s) = some (c1 s, some (a s))
  motion : Motion c1
  acc : ∀ (i : ℕ) (l : ℝ → Link ℝ), (∀ s, (c1 s).link[i]? = some (l s)) → AccMotion fun s => (l s).joint.prp
  screw : ∀ s, ∀ l ∈ (c1 s).link, FloatScrew l.joint.prp

/-- Power of the motor and of the friction of a joint. -/
def Spec.appliedPower {K : Type*} [Field K] (l : Link K) : K :=
  (List.zipWith (· * ·) (appliedTrq l.joint.prp) l.joint.prp.getVel).sum

theorem LTree.updateWrench_vel {K : Type*} [Field K] (T : LTree (Link K)) :
    T.updateWrench.map (fun l => l.joint.prp.getVel) = T.map fun l => l.joint.prp.getVel := by
  induction T with
  | nil => rfl
  | node l c s ihc ihs =>
    simp only [LTree.updateWrench, LTree.map, ihc, ihs, LTree.node.injEq, and_true]
    obtain ⟨name, ⟨p, w⟩, body, off, org, adj, abi⟩ := l
    cases p <;> rfl

theorem sum_map_getElem {α M : Type*} [AddCommMonoid M] {xs ys : List α} (f g : α → M) (hl : xs.length = ys.length)
    (h : ∀ (i : ℕ) x y, xs[i]? = some x → ys[i]? = some y → f x = g y) : (xs.map f).sum = (ys.map g).sum := by
  congr 1
  apply List.ext_getElem?
  intro i
  rw [List.getElem?_map, List.getElem?_map]
  by_cases hi : i < xs.length
  · have hi' : i < ys.length := hl ▸ hi
    rw [List.getElem?_eq_getElem hi, List.getElem?_eq_getElem hi']
    simp only [Option.map_some, Option.some.injEq]
    exact h i _ _ (List.getElem?_eq_getElem hi) (List.getElem?_eq_getElem hi')
  · rw [List.getElem?_eq_none (by omega), List.getElem?_eq_none (by omega)]; rfl

/-- What inverse dynamics says of the chain forward dynamics has left. -/
theorem Spec.Simulated.inverse [Zm ℝ] [LawfulZm ℝ] {tol : ℝ} {fx : ℝ → Bool} {c c1 : ℝ → Chain ℝ} {q v a buf : ℝ → List ℝ}
    (h : Simulated tol fx c c1 q v a buf) (s : ℝ) :
    ∃ d c2, (c1 s).updateFK = some d ∧ d.updateID ⟨⟨0, 0, rkG⟩, 0⟩ = some c2 ∧
      (c2.link.length = (c1 s).link.length ∧ ∀ (i : ℕ) x y, c2.link[i]? = some x → (c1 s).link[i]? = some y →
        x.body.mp = y.body.mp ∧ x.body.frame = y.body.frame ∧ x.body.wldCOM = y.body.wldCOM ∧ x.body.vel = y.body.vel ∧
        x.body.comVel = y.body.comVel ∧ x.body.extw = y.body.extw ∧ x.joint.wrench = y.joint.wrench) ∧
      energy ⟨0, 0, rkG⟩ c2.link = energy ⟨0, 0, rkG⟩ (c1 s).link ∧
      (c2.link.map jointPower).sum = ((c1 s).link.map appliedPower).sum ∧
      (c2.link.map extPower).sum = ((c1 s).link.map extPower).sum := by
  obtain ⟨U, gU, hU⟩ := abi_settled (h.wf s) (h.abi s)
  have w1 := h.motion.wf s
  have hr := C96_regular (c s) (c1 s) (fx s) (q s) (v s) (buf s) (a s) tol (h.wf s) h.tiny
    (fun l hl => ⟨(h.sound s l hl).1, (h.sound s l hl).2.1, (h.sound s l hl).2.2.1⟩) (h.root s) (h.rest s) (h.unbroken s) (h.abi s)
  have hm : ∀ l ∈ (c s).link, l.abi.m = Link.abiInertia l.body.mp ∧ l.body.mp.inertia.Symm ∧ l.abi.wlist = [] :=
    fun l hl => ⟨(h.sound s l hl).1, (h.sound s l hl).2.1.symm, (h.sound s l hl).2.2.2⟩
  have hfx' : fx s = true → ∀ l ∈ (c1 s).link, ∀ d, l.joint.prp ≠ .brfloat d := fun hx =>
    forall_of_map_eq (fun l : Link ℝ => ∀ p, l.joint.prp ≠ .brfloat p) (fun P => P) (abi_noBreak (h.wf s) (h.abi s))
      (h.unbroken s hx)
  obtain ⟨c2', e', htrq⟩ := C26_inverse_of_forward_partial (c s) (c1 s) (fx s) (q s) (v s) (buf s) (a s) (h.wf s) (h.offset s)
    (h.sizeV s) (h.sizeA s) hm (h.root s) (h.rest s) (h.abi s) hr hfx' (h.screw s)
  obtain ⟨-, -, -, -, -, -, -, -, -, ho1, hva⟩ := abi_state (h.wf s) (h.offset s) (fun l hl => ⟨(hm l hl).1, (hm l hl).2.1⟩)
    (h.root s) (h.rest s) (h.abi s) hr
  obtain ⟨ev, ea⟩ := hva (h.sizeV s) (h.sizeA s)
  rw [Chain.invDyn, ev, ea, setJointRateAll_self ho1] at e'
  have e' : (c1 s).updateID ⟨⟨0, 0, rkG⟩, 0⟩ = some c2' := e'
  obtain ⟨d, ed⟩ := updateFK_total w1
  obtain ⟨T, hT, gd, wd, sd, nd, -⟩ := w1.updateFK ed
  rw [gU, Option.some.injEq] at hT
  subst hT
  rw [hU.updateFrame] at gd
  have hl : d.link = (c1 s).link := by
    have := Chain.map_eq_of_gather gd (sd ▸ gU) nd (fun i hi => wd.mem.2 hi) (id : Link ℝ → Link ℝ) rfl
    simpa using this
  obtain ⟨c2, e2⟩ := wd.updateID_exists ⟨⟨0, 0, rkG⟩, 0⟩
  obtain ⟨T, hT, g2, w2, s2, n2, -⟩ := wd.updateID e2
  rw [gd, Option.some.injEq] at hT
  subst hT
  obtain ⟨T, hT, g2', w2', s2', n2', -⟩ := w1.updateID e'
  rw [gU, Option.some.injEq] at hT
  subst hT
  have hl2 : c2.link = c2'.link := by
    have ss : c2.shape = c2'.shape := (s2.trans sd).trans s2'.symm
    have nn : c2.link.length = c2'.link.length := (n2.trans nd).trans n2'.symm
    have := Chain.map_eq_of_gather g2 (ss ▸ g2') nn (fun i hi => w2.mem.2 hi) (id : Link ℝ → Link ℝ) rfl
    simpa using this
  have kb : c2.link.map (fun l => (l.body.mp, l.body.frame, l.body.wldCOM, l.body.vel, l.body.comVel, l.body.extw)) =
      (c1 s).link.map fun l => (l.body.mp, l.body.frame, l.body.wldCOM, l.body.vel, l.body.comVel, l.body.extw) := by
    refine Chain.map_eq_of_gather g2 ((s2.trans sd) ▸ gU) (n2.trans nd) (fun i hi => w2.mem.2 hi) _ ?_
    have a1 := congrArg (LTree.map fun b : Body ℝ => (b.mp, b.frame, b.wldCOM, b.vel, b.comVel, b.extw))
      (LTree.updateWrench_body (U.updateRate 0 ⟨⟨0, 0, rkG⟩, 0⟩))
    have a2 := congrArg (LTree.map fun x => x.2) (hU.updateRate (pa := ⟨⟨0, 0, rkG⟩, 0⟩))
    simp only [LTree.map_map] at a1 a2
    exact a1.trans a2
  have kv : c2.link.map (fun l => l.joint.prp.getVel) = (c1 s).link.map fun l => l.joint.prp.getVel := by
    refine Chain.map_eq_of_gather g2 ((s2.trans sd) ▸ gU) (n2.trans nd) (fun i hi => w2.mem.2 hi) _ ?_
    have a2 := congrArg (LTree.map fun x => x.1.prp.getVel) (hU.updateRate (pa := ⟨⟨0, 0, rkG⟩, 0⟩))
    simp only [LTree.map_map] at a2
    exact (LTree.updateWrench_vel _).trans a2
  have nl := n2.trans nd
  have at_ : ∀ {β : Type} (f : Link ℝ → β), c2.link.map f = (c1 s).link.map f → ∀ (i : ℕ) x y, c2.link[i]? = some x →
      (c1 s).link[i]? = some y → f x = f y := by
    intro β f hf i x y hx hy
    have := congrArg (fun l => l[i]?) hf
    simpa [List.getElem?_map, hx, hy] using this
  have eb : ∀ (i : ℕ) x y, c2.link[i]? = some x → (c1 s).link[i]? = some y → x.body.mp = y.body.mp ∧
      x.body.frame = y.body.frame ∧ x.body.wldCOM = y.body.wldCOM ∧ x.body.vel = y.body.vel ∧ x.body.comVel = y.body.comVel ∧
      x.body.extw = y.body.extw := by
    intro i x y hx hy
    have := at_ _ kb i x y hx hy
    simpa only [Prod.mk.injEq] using this
  refine ⟨d, c2, ed, e2, ⟨nl, fun i x y hx hy => ?_⟩, ?_, ?_, ?_⟩
  · obtain ⟨b1, b2, b3, b4, b5, b6⟩ := eb i x y hx hy
    exact ⟨b1, b2, b3, b4, b5, b6, (htrq i y x hy (hl2 ▸ hx)).2⟩
  · simp only [energy]
    congr 1
    · simp only [LinkArray.ke]
      rw [foldl_add_eq, foldl_add_eq]
      congr 1
      refine sum_map_getElem _ _ nl fun i x y hx hy => ?_
      obtain ⟨b1, b2, b3, b4, b5, -⟩ := eb i x y hx hy
      rw [Body.ke, Body.ke, b1, b4, b5]
    · refine sum_map_getElem _ _ nl fun i x y hx hy => ?_
      obtain ⟨b1, b2, b3, -⟩ := eb i x y hx hy
      rw [mass, b1, b3]; rfl
  · refine sum_map_getElem _ _ nl fun i x y hx hy => ?_
    have hv := at_ _ kv i x y hx hy
    have ht := (htrq i y x hy (hl2 ▸ hx)).1
    rw [jointPower, appliedPower, hv, ht]
  · refine sum_map_getElem _ _ nl fun i x y hx hy => ?_
    obtain ⟨b1, b2, b3, b4, b5, b6⟩ := eb i x y hx hy
    simp only [extPower, pointVelocity, angVel, b2, b4, b6]

/-- **C133** Energy balance of a simulated robot.  The mechanical energy of the chain that forward dynamics leaves behind changes
at the rate at which the motors and the friction of the joints and the external forces do work on it.

Missing from the full property: what is missing from `C26_inverse_of_forward_partial`. -/
theorem C133_power_partial [Zm ℝ] [LawfulZm ℝ] (tol : ℝ) (fx : ℝ → Bool) (c c1 : ℝ → Chain ℝ) (q v a buf : ℝ → List ℝ)
    (h : Simulated tol fx c c1 q v a buf) (t : ℝ) :
    HasDerivAt (fun s => energy ⟨0, 0, rkG⟩ (c1 s).link)
      (((c1 t).link.map appliedPower).sum + ((c1 t).link.map extPower).sum) t := by
  choose d c2 ed e2 hn he hj hx using h.inverse
  have hI : ∀ s, ∀ l ∈ (c1 s).link, l.body.mp.inertia.Symm := by
    intro s
    have hr := C96_regular (c s) (c1 s) (fx s) (q s) (v s) (buf s) (a s) tol (h.wf s) h.tiny
      (fun l hl => ⟨(h.sound s l hl).1, (h.sound s l hl).2.1, (h.sound s l hl).2.2.1⟩) (h.root s) (h.rest s) (h.unbroken s) (h.abi s)
    obtain ⟨-, -, -, -, -, -, -, -, hfix, -, -⟩ := abi_state (h.wf s) (h.offset s)
      (fun l hl => ⟨(h.sound s l hl).1, (h.sound s l hl).2.1.symm⟩) (h.root s) (h.rest s) (h.abi s) hr
    exact forall_of_map_eq Link.fixedPart (fun x => x.1.inertia.Symm) hfix fun l hl => (h.sound s l hl).2.1.symm
  have := C09_work_energy_partial c1 d c2 ⟨⟨0, 0, rkG⟩, 0⟩ h.motion h.acc rfl hI ed e2 t (h.screw t)
  rw [hj, hx] at this
  simpa only [he] using this

/-- **C133** If the motors, the friction and the external forces do no work at any time, the mechanical energy is the same at
all times. -/
theorem C133_conserved_partial [Zm ℝ] [LawfulZm ℝ] (tol : ℝ) (fx : ℝ → Bool) (c c1 : ℝ → Chain ℝ) (q v a buf : ℝ → List ℝ)
    (h : Simulated tol fx c c1 q v a buf) (hj : ∀ s, ((c1 s).link.map appliedPower).sum = 0)
    (he : ∀ s, ((c1 s).link.map extPower).sum = 0) (s s' : ℝ) :
    energy ⟨0, 0, rkG⟩ (c1 s).link = energy ⟨0, 0, rkG⟩ (c1 s').link := by
  have hd : ∀ t, HasDerivAt (fun s => energy ⟨0, 0, rkG⟩ (c1 s).link) 0 t := by
    intro t
    have := C133_power_partial tol fx c c1 q v a buf h t
    rwa [hj, he, add_zero] at this
  exact is_const_of_deriv_eq_zero (fun t => (hd t).differentiableAt) (fun t => (hd t).deriv) s s'

/-- **C133** Without motors and external forces, and with friction torques that never push in the direction of the velocity, the
mechanical energy never increases. -/
theorem C133_dissipated_partial [Zm ℝ] [LawfulZm ℝ] (tol : ℝ) (fx : ℝ → Bool) (c c1 : ℝ → Chain ℝ) (q v a buf : ℝ → List ℝ)
    (h : Simulated tol fx c c1 q v a buf)
    (hj : ∀ s, ∀ l ∈ (c1 s).link, ∀ p, l.joint.prp = .revol p ∨ l.joint.prp = .prism p → p.motor = .none ∧ p.tf * p.vel ≤ 0)
    (he : ∀ s, ∀ l ∈ (c1 s).link, l.body.extw = []) (s s' : ℝ) (hs : s ≤ s') :
    energy ⟨0, 0, rkG⟩ (c1 s').link ≤ energy ⟨0, 0, rkG⟩ (c1 s).link := by
  have hd := C133_power_partial tol fx c c1 q v a buf h
  refine antitone_of_deriv_nonpos (fun t => (hd t).differentiableAt) (fun t => ?_) hs
  rw [(hd t).deriv]
  have hx : ((c1 t).link.map extPower).sum = 0 := by
    apply List.sum_eq_zero
    intro x hx
    obtain ⟨l, hl, rfl⟩ := List.mem_map.1 hx
    simp only [extPower, he t l hl, List.map_nil, List.sum_nil]
  rw [hx, add_zero]
  have key : ∀ L : List ℝ, (∀ x ∈ L, x ≤ 0) → L.sum ≤ 0 := by
    intro L
    induction L with
    | nil => intro _; simp
    | cons x L ih =>
      intro hL
      rw [List.sum_cons]
      linarith [hL x (by simp), ih fun y hy => hL y (by simp [hy])]
  apply key
  intro x hx
  obtain ⟨l, hl, rfl⟩ := List.mem_map.1 hx
  have := hj t l hl
  rw [appliedPower]
  cases hp : l.joint.prp with
  | revol p => obtain ⟨h1, h2⟩ := this p (.inl hp); simpa [appliedTrq, Prp.getVel, h1, Motor.drivingTrq] using h2
  | prism p => obtain ⟨h1, h2⟩ := this p (.inr hp); simpa [appliedTrq, Prp.getVel, h1, Motor.drivingTrq] using h2
  | float p => simp [appliedTrq, Prp.getVel, Vec6.toBuf, Vec3.toBuf]
  | brfloat p => simp [appliedTrq, Prp.getVel, Vec6.toBuf, Vec3.toBuf]
  | _ => simp [appliedTrq]

/-! ## C134 -/

/-- **C134** Newton's law for a simulated robot.  The linear momentum of the chain changes by the force that forward dynamics
reports at the root joint, the external forces and the weight.

Missing from the full property: what is missing from `C26_inverse_of_forward_partial`. -/
theorem C134_newton_partial [Zm ℝ] [LawfulZm ℝ] (tol : ℝ) (fx : ℝ → Bool) (c c1 : ℝ → Chain ℝ) (q v a buf : ℝ → List ℝ)
    (h : Simulated tol fx c c1 q v a buf) (t : ℝ) (root : Link ℝ) (h0 : (c1 t).link[0]? = some root) :
    VecDeriv (fun s => ((c1 s).link.map fun l => mass l • comVel l).sum)
      (rootForce root + ((c1 t).link.map fun l => (extWrench l).lin).sum +
        ((c1 t).link.map fun l => mass l • (⟨0, 0, -rkG⟩ : Vec3 ℝ)).sum) t := by
  choose d c2 ed e2 hn he hj hx using h.inverse
  have hD : Driven c1 d c2 ⟨0, 0, rkG⟩ := ⟨h.motion, h.acc, ed, e2⟩
  have hi : 0 < (c2 t).link.length := (hn t).1 ▸ (List.getElem?_eq_some_iff.1 h0).1
  have hroot : (c2 t).link[0]? = some (c2 t).link[0] := List.getElem?_eq_getElem hi
  obtain ⟨b1, b2, b3, b4, b5, b6, b7⟩ := (hn t).2 0 _ _ hroot h0
  have := C75_newton_partial c1 d c2 ⟨0, 0, rkG⟩ hD t (h.screw t) _ hroot
  refine vecDeriv_congr this (fun s => ?_) ?_
  · refine sum_map_getElem _ _ (hn s).1.symm fun i y x hy hx => ?_
    obtain ⟨b1, b2, b3, b4, b5, b6, b7⟩ := (hn s).2 i x y hx hy
    simp only [mass, comVel, b1, b2, b4]
  · have r1 : rootForce (c2 t).link[0] = rootForce root := by simp only [rootForce, b2, b7]
    rw [r1]
    congr 1
    · congr 1
      refine sum_map_getElem _ _ (hn t).1.symm fun i y x hy hx => ?_
      obtain ⟨b1, b2, b3, b4, b5, b6, b7⟩ := (hn t).2 i x y hx hy
      simp only [extWrench, b2, b6]
    · refine sum_map_getElem _ _ (hn t).1.symm fun i y x hy hx => ?_
      obtain ⟨b1, b2, b3, b4, b5, b6, b7⟩ := (hn t).2 i x y hx hy
      simp only [mass, b1]
      congr 1
      vec_ring

/-- **C134** Euler's law for a simulated robot.  The angular momentum `rkChainAM` computes about a fixed point changes by the
moment about that point of what forward dynamics reports at the root joint, of the external forces and of the weights.

Missing from the full property: what is missing from `C26_inverse_of_forward_partial`. -/
theorem C134_euler_partial [Zm ℝ] [LawfulZm ℝ] (tol : ℝ) (fx : ℝ → Bool) (c c1 : ℝ → Chain ℝ) (q v a buf : ℝ → List ℝ)
    (h : Simulated tol fx c c1 q v a buf) (t : ℝ) (root : Link ℝ) (h0 : (c1 t).link[0]? = some root) (p : Vec3 ℝ) :
    VecDeriv (fun s => LinkArray.am (c1 s).link p)
      (rootMoment root p + ((c1 t).link.map fun l => (extWrench l).ang - cross p (extWrench l).lin).sum +
        ((c1 t).link.map fun l => cross (comPos l - p) (mass l • (⟨0, 0, -rkG⟩ : Vec3 ℝ))).sum) t := by
  choose d c2 ed e2 hn he hj hx using h.inverse
  have hD : Driven c1 d c2 ⟨0, 0, rkG⟩ := ⟨h.motion, h.acc, ed, e2⟩
  have hi : 0 < (c2 t).link.length := (hn t).1 ▸ (List.getElem?_eq_some_iff.1 h0).1
  have hroot : (c2 t).link[0]? = some (c2 t).link[0] := List.getElem?_eq_getElem hi
  obtain ⟨b1, b2, b3, b4, b5, b6, b7⟩ := (hn t).2 0 _ _ hroot h0
  have := C75_euler_partial c1 d c2 ⟨0, 0, rkG⟩ hD t (h.screw t) _ hroot p
  refine vecDeriv_congr this (fun s => ?_) ?_
  · simp only [LinkArray.am]
    rw [foldl_add_eq, foldl_add_eq]
    congr 1
    refine sum_map_getElem _ _ (hn s).1.symm fun i y x hy hx => ?_
    obtain ⟨b1, b2, b3, b4, b5, b6, b7⟩ := (hn s).2 i x y hx hy
    simp only [Body.am, b1, b2, b4, b5]
  · have r1 : rootMoment (c2 t).link[0] p = rootMoment root p := by simp only [rootMoment, rootForce, b2, b7]
    rw [r1]
    congr 1
    · congr 1
      refine sum_map_getElem _ _ (hn t).1.symm fun i y x hy hx => ?_
      obtain ⟨b1, b2, b3, b4, b5, b6, b7⟩ := (hn t).2 i x y hx hy
      simp only [extWrench, b2, b6]
    · refine sum_map_getElem _ _ (hn t).1.symm fun i y x hy hx => ?_
      obtain ⟨b1, b2, b3, b4, b5, b6, b7⟩ := (hn t).2 i x y hx hy
      simp only [mass, comPos, b1, b2]
      congr 2
      vec_ring

/-- **C134** Forward dynamics reports no force and no moment at a floating root: a robot in the air without external forces
moves so that its linear momentum changes by its weight only and its angular momentum by the moment of the weights.

Missing from the full property: what is missing from `C26_inverse_of_forward_partial`. -/
theorem C134_airborne_partial [Zm ℝ] [LawfulZm ℝ] (tol : ℝ) (fx : ℝ → Bool) (c c1 : ℝ → Chain ℝ) (q v a buf : ℝ → List ℝ)
    (h : Simulated tol fx c c1 q v a buf) (t : ℝ) (he : ∀ l ∈ (c1 t).link, l.body.extw = [])
    (hroot : ∀ l, (c1 t).link[0]? = some l → ∃ f, l.joint.prp = .float f) (p : Vec3 ℝ) :
    VecDeriv (fun s => ((c1 s).link.map fun l => mass l • comVel l).sum)
      ((c1 t).link.map fun l => mass l • (⟨0, 0, -rkG⟩ : Vec3 ℝ)).sum t ∧
    VecDeriv (fun s => LinkArray.am (c1 s).link p)
      ((c1 t).link.map fun l => cross (comPos l - p) (mass l • (⟨0, 0, -rkG⟩ : Vec3 ℝ))).sum t := by
  have hr := C96_regular (c t) (c1 t) (fx t) (q t) (v t) (buf t) (a t) tol (h.wf t) h.tiny
    (fun l hl => ⟨(h.sound t l hl).1, (h.sound t l hl).2.1, (h.sound t l hl).2.2.1⟩) (h.root t) (h.rest t) (h.unbroken t) (h.abi t)
  obtain ⟨U, gU, w1, hd, -⟩ := abi_state (h.wf t) (h.offset t)
    (fun l hl => ⟨(h.sound t l hl).1, (h.sound t l hl).2.1.symm⟩) (h.root t) (h.rest t) (h.abi t) hr
  obtain ⟨b, hb⟩ := w1.root
  rw [hb] at gU
  obtain ⟨r, cc, ss, e0, -, -, rfl⟩ := Chain.gather_node.1 gU
  have hw : r.joint.wrench = 0 := by
    obtain ⟨f, hf⟩ := hroot r e0
    have := hd.1.float
    simp only [LTree.FloatEq, hf] at this
    exact this
  have hx : ∀ l ∈ (c1 t).link, extWrench l = 0 := fun l hl => by
    simp only [extWrench, he l hl, List.map_nil, List.sum_nil]
  have n := C134_newton_partial tol fx c c1 q v a buf h t r e0
  have u := C134_euler_partial tol fx c c1 q v a buf h t r e0 p
  have z1 : ((c1 t).link.map fun l => (extWrench l).lin).sum = 0 := by
    apply List.sum_eq_zero
    intro x hx'
    obtain ⟨l, hl, rfl⟩ := List.mem_map.1 hx'
    rw [hx l hl]; rfl
  have z2 : ((c1 t).link.map fun l => (extWrench l).ang - cross p (extWrench l).lin).sum = 0 := by
    apply List.sum_eq_zero
    intro x hx'
    obtain ⟨l, hl, rfl⟩ := List.mem_map.1 hx'
    rw [hx l hl, Vec6.zero_lin, Vec6.zero_ang]; vec_ring
  have f1 : rootForce r = 0 := by simp only [rootForce, hw, Vec6.zero_lin]; vec_ring
  have f2 : rootMoment r p = 0 := by simp only [rootMoment, rootForce, hw, Vec6.zero_lin, Vec6.zero_ang]; vec_ring
  rw [z1, f1, zero_add, zero_add] at n
  rw [z2, f2, zero_add, zero_add] at u
  exact ⟨n, u⟩

/-! ### A weight on a vertical guide -/

namespace Sample

/-- A weight of 2 that slides along the vertical. -/
noncomputable def weight : Chain ℝ :=
  { link := LinkArray.setOffset [(link "weight" (.prism (dof1 0 0 0 0 1 none none)) ⟨2, ⟨1, 0, 3⟩, 1⟩ Frame.ident).abiAlloc],
    shape := .node 0 .nil .nil, mass := 2, wldCOM := 0, comVel := 0, comAcc := 0 }

theorem weight_abi (q v : ℝ) : ∃ X p, weight.abi false [q] [v] [0] = some (X, some [p.acc]) ∧ X.shape = .node 0 .nil .nil ∧
    (∃ l, X.link = [l] ∧ l.joint.prp = .prism p ∧ l.org = Frame.ident ∧ l.body.mp = ⟨2, ⟨1, 0, 3⟩, 1⟩ ∧ l.body.extw = []) ∧
    p.dis = q ∧ p.vel = v ∧ p.motor = .none ∧ p.tf = 0 ∧ p.acc = -rkG := by
  refine ⟨_, _, rfl, rfl, ⟨_, rfl, rfl, rfl, rfl, rfl⟩, rfl, rfl, rfl, rfl, ?_⟩
  have ht : Zm.tiny (2 : ℝ) = false := by simp only [Zm.tiny, decide_eq_false_iff_not]; norm_num
  simp [Link.updateFrame1, Link.updateVel1, Link.abiUpdateInit, Link.abiBackward, Prp.abiAxisInertia, Link.abiAlloc, link, dof1, limit,
    Prp.abiDrivingTorque, Prp.xform, Prp.incVel, Frame.ident, Motor.inertia, Motor.inputTrq, Motor.resistance, Link.abiInertia,
    Body.updateCOM, Body.updateCOMVel, Body.init, Body.calcExtWrench, Prp.incAccOnVel, Frame.cascade, Frame.xform6Lin, Mat3.elem, Vec3.get,
    Prp.invAxis, ht, WrenchList.net, abi]
  simp only [Mat6.rowZ, Vec6.dot6, Mat3.mulVecT6, Mat3.mulVecT, Vec6.linShift, cat, triple, dot, cross]
  vec_unfold
  simp
  ring

/-- Its fall. -/
noncomputable def dropped (s : ℝ) : Chain ℝ := (weight_abi (-rkG * s * s / 2) (-rkG * s)).choose

/-- The fall of the weight meets the hypotheses of the theorems above. -/
theorem dropped_simulated : Simulated (1 / 1000000000000) (fun _ => false) (fun _ => weight) dropped (fun s => [-rkG * s * s / 2])
    (fun s => [-rkG * s]) (fun _ => [-rkG]) fun _ => [0] := by
  have hw : weight.link = [{ ((link "weight" (.prism (dof1 0 0 0 0 1 none none)) ⟨2, ⟨1, 0, 3⟩, 1⟩ Frame.ident).abiAlloc : Link ℝ)
    with offset := 0 }] := rfl
  have key : ∀ s, ∃ l p, (dropped s).link = [l] ∧ weight.abi false [-rkG * s * s / 2] [-rkG * s] [0] = some (dropped s, some [-rkG]) ∧
      (dropped s).shape = .node 0 .nil .nil ∧ l.joint.prp = .prism p ∧ l.org = Frame.ident ∧ l.body.mp = ⟨2, ⟨1, 0, 3⟩, 1⟩ ∧
      p.dis = -rkG * s * s / 2 ∧ p.vel = -rkG * s ∧ p.acc = -rkG := by
    intro s
    obtain ⟨p, e, hs, ⟨l, h1, h2, h3, h4, -⟩, h5, h6, -, -, h7⟩ := (weight_abi (-rkG * s * s / 2) (-rkG * s)).choose_spec
    rw [h7] at e
    exact ⟨l, p, h1, e, hs, h2, h3, h4, h5, h6, h7⟩
  choose l p k1 k2 k3 k4 k5 k6 k7 k8 k9 using key
  have at0 : ∀ (i : ℕ) (m : ℝ → Link ℝ), (∀ s, (dropped s).link[i]? = some (m s)) → m = l := by
    intro i m hm
    funext s
    have := hm s
    rw [k1] at this
    rcases i with _ | i
    · simpa using this.symm
    · simp at this
  have hp : (fun s => (l s).joint.prp) = fun s => .prism (p s) := by funext s; exact k4 s
  refine ⟨fun _ => ⟨⟨_, rfl⟩, .refl _⟩, fun _ => rfl, fun _ => rfl, fun _ => rfl, fun x hx => ?_, fun _ m hm => ?_, fun _ m hm => ?_,
    fun _ i m hm => ?_, fun _ h => by simp at h, k2, ?_, fun i m hm t k hk => ?_, fun s m hm d hd => ?_⟩
  · simp only [Zm.tiny, decide_eq_false_iff_not, not_le]
    exact lt_of_lt_of_le hx (le_abs_self x)
  · rw [hw, List.mem_singleton] at hm
    subst hm
    refine ⟨rfl, ⟨by norm_num [link, Link.abiAlloc], fun w => ?_, rfl⟩, ?_, rfl⟩
    · show 0 ≤ dot w ((1 : Mat3 ℝ).mulVec w)
      rw [Mat3.one_mulVec]
      simp only [dot]
      nlinarith [mul_self_nonneg w.x, mul_self_nonneg w.y, mul_self_nonneg w.z]
    · simp only [Heavy, link, Link.abiAlloc, dof1, Motor.inertia]; norm_num
  · rw [hw] at hm
    simp only [List.getElem?_cons_zero, Option.some.injEq] at hm
    subst hm; trivial
  · rw [hw] at hm; simp at hm
  · refine ⟨fun s => ⟨⟨_, k3 s⟩, by rw [k3, k1]; exact .refl _⟩, fun s s' => by rw [k3, k3], fun s s' => by rw [k1, k1]; rfl,
      fun i m hm s s' => ?_, fun s m hm => ?_, fun i m hm => ?_⟩
    · rw [at0 i m hm, k5, k5, k6, k6]; exact ⟨rfl, rfl⟩
    · rw [k1, List.mem_singleton] at hm
      rw [hm, k5]; exact Mat3.isRot_one
    · rw [at0 i m hm, hp]
      refine .prism p fun t => ?_
      have e : (fun s => (p s).dis) = fun s => -rkG * s * s / 2 := by funext s; exact k7 s
      rw [e, k8]
      have := (((hasDerivAt_id t).const_mul (-rkG : ℝ)).mul (hasDerivAt_id t)).div_const 2
      refine this.congr_deriv ?_
      simp only [id]; ring
  · rw [at0 i m hm] at hk ⊢
    simp only [k4, Prp.size, Nat.lt_one_iff] at hk
    subst hk
    simp only [k4, Prp.getVel, Prp.getAcc, List.getD_cons_zero, k8, k9]
    simpa using (hasDerivAt_id t).const_mul (-rkG : ℝ)
  · rw [k1, List.mem_singleton] at hm
    rw [hm, k4] at hd
    simp at hd

/-- No work is done on the falling weight: its energy is conserved. -/
example : (∀ s, ((dropped s).link.map appliedPower).sum = 0) ∧ (∀ s, ((dropped s).link.map extPower).sum = 0) ∧
    (∀ s, ∀ l ∈ (dropped s).link, ∀ p, l.joint.prp = .revol p ∨ l.joint.prp = .prism p → p.motor = .none ∧ p.tf * p.vel ≤ 0) ∧
    ∀ s, ∀ l ∈ (dropped s).link, l.body.extw = [] := by
  have key : ∀ s, ∃ l p, (dropped s).link = [l] ∧ l.joint.prp = .prism p ∧ l.body.extw = [] ∧ p.motor = .none ∧ p.tf = 0 := by
    intro s
    obtain ⟨p, -, -, ⟨l, h1, h2, -, -, h3⟩, -, -, h4, h5, -⟩ := (weight_abi (-rkG * s * s / 2) (-rkG * s)).choose_spec
    exact ⟨l, p, h1, h2, h3, h4, h5⟩
  choose l p k1 k2 k3 k4 k5 using key
  refine ⟨fun s => ?_, fun s => ?_, fun s m hm d hd => ?_, fun s m hm => ?_⟩
  · simp [k1, appliedPower, k2, appliedTrq, k4, k5, Motor.drivingTrq, Prp.getVel]
  · simp [k1, extPower, k3]
  · rw [k1, List.mem_singleton] at hm
    rw [hm, k2] at hd
    simp only [reduceCtorEq, Prp.prism.injEq, false_or] at hd
    rw [← hd, k4, k5]; simp
  · rw [k1, List.mem_singleton] at hm
    rw [hm, k3]

/-- A body of 2 that floats. -/
noncomputable def stone : Chain ℝ :=
  { link := LinkArray.setOffset [(link "stone" (.float (flt 0)) ⟨2, 0, 1⟩ Frame.ident).abiAlloc],
    shape := .node 0 .nil .nil, mass := 2, wldCOM := 0, comVel := 0, comAcc := 0 }

theorem stone_sound : (∀ m ∈ stone.link, m.abi.m = Link.abiInertia m.body.mp ∧ Physical m.body.mp ∧ Heavy (1 / 1000000000000) m) ∧
    (∀ m, stone.link[0]? = some m → m.joint.prp.ABIRootGood) ∧
    (∀ (i : ℕ) m, stone.link[i + 1]? = some m → m.joint.prp.ABIGood) := by
  have hw : stone.link = [{ ((link "stone" (.float (flt 0)) ⟨2, 0, 1⟩ Frame.ident).abiAlloc : Link ℝ) with offset := 0 }] := rfl
  refine ⟨?_, ?_, ?_⟩
  · intro m hm
    rw [hw, List.mem_singleton] at hm
    subst hm
    have pos : ∀ w : Vec3 ℝ, w ≠ 0 → 0 < dot w ((1 : Mat3 ℝ).mulVec w) := by
      intro w hw
      rw [Mat3.one_mulVec]
      refine lt_of_le_of_ne ?_ fun h => hw ?_
      · simp only [dot]; nlinarith [mul_self_nonneg w.x, mul_self_nonneg w.y, mul_self_nonneg w.z]
      · obtain ⟨h1, h2, h3⟩ := ZmReal.sq3_zero w.x w.y w.z h.symm
        exact Vec3.ext h1 h2 h3
    refine ⟨rfl, ⟨by norm_num [link, Link.abiAlloc], fun w => ?_, rfl⟩, ?_⟩
    · by_cases hw : w = 0
      · rw [hw]; simp [dot]
      · exact (pos w hw).le
    · exact ⟨by norm_num [link, Link.abiAlloc], pos⟩
  · intro m hm
    rw [hw] at hm
    simp only [List.getElem?_cons_zero, Option.some.injEq] at hm
    subst hm; trivial
  · intro i m hm
    rw [hw] at hm; simp at hm

theorem stone_abi (z v : ℝ) : ∃ X p, stone.abi false [0, 0, z, 0, 0, 0] [0, 0, v, 0, 0, 0] [0, 0, 0, 0, 0, 0] =
      some (X, some p.acc.toBuf) ∧ X.shape = .node 0 .nil .nil ∧
    (∃ l, X.link = [l] ∧ l.joint.prp = .float p ∧ l.org = Frame.ident ∧ l.body.mp = ⟨2, 0, 1⟩ ∧ l.body.extw = []) ∧
    p.dis = ⟨⟨0, 0, z⟩, 0⟩ ∧ p.vel = ⟨⟨0, 0, v⟩, 0⟩ ∧ p.att = 1 ∧ p.acc = ⟨⟨0, 0, -rkG⟩, 0⟩ := by
  have pre : ∃ X p, stone.abi false [0, 0, z, 0, 0, 0] [0, 0, v, 0, 0, 0] [0, 0, 0, 0, 0, 0] =
        some (X, some p.acc.toBuf) ∧ X.shape = .node 0 .nil .nil ∧
      (∃ l, X.link = [l] ∧ l.joint.prp = .float p ∧ l.org = Frame.ident ∧ l.body.mp = ⟨2, 0, 1⟩ ∧ l.body.extw = [] ∧
        l.abi.m = Link.abiInertia ⟨2, 0, 1⟩ ∧ l.abi.f = ⟨(2 : ℝ) • triple l.body.vel.ang l.body.vel.ang 0,
          cross l.body.vel.ang (l.abi.m.aa.mulVec l.body.vel.ang)⟩ ∧
        l.body.vel = Prp.incVel (.float p) (l.adj.xform6Lin 0) ∧
        l.abi.w = 0 + ⟨0 + l.body.frame.att.mulVecT ⟨0, 0, -rkG * 2⟩, 0 + cross 0 (l.body.frame.att.mulVecT ⟨0, 0, -rkG * 2⟩)⟩ ∧
        l.body.frame = Frame.ident.cascade l.adj ∧ l.adj = Prp.xform (.float p) Frame.ident ∧
        l.abi.c = ⟨(Prp.incAccOnVel (.float p) (l.adj.att.mulVecT 0) 0).lin + l.adj.att.mulVecT (triple 0 0 l.adj.pos),
          (Prp.incAccOnVel (.float p) (l.adj.att.mulVecT 0) 0).ang⟩) ∧
      p.dis = ⟨⟨0, 0, z⟩, 0⟩ ∧ p.vel = ⟨⟨0, 0, v⟩, 0⟩ ∧ p.att = Zm.fromAA 0 :=
    ⟨_, _, rfl, rfl, ⟨_, rfl, rfl, rfl, rfl, rfl, rfl, rfl, rfl, rfl, rfl, rfl, rfl⟩, rfl, rfl, rfl⟩
  obtain ⟨X, p, e, hs, ⟨l, hl, hp, ho, hm, hx, k1, k2, k3, k4, k5, k6, k7⟩, hd, hv, ha⟩ := pre
  rw [LawfulZm.fromAA_zero] at ha
  refine ⟨X, p, e, hs, ⟨l, hl, hp, ho, hm, hx⟩, hd, hv, ha, ?_⟩
  obtain ⟨hphys, hgood, hrest⟩ := stone_sound
  have hr := C96_regular stone X false _ _ _ _ (1 / 1000000000000) ⟨⟨_, rfl⟩, .refl _⟩ (fun x hx => by
    simp only [Zm.tiny, decide_eq_false_iff_not, not_le]
    exact lt_of_lt_of_le hx (le_abs_self x)) hphys hgood hrest (fun h => by simp at h) e
  obtain ⟨U, gU, -, hD, -⟩ := abi_state ⟨⟨_, rfl⟩, .refl _⟩ rfl (fun m hm => ⟨(hphys m hm).1, (hphys m hm).2.1.symm⟩) hgood hrest e hr
  rw [hs, hl] at gU
  obtain ⟨r, cc, ss, e0, e1, e2, rfl⟩ := Chain.gather_node.1 gU
  simp only [List.getElem?_cons_zero, Option.some.injEq] at e0
  subst e0
  simp only [Chain.gather, Option.some.injEq] at e1 e2
  subst e1; subst e2
  obtain ⟨hn, -, -⟩ := hD
  have b := hn.balance
  have f := hn.float
  have a := hn.acc
  simp only [LTree.FloatEq, LTree.AccEq, hp] at f a
  rw [f, k1, k2, k4, k5] at b
  rw [k7] at a
  simp only [k3] at b a
  simp only [k6] at b a
  obtain ⟨dis, vel, acc, trq, att, _, _⟩ := p
  simp only at hd hv ha
  subst hd hv ha
  simp only [Prp.incAcc, Prp.incVel, Prp.incAccOnVel, Prp.xform, Frame.xform6Lin, Frame.cascade, Frame.ident] at a b
  rw [a] at b
  simp only [Link.abiInertia, LTree.addChildWrench] at b
  revert b
  vec_unfold
  intro b
  simp at b
  obtain ⟨⟨b1, b2, b3⟩, b4, b5, b6⟩ := b
  exact ⟨⟨b1, b2, by linarith⟩, b4.symm, b5.symm, b6.symm⟩

/-- The stone in the air. -/
noncomputable def thrown (s : ℝ) : Chain ℝ := (stone_abi (-rkG * s * s / 2) (-rkG * s)).choose

/-- The motion of the stone meets the hypotheses of `C134_airborne_partial`. -/
theorem thrown_simulated : Simulated (1 / 1000000000000) (fun _ => false) (fun _ => stone) thrown
    (fun s => [0, 0, -rkG * s * s / 2, 0, 0, 0]) (fun s => [0, 0, -rkG * s, 0, 0, 0]) (fun _ => [0, 0, -rkG, 0, 0, 0])
    (fun _ => [0, 0, 0, 0, 0, 0]) ∧ (∀ t, ∀ l ∈ (thrown t).link, l.body.extw = []) ∧
    ∀ t l, (thrown t).link[0]? = some l → ∃ f, l.joint.prp = .float f := by
  have key : ∀ s, ∃ l p, (thrown s).link = [l] ∧ stone.abi false [0, 0, -rkG * s * s / 2, 0, 0, 0] [0, 0, -rkG * s, 0, 0, 0]
        [0, 0, 0, 0, 0, 0] = some (thrown s, some [0, 0, -rkG, 0, 0, 0]) ∧
      (thrown s).shape = .node 0 .nil .nil ∧ l.joint.prp = .float p ∧ l.org = Frame.ident ∧ l.body.mp = ⟨2, 0, 1⟩ ∧
      p.dis = ⟨⟨0, 0, -rkG * s * s / 2⟩, 0⟩ ∧ p.vel = ⟨⟨0, 0, -rkG * s⟩, 0⟩ ∧ p.acc = ⟨⟨0, 0, -rkG⟩, 0⟩ ∧ p.att = 1 ∧
      l.body.extw = [] := by
    intro s
    obtain ⟨p, e, hs, ⟨l, h1, h2, h3, h4, h8⟩, h5, h6, h9, h7⟩ := (stone_abi (-rkG * s * s / 2) (-rkG * s)).choose_spec
    rw [h7] at e
    exact ⟨l, p, h1, e, hs, h2, h3, h4, h5, h6, h7, h9, h8⟩
  choose l p k1 k2 k3 k4 k5 k6 k7 k8 k9 k10 k11 using key
  have at0 : ∀ (i : ℕ) (m : ℝ → Link ℝ), (∀ s, (thrown s).link[i]? = some (m s)) → m = l := by
    intro i m hm
    funext s
    have := hm s
    rw [k1] at this
    rcases i with _ | i
    · simpa using this.symm
    · simp at this
  have hp : (fun s => (l s).joint.prp) = fun s => .float (p s) := by funext s; exact k4 s
  obtain ⟨s1, s2, s3⟩ := stone_sound
  refine ⟨⟨fun _ => ⟨⟨_, rfl⟩, .refl _⟩, fun _ => rfl, fun _ => rfl, fun _ => rfl, fun x hx => ?_, fun _ m hm => ?_, fun _ => s2,
    fun _ => s3, fun _ h => by simp at h, k2, ?_, fun i m hm t k hk => ?_, fun s m hm d hd => ?_⟩, fun t m hm => ?_, fun t m hm => ?_⟩
  · simp only [Zm.tiny, decide_eq_false_iff_not, not_le]
    exact lt_of_lt_of_le hx (le_abs_self x)
  · obtain ⟨h1, h2, h3⟩ := s1 m hm
    refine ⟨h1, h2, h3, ?_⟩
    have hw : stone.link = [{ ((link "stone" (.float (flt 0)) ⟨2, 0, 1⟩ Frame.ident).abiAlloc : Link ℝ) with offset := 0 }] := rfl
    rw [hw, List.mem_singleton] at hm
    rw [hm]; rfl
  · refine ⟨fun s => ⟨⟨_, k3 s⟩, by rw [k3, k1]; exact .refl _⟩, fun s s' => by rw [k3, k3], fun s s' => by rw [k1, k1]; rfl,
      fun i m hm s s' => ?_, fun s m hm => ?_, fun i m hm => ?_⟩
    · rw [at0 i m hm, k5, k5, k6, k6]; exact ⟨rfl, rfl⟩
    · rw [k1, List.mem_singleton] at hm
      rw [hm, k5]; exact Mat3.isRot_one
    · rw [at0 i m hm, hp]
      refine .float p fun t => ⟨by rw [k10]; exact Mat3.isRot_one, ?_, ?_⟩
      · have e : (fun s => (p s).att) = fun _ => (1 : Mat3 ℝ) := by funext s; exact k10 s
        have z : (Mat3.skew (0 : Vec3 ℝ)).mul 1 = 0 := by vec_ring
        simp only [RotMotion, e, k10, k8, z]
        exact ⟨vecDeriv_const _ t, vecDeriv_const _ t, vecDeriv_const _ t⟩
      · have e : (fun s => (p s).dis.lin) = fun s => ⟨0, 0, -rkG * s * s / 2⟩ := by funext s; rw [k7 s]
        rw [e, k8]
        refine ⟨hasDerivAt_const t 0, hasDerivAt_const t 0, ?_⟩
        have := (((hasDerivAt_id t).const_mul (-rkG : ℝ)).mul (hasDerivAt_id t)).div_const 2
        refine this.congr_deriv ?_
        simp only [id]; ring
  · rw [at0 i m hm] at hk ⊢
    simp only [k4, Prp.size] at hk
    simp only [k4, Prp.getVel, Prp.getAcc, k8, k9, Vec6.toBuf, Vec3.toBuf]
    have := (hasDerivAt_id t).const_mul (-rkG : ℝ)
    interval_cases k
    · exact hasDerivAt_const t (0 : ℝ)
    · exact hasDerivAt_const t (0 : ℝ)
    · simpa using this
    · exact hasDerivAt_const t (0 : ℝ)
    · exact hasDerivAt_const t (0 : ℝ)
    · exact hasDerivAt_const t (0 : ℝ)
  · rw [k1, List.mem_singleton] at hm
    rw [hm, k4] at hd
    simp only [Prp.float.injEq, reduceCtorEq, or_false] at hd
    rw [← hd, k8]; vec_ring
  · rw [k1, List.mem_singleton] at hm
    rw [hm, k11]
  · rw [k1] at hm
    simp only [List.getElem?_cons_zero, Option.some.injEq] at hm
    exact ⟨p t, by rw [← hm, k4]⟩

end Sample

end Roki
