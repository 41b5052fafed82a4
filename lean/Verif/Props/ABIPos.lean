import Verif.Lemmas.ABIPos
import Verif.Props.ForwardDyn
import Verif.Props.Definite
set_option autoImplicit false

/-! # C96: forward dynamics of a physical chain is never degenerate -/

namespace Roki
open Spec LinkArray
variable {K : Type*} [Field K] [LinearOrder K] [IsStrictOrderedRing K] [Zm K] [LawfulZm K]

/-- What makes a link sound, as no pass before the backward pass changes it. -/
def Link.soundPart (tol : K) (l : Link K) :=
  (Heavy tol l, l.body.mp, l.abi.m, (∀ p, l.joint.prp ≠ .brfloat p), l.joint.prp.ABIGood, l.joint.prp.ABIRootGood)

theorem Link.soundPart_setDis (tol : K) (l : Link K) (v : List K) (p : Prp K) (h : l.joint.prp.setDis v = some p) :
    Link.soundPart tol { l with joint := { l.joint with prp := p } } = l.soundPart tol := by
  obtain ⟨name, ⟨q, w⟩, body, off, org, adj, abi⟩ := l
  cases q <;> rcases v with _ | ⟨a, _ | ⟨b, _ | ⟨c, _ | ⟨d, _ | ⟨e, _ | ⟨f, v⟩⟩⟩⟩⟩⟩ <;>
    simp [Prp.setDis, Vec3.ofBuf, Vec6.ofBuf] at h <;> subst h <;>
    simp [Link.soundPart, Heavy, Prp.ABIGood, Prp.ABIRootGood]

theorem Link.soundPart_setVel (tol : K) (l : Link K) (v : List K) (p : Prp K) (h : l.joint.prp.setVel v = some p) :
    Link.soundPart tol { l with joint := { l.joint with prp := p } } = l.soundPart tol := by
  obtain ⟨name, ⟨q, w⟩, body, off, org, adj, abi⟩ := l
  cases q <;> rcases v with _ | ⟨a, _ | ⟨b, _ | ⟨c, _ | ⟨d, _ | ⟨e, _ | ⟨f, v⟩⟩⟩⟩⟩⟩ <;>
    simp [Prp.setVel, Vec3.ofBuf, Vec6.ofBuf] at h <;> subst h <;>
    simp [Link.soundPart, Heavy, Prp.ABIGood, Prp.ABIRootGood]

/-- `rkChainABI` keeps the type of every joint. -/
theorem abi_noBreak {c c1 : Chain K} {fx : Bool} {dis vel acc acc' : List K} (h : c.WF)
    (e : c.abi fx dis vel acc = some (c1, some acc')) :
    c1.link.map (fun l => ∀ p, l.joint.prp ≠ .brfloat p) = c.link.map fun l => ∀ p, l.joint.prp ≠ .brfloat p := by
  simp only [Chain.abi] at e
  split_ifs at e with hsz
  · simp at e
  simp only [Option.bind_eq_bind, Option.bind_eq_some_iff, Option.pure_def, Option.some.injEq,
    Prod.mk.injEq] at e
  obtain ⟨ls, e1, ls', e2, d1, e3, d2, e4, d3, e5, a3, e6, rfl, rfl⟩ := e
  have f1 : ls.map (Link.soundPart 0) = c.link.map (Link.soundPart 0) :=
    setJointAll_keep (Link.soundPart 0) (fun l buf p' hp => Link.soundPart_setDis 0 l buf p' hp) e1
  have f2 : ls'.map (Link.soundPart 0) = ls.map (Link.soundPart 0) :=
    setJointAll_keep (Link.soundPart 0) (fun l buf p' hp => Link.soundPart_setVel 0 l buf p' hp) e2
  have f12 := congrArg (List.map fun x => x.2.2.2.1) (f2.trans f1)
  simp only [List.map_map] at f12
  have n0 : ls'.length = c.link.length := by
    rw [(setJointAll_getElem e2 0).2, (setJointAll_getElem e1 0).2]
  have w0 : Chain.WF { c with link := ls' } := h.with_link n0
  have f3 : d1.link.map (fun l => ∀ p, l.joint.prp ≠ .brfloat p) = ls'.map fun l => ∀ p, l.joint.prp ≠ .brfloat p :=
    (ZTK.updateFK_map _ (fun _ _ => rfl) e3).1
  obtain ⟨T0, g0, g1, w1, s1, n1, -⟩ := w0.updateFK e3
  obtain ⟨ls2, T1, hT1, ev, gv, nv⟩ := w1.downAt (fun pvel (l : Link K) => l.updateVel1 pvel) (fun l => l.body.vel) 0
  have hd2 : d2 = { d1 with link := ls2 } := by
    have hv' : Chain.updateVelAt none d1.shape 0 d1.link = some ls2 := ev
    rw [Chain.updateVel, hv'] at e4
    simpa using e4.symm
  have f4 : d2.link.map (fun l => ∀ p, l.joint.prp ≠ .brfloat p) = d1.link.map fun l => ∀ p, l.joint.prp ≠ .brfloat p := by
    subst hd2
    refine Chain.map_eq_of_gather gv hT1 nv (fun i hi => w1.mem.2 (by rw [← nv]; exact hi)) _ ?_
    exact LTree.down_map_inv _ (by intro _ _; rfl) _ _
  have f5 := (Chain.abiUpdate_keep (fun l : Link K => ∀ p, l.joint.prp ≠ .brfloat p) (fx := fx) (wr := true) (fun _ => rfl)
    (fun _ _ => rfl) (fun l => by
      obtain ⟨name, ⟨p, w⟩, body, off, org, adj, abi⟩ := l
      cases p <;> simp [Link.abiBackward, Prp.abiDrivingTorque]) (fun _ _ => rfl) (fun l pa => by
      obtain ⟨name, ⟨p, w⟩, body, off, org, adj, abi⟩ := l
      cases p <;> cases fx <;> simp [LTree.abiStep, Link.abiForward, Link.abiWrench, Prp.abiQAcc]) e5).1
  exact f5.trans (f4.trans (f3.trans f12))

/-- **C96** Take a chain prepared for forward dynamics (`rkChainABIAlloc`) whose links have masses and inertia tensors that are
not negative, and every link of which resists its own joint by more than the tolerance `tol` below which `zIsTiny` may hold: its
moment about the axis of its revolute joint or its mass along its prismatic joint, motor included; a link of a floating joint has
mass and inertia.  Then in every state no joint is taken for massless: `rkChainABI` never divides by an inertia it regards as
zero, and no joint is treated as if it were fixed. -/
theorem C96_regular (c c1 : Chain K) (fx : Bool) (dis vel acc acc' : List K) (tol : K) (h : c.WF)
    (htol : ∀ x : K, tol < x → Zm.tiny x = false)
    (hm : ∀ l ∈ c.link, l.abi.m = Link.abiInertia l.body.mp ∧ Physical l.body.mp ∧ Heavy tol l)
    (hroot : ∀ l, c.link[0]? = some l → l.joint.prp.ABIRootGood)
    (hgood : ∀ (i : ℕ) (l : Link K), c.link[i + 1]? = some l → l.joint.prp.ABIGood)
    (hfx : fx = true → ∀ l ∈ c.link, ∀ p, l.joint.prp ≠ .brfloat p)
    (e : c.abi fx dis vel acc = some (c1, some acc')) : ∀ l ∈ c1.link, AxisRegular l := by
  simp only [Chain.abi] at e
  split_ifs at e with hsz
  · simp at e
  simp only [Option.bind_eq_bind, Option.bind_eq_some_iff, Option.pure_def, Option.some.injEq,
    Prod.mk.injEq] at e
  obtain ⟨ls, e1, ls', e2, d1, e3, d2, e4, d3, e5, a3, e6, rfl, rfl⟩ := e
  have f1 : ls.map (Link.soundPart tol) = c.link.map (Link.soundPart tol) :=
    setJointAll_keep (Link.soundPart tol) (fun l buf p' hp => Link.soundPart_setDis tol l buf p' hp) e1
  have f2 : ls'.map (Link.soundPart tol) = ls.map (Link.soundPart tol) :=
    setJointAll_keep (Link.soundPart tol) (fun l buf p' hp => Link.soundPart_setVel tol l buf p' hp) e2
  have o1 : ls.map (fun l : Link K => l.joint.prp.size) = c.link.map fun l => l.joint.prp.size :=
    setJointAll_keep _ (fun l buf p' hp => by simp only [isSetter_dis.size _ _ _ hp]) e1
  have o2 : ls'.map (fun l : Link K => l.joint.prp.size) = ls.map fun l => l.joint.prp.size :=
    setJointAll_keep _ (fun l buf p' hp => by simp only [isSetter_vel.size _ _ _ hp]) e2
  have n0 : ls'.length = c.link.length := by
    rw [(setJointAll_getElem e2 0).2, (setJointAll_getElem e1 0).2]
  have w0 : Chain.WF { c with link := ls' } := h.with_link n0
  obtain ⟨T0, g0, g1, w1, s1, n1, -⟩ := w0.updateFK e3
  obtain ⟨ls2, T1, hT1, ev, gv, nv⟩ := w1.downAt (fun pvel (l : Link K) => l.updateVel1 pvel) (fun l => l.body.vel) 0
  rw [← LTree.updateVel_eq] at gv
  have hd2 : d2 = { d1 with link := ls2 } := by
    have hv' : Chain.updateVelAt none d1.shape 0 d1.link = some ls2 := ev
    rw [Chain.updateVel, hv'] at e4
    simpa using e4.symm
  have hT1' : T1 = T0.updateFrame Frame.ident := by
    have := hT1.symm.trans g1; simpa using this
  have w2 : d2.WF := by rw [hd2]; exact w1.with_link nv
  have gv2 : Chain.gather d2.link d2.shape = some (T1.updateVel 0) := by rw [hd2]; exact gv
  have hs1 : d1.shape = c.shape := s1
  have hs2 : d2.shape = c.shape := by rw [hd2]; exact hs1
  have tmap : ∀ {β : Type _} (k : Link K → β) (_ : ∀ v l, k (l.updateVel1 v) = k l) (_ : ∀ v l, k (l.updateFrame1 v) = k l),
      (T1.updateVel 0).map k = T0.map k := fun k h1 h2 => by
    rw [LTree.updateVel_eq, LTree.down_map_inv k h1, hT1', LTree.updateFrame_eq, LTree.down_map_inv k h2]
  have n2 : d2.link.length = ls'.length := by rw [hd2]; exact nv.trans n1
  have pmap : ∀ {β : Type _} (k : Link K → β) (_ : ∀ v l, k (l.updateVel1 v) = k l) (_ : ∀ v l, k (l.updateFrame1 v) = k l),
      d2.link.map k = ls'.map k := fun k h1 h2 =>
    Chain.map_eq_of_gather gv2 (hs2 ▸ g0) n2 (fun i hi => w2.mem.2 hi) _ (tmap k h1 h2)
  have pp := pmap (fun l => (l.soundPart tol, l.joint.prp.size)) (by intro _ _; rfl) (by intro _ _; rfl)
  have p2 : d2.link.map (Link.soundPart tol) = c.link.map (Link.soundPart tol) := by
    have a1 := congrArg (List.map Prod.fst) pp
    simp only [List.map_map] at a1
    exact a1.trans (f2.trans f1)
  have hz2 : jointSize d2.link ≠ 0 := by
    have a1 := congrArg (List.map Prod.snd) pp
    simp only [List.map_map] at a1
    rw [jointSize_congr (Eq.trans (b := ls'.map fun l => l.joint.prp.size) a1 (o2.trans o1))]
    exact hsz
  obtain ⟨ls3, e5', g3, n3⟩ := w2.abiUpdate fx true hz2 gv2
  rw [e5', Option.some.injEq] at e5
  subst e5
  have w3 : Chain.WF { d2 with link := ls3 } := w2.with_link n3
  have getk : ∀ (i : ℕ) (l : Link K), d2.link[i]? = some l → ∃ m, c.link[i]? = some m ∧ l.soundPart tol = m.soundPart tol := by
    intro i l hl
    have := congrArg (fun L => L[i]?) p2
    simp only [List.getElem?_map, hl, Option.map_some] at this
    cases hc : c.link[i]? with
    | none => rw [hc] at this; simp at this
    | some m => rw [hc] at this; simp only [Option.map_some, Option.some.injEq] at this; exact ⟨m, rfl, this⟩
  have hsound : ∀ (v : Vec6 K), ∀ l ∈ d2.link, (l.abiUpdateInit v).Sound tol fx := by
    intro v l hl
    have hx : (∀ m ∈ c.link, (m.soundPart tol).2.2.1 = Link.abiInertia (m.soundPart tol).2.1 ∧ Physical (m.soundPart tol).2.1 ∧
        (m.soundPart tol).1 ∧ (fx = true → (m.soundPart tol).2.2.2.1)) := fun m hm' =>
      ⟨(hm m hm').1, (hm m hm').2.1, (hm m hm').2.2, fun hx => hfx hx m hm'⟩
    obtain ⟨b1, b2, b3, b4⟩ := forall_of_map_eq (Link.soundPart tol)
      (fun x => x.2.2.1 = Link.abiInertia x.2.1 ∧ Physical x.2.1 ∧ x.1 ∧ (fx = true → x.2.2.2.1)) p2 hx l hl
    exact ⟨b1, b2, b3, b4⟩
  obtain ⟨t, ht⟩ := w2.root
  have gv3 := gv2
  rw [ht] at gv3
  obtain ⟨l0, cc, ss, g4, g5, g6, e7⟩ := Chain.gather_node.1 gv3
  simp only [Chain.gather, Option.some.injEq] at g6
  subst g6
  have perm2 := Chain.gather_perm gv2 w2.perm
  rw [e7] at perm2
  have hgc : ∀ m ∈ cc.toList, m.joint.prp.ABIGood := by
    intro m hm'
    have h1 := Chain.gather_toList g5
    have : some m ∈ cc.toList.map some := List.mem_map.2 ⟨m, hm', rfl⟩
    rw [h1] at this
    obtain ⟨j, hj, hjm⟩ := List.mem_map.1 this
    have hnd := w2.nodup
    rw [ht] at hnd
    simp only [LTree.toList, List.append_nil, List.nodup_cons] at hnd
    rcases j with _ | j
    · exact absurd hj hnd.1
    · obtain ⟨m', hm'', ef⟩ := getk (j + 1) m hjm
      have : (m.soundPart tol).2.2.2.2.1 := by rw [ef]; exact hgood j m' hm''
      exact this
  have hr0 : l0.joint.prp.ABIRootGood := by
    obtain ⟨m', hm'', ef⟩ := getk 0 l0 g4
    have : (l0.soundPart tol).2.2.2.2.2 := by rw [ef]; exact hroot m' hm''
    exact this
  have initmem : ∀ (T : LTree (Link K)) (v : Vec6 K), ∀ m ∈ (T.abiInit v).toList, ∃ l ∈ T.toList, ∃ u, m = l.abiUpdateInit u := by
    intro T
    induction T with
    | nil => intro v m hm'; simp [LTree.abiInit, LTree.down, LTree.toList] at hm'
    | node l c s ihc ihs =>
      intro v m hm'
      simp only [LTree.abiInit, LTree.down, LTree.toList, List.mem_cons, List.mem_append] at hm'
      rcases hm' with rfl | hm' | hm'
      · exact ⟨l, by simp [LTree.toList], _, rfl⟩
      · obtain ⟨x, hx, u, rfl⟩ := ihc _ m hm'; exact ⟨x, by simp [LTree.toList, hx], u, rfl⟩
      · obtain ⟨x, hx, u, rfl⟩ := ihs _ m hm'; exact ⟨x, by simp [LTree.toList, hx], u, rfl⟩
  have hb : ∀ m ∈ (((T1.updateVel 0).abiInit 0).abiBack fx).1.toList, AxisRegular m := by
    rw [e7]
    refine LTree.root_regular htol (l0.abiUpdateInit 0) (cc.abiInit (l0.abiUpdateInit 0).body.vel) ?_ ?_ ?_
    · exact hsound 0 l0 (perm2.mem_iff.1 (by simp [LTree.toList]))
    · exact hr0
    · intro m hm'
      obtain ⟨l, hl, u, rfl⟩ := initmem _ _ m hm'
      exact ⟨hsound u l (perm2.mem_iff.1 (by simp [LTree.toList, hl])), hgc l hl⟩
  have k1 := congrArg LTree.toList (show ((((T1.updateVel 0).abiInit 0).abiBack fx).1.abiFwd fx true 0).map AxisRegular =
      (((T1.updateVel 0).abiInit 0).abiBack fx).1.map AxisRegular by
    rw [LTree.abiFwd, LTree.down_map_inv AxisRegular]
    intro pa l
    obtain ⟨name, ⟨p, w⟩, body, off, org, adj, abi⟩ := l
    cases p <;> (try cases fx) <;> rfl)
  rw [LTree.toList_map, LTree.toList_map] at k1
  intro l hl
  exact forall_of_map_eq AxisRegular (fun P => P) k1 hb l ((Chain.gather_perm g3 w3.perm).mem_iff.2 hl)
section
variable (c c1 : Chain K) (fx : Bool) (dis vel acc acc' : List K) (tol : K) (h : c.WF)
  (ho : setOffset c.link = c.link) (hv : vel.length = jointSize c.link) (ha : acc.length = jointSize c.link)
  (horg : ∀ l ∈ c.link, l.org.att.IsRot) (htol : ∀ x : K, tol < x → Zm.tiny x = false)
  (hm : ∀ l ∈ c.link, l.abi.m = Link.abiInertia l.body.mp ∧ Physical l.body.mp ∧ Heavy tol l ∧ l.abi.wlist = [])
  (hroot : ∀ l, c.link[0]? = some l → l.joint.prp.ABIRootGood)
  (hgood : ∀ (i : ℕ) (l : Link K), c.link[i + 1]? = some l → l.joint.prp.ABIGood)
  (hfx : fx = true → ∀ l ∈ c.link, ∀ p, l.joint.prp ≠ .brfloat p)
  (e : c.abi fx dis vel acc = some (c1, some acc'))
  (hf : ∀ l ∈ c1.link, ∀ d, l.joint.prp = .float d ∨ l.joint.prp = .brfloat d → cross d.vel.lin d.vel.ang = 0)
include h ho hv ha horg htol hm hroot hgood hfx e hf

/-- **C96** For such a chain, in every state and whatever the motors do, forward dynamics solves the equation of motion: the
joint torques applied are those of inverse dynamics at rest plus the joint-space inertia times the accelerations returned.  No
hypothesis on what happens inside the computation.

Missing from the full property: joints are fixed, revolute, floating or breakable, and a prismatic joint may only be at the root;
linear and angular velocity of floating joints are parallel; no breakable joint when the table of breakable joints has been
exchanged (see the `C26_*_fails` theorems). -/
theorem C96_equation_of_motion_partial :
    ∃ β, idTorque ⟨⟨0, 0, rkG⟩, 0⟩ vel (List.replicate (jointSize c.link) 0) c1 = some β ∧
      β.length = jointSize c.link ∧ acc'.length = jointSize c.link ∧
      ∀ k < jointSize c.link, (c1.link.map fun l => appliedTrq l.joint.prp).flatten.getD k 0 = β.getD k 0 +
        ∑ j ∈ Finset.range (jointSize c.link), jointInertia c1 k j * acc'.getD j 0 := by
  have hr := C96_regular c c1 fx dis vel acc acc' tol h htol (fun l hl => ⟨(hm l hl).1, (hm l hl).2.1, (hm l hl).2.2.1⟩)
    hroot hgood hfx e
  exact C93_equation_of_motion_partial c c1 fx dis vel acc acc' h ho hv ha horg
    (fun l hl => ⟨(hm l hl).1, (hm l hl).2.1.symm, (hm l hl).2.2.2⟩) hroot hgood e hr
    (fun hx => forall_of_map_eq (fun l : Link K => ∀ p, l.joint.prp ≠ .brfloat p) (fun P => P) (abi_noBreak h e) (hfx hx)) hf

/-- **C96** If moreover every link has a positive mass and a positive definite inertia tensor, the accelerations that `rkChainABI`
returns are the only ones with which the equation of motion holds.

Missing from the full property: what is missing from `C96_equation_of_motion_partial`. -/
theorem C96_unique_partial (hmass : ∀ l ∈ c.link, 0 < mass l)
    (hI : ∀ l ∈ c.link, ∀ w : Vec3 K, w ≠ 0 → 0 < dot w (l.body.mp.inertia.mulVec w))
    (β x : List K) (hb : idTorque ⟨⟨0, 0, rkG⟩, 0⟩ vel (List.replicate (jointSize c.link) 0) c1 = some β)
    (hx : x.length = jointSize c.link) :
    (∀ k < jointSize c.link, (c1.link.map fun l => appliedTrq l.joint.prp).flatten.getD k 0 = β.getD k 0 +
        ∑ j ∈ Finset.range (jointSize c.link), jointInertia c1 k j * x.getD j 0) ↔ x = acc' := by
  have hr := C96_regular c c1 fx dis vel acc acc' tol h htol (fun l hl => ⟨(hm l hl).1, (hm l hl).2.1, (hm l hl).2.2.1⟩)
    hroot hgood hfx e
  have hfx' : fx = true → ∀ l ∈ c1.link, ∀ d, l.joint.prp ≠ .brfloat d := fun hx =>
    forall_of_map_eq (fun l : Link K => ∀ p, l.joint.prp ≠ .brfloat p) (fun P => P) (abi_noBreak h e) (hfx hx)
  have hm' : ∀ l ∈ c.link, l.abi.m = Link.abiInertia l.body.mp ∧ l.body.mp.inertia.Symm ∧ l.abi.wlist = [] :=
    fun l hl => ⟨(hm l hl).1, (hm l hl).2.1.symm, (hm l hl).2.2.2⟩
  constructor
  · intro hxe
    refine C93_unique_partial c c1 fx dis vel acc acc' h ho hv ha horg hm' hroot hgood e hr hfx' hf ?_ β x hb hx hxe
    obtain ⟨U, -, w1, -, -, -, -, -, hfix, -, -⟩ := abi_state h ho (fun l hl => ⟨(hm' l hl).1, (hm' l hl).2.1⟩)
      hroot hgood e hr
    obtain ⟨d, d1, wd, rd, od, fd, zd, -, st, sh⟩ := abi_posed h ho horg e w1
    have hmp : d.link.map (fun l => l.body.mp) = c.link.map fun l => l.body.mp := by
      have a1 := congrArg (List.map fun s => s.2.2.2.2) st
      have a2 := congrArg (List.map fun s => s.1) hfix
      simp only [List.map_map] at a1 a2
      rw [← mp_fk wd rd od fd]
      exact a1.symm.trans a2
    intro y hy
    rw [← zd] at hy ⊢
    refine C95_inertia_regular d d1 wd rd od fd
      (forall_of_map_eq (fun l : Link K => l.body.mp) (fun m => 0 < m.mass) hmp hmass)
      (forall_of_map_eq (fun l : Link K => l.body.mp) (fun m => ∀ w : Vec3 K, w ≠ 0 → 0 < dot w (m.inertia.mulVec w)) hmp hI) y ?_
    intro k hk
    rw [← hy k hk]
    exact Finset.sum_congr rfl fun j _ => by rw [jointInertia_congr st sh]
  · rintro rfl
    obtain ⟨β', hb', -, -, key⟩ := C96_equation_of_motion_partial c c1 fx dis vel acc x tol h ho hv ha horg htol hm hroot hgood
      hfx e hf
    rw [hb, Option.some.injEq] at hb'
    subst hb'
    exact key
end

/-- `Sample.arm` in motion meets the hypotheses of `C96_regular`, `C96_equation_of_motion_partial` and `C96_unique_partial`. -/
example : (∀ x : ℚ, 1 / 1000000000000 < x → Zm.tiny x = false) ∧
    (∀ l ∈ Sample.arm.link, Physical l.body.mp ∧ Heavy (1 / 1000000000000) l ∧ 0 < mass l ∧
      (∀ w : Vec3 ℚ, w ≠ 0 → 0 < dot w (l.body.mp.inertia.mulVec w)) ∧ ∀ p, l.joint.prp ≠ .brfloat p) := by
  have pd := Sample.mpx_definite
  refine ⟨fun x hx => ?_, ?_⟩
  · simp only [Zm.tiny, decide_eq_false_iff_not, not_le]
    exact lt_of_lt_of_le hx (le_abs_self x)
  · have key := Sample.arm_links
    intro l hl
    obtain ⟨h1, h2⟩ := key l hl
    refine ⟨?_, ?_, ?_, ?_, ?_⟩
    · rw [h1]
      refine ⟨by norm_num [Sample.mpx], fun w => ?_, rfl⟩
      by_cases hw : w = 0
      · rw [hw]; simp [dot]
      · exact (pd w hw).le
    · rcases h2 with h2 | h2
      · simp only [Heavy, h2, Sample.turn, h1]
        have : (Motor.none : Motor ℚ).inertia = 0 := rfl
        norm_num [Sample.dof1, this, momentZ, Sample.mpx]
      · simp only [Heavy, h2]
    · simp only [mass, h1]; norm_num [Sample.mpx]
    · rw [h1]; exact pd
    · intro p hp
      rcases h2 with h2 | h2 <;> simp [h2, Sample.turn] at hp
end Roki
