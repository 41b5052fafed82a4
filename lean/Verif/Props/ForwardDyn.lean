import Verif.Props.VirtualWork
import Verif.Props.ABIFails
import Mathlib.Tactic.IntervalCases
set_option autoImplicit false

/-!
# Forward dynamics and the equation of motion (C93)
-/

namespace Roki
set_option linter.unusedSectionVars false
open Spec LinkArray
variable {K : Type*} [Field K]

/-! ## Jacobians depend on the statics only -/

theorem linAxis_still (p : Prp K) (i : ℕ) (f : Frame K) : p.still.linAxis i f = p.linAxis i f := by
  cases p <;> rcases i with _ | _ | _ | _ | _ | _ | i <;> rfl

theorem angAxis_still (p : Prp K) (i : ℕ) (f : Frame K) : p.still.angAxis i f = p.angAxis i f := by
  cases p <;> rcases i with _ | _ | _ | _ | _ | _ | i <;> rfl

theorem walk_congr {ls ms : List (Link K)} (h : ls.map statics = ms.map statics)
    {f : Link K → Jacobi.Mat K → Option (Jacobi.Mat K)} (hf : ∀ l m, statics l = statics m → f l = f m) :
    ∀ (p : List ℕ) (m : Jacobi.Mat K), Jacobi.walk f ls p m = Jacobi.walk f ms p m
  | [], _ => rfl
  | i :: p, m => by
    have hi := congrArg (fun L => L[i]?) h
    simp only [List.getElem?_map] at hi
    simp only [Jacobi.walk]
    cases hl : ls[i]? with
    | none =>
      rw [hl] at hi
      cases hm : ms[i]? with
      | none => rfl
      | some b => rw [hm] at hi; simp at hi
    | some a =>
      rw [hl] at hi
      cases hm : ms[i]? with
      | none => rw [hm] at hi; simp at hi
      | some b =>
        rw [hm] at hi
        simp only [Option.map_some, Option.some.injEq] at hi
        simp only [Option.bind_eq_bind, Option.bind_some, hf a b hi]
        congr 1
        funext m'
        split_ifs
        · rfl
        · exact walk_congr h hf p m'

theorem colLoop_congr {op : Vec3 K → Vec3 K → Vec3 K} {l m : Link K} (h : statics l = statics m)
    {x y : ℕ → Option (Vec3 K)} (hx : x = y) : Jacobi.colLoop op l x = Jacobi.colLoop op m y := by
  obtain ⟨h1, h2, -⟩ := statics_iff.1 h
  have hs : l.size = m.size := by
    show l.joint.prp.size = m.joint.prp.size
    rw [← size_still, h2, size_still]
  funext M
  simp only [Jacobi.colLoop, hs, h1, hx]

theorem angCol_congr {l m : Link K} (h : statics l = statics m) : Jacobi.angCol l = Jacobi.angCol m := by
  obtain ⟨-, h2, -, h4, -⟩ := statics_iff.1 h
  funext i
  rw [Jacobi.angCol, Jacobi.angCol, ← angAxis_still, h2, h4, angAxis_still]

theorem linCol_congr {l m : Link K} (h : statics l = statics m) (p : Vec3 K) : Jacobi.linCol l p = Jacobi.linCol m p := by
  obtain ⟨-, h2, -, h4, -⟩ := statics_iff.1 h
  funext i
  rw [Jacobi.linCol, Jacobi.linCol, ← angAxis_still, ← linAxis_still, h2, h4, angAxis_still, linAxis_still]

/-- The joint-space inertia depends on the statics only. -/
theorem jointInertia_congr {c d : Chain K} (h : c.link.map statics = d.link.map statics) (hs : c.shape = d.shape) (j k : ℕ) :
    jointInertia c j k = jointInertia d j k := by
  have hlen : c.link.length = d.link.length := by simpa using congrArg List.length h
  have hz : jointSize c.link = jointSize d.link := by
    refine jointSize_congr ?_
    have := congrArg (List.map fun s : ℤ × Prp K × Frame K × Frame K × MP K => s.2.1.size) h
    simpa only [List.map_map, Function.comp_def, statics, size_still] using this
  have hang : ∀ i, angColumn c i = angColumn d i := by
    intro i; funext j
    have e : ∀ m, Jacobi.wldAng c i m = Jacobi.wldAng d i m := by
      intro m
      rw [Jacobi.wldAng, Jacobi.wldAng, hs]
      congr 1; funext p
      exact walk_congr h (fun l m hl => colLoop_congr hl (angCol_congr hl)) p _
    rw [angColumn, angColumn, e, hz]
  have hlin : ∀ i p, linColumn c i p = linColumn d i p := by
    intro i p; funext j
    have e : ∀ m, Jacobi.wldLin c i p m = Jacobi.wldLin d i p m := by
      intro m
      have hi := congrArg (fun L => L[i]?) h
      simp only [List.getElem?_map] at hi
      rw [Jacobi.wldLin, Jacobi.wldLin, hs]
      cases hl : c.link[i]? with
      | none =>
        rw [hl] at hi
        cases hm : d.link[i]? with
        | none => rfl
        | some b => rw [hm] at hi; simp at hi
      | some a =>
        rw [hl] at hi
        cases hm : d.link[i]? with
        | none => rw [hm] at hi; simp at hi
        | some b =>
          rw [hm] at hi
          simp only [Option.map_some, Option.some.injEq] at hi
          simp only [Option.bind_eq_bind, Option.bind_some, (statics_iff.1 hi).2.2.2.1]
          congr 1; funext q
          exact walk_congr h (fun l m hl => colLoop_congr hl (linCol_congr hl _)) q _
    rw [linColumn, linColumn, e, hz]
  rw [jointInertia, jointInertia, hlen]
  refine Finset.sum_congr rfl fun i _ => ?_
  have hi := congrArg (fun L => L[i]?) h
  simp only [List.getElem?_map] at hi
  unfold linkInertia
  rw [hang]
  cases hl : c.link[i]? with
  | none =>
    rw [hl] at hi
    cases hm : d.link[i]? with
    | none => rfl
    | some b => rw [hm] at hi; simp at hi
  | some a =>
    rw [hl] at hi
    cases hm : d.link[i]? with
    | none => rw [hm] at hi; simp at hi
    | some b =>
      rw [hm] at hi
      simp only [Option.map_some, Option.some.injEq] at hi
      obtain ⟨-, -, -, h4, h5⟩ := statics_iff.1 hi
      simp only [mass, worldInertia, h4, h5, hlin]

section
variable [LinearOrder K] [IsStrictOrderedRing K] [Zm K] [LawfulZm K]

theorem statics_init (v : Vec6 K) (l : Link K) : statics (l.abiUpdateInit v) = statics l := rfl

theorem statics_back (fx : Bool) (l : Link K) : statics (l.abiBackward fx) = statics l := by
  obtain ⟨name, ⟨p, w⟩, body, off, org, adj, abi⟩ := l
  cases p <;> rfl

theorem statics_add (l : Link K) (d : Mat6 K × Vec6 K) : statics (l.abiAdd d) = statics l := rfl

theorem statics_step (fx wr : Bool) (l : Link K) (pa : Vec6 K) : statics (LTree.abiStep fx wr pa l) = statics l := by
  obtain ⟨name, ⟨p, w⟩, body, off, org, adj, abi⟩ := l
  cases p <;> cases wr <;> (try cases fx) <;> rfl

/-- The chain that forward dynamics leaves has the statics of one posed by forward kinematics. -/
theorem abi_posed {c c1 : Chain K} {fx : Bool} {dis vel acc acc' : List K} (h : c.WF)
    (ho : setOffset c.link = c.link) (hr : ∀ l ∈ c.link, l.org.att.IsRot)
    (e : c.abi fx dis vel acc = some (c1, some acc')) (w : c1.WF) :
    ∃ d d1 : Chain K, d.WF ∧ (∀ l ∈ d.link, l.org.att.IsRot ∧ l.joint.prp.WF) ∧ setOffset d.link = d.link ∧
      d.updateFK = some d1 ∧ jointSize d.link = jointSize c.link ∧ Posed c1 ∧
      c1.link.map statics = d1.link.map statics ∧ c1.shape = d1.shape := by
  simp only [Chain.abi] at e
  split_ifs at e with hsz
  · simp at e
  simp only [Option.bind_eq_bind, Option.bind_eq_some_iff, Option.pure_def, Option.some.injEq,
    Prod.mk.injEq] at e
  obtain ⟨ls, e1, ls', e2, d1, e3, d2, e4, d3, e5, a3, e6, rfl, rfl⟩ := e
  have o1 : ls.map (fun l : Link K => (l.offset, l.joint.prp.size)) = c.link.map fun l => (l.offset, l.joint.prp.size) :=
    setJointAll_keep _ (fun l buf p' hp => by simp only [isSetter_dis.size _ _ _ hp]) e1
  have o2 : ls'.map (fun l : Link K => (l.offset, l.joint.prp.size)) = ls.map fun l => (l.offset, l.joint.prp.size) :=
    setJointAll_keep _ (fun l buf p' hp => by simp only [isSetter_vel.size _ _ _ hp]) e2
  have g1 : ls.map (fun l : Link K => l.org) = c.link.map fun l => l.org :=
    setJointAll_keep _ (fun l buf p' hp => rfl) e1
  have g2 : ls'.map (fun l : Link K => (l.org, l.joint.prp.WF)) = ls.map fun l => (l.org, l.joint.prp.WF) :=
    setJointAll_keep (fun l : Link K => (l.org, l.joint.prp.WF)) (fun l buf p' hp => by
      simp only [(Prp.setVel_kind hp).2.2]) e2
  have n0 : ls'.length = c.link.length := by
    rw [(setJointAll_getElem e2 0).2, (setJointAll_getElem e1 0).2]
  have w0 : Chain.WF { c with link := ls' } := h.with_link n0
  have wf1 := setDisAll_WF ho e1
  have hro : ∀ l ∈ ls, l.org.att.IsRot := forall_of_map_eq (fun l : Link K => l.org) (fun f => f.att.IsRot) g1 hr
  have hrw : ∀ l ∈ ls', l.org.att.IsRot ∧ l.joint.prp.WF :=
    forall_of_map_eq (fun l : Link K => (l.org, l.joint.prp.WF)) (fun x => x.1.att.IsRot ∧ x.2) g2
      fun y hy => ⟨hro y hy, wf1 y hy⟩
  obtain ⟨o, z⟩ := offsets_of_sizes (l1 := ls') (l2 := c.link) (o2.trans o1) 0 ho
  obtain ⟨hp, hz⟩ := posed_of_fk w0 hrw o e3
  have s2 : d2.link.map statics = d1.link.map statics := by
    simp only [Chain.updateVel, Option.map_eq_some_iff] at e4
    obtain ⟨l2, e4, rfl⟩ := e4
    exact downAt_map statics (f := fun pv (l : Link K) => l.updateVel1 pv) (fun _ _ => rfl) _ _ _ _ _ e4
  have sh2 : d2.shape = d1.shape := by
    simp only [Chain.updateVel, Option.map_eq_some_iff] at e4
    obtain ⟨l2, -, rfl⟩ := e4
    rfl
  obtain ⟨s3, sh3⟩ := Chain.abiUpdate_keep statics (fx := fx) (wr := true) (fun _ => rfl) statics_init
      (statics_back fx) statics_add (statics_step fx true) (c := d2) e5
  have st := s3.trans s2
  have sh := sh3.trans sh2
  refine ⟨{ c with link := ls' }, d1, w0, hrw, o, e3, by rw [jointSize_eq, jointSize_eq, z], ?_, st, sh⟩
  refine ⟨w, (offsets_of_statics st 0 hp.off).1, ?_, ?_⟩
  · exact forall_of_map_eq statics (fun x => x.2.2.2.1.att.IsRot) st hp.rot
  · obtain ⟨T, hT, hF⟩ := hp.frame
    obtain ⟨-, U, hU, -⟩ := w.updateWrenchAt
    refine ⟨U, hU, LTree.frameOK_congr ?_ hF⟩
    have e := Chain.gather_map_eq hT (sh ▸ hU) statics st.symm
    have := congrArg (LTree.map fun s => (s.2.2.2.1, s.2.2.1)) e
    simpa [LTree.map_map, Function.comp_def, statics] using this

/-- **C93** Forward dynamics solves the equation of motion: for the accelerations that `rkChainABI` returns, every applied joint
torque is the joint-space inertia times the accelerations plus the torque that inverse dynamics gives for zero accelerations
(velocity-dependent forces, gravity and external wrenches).

Missing from the full property: what is missing from `C26_inverse_of_forward_partial`. -/
theorem C93_equation_of_motion_partial (c c1 : Chain K) (fx : Bool) (dis vel acc acc' : List K) (h : c.WF)
    (ho : setOffset c.link = c.link) (hv : vel.length = jointSize c.link)
    (ha : acc.length = jointSize c.link) (horg : ∀ l ∈ c.link, l.org.att.IsRot)
    (hm : ∀ l ∈ c.link, l.abi.m = Link.abiInertia l.body.mp ∧ l.body.mp.inertia.Symm ∧ l.abi.wlist = [])
    (hroot : ∀ l, c.link[0]? = some l → l.joint.prp.ABIRootGood)
    (hgood : ∀ (i : ℕ) (l : Link K), c.link[i + 1]? = some l → l.joint.prp.ABIGood)
    (e : c.abi fx dis vel acc = some (c1, some acc'))
    (hr : ∀ l ∈ c1.link, AxisRegular l)
    (hfx : fx = true → ∀ l ∈ c1.link, ∀ d, l.joint.prp ≠ .brfloat d)
    (hf : ∀ l ∈ c1.link, ∀ d, l.joint.prp = .float d ∨ l.joint.prp = .brfloat d →
      cross d.vel.lin d.vel.ang = 0) :
    ∃ β, idTorque ⟨⟨0, 0, rkG⟩, 0⟩ vel (List.replicate (jointSize c.link) 0) c1 = some β ∧
      β.length = jointSize c.link ∧ acc'.length = jointSize c.link ∧
      ∀ k < jointSize c.link, (c1.link.map fun l => appliedTrq l.joint.prp).flatten.getD k 0 = β.getD k 0 +
        ∑ j ∈ Finset.range (jointSize c.link), jointInertia c1 k j * acc'.getD j 0 := by
  obtain ⟨U, -, w1, -, -, -, -, -, -, ho1, hva⟩ := abi_state h ho (fun l hl => ⟨(hm l hl).1, (hm l hl).2.1⟩)
    hroot hgood e hr
  obtain ⟨d, d1, wd, rd, od, fd, zd, hp, st, sh⟩ := abi_posed h ho horg e w1
  obtain ⟨c2, e2, hl⟩ := C26_inverse_of_forward_partial c c1 fx dis vel acc acc' h ho hv ha hm hroot hgood e hr hfx hf
  have hz1 : jointSize c1.link = jointSize c.link := by
    obtain ⟨hpd, hzd⟩ := posed_of_fk wd rd od fd
    rw [← zd, ← hzd, jointSize_eq, jointSize_eq, (offsets_of_statics st 0 hpd.off).2]
  have hal : acc'.length = jointSize c.link := by
    rw [(hva hv ha).2, List.length_flatten, List.map_map, ← hz1, jointSize_eq]
    simp [sizes, Function.comp_def, getAcc_length]
  obtain ⟨τ, β, e3, e4, n3, n4, key⟩ := inertia_affine wd rd od fd hp st sh ⟨⟨0, 0, rkG⟩, 0⟩ vel acc'
    (hv.trans zd.symm) (hal.trans zd.symm)
  rw [zd] at e4 n3 n4 key
  obtain ⟨ls, T, r⟩ := hp.run (hv.trans hz1.symm) (hal.trans hz1.symm) e2
  have hτ : τ = (c1.link.map fun l => appliedTrq l.joint.prp).flatten := by
    rw [idTorque, e2, Option.bind_some, (r.torques hp).1, Option.some.injEq] at e3
    rw [← e3]
    congr 1
    apply List.ext_getElem?
    intro i
    rw [List.getElem?_map, List.getElem?_map]
    cases h1 : c1.link[i]? with
    | none =>
      have : c2.link[i]? = none := List.getElem?_eq_none (by rw [r.len2]; exact List.getElem?_eq_none_iff.1 h1)
      rw [this]; rfl
    | some l1 =>
      have hi : i < c2.link.length := by rw [r.len2]; exact (List.getElem?_eq_some_iff.1 h1).1
      rw [List.getElem?_eq_getElem hi]
      simp only [Option.map_some, Option.some.injEq]
      exact (hl i l1 _ h1 (List.getElem?_eq_getElem hi)).1
  refine ⟨β, e4, n4, hal, ?_⟩
  intro k hk
  rw [← hτ, key k hk]
  congr 1
  refine Finset.sum_congr rfl fun j _ => ?_
  rw [jointInertia_congr st sh]

/-- **C93** When the joint-space inertia is regular, the accelerations that `rkChainABI` returns are the only ones with which
the equation of motion holds.

Missing from the full property: what is missing from `C26_inverse_of_forward_partial`. -/
theorem C93_unique_partial (c c1 : Chain K) (fx : Bool) (dis vel acc acc' : List K) (h : c.WF)
    (ho : setOffset c.link = c.link) (hv : vel.length = jointSize c.link)
    (ha : acc.length = jointSize c.link) (horg : ∀ l ∈ c.link, l.org.att.IsRot)
    (hm : ∀ l ∈ c.link, l.abi.m = Link.abiInertia l.body.mp ∧ l.body.mp.inertia.Symm ∧ l.abi.wlist = [])
    (hroot : ∀ l, c.link[0]? = some l → l.joint.prp.ABIRootGood)
    (hgood : ∀ (i : ℕ) (l : Link K), c.link[i + 1]? = some l → l.joint.prp.ABIGood)
    (e : c.abi fx dis vel acc = some (c1, some acc'))
    (hr : ∀ l ∈ c1.link, AxisRegular l)
    (hfx : fx = true → ∀ l ∈ c1.link, ∀ d, l.joint.prp ≠ .brfloat d)
    (hf : ∀ l ∈ c1.link, ∀ d, l.joint.prp = .float d ∨ l.joint.prp = .brfloat d →
      cross d.vel.lin d.vel.ang = 0)
    (hreg : ∀ x : ℕ → K, (∀ k < jointSize c.link,
      ∑ j ∈ Finset.range (jointSize c.link), jointInertia c1 k j * x j = 0) → ∀ j < jointSize c.link, x j = 0)
    (β x : List K) (hb : idTorque ⟨⟨0, 0, rkG⟩, 0⟩ vel (List.replicate (jointSize c.link) 0) c1 = some β)
    (hx : x.length = jointSize c.link)
    (hxe : ∀ k < jointSize c.link, (c1.link.map fun l => appliedTrq l.joint.prp).flatten.getD k 0 = β.getD k 0 +
        ∑ j ∈ Finset.range (jointSize c.link), jointInertia c1 k j * x.getD j 0) : x = acc' := by
  obtain ⟨β', hb', -, hn, key⟩ := C93_equation_of_motion_partial c c1 fx dis vel acc acc' h ho hv ha horg hm hroot
    hgood e hr hfx hf
  rw [hb, Option.some.injEq] at hb'
  subst hb'
  have hd := hreg (fun j => x.getD j 0 - acc'.getD j 0) fun k hk => by
    simp only [mul_sub, Finset.sum_sub_distrib]
    have h1 := hxe k hk
    rw [key k hk] at h1
    rw [sub_eq_zero]
    exact (add_left_cancel h1).symm
  refine List.ext_getElem (hx.trans hn.symm) fun i h1 h2 => ?_
  have := hd i (hx ▸ h1)
  simpa [List.getD, h1, h2, sub_eq_zero] using this

end

/-- `Sample.arm` in motion meets every hypothesis; its two torques are zero, so gravity and the centrifugal forces are
balanced by the inertia times the accelerations, which are not zero. -/
example : ∃ (c1 : Chain ℚ) (β : List ℚ), Sample.arm.abi false [0, 0] [1, 2] [0, 0] = some (c1, some [-7354989 / 2125000, 0]) ∧
    idTorque ⟨⟨0, 0, rkG⟩, 0⟩ [1, 2] [0, 0] c1 = some β ∧
    ∀ k < 2, (c1.link.map fun l => appliedTrq l.joint.prp).flatten.getD k 0 = β.getD k 0 +
      ∑ j ∈ Finset.range 2, jointInertia c1 k j * [-7354989 / 2125000, (0 : ℚ)].getD j 0 := by
  obtain ⟨c1, a, h1, h2, h3, h4, h5, h6, h7, h8, h9, rfl⟩ := arm_meets
  have horg : ∀ l ∈ Sample.arm.link, l.org.att.IsRot := by
    refine Sample.forall_of_map (f := fun l : Link ℚ => l.org) (P := fun f => f.att.IsRot)
      (ys := [Sample.side, ⟨⟨1, 0, 0⟩, 1⟩, Sample.side]) rfl ?_
    intro y hy
    simp only [List.mem_cons, List.not_mem_nil, or_false] at hy
    rcases hy with rfl | rfl | rfl <;> constructor <;> decide +kernel
  have hz : jointSize Sample.arm.link = 2 := h3.symm
  obtain ⟨β, e, -, -, k⟩ := C93_equation_of_motion_partial Sample.arm c1 false [0, 0] [1, 2] [0, 0] _ h1 h2 h3 h3 horg h4 h5 h6 h7
    h8 (by simp) h9
  rw [hz] at e k
  exact ⟨c1, β, h7, e, k⟩

/-- The inertia of `Sample.arm` is regular at the state that forward dynamics leaves. -/
example : ∃ (c1 : Chain ℚ) (a : List ℚ), Sample.arm.abi false [0, 0] [1, 2] [0, 0] = some (c1, some a) ∧
    ∀ x : ℕ → ℚ, (∀ k < 2, ∑ j ∈ Finset.range 2, jointInertia c1 k j * x j = 0) → ∀ j < 2, x j = 0 := by
  have key : (Sample.arm.abi false [0, 0] [1, 2] [0, 0]).map (fun r => (r.2.isSome, decide (jointInertia r.1 0 0 * jointInertia r.1 1 1 -
      jointInertia r.1 0 1 * jointInertia r.1 1 0 ≠ 0))) = some (true, true) := by
    decide +kernel
  rw [Option.map_eq_some_iff] at key
  obtain ⟨⟨c1, a⟩, e, hk⟩ := key
  simp only [Prod.mk.injEq, decide_eq_true_eq, Option.isSome_iff_exists] at hk
  obtain ⟨⟨a, rfl⟩, hk⟩ := hk
  refine ⟨c1, a, e, ?_⟩
  intro x hx
  have h0 := hx 0 (by norm_num)
  have h1 := hx 1 (by norm_num)
  simp only [Finset.sum_range_succ, Finset.range_zero, Finset.sum_empty, zero_add] at h0 h1
  have e0 : (jointInertia c1 0 0 * jointInertia c1 1 1 - jointInertia c1 0 1 * jointInertia c1 1 0) * x 0 = 0 := by
    linear_combination jointInertia c1 1 1 * h0 - jointInertia c1 0 1 * h1
  have e1 : (jointInertia c1 0 0 * jointInertia c1 1 1 - jointInertia c1 0 1 * jointInertia c1 1 0) * x 1 = 0 := by
    linear_combination jointInertia c1 0 0 * h1 - jointInertia c1 1 0 * h0
  intro j hj
  interval_cases j
  · exact (mul_eq_zero.1 e0).resolve_left hk
  · exact (mul_eq_zero.1 e1).resolve_left hk

end Roki
