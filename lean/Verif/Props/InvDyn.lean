import Verif.Props.FK
import Verif.Props.Mass

/-!
# C18, C19, C20, C21: inverse dynamics, zero-moment point, yaw torque; C15, C22, C23 after a pass
-/

namespace Roki
open Spec LinkArray
set_option linter.unusedSectionVars false
variable {K : Type*} [Field K]

/-- Setting joint rates changes nothing but joint properties. -/
theorem setJointRateAll_map {α : Type*} (k : Link K → α)
    (hk : ∀ (l : Link K) (p : Prp K), k { l with joint := { l.joint with prp := p } } = k l)
    {vel acc : List K} {ls ls' : List (Link K)} (h : setJointRateAll vel acc ls = some ls') :
    ls'.map k = ls.map k := by
  have one : ∀ (set : Prp K → List K → Option (Prp K)) (v : List K) (l l' : Link K),
      l.setAtOffset set v = some l' → k l' = k l := by
    intro set v l l' h
    simp only [Link.setAtOffset, Link.setWith] at h
    split_ifs at h
    · simp only [Option.map_eq_some_iff] at h
      obtain ⟨p, -, rfl⟩ := h
      exact hk _ _
    · simp only [Option.some.injEq] at h; rw [h]
  induction ls generalizing ls' with
  | nil => simp only [setJointRateAll, Option.some.injEq] at h; subst h; rfl
  | cons l ls ih =>
    simp only [setJointRateAll, Option.bind_eq_bind, Option.bind_eq_some_iff, Option.pure_def,
      Option.some.injEq] at h
    obtain ⟨l1, h1, l2, h2, ls1, h3, rfl⟩ := h
    simp only [List.map_cons, ih h3, one _ _ _ _ h2, one _ _ _ _ h1]

/-- The state after `rkChainUpdateFK` and `rkChainUpdateID`, joint properties being changed in
between. -/
theorem id_state_update {c c1 c2 : Chain K} {ls : List (Link K)} {g : Vec6 K} (h : c.WF)
    (hr : ∀ l ∈ c.link, l.org.att.IsRot ∧ l.joint.prp.WF) (h1 : c.updateFK = some c1)
    (hm : ls.map (fun l : Link K => (l.body.frame, l.adj)) = c1.link.map fun l => (l.body.frame, l.adj))
    (h2 : Chain.updateID g { c1 with link := ls } = some c2) :
    ∃ T : LTree (Link K), Chain.gather c2.link c2.shape = some T.updateWrench ∧ c2.WF ∧
      T.FrameOK Frame.ident ∧ T.VelOK 0 ∧ (∀ l ∈ T.toList, l.body.frame.att.IsRot) ∧
      (∀ l ∈ T.toList, COMVelCurrent l) ∧ (∀ l ∈ T.toList, COMAccCurrent l) := by
  have hrot := C06_fk_rotation c c1 h h1 hr
  obtain ⟨T0, hT0, hg1, hw1, hs1, hn1, -⟩ := h.updateFK h1
  have hlen : ls.length = c1.link.length := by
    have := congrArg List.length hm; simpa using this
  have hw : Chain.WF { c1 with link := ls } := hw1.with_link hlen
  obtain ⟨T1, hT1, hg2, hw2, hs2, hn2, -⟩ := hw.updateID h2
  refine ⟨T1.updateRate 0 g, hg2, hw2, ?_, LTree.velOK_updateRate _ _ _, ?_,
    fun l hl => (mem_updateRate hl).1, fun l hl => (mem_updateRate hl).2⟩
  · refine LTree.frameOK_congr ?_ (LTree.frameOK_updateFrame Frame.ident T0)
    have e1 : T1.map (fun l => (l.body.frame, l.adj)) =
        (T0.updateFrame Frame.ident).map (fun l => (l.body.frame, l.adj)) :=
      Chain.gather_map_eq hT1 hg1 _ hm
    rw [← e1, LTree.updateRate_eq]
    symm
    refine LTree.down_map_inv _ ?_ _ _
    intro _ _; rfl
  · intro l hl
    have e : (T1.updateRate 0 g).map (fun l => l.body.frame) = T1.map (fun l => l.body.frame) := by
      rw [LTree.updateRate_eq]
      refine LTree.down_map_inv _ ?_ _ _
      intro _ _; rfl
    have h5 : l.body.frame ∈ T1.toList.map (fun l => l.body.frame) := by
      rw [← LTree.toList_map, ← e, LTree.toList_map]; exact List.mem_map.2 ⟨l, hl, rfl⟩
    have h6 : l.body.frame ∈ ls.map (fun l => l.body.frame) :=
      ((Chain.gather_perm hT1 hw.perm).map _).mem_iff.1 h5
    have hm' : ls.map (fun l => l.body.frame) = c1.link.map fun l => l.body.frame := by
      have := congrArg (List.map Prod.fst) hm
      simpa [List.map_map, Function.comp_def] using this
    rw [hm'] at h6
    obtain ⟨m, hm1, hm2⟩ := List.mem_map.1 h6
    rw [← hm2]
    exact (hrot m hm1).1

/-- The state after `rkChainUpdateFK` and `rkChainID`. -/
theorem id_state {c c1 c2 : Chain K} {g : Vec6 K} {vel acc : List K} (h : c.WF)
    (hr : ∀ l ∈ c.link, l.org.att.IsRot ∧ l.joint.prp.WF) (h1 : c.updateFK = some c1)
    (h2 : c1.invDyn g vel acc = some c2) :
    ∃ T : LTree (Link K), Chain.gather c2.link c2.shape = some T.updateWrench ∧ c2.WF ∧
      T.FrameOK Frame.ident ∧ T.VelOK 0 ∧ (∀ l ∈ T.toList, l.body.frame.att.IsRot) ∧
      (∀ l ∈ T.toList, COMVelCurrent l) ∧ (∀ l ∈ T.toList, COMAccCurrent l) := by
  simp only [Chain.invDyn, Option.bind_eq_bind, Option.bind_eq_some_iff] at h2
  obtain ⟨ls, hls, h2⟩ := h2
  exact id_state_update h hr h1
    (setJointRateAll_map (fun l : Link K => (l.body.frame, l.adj)) (fun _ _ => rfl) hls) h2

/-- What depends only on the bodies is the same before and after the wrench pass. -/
theorem sum_updateWrench {M : Type*} [AddCommMonoid M] (k : Body K → M) (T : LTree (Link K)) :
    (T.updateWrench.toList.map fun l => k l.body).sum = (T.toList.map fun l => k l.body).sum := by
  have h := congrArg LTree.toList (LTree.updateWrench_body T)
  rw [LTree.toList_map, LTree.toList_map] at h
  have := congrArg (List.map k) h
  simp only [List.map_map] at this
  exact congrArg List.sum this

/-- Links of the updated chain have the frames, velocities and accelerations of the tree. -/
theorem id_links {c c1 c2 : Chain K} {g : Vec6 K} {vel acc : List K} (h : c.WF)
    (hr : ∀ l ∈ c.link, l.org.att.IsRot ∧ l.joint.prp.WF) (h1 : c.updateFK = some c1)
    (h2 : c1.invDyn g vel acc = some c2) :
    ∀ l ∈ c2.link, l.body.frame.att.IsRot ∧ COMVelCurrent l ∧ COMAccCurrent l := by
  obtain ⟨T, hT, hw, hF, hV, hR, hCV, hCA⟩ := id_state h hr h1 h2
  intro l hl
  have hl' := (Chain.gather_perm hT hw.perm).mem_iff.2 hl
  have hb := congrArg LTree.toList (LTree.updateWrench_body T)
  rw [LTree.toList_map, LTree.toList_map] at hb
  have : l.body ∈ T.toList.map (fun l => l.body) := by
    rw [← hb]; exact List.mem_map.2 ⟨l, hl', rfl⟩
  obtain ⟨m, hm, e⟩ := List.mem_map.1 this
  unfold COMVelCurrent COMAccCurrent
  rw [← e]
  exact ⟨hR m hm, hCV m hm, hCA m hm⟩

/-! ## C18 -/

/-- The root wrench of a chain whose links are those of a consistent tree after the wrench pass. -/
theorem chain_root_wrench {c2 : Chain K} {T : LTree (Link K)}
    (hT : Chain.gather c2.link c2.shape = some T.updateWrench) (hw : c2.WF)
    (hF : T.FrameOK Frame.ident) (hR : ∀ l ∈ T.toList, l.body.frame.att.IsRot)
    (hCA : ∀ l ∈ T.toList, COMAccCurrent l) (root : Link K) (h0 : c2.link[0]? = some root) :
    root.body.frame.xform6Ang root.wrench =
      (c2.link.map fun l => inertialWrench l - extWrench l).sum := by
  have hb := wrench_balance T Frame.ident Mat3.isRot_one hF hR hCA
  have hsum := sum_updateWrench (fun b : Body K =>
    (inertialWrench { root with body := b } - extWrench { root with body := b })) T
  have hperm := ((Chain.gather_perm hT hw.perm).map fun l => inertialWrench l - extWrench l).sum_eq
  rw [← hperm]
  refine Eq.trans ?_ (hb.trans hsum.symm)
  obtain ⟨t, ht⟩ := hw.root
  rcases T with _ | ⟨l, ch, s⟩
  · rw [ht] at hT
    obtain ⟨_, _, _, _, _, _, e⟩ := Chain.gather_node.1 hT
    simp [LTree.updateWrench] at e
  · rw [ht] at hT
    obtain ⟨r, ch', s', e1, e2, e3, e⟩ := Chain.gather_node.1 hT
    simp only [Chain.gather, Option.some.injEq] at e3
    subst e3
    rw [h0] at e1
    cases e1
    simp only [LTree.updateWrench, LTree.node.injEq] at e
    obtain ⟨er, -, es⟩ := e
    simp only [LTree.updateWrench, LTree.addChildWrench, es]
    have hf : root.body.frame = l.adj := by
      rw [← er]; exact hF.1.trans (Frame.ident_cascade _)
    rw [← hf, ← er, Frame.ident_xform6Ang, zero_add]

/-- **C18** Inverse dynamics after forward kinematics.  The wrench transmitted at the root joint,
expressed in the world about the world origin, is the sum over all links of the rate of change of
momentum minus the external wrenches.  (`g` is the gravity the library adds to the acceleration of
the root, so the accelerations include it.) -/
theorem C18_root_wrench (c c1 c2 : Chain K) (g : Vec6 K) (vel acc : List K) (h : c.WF)
    (hr : ∀ l ∈ c.link, l.org.att.IsRot ∧ l.joint.prp.WF) (h1 : c.updateFK = some c1)
    (h2 : c1.invDyn g vel acc = some c2) (root : Link K) (h0 : c2.link[0]? = some root) :
    root.body.frame.xform6Ang root.wrench =
      (c2.link.map fun l => inertialWrench l - extWrench l).sum := by
  obtain ⟨T, hT, hw, hF, hV, hR, hCV, hCA⟩ := id_state h hr h1 h2
  exact chain_root_wrench hT hw hF hR hCA root h0

/-- **C18** The same for `rkChainUpdateID` on the velocities and accelerations stored in the
joints. -/
theorem C18_root_wrench_update (c c1 c2 : Chain K) (g : Vec6 K) (h : c.WF)
    (hr : ∀ l ∈ c.link, l.org.att.IsRot ∧ l.joint.prp.WF) (h1 : c.updateFK = some c1)
    (h2 : c1.updateID g = some c2) (root : Link K) (h0 : c2.link[0]? = some root) :
    root.body.frame.xform6Ang root.wrench =
      (c2.link.map fun l => inertialWrench l - extWrench l).sum := by
  obtain ⟨T, hT, hw, hF, hV, hR, hCV, hCA⟩ := id_state_update h hr h1 rfl h2
  exact chain_root_wrench hT hw hF hR hCA root h0

/-- **C18** In particular the net force transmitted at the root, in the world, is the sum of mass
times acceleration of the center of mass minus the external forces. -/
theorem C18_root_force (c c1 c2 : Chain K) (g : Vec6 K) (vel acc : List K) (h : c.WF)
    (hr : ∀ l ∈ c.link, l.org.att.IsRot ∧ l.joint.prp.WF) (h1 : c.updateFK = some c1)
    (h2 : c1.invDyn g vel acc = some c2) (root : Link K) (h0 : c2.link[0]? = some root) :
    root.body.frame.att.mulVec root.wrench.lin =
      (c2.link.map fun l => mass l • comAcc l).sum -
      (c2.link.map fun l =>
        (l.body.extw.map fun w => l.body.frame.att.mulVec w.w.lin).sum).sum := by
  have e := congrArg Vec6.lin (C18_root_wrench c c1 c2 g vel acc h hr h1 h2 root h0)
  rw [lin_sum] at e
  refine e.trans ?_
  rw [← sum_map_sub']
  congr 1
  apply List.map_congr_left
  intro l _
  simp only [Vec6.sub_lin, inertialWrench, aboutOrigin, extWrench, lin_sum, Mat3.mulVec6]

/-- **C18** And it is the total mass times the acceleration of the total center of mass that
`rkChainUpdateID` computes, minus the external forces. -/
theorem C18_root_force_com (c c1 c2 : Chain K) (g : Vec6 K) (vel acc : List K) (h : c.WF)
    (hr : ∀ l ∈ c.link, l.org.att.IsRot ∧ l.joint.prp.WF) (h1 : c.updateFK = some c1)
    (h2 : c1.invDyn g vel acc = some c2) (hm : c2.mass ≠ 0) (root : Link K)
    (h0 : c2.link[0]? = some root) :
    root.body.frame.att.mulVec root.wrench.lin =
      c2.mass • c2.comAcc -
      (c2.link.map fun l =>
        (l.body.extw.map fun w => l.body.frame.att.mulVec w.w.lin).sum).sum := by
  rw [C18_root_force c c1 c2 g vel acc h hr h1 h2 root h0]
  congr 1
  have hl := id_links h hr h1 h2
  have hc : c2.comAcc = LinkArray.calcCOMAcc c2.mass c2.link := by
    simp only [Chain.invDyn, Chain.updateID, Option.bind_eq_bind, Option.bind_eq_some_iff,
      Option.pure_def, Option.some.injEq] at h2
    obtain ⟨_, _, _, _, _, _, rfl⟩ := h2
    rfl
  rw [hc]
  simp only [LinkArray.calcCOMAcc, cat]
  rw [foldl_add_eq, zero_add, smul_sum']
  congr 1
  apply List.map_congr_left
  intro l hl'
  have h3 : l.body.comAcc = _ := (hl l hl').2.2
  rw [smul_smul, mul_div_cancel₀ _ hm, h3]
  simp only [mass, comAcc, triple_eq]
  congr 2
  abel

/-! ## C19 -/

/-- Power balance of a chain whose links are those of a consistent tree after the wrench pass. -/
theorem chain_power_balance {c2 : Chain K} {T : LTree (Link K)}
    (hT : Chain.gather c2.link c2.shape = some T.updateWrench) (hw : c2.WF) (hV : T.VelOK 0)
    (hR : ∀ l ∈ T.toList, l.body.frame.att.IsRot) (hCA : ∀ l ∈ T.toList, COMAccCurrent l) :
    (c2.link.map jointPower).sum = (c2.link.map fun l => inertialPower l - extPower l).sum := by
  have hb := power_balance T 0 hV hR hCA
  rw [Vec6.dot6_zero, sub_zero] at hb
  have hp := Chain.gather_perm hT hw.perm
  rw [← (hp.map jointPower).sum_eq, ← (hp.map fun l => inertialPower l - extPower l).sum_eq, hb]
  rcases hl : T.toList with _ | ⟨m, ms⟩
  · have := congrArg LTree.toList (LTree.updateWrench_body T)
    rw [LTree.toList_map, LTree.toList_map, hl] at this
    simp only [List.map_nil, List.map_eq_nil_iff] at this
    simp [this]
  · have hsum := sum_updateWrench (fun b : Body K =>
      (inertialPower { m with body := b } - extPower { m with body := b })) T
    rw [← hl]
    exact hsum.symm

/-- **C19** The sum over the joints of generalised force times generalised velocity, as computed
by inverse dynamics, is the rate of change of kinetic energy minus the power of the external
wrenches: the constraint forces do no work. -/
theorem C19_power_balance (c c1 c2 : Chain K) (g : Vec6 K) (vel acc : List K) (h : c.WF)
    (hr : ∀ l ∈ c.link, l.org.att.IsRot ∧ l.joint.prp.WF) (h1 : c.updateFK = some c1)
    (h2 : c1.invDyn g vel acc = some c2) :
    (c2.link.map jointPower).sum = (c2.link.map fun l => inertialPower l - extPower l).sum := by
  obtain ⟨T, hT, hw, hF, hV, hR, hCV, hCA⟩ := id_state h hr h1 h2
  exact chain_power_balance hT hw hV hR hCA

/-- **C19** The same for `rkChainUpdateID` on the velocities and accelerations stored in the
joints. -/
theorem C19_power_balance_update (c c1 c2 : Chain K) (g : Vec6 K) (h : c.WF)
    (hr : ∀ l ∈ c.link, l.org.att.IsRot ∧ l.joint.prp.WF) (h1 : c.updateFK = some c1)
    (h2 : c1.updateID g = some c2) :
    (c2.link.map jointPower).sum = (c2.link.map fun l => inertialPower l - extPower l).sum := by
  obtain ⟨T, hT, hw, hF, hV, hR, hCV, hCA⟩ := id_state_update h hr h1 rfl h2
  exact chain_power_balance hT hw hV hR hCA

/-- A chain to which all theorems above apply: forward kinematics and inverse dynamics of the
sample chain succeed. -/
example : ∃ c1 c2 : Chain ℚ, (Sample.chain (K := ℚ)).WF ∧
    (∀ l ∈ (Sample.chain (K := ℚ)).link, l.org.att.IsRot ∧ l.joint.prp.WF) ∧
    (Sample.chain (K := ℚ)).updateFK = some c1 ∧
    c1.invDyn ⟨⟨0, 0, 10⟩, 0⟩ [0, 0, 0, 0, 0, 0, 1, 2, 3] [0, 0, 0, 0, 0, 0, 4, 5, 6] = some c2 ∧
    ∃ root, c2.link[0]? = some root ∧ c2.mass ≠ 0 := by
  refine ⟨_, _, Sample.chain_wf, ?_, rfl, rfl, _, rfl, ?_⟩
  · intro l hl
    have h1 : l.org.att ∈ (Sample.chain (K := ℚ)).link.map (fun l => l.org.att) :=
      List.mem_map.2 ⟨l, hl, rfl⟩
    have e1 : (Sample.chain (K := ℚ)).link.map (fun l => l.org.att) = [1, 1, 1, 1] := rfl
    have h2 : l.joint.prp ∈ (Sample.chain (K := ℚ)).link.map (fun l => l.joint.prp) :=
      List.mem_map.2 ⟨l, hl, rfl⟩
    have e2 : (Sample.chain (K := ℚ)).link.map (fun l => l.joint.prp) =
        [.float (Sample.flt 0), .fixed, .revol (Sample.dof1 0 0 0 0 1 none none),
         .hooke (Sample.dof2 0 0 0 1 0 1)] := rfl
    rw [e1] at h1
    rw [e2] at h2
    simp only [List.mem_cons, List.not_mem_nil, or_false, or_self] at h1 h2
    refine ⟨by rw [h1]; exact Mat3.isRot_one, ?_⟩
    rcases h2 with h | h | h | h <;> rw [h] <;>
      simp [Prp.WF, Sample.flt, Sample.dof1, Sample.dof2, Mat3.isRot_one]
  · show (4 : ℚ) ≠ 0
    norm_num

/-! ## C15, C22, C23 after forward kinematics and inverse dynamics -/

/-- **C15** After inverse dynamics the velocity and acceleration of the total center of mass are
the mass-weighted means of those of the links in the world. -/
theorem C15_id_com (c c1 c2 : Chain K) (g : Vec6 K) (vel acc : List K) (h : c.WF)
    (hr : ∀ l ∈ c.link, l.org.att.IsRot ∧ l.joint.prp.WF) (h1 : c.updateFK = some c1)
    (h2 : c1.invDyn g vel acc = some c2) (hm : c2.mass ≠ 0) :
    c2.mass • c2.comVel = (c2.link.map fun l => mass l • comVel l).sum ∧
    c2.mass • c2.comAcc = (c2.link.map fun l => mass l • comAcc l).sum := by
  have hl := id_links h hr h1 h2
  have hc : c2.comAcc = LinkArray.calcCOMAcc c2.mass c2.link ∧
      c2.comVel = LinkArray.calcCOMVel c2.mass c2.link := by
    simp only [Chain.invDyn, Chain.updateID, Option.bind_eq_bind, Option.bind_eq_some_iff,
      Option.pure_def, Option.some.injEq] at h2
    obtain ⟨_, _, _, _, _, _, rfl⟩ := h2
    exact ⟨rfl, rfl⟩
  rw [hc.1, hc.2]
  simp only [LinkArray.calcCOMAcc, LinkArray.calcCOMVel, cat]
  rw [foldl_add_eq, zero_add, smul_sum', foldl_add_eq, zero_add, smul_sum']
  refine ⟨?_, ?_⟩ <;> congr 1 <;> apply List.map_congr_left <;> intro l hl'
  · have h3 : l.body.comVel = _ := (hl l hl').2.1
    rw [smul_smul, mul_div_cancel₀ _ hm, h3]; rfl
  · have h3 : l.body.comAcc = _ := (hl l hl').2.2
    rw [smul_smul, mul_div_cancel₀ _ hm, h3]
    simp only [mass, comAcc, triple_eq]
    congr 2
    abel

/-- **C22** Kinetic energy after inverse dynamics. -/
theorem C22_energy_id (c c1 c2 : Chain K) (g : Vec6 K) (vel acc : List K) (h : c.WF)
    (hr : ∀ l ∈ c.link, l.org.att.IsRot ∧ l.joint.prp.WF) (h1 : c.updateFK = some c1)
    (h2 : c1.invDyn g vel acc = some c2) :
    LinkArray.ke c2.link =
      (c2.link.map fun l => (mass l * dot (comVel l) (comVel l) +
        dot (angVel l) ((worldInertia l).mulVec (angVel l))) / 2).sum :=
  C22_energy c2 (fun l hl => (id_links h hr h1 h2 l hl).1) fun l hl => (id_links h hr h1 h2 l hl).2.1

/-- **C23** Angular momentum after inverse dynamics; its transfer uses the total linear momentum. -/
theorem C23_angular_momentum_id (c c1 c2 : Chain K) (g : Vec6 K) (vel acc : List K) (h : c.WF)
    (hr : ∀ l ∈ c.link, l.org.att.IsRot ∧ l.joint.prp.WF) (h1 : c.updateFK = some c1)
    (h2 : c1.invDyn g vel acc = some c2) (hm : c2.mass ≠ 0) (p q : Vec3 K) :
    LinkArray.am c2.link p =
      (c2.link.map fun l => cross (comPos l - p) (mass l • comVel l) +
        (worldInertia l).mulVec (angVel l)).sum ∧
    LinkArray.am c2.link p = LinkArray.am c2.link q + cross (q - p) (c2.mass • c2.comVel) := by
  have hl := id_links h hr h1 h2
  refine ⟨C23_angular_momentum c2 p (fun l h => (hl l h).1) fun l h => (hl l h).2.1, ?_⟩
  rw [(C15_id_com c c1 c2 g vel acc h hr h1 h2 hm).1]
  exact C23_transfer c2 p q (fun l h => (hl l h).1) fun l h => (hl l h).2.1

/-! ## C20 -/

/-- Force and moment about a point `p` of the world of the wrench transmitted at the root. -/
def Spec.rootForce (root : Link K) : Vec3 K := root.body.frame.att.mulVec root.wrench.lin
/-- See `rootForce`. -/
def Spec.rootMoment (root : Link K) (p : Vec3 K) : Vec3 K :=
  root.body.frame.att.mulVec root.wrench.ang + cross (root.body.frame.pos - p) (rootForce root)

theorem gravityDir_dot (root : Link K) (v : Vec3 K) :
    dot (gravityDir root) v = (root.body.frame.att.mulVec v).z := by
  simp only [gravityDir]; vec_ring

theorem gravityDir_mulVec (root : Link K) (hr : root.body.frame.att.IsRot) :
    root.body.frame.att.mulVec (gravityDir root) = ⟨0, 0, 1⟩ := by
  have : gravityDir root = root.body.frame.att.mulVecT ⟨0, 0, 1⟩ := by
    simp only [gravityDir]; vec_ring
  rw [this, hr.mulVec_mulVecT]

theorem gravityDir_cross (root : Link K) (hr : root.body.frame.att.IsRot) (v : Vec3 K) :
    root.body.frame.att.mulVec (cross (gravityDir root) v) =
      cross ⟨0, 0, 1⟩ (root.body.frame.att.mulVec v) := by
  rw [hr.mulVec_cross, gravityDir_mulVec root hr]

/-- **C20** `rkChainZMP` fails exactly when the vertical component of the force at the root is
negligible.  Otherwise, when that component is not zero, the point it returns has the requested
height, the moment of the root wrench about it is vertical, and it is the only such point. -/
theorem C20_zmp [Zm K] (root : Link K) (z : K) (hr : root.body.frame.att.IsRot) :
    (zmp root z = none ↔ Zm.tiny (rootForce root).z = true) ∧
    ∀ p, zmp root z = some p → (rootForce root).z ≠ 0 →
      p.z = z ∧ (rootMoment root p).x = 0 ∧ (rootMoment root p).y = 0 ∧
      ∀ q : Vec3 K, q.z = z → (rootMoment root q).x = 0 → (rootMoment root q).y = 0 → q = p := by
  have hf : dot (gravityDir root) root.joint.wrench.lin = (rootForce root).z := gravityDir_dot _ _
  constructor
  · simp only [zmp, hf]; split_ifs with h <;> simp [h]
  · intro p hp h0
    simp only [zmp, hf] at hp
    split_ifs at hp
    simp only [Option.some.injEq, Frame.xform, Mat3.mulVec_smul, cat, Mat3.mulVec_add,
      gravityDir_cross root hr] at hp
    have hF : root.body.frame.att.mulVec root.joint.wrench.lin = rootForce root := rfl
    rw [hF] at hp
    simp only [rootMoment]
    generalize root.body.frame.att.mulVec root.wrench.ang = N at hp ⊢
    generalize rootForce root = F at hp h0 ⊢
    generalize root.body.frame.pos = P at hp ⊢
    subst hp
    have hi : F.z * F.z⁻¹ = 1 := mul_inv_cancel₀ h0
    generalize F.z⁻¹ = k at hi ⊢
    refine ⟨?_, ?_, ?_, ?_⟩
    · vec_unfold; simp; grind
    · vec_unfold; simp; grind
    · vec_unfold; simp; grind
    · intro q h1 h2 h3
      ext
      · revert h2 h3; vec_unfold; simp; intro h2 h3; grind
      · revert h2 h3; vec_unfold; simp; intro h2 h3; grind
      · vec_unfold; simp; grind

/-- **C20** After forward kinematics and inverse dynamics: the total of rate of change of momentum
minus external wrenches has a vertical moment about the ZMP. -/
theorem C20_zmp_id [Zm K] (c c1 c2 : Chain K) (g : Vec6 K) (vel acc : List K) (h : c.WF)
    (hr : ∀ l ∈ c.link, l.org.att.IsRot ∧ l.joint.prp.WF) (h1 : c.updateFK = some c1)
    (h2 : c1.invDyn g vel acc = some c2) (root : Link K) (h0 : c2.link[0]? = some root)
    (z : K) (p : Vec3 K) (hp : zmp root z = some p) (w : Vec6 K)
    (hw : w = (c2.link.map fun l => inertialWrench l - extWrench l).sum) (hz : w.lin.z ≠ 0) :
    p.z = z ∧ (w.ang - cross p w.lin).x = 0 ∧ (w.ang - cross p w.lin).y = 0 := by
  rw [← C18_root_wrench c c1 c2 g vel acc h hr h1 h2 root h0] at hw
  subst hw
  have hrot := (id_links h hr h1 h2 root (List.mem_iff_getElem?.2 ⟨0, h0⟩)).1
  obtain ⟨a, b, d, -⟩ := (C20_zmp root z hrot).2 p hp hz
  have e : (root.body.frame.xform6Ang root.wrench).ang -
      cross p (root.body.frame.xform6Ang root.wrench).lin = rootMoment root p := by
    simp only [rootMoment, rootForce, Frame.xform6Ang, Vec6.angShift, Mat3.mulVec6, cross_sub_left]
    abel
  rw [e]
  exact ⟨a, b, d⟩

/-- A root at height 1, turned about z, with force (1,2,4) and torque (3,5,6). -/
def Sample.zmpRoot : Link ℚ :=
  { Sample.link "base" (.float (Sample.flt 0)) Sample.mp1 Frame.ident with
    joint := ⟨.float (Sample.flt 0), ⟨⟨1, 2, 4⟩, ⟨3, 5, 6⟩⟩⟩
    body := { (Body.init : Body ℚ) with frame := ⟨⟨0, 0, 1⟩, ⟨⟨0, 1, 0⟩, ⟨-1, 0, 0⟩, ⟨0, 0, 1⟩⟩⟩ } }

example : Sample.zmpRoot.body.frame.att.IsRot ∧ (rootForce Sample.zmpRoot).z ≠ 0 := by
  constructor
  · constructor <;> simp [Sample.zmpRoot, dot, cross]
  · simp [Sample.zmpRoot, rootForce, Mat3.mulVec]

/-! ## C21 -/

/-- **C21**, what is true of the code.  The vertical moment about the ZMP is `N . F / F_z`, where
`F`, `N` are the force and torque at the root; `rkChainYawTorque` returns it when `N . F = 0` or
when the vertical components of force and torque are equal.  Missing: all other wrenches, for which
the code divides by the vertical torque instead of the vertical force (`C21_yaw_torque_fails`). -/
theorem C21_yaw_torque_partial [Zm K] (root : Link K) (z : K) (p : Vec3 K)
    (hr : root.body.frame.att.IsRot) (hp : zmp root z = some p) (hz : (rootForce root).z ≠ 0) :
    (rootMoment root p).z = dot root.wrench.ang root.wrench.lin / (rootForce root).z ∧
    (dot root.wrench.ang root.wrench.lin = 0 ∨
      (root.body.frame.att.mulVec root.wrench.ang).z = (rootForce root).z →
      yawTorque root = (rootMoment root p).z) := by
  have hf : dot (gravityDir root) root.joint.wrench.lin = (rootForce root).z := gravityDir_dot _ _
  have main : (rootMoment root p).z =
      dot root.wrench.ang root.wrench.lin / (rootForce root).z := by
    simp only [zmp, hf] at hp
    split_ifs at hp
    simp only [Option.some.injEq, Frame.xform, Mat3.mulVec_smul, cat, Mat3.mulVec_add,
      gravityDir_cross root hr] at hp
    have hF : root.body.frame.att.mulVec root.joint.wrench.lin = rootForce root := rfl
    rw [hF] at hp
    have hd : dot root.wrench.ang root.wrench.lin =
        dot (root.body.frame.att.mulVec root.wrench.ang) (rootForce root) :=
      (hr.dot_mulVec_mulVec _ _).symm
    rw [hd]
    simp only [rootMoment]
    generalize root.body.frame.att.mulVec root.wrench.ang = N at hp ⊢
    generalize rootForce root = F at hp hz ⊢
    generalize root.body.frame.pos = P at hp ⊢
    subst hp
    rw [div_eq_mul_inv]
    have hi : F.z * F.z⁻¹ = 1 := mul_inv_cancel₀ hz
    generalize F.z⁻¹ = k at hi ⊢
    vec_unfold; simp; grind
  refine ⟨main, ?_⟩
  rintro (h | h)
  · rw [main]; simp only [yawTorque]; rw [h]; simp
  · rw [main]
    simp only [yawTorque]
    rw [dot_comm root.joint.wrench.ang (gravityDir root), gravityDir_dot]
    exact congrArg _ h

/-- **C21** The full statement is false of the code: with force (1,2,4) and torque (3,5,6) the
yaw torque returned is 37/6 but the vertical moment about the ZMP is 37/4. -/
theorem C21_yaw_torque_fails : ∃ root : Link ℚ, root.body.frame.att.IsRot ∧
    (rootForce root).z ≠ 0 ∧ ∃ p : Vec3 ℚ, p.z = 0 ∧ (rootMoment root p).x = 0 ∧
      (rootMoment root p).y = 0 ∧ yawTorque root ≠ (rootMoment root p).z := by
  refine ⟨Sample.zmpRoot, ?_, ?_, ⟨-1 / 4, -3 / 2, 0⟩, rfl, ?_, ?_, ?_⟩
  · constructor <;> simp [Sample.zmpRoot, dot, cross]
  · simp [Sample.zmpRoot, rootForce, Mat3.mulVec]
  all_goals norm_num [Sample.zmpRoot, rootForce, rootMoment, Mat3.mulVec, cross, dot, yawTorque,
    gravityDir, Mat3.tr]

end Roki
