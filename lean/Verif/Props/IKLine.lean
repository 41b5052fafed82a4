import Verif.Props.Gradient
import Verif.Props.IKMethod
import Verif.Props.DisArith
set_option autoImplicit false

/-!
# A step of the solver of inverse kinematics

C123.
-/

namespace Roki
open Spec LinkArray Filter Topology

section
variable [Zm ℝ] [LawfulZm ℝ] (hsin : ∀ x : ℝ, Zm.sin x = Real.sin x) (hcos : ∀ x : ℝ, Zm.cos x = Real.cos x)

theorem block_get {l : Link ℝ} {v b : List ℝ} (h : blockOf l v = b) {k : ℕ} (h1 : l.offset.toNat ≤ k) (h2 : k - l.offset.toNat < l.size) :
    v.getD k 0 = b.getD (k - l.offset.toNat) 0 := by
  rw [← h, blockOf, List.getD_eq_getElem?_getD, List.getD_eq_getElem?_getD, List.getElem?_take_of_lt h2, List.getElem?_drop,
    Nat.add_sub_cancel' h1]

/-- On joints with coordinates `rkChainCatJointDisAll` adds the multiple of the vector. -/
theorem Arm.cat {c : Chain ℝ} (h : Arm c) {q u : List ℝ} (hq : q.length = jointSize c.link) (hu : u.length = jointSize c.link) (e : ℝ) :
    catJointDisAll e u c.link q = some (shift q e u) := by
  obtain ⟨d, h1, h2, h3⟩ := C65_cat c h.off e q u hq hu
  rw [h1]
  congr 1
  refine List.ext_getElem (by rw [h2, shift_length (hq.trans hu.symm)]) fun k k1 k2 => ?_
  have hk : d.getD k 0 = (shift q e u).getD k 0 := by
    rw [shift_getD (hq.trans hu.symm)]
    obtain ⟨i, ho', -⟩ := (C01_offsets_tile c.link).2.2.2.2.2.2 k (by rw [← hq, ← h2]; exact k1)
    rw [h.off] at ho'
    obtain ⟨l, hl, o1, o2, o3⟩ := ho'
    have a1 : l.offset.toNat ≤ k := by omega
    have a2 : k - l.offset.toNat < l.size := by show _ < l.joint.prp.size; omega
    have hm := h3 i l hl
    have hc := h.coord l (List.mem_iff_getElem?.2 ⟨i, hl⟩)
    have a3 : k - l.offset.toNat < l.joint.prp.size := a2
    generalize hp : l.joint.prp = p at hm hc a3
    cases p with
    | spher d => exact hc.elim
    | float d => exact hc.elim
    | brfloat d => exact hc.elim
    | fixed => simp [Prp.size] at a3
    | revol x =>
      obtain ⟨a, w, e1, e2, e3⟩ := hm
      rw [block_get e1 a1 a2, block_get e2 a1 a2, block_get e3 a1 a2]
      simp only [Prp.size, Nat.lt_one_iff] at a3
      simp [a3]
    | prism x =>
      obtain ⟨a, w, e1, e2, e3⟩ := hm
      rw [block_get e1 a1 a2, block_get e2 a1 a2, block_get e3 a1 a2]
      simp only [Prp.size, Nat.lt_one_iff] at a3
      simp [a3]
    | cylin x =>
      obtain ⟨a, b, w, z, e1, e2, e3⟩ := hm
      rw [block_get e1 a1 a2, block_get e2 a1 a2, block_get e3 a1 a2]
      simp only [Prp.size] at a3
      generalize k - l.offset.toNat = j at a3
      interval_cases j <;> simp
    | hooke x =>
      obtain ⟨a, b, w, z, e1, e2, e3⟩ := hm
      rw [block_get e1 a1 a2, block_get e2 a1 a2, block_get e3 a1 a2]
      simp only [Prp.size] at a3
      generalize k - l.offset.toNat = j at a3
      interval_cases j <;> simp
  rw [List.getD_eq_getElem?_getD, List.getD_eq_getElem?_getD, List.getElem?_eq_getElem k1, List.getElem?_eq_getElem k2] at hk
  exact hk

theorem vecDeriv_eventually {x y : ℝ → Vec3 ℝ} {v : Vec3 ℝ} {t : ℝ} (h : VecDeriv x v t) (e : y =ᶠ[𝓝 t] x) : VecDeriv y v t :=
  ⟨h.1.congr_of_eventuallyEq (e.mono fun s hs => by beta_reduce; rw [hs]), h.2.1.congr_of_eventuallyEq (e.mono fun s hs => by beta_reduce; rw [hs]),
    h.2.2.congr_of_eventuallyEq (e.mono fun s hs => by beta_reduce; rw [hs])⟩

include hsin hcos in
/-- Moving the displacements of a chain along `u`. -/
theorem Arm.follows {c : Chain ℝ} (h : Arm c) {q u : List ℝ} (hM : c.mass ≠ 0) (hq : q.length = jointSize c.link) (hu : u.length = jointSize c.link)
    (hl : ∀ᶠ e in 𝓝 0, OffLimits c (shift q e u)) (e1 : c.fk q = some c) :
    Follows c (fun e => (c.fk (shift q e u)).getD c) 0 u := by
  refine ⟨?_, hu⟩
  have hf : ∀ e, ∃ c', c.fk (shift q e u) = some c' ∧ c'.link.length = c.link.length := by
    intro e
    obtain ⟨c', hc'⟩ := h.fk (q := shift q e u) ((shift_length (hq.trans hu.symm) e).trans hq)
    exact ⟨c', hc', fk_length h.wf hc'⟩
  intro x hx m J e0 hm hJ he
  rcases hx.2 with ⟨hfn, hi⟩ | hfn
  · rw [hfn] at hJ he ⊢
    obtain ⟨J', y, j1, -, j2, j3⟩ := C122_linear hsin hcos c c q u h.wf h.off h.rot h.coord hq hu hl e1 x.attr.id hi x.attr.ap m hm
    have hJ : Jacobi.wldLin c x.attr.id x.attr.ap m = some J := hJ
    rw [hJ] at j1; cases j1
    refine ⟨fun s => x.ref.cx - (pointAt c x.attr.id x.attr.ap (shift q s u)).getD 0, fun s => ?_, ?_, ?_⟩
    · obtain ⟨c', f1, f2⟩ := hf s
      obtain ⟨l, hl'⟩ : ∃ l, c'.link[x.attr.id]? = some l := ⟨_, List.getElem?_eq_getElem (by rw [f2]; exact hi)⟩
      simp only [f1, Option.getD_some, IKFns.wldPos, hl', Option.map_some, pointAt, Option.bind_some]
    · obtain ⟨l, hl'⟩ : ∃ l, c.link[x.attr.id]? = some l := ⟨_, List.getElem?_eq_getElem hi⟩
      simp only [IKFns.wldPos, hl', Option.map_some, Option.some.injEq] at he
      simp only [shift_zero (hq.trans hu.symm), pointAt, e1, Option.bind_some, hl', Option.map_some, Option.getD_some]
      exact he
    · have j3 := vecDeriv_eventually j3 (y := fun s => (pointAt c x.attr.id x.attr.ap (shift q s u)).getD 0)
        (j2.mono fun s hs => by beta_reduce; rw [hs]; rfl)
      exact vecDeriv_congr ((vecDeriv_const x.ref.cx 0).sub j3) (fun s => rfl) (by rw [zero_sub])
  · rw [hfn] at hJ he ⊢
    obtain ⟨J', y, j1, -, j2, j3⟩ := C122_com hsin hcos c c q u h.wf h.off h.rot h.coord hq hu hl e1 hM m hm
    have hJ : Jacobi.com c m = some J := hJ
    rw [hJ] at j1; cases j1
    refine ⟨fun s => x.ref.cx - (comAt c (shift q s u)).getD 0, fun s => ?_, ?_, ?_⟩
    · obtain ⟨c', f1, f2⟩ := hf s
      simp only [f1, Option.getD_some, IKFns.com, comAt, Option.map_some]
    · simp only [IKFns.com, Option.some.injEq] at he
      simp only [shift_zero (hq.trans hu.symm), comAt, e1, Option.map_some, Option.getD_some]
      exact he
    · have j3 := vecDeriv_eventually j3 (y := fun s => (comAt c (shift q s u)).getD 0) (j2.mono fun s hs => by beta_reduce; rw [hs]; rfl)
      exact vecDeriv_congr ((vecDeriv_const x.ref.cx 0).sub j3) (fun s => rfl) (by rw [zero_sub])

/-- A function with a negative derivative decreases just after. -/
theorem decreases {F : ℝ → ℝ} {r : ℝ} (h : HasDerivAt F r 0) (hr : r < 0) : ∃ ε > 0, ∀ e, 0 < e → e < ε → F e < F 0 := by
  have h1 := hasDerivAt_iff_tendsto_slope.1 h
  have h2 := h1.eventually_lt_const hr
  rw [eventually_nhdsWithin_iff, Metric.eventually_nhds_iff] at h2
  obtain ⟨ε, h3, h4⟩ := h2
  refine ⟨ε, h3, fun e e0 e1 => ?_⟩
  have h5 := h4 (y := e) (by rw [Real.dist_eq, sub_zero, abs_of_pos e0]; exact e1) (ne_of_gt e0)
  rw [slope_def_field, sub_zero] at h5
  have := (div_neg_iff.1 h5).resolve_left (fun hh => absurd hh.2 (not_lt.2 e0.le))
  linarith [this.1]

variable [ZSqrt ℝ]

/-- `rkIKSolveOne` moves the chain to the displacements shifted along the velocities that `rkIKSolveRate` finds. -/
theorem Arm.solveOne {ik ik' : IK ℝ} (h : Arm ik.chain) (he : ik.solveRate = some ik') {q : List ℝ} (hq : q.length = jointSize ik.chain.link)
    (hv : ik'.vel.length = jointSize ik.chain.link) (dt : ℝ) :
    ∃ ik2 q2, ik.solveOne q dt = some (ik2, q2) ∧ ik.chain.fk (shift q dt ik'.vel) = some ik2.chain := by
  have hs := (IK.solveRate_same he).2.1
  have hlen := (shift_length (hq.trans hv.symm) dt).trans hq
  obtain ⟨ls, w, f1, f2, -⟩ := C02_dis_roundtrip ik.chain.link (shift q dt ik'.vel) (shift q dt ik'.vel) h.off hlen hlen
  obtain ⟨c', f3⟩ := h.fk (q := shift q dt ik'.vel) hlen
  have f4 := f3
  simp only [Chain.fk, f1, Option.bind_eq_bind, Option.bind_some] at f4
  refine ⟨{ ik' with chain := c' }, w, ?_, f3⟩
  simp only [IK.solveOne, he, Option.bind_eq_bind, Option.bind_some, hs, h.cat hq hv, f1, f2, f4, Option.pure_def]

variable {c : Chain ℝ} {jv : List (List ℝ) → List ℝ → List ℝ → List ℝ → List ℝ → ℕ → ℝ} {ops : List (IK.Op ℝ)} {ik : IK ℝ}

include hsin hcos in
/-- **C123** A step of `rkIKSolveOne` that is short enough reduces the weighted squared error of the constraints, with every method for the
joint velocities; where the velocities that `rkIKSolveRate` finds are zero, a step of any length leaves the chain as it is.

After any history of calls, with constraints on positions of points of links and of the center of mass that do not accumulate their errors,
joints that are not registered at rest, and the chain standing in the posture of the displacements `q`, off the limits. -/
theorem C123_step {gauss : ℕ → (ℕ → ℕ → ℝ) → (ℕ → ℝ) → Option (ℕ → ℝ)} {solve : List (List ℝ) → List ℝ → List ℝ → List ℝ → ℕ → ℕ → ℝ}
    (hjv : (ik.jv = IK.jointVelAD gauss ∧ Gauss gauss) ∨ (ik.jv = IK.jointVelMP solve ∧ SolvesMP solve) ∨
      (ik.jv = IK.jointVelSR solve ∧ SolvesSR solve))
    (ho : setOffset c.link = c.link) (hs : ∀ o ∈ ops, o.Sized) (h : (IK.create c jv).runAll ops = some ik)
    (hne : ik.clist ≠ []) (hreg : ∃ i, (ikJoints c.link ops i).isSome)
    (hcw : ∀ x ∈ ik.clist, 0 ≤ x.attr.w.x ∧ 0 ≤ x.attr.w.y ∧ 0 ≤ x.attr.w.z) (hjw : ∀ i x, ikJoints c.link ops i = some x → 0 < x)
    (hpos : ∀ x ∈ ik.clist, x.attr.isDisabled = false → IkPos ik.chain x)
    (hrest : ∀ i p, ikJoints c.link ops i = none → Owns ik.chain.link i p → ik.vel[p]? = some 0)
    (hw : ik.chain.WF) (hr : ∀ l ∈ ik.chain.link, l.org.att.IsRot) (hc : ∀ l ∈ ik.chain.link, Coord l.joint.prp) (hM : ik.chain.mass ≠ 0)
    {q : List ℝ} (hq : q.length = jointSize ik.chain.link) (hst : ik.chain.fk q = some ik.chain)
    {ik' : IK ℝ} (he : ik.solveRate = some ik') (hl : ∀ᶠ e in 𝓝 0, OffLimits ik.chain (shift q e ik'.vel)) :
    ((∃ x ∈ ik'.vel, x ≠ 0) → ∃ ε > 0, ∀ dt, 0 < dt → dt < ε → ∃ ik2 q2, ik.solveOne q dt = some (ik2, q2) ∧
      ikMismatch ik2.chain ik.clist < ikMismatch ik.chain ik.clist) ∧
    ((∀ x ∈ ik'.vel, x = 0) → ∀ dt, ∃ ik2 q2, ik.solveOne q dt = some (ik2, q2) ∧ ik2.chain = ik.chain) := by
  have hj := IK.runAll_joints ops (IK.Joints.create c jv) h
  change IK.Joints c.link (ikJoints c.link ops) ik at hj
  have henv := hj.env ho
  have hA : Arm ik.chain := ⟨hw, henv.ofs, hr, hc⟩
  have hv : ik'.vel.length = jointSize ik.chain.link := by
    have h1 : ik'.vel.length = ik.vel.length := (IK.solveRate_same he).1.vel
    rw [h1]; exact henv.lvel
  have hd : Downhill ik.jv := by
    rcases hjv with ⟨e, h⟩ | ⟨e, h⟩ | ⟨e, h⟩ <;> rw [e]
    · exact jointVelAD_downhill h
    · exact jointVelMP_downhill h
    · exact jointVelSR_downhill h
  constructor
  · rintro ⟨x, hx, hx0⟩
    obtain ⟨r, r1, r2, r3⟩ := descent_of ho hs h hne hd hreg hcw hjw hpos hrest he (hA.follows hsin hcos hM hq hv hl hst)
    obtain ⟨ε, e0, e1⟩ := decreases r1 (lt_of_le_of_ne r2 fun h0 => hx0 (r3.1 h0 x hx))
    refine ⟨ε, e0, fun dt d0 d1 => ?_⟩
    obtain ⟨ik2, q2, s1, s2⟩ := hA.solveOne he hq hv dt
    refine ⟨ik2, q2, s1, ?_⟩
    have := e1 dt d0 d1
    rwa [s2, shift_zero (hq.trans hv.symm), hst] at this
  · intro hz dt
    obtain ⟨ik2, q2, s1, s2⟩ := hA.solveOne he hq hv dt
    refine ⟨ik2, q2, s1, ?_⟩
    have : shift q dt ik'.vel = q := by
      refine List.ext_getElem (shift_length (hq.trans hv.symm) dt) fun k k1 k2 => ?_
      simp only [shift, List.getElem_zipWith]
      rw [hz _ (List.getElem_mem _), mul_zero, add_zero]
    rw [this, hst] at s2
    exact (Option.some.inj s2).symm
end

/-- The slider meets the hypotheses of `C123_step`, with a velocity that is not zero: short steps of `rkIKSolveOne` reduce the error. -/
example : ∃ (ik ik' : IK ℝ) (v : ℝ), (IK.create (Sample.railed 0 0) (IK.jointVelAD gaussOf)).runAll Sample.slideOps = some ik ∧
    ik.solveRate = some ik' ∧ ik'.vel = [v] ∧ v ≠ 0 ∧ ∃ ε > 0, ∀ dt, 0 < dt → dt < ε → ∃ ik2 q2, ik.solveOne [0] dt = some (ik2, q2) ∧
      ikMismatch ik2.chain ik.clist < ikMismatch ik.chain ik.clist := by
  obtain ⟨ik, ik', v, x, h1, h2, h3, h3', h4, h5, h6, h7, h8, h9⟩ := Sample.slide_run
  obtain ⟨l, hl, hf, hs, ho⟩ := Sample.slid_link 0 0
  have hofs : setOffset (Sample.railed 0 0).link = (Sample.railed 0 0).link := by
    rw [hl]
    simp [setOffset, setOffsetFrom, Link.size, hs, ← ho]
  have hsz : ∀ o ∈ Sample.slideOps, o.Sized := by
    simp [Sample.slideOps, IK.Op.Sized, Jacobi.wldPos_sized]
  have hjw : ∀ i x, ikJoints (Sample.railed 0 0).link Sample.slideOps i = some x → 0 < x := by
    intro i x hx
    rw [Sample.slide_joints] at hx
    split_ifs at hx
    simp only [Option.some.injEq] at hx
    rw [← hx]; exact one_pos
  have hcw : ∀ y ∈ ik.clist, 0 ≤ y.attr.w.x ∧ 0 ≤ y.attr.w.y ∧ 0 ≤ y.attr.w.z := by
    intro y hy
    rw [h4, List.mem_singleton] at hy
    rw [hy, h7]; norm_num
  have hpos : ∀ y ∈ ik.clist, y.attr.isDisabled = false → IkPos ik.chain y := by
    intro y hy _
    rw [h4, List.mem_singleton] at hy
    rw [hy, h6, IkPos, h7, h8, hl]
    exact ⟨rfl, .inl ⟨rfl, by simp⟩⟩
  have hno : ∀ i p, ikJoints (Sample.railed 0 0).link Sample.slideOps i = none → Owns ik.chain.link i p → ∀ u : List ℝ, u[p]? = some 0 := by
    intro i p hi ⟨l', hl', _⟩
    rw [Sample.slide_joints] at hi
    rw [h6, hl] at hl'
    rcases i with _ | i
    · simp at hi
    · simp at hl'
  have hreg : ∃ i, (ikJoints (Sample.railed 0 0).link Sample.slideOps i).isSome := ⟨0, by rw [Sample.slide_joints]; rfl⟩
  have P := Sample.slide_passes v
  rw [← h6, ← h3] at P
  obtain ⟨r, hr, hle, hz⟩ := C103_descent gaussOf_lawful hofs hsz h1 (by rw [h4]; simp) h5 hreg hcw hjw hpos
    (fun i p hi hp => hno i p hi hp _) h2 P
  have hv : v ≠ 0 := by
    intro hv
    have P1 := Sample.slide_passes 1
    rw [← h6] at P1
    have hd := C103_stationary gaussOf_lawful hofs hsz h1 (by rw [h4]; simp) h5 hreg hcw hjw hpos
      (fun i p hi hp => hno i p hi hp _) h2 (by rw [h3', hv]; simp) P1 (fun i p hi hp => hno i p hi hp _)
    have hm : ∀ s : ℝ, ikMismatch (Sample.railed (1 * s) 1) ik.clist = (1 - s) ^ 2 := by
      intro s
      rw [one_mul]
      obtain ⟨l, hl, hf, -⟩ := Sample.slid_link s 1
      rw [h4]
      simp [ikMismatch, h7, h8, h9, ikAxes, IKFns.wldPos, hl, hf, Frame.xform, Mat3.mulVec, Vec3.get]
    simp only [hm] at hd
    have hd' : HasDerivAt (fun s : ℝ => (1 - s) ^ 2) (-2) 0 := by
      have := ((hasDerivAt_id (0 : ℝ)).const_sub 1).pow 2
      refine this.congr_deriv ?_
      simp
    have := hd.unique hd'
    norm_num at this
  have hst : (Sample.railed 0 0).fk [0] = some (Sample.railed 0 0) :=
    C07_fk_repeat (Sample.railAt 0 0) _ ⟨⟨_, rfl⟩, .refl _⟩ [0] (Sample.slid_eq 0 0)
  have hA : Arm (Sample.railed 0 0) ∧ (Sample.railed 0 0).mass ≠ 0 ∧ ∀ q, OffLimits (Sample.railed 0 0) q := by
    have h0 := Sample.slid_eq 0 0
    generalize Sample.railed 0 0 = a at *
    cases h0
    refine ⟨⟨⟨⟨_, rfl⟩, .refl _⟩, rfl, ?_, ?_⟩, one_ne_zero, ?_⟩
    · intro l hl; rw [List.mem_singleton.1 hl]; exact Mat3.isRot_one
    · intro l hl; rw [List.mem_singleton.1 hl]; trivial
    · intro q l hl; rw [List.mem_singleton.1 hl]; rfl
  obtain ⟨hA, hM, hlim⟩ := hA
  rw [← h6] at hA hM hst hlim
  refine ⟨ik, ik', v, h1, h2, h3, hv, ?_⟩
  exact (C123_step (solve := Sample.mp) (fun _ => rfl) (fun _ => rfl) (.inl ⟨h5, gaussOf_lawful⟩) hofs hsz h1 (by rw [h4]; simp) hreg hcw hjw hpos (fun i p hi hp => hno i p hi hp _)
    hA.wf hA.rot hA.coord hM (by rw [h6, hl]; simp [jointSize_eq, sizes, Link.size, hs]) hst h2 (.of_forall fun e => hlim _)).1 ⟨v, by rw [h3]; simp, hv⟩

end Roki
