import Verif.Lemmas.VirtualWork3

/-! # Consequences of virtual work for runs on one chain -/

namespace Roki
set_option autoImplicit false
set_option linter.unusedSectionVars false
open Spec LinkArray
variable {K : Type*} [Field K]

theorem slice_map (f : K → K) (v : List K) (l : Link K) : slice (v.map f) l = (slice v l).map f := by
  simp [slice, List.map_take, List.map_drop]

theorem slice_zipWith (f : K → K → K) (v w : List K) (l : Link K) :
    slice (List.zipWith f v w) l = List.zipWith f (slice v l) (slice w l) := by
  simp [slice, List.take_zipWith, List.drop_zipWith]

theorem slice_congr (v : List K) {l m : Link K} (h : statics l = statics m) : slice v l = slice v m := by
  obtain ⟨h1, h2, -⟩ := statics_iff.1 h
  have hsz : l.joint.prp.size = m.joint.prp.size := by
    have := congrArg Prp.size h2
    simpa [size_still] using this
  simp only [slice, h1, hsz]

/-- Three motions with related rates have related links; the third starts at the root with the
velocity `w`. -/
theorem rate_affine' {a1 b1 a2 b2 : Chain K} {k : K} {g g' w : Vec6 K} {v a x : List K}
    {la lb lc lc2 : List (Link K)} {A B C : LTree (Link K)}
    (hA : IDRun a1 a2 ((k * k) • g + w) (v.map (k * ·)) (List.zipWith (fun x y => k * k * x + y) a x) la A)
    (hB : IDRun b1 b2 g v a lb B) (hab : a1.link.map statics = b1.link.map statics)
    (hac : a1.link.map statics = lc.map statics) (sb : b1.shape = a1.shape)
    (tC : Chain.gather lc a1.shape = some C)
    (tC2 : Chain.gather lc2 a1.shape = some (C.updateRate w g').updateWrench)
    (hv : ∀ l ∈ lc, l.joint.prp.getVel = slice x l) {i : ℕ} {l m n : Link K}
    (hl : a2.link[i]? = some l) (hm : b2.link[i]? = some m) (hn : lc2[i]? = some n) :
    RateRes k l m n := by
  have tB := hB.tree; have tB2 := hB.tree2
  rw [sb] at tB tB2
  have h0 : A.All3 (RateRel k) B C := by
    refine all3_of_gather hA.tree tB tC ?_
    intro i p q r hp hq hr
    have e1 : statics p = statics q :=
      forall_zip_statics (hA.stat.trans (hab.trans hB.stat.symm)) hp hq
    have e2 : statics p = statics r := forall_zip_statics (hA.stat.trans hac) hp hr
    refine rateRel_of e1 e2 ?_ ?_
    · rw [hA.vel p (List.mem_of_getElem? hp), hB.vel q (List.mem_of_getElem? hq), slice_map,
        slice_congr v e1]
    · rw [hA.acc p (List.mem_of_getElem? hp), hB.acc q (List.mem_of_getElem? hq),
        hv r (List.mem_of_getElem? hr), slice_zipWith, slice_congr a e1, slice_congr x e2]
  have h1 := all3_updateRate h0 0 g w g'
  rw [smul_zero] at h1
  have h2 := all3_updateWrench (R := RateRes k) (by
    intro a b c a' b' c' e1 e2 e3 hr
    simp only [RateRes, e1, e2, e3]; exact hr) h1
  refine gather_all3 hA.tree2 tB2 tC2 h2 ?_ hl hm hn
  rw [← hA.shape]
  exact hA.wf.mem.2 (List.getElem?_eq_some_iff.1 hl).1

/-- Three runs with related rates have related links. -/
theorem rate_affine {a1 b1 c1 a2 b2 c2 : Chain K} {k : K} {g g' : Vec6 K} {v a x y : List K}
    {la lb lc : List (Link K)} {A B C : LTree (Link K)}
    (hA : IDRun a1 a2 ((k * k) • g) (v.map (k * ·)) (List.zipWith (fun x y => k * k * x + y) a x) la A)
    (hB : IDRun b1 b2 g v a lb B) (hC : IDRun c1 c2 g' x y lc C)
    (hab : a1.link.map statics = b1.link.map statics) (hac : a1.link.map statics = c1.link.map statics)
    (sb : b1.shape = a1.shape) (sc : c1.shape = a1.shape) {i : ℕ} {l m n : Link K}
    (hl : a2.link[i]? = some l) (hm : b2.link[i]? = some m) (hn : c2.link[i]? = some n) :
    RateRes k l m n := by
  have tC := hC.tree; have tC2 := hC.tree2
  rw [sc] at tC tC2
  rw [← add_zero ((k * k) • g)] at hA
  exact rate_affine' hA hB hab (hac.trans hC.stat.symm) sb tC tC2 hC.vel hl hm hn

/-- Two states of a link in which the inertial accelerations differ by the velocities of a third. -/
theorem inertialWork_affine {k : K} {l m n u : Link K} (h : RateRes k l m n) (hm : statics l = statics m)
    (hn : statics l = statics n) (hu : statics l = statics u) :
    inertialWork l u = k * k * inertialWork m u + kinetic n u := by
  obtain ⟨-, -, -, f1, p1⟩ := statics_iff.1 hm
  obtain ⟨-, -, -, f2, p2⟩ := statics_iff.1 hn
  obtain ⟨hv, ha⟩ := h
  simp only [inertialWork, kinetic, mass, comAcc, worldInertia, angAcc, angVel, comVel, hv, ha, ← f1, ← p1,
    ← f2, ← p2]
  have e1 : l.body.frame.att.mulVec (((k * k) • m.body.acc + n.body.vel).lin +
      cross ((k * k) • m.body.acc + n.body.vel).ang l.body.mp.com +
      cross (k • m.body.vel).ang (cross (k • m.body.vel).ang l.body.mp.com)) =
      (k * k) • l.body.frame.att.mulVec (m.body.acc.lin + cross m.body.acc.ang l.body.mp.com +
        cross m.body.vel.ang (cross m.body.vel.ang l.body.mp.com)) +
      l.body.frame.att.mulVec (n.body.vel.lin + cross n.body.vel.ang l.body.mp.com) := by
    rw [← Mat3.mulVec_smul, ← Mat3.mulVec_add]
    congr 1
    vec_ring
  have e2 : l.body.frame.att.mulVec ((k * k) • m.body.acc + n.body.vel).ang =
      (k * k) • l.body.frame.att.mulVec m.body.acc.ang + l.body.frame.att.mulVec n.body.vel.ang := by
    rw [← Mat3.mulVec_smul, ← Mat3.mulVec_add]; rfl
  have e3 : l.body.frame.att.mulVec (k • m.body.vel).ang = k • l.body.frame.att.mulVec m.body.vel.ang := by
    rw [← Mat3.mulVec_smul]; rfl
  rw [e1, e2, e3]
  generalize (l.body.frame.att.mul l.body.mp.inertia).mul l.body.frame.att.tr = I
  generalize l.body.frame.att.mulVec (m.body.acc.lin + _ + _) = A
  generalize l.body.frame.att.mulVec (n.body.vel.lin + _) = B
  generalize u.body.frame.att.mulVec (u.body.vel.lin + _) = C
  generalize u.body.frame.att.mulVec u.body.vel.ang = W
  generalize l.body.frame.att.mulVec m.body.acc.ang = D
  generalize l.body.frame.att.mulVec n.body.vel.ang = E
  generalize l.body.frame.att.mulVec m.body.vel.ang = F
  simp only [Mat3.mulVec_add, Mat3.mulVec_smul, dot_add_left, dot_add_right, dot_smul_left, dot_smul_right,
    cross_smul_left, cross_smul_right]
  ring

/-- Links without joint velocities below a parent with a constant field of velocities. -/
theorem field_tree {T : LTree (Link K)} {pf : Frame K} (hp : pf.att.IsRot) (hF : T.FrameOK pf)
    (hR : ∀ l ∈ T.toList, l.body.frame.att.IsRot) (hz : ∀ l ∈ T.toList, twist l.joint.prp = 0)
    (γ : Vec3 K) (x : Vec6 K) :
    ∀ l ∈ (T.updateRate ⟨pf.att.mulVecT γ, 0⟩ x).toList,
      l.body.vel = ⟨l.body.frame.att.mulVecT γ, 0⟩ := by
  induction T generalizing pf x with
  | nil => intro l hl; simp [LTree.updateRate, LTree.toList] at hl
  | node l c s ihc ihs =>
    have hl := hR l (by simp [LTree.toList])
    have hv : (l.updateRate1 ⟨pf.att.mulVecT γ, 0⟩ x).body.vel = ⟨l.body.frame.att.mulVecT γ, 0⟩ := by
      rw [(updateRate1_eq l _ _).1, hz l (by simp [LTree.toList]), add_zero, hF.1]
      have : ∀ v : Vec3 K, (Frame.cascade pf l.adj).att.mulVecT v = l.adj.att.mulVecT (pf.att.mulVecT v) := by
        intro v
        simp only [Frame.cascade]
        vec_ring
      rw [this]
      simp only [Frame.xform6Lin]
      generalize pf.att.mulVecT γ = z
      vec_ring
    intro m hm
    simp only [LTree.updateRate, LTree.toList, List.mem_cons, List.mem_append] at hm
    rcases hm with rfl | hm | hm
    · exact hv
    · rw [hv] at hm
      exact ihc hl hF.2.1 (fun m hm => hR m (by simp [LTree.toList, hm]))
        (fun m hm => hz m (by simp [LTree.toList, hm])) _ m hm
    · exact ihs hp hF.2.2 (fun m hm => hR m (by simp [LTree.toList, hm]))
        (fun m hm => hz m (by simp [LTree.toList, hm])) _ m hm

theorem twist_of_getVel {p : Prp K} (h : ∀ x ∈ p.getVel, x = 0) : twist p = 0 := by
  cases p <;> simp only [Prp.getVel, Vec3.toBuf, Vec6.toBuf, List.cons_append, List.nil_append, List.mem_cons,
    List.not_mem_nil, or_false, forall_eq_or_imp, forall_eq, IsEmpty.forall_iff, implies_true] at h <;>
    simp only [twist, Prp.incVel] <;> vec_unfold <;> simp [h]

/-- Two motions whose rates differ by a factor and by a uniform acceleration `γ` of the root. -/
theorem rate_field {a1 b1 a2 b2 : Chain K} {k : K} {g : Vec6 K} {γ : Vec3 K} {v a : List K}
    {la lb : List (Link K)} {A B : LTree (Link K)} (hp : Posed b1)
    (hv : v.length = jointSize b1.link) (ha : a.length = jointSize b1.link)
    (hA : IDRun a1 a2 ((k * k) • g + ⟨γ, 0⟩) (v.map (k * ·)) (a.map (k * k * ·)) la A)
    (hB : IDRun b1 b2 g v a lb B) (hab : a1.link.map statics = b1.link.map statics)
    (sb : b1.shape = a1.shape) {i : ℕ} {l m : Link K}
    (hl : a2.link[i]? = some l) (hm : b2.link[i]? = some m) :
    l.body.vel = k • m.body.vel ∧
      l.body.acc = (k * k) • m.body.acc + ⟨l.body.frame.att.mulVecT γ, 0⟩ := by
  set z : List K := List.replicate (jointSize b1.link) 0 with hz
  have hzl : z.length = jointSize b1.link := by simp [hz]
  obtain ⟨c2, hc2⟩ := hp.invDyn 0 hzl hzl
  obtain ⟨lc, C, hC⟩ := hp.run hzl hzl hc2
  have hw : Chain.WF { b1 with link := lc } := hp.wf.with_link hC.len
  obtain ⟨l1, T, hT, e1, g1, n1⟩ := hw.downAt (fun st (l : Link K) => l.updateRate1 st.1 st.2)
    (fun l => (l.body.vel, l.body.acc)) (⟨γ, 0⟩, 0)
  have hTC : T = C := by
    have : Chain.gather lc b1.shape = some T := hT
    rw [hC.tree] at this; exact (Option.some.inj this).symm
  subst hTC
  have hw1 : Chain.WF { b1 with link := l1 } := hp.wf.with_link (n1.trans hC.len)
  obtain ⟨l2, T2, hT2, e2, g2, n2⟩ := hw1.updateWrenchAt
  have hT2' : T2 = T.updateRate ⟨γ, 0⟩ 0 := by
    rw [LTree.updateRate_eq]
    have : Chain.gather l1 b1.shape = some T2 := hT2
    have h' : Chain.gather l1 b1.shape = _ := g1
    rw [h'] at this; exact (Option.some.inj this).symm
  subst hT2'
  have hlen2 : l2.length = a2.link.length := by
    have e := congrArg List.length hab
    simp only [List.length_map] at e
    rw [hA.len2, e, ← hC.len]; exact n2.trans n1
  have hn : ∃ n, l2[i]? = some n :=
    ⟨_, List.getElem?_eq_getElem (by rw [hlen2]; exact (List.getElem?_eq_some_iff.1 hl).1)⟩
  obtain ⟨n, hn⟩ := hn
  have hac : (List.zipWith (fun x y => k * k * x + y) a z) = a.map (k * k * ·) := by
    apply List.ext_getElem
    · simp [hzl, ha]
    · intro i h1 h2; simp [hz]
  rw [← hac] at hA
  have g2' : Chain.gather l2 a1.shape = some (T.updateRate ⟨γ, 0⟩ 0).updateWrench := by
    rw [← sb]; exact g2
  have hCt := hC.tree
  rw [sb] at hCt
  obtain ⟨r1, r2⟩ := rate_affine' hA hB hab (hab.trans hC.stat.symm) sb hCt g2' hC.vel hl hm hn
  refine ⟨r1, ?_⟩
  rw [r2]
  -- the third motion is the uniform field
  have hstat : statics l = statics n := by
    have s1 : l2.map statics = lc.map statics := by
      have hm : ∀ i, i < l2.length → i ∈ b1.shape.toList := by
        intro i hi
        refine hw.mem.2 ?_
        show i < lc.length
        rw [← n1, ← n2]; exact hi
      refine Chain.map_eq_of_gather g2 hT (n2.trans n1) hm statics ?_
      rw [LTree.updateWrench_map statics (by intro l w v; simp only [statics, still_calcTrq]),
        LTree.updateRate_eq]
      refine LTree.down_map_inv _ ?_ _ _
      intro _ _; rfl
    exact forall_zip_statics (hA.stat2.trans (hab.trans (hC.stat.symm.trans s1.symm))) hl hn
  obtain ⟨-, -, -, hf, -⟩ := statics_iff.1 hstat
  obtain ⟨T0, hT0, hF0⟩ := hp.frame
  have hF : T.FrameOK Frame.ident := by
    refine LTree.frameOK_congr ?_ hF0
    have e := Chain.gather_map_eq hC.tree hT0 statics hC.stat
    have := congrArg (LTree.map fun s => (s.2.2.2.1, s.2.2.1)) e
    simpa [LTree.map_map, Function.comp_def, statics] using this.symm
  have hmem : i ∈ b1.shape.toList := hw.mem.2 (by
    show i < lc.length
    rw [← n1, ← n2]; exact (List.getElem?_eq_some_iff.1 hn).1)
  have key := field_tree (pf := Frame.ident) Mat3.isRot_one hF ?_ ?_ γ 0
  · have hid : (Frame.ident : Frame K).att.mulVecT γ = γ := by
      simp only [Frame.ident]; vec_ring
    rw [hid] at key
    have hn2 : n ∈ (T.updateRate ⟨γ, 0⟩ 0).updateWrench.toList :=
      Chain.mem_of_gather g2 hmem hn
    have e := congrArg LTree.toList (LTree.updateWrench_body (T.updateRate ⟨γ, 0⟩ 0))
    rw [LTree.toList_map, LTree.toList_map] at e
    have hb : n.body ∈ (T.updateRate ⟨γ, 0⟩ 0).toList.map (fun l => l.body) := by
      rw [← e]; exact List.mem_map.2 ⟨n, hn2, rfl⟩
    obtain ⟨n', hn', e'⟩ := List.mem_map.1 hb
    have := key n' hn'
    rw [e'] at this
    rw [this, hf]
  · intro p hp'
    have hp2 := (Chain.gather_perm hC.tree hw.perm).mem_iff.1 hp'
    obtain ⟨j, hj⟩ := List.mem_iff_getElem?.1 hp2
    have hj' : j < b1.link.length := by rw [← hC.len]; exact (List.getElem?_eq_some_iff.1 hj).1
    have hs := forall_zip_statics hC.stat hj (List.getElem?_eq_getElem hj')
    rw [(statics_iff.1 hs).2.2.2.1]
    exact hp.rot _ (List.getElem_mem hj')
  · intro p hp'
    have hp2 := (Chain.gather_perm hC.tree hw.perm).mem_iff.1 hp'
    refine twist_of_getVel ?_
    rw [hC.vel p hp2]
    intro x hx
    simp only [slice, hz, List.drop_replicate, List.take_replicate] at hx
    exact (List.mem_replicate.1 hx).2

/-- Inertial work under a uniform acceleration. -/
theorem inertialWork_field {k : K} {γ : Vec3 K} {l m u : Link K} (hr : l.body.frame.att.IsRot)
    (hv : l.body.vel = k • m.body.vel)
    (ha : l.body.acc = (k * k) • m.body.acc + ⟨l.body.frame.att.mulVecT γ, 0⟩)
    (hm : statics l = statics m) (hu : statics l = statics u) :
    inertialWork l u = k * k * inertialWork m u + dot γ (mass u • comVel u) := by
  have hres : RateRes k l m { l with body := { l.body with vel := ⟨l.body.frame.att.mulVecT γ, 0⟩ } } :=
    ⟨hv, ha⟩
  rw [inertialWork_affine hres hm rfl hu]
  congr 1
  obtain ⟨-, -, -, -, p⟩ := statics_iff.1 hu
  simp only [kinetic, mass, comVel, angVel, p]
  have e : l.body.frame.att.mulVec (l.body.frame.att.mulVecT γ + cross 0 u.body.mp.com) = γ := by
    have : cross (0 : Vec3 K) u.body.mp.com = 0 := by vec_ring
    rw [this, add_zero, hr.mulVec_mulVecT]
  have e2 : l.body.frame.att.mulVec (0 : Vec3 K) = 0 := by vec_ring
  rw [e, e2]
  have e3 : ∀ M : Mat3 K, M.mulVec (0 : Vec3 K) = 0 := by intro M; vec_ring
  rw [e3, dot_smul_right]
  have : ∀ v : Vec3 K, dot v 0 = 0 := by intro v; vec_ring
  rw [this, add_zero]

end Roki
