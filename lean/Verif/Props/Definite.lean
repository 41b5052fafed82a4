import Verif.Lemmas.Definite
import Verif.Props.ABIFails
set_option autoImplicit false

/-! # C95: the joint-space inertia of a physical chain is positive definite -/

namespace Roki
open Spec LinkArray
variable {K : Type*} [Field K] [LinearOrder K] [IsStrictOrderedRing K]

/-- **C95** If every link has a positive mass and a positive definite inertia tensor, then no motion of the joints is without
kinetic energy: the joint-space inertia is positive definite.  All joint types. -/
theorem C95_inertia_definite (c c1 : Chain K) (h : c.WF) (hr : ∀ l ∈ c.link, l.org.att.IsRot ∧ l.joint.prp.WF)
    (ho : setOffset c.link = c.link) (h1 : c.updateFK = some c1) (hm : ∀ l ∈ c.link, 0 < mass l)
    (hI : ∀ l ∈ c.link, ∀ w : Vec3 K, w ≠ 0 → 0 < dot w (l.body.mp.inertia.mulVec w)) (vel : List K)
    (hv : vel.length = jointSize c.link) (hne : ∃ x ∈ vel, x ≠ 0) :
    0 < ∑ k ∈ Finset.range (jointSize c.link), vel.getD k 0 *
      ∑ j ∈ Finset.range (jointSize c.link), jointInertia c1 k j * vel.getD j 0 := by
  obtain ⟨hp, hz⟩ := posed_of_fk h hr ho h1
  have hnn := C87_inertia_semidefinite h hr ho h1 (fun l hl => (hm l hl).le) (fun l hl w => by
    by_cases hw : w = 0
    · rw [hw]; simp [dot]
    · exact (hI l hl w hw).le) vel hv
  refine lt_of_le_of_ne hnn fun h0 => ?_
  obtain ⟨c2, h2⟩ := hp.invDyn 0 (hv.trans hz.symm) (hv.trans hz.symm)
  obtain ⟨ls, T, r⟩ := hp.run (hv.trans hz.symm) (hv.trans hz.symm) h2
  rw [C87_inertia_energy h hr ho h1 c2 0 vel vel hv hv h2, C22_energy_id c c1 c2 0 vel vel h hr h1 h2] at h0
  have hmp : ∀ l ∈ c2.link, ∃ m ∈ c.link, m.body.mp = l.body.mp := by
    intro l hl
    have : l.body.mp ∈ c.link.map fun l => l.body.mp := by
      rw [← mp_fk h hr ho h1]
      have e := congrArg (List.map fun s => s.2.2.2.2) r.stat2
      simp only [List.map_map, Function.comp_def, statics] at e
      rw [← e]; exact List.mem_map.2 ⟨l, hl, rfl⟩
    obtain ⟨m, hm, e⟩ := List.mem_map.1 this
    exact ⟨m, hm, e⟩
  have hl := id_links h hr h1 h2
  have hI0 : ∀ l ∈ c2.link, ∀ w : Vec3 K, 0 ≤ dot w (l.body.mp.inertia.mulVec w) := by
    intro l hl' w
    obtain ⟨m, hm', e⟩ := hmp l hl'
    rw [← e]
    by_cases hw : w = 0
    · rw [hw]; simp [dot]
    · exact (hI m hm' w hw).le
  -- every link is at rest
  have rest : ∀ l ∈ c2.link, l.body.vel = 0 := by
    have hsum : (c2.link.map fun l => (mass l * dot (comVel l) (comVel l) +
        dot (angVel l) ((worldInertia l).mulVec (angVel l))) / 2).sum = 0 := by linarith
    have hpos : ∀ x ∈ c2.link.map (fun l => (mass l * dot (comVel l) (comVel l) +
        dot (angVel l) ((worldInertia l).mulVec (angVel l))) / 2), 0 ≤ x := by
      intro x hx
      obtain ⟨l, hl', rfl⟩ := List.mem_map.1 hx
      refine div_nonneg (add_nonneg (mul_nonneg ?_ ?_) ?_) (by norm_num)
      · obtain ⟨m, hm', e⟩ := hmp l hl'
        simp only [mass, ← e]; exact (hm m hm').le
      · simp only [dot]
        nlinarith [mul_self_nonneg (comVel l).x, mul_self_nonneg (comVel l).y, mul_self_nonneg (comVel l).z]
      · rw [Link.angEnergy (hl l hl').1]; exact hI0 l hl' _
    have hz0 := fun x hx => List.all_zero_of_le_zero_le_of_sum_eq_zero hpos hsum (x := x) hx
    intro l hl'
    obtain ⟨m, hm', e⟩ := hmp l hl'
    refine Link.vel_zero (hl l hl').1 ?_ ?_ ?_
    · simp only [mass, ← e]; exact hm m hm'
    · rw [← e]; exact hI m hm'
    · have := hz0 _ (List.mem_map.2 ⟨l, hl', rfl⟩)
      linarith
  -- hence no joint moves
  have g2 := r.tree2
  have hbody := congrArg LTree.toList (LTree.updateWrench_body (T.updateRate 0 0))
  rw [LTree.toList_map, LTree.toList_map] at hbody
  have restT : ∀ l ∈ (T.updateRate 0 0).toList, l.body.vel = 0 := by
    intro l hl'
    have : l.body ∈ (T.updateRate 0 0).updateWrench.toList.map (fun l => l.body) := by
      rw [hbody]; exact List.mem_map.2 ⟨l, hl', rfl⟩
    obtain ⟨m, hm', e⟩ := List.mem_map.1 this
    rw [← e]
    exact rest m ((Chain.gather_perm (r.shape ▸ g2) r.wf.perm).mem_iff.1 hm')
  have hinc := LTree.incVel_zero _ (LTree.velOK_updateRate 0 0 T) restT
  have hprp : (T.updateRate 0 0).toList.map (fun l => l.joint.prp) = T.toList.map fun l => l.joint.prp := by
    rw [← LTree.toList_map, ← LTree.toList_map, LTree.updateRate_eq, LTree.down_map_inv (fun l : Link K => l.joint.prp)]
    intro _ _; rfl
  have hincT : ∀ l ∈ T.toList, l.joint.prp.incVel 0 = 0 :=
    forall_of_map_eq (fun l : Link K => l.joint.prp) (fun p => p.incVel 0 = 0) hprp.symm hinc
  have hwf : ∀ l ∈ ls, l.joint.prp.WF := by
    have e1 : ∀ l ∈ c1.link, l.joint.prp.WF :=
      forall_of_map_eq (fun l : Link K => l.joint.prp) (fun p => p.WF)
        (ZTK.updateFK_map (fun l : Link K => l.joint.prp) (fun _ _ => rfl) h1).1 fun y hy => (hr y hy).2
    intro l hl'
    rw [← Prp.WF_still]
    exact forall_of_map_eq statics (fun x => x.2.1.WF) r.stat (fun y hy => (Prp.WF_still _).2 (e1 y hy)) l hl'
  have hperm := Chain.gather_perm r.tree (by rw [r.len]; exact hp.wf.perm)
  obtain ⟨x, hx, hx0⟩ := hne
  rw [← r.flat, List.mem_flatten] at hx
  obtain ⟨b, hb, hxb⟩ := hx
  obtain ⟨l, hl', rfl⟩ := List.mem_map.1 hb
  exact hx0 (Prp.getVel_zero (hwf l hl') (hincT l (hperm.mem_iff.2 hl')) x hxb)

/-- **C95** A velocity of the joints that the joint-space inertia maps to zero is zero. -/
theorem C95_inertia_regular (c c1 : Chain K) (h : c.WF) (hr : ∀ l ∈ c.link, l.org.att.IsRot ∧ l.joint.prp.WF)
    (ho : setOffset c.link = c.link) (h1 : c.updateFK = some c1) (hm : ∀ l ∈ c.link, 0 < mass l)
    (hI : ∀ l ∈ c.link, ∀ w : Vec3 K, w ≠ 0 → 0 < dot w (l.body.mp.inertia.mulVec w)) (x : ℕ → K)
    (hx : ∀ k < jointSize c.link, ∑ j ∈ Finset.range (jointSize c.link), jointInertia c1 k j * x j = 0) :
    ∀ j < jointSize c.link, x j = 0 := by
  intro j hj
  by_contra hne
  set v := (List.range (jointSize c.link)).map x with hv
  have hg : ∀ k < jointSize c.link, v.getD k 0 = x k := by
    intro k hk
    simp [hv, List.getD, hk]
  have := C95_inertia_definite c c1 h hr ho h1 hm hI v (by simp [hv])
    ⟨x j, List.mem_map.2 ⟨j, List.mem_range.2 hj, rfl⟩, hne⟩
  refine absurd this (not_lt.2 (le_of_eq ?_))
  refine Finset.sum_eq_zero fun k hk => ?_
  have hk' := Finset.mem_range.1 hk
  rw [Finset.sum_congr rfl (fun i hi => by rw [hg i (Finset.mem_range.1 hi)]), hx k hk', mul_zero]

namespace Sample
theorem mpx_definite (w : Vec3 ℚ) (hw : w ≠ 0) : 0 < dot w (mpx.inertia.mulVec w) := by
  have : mpx.inertia.mulVec w = w := by simp only [mpx]; vec_ring
  rw [this]
  simp only [dot]
  by_contra hn
  refine hw ?_
  have h1 := mul_self_nonneg w.x
  have h2 := mul_self_nonneg w.y
  have h3 := mul_self_nonneg w.z
  have e1 : w.x * w.x = 0 := by linarith
  have e2 : w.y * w.y = 0 := by linarith
  have e3 : w.z * w.z = 0 := by linarith
  ext
  · exact mul_self_eq_zero.1 e1
  · exact mul_self_eq_zero.1 e2
  · exact mul_self_eq_zero.1 e3

theorem arm_links : ∀ l ∈ arm.link, l.body.mp = mpx ∧ (l.joint.prp = turn ∨ l.joint.prp = .fixed) := by
  refine forall_of_map (f := fun l : Link ℚ => (l.body.mp, l.joint.prp))
    (P := fun x => x.1 = mpx ∧ (x.2 = turn ∨ x.2 = .fixed))
    (ys := [(mpx, turn), (mpx, .fixed), (mpx, turn)]) rfl ?_
  simp
end Sample

/-- `Sample.arm` meets the hypotheses; it has two joint axes. -/
example : Sample.arm.WF ∧ (∀ l ∈ Sample.arm.link, l.org.att.IsRot ∧ l.joint.prp.WF) ∧
    setOffset Sample.arm.link = Sample.arm.link ∧ (∃ c1, Sample.arm.updateFK = some c1) ∧
    (∀ l ∈ Sample.arm.link, 0 < mass l) ∧
    (∀ l ∈ Sample.arm.link, ∀ w : Vec3 ℚ, w ≠ 0 → 0 < dot w (l.body.mp.inertia.mulVec w)) ∧
    jointSize Sample.arm.link = 2 := by
  refine ⟨Sample.arm_wf, ?_, rfl, ⟨_, rfl⟩, ?_, ?_, rfl⟩
  · intro l hl
    constructor
    · revert l
      refine Sample.forall_of_map (f := fun l : Link ℚ => l.org) (P := fun f => f.att.IsRot)
        (ys := [Sample.side, ⟨⟨1, 0, 0⟩, 1⟩, Sample.side]) rfl ?_
      intro y hy
      simp only [List.mem_cons, List.not_mem_nil, or_false] at hy
      rcases hy with rfl | rfl | rfl <;> constructor <;> decide +kernel
    · rcases (Sample.arm_links l hl).2 with h | h <;> rw [h]
      · simp [Sample.turn, Prp.WF, Sample.dof1]
      · trivial
  · intro l hl
    simp only [mass, (Sample.arm_links l hl).1]; norm_num [Sample.mpx]
  · intro l hl
    rw [(Sample.arm_links l hl).1]; exact Sample.mpx_definite

end Roki
