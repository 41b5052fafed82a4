import Verif.Lemmas.MachineABI
import Verif.Props.Machine
import Verif.Props.ABIFails
import Verif.Props.ABIPos
set_option autoImplicit false

/-!
# Forward dynamics of one mechanism described by different links

C135: `rkChainABI` gives the same accelerations whether parts that are fixed to one another are one link or several.
-/

namespace Roki
set_option linter.unusedSectionVars false
open Spec LinkArray Machine
variable {K : Type*} [Field K] [LinearOrder K] [IsStrictOrderedRing K] [Zm K] [LawfulZm K]

/-- Forward dynamics on the tree of links. -/
theorem abi_run {c c1 : Chain K} {fx : Bool} {dis vel acc acc' : List K} (h : c.WF) {T : LTree (Link K)} (hT : PosedTree c dis vel T)
    (e : c.abi fx dis vel acc = some (c1, some acc')) : HasTree c1 ((back fx Frame.ident 0 T).1.abiFwd fx true 0) := by
  obtain ⟨m1, m2, p1, p2, p3⟩ := hT
  simp only [Chain.abi] at e
  split_ifs at e with hsz
  · simp at e
  simp only [Option.bind_eq_bind, Option.bind_eq_some_iff, Option.pure_def, Option.some.injEq,
    Prod.mk.injEq] at e
  obtain ⟨ls, e1, ls', e2, d1, e3, d2, e4, d3, e5, a3, e6, rfl, rfl⟩ := e
  rw [p1, Option.some.injEq] at e1
  subst e1
  rw [p2, Option.some.injEq] at e2
  subst e2
  have n0 : m2.length = c.link.length := by
    rw [(setJointAll_getElem p2 0).2, (setJointAll_getElem p1 0).2]
  have w0 : Chain.WF { c with link := m2 } := h.with_link n0
  obtain ⟨T0, g0, g1, w1, s1, n1, -⟩ := w0.updateFK e3
  have hT0 := gather_of_hasTree p3
  rw [hT0, Option.some.injEq] at g0
  subst g0
  obtain ⟨ls2, T1, hT1, ev, gv, nv⟩ := w1.downAt (fun pvel (l : Link K) => l.updateVel1 pvel) (fun l => l.body.vel) 0
  rw [← LTree.updateVel_eq] at gv
  have hd2 : d2 = { d1 with link := ls2 } := by
    have hv' : Chain.updateVelAt none d1.shape 0 d1.link = some ls2 := ev
    rw [Chain.updateVel, hv'] at e4
    simpa using e4.symm
  have hT1' : T1 = T.updateFrame Frame.ident := by
    have := hT1.symm.trans g1; simpa using this
  have w2 : d2.WF := by rw [hd2]; exact w1.with_link nv
  have gv2 : Chain.gather d2.link d2.shape = some (T1.updateVel 0) := by rw [hd2]; exact gv
  have hs2 : d2.shape = c.shape := by rw [hd2]; exact s1
  have z1 : m1.map (fun l : Link K => l.joint.prp.size) = c.link.map fun l => l.joint.prp.size :=
    setJointAll_keep _ (fun l buf p' hp => by simp only [isSetter_dis.size _ _ _ hp]) p1
  have z2 : m2.map (fun l : Link K => l.joint.prp.size) = m1.map fun l => l.joint.prp.size :=
    setJointAll_keep _ (fun l buf p' hp => by simp only [isSetter_vel.size _ _ _ hp]) p2
  have n2 : d2.link.length = m2.length := by rw [hd2]; exact nv.trans n1
  have z3 : d2.link.map (fun l : Link K => l.joint.prp.size) = m2.map fun l => l.joint.prp.size := by
    refine Chain.map_eq_of_gather gv2 (hs2 ▸ hT0) n2 (fun i hi => w2.mem.2 hi) _ ?_
    rw [LTree.updateVel_eq, LTree.down_map_inv (fun l : Link K => l.joint.prp.size) (by intro _ _; rfl), hT1', LTree.updateFrame_eq,
      LTree.down_map_inv (fun l : Link K => l.joint.prp.size) (by intro _ _; rfl)]
  have hz2 : jointSize d2.link ≠ 0 := by
    rw [jointSize_congr (z3.trans (z2.trans z1))]; exact hsz
  obtain ⟨ls3, e5', g3, n3⟩ := w2.abiUpdate fx true hz2 gv2
  rw [e5', Option.some.injEq] at e5
  subst e5
  rw [hT1'] at g3
  exact Chain.gather_map g3

/-- **C135** Let two chains describe the same mechanism: one may have a single link where the other has several links fixed to one another, with
the same total mass, moments and external forces.  Let their joints be fixed, revolute or floating, and let the given displacements and velocities
put them in the same state of motion.  Then `rkChainABI` gives every joint the same acceleration in both, and every body the same acceleration.
Partial: other types of joints are excluded; `C135_prism_fails` shows that prismatic joints have to be. -/
theorem C135_same_machine_partial (c d c1 d1 : Chain K) (hc : c.WF) (hd : d.WF) (fx : Bool) (dis vel acc a dis' vel' acc' a' : List K)
    (T U : LTree (Link K)) (hT : PosedTree c dis vel T) (hU : PosedTree d dis' vel' U)
    (ht : ∀ l ∈ T.toList, Ready l) (hu : ∀ m ∈ U.toList, Ready m ∧ m.org.att.IsRot ∧ m.joint.prp.WF)
    (L : List (Load K)) (hs : Same (fun _ _ _ => True) Frame.ident L T U)
    (ec : c.abi fx dis vel acc = some (c1, some a)) (ed : d.abi fx dis' vel' acc' = some (d1, some a')) :
    ∃ T1 U1, HasTree c1 T1 ∧ HasTree d1 U1 ∧ Same SameMotion Frame.ident L T1 U1 ∧ accsOf T1 = accsOf U1 := by
  have k := fwd_same fx true hs Frame.ident 0 0 Mat3.isRot_one (fun m hm => ⟨(hu m hm).2.1, (hu m hm).2.2, (hu m hm).1⟩) ht
  rw [Frame.cascade_ident, mvel_ident, macc_ident] at k
  exact ⟨_, _, abi_run hc hT ec, abi_run hd hU ed, k, accs_same k⟩

/-! ## A concrete case

`Sample.arm` has two links that are fixed to one another; `armMerged` has one link instead. -/

namespace Sample
def mpm : MP ℚ := ⟨2, ⟨3/2, 0, 0⟩, ⟨⟨2, 0, 0⟩, ⟨0, 5/2, 0⟩, ⟨0, 0, 5/2⟩⟩⟩
def armMerged : Chain ℚ := serial [(turn, mpm, side), (turn, mpx, ⟨⟨2, 0, 0⟩, side.att⟩)]

/-- Link `i` of a chain whose joints have been given the displacements and velocities. -/
noncomputable def posedLink (c : Chain ℚ) (dis vel : List ℚ) (i : ℕ) : Link ℚ :=
  (((setJointAll Prp.setDis dis c.link).bind (setJointAll Prp.setVel vel)).bind (·[i]?)).getD (link "" .fixed mp0 Frame.ident)

noncomputable def armT : LTree (Link ℚ) :=
  .node (posedLink armMerged [0, 0] [1, 2] 0) (.node (posedLink armMerged [0, 0] [1, 2] 1) .nil .nil) .nil
noncomputable def armU : LTree (Link ℚ) :=
  .node (posedLink arm [0, 0] [1, 2] 0) (.node (posedLink arm [0, 0] [1, 2] 1) (.node (posedLink arm [0, 0] [1, 2] 2) .nil .nil) .nil) .nil

theorem armT_posed : PosedTree armMerged [0, 0] [1, 2] armT := ⟨_, _, rfl, rfl, rfl⟩
theorem armU_posed : PosedTree arm [0, 0] [1, 2] armU := ⟨_, _, rfl, rfl, rfl⟩

theorem arm_same : Same (fun _ _ _ => True) Frame.ident [] armT armU := by
  refine .link (M := (loadOf (posedLink arm [0, 0] [1, 2] 1)).placed (Frame.ident.cascade (posedLink arm [0, 0] [1, 2] 1).org) :: ([] ++ [])) ?_ ?_ ?_ trivial ?_ (.nil _)
  · decide +kernel
  · rfl
  · constructor <;> decide +kernel
  refine .fixed (t := .node (posedLink armMerged [0, 0] [1, 2] 1) .nil .nil) (u := .nil) rfl ?_ (.nil _)
  refine .link (M := []) ?_ rfl ?_ trivial (.nil _) (.nil _)
  · decide +kernel
  · constructor <;> decide +kernel

theorem armMerged_wf : armMerged.WF := ⟨⟨_, rfl⟩, .refl _⟩

theorem side_rot : side.att.IsRot := by constructor <;> decide +kernel
end Sample

open Sample in
/-- `Sample.arm` and `Sample.armMerged` in motion meet the hypotheses of `C135_same_machine_partial`; the accelerations are not zero. -/
example : armMerged.WF ∧ arm.WF ∧ PosedTree armMerged [0, 0] [1, 2] armT ∧ PosedTree arm [0, 0] [1, 2] armU ∧
    (∀ l ∈ armT.toList, Ready l) ∧ (∀ m ∈ armU.toList, Ready m ∧ m.org.att.IsRot ∧ m.joint.prp.WF) ∧
    Same (fun _ _ _ => True) Frame.ident [] armT armU ∧
    (∃ c1 a d1 a', armMerged.abi false [0, 0] [1, 2] [0, 0] = some (c1, some a) ∧ arm.abi false [0, 0] [1, 2] [0, 0] = some (d1, some a') ∧
      a ≠ [0, 0]) := by
  refine ⟨armMerged_wf, arm_wf, armT_posed, armU_posed, ?_, ?_, arm_same, ?_⟩
  · have : ∀ l ∈ [posedLink armMerged [0, 0] [1, 2] 0, posedLink armMerged [0, 0] [1, 2] 1], Ready l := by
      simp only [List.forall_mem_cons, List.forall_mem_nil, and_true]
      exact ⟨⟨rfl, rfl, rfl, trivial⟩, ⟨rfl, rfl, rfl, trivial⟩, by simp⟩
    exact this
  · have : ∀ l ∈ [posedLink arm [0, 0] [1, 2] 0, posedLink arm [0, 0] [1, 2] 1, posedLink arm [0, 0] [1, 2] 2], Ready l ∧ l.org.att.IsRot ∧ l.joint.prp.WF := by
      simp only [List.forall_mem_cons, List.forall_mem_nil, and_true]
      refine ⟨⟨⟨rfl, rfl, rfl, trivial⟩, side_rot, ?_⟩, ⟨⟨rfl, rfl, rfl, trivial⟩, Mat3.isRot_one, trivial⟩,
        ⟨⟨rfl, rfl, rfl, trivial⟩, side_rot, ?_⟩, by simp⟩
      all_goals exact (by decide +kernel : (0 : ℚ) * 0 + 1 * 1 = 1)
    exact this
  · exact ⟨_, _, _, _, rfl, rfl, by decide +kernel⟩

namespace Sample
/-- A turning link with a link fixed to it, on which a slider moves. -/
def crank : Chain ℚ := serial [(turn, mp0, Frame.ident), (.fixed, mp0, ⟨⟨1, 1, 0⟩, 1⟩), (slide, mp0, ⟨0, ⟨⟨0, 1, 0⟩, ⟨0, 0, 1⟩, ⟨1, 0, 0⟩⟩⟩)]
/-- The same with one link for the two. -/
def crankMerged : Chain ℚ := serial [(turn, ⟨2, ⟨1/2, 1/2, 0⟩, ⟨⟨5/2, -1/2, 0⟩, ⟨-1/2, 5/2, 0⟩, ⟨0, 0, 3⟩⟩⟩, Frame.ident),
  (slide, mp0, ⟨⟨1, 1, 0⟩, ⟨⟨0, 1, 0⟩, ⟨0, 0, 1⟩, ⟨1, 0, 0⟩⟩⟩)]

noncomputable def crankT : LTree (Link ℚ) :=
  .node (posedLink crankMerged [0, 0] [1, 0] 0) (.node (posedLink crankMerged [0, 0] [1, 0] 1) .nil .nil) .nil
noncomputable def crankU : LTree (Link ℚ) :=
  .node (posedLink crank [0, 0] [1, 0] 0) (.node (posedLink crank [0, 0] [1, 0] 1) (.node (posedLink crank [0, 0] [1, 0] 2) .nil .nil) .nil) .nil

theorem crank_same : Same (fun _ _ _ => True) Frame.ident [] crankT crankU := by
  refine .link (M := (loadOf (posedLink crank [0, 0] [1, 0] 1)).placed (Frame.ident.cascade (posedLink crank [0, 0] [1, 0] 1).org) :: ([] ++ [])) ?_ ?_ ?_ trivial ?_ (.nil _)
  · decide +kernel
  · rfl
  · constructor <;> decide +kernel
  refine .fixed (t := .node (posedLink crankMerged [0, 0] [1, 0] 1) .nil .nil) (u := .nil) rfl ?_ (.nil _)
  refine .link (M := []) ?_ rfl ?_ trivial (.nil _) (.nil _)
  · decide +kernel
  · constructor <;> decide +kernel
end Sample

open Sample in
/-- **C135, violated** by prismatic joints: a slider on a turning crank.  The two chains describe the same mechanism, are in the same state of motion and have
their joints in the same order, but `rkChainABI` returns different accelerations (src/rk_joint_prism.c:214-225 leaves the inverse axis inertia out of
the bias, so what is passed on depends on the frame of the parent). -/
theorem C135_prism_fails : crankMerged.WF ∧ crank.WF ∧ PosedTree crankMerged [0, 0] [1, 0] crankT ∧ PosedTree crank [0, 0] [1, 0] crankU ∧
    Same (fun _ _ _ => True) Frame.ident [] crankT crankU ∧
    (∃ c1 a d1 a', crankMerged.abi false [0, 0] [1, 0] [0, 0] = some (c1, some a) ∧ crank.abi false [0, 0] [1, 0] [0, 0] = some (d1, some a') ∧
      a ≠ a') :=
  ⟨⟨⟨_, rfl⟩, .refl _⟩, ⟨⟨_, rfl⟩, .refl _⟩, ⟨_, _, rfl, rfl, rfl⟩, ⟨_, _, rfl, rfl, rfl⟩, crank_same, _, _, _, _, rfl, rfl, by decide +kernel⟩

end Roki
