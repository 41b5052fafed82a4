import Verif.Lemmas.Sim
import Verif.Lemmas.ZmRat
import Verif.Lemmas.ZmReal
import Verif.Spec.Samples
set_option autoImplicit false

/-! # Cloning chains (C30) -/

namespace Roki
variable {K : Type*} [Field K] [LinearOrder K] [IsStrictOrderedRing K] [Zm K] [LawfulZm K]

/-- **C30 (empty chain).** A chain without links is not cloned. -/
theorem C30_empty (c : Chain K) (h : c.link = []) : c.clone = none := by simp [Chain.clone, h]

/-- **C30 (behaviour).** Let every joint of a chain have been made by assigning a type and using the state
functions and the motor, without limits, friction or break thresholds.  Then the chain is cloned, and
whatever sequence of operations is applied to both, either both run into undefined behaviour or both end
in chains that are alike.  Missing for the full property: joints with limits, stiffness, viscosity, friction
or break thresholds, see `C30_limits_fails` and `C30_lost`. -/
theorem C30_behaviour_partial (c : Chain K) (hn : c.link ≠ []) (hp : ∀ l ∈ c.link, l.joint.prp.Plain) :
    ∃ c', c.clone = some c' ∧ ∀ os, Option.Rel Chain.Like (c.runAll os) (c'.runAll os) := by
  refine ⟨_, Chain.clone_eq c hn fun l hl => (hp l hl).ok.2, Chain.Like.runAll ?_⟩
  refine ⟨?_, rfl, rfl, rfl, rfl, rfl⟩
  have : List.Forall₂ Link.Like (c.link.map fun l : Link K => l) (c.link.map Link.cloned) :=
    forall₂_map_left fun l hl => by
      constructor <;> try rfl
      · show (⟨l.joint.prp.stateOnly, l.joint.wrench⟩ : Joint K) = l.joint
        rw [(hp l hl).ok.stateOnly]
      · exact List.reverse_perm _
  simpa using this

/-- **C30 (state).** The clone of a chain with arbitrary joint parameters has the same tree, totals and links,
and each link has the same name, offset, frames, wrench, body state, external forces, joint type, motor and
joint state. -/
theorem C30_state (c : Chain K) (hn : c.link ≠ []) (hs : ∀ l ∈ c.link, l.joint.prp.Settled) :
    ∃ c', c.clone = some c' ∧ c'.shape = c.shape ∧ c'.mass = c.mass ∧ c'.wldCOM = c.wldCOM ∧
      c'.comVel = c.comVel ∧ c'.comAcc = c.comAcc ∧
      List.Forall₂ (fun l l' : Link K =>
        l'.name = l.name ∧ l'.offset = l.offset ∧ l'.org = l.org ∧ l'.adj = l.adj ∧
        l'.joint.wrench = l.joint.wrench ∧ { l'.body with extw := [] } = { l.body with extw := [] } ∧
        l'.body.extw.Perm l.body.extw ∧
        l'.joint.prp.typeStr = l.joint.prp.typeStr ∧ l'.joint.prp.getMotor = l.joint.prp.getMotor ∧
        l'.joint.prp.getDis = l.joint.prp.getDis ∧ l'.joint.prp.getVel = l.joint.prp.getVel ∧
        l'.joint.prp.getAcc = l.joint.prp.getAcc ∧ l'.joint.prp.getTrq = l.joint.prp.getTrq ∧
        ∀ f, l'.joint.prp.xform f = l.joint.prp.xform f) c.link c'.link := by
  refine ⟨_, Chain.clone_eq c hn hs, rfl, rfl, rfl, rfl, rfl, ?_⟩
  refine List.forall₂_map_right_iff.2 (List.forall₂_same.2 fun l _ => ?_)
  refine ⟨rfl, rfl, rfl, rfl, rfl, rfl, List.reverse_perm _, ?_⟩
  obtain ⟨nm, ⟨p, w⟩, b, o, f, a, i⟩ := l
  cases p <;> exact ⟨rfl, rfl, rfl, rfl, rfl, rfl, fun _ => rfl⟩

/-- **C30 (what is lost).** No joint of a clone has a limit, friction or a break threshold, whatever the
original had. -/
theorem C30_lost (c c' : Chain K) (hs : ∀ l ∈ c.link, l.joint.prp.Settled) (h : c.clone = some c') :
    ∀ l ∈ c'.link, (∀ v ∈ l.joint.prp.getMin, v = none) ∧ (∀ v ∈ l.joint.prp.getMax, v = none) ∧
      (∀ v ∈ l.joint.prp.getKFriction, v = 0) ∧ (∀ v ∈ l.joint.prp.getSFriction, v = 0) ∧
      (∀ v ∈ l.joint.prp.getFriction, v = 0) ∧ ∀ d, l.joint.prp = .brfloat d → d.epf = none ∧ d.ept = none := by
  have hn : c.link ≠ [] := by intro e; rw [C30_empty c e] at h; cases h
  rw [Chain.clone_eq c hn hs] at h
  cases h
  intro l hl
  obtain ⟨l, -, rfl⟩ := List.mem_map.1 hl
  obtain ⟨nm, ⟨p, w⟩, b, o, f, a, i⟩ := l
  cases p <;> simp [Link.cloned, Prp.stateOnly, Prp.getMin, Prp.getMax, Prp.getKFriction, Prp.getSFriction,
    Prp.getFriction, Prp.restTrq, Dof1.fresh, Dof2.fresh]

/-! ## Where the clone differs -/

namespace Sample
/-- A chain of one turning link with the given parameters. -/
def oneTurn (d : Dof1 ℚ) (ws : WrenchList ℚ) : Chain ℚ :=
  let l : Link ℚ := Sample.link "arm" (.revol d) mp1 Frame.ident
  { link := LinkArray.setOffset [{ l with body := { l.body with extw := ws } }],
    shape := .node 0 .nil .nil, mass := 1, wldCOM := 0, comVel := 0, comAcc := 0 }
end Sample

/-- **C30, violated** by limits: a joint limited to [-1, 1] is set to 2; the original stops at 1, the clone
goes to 2. -/
theorem C30_limits_fails :
    let c := Sample.oneTurn (Sample.dof1 0 0 0 0 1 (some (-1)) (some 1)) []
    ((c.fk [2]).map fun c => c.link.map fun l => l.joint.prp.getDis) = some [[1]] ∧
    ((c.clone.bind fun c' => c'.fk [2]).map fun c => c.link.map fun l => l.joint.prp.getDis) = some [[2]] := by
  decide +kernel

/-- **C30, violated** by stiffness and viscosity: the joint torque of the spring and the damper is zero in the
clone. -/
theorem C30_friction_fails :
    let c := Sample.oneTurn { Sample.dof1 1 2 0 0 1 none none with stiffness := 3, viscosity := 4 } []
    (c.link.map fun l => l.joint.prp.getKFriction) = [[-11]] ∧
    (c.clone.map fun c' => c'.link.map fun l => l.joint.prp.getKFriction) = some [[0]] := by
  decide +kernel

/-- **C30, violated** by the order of the external wrenches: the last pushed wrench is the first to be popped
from the original, and the last to be popped from the clone. -/
theorem C30_pop_fails :
    let w (x : ℚ) : Wrench ℚ := ⟨⟨⟨x, 0, 0⟩, 0⟩, 0⟩
    let c := Sample.oneTurn (Sample.dof1 0 0 0 0 1 none none) ((WrenchList.push [] (w 1)).push (w 2))
    (c.link.map fun l => l.body.extw.pop.1) = [some (w 2)] ∧
    (c.clone.map fun c' => c'.link.map fun l => l.body.extw.pop.1) = some [some (w 1)] := by
  decide +kernel

/-! ## The hypotheses are met -/

/-- A limited joint at displacement 0 and in motion meets the hypotheses of `C30_state` and `C30_lost`. -/
example :
    let c := Sample.oneTurn (Sample.dof1 0 2 0 0 1 (some (-1)) (some 1)) []
    c.link ≠ [] ∧ ∀ l ∈ c.link, l.joint.prp.Settled := by
  have h : ∀ l ∈ (Sample.oneTurn (Sample.dof1 0 2 0 0 1 (some (-1)) (some 1)) []).link,
      l.joint.prp = .revol (Sample.dof1 0 2 0 0 1 (some (-1)) (some 1)) := by
    intro l hl
    obtain rfl := List.mem_singleton.1 hl
    rfl
  refine ⟨List.cons_ne_nil _ _, fun l hl => ?_⟩
  rw [h l hl]
  have pp := LawfulZm.pi_pos (K := ℚ)
  simp [Prp.Settled, Sample.dof1, LawfulZm.sin_zero, LawfulZm.cos_zero, pp, pp.le]

/-- A turning joint that has been assigned, set to 1 with velocity 2 and given a motor is plain: it meets the
hypothesis of `C30_behaviour_partial`. -/
example : ∃ (j : Joint ℚ) (p q : Prp ℚ), (⟨.fixed, 0⟩ : Joint ℚ).queryAssign "revolute" = some (some j) ∧
    j.prp.setDis [1] = some p ∧ p.setVel [2] = some q ∧ (q.withMotor (.trq ⟨0, some 1, none⟩)).Plain ∧
    q.getDis = [1] ∧ q.getVel = [2] := by
  have key : (((⟨.fixed, 0⟩ : Joint ℚ).queryAssign "revolute").bind fun j => j.bind fun j => (j.prp.setDis [1]).bind
      fun p => (p.setVel [2]).map fun q => (q.getDis, q.getVel)) = some ([1], [2]) := by decide +kernel
  simp only [Option.bind_eq_some_iff, Option.map_eq_some_iff, Prod.mk.injEq] at key
  obtain ⟨_, h1, j, rfl, p, h2, q, h3, h4, h5⟩ := key
  exact ⟨j, p, q, h1, h2, h3, .motor _ _ (.setVel _ _ _ (.setDis _ _ _ (.assign _ _ _ h1) h2) h3), h4, h5⟩

end Roki
