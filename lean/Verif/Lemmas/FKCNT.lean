import Verif.Props.FK
import Verif.Props.JointVector
import Verif.Props.JointLimits
import Verif.Lemmas.ChainFile5
import Verif.Lemmas.Sim
set_option autoImplicit false

/-! # `rkChainFKCNT` is forward kinematics followed by inverse dynamics -/

namespace Roki
open LinkArray
variable {K : Type*} [Field K] [LinearOrder K] [Zm K]

/-- Setting a displacement continuously is setting it, and then the rates. -/
theorem setDisCNT_split {p p' : Prp K} {v : List K} {dt : K} (h : p.setDisCNT v dt = some p') :
    ∃ q, p.setDis v = some q ∧ ∀ tv ta : List K,
      (q.setVel (p'.getVel ++ tv)).bind (fun q => q.setAcc (p'.getAcc ++ ta)) = some p' := by
  cases p <;> rcases v with _ | ⟨a, _ | ⟨b, _ | ⟨c, _ | ⟨d, _ | ⟨e', _ | ⟨f, v⟩⟩⟩⟩⟩⟩ <;>
    simp [Prp.setDisCNT, Vec3.ofBuf, Vec6.ofBuf] at h <;> subst h <;> exact ⟨_, rfl, fun _ _ => rfl⟩

omit [LinearOrder K] [Zm K] in
theorem xform_setVel {p q : Prp K} {v : List K} (h : p.setVel v = some q) (f : Frame K) : q.xform f = p.xform f := by
  cases p <;> rcases v with _ | ⟨a, _ | ⟨b, _ | ⟨c, _ | ⟨d, _ | ⟨e', _ | ⟨f, v⟩⟩⟩⟩⟩⟩ <;>
    simp [Prp.setVel, Vec3.ofBuf, Vec6.ofBuf] at h <;> subst h <;> rfl

omit [LinearOrder K] [Zm K] in
theorem xform_setAcc {p q : Prp K} {v : List K} (h : p.setAcc v = some q) (f : Frame K) : q.xform f = p.xform f := by
  cases p <;> rcases v with _ | ⟨a, _ | ⟨b, _ | ⟨c, _ | ⟨d, _ | ⟨e', _ | ⟨f, v⟩⟩⟩⟩⟩⟩ <;>
    simp [Prp.setAcc, Vec3.ofBuf, Vec6.ofBuf] at h <;> subst h <;> rfl

/-- The second link is the first one with the rates of its slices. -/
def RateOf (vel acc : List K) (l l' : Link K) : Prop :=
  (l.setAtOffset Prp.setVel vel).bind (fun m : Link K => m.setAtOffset Prp.setAcc acc) = some l'

omit [LinearOrder K] [Zm K] in
theorem RateOf.prp {vel acc : List K} {l l' : Link K} (h : RateOf vel acc l l') :
    (∀ f, l'.joint.prp.xform f = l.joint.prp.xform f) ∧ l' = { l with joint := { l.joint with prp := l'.joint.prp } } := by
  unfold RateOf Link.setAtOffset at h
  split_ifs at h with ho
  · simp only [Option.bind_eq_some_iff] at h
    obtain ⟨m, h1, h2⟩ := h
    obtain ⟨p, hp, rfl⟩ := setWith_eq_some.1 h1
    rw [if_pos ho] at h2
    obtain ⟨q, hq, rfl⟩ := setWith_eq_some.1 h2
    exact ⟨fun f => (xform_setAcc hq f).trans (xform_setVel hp f), rfl⟩
  · simp only [Option.bind_some, Option.some.injEq, if_neg ho] at h
    subst h
    exact ⟨fun _ => rfl, rfl⟩

omit [LinearOrder K] [Zm K] in
theorem RateOf.frame {vel acc : List K} {l l' : Link K} (h : RateOf vel acc l l') (st : Frame K) :
    RateOf vel acc (l.updateFrame1 st) (l'.updateFrame1 st) := by
  have hx := h.prp.1
  unfold RateOf Link.setAtOffset at h ⊢
  by_cases ho : 0 ≤ l.offset
  · rw [if_pos ho, Option.bind_eq_some_iff] at h
    obtain ⟨m, h1, h2⟩ := h
    obtain ⟨p, hp, rfl⟩ := setWith_eq_some.1 h1
    rw [if_pos ho] at h2
    obtain ⟨q, hq, rfl⟩ := setWith_eq_some.1 h2
    have ho' : 0 ≤ (l.updateFrame1 st).offset := ho
    rw [if_pos ho', Option.bind_eq_some_iff]
    refine ⟨_, setWith_eq_some.2 ⟨p, hp, rfl⟩, ?_⟩
    rw [if_pos ho']
    refine setWith_eq_some.2 ⟨q, hq, ?_⟩
    simp only [Link.updateFrame1, hx, Body.updateCOM]
  · rw [if_neg ho, Option.bind_some, if_neg ho, Option.some.injEq] at h
    subst h
    have ho' : ¬ 0 ≤ (l.updateFrame1 st).offset := ho
    rw [if_neg ho', Option.bind_some, if_neg ho']

omit [LinearOrder K] [Zm K] in
theorem setJointRateAll_of {vel acc : List K} {ls ls' : List (Link K)} (h : List.Forall₂ (RateOf vel acc) ls ls') :
    setJointRateAll vel acc ls = some ls' := by
  induction h with
  | nil => rfl
  | cons h _ ih =>
    unfold RateOf at h
    obtain ⟨m, h1, h2⟩ := Option.bind_eq_some_iff.1 h
    simp only [setJointRateAll, h1, h2, ih, bind, Option.bind_some, pure]

omit [LinearOrder K] [Zm K] in
theorem calcCOM_rateOf {vel acc : List K} {ls ls' : List (Link K)} (h : List.Forall₂ (RateOf vel acc) ls ls') (m : K) :
    LinkArray.calcCOM m ls' = LinkArray.calcCOM m ls := by
  refine ZTK.calcCOM_map m ls ls' ?_
  induction h with
  | nil => rfl
  | cons h _ ih =>
    rw [List.map_cons, List.map_cons, ih, h.prp.2]

/-- Setting all displacements continuously is setting them, and then the rates that result. -/
theorem setJointAll_CNT {v vel acc : List K} {dt : K} : ∀ {ls ls' : List (Link K)},
    setJointAll (fun p v => p.setDisCNT v dt) v ls = some ls' →
    (∀ l ∈ ls', 0 ≤ l.offset → ∃ tv ta, vel.drop l.offset.toNat = l.joint.prp.getVel ++ tv ∧
      acc.drop l.offset.toNat = l.joint.prp.getAcc ++ ta) →
    ∃ ls0, setJointAll Prp.setDis v ls = some ls0 ∧ List.Forall₂ (RateOf vel acc) ls0 ls'
  | [], ls', h, _ => by
    simp only [setJointAll, Option.some.injEq] at h
    subst h
    exact ⟨[], rfl, .nil⟩
  | l :: ls, ls', h, hr => by
    simp only [setJointAll, bind, Option.bind_eq_some_iff, pure, Option.some.injEq] at h
    obtain ⟨l', h1, ls1, h2, rfl⟩ := h
    obtain ⟨ls0, e, f⟩ := setJointAll_CNT h2 fun m hm => hr m (by simp [hm])
    have key : ∃ l0, l.setAtOffset Prp.setDis v = some l0 ∧ RateOf vel acc l0 l' := by
      have hl := hr l' (by simp)
      unfold RateOf
      by_cases ho : 0 ≤ l.offset
      · rw [Link.setAtOffset, if_pos ho] at h1
        obtain ⟨p, hp, rfl⟩ := setWith_eq_some.1 h1
        obtain ⟨q, hq, hs⟩ := setDisCNT_split hp
        obtain ⟨tv, ta, hv, ha⟩ := hl ho
        refine ⟨_, by rw [Link.setAtOffset, if_pos ho]; exact setWith_eq_some.2 ⟨q, hq, rfl⟩, ?_⟩
        obtain ⟨q1, w1, w2⟩ := Option.bind_eq_some_iff.1 (hs tv ta)
        rw [Option.bind_eq_some_iff]
        simp only at hv ha
        refine ⟨_, by rw [Link.setAtOffset, if_pos ho]; exact setWith_eq_some.2 ⟨q1, by rw [hv]; exact w1, rfl⟩, ?_⟩
        rw [Link.setAtOffset, if_pos ho]
        exact setWith_eq_some.2 ⟨p, by rw [ha]; exact w2, rfl⟩
      · rw [Link.setAtOffset, if_neg ho, Option.some.injEq] at h1
        subst h1
        exact ⟨l, by rw [Link.setAtOffset, if_neg ho], by
          rw [Link.setAtOffset, if_neg ho, Option.bind_some, Link.setAtOffset, if_neg ho]⟩
    obtain ⟨l0, k1, k2⟩ := key
    exact ⟨l0 :: ls0, by simp only [setJointAll, k1, e, bind, Option.bind_some, pure], .cons k2 f⟩

/-- `rkChainFKCNT` is `rkChainFK` followed by `rkChainID` with the rates that it leaves in the joints. -/
theorem fkCNT_eq {c d : Chain K} {g : Vec6 K} {dis : List K} {dt : K} (h : c.fkCNT g dis dt = some d)
    {vel acc : List K} (hr : ∀ l ∈ d.link, 0 ≤ l.offset → ∃ tv ta, vel.drop l.offset.toNat = l.joint.prp.getVel ++ tv ∧
      acc.drop l.offset.toNat = l.joint.prp.getAcc ++ ta) :
    ∃ c1, c.fk dis = some c1 ∧ c1.invDyn g vel acc = some d := by
  simp only [Chain.fkCNT, bind, Option.bind_eq_some_iff] at h
  obtain ⟨ls, h1, c1, h2, h3⟩ := h
  let k : Link K → ℤ × List K × List K := fun l => (l.offset, l.joint.prp.getVel, l.joint.prp.getAcc)
  have hk : d.link.map k = ls.map k :=
    (ZTK.updateID_map k (fun _ _ _ => rfl) (fun _ _ => rfl)
      (fun l w => by
        have : (l.joint.prp.calcTrq w).getVel = l.joint.prp.getVel ∧ (l.joint.prp.calcTrq w).getAcc = l.joint.prp.getAcc := by
          cases l.joint.prp <;> exact ⟨rfl, rfl⟩
        simp only [k, this]) h3).1.trans
      (ZTK.updateFK_map k (fun _ _ => rfl) h2).1
  have hr' : ∀ l ∈ ls, 0 ≤ l.offset → ∃ tv ta, vel.drop l.offset.toNat = l.joint.prp.getVel ++ tv ∧
      acc.drop l.offset.toNat = l.joint.prp.getAcc ++ ta := by
    intro l hl
    have : k l ∈ d.link.map k := hk ▸ List.mem_map_of_mem hl
    obtain ⟨m, hm, e⟩ := List.mem_map.1 this
    simp only [k, Prod.mk.injEq] at e
    have := hr m hm
    rwa [e.1, e.2.1, e.2.2] at this
  obtain ⟨ls0, e0, hf⟩ := setJointAll_CNT h1 hr'
  simp only [Chain.updateFK, Chain.updateFrame, Option.map_map, Option.map_eq_some_iff, Function.comp_apply] at h2
  obtain ⟨u, hu, rfl⟩ := h2
  have hrel := Chain.downAt_rel (R := RateOf vel acc) (f := fun pwf (l : Link K) => l.updateFrame1 pwf)
    (g := fun l => l.body.frame) (fun st l l' h => h.frame st) (fun l l' h => by
      rw [h.prp.2]) c.shape none Frame.ident ls0 ls hf
  simp only [Chain.updateFrameAt] at hu
  rw [hu] at hrel
  cases hc : Chain.downAt (fun pwf (l : Link K) => l.updateFrame1 pwf) (fun l => l.body.frame) none c.shape Frame.ident ls0 with
  | none => rw [hc] at hrel; cases hrel
  | some u0 =>
    rw [hc] at hrel
    cases hrel with
    | some hrel =>
      refine ⟨_, by simp only [Chain.fk, e0, bind, Option.bind_some, Chain.updateFK, Chain.updateFrame, Chain.updateFrameAt, hc,
        Option.map_some]; rfl, ?_⟩
      simp only [Chain.invDyn, Chain.calcCOM, setJointRateAll_of hrel, bind, Option.bind_some]
      rw [← h3]
      simp only [Chain.calcCOM, calcCOM_rateOf hrel]
end Roki
