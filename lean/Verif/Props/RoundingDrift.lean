import Verif.Spec.RoundingDrift
import Verif.Props.RoundingVel
import Verif.Lemmas.ABIAddEx
set_option autoImplicit false

/-!
# Rounding errors do not pile up over time

C127, C130.
-/

namespace Roki
open Spec Rounded

namespace Rounded

/-- Two robots whose links are related run through the same downward pass. -/
theorem pass_rel {σ : Type*} {R S : Link ℝ → Link ℝ → Prop} {f : σ → Link ℝ → Link ℝ} {g : Link ℝ → σ} {st : σ}
    (hf : ∀ st a b, R a b → S (f st a) (f st b)) (hg : ∀ a b, S a b → g a = g b) {c d : Chain ℝ} (h : c.WF) (hs : d.shape = c.shape)
    (hd : List.Forall₂ R c.link d.link) : ∃ ls ls', Chain.downAt f g none c.shape st c.link = some ls ∧
      Chain.downAt f g none d.shape st d.link = some ls' ∧ ls.length = c.link.length ∧ List.Forall₂ S ls ls' := by
  have hlen := hd.length_eq
  have hw : d.WF := by
    refine ⟨by rw [hs]; exact h.root, ?_⟩
    rw [hs, ← hlen]; exact h.perm
  obtain ⟨ls, T, hT, e, hg1, n⟩ := h.downAt f g st
  obtain ⟨ls', T', hT', e', hg1', n'⟩ := hw.downAt f g st
  rw [hs] at hT' hg1'
  refine ⟨ls, ls', e, e', n, ?_⟩
  have hTT : T.Rel R T' := by
    refine Chain.rel_gather hT hT' fun i _ l l' hl hl' => ?_
    obtain ⟨hj, ea⟩ := List.getElem?_eq_some_iff.1 hl
    obtain ⟨hj', eb⟩ := List.getElem?_eq_some_iff.1 hl'
    have := (List.forall₂_iff_get.1 hd).2 i hj hj'
    simpa only [List.get_eq_getElem, ea, eb] using this
  have := Chain.gather_rel hg1 hg1' (hTT.down hf hg st)
  refine List.forall₂_iff_get.2 ⟨by omega, fun i hi hi' => ?_⟩
  obtain ⟨l, l', hl, hl', hS⟩ := this i (h.mem.2 (by omega))
  obtain ⟨_, ea⟩ := List.getElem?_eq_some_iff.1 hl
  obtain ⟨_, eb⟩ := List.getElem?_eq_some_iff.1 hl'
  simpa only [List.get_eq_getElem, ea, eb] using hS

end Rounded

/-- **C127** The frames that forward kinematics computes with rounding depend on the joint values only, not on the frames stored before.  Two robots with the same
constants and the same joint values, whatever their histories, come to be in the same place to the last bit. -/
theorem C127_no_drift (rnd : ℝ → ℝ) (c d : Chain ℝ) (h : c.WF) (hs : d.shape = c.shape) (hd : List.Forall₂ SameInput c.link d.link) :
    ∃ c1 d1, Rounded.updateFrame rnd c = some c1 ∧ Rounded.updateFrame rnd d = some d1 ∧ List.Forall₂ SamePosture c1.link d1.link := by
  obtain ⟨ls, ls', e, e', -, hS⟩ := pass_rel (R := SameInput) (S := SamePosture) (f := fun pwf l => updateFrame1 rnd l pwf) (g := fun l => l.body.frame)
    (st := Frame.ident) (fun st a b hab => by
      constructor <;> simp only [updateFrame1, hab.org, hab.com, hab.joint]) (fun a b hab => hab.frame.symm) h hs hd
  exact ⟨{ c with link := ls }, { d with link := ls' }, by simp [Rounded.updateFrame, e], by simp [Rounded.updateFrame, e'], hS⟩

/-- **C130** The velocities computed with rounding depend on the joint values and rates only: two robots with the same constants and the same joint values and rates,
whatever their histories, come to move alike to the last bit. -/
theorem C130_no_drift (rnd : ℝ → ℝ) (c d : Chain ℝ) (h : c.WF) (hs : d.shape = c.shape) (hd : List.Forall₂ SameInput c.link d.link) :
    ∃ c1 d1 c2 d2, Rounded.updateFrame rnd c = some c1 ∧ Rounded.updateFrame rnd d = some d1 ∧ Rounded.updateVel rnd c1 = some c2 ∧
      Rounded.updateVel rnd d1 = some d2 ∧ List.Forall₂ SamePosture c2.link d2.link ∧ List.Forall₂ SameSpeed c2.link d2.link := by
  let R : Link ℝ → Link ℝ → Prop := fun l l' => SameInput l l' ∧ SamePosture l l'
  obtain ⟨ls, ls', e, e', n, hS⟩ := pass_rel (R := SameInput) (S := R) (f := fun pwf l => updateFrame1 rnd l pwf) (g := fun l => l.body.frame)
    (st := Frame.ident) (fun st a b hab => by
      refine ⟨⟨hab.org, hab.com, hab.joint⟩, ?_⟩
      constructor <;> simp only [updateFrame1, hab.org, hab.com, hab.joint]) (fun a b hab => hab.2.frame.symm) h hs hd
  obtain ⟨ks, ks', k, k', -, hK⟩ := pass_rel (R := R) (S := fun l l' => SamePosture l l' ∧ SameSpeed l l')
    (f := fun pvel l => updateVel1 rnd l pvel) (g := fun l => l.body.vel) (st := 0) (fun st a b hab => by
      refine ⟨⟨hab.2.adj, hab.2.frame, hab.2.wldCOM⟩, ?_⟩
      constructor <;> simp only [updateVel1, hab.1.com, hab.1.joint, hab.2.adj]) (fun a b hab => hab.2.vel.symm)
    (c := { c with link := ls }) (d := { d with link := ls' }) (h.with_link n) hs hS
  exact ⟨{ c with link := ls }, { d with link := ls' }, { c with link := ks }, { d with link := ks' }, by simp [Rounded.updateFrame, e],
    by simp [Rounded.updateFrame, e'], by simp only [Rounded.updateVel]; rw [k]; rfl, by simp only [Rounded.updateVel]; rw [k']; rfl,
    hK.imp fun _ _ x => x.1, hK.imp fun _ _ x => x.2⟩

/-- A robot that stands and the same robot with a frame left from another posture meet the hypotheses of `C127_no_drift` and `C130_no_drift`. -/
example (r : Chain ℝ) (l : Link ℝ) (f : Frame ℝ) (u : Vec6 ℝ) :
    let c : Chain ℝ := { r with link := [l, l], shape := .node 0 (.node 1 .nil .nil) .nil }
    let d : Chain ℝ := { c with link := [l, { l with adj := f, body := { l.body with frame := f, vel := u } }] }
    c.WF ∧ d.shape = c.shape ∧ List.Forall₂ SameInput c.link d.link :=
  ⟨⟨⟨_, rfl⟩, by simp [LTree.toList, List.range_succ]⟩, rfl, .cons ⟨rfl, rfl, rfl⟩ (.cons ⟨rfl, rfl, rfl⟩ .nil)⟩

end Roki
