import Verif.Spec.Clone
import Verif.Lemmas.Vec
set_option autoImplicit false

/-! # Lemmas about creating and cloning -/

namespace Roki
variable {K : Type*}

section
variable [Field K]

/-- Reset the state, the cached values and the motor of a property block. -/
def Prp.erase : Prp K → Prp K
  | .fixed => .fixed
  | .revol p => .revol { p with dis := 0, vel := 0, acc := 0, trq := 0, s := 0, c := 0, motor := .none }
  | .prism p => .prism { p with dis := 0, vel := 0, acc := 0, trq := 0, motor := .none }
  | .cylin p => .cylin { p with dis0 := 0, vel0 := 0, acc0 := 0, trq0 := 0, dis1 := 0, vel1 := 0, acc1 := 0,
                                trq1 := 0, s1 := 0, c1 := 0, motor := .none }
  | .hooke p => .hooke { p with dis0 := 0, vel0 := 0, acc0 := 0, trq0 := 0, dis1 := 0, vel1 := 0, acc1 := 0,
                                trq1 := 0, s0 := 0, c0 := 0, s1 := 0, c1 := 0, motor := .none }
  | .spher p => .spher { p with aa := 0, vel := 0, acc := 0, trq := 0, att := 0, motor := .none }
  | .float p => .float { p with dis := 0, vel := 0, acc := 0, trq := 0, att := 0 }
  | .brfloat p => .brfloat { p with dis := 0, vel := 0, acc := 0, trq := 0, att := 0 }

/-- A fresh block with the state, the cached values and the motor of `p`. -/
def Prp.stateOnly : Prp K → Prp K
  | .fixed => .fixed
  | .revol p => .revol { (Dof1.fresh : Dof1 K) with
      dis := p.dis, vel := p.vel, acc := p.acc, trq := p.trq, s := p.s, c := p.c, motor := p.motor }
  | .prism p => .prism { (Dof1.fresh : Dof1 K) with
      dis := p.dis, vel := p.vel, acc := p.acc, trq := p.trq, motor := p.motor }
  | .cylin p => .cylin { (Dof2.fresh : Dof2 K) with
      dis0 := p.dis0, vel0 := p.vel0, acc0 := p.acc0, trq0 := p.trq0, dis1 := p.dis1, vel1 := p.vel1,
      acc1 := p.acc1, trq1 := p.trq1, s1 := p.s1, c1 := p.c1, motor := p.motor }
  | .hooke p => .hooke { (Dof2.fresh : Dof2 K) with
      dis0 := p.dis0, vel0 := p.vel0, acc0 := p.acc0, trq0 := p.trq0, dis1 := p.dis1, vel1 := p.vel1,
      acc1 := p.acc1, trq1 := p.trq1, s0 := p.s0, c0 := p.c0, s1 := p.s1, c1 := p.c1, motor := p.motor }
  | .spher p => .spher p
  | .float p => .float { p with epf := none, ept := none }
  | .brfloat p => .brfloat { p with epf := none, ept := none }

@[simp] theorem Vec3.ofBuf_toBuf (v : Vec3 K) : Vec3.ofBuf v.toBuf = some v := rfl
@[simp] theorem Vec6.ofBuf_toBuf (v : Vec6 K) : Vec6.ofBuf v.toBuf = some v := rfl

variable [LinearOrder K] [Zm K]

/-- Nothing but the state differs from a fresh block, and the state is settled. -/
def Prp.Ok (p : Prp K) : Prop := p.erase = p.fresh ∧ p.Settled

/-- Open a successful call of one of the setters. -/
macro "setter_cases" h:ident : tactic => `(tactic| (
  simp only [Prp.setDis, Prp.setVel, Prp.setAcc, Prp.setTrq, Prp.setDisCNT] at $h:ident <;>
  (try split at $h:ident) <;>
  simp only [Option.some.injEq, Option.map_eq_some_iff, reduceCtorEq] at $h:ident <;>
  (try obtain ⟨_, _, h'⟩ := $h:ident) <;> subst_vars))

variable [IsStrictOrderedRing K] [LawfulZm K]

theorem Prp.fresh_neutral {p q : Prp K} (h : p.fresh.neutral = some q) : q.Ok := by
  have pp := LawfulZm.pi_pos (K := K)
  cases p <;> simp only [Prp.fresh, Prp.neutral] at h <;> setter_cases h <;>
    refine ⟨rfl, ?_⟩ <;> simp_all [Prp.Settled, Dof1.fresh, Dof2.fresh, limit, LawfulZm.phase_gt, LawfulZm.phase_le]

theorem Prp.Ok.setDis {p p' : Prp K} {v : List K} (hp : p.Ok) (h : p.setDis v = some p') : p'.Ok := by
  obtain ⟨he, hs⟩ := hp
  cases p <;> setter_cases h <;> refine ⟨he, ?_⟩ <;>
    simp_all [Prp.Settled, Prp.erase, Prp.fresh, Dof1.fresh, Dof2.fresh, limit, LawfulZm.phase_gt, LawfulZm.phase_le]

theorem Prp.Ok.setVel {p p' : Prp K} {v : List K} (hp : p.Ok) (h : p.setVel v = some p') : p'.Ok := by
  obtain ⟨he, hs⟩ := hp
  cases p <;> setter_cases h <;> exact ⟨he, hs⟩

theorem Prp.Ok.setAcc {p p' : Prp K} {v : List K} (hp : p.Ok) (h : p.setAcc v = some p') : p'.Ok := by
  obtain ⟨he, hs⟩ := hp
  cases p <;> setter_cases h <;> exact ⟨he, hs⟩

theorem Prp.Ok.setTrq {p p' : Prp K} {v : List K} (hp : p.Ok) (h : p.setTrq v = some p') : p'.Ok := by
  obtain ⟨he, hs⟩ := hp
  cases p <;> setter_cases h <;> exact ⟨he, hs⟩

theorem Prp.Ok.setDisCNT {p p' : Prp K} {v : List K} {dt : K} (hp : p.Ok)
    (h : p.setDisCNT v dt = some p') : p'.Ok := by
  obtain ⟨he, hs⟩ := hp
  cases p <;> setter_cases h <;> refine ⟨he, ?_⟩ <;>
    simp_all [Prp.Settled, Prp.erase, Prp.fresh, Dof1.fresh, Dof2.fresh, limit, LawfulZm.phase_gt, LawfulZm.phase_le]

theorem Prp.Plain.ok {p : Prp K} (h : p.Plain) : p.Ok := by
  induction h with
  | assign j j' str h =>
    unfold Joint.queryAssign at h
    split at h
    · rename_i p hp
      simp only [Joint.assign, Option.map_map, Option.map_eq_some_iff, Function.comp_apply] at h
      obtain ⟨q, hq, h⟩ := h
      obtain rfl := Option.some.inj h
      exact Prp.fresh_neutral hq
    · simp at h
  | setDis p p' v _ h ih => exact ih.setDis h
  | setVel p p' v _ h ih => exact ih.setVel h
  | setAcc p p' v _ h ih => exact ih.setAcc h
  | setTrq p p' v _ h ih => exact ih.setTrq h
  | setDisCNT p p' v dt _ h ih => exact ih.setDisCNT h
  | calcTrq p w _ ih => cases p <;> exact ⟨ih.1, ih.2⟩
  | motor p m _ ih => cases p <;> exact ⟨ih.1, ih.2⟩
  | input p v _ ih => cases p <;> exact ⟨ih.1, ih.2⟩

theorem Prp.Ok.stateOnly {p : Prp K} (h : p.Ok) : p.stateOnly = p := by
  obtain ⟨he, _⟩ := h
  cases p with
  | fixed => rfl
  | spher p => rfl
  | revol p => obtain ⟨⟩ := p; simp_all [Prp.erase, Prp.fresh, Dof1.fresh, Prp.stateOnly]
  | prism p => obtain ⟨⟩ := p; simp_all [Prp.erase, Prp.fresh, Dof1.fresh, Prp.stateOnly]
  | cylin p => obtain ⟨⟩ := p; simp_all [Prp.erase, Prp.fresh, Dof2.fresh, Prp.stateOnly]
  | hooke p => obtain ⟨⟩ := p; simp_all [Prp.erase, Prp.fresh, Dof2.fresh, Prp.stateOnly]
  | float p => obtain ⟨⟩ := p; simp_all [Prp.erase, Prp.fresh, Prp.stateOnly]
  | brfloat p => obtain ⟨⟩ := p; simp_all [Prp.erase, Prp.fresh, Prp.stateOnly]

theorem Joint.clone_eq (j cln : Joint K) (h : j.prp.Settled) :
    j.clone cln = some ⟨j.prp.stateOnly, cln.wrench⟩ := by
  obtain ⟨p, w⟩ := j
  cases p with
  | fixed => rfl
  | revol p =>
    obtain ⟨h1, h2, h3, h4⟩ := h
    simp [Joint.clone, Joint.assign, Prp.fresh, Prp.neutral, Prp.setDis, Prp.copyState, Prp.getDis, Prp.getVel,
      Prp.getAcc, Prp.getTrq, Prp.setVel, Prp.setAcc, Prp.setTrq, Prp.getMotor, Prp.withMotor, Dof1.fresh, limit,
      LawfulZm.phase_id p.dis h1 h2, Prp.stateOnly, h3, h4]
  | prism p =>
    simp [Joint.clone, Joint.assign, Prp.fresh, Prp.neutral, Prp.setDis, Prp.copyState, Prp.getDis, Prp.getVel,
      Prp.getAcc, Prp.getTrq, Prp.setVel, Prp.setAcc, Prp.setTrq, Prp.getMotor, Prp.withMotor, Dof1.fresh, limit,
      Prp.stateOnly]
  | cylin p =>
    obtain ⟨h1, h2, h3, h4⟩ := h
    simp [Joint.clone, Joint.assign, Prp.fresh, Prp.neutral, Prp.setDis, Prp.copyState, Prp.getDis, Prp.getVel,
      Prp.getAcc, Prp.getTrq, Prp.setVel, Prp.setAcc, Prp.setTrq, Prp.getMotor, Prp.withMotor, Dof2.fresh, limit,
      LawfulZm.phase_id p.dis1 h1 h2, Prp.stateOnly, h3, h4]
  | hooke p =>
    obtain ⟨h1, h2, h3, h4, h5, h6, h7, h8⟩ := h
    simp [Joint.clone, Joint.assign, Prp.fresh, Prp.neutral, Prp.setDis, Prp.copyState, Prp.getDis, Prp.getVel,
      Prp.getAcc, Prp.getTrq, Prp.setVel, Prp.setAcc, Prp.setTrq, Prp.getMotor, Prp.withMotor, Dof2.fresh, limit,
      LawfulZm.phase_id p.dis0 h1 h2, LawfulZm.phase_id p.dis1 h5 h6, Prp.stateOnly, h3, h4, h7, h8]
  | spher p =>
    simp only [Prp.Settled] at h
    simp [Joint.clone, Joint.assign, Prp.fresh, Prp.neutral, Prp.setDis, Prp.copyState, Prp.getDis, Prp.getVel,
      Prp.getAcc, Prp.getTrq, Prp.setVel, Prp.setAcc, Prp.setTrq, Prp.getMotor, Prp.withMotor, Vec3.ofBuf, Prp.stateOnly,
      Vec3.toBuf, ← h]
  | float p =>
    simp only [Prp.Settled] at h
    simp [Joint.clone, Joint.assign, Prp.fresh, Prp.neutral, Prp.setDis, Prp.copyState, Prp.getDis, Prp.getVel,
      Prp.getAcc, Prp.getTrq, Prp.setVel, Prp.setAcc, Prp.setTrq, Prp.getMotor, Vec6.ofBuf, Prp.stateOnly,
      Vec6.toBuf, Vec3.toBuf, ← h]
  | brfloat p =>
    simp only [Prp.Settled] at h
    simp [Joint.clone, Joint.assign, Prp.fresh, Prp.neutral, Prp.setDis, Prp.copyState, Prp.getDis, Prp.getVel,
      Prp.getAcc, Prp.getTrq, Prp.setVel, Prp.setAcc, Prp.setTrq, Prp.getMotor, Vec6.ofBuf, Prp.stateOnly,
      Vec6.toBuf, Vec3.toBuf, ← h]

theorem Prp.copyState_stateOnly (p : Prp K) (h : p.Settled) : p.copyState p.stateOnly = some p.stateOnly := by
  cases p with
  | fixed => rfl
  | revol p =>
    obtain ⟨h1, h2, h3, h4⟩ := h
    simp [Prp.setDis, Prp.copyState, Prp.getDis, Prp.getVel, Prp.getAcc, Prp.getTrq, Prp.setVel, Prp.setAcc,
      Prp.setTrq, Dof1.fresh, limit, LawfulZm.phase_id p.dis h1 h2, Prp.stateOnly, h3, h4]
  | prism p =>
    simp [Prp.setDis, Prp.copyState, Prp.getDis, Prp.getVel, Prp.getAcc, Prp.getTrq, Prp.setVel, Prp.setAcc,
      Prp.setTrq, Dof1.fresh, limit, Prp.stateOnly]
  | cylin p =>
    obtain ⟨h1, h2, h3, h4⟩ := h
    simp [Prp.setDis, Prp.copyState, Prp.getDis, Prp.getVel, Prp.getAcc, Prp.getTrq, Prp.setVel, Prp.setAcc,
      Prp.setTrq, Dof2.fresh, limit, LawfulZm.phase_id p.dis1 h1 h2, Prp.stateOnly, h3, h4]
  | hooke p =>
    obtain ⟨h1, h2, h3, h4, h5, h6, h7, h8⟩ := h
    simp [Prp.setDis, Prp.copyState, Prp.getDis, Prp.getVel, Prp.getAcc, Prp.getTrq, Prp.setVel, Prp.setAcc,
      Prp.setTrq, Dof2.fresh, limit, LawfulZm.phase_id p.dis0 h1 h2, LawfulZm.phase_id p.dis1 h5 h6, Prp.stateOnly,
      h3, h4, h7, h8]
  | spher p =>
    simp only [Prp.Settled] at h
    simp [Prp.setDis, Prp.copyState, Prp.getDis, Prp.getVel, Prp.getAcc, Prp.getTrq, Prp.setVel, Prp.setAcc,
      Prp.setTrq, Vec3.ofBuf, Prp.stateOnly, Vec3.toBuf, ← h]
  | float p =>
    simp only [Prp.Settled] at h
    simp [Prp.setDis, Prp.copyState, Prp.getDis, Prp.getVel, Prp.getAcc, Prp.getTrq, Prp.setVel, Prp.setAcc,
      Prp.setTrq, Vec6.ofBuf, Prp.stateOnly, Vec6.toBuf, Vec3.toBuf, ← h]
  | brfloat p =>
    simp only [Prp.Settled] at h
    simp [Prp.setDis, Prp.copyState, Prp.getDis, Prp.getVel, Prp.getAcc, Prp.getTrq, Prp.setVel, Prp.setAcc,
      Prp.setTrq, Vec6.ofBuf, Prp.stateOnly, Vec6.toBuf, Vec3.toBuf, ← h]

theorem WrenchList.foldl_push (l : WrenchList K) (a : WrenchList K) :
    l.foldl (fun l w => WrenchList.push l w) a = l.reverse ++ a := by
  induction l generalizing a with
  | nil => rfl
  | cons x l ih => simp [List.foldl_cons, ih, WrenchList.push]

/-- What `rkChainClone` makes of one link. -/
def Link.cloned (l : Link K) : Link K :=
  { l with joint := { l.joint with prp := l.joint.prp.stateOnly },
           body := { l.body with extw := l.body.extw.reverse }, abi := (Link.zeroed : Link K).abi }

theorem Link.clone_eq (l : Link K) (h : l.joint.prp.Settled) :
    ((l.clone Link.zeroed).bind fun l' => l.copyState l') = some l.cloned := by
  obtain ⟨nm, jt, ⟨⟩, off, org, adj, abi⟩ := l
  rename_i stuff
  simp only [Link.clone, Joint.clone_eq jt _ h, Option.map_some, Option.bind_some, Link.copyState,
    Prp.copyState_stateOnly jt.prp h, Option.some.injEq]
  cases stuff <;> simp [Link.cloned, Body.copyState, Body.clone, Link.zeroed, WrenchList.foldl_push]

theorem Chain.clone_eq (c : Chain K) (hn : c.link ≠ []) (h : ∀ l ∈ c.link, l.joint.prp.Settled) :
    c.clone = some { c with link := c.link.map Link.cloned } := by
  have : (c.link.mapM fun l : Link K => (l.clone Link.zeroed).bind fun l' => l.copyState l') =
      some (c.link.map Link.cloned) := by
    clear hn
    generalize c.link = ls at h ⊢
    induction ls with
    | nil => rfl
    | cons l ls ih =>
      rw [List.mapM_cons, Link.clone_eq l (h l (by simp)), ih fun l hl => h l (by simp [hl])]
      rfl
  simp only [Chain.clone, List.length_eq_zero_iff, hn, if_false, this]
  rfl

end
end Roki
