import Verif.Lemmas.MirrorABI
import Verif.Lemmas.ABIKeep
set_option autoImplicit false

/-! # Lemmas: histories of the mirror image of a robot (C140) -/

namespace Roki
set_option linter.unusedSectionVars false
open Spec LinkArray
namespace Spec.Mirror
variable {K : Type*} [Field K] [LinearOrder K] [IsStrictOrderedRing K] [Zm K]

theorem short2' {g g' : List K → Option (Prp K)} {b b' : List K} (h : b.length < 2) (h' : b'.length < 2)
    (hg : g [] = none ∧ ∀ a, g [a] = none) (hg' : g' [] = none ∧ ∀ a, g' [a] = none) : g' b' = (g b).map prp := by
  rcases UnitSys.short2 h with rfl | ⟨_, rfl⟩ <;> rcases UnitSys.short2 h' with rfl | ⟨_, rfl⟩ <;> simp only [hg, hg', Option.map_none]

theorem commutes_cnt [Fair K] (dt : K) :
    Commutes (K := K) (fun p v => (InOrder p ∧ ∀ x ∈ v, Zm.phaseNormalize x ≠ Zm.pi) ∧ p.size ≤ 2) (fun p v => p.setDisCNT v dt) := by
  intro p buf buf' hok h
  obtain ⟨⟨hio, hn⟩, hs⟩ := hok
  cases p with
  | fixed => rfl
  | revol p =>
    rcases UnitSys.take1 h with ⟨rfl, rfl⟩ | ⟨a, r, r', rfl, rfl⟩
    · rfl
    · simp only [prp, Prp.setDisCNT, neg_one_mul, Option.map_some, Fair.phase a (hn a (by simp)), limit_neg _ _ _ hio.1, Fair.sin, Fair.cos,
        Option.some.injEq, Prp.revol.injEq, Dof1.ext_iff, true_and, and_true]
      constructor <;> ring
  | prism p =>
    rcases UnitSys.take1 h with ⟨rfl, rfl⟩ | ⟨a, r, r', rfl, rfl⟩
    · rfl
    · simp only [prp, Prp.setDisCNT, one_mul, Option.map_some]
  | cylin p =>
    rcases UnitSys.take2 h with ⟨h1, h2⟩ | ⟨a, b, r, r', rfl, rfl⟩
    · exact short2' (g := fun b => (Prp.cylin p).setDisCNT b dt) (g' := fun b => (prp (Prp.cylin p)).setDisCNT b dt) h1 h2
        (by simp [Prp.setDisCNT]) (by simp [prp, Prp.setDisCNT])
    · simp only [prp, Prp.setDisCNT, one_mul, neg_one_mul, Option.map_some, Fair.phase b (hn b (by simp)), limit_neg _ _ _ hio, Fair.sin, Fair.cos,
        Option.some.injEq, Prp.cylin.injEq, Dof2.ext_iff, true_and, and_true]
      constructor <;> ring
  | hooke p =>
    rcases UnitSys.take2 h with ⟨h1, h2⟩ | ⟨a, b, r, r', rfl, rfl⟩
    · exact short2' (g := fun b => (Prp.hooke p).setDisCNT b dt) (g' := fun b => (prp (Prp.hooke p)).setDisCNT b dt) h1 h2
        (by simp [Prp.setDisCNT]) (by simp [prp, Prp.setDisCNT])
    · simp only [prp, Prp.setDisCNT, one_mul, neg_one_mul, Option.map_some, Fair.phase a (hn a (by simp)), limit_neg _ _ _ hio.1, Fair.sin, Fair.cos,
        Option.some.injEq, Prp.hooke.injEq, Dof2.ext_iff, true_and, and_true]
      constructor <;> ring
  | spher p => exact absurd hs (by simp [Prp.size])
  | float p => exact absurd hs (by simp [Prp.size])
  | brfloat p => exact absurd hs (by simp [Prp.size])

theorem type_cnt (dt : K) (p : Prp K) (buf : List K) (p' : Prp K) (h : p.setDisCNT buf dt = some p') :
    p'.typeStr = p.typeStr ∧ lims p' = lims p := by
  cases p <;> rcases buf with _ | ⟨a, _ | ⟨b, _ | ⟨c, _ | ⟨d, _ | ⟨e, _ | ⟨f, buf⟩⟩⟩⟩⟩⟩ <;>
    simp [Prp.setDisCNT, Vec3.ofBuf, Vec6.ofBuf] at h <;> subst h <;> exact ⟨rfl, rfl⟩

theorem setInput_neg (m : Motor K) (u : K) (h : ∀ a ∈ (inputLimits m).1, ∀ b ∈ (inputLimits m).2, a ≤ b) :
    (motor m).setInput (-u) = motor (m.setInput u) := by
  cases m with
  | none => rfl
  | dc p => simp only [motor, Motor.setInput, limit_neg u p.minvol p.maxvol h]
  | trq p => simp only [motor, Motor.setInput, limit_neg u p.min p.max h]

theorem setInput_prp (p : Prp K) (u : K) (h : InOrder p) : (prp p).motorSetInput (drive p u) = prp (p.motorSetInput u) := by
  cases p with
  | revol p => simp only [prp, drive, Prp.motorSetInput, setInput_neg _ _ h.2]
  | hooke p => simp only [prp, drive, Prp.motorSetInput, setInput_neg _ _ h.2]
  | _ => rfl

theorem type_input (p : Prp K) (u : K) : (p.motorSetInput u).typeStr = p.typeStr ∧ lims (p.motorSetInput u) = lims p := by
  have e : ∀ m : Motor K, inputLimits (m.setInput u) = inputLimits m := fun m => by cases m <;> rfl
  cases p with
  | revol p => exact ⟨rfl, by simp only [lims, Prp.motorSetInput, e]⟩
  | hooke p => exact ⟨rfl, by simp only [lims, Prp.motorSetInput, e]⟩
  | _ => exact ⟨rfl, rfl⟩

theorem type_driving (p : Prp K) : lims p.abiDrivingTorque = lims p := by cases p <;> rfl

theorem type_qAcc (fx : Bool) (p : Prp K) (m : Mat6 K) (b jac : Vec6 K) (ih : ℕ → ℕ → K) (acc : Vec6 K) :
    lims (p.abiQAcc fx m b jac ih acc).1 = lims p := by
  cases p <;> first | rfl | (simp only [Prp.abiQAcc]; split_ifs <;> rfl)

theorem place_forward (fx : Bool) (v : Vec6 K) (l : Link K) : place (l.abiForward fx v) = place l := by
  simp only [Link.abiForward, place, qAcc_typeStr, type_qAcc]

theorem place_step (fx wr : Bool) (l : Link K) (v : Vec6 K) : place (LTree.abiStep fx wr v l) = place l := by
  simp only [LTree.abiStep]
  split_ifs
  · exact place_forward fx v l
  · exact place_forward fx v l

theorem place_backward (fx : Bool) (l : Link K) : place (l.abiBackward fx) = place l := by
  simp only [Link.abiBackward, place, driving_typeStr, type_driving]

theorem place_subNet (l : Link K) : place l.abiSubNet = place l := by
  simp only [Link.abiSubNet]; split_ifs <;> rfl

theorem modify_place (ls : List (Link K)) (i : ℕ) {f : Link K → Link K} (hf : ∀ l, place (f l) = place l) :
    (ls.modify i f).map place = ls.map place := by
  apply List.ext_getElem?
  intro j
  simp only [List.getElem?_map, List.getElem?_modify]
  cases ls[j]? with
  | none => rfl
  | some l =>
    simp only [Option.map_some]
    split_ifs
    · exact congrArg some (hf l)
    · rfl

/-- The actions of `SameAct` do not move the links in the joint vectors. -/
theorem act_place {c0 c c' : Chain K} {a b : Act K} (h : SameAct c0 a b) (e : a.run c = some c') :
    c'.link.map place = c.link.map place := by
  cases h with
  | setDis _ _ =>
    obtain ⟨ls, e', rfl⟩ := Option.map_eq_some_iff.1 e
    exact LinkArray.setJointAll_link place (setWith_place type_dis) e'
  | setVel _ =>
    obtain ⟨ls, e', rfl⟩ := Option.map_eq_some_iff.1 e
    exact LinkArray.setJointAll_link place (setWith_place type_vel) e'
  | setRate _ _ =>
    obtain ⟨ls, e', rfl⟩ := Option.map_eq_some_iff.1 e
    rw [setJointRateAll_eq] at e'
    obtain ⟨l1, e1, e2⟩ := Option.bind_eq_some_iff.1 e'
    exact (LinkArray.setJointAll_link place (setWith_place type_acc) e2).trans
      (LinkArray.setJointAll_link place (setWith_place type_vel) e1)
  | updateFK =>
    simp only [Act.run, Chain.updateFK, Chain.updateFrame, Option.map_map, Option.map_eq_some_iff] at e
    obtain ⟨ls, e, rfl⟩ := e
    exact downAt_map place (f := fun pwf l => l.updateFrame1 pwf) (fun _ _ => rfl) _ _ _ _ _ e
  | updateVel =>
    simp only [Act.run, Chain.updateVel, Option.map_eq_some_iff] at e
    obtain ⟨ls, e, rfl⟩ := e
    exact downAt_map place (f := fun pv l => l.updateVel1 pv) (fun _ _ => rfl) _ _ _ _ _ e
  | updateID g =>
    simp only [Act.run, Chain.updateID, Chain.updateRate, Chain.updateWrench, Option.bind_eq_bind, Option.bind_eq_some_iff,
      Option.map_eq_some_iff, Option.pure_def, Option.some.injEq] at e
    obtain ⟨_, ⟨ls, e1, rfl⟩, _, ⟨ms, e2, rfl⟩, rfl⟩ := e
    exact (ZTK.updateWrenchAt_map place (fun _ _ => rfl) (fun l w => by simp only [place, (type_trq _ _).1, (type_trq _ _).2]) _ _ _ e2).trans
      (downAt_map (σ := Vec6 K × Vec6 K) place (f := fun st l => l.updateRate1 st.1 st.2) (fun st l => rate1_place st.1 st.2 l) _ _ _ _ _ e1)
  | calcMass =>
    simp only [Act.run, Option.some.injEq] at e
    rw [← e]; rfl
  | push i w =>
    simp only [Act.run] at e
    split_ifs at e
    rw [← Option.some.inj e]
    apply List.ext_getElem?
    intro j
    simp only [List.getElem?_map, List.getElem?_modify]
    cases c.link[j]? with
    | none => rfl
    | some l =>
      simp only [Option.map_some]
      split_ifs <;> rfl
  | clear =>
    simp only [Act.run, Option.some.injEq] at e
    rw [← e]
    simp only [extWrenchDestroy, List.map_map]
    rfl
  | setDisCNT dt _ _ _ =>
    obtain ⟨ls, e', rfl⟩ := Option.map_eq_some_iff.1 e
    exact LinkArray.setJointAll_link place (setWith_place (type_cnt dt)) e'
  | input u _ =>
    simp only [Act.run] at e
    split_ifs at e
    rw [← Option.some.inj e]
    exact modify_place _ _ fun l => by simp only [place, type_input]
  | alloc =>
    simp only [Act.run, Option.some.injEq] at e
    rw [← e]
    simp only [Chain.abiAlloc, List.map_map]
    rfl
  | updateABI fx wr =>
    exact (Chain.abiUpdate_keep place (fun _ => rfl) (fun _ _ => rfl) (place_backward fx) (fun _ _ => rfl) (place_step fx wr) e).1
  | load i w =>
    simp only [Act.run] at e
    split_ifs at e
    rw [← Option.some.inj e]
    exact modify_place _ _ fun l => rfl
  | unload i =>
    simp only [Act.run] at e
    split_ifs at e
    rw [← Option.some.inj e]
    exact modify_place _ _ fun l => rfl
  | addForces fx wr =>
    exact (Chain.abiUpdateAddEx_keep place (fun _ => rfl) (fun _ _ => rfl) place_subNet (fun _ => rfl) (fun _ _ => rfl) (place_step fx wr) e).1
  | save =>
    simp only [Act.run, Option.some.injEq] at e
    rw [← e]
    simp only [Chain.abiPush, List.map_map]
    rfl
  | restore =>
    simp only [Act.run, Option.some.injEq] at e
    rw [← e]
    simp only [Chain.abiPop, List.map_map]
    rfl

theorem modify_at (ls : List (Link K)) (i : ℕ) {l : Link K} (hl : ls[i]? = some l) {f f' : Link K → Link K} (hf : f' (link l) = link (f l)) :
    (ls.map link).modify i f' = (ls.modify i f).map link := by
  apply List.ext_getElem?
  intro j
  simp only [List.getElem?_modify, List.getElem?_map]
  by_cases e : i = j
  · subst e
    simp only [if_pos, hl]
    exact congrArg some hf
  · simp only [if_neg e]
    cases ls[j]? <;> rfl

theorem act [Fair K] {c : Chain K} (hio : ∀ l ∈ c.link, InOrder l.joint.prp) {a b : Act K} (h : SameAct c a b) :
    b.run (chain c) = (a.run c).map chain := by
  cases h with
  | setDis hv hn =>
    simp only [Act.run]
    rw [show (chain c).link = c.link.map link from rfl,
      setAll commutes_dis type_dis _ (fun l hl => ⟨hio l hl, fun x hx => hn x (List.mem_of_mem_drop hx)⟩) hv, Option.map_map, Option.map_map]
    rfl
  | setVel hv =>
    simp only [Act.run]
    rw [show (chain c).link = c.link.map link from rfl, setAll commutes_vel type_vel _ (fun _ _ => trivial) hv, Option.map_map, Option.map_map]
    rfl
  | @setRate v w a b hv ha =>
    simp only [Act.run]
    rw [show (chain c).link = c.link.map link from rfl, setJointRateAll_eq, setJointRateAll_eq, setAll commutes_vel type_vel _ (fun _ _ => trivial) hv]
    cases e : setJointAll Prp.setVel v c.link with
    | none => rfl
    | some ls =>
      simp only [Option.map_some, Option.bind_some]
      have hp : ({ c with link := ls } : Chain K).link.map place = c.link.map place :=
        LinkArray.setJointAll_link place (setWith_place type_vel) e
      rw [setAll commutes_acc type_acc _ (fun _ _ => trivial) (values_congr hp ha), Option.map_map, Option.map_map]
      rfl
  | updateFK =>
    simp only [Act.run, Chain.updateFK, Chain.updateFrame]
    have hd := down (ρ := frame) (f := fun pwf l => l.updateFrame1 pwf) (g := fun l => l.body.frame) frame1 (fun _ => rfl)
      c.shape none Frame.ident c.link
    rw [show frame (Frame.ident : Frame K) = Frame.ident by simp only [frame, pol, mat]; vec_ring] at hd
    rw [show (chain c).link = c.link.map link from rfl, show (chain c).shape = c.shape from rfl, Chain.updateFrameAt, hd,
      Option.map_map, Option.map_map, Option.map_map, Option.map_map]
    congr 1
    funext ls
    simp only [Function.comp, Chain.calcCOM, chain]
    rw [calcCOM]
  | updateVel =>
    simp only [Act.run, Chain.updateVel]
    have hd := down (ρ := vec6) (f := fun pv l => l.updateVel1 pv) (g := fun l => l.body.vel) vel1 (fun _ => rfl)
      c.shape none 0 c.link
    rw [show vec6 (0 : Vec6 K) = 0 by simp only [vec6, pol, axi]; vec_ring] at hd
    rw [show (chain c).link = c.link.map link from rfl, show (chain c).shape = c.shape from rfl, Chain.updateVelAt, hd,
      Option.map_map, Option.map_map]
    rfl
  | updateID g =>
    simp only [Act.run, Chain.updateID, Chain.updateRate, Chain.updateWrench]
    have hd := rateAt c.shape 0 g c.link
    simp only [show vec6 (0 : Vec6 K) = 0 by simp only [vec6, pol, axi]; vec_ring] at hd
    rw [show (chain c).link = c.link.map link from rfl, show (chain c).shape = c.shape from rfl, hd]
    cases Chain.updateRateAt none c.shape (0, g) c.link with
    | none => rfl
    | some ls =>
      simp only [Option.map_some, Option.bind_eq_bind, Option.bind_some]
      rw [wrenchAt]
      cases Chain.updateWrenchAt c.shape ls with
      | none => rfl
      | some ms =>
        simp only [Option.map_some, Option.bind_some, Option.pure_def, Option.some.injEq]
        simp only [Chain.calcCOMVel, Chain.calcCOMAcc, chain]
        rw [calcCOMVel, calcCOMAcc]
  | calcMass =>
    simp only [Act.run, Chain.calcMass, chain, Option.map_some, calcMass]
  | push i w =>
    simp only [Act.run]
    rw [show (chain c).link = c.link.map link from rfl, List.length_map]
    split_ifs
    · rw [Option.map_some, modify (f := fun l => { l with body := { l.body with extw := l.body.extw.push w } })
        (f' := fun l => { l with body := { l.body with extw := l.body.extw.push (load w) } }) c.link i (fun l => rfl)]
      rfl
    · rfl
  | clear =>
    simp only [Act.run, extWrenchDestroy, Option.map_some, chain, List.map_map]
    rfl
  | @setDisCNT v w dt hv hn hs =>
    simp only [Act.run]
    rw [show (chain c).link = c.link.map link from rfl,
      setAll (commutes_cnt dt) (type_cnt dt) _ (fun l hl => ⟨⟨hio l hl, fun x hx => hn x (List.mem_of_mem_drop hx)⟩, hs l hl⟩) hv,
      Option.map_map, Option.map_map]
    rfl
  | @input i l u hl =>
    simp only [Act.run]
    rw [show (chain c).link = c.link.map link from rfl, List.length_map]
    split_ifs
    · rw [Option.map_some, modify_at (f := fun l => { l with joint := { l.joint with prp := l.joint.prp.motorSetInput u } })
        (f' := fun m => { m with joint := { m.joint with prp := m.joint.prp.motorSetInput (drive l.joint.prp u) } }) c.link i hl ?_]
      · rfl
      · rw [← link_prp l (type_input _ _).1, ← setInput_prp _ _ (hio l (List.mem_of_getElem? hl))]
        rfl
    · rfl
  | alloc =>
    simp only [Act.run, Chain.abiAlloc, chain, Option.map_some, List.map_map, Option.some.injEq, Chain.mk.injEq, and_true, true_and]
    exact List.map_congr_left fun l _ => abiAlloc l
  | updateABI fx wr => exact updateABI fx wr c
  | load i w =>
    simp only [Act.run]
    rw [show (chain c).link = c.link.map link from rfl, List.length_map]
    split_ifs
    · rw [Option.map_some, modify (f := fun l => { l with abi := { l.abi with wlist := l.abi.wlist.push w } })
        (f' := fun l => { l with abi := { l.abi with wlist := l.abi.wlist.push (load w) } }) c.link i (fun l => rfl)]
      rfl
    · rfl
  | unload i =>
    simp only [Act.run]
    rw [show (chain c).link = c.link.map link from rfl, List.length_map]
    split_ifs
    · rw [Option.map_some, modify (f := fun l => { l with abi := { l.abi with wlist := [] } })
        (f' := fun l => { l with abi := { l.abi with wlist := [] } }) c.link i (fun l => rfl)]
      rfl
    · rfl
  | addForces fx wr => exact addForces fx wr c
  | save =>
    simp only [Act.run, Chain.abiPush, chain, Option.map_some, List.map_map]
    rfl
  | restore =>
    simp only [Act.run, Chain.abiPop, chain, Option.map_some, List.map_map]
    rfl

theorem sameAct_congr {c d : Chain K} (h : d.link.map place = c.link.map place) {a b : Act K} (ha : SameAct c a b) : SameAct d a b := by
  cases ha with
  | setDis hv hn => exact .setDis (values_congr h hv) hn
  | setVel hv => exact .setVel (values_congr h hv)
  | setRate hv hw => exact .setRate (values_congr h hv) (values_congr h hw)
  | updateFK => exact .updateFK
  | updateVel => exact .updateVel
  | updateID g => exact .updateID g
  | calcMass => exact .calcMass
  | push i w => exact .push i w
  | clear => exact .clear
  | setDisCNT dt hv hn hs =>
    refine .setDisCNT dt (values_congr h hv) hn fun l hl => ?_
    have : place l ∈ d.link.map place := List.mem_map_of_mem hl
    rw [h] at this
    obtain ⟨m, hm, e⟩ := List.mem_map.1 this
    simp only [place, Prod.mk.injEq] at e
    rw [← (signs_typeStr e.2.1).2]
    exact hs m hm
  | @input i l u hl =>
    have e : (d.link.map place)[i]? = some (place l) := by rw [h, List.getElem?_map, hl]; rfl
    rw [List.getElem?_map] at e
    obtain ⟨m, hm, e⟩ := Option.map_eq_some_iff.1 e
    simp only [place, Prod.mk.injEq] at e
    have : drive l.joint.prp u = drive m.joint.prp u := by
      have ht := e.2.1
      revert ht
      generalize l.joint.prp = p
      generalize m.joint.prp = q
      intro ht
      cases p <;> cases q <;> first | rfl | exact absurd ht (by simp [Prp.typeStr])
    rw [this]
    exact .input u hm
  | alloc => exact .alloc
  | updateABI fx wr => exact .updateABI fx wr
  | load i w => exact .load i w
  | unload i => exact .unload i
  | addForces fx wr => exact .addForces fx wr
  | save => exact .save
  | restore => exact .restore

theorem acts [Fair K] {as bs : List (Act K)} {c0 : Chain K} (hio : ∀ l ∈ c0.link, InOrder l.joint.prp) (h : List.Forall₂ (SameAct c0) as bs) :
    ∀ c : Chain K, c.link.map place = c0.link.map place →
      runActs bs (chain c) = (runActs as c).map chain ∧ ∀ c', runActs as c = some c' → c'.link.map place = c0.link.map place := by
  induction h with
  | nil => intro c hc; exact ⟨rfl, fun c' e => by cases e; exact hc⟩
  | @cons a b as bs h1 _ ih =>
    intro c hc
    have h1' := sameAct_congr hc h1
    simp only [runActs, act (inOrder_congr hc hio) h1']
    cases e : a.run c with
    | none => exact ⟨rfl, fun c' e => by cases e⟩
    | some c1 =>
      simp only [Option.map_some, Option.bind_some]
      exact ih c1 ((act_place h1' e).trans hc)

end Spec.Mirror
end Roki
