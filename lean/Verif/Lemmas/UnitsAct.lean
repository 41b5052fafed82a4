import Verif.Lemmas.UnitsABI
set_option autoImplicit false

/-! # Lemmas: histories in other units (C139) -/

namespace Roki
set_option linter.unusedSectionVars false
open Spec LinkArray
namespace Spec.UnitSys
variable {K : Type*} [Field K] [LinearOrder K] [IsStrictOrderedRing K] [Zm K] {u : UnitSys K}

theorem limit_mul {k : K} (h : 0 < k) (v : K) (lo hi : Option K) :
    limit (k * v) (lo.map (k * ·)) (hi.map (k * ·)) = k * limit v lo hi := limit_len (u := ⟨k, 1, 1⟩) h v lo hi

theorem setInput_mul {f : K} (hf : 0 < f) (v m : K) (p : Motor K) (x : K) : (motor f v m p).setInput (f * x) = motor f v m (p.setInput x) := by
  cases p <;> simp only [motor, Motor.setInput, limit_mul hf]

theorem setInput_prp (hu : u.Proper) (p : Prp K) (x : K) : (u.prp p).motorSetInput (u.drive p x) = u.prp (p.motorSetInput x) := by
  cases p <;> simp only [prp, drive, Prp.motorSetInput, turn, slide, setInput_mul (force_pos hu), setInput_mul (moment_pos hu)]

theorem type_input (p : Prp K) (x : K) : (p.motorSetInput x).typeStr = p.typeStr := by cases p <;> rfl

theorem modify_place (ls : List (Link K)) (i : ℕ) {f : Link K → Link K} (hf : ∀ l, place (f l) = place l) :
    (ls.modify i f).map place = ls.map place := by
  apply List.ext_getElem?
  intro j
  simp only [List.getElem?_map, List.getElem?_modify]
  cases ls[j]? with
  | none => rfl
  | some l =>
    simp only [Option.map_some]
    split_ifs
    · exact congrArg some (hf l)
    · rfl

/-- The actions of `SameAct` do not move the links in the joint vectors. -/
theorem act_place {c0 c c' : Chain K} {a b : Act K} (h : u.SameAct c0 a b) (e : a.run c = some c') :
    c'.link.map place = c.link.map place := by
  cases h with
  | setDis _ =>
    obtain ⟨ls, e', rfl⟩ := Option.map_eq_some_iff.1 e
    exact LinkArray.setJointAll_link place (setWith_place type_dis) e'
  | setVel _ =>
    obtain ⟨ls, e', rfl⟩ := Option.map_eq_some_iff.1 e
    exact LinkArray.setJointAll_link place (setWith_place type_vel) e'
  | setDisCNT dt _ =>
    obtain ⟨ls, e', rfl⟩ := Option.map_eq_some_iff.1 e
    exact LinkArray.setJointAll_link place (setWith_place (type_cnt dt)) e'
  | setRate _ _ =>
    obtain ⟨ls, e', rfl⟩ := Option.map_eq_some_iff.1 e
    rw [setJointRateAll_eq] at e'
    obtain ⟨l1, e1, e2⟩ := Option.bind_eq_some_iff.1 e'
    exact (LinkArray.setJointAll_link place (setWith_place type_acc) e2).trans
      (LinkArray.setJointAll_link place (setWith_place type_vel) e1)
  | updateFK =>
    simp only [Act.run, Chain.updateFK, Chain.updateFrame, Option.map_map, Option.map_eq_some_iff] at e
    obtain ⟨ls, e, rfl⟩ := e
    exact downAt_map place (f := fun pwf l => l.updateFrame1 pwf) (fun _ _ => rfl) _ _ _ _ _ e
  | updateVel =>
    simp only [Act.run, Chain.updateVel, Option.map_eq_some_iff] at e
    obtain ⟨ls, e, rfl⟩ := e
    exact downAt_map place (f := fun pv l => l.updateVel1 pv) (fun _ _ => rfl) _ _ _ _ _ e
  | updateID g =>
    simp only [Act.run, Chain.updateID, Chain.updateRate, Chain.updateWrench, Option.bind_eq_bind, Option.bind_eq_some_iff,
      Option.map_eq_some_iff, Option.pure_def, Option.some.injEq] at e
    obtain ⟨_, ⟨ls, e1, rfl⟩, _, ⟨ms, e2, rfl⟩, rfl⟩ := e
    exact (ZTK.updateWrenchAt_map place (fun _ _ => rfl) (fun l w => by simp only [place, type_trq]) _ _ _ e2).trans
      (downAt_map (σ := Vec6 K × Vec6 K) place (f := fun st l => l.updateRate1 st.1 st.2) (fun st l => rate1_place st.1 st.2 l) _ _ _ _ _ e1)
  | calcMass =>
    simp only [Act.run, Option.some.injEq] at e
    rw [← e]; rfl
  | push i w =>
    simp only [Act.run] at e
    split_ifs at e
    rw [← Option.some.inj e]
    apply List.ext_getElem?
    intro j
    simp only [List.getElem?_map, List.getElem?_modify]
    cases c.link[j]? with
    | none => rfl
    | some l =>
      simp only [Option.map_some]
      split_ifs <;> rfl
  | clear =>
    simp only [Act.run, Option.some.injEq] at e
    rw [← e]
    simp only [extWrenchDestroy, List.map_map]
    rfl
  | input x _ =>
    simp only [Act.run] at e
    split_ifs at e
    rw [← Option.some.inj e]
    exact modify_place _ _ fun l => by simp only [place, type_input]
  | alloc =>
    simp only [Act.run, Option.some.injEq] at e
    rw [← e]
    simp only [Chain.abiAlloc, List.map_map]
    rfl
  | updateABI fx wr _ _ _ =>
    exact (Chain.abiUpdate_keep place (fun _ => rfl) (fun _ _ => rfl) (place_backward fx) (fun _ _ => rfl) (place_step fx wr) e).1
  | load i w =>
    simp only [Act.run] at e
    split_ifs at e
    rw [← Option.some.inj e]
    exact modify_place _ _ fun l => rfl
  | unload i =>
    simp only [Act.run] at e
    split_ifs at e
    rw [← Option.some.inj e]
    exact modify_place _ _ fun l => rfl
  | addForces fx wr _ =>
    exact (Chain.abiUpdateAddEx_keep place (fun _ => rfl) (fun _ _ => rfl) place_subNet (fun _ => rfl) (fun _ _ => rfl) (place_step fx wr) e).1
  | save =>
    simp only [Act.run, Option.some.injEq] at e
    rw [← e]
    simp only [Chain.abiPush, List.map_map]
    rfl
  | restore =>
    simp only [Act.run, Option.some.injEq] at e
    rw [← e]
    simp only [Chain.abiPop, List.map_map]
    rfl

theorem modify_at (ls : List (Link K)) (i : ℕ) {l : Link K} (hl : ls[i]? = some l) {f f' : Link K → Link K} (hf : f' (u.link l) = u.link (f l)) :
    (ls.map u.link).modify i f' = (ls.modify i f).map u.link := by
  apply List.ext_getElem?
  intro j
  simp only [List.getElem?_modify, List.getElem?_map]
  by_cases e : i = j
  · subst e
    simp only [if_pos, hl]
    exact congrArg some hf
  · simp only [if_neg e]
    cases ls[j]? <;> rfl

theorem act (hu : u.Proper) {c : Chain K} {a b : Act K} (h : u.SameAct c a b) : b.run (u.chain c) = (a.run c).map u.chain := by
  have hm := hu.mass.ne'
  cases h with
  | setDis hv =>
    simp only [Act.run]
    rw [show (u.chain c).link = c.link.map u.link from rfl, setAll (commutes_dis hu.len) type_dis _ hv, Option.map_map, Option.map_map]
    rfl
  | setVel hv =>
    simp only [Act.run]
    rw [show (u.chain c).link = c.link.map u.link from rfl, setAll commutes_vel type_vel _ hv, Option.map_map, Option.map_map]
    rfl
  | setDisCNT dt hv =>
    simp only [Act.run]
    rw [show (u.chain c).link = c.link.map u.link from rfl, setAll (commutes_cnt hu.len dt) (type_cnt dt) _ hv, Option.map_map, Option.map_map]
    rfl
  | @setRate v w a b hv ha =>
    simp only [Act.run]
    rw [show (u.chain c).link = c.link.map u.link from rfl, setJointRateAll_eq, setJointRateAll_eq, setAll commutes_vel type_vel _ hv]
    cases e : setJointAll Prp.setVel v c.link with
    | none => rfl
    | some ls =>
      simp only [Option.map_some, Option.bind_some]
      have hp : ({ c with link := ls } : Chain K).link.map place = c.link.map place :=
        LinkArray.setJointAll_link place (setWith_place type_vel) e
      rw [setAll commutes_acc type_acc _ (values_congr hp ha), Option.map_map, Option.map_map]
      rfl
  | updateFK =>
    simp only [Act.run, Chain.updateFK, Chain.updateFrame]
    have hd := down (u := u) (ρ := u.frame) (f := fun pwf l => l.updateFrame1 pwf) (g := fun l => l.body.frame) frame1 (fun _ => rfl)
      c.shape none Frame.ident c.link
    rw [show u.frame Frame.ident = Frame.ident by simp only [frame]; vec_ring] at hd
    rw [show (u.chain c).link = c.link.map u.link from rfl, show (u.chain c).shape = c.shape from rfl, Chain.updateFrameAt, hd,
      Option.map_map, Option.map_map, Option.map_map, Option.map_map]
    congr 1
    funext ls
    simp only [Function.comp, Chain.calcCOM, chain]
    rw [calcCOM hm]
  | updateVel =>
    simp only [Act.run, Chain.updateVel]
    have hd := down (u := u) (ρ := u.vel) (f := fun pv l => l.updateVel1 pv) (g := fun l => l.body.vel) vel1 (fun _ => rfl)
      c.shape none 0 c.link
    rw [show u.vel 0 = 0 by simp only [vel]; vec_ring] at hd
    rw [show (u.chain c).link = c.link.map u.link from rfl, show (u.chain c).shape = c.shape from rfl, Chain.updateVelAt, hd,
      Option.map_map, Option.map_map]
    rfl
  | updateID g =>
    simp only [Act.run, Chain.updateID, Chain.updateRate, Chain.updateWrench]
    have hd := rateAt (u := u) c.shape 0 g c.link
    simp only [show u.vel 0 = 0 by simp only [vel]; vec_ring] at hd
    rw [show (u.chain c).link = c.link.map u.link from rfl, show (u.chain c).shape = c.shape from rfl, hd]
    cases Chain.updateRateAt none c.shape (0, g) c.link with
    | none => rfl
    | some ls =>
      simp only [Option.map_some, Option.bind_eq_bind, Option.bind_some]
      rw [wrenchAt]
      cases Chain.updateWrenchAt c.shape ls with
      | none => rfl
      | some ms =>
        simp only [Option.map_some, Option.bind_some, Option.pure_def, Option.some.injEq]
        simp only [Chain.calcCOMVel, Chain.calcCOMAcc, chain]
        rw [calcCOMVel hm, calcCOMAcc hm]
  | calcMass =>
    simp only [Act.run, Chain.calcMass, chain, Option.map_some, calcMass]
  | push i w =>
    simp only [Act.run]
    rw [show (u.chain c).link = c.link.map u.link from rfl, List.length_map]
    split_ifs
    · rw [Option.map_some, modify (u := u) (f := fun l => { l with body := { l.body with extw := l.body.extw.push w } })
        (f' := fun l => { l with body := { l.body with extw := l.body.extw.push (u.load w) } }) c.link i (fun l => rfl)]
      rfl
    · rfl
  | clear =>
    simp only [Act.run, extWrenchDestroy, Option.map_some, chain, List.map_map]
    rfl
  | @input i l x hl =>
    simp only [Act.run]
    rw [show (u.chain c).link = c.link.map u.link from rfl, List.length_map]
    split_ifs
    · rw [Option.map_some, modify_at (u := u) (f := fun l => { l with joint := { l.joint with prp := l.joint.prp.motorSetInput x } })
        (f' := fun m => { m with joint := { m.joint with prp := m.joint.prp.motorSetInput (u.drive l.joint.prp x) } }) c.link i hl ?_]
      · rfl
      · rw [← link_prp l (type_input _ _), ← setInput_prp hu]
        rfl
    · rfl
  | alloc =>
    simp only [Act.run, Chain.abiAlloc, chain, Option.map_some, List.map_map, Option.some.injEq, Chain.mk.injEq, and_true, true_and]
    exact List.map_congr_left fun l _ => abiAlloc l
  | updateABI fx wr hg hz hs => exact updateABI hu hz hg fx wr c hs
  | load i w =>
    simp only [Act.run]
    rw [show (u.chain c).link = c.link.map u.link from rfl, List.length_map]
    split_ifs
    · rw [Option.map_some, modify (u := u) (f := fun l => { l with abi := { l.abi with wlist := l.abi.wlist.push w } })
        (f' := fun l => { l with abi := { l.abi with wlist := l.abi.wlist.push (u.load w) } }) c.link i (fun l => rfl)]
      rfl
    · rfl
  | unload i =>
    simp only [Act.run]
    rw [show (u.chain c).link = c.link.map u.link from rfl, List.length_map]
    split_ifs
    · rw [Option.map_some, modify (u := u) (f := fun l => { l with abi := { l.abi with wlist := [] } })
        (f' := fun l => { l with abi := { l.abi with wlist := [] } }) c.link i (fun l => rfl)]
      rfl
    · rfl
  | addForces fx wr hs => exact addForces hu fx wr c hs
  | save =>
    simp only [Act.run, Chain.abiPush, chain, Option.map_some, List.map_map]
    rfl
  | restore =>
    simp only [Act.run, Chain.abiPop, chain, Option.map_some, List.map_map]
    rfl

theorem sameAct_congr {c d : Chain K} (h : d.link.map place = c.link.map place) {a b : Act K} (ha : u.SameAct c a b) : u.SameAct d a b := by
  cases ha with
  | setDis hv => exact .setDis (values_congr h hv)
  | setVel hv => exact .setVel (values_congr h hv)
  | setDisCNT dt hv => exact .setDisCNT dt (values_congr h hv)
  | setRate hv hw => exact .setRate (values_congr h hv) (values_congr h hw)
  | updateFK => exact .updateFK
  | updateVel => exact .updateVel
  | updateID g => exact .updateID g
  | calcMass => exact .calcMass
  | push i w => exact .push i w
  | clear => exact .clear
  | @input i l x hl =>
    have e : (d.link.map place)[i]? = some (place l) := by rw [h, List.getElem?_map, hl]; rfl
    rw [List.getElem?_map] at e
    obtain ⟨m, hm, e⟩ := Option.map_eq_some_iff.1 e
    simp only [place, Prod.mk.injEq] at e
    have : u.drive l.joint.prp x = u.drive m.joint.prp x := by
      have ht := e.2
      revert ht
      generalize l.joint.prp = p
      generalize m.joint.prp = q
      intro ht
      cases p <;> cases q <;> first | rfl | exact absurd ht (by simp [Prp.typeStr])
    rw [this]
    exact .input x hm
  | alloc => exact .alloc
  | updateABI fx wr hg hz hs => exact .updateABI fx wr hg hz (fits_congr h hs)
  | load i w => exact .load i w
  | unload i => exact .unload i
  | addForces fx wr hs => exact .addForces fx wr (fits_congr h hs)
  | save => exact .save
  | restore => exact .restore

theorem acts (hu : u.Proper) {as bs : List (Act K)} {c0 : Chain K} (h : List.Forall₂ (u.SameAct c0) as bs) :
    ∀ c : Chain K, c.link.map place = c0.link.map place →
      runActs bs (u.chain c) = (runActs as c).map u.chain ∧ ∀ c', runActs as c = some c' → c'.link.map place = c0.link.map place := by
  induction h with
  | nil => intro c hc; exact ⟨rfl, fun c' e => by cases e; exact hc⟩
  | @cons a b as bs h1 _ ih =>
    intro c hc
    have h1' := sameAct_congr hc h1
    simp only [runActs, act hu h1']
    cases e : a.run c with
    | none => exact ⟨rfl, fun c' e => by cases e⟩
    | some c1 => exact ih c1 ((act_place h1' e).trans hc)

end Spec.UnitSys
end Roki
