import Verif.Spec.Carried
import Verif.Lemmas.ABITree
import Verif.Lemmas.ABIHist
import Verif.Props.History
set_option autoImplicit false

/-! # Lemmas: a robot carried elsewhere (C114) -/

namespace Roki
set_option linter.unusedSectionVars false
open Spec LinkArray
variable {K : Type*} [Field K]

/-- The carried link array. -/
def carryAll (X : Frame K) (ls : List (Link K)) : List (Link K) := ls.mapIdx fun i l => carryLink X (i == 0) l

variable {X : Frame K}

theorem carryAll_get (ls : List (Link K)) (i : ℕ) : (carryAll X ls)[i]? = ls[i]?.map (carryLink X (i == 0)) := by
  simp [carryAll]

theorem carryAll_len (ls : List (Link K)) : (carryAll X ls).length = ls.length := by simp [carryAll]

theorem carryAll_set (ls : List (Link K)) (i : ℕ) (l : Link K) :
    (carryAll X ls).set i (carryLink X (i == 0) l) = carryAll X (ls.set i l) := by
  apply List.ext_getElem?
  intro j
  rw [carryAll_get, List.getElem?_set, List.getElem?_set, carryAll_len, carryAll_get]
  by_cases e : i = j
  · subst e
    simp only [if_true]
    split_ifs <;> rfl
  · simp only [if_neg e]

theorem carryAll_map {f : Link K → Link K} (hf : ∀ r l, f (carryLink X r l) = carryLink X r (f l)) (ls : List (Link K)) :
    (carryAll X ls).map f = carryAll X (ls.map f) := by
  apply List.ext_getElem?
  intro j
  rw [carryAll_get, List.getElem?_map, List.getElem?_map, carryAll_get, Option.map_map, Option.map_map]
  congr 1
  funext l
  exact hf _ _

theorem carryAll_modify {f : Link K → Link K} (hf : ∀ r l, f (carryLink X r l) = carryLink X r (f l)) (ls : List (Link K)) (i : ℕ) :
    (carryAll X ls).modify i f = carryAll X (ls.modify i f) := by
  apply List.ext_getElem?
  intro j
  rw [carryAll_get, List.getElem?_modify, List.getElem?_modify, carryAll_get]
  by_cases e : i = j
  · simp only [if_pos e]
    cases ls[j]? with
    | none => rfl
    | some l => exact congrArg some (hf _ _)
  · simp only [if_neg e]
    cases ls[j]? <;> rfl

/-- A pass from the root to the leaves, below the root. -/
theorem carry_down {St : Type*} {f : St → Link K → Link K} {g : Link K → St} {ρ : St → St}
    (hf : ∀ v l, f (ρ v) (carryLink X false l) = carryLink X false (f v l)) (hg : ∀ r l, g (carryLink X r l) = ρ (g l))
    (t : LTree ℕ) : ∀ (par : Option ℕ) (v : St) (ls : List (Link K)), 0 ∉ t.toList →
      Chain.downAt f g par t (ρ v) (carryAll X ls) = (Chain.downAt f g par t v ls).map (carryAll X) := by
  induction t with
  | nil => intro par v ls _; rfl
  | node i c s ihc ihs =>
    intro par v ls h0
    simp only [LTree.toList, List.mem_cons, List.mem_append, not_or] at h0
    obtain ⟨hi, hc, hs⟩ := h0
    have hb : (i == 0) = false := by simpa using Ne.symm hi
    simp only [Chain.downAt, carryAll_get, hb]
    cases ls[i]? with
    | none => rfl
    | some l =>
      simp only [Option.map_some, Option.bind_eq_bind, Option.bind_some]
      rw [hf, hg, ← hb, carryAll_set, ihc _ _ _ hc]
      cases Chain.downAt f g (some i) c (g (f v l)) (ls.set i (f v l)) with
      | none => rfl
      | some ls1 =>
        simp only [Option.map_some, Option.bind_some]
        split
        · rfl
        · cases par with
          | none => rfl
          | some p =>
            simp only [carryAll_get]
            cases ls1[p]? with
            | none => rfl
            | some pl =>
              simp only [Option.map_some]
              rw [hg, ihs _ _ _ hs]

/-- A pass from the root to the leaves. -/
theorem carry_downAt {St : Type*} {f : St → Link K → Link K} {g : Link K → St} {ρ : St → St}
    (hf : ∀ v l, f (ρ v) (carryLink X false l) = carryLink X false (f v l)) (hg : ∀ r l, g (carryLink X r l) = ρ (g l))
    {v v' : St} (h0 : ∀ l, f v' (carryLink X true l) = carryLink X true (f v l)) {k : LTree ℕ} (hk : 0 ∉ k.toList) (ls : List (Link K)) :
    Chain.downAt f g none (.node 0 k .nil) v' (carryAll X ls) = (Chain.downAt f g none (.node 0 k .nil) v ls).map (carryAll X) := by
  have hb : ((0 : ℕ) == 0) = true := rfl
  simp only [Chain.downAt, carryAll_get, hb]
  cases ls[0]? with
  | none => rfl
  | some l =>
    simp only [Option.map_some, Option.bind_eq_bind, Option.bind_some]
    rw [h0, hg, ← hb, carryAll_set, carry_down hf hg _ _ _ _ hk]
    cases Chain.downAt f g (some 0) k (g (f v l)) (ls.set 0 (f v l)) with
    | none => rfl
    | some ls1 => rfl

/-! ## Wrenches -/

theorem carry_child (t : LTree ℕ) : ∀ (w : Vec6 K) (ls : List (Link K)), 0 ∉ t.toList →
    Chain.addChildWrenchAt w (carryAll X ls) t = Chain.addChildWrenchAt w ls t := by
  induction t with
  | nil => intro w ls _; rfl
  | node i c s _ ihs =>
    intro w ls h0
    simp only [LTree.toList, List.mem_cons, List.mem_append, not_or] at h0
    obtain ⟨hi, hc, hs⟩ := h0
    have hb : (i == 0) = false := by simpa using Ne.symm hi
    simp only [Chain.addChildWrenchAt, carryAll_get, hb]
    cases ls[i]? with
    | none => rfl
    | some l =>
      simp only [Option.map_some]
      exact ihs _ _ hs

theorem carry_wrench (t : LTree ℕ) : ∀ (ls : List (Link K)), (∀ i c s, t = .node i c s → 0 ∉ c.toList ∧ 0 ∉ s.toList) →
    Chain.updateWrenchAt t (carryAll X ls) = (Chain.updateWrenchAt t ls).map (carryAll X) := by
  induction t with
  | nil => intro ls _; rfl
  | node i c s ihc ihs =>
    intro ls h0
    obtain ⟨hc, hs⟩ := h0 i c s rfl
    have sub : ∀ {t : LTree ℕ}, 0 ∉ t.toList → ∀ i c s, t = .node i c s → 0 ∉ c.toList ∧ 0 ∉ s.toList := by
      rintro t h i c s rfl
      simp only [LTree.toList, List.mem_cons, List.mem_append, not_or] at h
      exact h.2
    simp only [Chain.updateWrenchAt, carryAll_get]
    cases ls[i]? with
    | none => rfl
    | some l =>
      simp only [Option.map_some, Option.bind_eq_bind, Option.bind_some]
      rw [show ({ carryLink X (i == 0) l with joint := { (carryLink X (i == 0) l).joint with
        wrench := (carryLink X (i == 0) l).body.netWrench.angShift (carryLink X (i == 0) l).body.mp.com } } : Link K) =
        carryLink X (i == 0) { l with joint := { l.joint with wrench := l.body.netWrench.angShift l.body.mp.com } } from rfl,
        carryAll_set, ihc _ (sub hc)]
      cases Chain.updateWrenchAt c (ls.set i { l with joint := { l.joint with wrench := l.body.netWrench.angShift l.body.mp.com } }) with
      | none => rfl
      | some ls1 =>
        simp only [Option.map_some, Option.bind_some, carryAll_get]
        cases ls1[i]? with
        | none => rfl
        | some l1 =>
          simp only [Option.map_some, Option.bind_some]
          rw [carry_child _ _ _ hc, show (carryLink X (i == 0) l1).joint = l1.joint from rfl]
          cases Chain.addChildWrenchAt l1.joint.wrench ls1 c with
          | none => rfl
          | some w =>
            simp only [Option.bind_some]
            rw [← ihs _ (sub hs), ← carryAll_set]
            rfl

/-! ## Forward dynamics -/

theorem carry_parent {f : Link K → Link K} (hf : ∀ r l, f (carryLink X r l) = carryLink X r (f l)) (par : Option ℕ) (ls : List (Link K)) :
    Chain.modifyParent f par (carryAll X ls) = (Chain.modifyParent f par ls).map (carryAll X) := by
  cases par with
  | none => rfl
  | some p =>
    simp only [Chain.modifyParent, carryAll_get]
    cases ls[p]? with
    | none => rfl
    | some l =>
      simp only [Option.map_some]
      rw [hf, carryAll_set]

theorem carry_back [Zm K] (fx : Bool) (t : LTree ℕ) : ∀ (par : Option ℕ) (ls : List (Link K)),
    (∀ i c s, t = .node i c s → i = 0 → par = none) → 0 ∉ t.toList.tail →
    Chain.abiBackwardAt fx par t (carryAll X ls) = (Chain.abiBackwardAt fx par t ls).map (carryAll X) := by
  induction t with
  | nil => intro par ls _ _; rfl
  | node i c s ihc ihs =>
    intro par ls hp h0
    simp only [LTree.toList, List.tail_cons, List.mem_append, not_or] at h0
    have sub : ∀ {t : LTree ℕ} (par : Option ℕ), 0 ∉ t.toList → (∀ i c s, t = .node i c s → i = 0 → par = none) ∧ 0 ∉ t.toList.tail := by
      intro t par h
      refine ⟨?_, fun q => h (List.mem_of_mem_tail q)⟩
      rintro i c s rfl rfl
      exact absurd (by simp [LTree.toList]) h
    simp only [Chain.abiBackwardAt, Option.bind_eq_bind]
    rw [ihs _ _ (sub _ h0.2).1 (sub par h0.2).2]
    cases Chain.abiBackwardAt fx par s ls with
    | none => rfl
    | some ls1 =>
      simp only [Option.map_some, Option.bind_some]
      rw [ihc _ _ (sub _ h0.1).1 (sub par h0.1).2]
      cases Chain.abiBackwardAt fx (some i) c ls1 with
      | none => rfl
      | some ls2 =>
        simp only [Option.map_some, Option.bind_some, carryAll_get]
        cases ls2[i]? with
        | none => rfl
        | some l =>
          simp only [Option.map_some, Option.bind_some]
          rw [show (carryLink X (i == 0) l).abiBackward fx = carryLink X (i == 0) (l.abiBackward fx) from rfl, carryAll_set]
          by_cases hi : i = 0
          · rw [hp i c s rfl hi]; rfl
          · have hb : (i == 0) = false := by simpa using hi
            rw [hb, ← carry_parent (fun _ _ => rfl)]
            rfl

theorem carry_forw (fx wr : Bool) (t : LTree ℕ) : ∀ (pa : Vec6 K) (ls : List (Link K)), (∀ i c s, t = .node i c s → i = 0 → pa = 0) →
    0 ∉ t.toList.tail → Chain.abiForwardAt fx wr t pa (carryAll X ls) = (Chain.abiForwardAt fx wr t pa ls).map (carryAll X) := by
  induction t with
  | nil => intro pa ls _ _; rfl
  | node i c s ihc ihs =>
    intro pa ls hp h0
    simp only [LTree.toList, List.tail_cons, List.mem_append, not_or] at h0
    have sub : ∀ {t : LTree ℕ} (pa : Vec6 K), 0 ∉ t.toList → (∀ i c s, t = .node i c s → i = 0 → pa = 0) ∧ 0 ∉ t.toList.tail := by
      intro t par h
      refine ⟨?_, fun q => h (List.mem_of_mem_tail q)⟩
      rintro i c s rfl rfl
      exact absurd (by simp [LTree.toList]) h
    simp only [Chain.abiForwardAt, carryAll_get, Option.bind_eq_bind]
    cases ls[i]? with
    | none => rfl
    | some l =>
      simp only [Option.map_some, Option.bind_some]
      have e : (carryLink X (i == 0) l).abiForward fx pa = carryLink X (i == 0) (l.abiForward fx pa) := by
        by_cases hi : i = 0
        · rw [hp i c s rfl hi]
          have z : ∀ a : Frame K, a.att.mulVecT6 ((0 : Vec6 K).linShift a.pos) = 0 := by
            intro a; vec_ring
          simp only [Link.abiForward, z]
          rfl
        · have hb : (i == 0) = false := by simpa using hi
          rw [hb]; rfl
      have e2 : (if wr = true then ((carryLink X (i == 0) l).abiForward fx pa).abiWrench else (carryLink X (i == 0) l).abiForward fx pa) =
          carryLink X (i == 0) (if wr = true then (l.abiForward fx pa).abiWrench else l.abiForward fx pa) := by
        rw [e]; split <;> rfl
      rw [e2, carryAll_set, ihs _ _ (sub _ h0.2).1 (sub pa h0.2).2]
      cases Chain.abiForwardAt fx wr s pa (ls.set i (if wr = true then (l.abiForward fx pa).abiWrench else l.abiForward fx pa)) with
      | none => rfl
      | some ls1 =>
        simp only [Option.map_some, Option.bind_some, carryAll_get]
        cases ls1[i]? with
        | none => rfl
        | some l1 =>
          simp only [Option.map_some, Option.bind_some]
          exact ihc _ _ (sub _ h0.1).1 (sub pa h0.1).2

theorem carry_find (t : LTree ℕ) : ∀ (par : Option ℕ) (ls : List (Link K)),
    Chain.abiFindPathAt par t (carryAll X ls) = (Chain.abiFindPathAt par t ls).map (carryAll X) := by
  induction t with
  | nil => intro par ls; rfl
  | node i c s ihc ihs =>
    intro par ls
    simp only [Chain.abiFindPathAt, Option.bind_eq_bind]
    rw [ihc]
    cases Chain.abiFindPathAt (some i) c ls with
    | none => rfl
    | some ls1 =>
      simp only [Option.map_some, Option.bind_some]
      rw [ihs]
      cases Chain.abiFindPathAt par s ls1 with
      | none => rfl
      | some ls2 =>
        simp only [Option.map_some, Option.bind_some, carryAll_get]
        cases ls2[i]? with
        | none => rfl
        | some l =>
          simp only [Option.map_some, Option.bind_some]
          rw [show (carryLink X (i == 0) l).abi = l.abi from rfl]
          split_ifs
          · exact carry_parent (fun _ _ => rfl) _ _
          · rfl

theorem carry_sub (r : Bool) (l : Link K) : (carryLink X r l).abiSubNet = carryLink X r l.abiSubNet := by
  simp only [Link.abiSubNet, show (carryLink X r l).abi = l.abi from rfl]
  split_ifs <;> rfl

theorem carry_addEx (fx : Bool) (t : LTree ℕ) : ∀ (par : Option ℕ) (ls : List (Link K)),
    (∀ i c s, t = .node i c s → i = 0 → par = none) → 0 ∉ t.toList.tail →
    Chain.abiAddExAt fx par t (carryAll X ls) = (Chain.abiAddExAt fx par t ls).map (carryAll X) := by
  induction t with
  | nil => intro par ls _ _; rfl
  | node i c s ihc ihs =>
    intro par ls hp h0
    simp only [LTree.toList, List.tail_cons, List.mem_append, not_or] at h0
    have sub : ∀ {t : LTree ℕ} (par : Option ℕ), 0 ∉ t.toList → (∀ i c s, t = .node i c s → i = 0 → par = none) ∧ 0 ∉ t.toList.tail := by
      intro t par h
      refine ⟨?_, fun q => h (List.mem_of_mem_tail q)⟩
      rintro i c s rfl rfl
      exact absurd (by simp [LTree.toList]) h
    simp only [Chain.abiAddExAt, carryAll_get, Option.bind_eq_bind]
    cases ls[i]? with
    | none => rfl
    | some l =>
      simp only [Option.map_some, Option.bind_some]
      have rest : ∀ ls1 : List (Link K), (((carryAll X ls1)[i]?).bind fun l1 =>
            (Chain.modifyParent (fun pl => pl.abiAdd (0, Link.abiToParentB fx l1)) par (carryAll X ls1)).bind fun ls2 =>
              Chain.abiAddExAt fx par s ls2) =
          (ls1[i]?.bind fun l1 => (Chain.modifyParent (fun pl => pl.abiAdd (0, Link.abiToParentB fx l1)) par ls1).bind fun ls2 =>
              Chain.abiAddExAt fx par s ls2).map (carryAll X) := by
        intro ls1
        rw [carryAll_get]
        cases ls1[i]? with
        | none => rfl
        | some l1 =>
          simp only [Option.map_some, Option.bind_some]
          have e : Chain.modifyParent (fun pl => pl.abiAdd (0, (carryLink X (i == 0) l1).abiToParentB fx)) par (carryAll X ls1) =
              (Chain.modifyParent (fun pl => pl.abiAdd (0, l1.abiToParentB fx)) par ls1).map (carryAll X) := by
            by_cases hi : i = 0
            · rw [hp i c s rfl hi]; rfl
            · have hb : (i == 0) = false := by simpa using hi
              rw [hb, ← carry_parent (fun _ _ => rfl)]
              rfl
          rw [e]
          cases Chain.modifyParent (fun pl => pl.abiAdd (0, l1.abiToParentB fx)) par ls1 with
          | none => rfl
          | some ls2 =>
            simp only [Option.map_some, Option.bind_some]
            exact ihs _ _ (sub _ h0.2).1 (sub par h0.2).2
      rw [show (carryLink X (i == 0) l).abi = l.abi from rfl,
        show (carryLink X (i == 0) l).abiResetB = carryLink X (i == 0) l.abiResetB from rfl, carry_sub, carry_sub, carryAll_set, carryAll_set]
      split_ifs
      · rw [ihc _ _ (sub _ h0.1).1 (sub par h0.1).2]
        cases Chain.abiAddExAt fx (some i) c (ls.set i l.abiResetB.abiSubNet) with
        | none => rfl
        | some ls1 => exact rest ls1
      · exact rest _

theorem carry_setAll (set : Prp K → List K → Option (Prp K)) (v : List K) (ls : List (Link K)) :
    setJointAll set v (carryAll X ls) = (setJointAll set v ls).map (carryAll X) := by
  have key : ∀ (b : ℕ → Bool) (ls : List (Link K)), setJointAll set v (ls.mapIdx fun i l => carryLink X (b i) l) =
      (setJointAll set v ls).map fun ls => ls.mapIdx fun i l => carryLink X (b i) l := by
    intro b ls
    induction ls generalizing b with
    | nil => rfl
    | cons l ls ih =>
      have ih' := ih fun i => b (i + 1)
      rw [List.mapIdx_cons]
      simp only [setJointAll]
      rw [show (ls.mapIdx fun i l => carryLink X (b (i + 1)) l) = ls.mapIdx fun i l => carryLink X ((fun i => b (i + 1)) i) l from rfl, ih']
      have e : (carryLink X (b 0) l).setAtOffset set v = (l.setAtOffset set v).map (carryLink X (b 0)) := by
        simp only [Link.setAtOffset, show (carryLink X (b 0) l).offset = l.offset from rfl, show (carryLink X (b 0) l).joint = l.joint from rfl]
        split_ifs
        · simp only [Link.setWith, Option.map_map]; rfl
        · rfl
      rw [e]
      cases l.setAtOffset set v with
      | none => rfl
      | some l' =>
        cases setJointAll set v ls with
        | none => rfl
        | some ls' => simp [List.mapIdx_cons]
  exact key (fun i => i == 0) ls

theorem carry_getAll (get : Prp K → List K) (ls : List (Link K)) (buf : List K) :
    getJointAll get (carryAll X ls) buf = getJointAll get ls buf := by
  have key : ∀ (b : ℕ → Bool) (ls : List (Link K)) (buf : List K),
      getJointAll get (ls.mapIdx fun i l => carryLink X (b i) l) buf = getJointAll get ls buf := by
    intro b ls
    induction ls generalizing b with
    | nil => intro buf; rfl
    | cons l ls ih =>
      intro buf
      rw [List.mapIdx_cons]
      simp only [getJointAll, show (carryLink X (b 0) l).offset = l.offset from rfl, show (carryLink X (b 0) l).joint = l.joint from rfl]
      split_ifs
      · cases writeAt buf l.offset.toNat (get l.joint.prp) with
        | none => rfl
        | some buf' => exact ih (fun i => b (i + 1)) buf'
      · exact ih (fun i => b (i + 1)) buf
  exact key (fun i => i == 0) ls buf

/-- The sum over the carried links. -/
theorem carry_sum {M : Type*} [AddCommMonoid M] {f g : Link K → M} (hf : ∀ r l, f (carryLink X r l) = g l) (ls : List (Link K)) :
    ((carryAll X ls).map f).sum = (ls.map g).sum := by
  congr 1
  apply List.ext_getElem?
  intro j
  rw [List.getElem?_map, List.getElem?_map, carryAll_get, Option.map_map]
  congr 1
  funext l
  exact hf _ _

theorem carry_size (ls : List (Link K)) : jointSize (carryAll X ls) = jointSize ls := by
  rw [jointSize_eq, jointSize_eq]
  exact carry_sum (fun _ _ => rfl) ls

end Roki
