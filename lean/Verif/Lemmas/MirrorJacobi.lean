import Verif.Lemmas.Mirror
import Verif.Lemmas.UnitsJacobi
set_option autoImplicit false

/-! # Lemmas: Jacobian matrices in the mirror (C140) -/

namespace Roki
set_option linter.unusedSectionVars false
open Spec LinkArray
namespace Spec.Mirror
variable {K : Type*} [Field K] {T : Vec3 K → Vec3 K}

theorem signs_length (p : Prp K) : (signs p).length = p.size := by cases p <;> rfl

theorem cols_from (ls : List (Link K)) : ∀ (n : ℕ), ∀ l ∈ setOffsetFrom n ls, 0 < l.size → n ≤ l.offset.toNat ∧ 0 ≤ l.offset ∧
    ∀ i < l.size, (cols ls)[l.offset.toNat - n + i]? = (signs l.joint.prp)[i]? := by
  induction ls with
  | nil => intro n l hl; simp [setOffsetFrom] at hl
  | cons a ls ih =>
    intro n l hl hs
    simp only [setOffsetFrom] at hl
    by_cases ha : 0 < a.size
    · rw [if_pos ha, List.mem_cons] at hl
      rcases hl with rfl | hl
      · refine ⟨by simp, by simp, fun i hi => ?_⟩
        have hi' : i < (signs a.joint.prp).length := by rw [signs_length]; exact hi
        simp only [cols, List.flatMap_cons, Int.toNat_natCast, Nat.sub_self, Nat.zero_add]
        rw [List.getElem?_append_left hi']
      · obtain ⟨h1, h2, h3⟩ := ih _ _ hl hs
        refine ⟨by omega, h2, fun i hi => ?_⟩
        rw [← h3 i hi]
        simp only [cols, List.flatMap_cons]
        have e : (signs a.joint.prp).length = a.size := signs_length _
        rw [List.getElem?_append_right (by rw [e]; omega), e]
        congr 1
        omega
    · rw [if_neg ha, List.mem_cons] at hl
      have e : signs a.joint.prp = [] := by
        apply List.eq_nil_of_length_eq_zero
        rw [signs_length]
        simp only [Link.size] at ha; omega
      rcases hl with rfl | hl
      · exact absurd hs ha
      · obtain ⟨h1, h2, h3⟩ := ih _ _ hl hs
        refine ⟨h1, h2, fun i hi => ?_⟩
        rw [← h3 i hi]
        simp only [cols, List.flatMap_cons, e, List.nil_append]

/-- The factor of the column of degree of freedom `i` of a link. -/
theorem cols_get {ls : List (Link K)} (ho : setOffset ls = ls) {l : Link K} (hl : l ∈ ls) {i : ℕ} (hi : i < l.size) :
    0 ≤ l.offset ∧ (cols ls)[(l.offset + i).toNat]? = (signs l.joint.prp)[i]? := by
  rw [← ho] at hl
  obtain ⟨-, h2, h3⟩ := cols_from ls 0 l hl (by omega)
  refine ⟨h2, ?_⟩
  rw [← h3 i hi]
  congr 1
  omega

theorem cols_length (ls : List (Link K)) : (cols ls).length = jointSize ls := by
  rw [jointSize_eq]
  simp only [cols, List.length_flatMap, signs_length, sizes]

/-! ## One column -/

theorem modCol {L : List K} {m : Jacobi.Mat K} (hL : L.length = m.length) {c : ℤ} {k : K} (hc : L[c.toNat]? = some k) {f f' : Vec3 K → Vec3 K}
    (h : ∀ v, f' (k • T v) = k • T (f v)) : Jacobi.modCol f' (see T L m) c = (Jacobi.modCol f m c).map (see T L) := by
  have hl : (see T L m).length = m.length := by simp [see, hL]
  simp only [Jacobi.modCol, hl]
  split_ifs
  · rw [Option.map_some]
    congr 1
    apply List.ext_getElem?
    intro j
    simp only [see, List.getElem?_modify, List.getElem?_zipWith]
    by_cases e : c.toNat = j
    · subst e
      rw [hc]
      cases m[c.toNat]? with
      | none => rfl
      | some v => simp [h]
    · simp only [if_neg e]
      cases L[j]? <;> cases m[j]? <;> rfl
  · rfl

theorem colAt {L : List K} {m : Jacobi.Mat K} (hL : L.length = m.length) {c : ℤ} {k : K} (hc : L[c.toNat]? = some k)
    {op op' : Vec3 K → Vec3 K → Vec3 K} {col col' : Option (Vec3 K)} (hcol : Option.Rel (fun s s' => ∀ v, op' (k • T v) s' = k • T (op v s)) col col') :
    Jacobi.colAt op' col' (see T L m) c = (Jacobi.colAt op col m c).map (see T L) := by
  cases hcol with
  | none => rfl
  | some h => exact modCol hL hc h

/-! ## Loops -/

/-- A step on the original robot and the same step on the converted one. -/
def Step (T : Vec3 K → Vec3 K) (L : List K) (f f' : Jacobi.Mat K → Option (Jacobi.Mat K)) : Prop :=
  ∀ m, m.length = L.length → f' (see T L m) = (f m).map (see T L) ∧ ∀ m', f m = some m' → m'.length = L.length

theorem Step.bind {L : List K} {f f' g g' : Jacobi.Mat K → Option (Jacobi.Mat K)} (h : Step T L f f') (h' : Step T L g g') :
    Step T L (fun m => (f m).bind g) (fun m => (f' m).bind g') := by
  intro m hm
  obtain ⟨e, n⟩ := h m hm
  simp only [e]
  cases ef : f m with
  | none => exact ⟨rfl, fun m' q => by cases q⟩
  | some m1 => exact h' m1 (n m1 ef)

theorem Step.foldlM {α : Type*} {L : List K} {f f' : Jacobi.Mat K → α → Option (Jacobi.Mat K)} (is : List α)
    (h : ∀ i ∈ is, Step T L (f · i) (f' · i)) : Step T L (fun m => is.foldlM f m) (fun m => is.foldlM f' m) := by
  induction is with
  | nil => intro m hm; exact ⟨rfl, fun m' q => by cases q; exact hm⟩
  | cons i is ih =>
    intro m hm
    simp only [List.foldlM_cons]
    exact Step.bind (h i (by simp)) (ih fun j hj => h j (by simp [hj])) m hm

theorem step_colAt {L : List K} {c : ℤ} {k : K} (hc : L[c.toNat]? = some k) {op op' : Vec3 K → Vec3 K → Vec3 K} {col col' : Option (Vec3 K)}
    (hcol : Option.Rel (fun s s' => ∀ v, op' (k • T v) s' = k • T (op v s)) col col') :
    Step T L (fun m => Jacobi.colAt op col m c) (fun m => Jacobi.colAt op' col' m c) :=
  fun _ hm => ⟨colAt hm.symm hc hcol, fun _ q => (UnitSys.colAt_length q).trans hm⟩

theorem step_walk {L : List K} {f f' : Link K → Jacobi.Mat K → Option (Jacobi.Mat K)} {ls : List (Link K)}
    (h : ∀ l ∈ ls, Step T L (f l) (f' (link l))) (p : List ℕ) :
    Step T L (fun m => Jacobi.walk f ls p m) (fun m => Jacobi.walk f' (ls.map link) p m) := by
  induction p with
  | nil => intro m hm; exact ⟨rfl, fun m' q => by cases q⟩
  | cons i p ih =>
    intro m hm
    simp only [Jacobi.walk, map_get]
    cases hl : ls[i]? with
    | none => exact ⟨rfl, fun m' q => by cases q⟩
    | some l =>
      simp only [Option.map_some, Option.bind_eq_bind, Option.bind_some]
      refine Step.bind (h l (List.mem_of_getElem? hl)) (g := fun m' => if i = 0 then some m' else Jacobi.walk f ls p m')
        (g' := fun m' => if i = 0 then some m' else Jacobi.walk f' (ls.map link) p m') ?_ m hm
      intro m hm
      by_cases e : i = 0
      · simp only [if_pos e]; exact ⟨rfl, fun m' q => by cases q; exact hm⟩
      · simp only [if_neg e]; exact ih m hm

theorem step_walkBelow {L : List K} {f f' : Link K → Jacobi.Mat K → Option (Jacobi.Mat K)} {ls : List (Link K)}
    (h : ∀ l ∈ ls, Step T L (f l) (f' (link l))) (p : List ℕ) :
    Step T L (fun m => Jacobi.walkBelow f ls p m) (fun m => Jacobi.walkBelow f' (ls.map link) p m) := by
  induction p with
  | nil => intro m hm; exact ⟨rfl, fun m' q => by cases q⟩
  | cons i p ih =>
    intro m hm
    simp only [Jacobi.walkBelow, map_get]
    by_cases e : i = 0
    · simp only [if_pos e]; exact ⟨rfl, fun m' q => by cases q; exact hm⟩
    · simp only [if_neg e]
      cases hl : ls[i]? with
      | none => exact ⟨rfl, fun m' q => by cases q⟩
      | some l =>
        simp only [Option.map_some, Option.bind_eq_bind, Option.bind_some]
        exact Step.bind (h l (List.mem_of_getElem? hl)) ih m hm

theorem walkAngTo {L : List K} {f f' : Link K → Jacobi.Mat K → Option (Jacobi.Mat K)} {ls : List (Link K)}
    (h : ∀ l ∈ ls, Step T L (f l) (f' (link l))) (from_ : ℕ) (p : List ℕ) : ∀ m, m.length = L.length →
    Jacobi.walkAngTo f' from_ (ls.map link) p (see T L m) = (Jacobi.walkAngTo f from_ ls p m).map (fun r => (r.1, see T L r.2)) ∧
      ∀ r, Jacobi.walkAngTo f from_ ls p m = some r → r.2.length = L.length := by
  induction p with
  | nil => intro m hm; exact ⟨rfl, fun m' q => by cases q⟩
  | cons i p ih =>
    intro m hm
    simp only [Jacobi.walkAngTo, map_get]
    by_cases e : i = 0
    · simp only [if_pos e]; exact ⟨rfl, fun m' q => by cases q; exact hm⟩
    · simp only [if_neg e]
      by_cases e' : i = from_
      · simp only [if_pos e']; exact ⟨rfl, fun m' q => by cases q; exact hm⟩
      · simp only [if_neg e']
        cases hl : ls[i]? with
        | none => exact ⟨rfl, fun m' q => by cases q⟩
        | some l =>
          simp only [Option.map_some, Option.bind_eq_bind, Option.bind_some]
          obtain ⟨e1, n⟩ := h l (List.mem_of_getElem? hl) m hm
          rw [e1]
          cases ef : f l m with
          | none => exact ⟨rfl, fun m' q => by cases q⟩
          | some m1 => exact ih m1 (n m1 ef)

theorem walkLinTo {L : List K} {f f' : Link K → Jacobi.Mat K → Option (Jacobi.Mat K)} {ls : List (Link K)}
    (h : ∀ l ∈ ls, Step T L (f l) (f' (link l))) (from_ : ℕ) (p : List ℕ) : ∀ m, m.length = L.length →
    Jacobi.walkLinTo f' from_ (ls.map link) p (see T L m) = (Jacobi.walkLinTo f from_ ls p m).map (fun r => (r.1, see T L r.2)) ∧
      ∀ r, Jacobi.walkLinTo f from_ ls p m = some r → r.2.length = L.length := by
  induction p with
  | nil => intro m hm; exact ⟨rfl, fun m' q => by cases q⟩
  | cons i p ih =>
    intro m hm
    simp only [Jacobi.walkLinTo, map_get]
    by_cases e' : i = from_
    · simp only [if_pos e']; exact ⟨rfl, fun m' q => by cases q; exact hm⟩
    · simp only [if_neg e']
      cases hl : ls[i]? with
      | none => exact ⟨rfl, fun m' q => by cases q⟩
      | some l =>
        simp only [Option.map_some, Option.bind_eq_bind, Option.bind_some]
        obtain ⟨e1, n⟩ := h l (List.mem_of_getElem? hl) m hm
        rw [e1]
        cases ef : f l m with
        | none => exact ⟨rfl, fun m' q => by cases q⟩
        | some m1 =>
          simp only [Option.map_some, Option.bind_some]
          by_cases e : i = 0
          · simp only [if_pos e]; exact ⟨rfl, fun m' q => by cases q; exact n m1 ef⟩
          · simp only [if_neg e]; exact ih m1 (n m1 ef)

/-! ## The columns of a joint -/

theorem size_link (l : Link K) : (link l).size = l.size := by simp only [Link.size, link]; cases l.joint.prp <;> rfl

theorem signs_some {p : Prp K} {i : ℕ} (hi : i < p.size) : ∃ k, (signs p)[i]? = some k := by
  rw [← signs_length] at hi
  exact ⟨_, List.getElem?_eq_getElem hi⟩

theorem axes (p : Prp K) (f : Frame K) {i : ℕ} {k : K} (hk : (signs p)[i]? = some k) :
    (prp p).angAxis i (frame f) = (p.angAxis i f).map (fun a => k • axi a) ∧ (prp p).linAxis i (frame f) = (p.linAxis i f).map (fun a => k • pol a) := by
  cases p <;> rcases i with _ | _ | _ | _ | _ | _ | i <;> simp only [signs, List.getElem?_cons_zero, List.getElem?_cons_succ, List.getElem?_nil,
    Option.some.injEq, reduceCtorEq] at hk <;> subst hk <;>
    simp only [prp, Prp.angAxis, Prp.linAxis, Prp.rowAxis, Prp.zyMat, Option.map_some, Option.map_none, Option.some.injEq, true_and, and_true, frame, mat, pol, axi] <;>
    vec_ring

theorem linCol {l : Link K} (p : Vec3 K) {i : ℕ} {k : K} (hk : (signs l.joint.prp)[i]? = some k) :
    Jacobi.linCol (link l) (pol p) i = (Jacobi.linCol l p i).map (fun a => k • pol a) := by
  obtain ⟨ea, el⟩ := axes l.joint.prp l.body.frame hk
  simp only [Jacobi.linCol]
  rw [show (link l).joint.prp.linAxis i (link l).body.frame = _ from el, show (link l).joint.prp.angAxis i (link l).body.frame = _ from ea]
  cases l.joint.prp.linAxis i l.body.frame with
  | some s => rfl
  | none =>
    cases l.joint.prp.angAxis i l.body.frame with
    | none => rfl
    | some a =>
      simp only [Option.map_some, Option.map_none, Option.some.injEq]
      simp only [link, body, frame, pol, axi]
      vec_ring

theorem rel_map {r : Vec3 K → Vec3 K → Prop} {f : Vec3 K → Vec3 K} (h : ∀ a, r a (f a)) (o : Option (Vec3 K)) : Option.Rel r o (o.map f) := by
  cases o with
  | none => exact .none
  | some a => exact .some (h a)

theorem step_ang {ls : List (Link K)} (ho : setOffset ls = ls) {op : Vec3 K → Vec3 K → Vec3 K}
    (hop : ∀ (k : K) v a, op (k • axi v) (k • axi a) = k • axi (op v a)) {l : Link K} (hl : l ∈ ls) :
    Step axi (cols ls) (fun m => Jacobi.colLoop op l (Jacobi.angCol l) m) (fun m => Jacobi.colLoop op (link l) (Jacobi.angCol (link l)) m) := by
  simp only [Jacobi.colLoop, size_link]
  refine Step.foldlM _ fun i hi => ?_
  have hi' : i < l.size := List.mem_range.1 hi
  obtain ⟨-, hc⟩ := cols_get ho hl hi'
  obtain ⟨k, hk⟩ := signs_some (p := l.joint.prp) hi'
  refine step_colAt (hc.trans hk) ?_
  rw [show Jacobi.angCol (link l) i = _ from (axes l.joint.prp l.body.frame hk).1]
  exact rel_map (fun a v => hop k v a) _

theorem step_lin {ls : List (Link K)} (ho : setOffset ls = ls) {op : Vec3 K → Vec3 K → Vec3 K}
    (hop : ∀ (k : K) v a, op (k • pol v) (k • pol a) = k • pol (op v a)) (p : Vec3 K) {l : Link K} (hl : l ∈ ls) :
    Step pol (cols ls) (fun m => Jacobi.colLoop op l (Jacobi.linCol l p) m)
      (fun m => Jacobi.colLoop op (link l) (Jacobi.linCol (link l) (pol p)) m) := by
  simp only [Jacobi.colLoop, size_link]
  refine Step.foldlM _ fun i hi => ?_
  have hi' : i < l.size := List.mem_range.1 hi
  obtain ⟨-, hc⟩ := cols_get ho hl hi'
  obtain ⟨k, hk⟩ := signs_some (p := l.joint.prp) hi'
  refine step_colAt (hc.trans hk) ?_
  rw [linCol p hk]
  exact rel_map (fun a v => hop k v a) _

theorem step_am {ls : List (Link K)} (ho : setOffset ls = ls) (I : Mat3 K) (mass : K) (com p : Vec3 K) {l : Link K} (hl : l ∈ ls) :
    Step axi (cols ls) (Jacobi.amLoop I mass com p l) (Jacobi.amLoop (mat I) mass (pol com) (pol p) (link l)) := by
  unfold Jacobi.amLoop
  rw [size_link]
  refine Step.foldlM _ fun i hi => ?_
  have hi' : i < l.size := List.mem_range.1 hi
  obtain ⟨-, hc⟩ := cols_get ho hl hi'
  obtain ⟨k, hk⟩ := signs_some (p := l.joint.prp) hi'
  rw [show (link l).offset = l.offset from rfl, show Jacobi.angCol (link l) i = _ from (axes l.joint.prp l.body.frame hk).1, linCol com hk]
  refine Step.bind ?_ ?_
  · refine step_colAt (hc.trans hk) ?_
    show Option.Rel _ (Jacobi.angCol l i) ((Jacobi.angCol l i).map _)
    cases Jacobi.angCol l i with
    | none => exact .none
    | some a =>
      refine .some fun v => ?_
      simp only [Jacobi.opAdd, mat, axi, pol]
      vec_ring
  · refine step_colAt (hc.trans hk) ?_
    cases Jacobi.linCol l com i with
    | none => exact .none
    | some a =>
      refine .some fun v => ?_
      simp only [Jacobi.opCat, axi, pol]
      vec_ring

theorem see_zero (hT : T 0 = 0) (L : List K) (m m' : Jacobi.Mat K) (h : m.length = L.length) (h' : m'.length = L.length) :
    Jacobi.zero m' = see T L (Jacobi.zero m) := by
  apply List.ext_getElem?
  intro j
  simp only [Jacobi.zero, see, List.getElem?_map, List.getElem?_zipWith]
  by_cases hj : j < L.length
  · rw [List.getElem?_eq_getElem hj, List.getElem?_eq_getElem (h' ▸ hj), List.getElem?_eq_getElem (h ▸ hj)]
    simp only [Option.map_some, hT]
    congr 1
    vec_ring
  · rw [List.getElem?_eq_none (by omega), List.getElem?_eq_none (by omega : L.length ≤ j)]
    rfl

end Spec.Mirror
end Roki
