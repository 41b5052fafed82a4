import Verif.Lemmas.Units
set_option autoImplicit false

/-! # Lemmas: Jacobian matrices in other units (C139) -/

namespace Roki
set_option linter.unusedSectionVars false
open Spec LinkArray
namespace Spec.UnitSys
variable {K : Type*} [Field K] {u : UnitSys K}

theorem factors_length (s t : K) (p : Prp K) : (factors s t p).length = p.size := by cases p <;> rfl

theorem cols_from (s t : K) (ls : List (Link K)) : ∀ (n : ℕ), ∀ l ∈ setOffsetFrom n ls, 0 < l.size → n ≤ l.offset.toNat ∧ 0 ≤ l.offset ∧
    ∀ i < l.size, (cols s t ls)[l.offset.toNat - n + i]? = (factors s t l.joint.prp)[i]? := by
  induction ls with
  | nil => intro n l hl; simp [setOffsetFrom] at hl
  | cons a ls ih =>
    intro n l hl hs
    simp only [setOffsetFrom] at hl
    by_cases ha : 0 < a.size
    · rw [if_pos ha, List.mem_cons] at hl
      rcases hl with rfl | hl
      · refine ⟨by simp, by simp, fun i hi => ?_⟩
        have hi' : i < (factors s t a.joint.prp).length := by rw [factors_length]; exact hi
        simp only [cols, List.flatMap_cons, Int.toNat_natCast, Nat.sub_self, Nat.zero_add]
        rw [List.getElem?_append_left hi']
      · obtain ⟨h1, h2, h3⟩ := ih _ _ hl hs
        refine ⟨by omega, h2, fun i hi => ?_⟩
        rw [← h3 i hi]
        simp only [cols, List.flatMap_cons]
        have e : (factors s t a.joint.prp).length = a.size := factors_length _ _ _
        rw [List.getElem?_append_right (by rw [e]; omega), e]
        congr 1
        omega
    · rw [if_neg ha, List.mem_cons] at hl
      have e : factors s t a.joint.prp = [] := by
        apply List.eq_nil_of_length_eq_zero
        rw [factors_length]
        simp only [Link.size] at ha; omega
      rcases hl with rfl | hl
      · exact absurd hs ha
      · obtain ⟨h1, h2, h3⟩ := ih _ _ hl hs
        refine ⟨h1, h2, fun i hi => ?_⟩
        rw [← h3 i hi]
        simp only [cols, List.flatMap_cons, e, List.nil_append]

/-- The factor of the column of degree of freedom `i` of a link. -/
theorem cols_get {s t : K} {ls : List (Link K)} (ho : setOffset ls = ls) {l : Link K} (hl : l ∈ ls) {i : ℕ} (hi : i < l.size) :
    0 ≤ l.offset ∧ (cols s t ls)[(l.offset + i).toNat]? = (factors s t l.joint.prp)[i]? := by
  rw [← ho] at hl
  obtain ⟨-, h2, h3⟩ := cols_from s t ls 0 l hl (by omega)
  refine ⟨h2, ?_⟩
  rw [← h3 i hi]
  congr 1
  omega

theorem cols_length (s t : K) (ls : List (Link K)) : (cols s t ls).length = jointSize ls := by
  rw [jointSize_eq]
  simp only [cols, List.length_flatMap, factors_length, sizes]

/-! ## One column -/

theorem modCol {L : List K} {m : Jacobi.Mat K} (hL : L.length = m.length) {c : ℤ} {k : K} (hc : L[c.toNat]? = some k) {f f' : Vec3 K → Vec3 K}
    (h : ∀ v, f' (k • v) = k • f v) : Jacobi.modCol f' (scale L m) c = (Jacobi.modCol f m c).map (scale L) := by
  have hl : (scale L m).length = m.length := by simp [scale, hL]
  simp only [Jacobi.modCol, hl]
  split_ifs
  · rw [Option.map_some]
    congr 1
    apply List.ext_getElem?
    intro j
    simp only [scale, List.getElem?_modify, List.getElem?_zipWith]
    by_cases e : c.toNat = j
    · subst e
      rw [hc]
      cases m[c.toNat]? with
      | none => rfl
      | some v => simp [h]
    · simp only [if_neg e]
      cases L[j]? <;> cases m[j]? <;> rfl
  · rfl

theorem modCol_length {m m' : Jacobi.Mat K} {c : ℤ} {f : Vec3 K → Vec3 K} (h : Jacobi.modCol f m c = some m') : m'.length = m.length := by
  simp only [Jacobi.modCol] at h
  split_ifs at h
  rw [← Option.some.inj h, List.length_modify]

theorem colAt {L : List K} {m : Jacobi.Mat K} (hL : L.length = m.length) {c : ℤ} {k : K} (hc : L[c.toNat]? = some k)
    {op op' : Vec3 K → Vec3 K → Vec3 K} {col col' : Option (Vec3 K)} (hcol : Option.Rel (fun s s' => ∀ v, op' (k • v) s' = k • op v s) col col') :
    Jacobi.colAt op' col' (scale L m) c = (Jacobi.colAt op col m c).map (scale L) := by
  cases hcol with
  | none => rfl
  | some h => exact modCol hL hc h

theorem colAt_length {m m' : Jacobi.Mat K} {c : ℤ} {op : Vec3 K → Vec3 K → Vec3 K} {col : Option (Vec3 K)}
    (h : Jacobi.colAt op col m c = some m') : m'.length = m.length := by
  cases col with
  | none => cases h; rfl
  | some s => exact modCol_length h

/-! ## Loops -/

/-- A step on the original robot and the same step on the converted one. -/
def Step (L : List K) (f f' : Jacobi.Mat K → Option (Jacobi.Mat K)) : Prop :=
  ∀ m, m.length = L.length → f' (scale L m) = (f m).map (scale L) ∧ ∀ m', f m = some m' → m'.length = L.length

theorem Step.bind {L : List K} {f f' g g' : Jacobi.Mat K → Option (Jacobi.Mat K)} (h : Step L f f') (h' : Step L g g') :
    Step L (fun m => (f m).bind g) (fun m => (f' m).bind g') := by
  intro m hm
  obtain ⟨e, n⟩ := h m hm
  simp only [e]
  cases ef : f m with
  | none => exact ⟨rfl, fun m' q => by cases q⟩
  | some m1 => exact h' m1 (n m1 ef)

theorem Step.foldlM {α : Type*} {L : List K} {f f' : Jacobi.Mat K → α → Option (Jacobi.Mat K)} (is : List α)
    (h : ∀ i ∈ is, Step L (f · i) (f' · i)) : Step L (fun m => is.foldlM f m) (fun m => is.foldlM f' m) := by
  induction is with
  | nil => intro m hm; exact ⟨rfl, fun m' q => by cases q; exact hm⟩
  | cons i is ih =>
    intro m hm
    simp only [List.foldlM_cons]
    exact Step.bind (h i (by simp)) (ih fun j hj => h j (by simp [hj])) m hm

theorem step_colAt {L : List K} {c : ℤ} {k : K} (hc : L[c.toNat]? = some k) {op op' : Vec3 K → Vec3 K → Vec3 K} {col col' : Option (Vec3 K)}
    (hcol : Option.Rel (fun s s' => ∀ v, op' (k • v) s' = k • op v s) col col') :
    Step L (fun m => Jacobi.colAt op col m c) (fun m => Jacobi.colAt op' col' m c) :=
  fun _ hm => ⟨colAt hm.symm hc hcol, fun _ q => (colAt_length q).trans hm⟩

theorem step_walk {L : List K} {f f' : Link K → Jacobi.Mat K → Option (Jacobi.Mat K)} {ls : List (Link K)}
    (h : ∀ l ∈ ls, Step L (f l) (f' (u.link l))) (p : List ℕ) :
    Step L (fun m => Jacobi.walk f ls p m) (fun m => Jacobi.walk f' (ls.map u.link) p m) := by
  induction p with
  | nil => intro m hm; exact ⟨rfl, fun m' q => by cases q⟩
  | cons i p ih =>
    intro m hm
    simp only [Jacobi.walk, map_get]
    cases hl : ls[i]? with
    | none => exact ⟨rfl, fun m' q => by cases q⟩
    | some l =>
      simp only [Option.map_some, Option.bind_eq_bind, Option.bind_some]
      refine Step.bind (h l (List.mem_of_getElem? hl)) (g := fun m' => if i = 0 then some m' else Jacobi.walk f ls p m')
        (g' := fun m' => if i = 0 then some m' else Jacobi.walk f' (ls.map u.link) p m') ?_ m hm
      intro m hm
      by_cases e : i = 0
      · simp only [if_pos e]; exact ⟨rfl, fun m' q => by cases q; exact hm⟩
      · simp only [if_neg e]; exact ih m hm

theorem step_walkBelow {L : List K} {f f' : Link K → Jacobi.Mat K → Option (Jacobi.Mat K)} {ls : List (Link K)}
    (h : ∀ l ∈ ls, Step L (f l) (f' (u.link l))) (p : List ℕ) :
    Step L (fun m => Jacobi.walkBelow f ls p m) (fun m => Jacobi.walkBelow f' (ls.map u.link) p m) := by
  induction p with
  | nil => intro m hm; exact ⟨rfl, fun m' q => by cases q⟩
  | cons i p ih =>
    intro m hm
    simp only [Jacobi.walkBelow, map_get]
    by_cases e : i = 0
    · simp only [if_pos e]; exact ⟨rfl, fun m' q => by cases q; exact hm⟩
    · simp only [if_neg e]
      cases hl : ls[i]? with
      | none => exact ⟨rfl, fun m' q => by cases q⟩
      | some l =>
        simp only [Option.map_some, Option.bind_eq_bind, Option.bind_some]
        exact Step.bind (h l (List.mem_of_getElem? hl)) ih m hm

theorem walkAngTo {L : List K} {f f' : Link K → Jacobi.Mat K → Option (Jacobi.Mat K)} {ls : List (Link K)}
    (h : ∀ l ∈ ls, Step L (f l) (f' (u.link l))) (from_ : ℕ) (p : List ℕ) : ∀ m, m.length = L.length →
    Jacobi.walkAngTo f' from_ (ls.map u.link) p (scale L m) = (Jacobi.walkAngTo f from_ ls p m).map (fun r => (r.1, scale L r.2)) ∧
      ∀ r, Jacobi.walkAngTo f from_ ls p m = some r → r.2.length = L.length := by
  induction p with
  | nil => intro m hm; exact ⟨rfl, fun m' q => by cases q⟩
  | cons i p ih =>
    intro m hm
    simp only [Jacobi.walkAngTo, map_get]
    by_cases e : i = 0
    · simp only [if_pos e]; exact ⟨rfl, fun m' q => by cases q; exact hm⟩
    · simp only [if_neg e]
      by_cases e' : i = from_
      · simp only [if_pos e']; exact ⟨rfl, fun m' q => by cases q; exact hm⟩
      · simp only [if_neg e']
        cases hl : ls[i]? with
        | none => exact ⟨rfl, fun m' q => by cases q⟩
        | some l =>
          simp only [Option.map_some, Option.bind_eq_bind, Option.bind_some]
          obtain ⟨e1, n⟩ := h l (List.mem_of_getElem? hl) m hm
          rw [e1]
          cases ef : f l m with
          | none => exact ⟨rfl, fun m' q => by cases q⟩
          | some m1 => exact ih m1 (n m1 ef)

theorem walkLinTo {L : List K} {f f' : Link K → Jacobi.Mat K → Option (Jacobi.Mat K)} {ls : List (Link K)}
    (h : ∀ l ∈ ls, Step L (f l) (f' (u.link l))) (from_ : ℕ) (p : List ℕ) : ∀ m, m.length = L.length →
    Jacobi.walkLinTo f' from_ (ls.map u.link) p (scale L m) = (Jacobi.walkLinTo f from_ ls p m).map (fun r => (r.1, scale L r.2)) ∧
      ∀ r, Jacobi.walkLinTo f from_ ls p m = some r → r.2.length = L.length := by
  induction p with
  | nil => intro m hm; exact ⟨rfl, fun m' q => by cases q⟩
  | cons i p ih =>
    intro m hm
    simp only [Jacobi.walkLinTo, map_get]
    by_cases e' : i = from_
    · simp only [if_pos e']; exact ⟨rfl, fun m' q => by cases q; exact hm⟩
    · simp only [if_neg e']
      cases hl : ls[i]? with
      | none => exact ⟨rfl, fun m' q => by cases q⟩
      | some l =>
        simp only [Option.map_some, Option.bind_eq_bind, Option.bind_some]
        obtain ⟨e1, n⟩ := h l (List.mem_of_getElem? hl) m hm
        rw [e1]
        cases ef : f l m with
        | none => exact ⟨rfl, fun m' q => by cases q⟩
        | some m1 =>
          simp only [Option.map_some, Option.bind_some]
          by_cases e : i = 0
          · simp only [if_pos e]; exact ⟨rfl, fun m' q => by cases q; exact n m1 ef⟩
          · simp only [if_neg e]; exact ih m1 (n m1 ef)

/-! ## The columns of a joint -/

theorem factors_some {s t : K} {p : Prp K} {i : ℕ} (hi : i < p.size) : ∃ k, (factors s t p)[i]? = some k := by
  rw [← factors_length s t] at hi
  exact ⟨_, List.getElem?_eq_getElem hi⟩

theorem angAxis (p : Prp K) (f : Frame K) (i : ℕ) : (u.prp p).angAxis i (u.frame f) = p.angAxis i f := by
  cases p <;> rcases i with _ | _ | _ | _ | _ | _ | i <;> rfl

theorem linAxis (p : Prp K) (f : Frame K) (i : ℕ) : (u.prp p).linAxis i (u.frame f) = p.linAxis i f := by
  cases p <;> rcases i with _ | _ | _ | _ | _ | _ | i <;> rfl

/-- A component is a slide or a turn. -/
theorem slide_or_turn (s t : K) (p : Prp K) (f : Frame K) {i : ℕ} (hi : i < p.size) :
    ((factors s t p)[i]? = some s ∧ (∃ a, p.linAxis i f = some a) ∧ p.angAxis i f = none) ∨
    ((factors s t p)[i]? = some t ∧ p.linAxis i f = none ∧ ∃ a, p.angAxis i f = some a) := by
  cases p <;> rcases i with _ | _ | _ | _ | _ | _ | i <;> simp only [Prp.size] at hi <;>
    first
      | omega
      | exact .inl ⟨rfl, ⟨_, rfl⟩, rfl⟩
      | exact .inr ⟨rfl, rfl, _, rfl⟩

theorem step_ang {s t : K} {ls : List (Link K)} (ho : setOffset ls = ls) {op op' : Vec3 K → Vec3 K → Vec3 K}
    (hop : ∀ v a, op' (t • v) a = t • op v a) {l : Link K} (hl : l ∈ ls) :
    Step (cols s t ls) (fun m => Jacobi.colLoop op l (Jacobi.angCol l) m) (fun m => Jacobi.colLoop op' (u.link l) (Jacobi.angCol (u.link l)) m) := by
  have hsz : (u.link l).size = l.size := by simp only [Link.size, link]; cases l.joint.prp <;> rfl
  simp only [Jacobi.colLoop, hsz]
  refine Step.foldlM _ fun i hi => ?_
  have hi' : i < l.size := List.mem_range.1 hi
  obtain ⟨-, hc⟩ := cols_get (s := s) (t := t) ho hl hi'
  have ea : Jacobi.angCol (u.link l) i = Jacobi.angCol l i := angAxis _ _ _
  rw [ea]
  rcases slide_or_turn s t l.joint.prp l.body.frame hi' with ⟨h1, -, h3⟩ | ⟨h1, -, a, h3⟩
  · refine step_colAt (hc.trans h1) ?_
    rw [show Jacobi.angCol l i = none from h3]
    exact .none
  · refine step_colAt (hc.trans h1) ?_
    rw [show Jacobi.angCol l i = some a from h3]
    exact .some (hop · a)

theorem linCol {l : Link K} (p : Vec3 K) {i : ℕ} (hi : i < l.size) (s t : K) :
    ((factors s t l.joint.prp)[i]? = some s ∧ ∃ a, Jacobi.linCol l p i = some a ∧ Jacobi.linCol (u.link l) (u.len • p) i = some a) ∨
    ((factors s t l.joint.prp)[i]? = some t ∧ ∃ a, Jacobi.linCol l p i = some a ∧ Jacobi.linCol (u.link l) (u.len • p) i = some (u.len • a)) := by
  have el : (u.link l).joint.prp.linAxis i (u.link l).body.frame = l.joint.prp.linAxis i l.body.frame := linAxis _ _ _
  have ea : (u.link l).joint.prp.angAxis i (u.link l).body.frame = l.joint.prp.angAxis i l.body.frame := angAxis _ _ _
  rcases slide_or_turn s t l.joint.prp l.body.frame hi with ⟨h1, ⟨a, h2⟩, -⟩ | ⟨h1, h2, a, h3⟩
  · exact .inl ⟨h1, a, by simp only [Jacobi.linCol, h2], by simp only [Jacobi.linCol, el, h2]⟩
  · refine .inr ⟨h1, _, by simp only [Jacobi.linCol, h2, h3]; rfl, ?_⟩
    simp only [Jacobi.linCol, el, ea, h2, h3, Option.some.injEq]
    simp only [link, body, frame]
    vec_ring

theorem size_link (l : Link K) : (u.link l).size = l.size := by simp only [Link.size, link]; cases l.joint.prp <;> rfl

theorem step_lin {ls : List (Link K)} (ho : setOffset ls = ls) {op : Vec3 K → Vec3 K → Vec3 K}
    (hop : ∀ (x : K) v a, op (x • v) (x • a) = x • op v a) (p : Vec3 K) {l : Link K} (hl : l ∈ ls) :
    Step (cols 1 u.len ls) (fun m => Jacobi.colLoop op l (Jacobi.linCol l p) m)
      (fun m => Jacobi.colLoop op (u.link l) (Jacobi.linCol (u.link l) (u.len • p)) m) := by
  simp only [Jacobi.colLoop, size_link]
  refine Step.foldlM _ fun i hi => ?_
  have hi' : i < l.size := List.mem_range.1 hi
  obtain ⟨-, hc⟩ := cols_get (s := 1) (t := u.len) ho hl hi'
  rcases linCol (u := u) p hi' 1 u.len with ⟨h1, a, h2, h3⟩ | ⟨h1, a, h2, h3⟩
  · refine step_colAt (hc.trans h1) ?_
    rw [h2]
    show Option.Rel _ (some a) (Jacobi.linCol (u.link l) (u.len • p) i)
    rw [h3]
    refine .some fun v => ?_
    have := hop 1 v a
    rwa [show (1 : K) • a = a by vec_ring] at this
  · refine step_colAt (hc.trans h1) ?_
    rw [h2]
    show Option.Rel _ (some a) (Jacobi.linCol (u.link l) (u.len • p) i)
    rw [h3]
    exact .some fun v => hop _ v a

theorem step_am {ls : List (Link K)} (ho : setOffset ls = ls) (I : Mat3 K) (mass : K) (com p : Vec3 K) {l : Link K} (hl : l ∈ ls) :
    Step (cols (u.mass * u.len) (u.mass * (u.len * u.len)) ls) (Jacobi.amLoop I mass com p l)
      (Jacobi.amLoop ((u.mass * (u.len * u.len)) • I) (u.mass * mass) (u.len • com) (u.len • p) (u.link l)) := by
  unfold Jacobi.amLoop
  rw [size_link]
  refine Step.foldlM _ fun i hi => ?_
  have hi' : i < l.size := List.mem_range.1 hi
  obtain ⟨-, hc⟩ := cols_get (s := u.mass * u.len) (t := u.mass * (u.len * u.len)) ho hl hi'
  have ea : Jacobi.angCol (u.link l) i = Jacobi.angCol l i := angAxis _ _ _
  rw [show (u.link l).offset = l.offset from rfl, ea]
  refine Step.bind ?_ ?_
  · rcases slide_or_turn (u.mass * u.len) (u.mass * (u.len * u.len)) l.joint.prp l.body.frame hi' with ⟨h1, -, h3⟩ | ⟨h1, -, a, h3⟩
    · refine step_colAt (hc.trans h1) ?_
      rw [show Jacobi.angCol l i = none from h3]
      exact .none
    · refine step_colAt (hc.trans h1) ?_
      rw [show Jacobi.angCol l i = some a from h3]
      refine .some fun v => ?_
      simp only [Jacobi.opAdd]
      vec_ring
  · rcases linCol (u := u) com hi' (u.mass * u.len) (u.mass * (u.len * u.len)) with ⟨h1, a, h2, h3⟩ | ⟨h1, a, h2, h3⟩
    · refine step_colAt (hc.trans h1) ?_
      rw [h2, h3]
      refine .some fun v => ?_
      simp only [Jacobi.opCat]
      vec_ring
    · refine step_colAt (hc.trans h1) ?_
      rw [h2, h3]
      refine .some fun v => ?_
      simp only [Jacobi.opCat]
      vec_ring

theorem scale_zero (L : List K) (m m' : Jacobi.Mat K) (h : m.length = L.length) (h' : m'.length = L.length) :
    Jacobi.zero m' = scale L (Jacobi.zero m) := by
  apply List.ext_getElem?
  intro j
  simp only [Jacobi.zero, scale, List.getElem?_map, List.getElem?_zipWith]
  by_cases hj : j < L.length
  · rw [List.getElem?_eq_getElem hj, List.getElem?_eq_getElem (h' ▸ hj), List.getElem?_eq_getElem (h ▸ hj)]
    simp only [Option.map_some]
    congr 1
    vec_ring
  · rw [List.getElem?_eq_none (by omega), List.getElem?_eq_none (by omega : L.length ≤ j)]
    rfl

theorem scale_ones {ls : List (Link K)} (m : Jacobi.Mat K) (h : m.length = jointSize ls) : scale (cols 1 1 ls) m = m := by
  have e : cols (1 : K) 1 ls = List.replicate (jointSize ls) 1 := by
    rw [← cols_length 1 1 ls]
    refine List.eq_replicate_of_mem fun x hx => ?_
    simp only [cols, List.mem_flatMap] at hx
    obtain ⟨l, -, hx⟩ := hx
    cases hp : l.joint.prp <;> rw [hp] at hx <;> simp [factors] at hx <;> exact hx
  rw [e]
  apply List.ext_getElem?
  intro j
  simp only [scale, List.getElem?_zipWith, List.getElem?_replicate]
  by_cases hj : j < jointSize ls
  · rw [if_pos hj, List.getElem?_eq_getElem (h ▸ hj)]
    simp only
    congr 1
    vec_ring
  · rw [if_neg hj, List.getElem?_eq_none (by omega)]

end Spec.UnitSys
end Roki
