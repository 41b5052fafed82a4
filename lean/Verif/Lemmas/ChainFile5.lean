import Verif.Lemmas.ChainFile4
import Verif.Lemmas.Path
import Verif.Lemmas.IKStep
import Verif.Props.ABIDyn
set_option autoImplicit false

/-!
# Lemmas for chain files: the pose does not depend on the order of the children
-/

namespace Roki.ZTK
open Spec.File Spec.Forest Spec LinkHeap
variable {K : Type*}

section

/-- Each element is the parent of the next, and the parent of the first is given. -/
def Line (pars : List (Option ℕ)) : Option ℕ → List ℕ → Prop
  | _, [] => True
  | par, a :: p => pars[a]? = some par ∧ Line pars (some a) p

theorem line_snoc {pars : List (Option ℕ)} {i : ℕ} : ∀ {p : List ℕ} {par : Option ℕ},
    Line pars par (p ++ [i]) ↔ Line pars par p ∧ pars[i]? = some (p.getLast?.or par) := by
  intro p
  induction p with
  | nil => intro par; simp [Line]
  | cons a p ih =>
    intro par
    rw [List.cons_append, Line, ih, Line, and_assoc]
    rcases hp : p.getLast? with _ | b
    · rw [List.getLast?_eq_none_iff] at hp
      simp [hp]
    · have : (a :: p).getLast? = some b := by
        rw [List.getLast?_cons]
        simp [hp]
      simp [this]

theorem line_unique {pars : List (Option ℕ)} (p : List ℕ) : ∀ (q : List ℕ) (i : ℕ), Line pars none (p ++ [i]) →
    Line pars none (q ++ [i]) → p = q := by
  induction p using List.reverseRecOn with
  | nil =>
    intro q i h1 h2
    rw [line_snoc] at h1 h2
    have := h1.2.symm.trans h2.2
    simp only [List.getLast?_nil, Option.none_or, Option.or_none, Option.some.injEq] at this
    exact (List.getLast?_eq_none_iff.1 this.symm).symm
  | append_singleton p j ih =>
    intro q i h1 h2
    rw [line_snoc] at h1 h2
    have := h1.2.symm.trans h2.2
    simp only [List.getLast?_concat, Option.some_or, Option.or_none, Option.some.injEq] at this
    obtain ⟨q, rfl⟩ : ∃ q', q = q' ++ [j] := by
      have := this.symm
      rw [List.getLast?_eq_some_iff] at this
      exact this
    rw [ih q j h1.1 h2.1]

theorem _root_.Roki.Spec.Forest.Rep.line {h : List Node} {par o : Option ℕ} {t : LTree ℕ} (hr : Rep h par o t) {p : List ℕ}
    (hp : IsPath t p) : Line (parents h) par p := by
  induction hr generalizing p with
  | nil => cases hp
  | @node par i x c s h1 h2 _ _ ihc ihs =>
    have e : (parents h)[i]? = some par := by rw [parents_get, h1, Option.map_some, h2]
    cases hp with
    | here => exact ⟨e, trivial⟩
    | child hp => exact ⟨e, ihc hp⟩
    | sibl hp => exact ihs hp

variable [Field K]

theorem updateWrenchAt_map {α : Type*} (k : Link K → α) (h1 : ∀ (l : Link K) w, k { l with joint := { l.joint with wrench := w } } = k l)
    (h2 : ∀ (l : Link K) w, k { l with joint := ⟨l.joint.prp.calcTrq w, w⟩ } = k l) (t : LTree ℕ) :
    ∀ ls ls' : List (Link K), Chain.updateWrenchAt t ls = some ls' → ls'.map k = ls.map k := by
  induction t with
  | nil => intro ls ls' h; simp only [Chain.updateWrenchAt, Option.some.injEq] at h; rw [h]
  | node i c s ihc ihs =>
    intro ls ls' h
    simp only [Chain.updateWrenchAt, bind, Option.bind_eq_some_iff] at h
    obtain ⟨l, hl, ls1, e1, l1, hl1, w1, hw1, e2⟩ := h
    rw [ihs _ _ e2, map_set_of k hl1 (h2 _ _), ihc _ _ e1]
    exact map_set_of k hl (h1 _ _)

theorem rest_calcTrq (p : Prp K) (w : Vec6 K) : rest (p.calcTrq w) = rest p := by cases p <;> rfl

theorem updateID_map {α : Type*} (k : Link K → α) (h0 : ∀ (l : Link K) v a, k (l.updateRate1 v a) = k l)
    (h1 : ∀ (l : Link K) w, k { l with joint := { l.joint with wrench := w } } = k l)
    (h2 : ∀ (l : Link K) w, k { l with joint := ⟨l.joint.prp.calcTrq w, w⟩ } = k l) {c c' : Chain K} {g : Vec6 K}
    (h : c.updateID g = some c') : c'.link.map k = c.link.map k ∧ c'.mass = c.mass ∧ c'.wldCOM = c.wldCOM := by
  simp only [Chain.updateID, Chain.updateRate, Chain.updateWrench, bind, Option.bind_eq_some_iff,
    Option.map_eq_some_iff, pure, Option.some.injEq] at h
  obtain ⟨c1, ⟨l1, e1, rfl⟩, c2, ⟨l2, e2, rfl⟩, rfl⟩ := h
  unfold Chain.updateRateAt at e1
  refine ⟨?_, rfl, rfl⟩
  have a1 := downAt_map k (f := fun (st : Vec6 K × Vec6 K) l => l.updateRate1 st.1 st.2) (fun st l => h0 l st.1 st.2) _ _ _ _ _ e1
  exact (updateWrenchAt_map k h1 h2 _ _ _ e2).trans a1

theorem updateFK_map {α : Type*} (k : Link K → α) (h0 : ∀ (l : Link K) f, k (l.updateFrame1 f) = k l) {c c' : Chain K}
    (h : c.updateFK = some c') : c'.link.map k = c.link.map k ∧ c'.mass = c.mass := by
  simp only [Chain.updateFK, Chain.updateFrame, Option.map_map, Option.map_eq_some_iff] at h
  obtain ⟨ls, h, rfl⟩ := h
  exact ⟨downAt_map k (f := fun pwf l => l.updateFrame1 pwf) (fun st l => h0 l st) _ _ _ _ _ h, rfl⟩

theorem jointFrame_rest (p : Prp K) : jointFrame (rest p) = jointFrame p := by cases p <;> rfl

/-- Two chains with the same links and the same parents have the same pose. -/
theorem same_pose {c c' d d' : Chain K} {h h' : List Node} (hc : c.WF) (hc' : c'.WF) (hr : Rep h none (some 0) c.shape)
    (hr' : Rep h' none (some 0) c'.shape) (hp : parents h' = parents h)
    (hl : c'.link.map (fun l => (linkFrame l, l.body.mp)) = c.link.map (fun l => (linkFrame l, l.body.mp)))
    (e : c.updateFK = some d) (e' : c'.updateFK = some d') :
    d'.link.map (fun l => (l.body.frame, l.body.wldCOM)) = d.link.map (fun l => (l.body.frame, l.body.wldCOM)) := by
  have len : c'.link.length = c.link.length := by simpa using congrArg List.length hl
  obtain ⟨-, -, -, -, -, n1, -⟩ := hc.updateFK e
  obtain ⟨-, -, -, -, -, n2, -⟩ := hc'.updateFK e'
  refine List.ext_getElem? fun i => ?_
  rw [List.getElem?_map, List.getElem?_map]
  by_cases hi : i < c.link.length
  · obtain ⟨p, q⟩ := LTree.exists_path (hc.mem.2 hi)
    obtain ⟨p', q'⟩ := LTree.exists_path (hc'.mem.2 (len ▸ hi))
    have l1 := hr.line q
    have l2 := hr'.line q'
    rw [hp] at l2
    obtain rfl := line_unique _ _ _ l1 l2
    obtain ⟨ms, m, a1, a2, a3⟩ := hc.fk_path e q
    obtain ⟨ms', m', b1, b2, b3⟩ := hc'.fk_path e' q'
    have hms : ms'.map linkFrame = ms.map linkFrame := by
      have t1 := congrArg (List.map (Option.map linkFrame)) a1
      have t2 := congrArg (List.map (Option.map linkFrame)) b1
      rw [List.map_map, List.map_map] at t1 t2
      have key : p.map (Option.map linkFrame ∘ fun j => c'.link[j]?) = p.map (Option.map linkFrame ∘ fun j => c.link[j]?) := by
        refine List.map_congr_left fun j _ => ?_
        have := congrArg (fun x => x[j]?.map Prod.fst) hl
        simpa [Function.comp_def] using this
      rw [t1, t2] at key
      have : (ms'.map linkFrame).map some = (ms.map linkFrame).map some := by simpa [Function.comp_def] using key
      exact List.map_injective_iff.2 (Option.some_injective _) this
    have hm : linkFrame m' = linkFrame m ∧ m'.body.mp = m.body.mp := by
      have := congrArg (fun x => x[i]?) hl
      simpa [a2, b2] using this
    rw [a3, b3, hms, Option.map_some, Option.map_some]
    have hf := updateFrame1_frame m (product (ms.map linkFrame))
    have hf' := updateFrame1_frame m' (product (ms.map linkFrame))
    rw [hm.1] at hf'
    have hw : ∀ (l : Link K) (F : Frame K), (l.updateFrame1 F).body.wldCOM = (l.updateFrame1 F).body.frame.xform l.body.mp.com :=
      fun l F => rfl
    rw [hw, hw, hf, hf', hm.2]
  · rw [List.getElem?_eq_none (by omega), List.getElem?_eq_none (by omega)]

theorem setOffsetFrom_params : ∀ (ls ls' : List (Link K)) (s : ℕ),
    ls'.map (fun l => (l.name, l.body.mp, l.body.stuff, l.org, rest l.joint.prp)) =
      ls.map (fun l => (l.name, l.body.mp, l.body.stuff, l.org, rest l.joint.prp)) →
    (LinkArray.setOffsetFrom s ls').map params = (LinkArray.setOffsetFrom s ls).map params := by
  intro ls
  have hsz : ∀ p : Prp K, (rest p).size = p.size := by intro p; cases p <;> rfl
  induction ls with
  | nil => intro ls' s h; rw [List.map_nil, List.map_eq_nil_iff] at h; rw [h]
  | cons l ls ih =>
    intro ls' s h
    rcases ls' with _ | ⟨l', ls'⟩
    · simp at h
    · simp only [List.map_cons, List.cons.injEq, Prod.mk.injEq] at h
      obtain ⟨⟨h1, h2, h3, h4, h5⟩, h6⟩ := h
      have hs : l'.size = l.size := by
        rw [Link.size, Link.size, ← hsz, h5, hsz]
      simp only [LinkArray.setOffsetFrom, hs]
      split_ifs
      · simp only [List.map_cons, ih ls' _ h6, params, h1, h2, h3, h4, h5]
      · simp only [List.map_cons, ih ls' _ h6, params, h1, h2, h3, h4, h5]

theorem setOffsetFrom_map {α : Type*} (k : Link K → α) (h : ∀ (l : Link K) o, k { l with offset := o } = k l) :
    ∀ (ls : List (Link K)) (s : ℕ), (LinkArray.setOffsetFrom s ls).map k = ls.map k := by
  intro ls
  induction ls with
  | nil => intro s; rfl
  | cons l ls ih =>
    intro s
    rw [LinkArray.setOffsetFrom]
    split_ifs <;> simp [ih, h]

theorem calcMass_map : ∀ (ls ls' : List (Link K)), ls'.map (fun l => l.body.mp) = ls.map (fun l => l.body.mp) →
    LinkArray.calcMass ls' = LinkArray.calcMass ls := by
  intro ls ls' h
  have : ∀ ls : List (Link K), LinkArray.calcMass ls = (ls.map fun l => l.body.mp).foldl (fun m l => m + l.mass) 0 := by
    intro ls
    rw [List.foldl_map]
    rfl
  rw [this, this, h]

theorem calcCOM_map (mass : K) (ls ls' : List (Link K)) (h : ls'.map (fun l => (l.body.mp.mass, l.body.wldCOM)) =
    ls.map (fun l => (l.body.mp.mass, l.body.wldCOM))) : LinkArray.calcCOM mass ls' = LinkArray.calcCOM mass ls := by
  have : ∀ ls : List (Link K), LinkArray.calcCOM mass ls =
      mass⁻¹ • (ls.map fun l => (l.body.mp.mass, l.body.wldCOM)).foldl (fun p l => Roki.cat p l.1 l.2) 0 := by
    intro ls
    rw [List.foldl_map]
    rfl
  rw [this, this, h]
end

end Roki.ZTK
