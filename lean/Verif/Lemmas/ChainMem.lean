import Verif.Spec.ChainMem
import Verif.Lemmas.Mem
import Mathlib.Tactic.Abel
set_option autoImplicit false

/-! # Memory of a kinematic chain: what each function does with the blocks -/

namespace Roki.Mem
open Spec

theorem pts_eq (p : Option ℕ) : pts p = pt p := by cases p <;> rfl

@[simp] theorem pts_none : pts none = 0 := rfl
@[simp] theorem pts_some (b : ℕ) : pts (some b) = {b} := rfl

theorem Own.alloc_ok {h : Heap} {s : Multiset ℕ} (o : Own h s) (hk : ∀ n, h.ok n = true) :
    ∃ b h', Mem.alloc h = some (some b, h') ∧ Own h' ({b} + s) ∧ (∀ n, h'.ok n = true) := by
  obtain ⟨p, h', e, o', k, -, hs⟩ := o.alloc
  rw [hk] at hs
  obtain ⟨b, rfl⟩ := Option.isSome_iff_exists.1 hs
  exact ⟨b, h', e, o', by rw [k]; exact hk⟩

theorem Own.free_pts {h : Heap} {s : Multiset ℕ} {p : Option ℕ} (o : Own h (pts p + s)) (hk : ∀ n, h.ok n = true) :
    ∃ h', Mem.free p h = some ((), h') ∧ Own h' s ∧ (∀ n, h'.ok n = true) := by
  obtain ⟨h', e, o', k, -⟩ := Own.free (o.congr (by rw [pts_eq]))
  exact ⟨h', e, o', by rw [k]; exact hk⟩

theorem Own.freeAll_list {h : Heap} {s : Multiset ℕ} {l : List ℕ} (o : Own h ((l : Multiset ℕ) + s)) (hk : ∀ n, h.ok n = true) :
    ∃ h', IK.freeAll l h = some ((), h') ∧ Own h' s ∧ (∀ n, h'.ok n = true) := by
  obtain ⟨h', e, o', k⟩ := IK.freeAll_spec l o
  exact ⟨h', e, o', by rw [k]; exact hk⟩

theorem Own.deref_pts {h : Heap} {s : Multiset ℕ} {p : Option ℕ} (o : Own h s) (hp : p.isSome) (hs : pts p ≤ s) :
    Mem.deref p h = some ((), h) := by
  obtain ⟨b, rfl⟩ := Option.isSome_iff_exists.1 hp
  exact o.deref (Multiset.singleton_le.1 hs)

/-- The clone of a motor. -/
theorem MMotor.clone_spec (m : MMotor) {h : Heap} {s : Multiset ℕ} (o : Own h s) (hk : ∀ n, h.ok n = true) (hm : MotorOK m)
    (hs : motorBlocks m ≤ s) :
    ∃ m' h', m.clone MMotor.init h = some (m', h') ∧ Own h' (motorBlocks m' + s) ∧ (∀ n, h'.ok n = true) ∧ MotorOK m' ∧ m'.kind = m.kind ∧
      (motorBlocks m').card = motorCost m.kind := by
  by_cases hn : m.kind = .none
  · obtain ⟨b, h1, e1, o1, k1⟩ := o.alloc_ok hk
    refine ⟨⟨.none, some b, none⟩, h1, ?_, o1.congr (by simp [motorBlocks]), k1, by simp [MotorOK], hn.symm, by simp [motorBlocks, motorCost, hn]⟩
    have ea : MMotor.init.assign m.kind h = some (⟨.none, none, none⟩, h) := by rw [hn]; rfl
    unfold MMotor.clone
    rw [bind_eq ea, bind_eq e1, if_pos hn]
    rfl
  · obtain ⟨a, h1, e1, o1, k1⟩ := o.alloc_ok hk
    obtain ⟨b, h2, e2, o2, k2⟩ := o1.alloc_ok k1
    refine ⟨⟨m.kind, some b, some a⟩, h2, ?_, o2.congr (by simp only [motorBlocks, pts_some]; abel), k2, by simp [MotorOK, hn], rfl,
      by simp [motorBlocks, motorCost, hn]⟩
    have d1 : deref m.prp h2 = some ((), h2) := by
      refine o2.deref_pts (hm.2 hn) (le_trans (le_trans ?_ hs) ?_)
      · exact Multiset.le_add_left _ _
      · rw [← add_assoc]; exact Multiset.le_add_left _ _
    have d2 : deref (some a) h2 = some ((), h2) := o2.deref (by simp)
    have ea : MMotor.init.assign m.kind h = some (⟨m.kind, none, some a⟩, h1) := by
      unfold MMotor.assign
      rw [if_neg hn, bind_eq e1]; rfl
    unfold MMotor.clone
    rw [bind_eq ea, bind_eq e2, if_neg hn, bind_eq d1]
    dsimp only
    rw [bind_eq d2]
    rfl

/-- The clone of a joint. -/
theorem MJoint.clone_spec (j : MJoint) {h : Heap} {s : Multiset ℕ} (o : Own h s) (hk : ∀ n, h.ok n = true) (hj : JointOK j)
    (hs : pts j.prp + motorBlocks j.motor ≤ s) :
    ∃ j' h', j.clone h = some (j', h') ∧ Own h' (pts j'.prp + motorBlocks j'.motor + s) ∧ (∀ n, h'.ok n = true) ∧ JointOK j' ∧
      j'.kind = j.kind ∧ j'.motor.kind = j.motor.kind ∧ (motorBlocks j'.motor).card = (if j.kind.motored then motorCost j.motor.kind else 0) := by
  by_cases hf : j.kind = .fixed
  · have hm : j.motor = MMotor.init := hj.none (by rw [hf]; rfl)
    refine ⟨⟨.fixed, none, MMotor.init⟩, h, ?_, o.congr (by simp [motorBlocks, MMotor.init]), hk,
      ⟨by simp, by simp [MotorOK, MMotor.init], fun _ => rfl⟩, hf.symm, by rw [hm], by simp [hf, JKind.motored, motorBlocks, MMotor.init]⟩
    unfold MJoint.clone MJoint.assign
    rw [hf]
    rfl
  · obtain ⟨a, h1, e1, o1, k1⟩ := o.alloc_ok hk
    have ea : MJoint.assign j.kind h = some (⟨j.kind, some a, MMotor.init⟩, h1) := by
      unfold MJoint.assign
      rw [if_neg hf, bind_eq e1]
      have d : deref (some a) h1 = some ((), h1) := o1.deref (by simp)
      cases hmo : j.kind.motored
      · simp only [Option.isSome_some, Bool.and_false, Bool.false_eq_true, if_false]
        rw [bind_eq (show (pure MMotor.init : M MMotor) h1 = some (MMotor.init, h1) from rfl), bind_eq d]
        rfl
      · simp only [Option.isSome_some, Bool.and_true, if_true]
        rw [bind_eq (show (MMotor.init.assign .none : M MMotor) h1 = some (MMotor.init, h1) from rfl), bind_eq d]
        rfl
    have d1 : deref j.prp h1 = some ((), h1) :=
      o1.deref_pts (hj.prp.2 hf) (le_trans (le_trans (Multiset.le_add_right _ _) hs) (Multiset.le_add_left _ _))
    have d2 : deref (some a) h1 = some ((), h1) := o1.deref (by simp)
    unfold MJoint.clone
    rw [bind_eq ea, if_neg hf, bind_eq d1]
    dsimp only
    rw [bind_eq d2]
    by_cases hmo : j.kind.motored = true
    · rw [if_pos hmo]
      obtain ⟨m', h2, e2, o2, k2, q1, q2, q3⟩ := j.motor.clone_spec o1 k1 hj.motor
        (le_trans (le_trans (Multiset.le_add_left _ _) hs) (Multiset.le_add_left _ _))
      refine ⟨⟨j.kind, some a, m'⟩, h2, by rw [bind_eq e2]; rfl, o2.congr (by simp only [pts_some]; abel), k2,
        ⟨by simp [hf], q1, fun hn => by simp [hmo] at hn⟩, rfl, q2, by rw [if_pos hmo]; exact q3⟩
    · rw [if_neg hmo]
      have hm : j.motor = MMotor.init := hj.none (by simpa using hmo)
      refine ⟨⟨j.kind, some a, MMotor.init⟩, h1, rfl, o1.congr (by simp [motorBlocks, MMotor.init]), k1,
        ⟨by simp [hf], by simp [MotorOK, MMotor.init], fun _ => rfl⟩, rfl, by rw [hm], by simp [hmo, motorBlocks, MMotor.init]⟩

theorem copyCells_spec : ∀ (l : List ℕ) {h : Heap} {s : Multiset ℕ}, Own h s → (∀ n, h.ok n = true) →
    ∃ bs h', copyCells l h = some ((true, bs), h') ∧ Own h' ((bs : Multiset ℕ) + s) ∧ (∀ n, h'.ok n = true) ∧ bs.length = l.length
  | [], h, s, o, hk => ⟨[], h, rfl, o.congr (by simp), hk, rfl⟩
  | _ :: l, h, s, o, hk => by
    obtain ⟨b, h1, e1, o1, k1⟩ := o.alloc_ok hk
    obtain ⟨bs, h2, e2, o2, k2, hl⟩ := copyCells_spec l o1 k1
    refine ⟨b :: bs, h2, ?_, o2.congr ?_, k2, by simp [hl]⟩
    · unfold copyCells
      rw [bind_eq e1]
      dsimp only
      rw [bind_eq e2]
      rfl
    · rw [← Multiset.cons_coe, ← Multiset.singleton_add]; abel

theorem MLink.clone_spec (l : MLink) {h : Heap} {s : Multiset ℕ} (o : Own h s) (hk : ∀ n, h.ok n = true) (hj : JointOK l.joint)
    (hs : linkCore l + linkExtra l ≤ s) :
    ∃ l' h', l.clone h = some (some l', h') ∧ Own h' (linkCore l' + linkExtra l' + s) ∧ (∀ n, h'.ok n = true) ∧ JointOK l'.joint ∧
      LinkLike l l' ∧ (l'.axi = none ∧ l'.iaxi = none ∧ l'.wlist = []) ∧
      (linkExtra l').card = (if l.stuff.isSome then 1 else 0) + (if l.joint.kind.motored then motorCost l.joint.motor.kind else 0) := by
  obtain ⟨a, h1, e1, o1, k1⟩ := o.alloc_ok hk
  have hjs : pts l.joint.prp + motorBlocks l.joint.motor ≤ {a} + s := by
    refine le_trans (le_trans ?_ hs) (Multiset.le_add_left _ _)
    unfold linkCore linkExtra
    rw [Multiset.le_iff_exists_add]
    exact ⟨pts l.name + (l.wrenches : Multiset ℕ) + (l.shapes : Multiset ℕ) + pts l.stuff, by abel⟩
  obtain ⟨j, h2, e2, o2, k2, q1, q2, q3, q4⟩ := l.joint.clone_spec o1 k1 hj hjs
  obtain ⟨ws, h3, e3, o3, k3, r3⟩ := copyCells_spec l.wrenches o2 k2
  obtain ⟨ss, h4, e4, o4, k4, r4⟩ := copyCells_spec l.shapes o3 k3
  have key : l.clone h = (if l.stuff.isNone = true then pure (some ⟨some a, j, ws, ss, none, none, none, []⟩) else do
        let s ← alloc
        if s.isNone = true then pure none
        else pure (some ⟨some a, j, ws, ss, s, none, none, []⟩) : M (Option MLink)) h4 := by
    unfold MLink.clone
    rw [bind_eq e1]
    dsimp only
    rw [if_neg (by simp), bind_eq e2, bind_eq e3]
    dsimp only
    rw [if_neg (by simp), bind_eq e4]
    dsimp only
    rw [if_neg (by simp)]
  rw [key]
  cases hst : l.stuff with
  | none =>
    refine ⟨_, h4, rfl, o4.congr ?_, k4, q1, ⟨q2, q3, r3, r4, by rw [hst]⟩, ⟨rfl, rfl, rfl⟩, ?_⟩
    · simp only [linkCore, linkExtra, pts_some, pts_none]; abel
    · simp [linkExtra, q4]
  | some x =>
    obtain ⟨b, h5, e5, o5, k5⟩ := o4.alloc_ok k4
    refine ⟨⟨some a, j, ws, ss, some b, none, none, []⟩, h5, ?_, o5.congr ?_, k5, q1, ⟨q2, q3, r3, r4, by rw [hst]; rfl⟩, ⟨rfl, rfl, rfl⟩, ?_⟩
    · rw [if_neg (by simp), bind_eq e5]; rfl
    · simp only [linkCore, linkExtra, pts_some]; abel
    · simp only [linkExtra, Multiset.card_add, q4, pts_some, Multiset.card_singleton, Option.isSome_some, if_true]

theorem cloneMotors_spec : ∀ (l : List MMotor) {h : Heap} {s : Multiset ℕ}, Own h s → (∀ n, h.ok n = true) → (∀ m ∈ l, MotorOK m) →
    (l.map motorBlocks).sum ≤ s →
    ∃ l' h', cloneMotors l h = some (l', h') ∧ Own h' ((l'.map motorBlocks).sum + s) ∧ (∀ n, h'.ok n = true) ∧ (∀ m ∈ l', MotorOK m) ∧
      l'.map (·.kind) = l.map (·.kind) ∧ ((l'.map motorBlocks).sum).card = (l.map fun m => motorCost m.kind).sum
  | [], h, s, o, hk, _, _ => ⟨[], h, rfl, o.congr (by simp), hk, by simp, rfl, rfl⟩
  | m :: l, h, s, o, hk, hm, hs => by
    rw [List.map_cons, List.sum_cons] at hs
    obtain ⟨m', h1, e1, o1, k1, p1, p2, p3⟩ := m.clone_spec o hk (hm m (by simp)) (le_trans (Multiset.le_add_right _ _) hs)
    obtain ⟨l', h2, e2, o2, k2, q1, q2, q3⟩ := cloneMotors_spec l o1 k1 (fun x hx => hm x (by simp [hx]))
      (le_trans (le_trans (Multiset.le_add_left _ _) hs) (Multiset.le_add_left _ _))
    refine ⟨m' :: l', h2, ?_, o2.congr (by rw [List.map_cons, List.sum_cons]; abel), k2, ?_, by simp [p2, q2], by simp [p3, q3]⟩
    · unfold cloneMotors
      rw [bind_eq e1, bind_eq e2]; rfl
    · intro x hx
      rcases List.mem_cons.1 hx with rfl | hx
      · exact p1
      · exact q1 x hx

theorem MMotors.clone_spec (mo : MMotors) {h : Heap} {s : Multiset ℕ} (o : Own h s) (hk : ∀ n, h.ok n = true)
    (hm : ∀ m ∈ mo.elem, MotorOK m) (hs : motorsExtra (some mo) ≤ s) :
    ∃ mo' h', mo.clone h = some (some mo', h') ∧ Own h' (motorsCore (some mo') + motorsExtra (some mo') + s) ∧ (∀ n, h'.ok n = true) ∧
      (∀ m ∈ mo'.elem, MotorOK m) ∧ mo'.elem.map (·.kind) = mo.elem.map (·.kind) ∧
      (motorsExtra (some mo')).card = (mo.elem.map fun m => motorCost m.kind).sum := by
  obtain ⟨a, h1, e1, o1, k1⟩ := o.alloc_ok hk
  by_cases he : mo.elem = []
  · refine ⟨⟨a, none, []⟩, h1, ?_, o1.congr (by simp [motorsCore, motorsExtra]), k1, by simp, by simp [he], by simp [motorsExtra, he]⟩
    unfold MMotors.clone
    rw [bind_eq e1]
    dsimp only
    rw [if_pos he]; rfl
  · obtain ⟨b, h2, e2, o2, k2⟩ := o1.alloc_ok k1
    obtain ⟨l, h3, e3, o3, k3, q1, q2, q3⟩ := cloneMotors_spec mo.elem o2 k2 hm
      (le_trans hs (le_trans (Multiset.le_add_left _ _) (Multiset.le_add_left _ _)))
    refine ⟨⟨a, some b, l⟩, h3, ?_, o3.congr (by simp only [motorsCore, motorsExtra, pts_some]; abel), k3, q1, q2, q3⟩
    unfold MMotors.clone
    rw [bind_eq e1]
    dsimp only
    rw [if_neg he, bind_eq e2]
    rw [if_neg (by simp), bind_eq e3]; rfl

namespace MChain

theorem cloneLinks_spec : ∀ (ls : List MLink) {h : Heap} {s : Multiset ℕ}, Own h s → (∀ n, h.ok n = true) →
    (∀ l ∈ ls, JointOK l.joint) → (ls.map linkCore).sum + (ls.map linkExtra).sum ≤ s →
    ∃ ls' h', cloneLinks ls h = some (some ls', h') ∧ Own h' ((ls'.map linkCore).sum + (ls'.map linkExtra).sum + s) ∧ (∀ n, h'.ok n = true) ∧
      (∀ l ∈ ls', JointOK l.joint) ∧ List.Forall₂ LinkLike ls ls' ∧ (∀ l ∈ ls', l.axi = none ∧ l.iaxi = none ∧ l.wlist = []) ∧
      ((ls'.map linkExtra).sum).card = (ls.map fun l => (if l.stuff.isSome then 1 else 0) +
        (if l.joint.kind.motored then motorCost l.joint.motor.kind else 0)).sum
  | [], h, s, o, hk, _, _ => ⟨[], h, rfl, o.congr (by simp), hk, by simp, .nil, by simp, rfl⟩
  | l :: ls, h, s, o, hk, hj, hs => by
    rw [List.map_cons, List.sum_cons, List.map_cons, List.sum_cons] at hs
    have hs1 : linkCore l + linkExtra l ≤ s := by
      refine le_trans ?_ hs
      rw [Multiset.le_iff_exists_add]
      exact ⟨(ls.map linkCore).sum + (ls.map linkExtra).sum, by abel⟩
    obtain ⟨l', h1, e1, o1, k1, p1, p2, p3, p4⟩ := l.clone_spec o hk (hj l (by simp)) hs1
    have hs2 : (ls.map linkCore).sum + (ls.map linkExtra).sum ≤ linkCore l' + linkExtra l' + s := by
      refine le_trans (le_trans ?_ hs) (Multiset.le_add_left _ _)
      rw [Multiset.le_iff_exists_add]
      exact ⟨linkCore l + linkExtra l, by abel⟩
    obtain ⟨ls', h2, e2, o2, k2, q1, q2, q3, q4⟩ := cloneLinks_spec ls o1 k1 (fun x hx => hj x (by simp [hx])) hs2
    refine ⟨l' :: ls', h2, ?_, o2.congr ?_, k2, ?_, .cons p2 q2, ?_, ?_⟩
    · unfold cloneLinks
      rw [bind_eq e1]
      dsimp only
      rw [bind_eq e2]; rfl
    · simp only [List.map_cons, List.sum_cons]; abel
    · intro x hx
      rcases List.mem_cons.1 hx with rfl | hx
      · exact p1
      · exact q1 x hx
    · intro x hx
      rcases List.mem_cons.1 hx with rfl | hx
      · exact p3
      · exact q3 x hx
    · simp only [List.map_cons, List.sum_cons, Multiset.card_add, p4, q4]

theorem cloneRest_spec (c : MChain) (n sh : Option ℕ) (mo : Option MMotors) {h : Heap} {s : Multiset ℕ} (o : Own h s)
    (hk : ∀ n, h.ok n = true) (hj : ∀ l ∈ c.links, JointOK l.joint)
    (hs : (c.links.map linkCore).sum + (c.links.map linkExtra).sum ≤ s) :
    ∃ c' h', c.cloneRest n sh mo h = some (some c', h') ∧
      Own h' ((c'.links.map linkCore).sum + pts c'.arr + (c'.links.map linkExtra).sum + s) ∧
      (∀ n, h'.ok n = true) ∧ c'.name = n ∧ c'.shape = sh ∧ c'.motors = mo ∧ c'.arr.isSome ∧
      (∀ l ∈ c'.links, JointOK l.joint) ∧ List.Forall₂ LinkLike c.links c'.links ∧
      (∀ l ∈ c'.links, l.axi = none ∧ l.iaxi = none ∧ l.wlist = []) ∧
      ((c'.links.map linkExtra).sum).card = (c.links.map fun l => (if l.stuff.isSome then 1 else 0) +
        (if l.joint.kind.motored then motorCost l.joint.motor.kind else 0)).sum := by
  obtain ⟨a, h1, e1, o1, k1⟩ := o.alloc_ok hk
  obtain ⟨ls, h2, e2, o2, k2, q1, q2, q3, q4⟩ := cloneLinks_spec c.links o1 k1 hj (le_trans hs (Multiset.le_add_left _ _))
  refine ⟨⟨n, some a, ls, sh, mo⟩, h2, ?_, o2.congr (by simp only [pts_some]; abel), k2, rfl, rfl, rfl, rfl, q1, q2, q3, q4⟩
  unfold cloneRest
  rw [bind_eq e1]
  rw [if_neg (by simp), bind_eq e2]; rfl

theorem clone_spec (c : MChain) {h : Heap} {s : Multiset ℕ} (o : Own h s) (hk : ∀ n, h.ok n = true) (hc : ChainOK c)
    (hne : c.links ≠ []) (hs : chainCore c + chainExtra c ≤ s) :
    ∃ c' h', c.clone h = some (some c', h') ∧ Own h' (chainCore c' + chainExtra c' + s) ∧ (∀ n, h'.ok n = true) ∧ ChainOK c' ∧
      ChainLike c c' ∧ chainABI c' = 0 ∧ (chainExtra c').card = cloneCost c ∧ c'.links ≠ [] := by
  have hl : (c.links.map linkCore).sum + (c.links.map linkExtra).sum ≤ s := by
    refine le_trans ?_ hs
    rw [Multiset.le_iff_exists_add]
    exact ⟨pts c.name + pts c.arr + pts c.shape + motorsCore c.motors + motorsExtra c.motors, by
      unfold chainCore chainExtra; abel⟩
  have hm : motorsExtra c.motors ≤ s := by
    refine le_trans ?_ hs
    unfold chainExtra
    exact le_trans (Multiset.le_add_left _ _) (Multiset.le_add_left _ _)
  obtain ⟨a, h1, e1, o1, k1⟩ := o.alloc_ok hk
  have hsh : ∃ sh h2, cloneShape c h1 = some (sh, h2) ∧
      Own h2 (pts sh + ({a} + s)) ∧ (∀ n, h2.ok n = true) ∧ sh.isSome = c.shape.isSome := by
    cases hx : c.shape with
    | none => exact ⟨none, h1, by unfold cloneShape; rw [hx]; rfl, o1.congr (by simp), k1, rfl⟩
    | some _ =>
      obtain ⟨b, h2, e2, o2, k2⟩ := o1.alloc_ok k1
      exact ⟨some b, h2, by unfold cloneShape; rw [hx]; exact e2, o2, k2, rfl⟩
  obtain ⟨sh, h2, e2, o2, k2, r2⟩ := hsh
  have nodd : ∀ (ls ls' : List MLink), List.Forall₂ LinkLike ls ls' → ls ≠ [] → ls' ≠ [] := by
    intro ls ls' hf h0
    cases hf with
    | nil => exact absurd rfl h0
    | cons _ _ => simp
  have abi0 : ∀ ls : List MLink, (∀ l ∈ ls, l.axi = none ∧ l.iaxi = none ∧ l.wlist = []) → (ls.map linkABI).sum = 0 := by
    intro ls
    induction ls with
    | nil => intro _; rfl
    | cons l ls ih =>
      intro hh
      obtain ⟨x1, x2, x3⟩ := hh l (by simp)
      rw [List.map_cons, List.sum_cons, ih fun y hy => hh y (by simp [hy])]
      simp [linkABI, x1, x2, x3]
  unfold clone
  rw [if_neg hne, bind_eq e1]
  rw [if_neg (by simp), bind_eq e2]
  rw [if_neg (by rw [← r2]; cases sh <;> simp)]
  cases hmo : c.motors with
  | none =>
    dsimp only
    obtain ⟨c', h3, e3, o3, k3, t1, t2, t3, t4, t5, t6, t7, t8⟩ := cloneRest_spec c (some a) sh none o2 k2 hc.joint
      (le_trans hl (le_trans (Multiset.le_add_left _ _) (Multiset.le_add_left _ _)))
    refine ⟨c', h3, e3, o3.congr ?_, k3, ⟨t5, by rw [t3]; simp, fun h0 => absurd h0 (nodd _ _ t6 hne)⟩, ⟨t6, by rw [t2, r2], by rw [t3, hmo]⟩, abi0 _ t7, ?_, nodd _ _ t6 hne⟩
    · unfold chainCore chainExtra
      rw [t1, t2, t3]
      simp only [motorsCore, motorsExtra, pts_some]; abel
    · unfold chainExtra cloneCost
      rw [t3, Multiset.card_add, t8, hmo]; rfl
  | some mo =>
    dsimp only
    obtain ⟨mo', h3, e3, o3, k3, u1, u2, u3⟩ := mo.clone_spec o2 k2 (hc.motor mo (by rw [hmo]; rfl))
      (le_trans (by rw [hmo] at hm; exact hm) (le_trans (Multiset.le_add_left _ _) (Multiset.le_add_left _ _)))
    rw [bind_eq e3]
    dsimp only
    obtain ⟨c', h4, e4, o4, k4, t1, t2, t3, t4, t5, t6, t7, t8⟩ := cloneRest_spec c (some a) sh (some mo') o3 k3 hc.joint
      (le_trans hl (le_trans (Multiset.le_add_left _ _) (le_trans (Multiset.le_add_left _ _) (Multiset.le_add_left _ _))))
    refine ⟨c', h4, e4, o4.congr ?_, k4, ⟨t5, ?_, fun h0 => absurd h0 (nodd _ _ t6 hne)⟩, ⟨t6, by rw [t2, r2], ?_⟩, abi0 _ t7, ?_, nodd _ _ t6 hne⟩
    · unfold chainCore chainExtra
      rw [t1, t2, t3]
      simp only [pts_some]; abel
    · rw [t3]
      intro m hm' x hx
      obtain rfl : mo' = m := by simpa using hm'
      exact u1 x hx
    · rw [t3, hmo]; simp [u2]
    · unfold chainExtra cloneCost
      rw [t3, Multiset.card_add, t8, hmo, u3]

theorem _root_.Roki.Mem.MLink.destroy_spec (l : MLink) {h : Heap} {s : Multiset ℕ} (o : Own h (linkCore l + s)) (hk : ∀ n, h.ok n = true) :
    ∃ h', l.destroy h = some ((), h') ∧ Own h' s ∧ (∀ n, h'.ok n = true) := by
  obtain ⟨h1, e1, o1, k1⟩ := Own.free_pts (p := l.name) (o.congr (by unfold linkCore; simp only [add_assoc]; rfl)) hk
  obtain ⟨h2, e2, o2, k2⟩ := o1.free_pts k1
  obtain ⟨h3, e3, o3, k3⟩ := o2.freeAll_list k2
  obtain ⟨h4, e4, o4, k4⟩ := o3.freeAll_list k3
  refine ⟨h4, ?_, o4, k4⟩
  unfold MLink.destroy
  rw [bind_eq e1, bind_eq e2, bind_eq e3, e4]

theorem destroyLinks_spec : ∀ (ls : List MLink) {h : Heap} {s : Multiset ℕ}, Own h ((ls.map linkCore).sum + s) → (∀ n, h.ok n = true) →
    ∃ h', destroyLinks ls h = some ((), h') ∧ Own h' s ∧ (∀ n, h'.ok n = true)
  | [], h, s, o, hk => ⟨h, rfl, o.congr (by simp), hk⟩
  | l :: ls, h, s, o, hk => by
    obtain ⟨h1, e1, o1, k1⟩ := l.destroy_spec (o.congr (by rw [List.map_cons, List.sum_cons, add_assoc])) hk
    obtain ⟨h2, e2, o2, k2⟩ := destroyLinks_spec ls o1 k1
    exact ⟨h2, by unfold destroyLinks; rw [bind_eq e1, e2], o2, k2⟩

theorem destroy_spec (c : MChain) {h : Heap} {s : Multiset ℕ} (o : Own h (chainCore c + s)) (hk : ∀ n, h.ok n = true) :
    ∃ h', c.destroy h = some (init, h') ∧ Own h' s ∧ (∀ n, h'.ok n = true) := by
  obtain ⟨h1, e1, o1, k1⟩ := Own.free_pts (p := c.name) (o.congr (by unfold chainCore; simp only [add_assoc]; rfl)) hk
  obtain ⟨h2, e2, o2, k2⟩ := destroyLinks_spec _ o1 k1
  obtain ⟨h3, e3, o3, k3⟩ := o2.free_pts k2
  obtain ⟨h4, e4, o4, k4⟩ := o3.free_pts k3
  unfold destroy
  rw [bind_eq e1, bind_eq e2, bind_eq e3, bind_eq e4]
  cases hm : c.motors with
  | none => exact ⟨h4, rfl, o4.congr (by rw [hm]; simp [motorsCore]), k4⟩
  | some mo =>
    obtain ⟨h5, e5, o5, k5⟩ := Own.free_pts (p := mo.buf) (s := {mo.self} + s) (o4.congr (by rw [hm]; simp only [motorsCore, add_assoc])) k4
    obtain ⟨h6, e6, o6, k6⟩ := Own.free_pts (p := some mo.self) o5 k5
    exact ⟨h6, by dsimp only; rw [bind_eq e5, bind_eq e6]; rfl, o6, k6⟩

/-- The parts of a link that forward dynamics does not touch. -/
structure SameRest (l l' : MLink) : Prop where
  core : linkCore l' = linkCore l
  extra : linkExtra l' = linkExtra l
  joint : l'.joint = l.joint
  stuff : l'.stuff = l.stuff

theorem SameRest.all {ls ls' : List MLink} (hf : List.Forall₂ SameRest ls ls') :
    ls'.map linkCore = ls.map linkCore ∧ ls'.map linkExtra = ls.map linkExtra ∧
    ls'.map (·.joint) = ls.map (·.joint) ∧ ls'.map (·.stuff) = ls.map (·.stuff) := by
  induction hf with
  | nil => simp
  | cons h _ ih => simp [h.core, h.extra, h.joint, h.stuff, ih]

theorem abiAllocLinks_spec : ∀ (ls : List MLink) {h : Heap} {s : Multiset ℕ}, Own h s → (∀ n, h.ok n = true) →
    ∃ ls' h', abiAllocLinks ls h = some (ls', h') ∧ Own h' ((ls'.map linkABI).sum + s) ∧ (∀ n, h'.ok n = true) ∧
      List.Forall₂ SameRest ls ls'
  | [], h, s, o, hk => ⟨[], h, rfl, o.congr (by simp), hk, .nil⟩
  | l :: ls, h, s, o, hk => by
    have h0 : ∃ l' h', l.abiAlloc h = some (l', h') ∧ Own h' (linkABI l' + s) ∧ (∀ n, h'.ok n = true) ∧ SameRest l l' := by
      by_cases hz : l.joint.kind.size = 0
      · refine ⟨{ l with axi := none, iaxi := none, wlist := [] }, h, by unfold MLink.abiAlloc; rw [if_pos hz]; rfl, o.congr (by simp [linkABI]), hk, ⟨rfl, rfl, rfl, rfl⟩⟩
      · obtain ⟨a, h1, e1, o1, k1⟩ := o.alloc_ok hk
        obtain ⟨b, h2, e2, o2, k2⟩ := o1.alloc_ok k1
        refine ⟨{ l with axi := some a, iaxi := some b, wlist := [] }, h2, ?_, o2.congr ?_, k2, ⟨rfl, rfl, rfl, rfl⟩⟩
        · unfold MLink.abiAlloc; rw [if_neg hz, bind_eq e1, bind_eq e2]; rfl
        · simp only [linkABI, pts_some, Multiset.coe_nil]; abel
    obtain ⟨l', h1, e1, o1, k1, r1⟩ := h0
    obtain ⟨ls', h2, e2, o2, k2, r2⟩ := abiAllocLinks_spec ls o1 k1
    refine ⟨l' :: ls', h2, ?_, o2.congr ?_, k2, .cons r1 r2⟩
    · unfold abiAllocLinks; rw [bind_eq e1, bind_eq e2]; rfl
    · rw [List.map_cons, List.sum_cons]; abel

theorem abiDestroyLinks_spec (nul : Bool) : ∀ (ls : List MLink) {h : Heap} {s : Multiset ℕ}, Own h ((ls.map linkABI).sum + s) →
    (∀ n, h.ok n = true) →
    ∃ ls' h', abiDestroyLinks nul ls h = some (ls', h') ∧ Own h' s ∧ (∀ n, h'.ok n = true) ∧ List.Forall₂ SameRest ls ls'
  | [], h, s, o, hk => ⟨[], h, rfl, o.congr (by simp), hk, .nil⟩
  | l :: ls, h, s, o, hk => by
    obtain ⟨h1, e1, o1, k1⟩ := Own.free_pts (p := l.axi)
      (o.congr (by rw [List.map_cons, List.sum_cons, linkABI]; simp only [add_assoc]; rfl)) hk
    obtain ⟨h2, e2, o2, k2⟩ := o1.free_pts k1
    obtain ⟨h3, e3, o3, k3⟩ := o2.freeAll_list k2
    obtain ⟨ls', h4, e4, o4, k4, r4⟩ := abiDestroyLinks_spec nul ls o3 k3
    refine ⟨{ l with axi := after nul l.axi, iaxi := after nul l.iaxi, wlist := [] } :: ls', h4, ?_, o4, k4, .cons ⟨rfl, rfl, rfl, rfl⟩ r4⟩
    have el : l.abiDestroy nul h = some ({ l with axi := after nul l.axi, iaxi := after nul l.iaxi, wlist := [] }, h3) := by
      unfold MLink.abiDestroy
      rw [bind_eq e1, bind_eq e2, bind_eq e3]; rfl
    unfold abiDestroyLinks
    rw [bind_eq el, bind_eq e4]; rfl

theorem wrenchDestroyLinks_spec : ∀ (ls : List MLink) {h : Heap} {s : Multiset ℕ}, Own h ((ls.map linkCore).sum + s) →
    (∀ n, h.ok n = true) →
    ∃ ls' h', wrenchDestroyLinks ls h = some (ls', h') ∧ Own h' ((ls'.map linkCore).sum + s) ∧ (∀ n, h'.ok n = true) ∧
      ls' = ls.map fun l => { l with wrenches := [] }
  | [], h, s, o, hk => ⟨[], h, rfl, o.congr (by simp), hk, rfl⟩
  | l :: ls, h, s, o, hk => by
    obtain ⟨h1, e1, o1, k1⟩ := Own.freeAll_list (l := l.wrenches) (s := pts l.name + pts l.joint.prp + (l.shapes : Multiset ℕ) + ((ls.map linkCore).sum + s))
      (o.congr (by rw [List.map_cons, List.sum_cons, linkCore]; abel)) hk
    obtain ⟨ls', h2, e2, o2, k2, r2⟩ := wrenchDestroyLinks_spec ls (s := pts l.name + pts l.joint.prp + (l.shapes : Multiset ℕ) + s)
      (o1.congr (by abel)) k1
    refine ⟨{ l with wrenches := [] } :: ls', h2, ?_, o2.congr ?_, k2, by rw [r2]; rfl⟩
    · unfold wrenchDestroyLinks; rw [bind_eq e1, bind_eq e2]; rfl
    · rw [List.map_cons, List.sum_cons, linkCore]; simp only [Multiset.coe_nil]; abel

end MChain

end Roki.Mem
