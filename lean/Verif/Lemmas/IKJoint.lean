import Verif.Lemmas.IKReg
set_option autoImplicit false

/-! # Inverse kinematics: registrations of joints -/

namespace Roki
variable {K : Type*} [Field K]
namespace IK

theorem keys_cons {l m : Link K} {ls ms : List (Link K)} (h : keys (l :: ls) = keys (m :: ms)) :
    l.size = m.size ∧ l.offset = m.offset ∧ keys ls = keys ms := by
  simp only [keys, List.map_cons, List.cons.injEq, Link.key, Prod.mk.injEq] at h
  exact ⟨h.1.1, h.1.2, h.2⟩

theorem clearSw_congr (ls : List (Link K)) :
    ∀ (ms : List (Link K)) (sw : List Bool), keys ls = keys ms → clearSw ls sw = clearSw ms sw := by
  induction ls with
  | nil => intro ms sw h; cases ms <;> simp_all [keys]
  | cons l ls ih =>
    intro ms sw h
    cases ms with
    | nil => simp [keys] at h
    | cons m ms =>
      have := keys_cons h
      cases sw with
      | nil => rfl
      | cons b sw => simp only [clearSw, this.1, ih _ _ this.2.2]

theorem offsetsFrom_congr (ls : List (Link K)) :
    ∀ (ms : List (Link K)) (sw : List Bool) (n : ℕ), keys ls = keys ms →
      offsetsFrom n ls sw = offsetsFrom n ms sw := by
  induction ls with
  | nil => intro ms sw n h; cases ms <;> simp_all [keys]
  | cons l ls ih =>
    intro ms sw n h
    cases ms with
    | nil => simp [keys] at h
    | cons m ms =>
      have := keys_cons h
      cases sw with
      | nil => rfl
      | cons b sw => simp only [offsetsFrom, this.1, ih _ _ _ this.2.2]

theorem weights_congr {ls ms : List (Link K)} (h : keys ls = keys ms) (w : List K) (idx : List ℕ) :
    weights ls w idx = weights ms w idx := by
  induction idx with
  | nil => rfl
  | cons i idx ih =>
    simp only [weights, ih]
    have := keys_getElem? h i
    cases h1 : ls[i]? <;> cases h2 : ms[i]? <;> simp [h1, h2, Link.key] at this ⊢
    simp [Link.size, this.1]

theorem jointIndexSize_weights (ls : List (Link K)) (w : List K) (idx : List ℕ) :
    ∀ {n : ℕ} {wn : List K}, LinkArray.jointIndexSize ls idx = some n → weights ls w idx = some wn →
      n = wn.length := by
  induction idx with
  | nil =>
    intro n wn h1 h2
    simp only [LinkArray.jointIndexSize, weights, Option.some.injEq] at h1 h2
    rw [← h1, ← h2]; rfl
  | cons i idx ih =>
    intro n wn h1 h2
    simp only [weights, Option.bind_eq_bind, Option.bind_eq_some_iff, pure, Option.some.injEq] at h2
    obtain ⟨l, hl, x, hx, r, hr, rfl⟩ := h2
    simp only [LinkArray.jointIndexSize, hl] at h1
    cases h2 : LinkArray.jointIndexSize ls idx with
    | none => simp [h2] at h1
    | some s =>
      simp only [h2, Option.some.injEq] at h1
      rw [← h1, ih h2 hr]
      simp

theorem clearSw_length (ls : List (Link K)) :
    ∀ sw : List Bool, sw.length = ls.length → (clearSw ls sw).length = ls.length := by
  induction ls with
  | nil => intro sw _; cases sw <;> rfl
  | cons l ls ih =>
    intro sw h
    cases sw with
    | nil => simp at h
    | cons b sw => simp only [clearSw, List.length_cons]; rw [ih sw (by simpa using h)]

theorem clearSw_true (ls : List (Link K)) :
    ∀ (sw : List Bool) (i : ℕ), sw.length = ls.length →
      ((clearSw ls sw)[i]? = some true ↔ sw[i]? = some true ∧ Spec.Movable ls i) := by
  induction ls with
  | nil =>
    intro sw i h
    have : sw = [] := List.length_eq_zero_iff.1 (by simpa using h)
    subst this
    simp [clearSw]
  | cons l ls ih =>
    intro sw i h
    cases sw with
    | nil => simp at h
    | cons b sw =>
      cases i with
      | zero =>
        simp only [clearSw, List.getElem?_cons_zero, Option.some.injEq, Spec.Movable, Link.size,
          exists_eq_left']
        split_ifs with h0
        · simp [h0]
        · exact ⟨fun h => ⟨h, Nat.pos_of_ne_zero h0⟩, fun h => h.1⟩
      | succ i =>
        simp only [clearSw, List.getElem?_cons_succ]
        rw [ih sw i (by simpa using h)]
        simp [Spec.Movable]

theorem Movable_congr {ls ms : List (Link K)} (h : keys ls = keys ms) (i : ℕ) :
    Spec.Movable ls i ↔ Spec.Movable ms i := by
  have := keys_getElem? h i
  simp only [Spec.Movable]
  cases h1 : ls[i]? <;> cases h2 : ms[i]? <;> simp [h1, h2, Link.key] at this ⊢
  rw [this.1]

open scoped Classical

/-- What a solver knows about the registered joints. -/
structure Joints (ls : List (Link K)) (reg : ℕ → Option K) (ik : IK K) : Prop where
  keys : keys ik.chain.link = keys ls
  lsw : ik.sw.length = ls.length
  lwt : ik.weight.length = ls.length
  lvel : ik.vel.length = LinkArray.jointSize ls
  mov : ∀ i : ℕ, ik.sw[i]? = some true → Spec.Movable ls i
  reg : ∀ i : ℕ, reg i = if ik.sw[i]? = some true then ik.weight[i]? else none
  idx : (∃ i : ℕ, ik.sw[i]? = some true) → ik.jidx = some (indexFrom 0 ik.sw) ∧
    ik.jofs = offsetsFrom 0 ls ik.sw ∧ weights ls ik.weight (indexFrom 0 ik.sw) = some ik.jwn ∧
    ik.jvel.length = ik.jwn.length

theorem Joints.same {ls : List (Link K)} {reg : ℕ → Option K} {a b : IK K} (h : Joints ls reg a)
    (e : Same a b) : Joints ls reg b := by
  refine ⟨e.keys.trans h.keys, e.sw ▸ h.lsw, e.weight ▸ h.lwt, e.vel.trans h.lvel, ?_, ?_, ?_⟩
  · rw [e.sw]; exact h.mov
  · rw [e.sw, e.weight]; exact h.reg
  · rw [e.sw, e.jidx, e.jofs, e.weight, e.jwn, e.jvel]; exact h.idx

theorem Joints.create (c : Chain K) (jv : List (List K) → List K → List K → List K → List K → ℕ → K) :
    Joints c.link (fun _ => none) (IK.create c jv) := by
  have hf : ∀ i : ℕ, ¬ ((List.replicate c.link.length false)[i]? = some true) := by
    intro i h
    rw [List.getElem?_replicate] at h
    split_ifs at h
    simp at h
  refine ⟨rfl, by simp [IK.create], by simp [IK.create], by simp [IK.create], ?_, ?_, ?_⟩
  · intro i h; exact absurd h (hf i)
  · intro i; exact (if_neg (hf i)).symm
  · rintro ⟨i, h⟩; exact absurd h (hf i)

theorem count_eq_zero (sw : List Bool) : sw.count true = 0 ↔ ¬ ∃ i : ℕ, sw[i]? = some true := by
  rw [List.count_eq_zero, List.mem_iff_getElem?]

theorem allocJointIndex_joints {ls : List (Link K)} {reg : ℕ → Option K} {a b : IK K}
    (keys : Roki.keys a.chain.link = Roki.keys ls) (lsw : a.sw.length = ls.length)
    (lwt : a.weight.length = ls.length) (lvel : a.vel.length = LinkArray.jointSize ls)
    (hreg : ∀ i : ℕ, reg i = if a.sw[i]? = some true ∧ Spec.Movable ls i then a.weight[i]? else none)
    (h : a.allocJointIndex = some b) :
    Joints ls reg b ∧ b.clist = a.clist ∧ b.chain = a.chain ∧ b.vel = a.vel := by
  have hsw : clearSw a.chain.link a.sw = clearSw ls a.sw := clearSw_congr _ _ _ keys
  simp only [allocJointIndex, hsw] at h
  have key : ∀ i : ℕ, (clearSw ls a.sw)[i]? = some true ↔ a.sw[i]? = some true ∧ Spec.Movable ls i :=
    fun i => clearSw_true ls a.sw i lsw
  split_ifs at h with hc
  · rw [← Option.some.inj h]
    refine ⟨⟨keys, clearSw_length _ _ lsw, lwt, lvel, fun i hi => ((key i).1 hi).2, ?_, ?_⟩, rfl, rfl, rfl⟩
    · intro i; rw [hreg]; simp only [key]
    · intro hh; exact absurd hh ((count_eq_zero _).1 hc)
  · simp only [Option.bind_eq_some_iff] at h
    obtain ⟨n, hn, wn, hwn, h⟩ := h
    obtain ⟨e, e1, e2, e3⟩ := allocCMat_same h
    refine ⟨⟨e.keys.trans keys, e.sw ▸ clearSw_length _ _ lsw, e.weight ▸ lwt, e.vel.trans lvel, ?_, ?_, ?_⟩,
      e1, e2, e3⟩
    · rw [e.sw]; exact fun i hi => ((key i).1 hi).2
    · intro i; rw [hreg, e.sw, e.weight]; simp only [key]
    · intro _
      rw [e.sw, e.jidx, e.jofs, e.weight, e.jwn, e.jvel]
      refine ⟨rfl, offsetsFrom_congr _ _ _ _ keys, ?_, ?_⟩
      · rw [← weights_congr keys]; exact hwn
      · simpa using jointIndexSize_weights _ _ _ hn hwn

theorem jointReg'_joints {ls : List (Link K)} {reg : ℕ → Option K} {a b : IK K} (h : Joints ls reg a)
    {id : ℤ} {sw ok : Bool} {w : K} (hr : a.jointReg' id sw w = some (ok, b)) :
    Joints ls (fun i => if (i : ℤ) = id then (if sw = true ∧ Spec.Movable ls i then some w else none) else reg i) b ∧
      b.clist = a.clist ∧ b.chain = a.chain ∧ b.vel = a.vel ∧ (ok = true ↔ 0 ≤ id ∧ id < ls.length) := by
  have hlen : a.chain.link.length = ls.length := keys_length h.keys
  have hreg := h.reg
  simp only [jointReg'] at hr
  split_ifs at hr with hc
  · simp only [Option.some.injEq, Prod.mk.injEq] at hr
    obtain ⟨rfl, rfl⟩ := hr
    refine ⟨?_, rfl, rfl, rfl, ?_⟩
    · have : (fun i : ℕ => if (i : ℤ) = id then (if sw = true ∧ Spec.Movable ls i then some w else none) else reg i)
          = reg := by
        funext i
        split_ifs with h1 h2
        · obtain ⟨l, hl, _⟩ := h2.2
          have := (List.getElem?_eq_some_iff.1 hl).1
          omega
        · rw [hreg]
          split_ifs with h3
          · have := (List.getElem?_eq_some_iff.1 h3).1
            have := h.lsw
            omega
          · rfl
        · rfl
      rw [this]; exact h
    · simp only [Bool.false_eq_true, false_iff, not_and]; omega
  · simp only [Option.map_eq_some_iff, Prod.mk.injEq] at hr
    obtain ⟨b', hb, h1, rfl⟩ := hr
    have hid : 0 ≤ id ∧ id < ls.length := by omega
    obtain ⟨j1, j2, j3, j4⟩ := allocJointIndex_joints (ls := ls) (reg := fun i => if (i : ℤ) = id then
      (if sw = true ∧ Spec.Movable ls i then some w else none) else reg i) (a := { a with
        sw := a.sw.set id.toNat sw, weight := a.weight.set id.toNat w }) h.keys (by simp [h.lsw])
        (by simp [h.lwt]) h.lvel (by
          intro i
          simp only [List.getElem?_set]
          by_cases hi : (i : ℤ) = id
          · have e1 : id.toNat = i := by omega
            have e2 : i < a.sw.length := by have := h.lsw; omega
            have e3 : i < a.weight.length := by have := h.lwt; omega
            simp [hi, e1, e2, e3]
          · have e1 : ¬ id.toNat = i := by omega
            simp only [if_neg hi, if_neg e1, hreg]
            by_cases h3 : a.sw[i]? = some true
            · simp [h3, h.mov i h3]
            · simp [h3]) hb
    exact ⟨j1, j2, j3, j4, by simp [← h1, hid]⟩

theorem jointRegAllFrom_joints {ls : List (Link K)} (w : K) (is : List ℕ) :
    ∀ {reg : ℕ → Option K} {a b : IK K} {ok : Bool}, Joints ls reg a →
      jointRegAllFrom w is a = some (ok, b) → (∀ i ∈ is, i < ls.length) →
      ∃ reg' : ℕ → Option K, (∀ i : ℕ, (i ∈ is ∧ Spec.Movable ls i → reg' i = some w) ∧
          (¬ (i ∈ is ∧ Spec.Movable ls i) → reg' i = reg i)) ∧ Joints ls reg' b ∧
        b.clist = a.clist ∧ b.chain = a.chain ∧ b.vel = a.vel ∧ ok = true := by
  induction is with
  | nil =>
    intro reg a b ok h hr _
    simp only [jointRegAllFrom, Option.some.injEq, Prod.mk.injEq] at hr
    obtain ⟨rfl, rfl⟩ := hr
    exact ⟨reg, by simp, h, rfl, rfl, rfl, rfl⟩
  | cons k is ih =>
    intro reg a b ok h hr hlt
    simp only [jointRegAllFrom, Option.bind_eq_bind, Option.bind_eq_some_iff] at hr
    obtain ⟨l, hl, hr⟩ := hr
    have hm : Spec.Movable ls k ↔ 0 < l.size := by
      rw [← Movable_congr h.keys]; simp [Spec.Movable, hl, Link.size]
    split_ifs at hr with hs
    · simp only [Option.bind_eq_some_iff] at hr
      obtain ⟨⟨ok1, a1⟩, h1, hr⟩ := hr
      obtain ⟨j1, j2, j3, j4, j5⟩ := jointReg'_joints h h1
      have hk : ok1 = true := j5.2 ⟨by omega, by have := hlt k (by simp); omega⟩
      simp only [hk, if_true] at hr
      obtain ⟨reg', e, i1, i2, i3, i4, i5⟩ := ih j1 hr (fun i hi => hlt i (by simp [hi]))
      refine ⟨reg', ?_, i1, i2.trans j2, i3.trans j3, i4.trans j4, i5⟩
      intro i
      refine ⟨fun ⟨hi, hmv⟩ => ?_, fun hn => ?_⟩
      · by_cases hi' : i ∈ is
        · exact (e i).1 ⟨hi', hmv⟩
        · have hik : i = k := by simpa [hi'] using hi
          rw [(e i).2 (fun h => hi' h.1)]
          subst hik
          simp [hmv]
      · rw [(e i).2 (fun h => hn ⟨by simp [h.1], h.2⟩)]
        by_cases hik : (i : ℤ) = k
        · have : i = k := by omega
          subst this
          exact absurd ⟨by simp, hm.2 hs⟩ hn
        · simp [hik]
    · obtain ⟨reg', e, i1, i2, i3, i4, i5⟩ := ih h hr (fun i hi => hlt i (by simp [hi]))
      refine ⟨reg', ?_, i1, i2, i3, i4, i5⟩
      intro i
      have hne : Spec.Movable ls i → i ≠ k := by rintro hm' rfl; exact hs (hm.1 hm')
      refine ⟨fun ⟨hi, hmv⟩ => (e i).1 ⟨?_, hmv⟩, fun hn => (e i).2 fun h => hn ⟨by simp [h.1], h.2⟩⟩
      simpa [hne hmv] using hi

theorem jointRegAll_joints {ls : List (Link K)} {w : K} {reg : ℕ → Option K} {a b : IK K} {ok : Bool}
    (h : Joints ls reg a) (hr : a.jointRegAll w = some (ok, b)) :
    Joints ls (Spec.ikJointsStep ls reg (.jointRegAll w)) b ∧
      b.clist = a.clist ∧ b.chain = a.chain ∧ b.vel = a.vel ∧ ok = true := by
  have hlen : a.chain.link.length = ls.length := keys_length h.keys
  obtain ⟨reg', e, j⟩ := jointRegAllFrom_joints w _ h hr (by intro i hi; rw [List.mem_range] at hi; omega)
  have : Spec.ikJointsStep ls reg (.jointRegAll w) = reg' := by
    funext i
    simp only [Spec.ikJointsStep]
    split_ifs with hm
    · have : i < ls.length := by obtain ⟨l, hl, _⟩ := hm; exact (List.getElem?_eq_some_iff.1 hl).1
      rw [(e i).1 ⟨by rw [List.mem_range]; omega, hm⟩]
    · rw [(e i).2 fun h => hm h.2]
  rw [this]; exact j

variable [LinearOrder K] [Zm K] [ZSqrt K]

/-- One call keeps the agreement with the registered joints and constraints. -/
theorem Op.run_inv {ls : List (Link K)} {reg : ℕ → Option K} {t : List (ℕ × ℕ)} {a b : IK K}
    (hj : Joints ls reg a) (o : Op K) (h : o.run a = some b) :
    Joints ls (Spec.ikJointsStep ls reg o) b ∧
      (Table a t → (∀ ptr attr mask fns, o = .cellReg ptr attr mask fns → ∀ e ∈ t, e.1 ≠ ptr) →
        Table b (Spec.ikTableStep t o)) := by
  by_cases hq : o.Quiet
  · have e := Op.run_same o hq h
    have e1 : Spec.ikJointsStep ls reg o = reg := by
      funext i; cases o <;> simp only [Op.Quiet] at hq <;> rfl
    have e2 : Spec.ikTableStep t o = t := by cases o <;> simp only [Op.Quiet] at hq <;> rfl
    rw [e1, e2]
    exact ⟨hj.same e, fun ht _ => ht.of_ids e.ids⟩
  · cases o <;> simp only [Op.Quiet, not_true, not_false_iff] at hq <;>
      simp only [Op.run, Option.map_eq_some_iff] at h
    case jointReg id w =>
      obtain ⟨⟨ok, b'⟩, h, rfl⟩ := h
      obtain ⟨j1, j2, _⟩ := jointReg'_joints hj h
      refine ⟨?_, fun ht _ => ht.of_ids (by rw [j2])⟩
      convert j1 using 1
      funext i
      simp only [Spec.ikJointsStep]
      by_cases hi : (i : ℤ) = id
      · by_cases hm : Spec.Movable ls i
        · simp [hi, hm]
        · simp only [hi, hm, and_false, if_false, if_true]
          rw [hj.reg]
          split_ifs with h3
          · exact absurd (hj.mov i h3) hm
          · rfl
      · simp [hi]
    case jointUnreg id =>
      obtain ⟨⟨ok, b'⟩, h, rfl⟩ := h
      obtain ⟨j1, j2, _⟩ := jointReg'_joints hj h
      refine ⟨?_, fun ht _ => ht.of_ids (by rw [j2])⟩
      convert j1 using 1
      funext i
      simp [Spec.ikJointsStep]
    case jointRegAll w =>
      obtain ⟨⟨ok, b'⟩, h, rfl⟩ := h
      obtain ⟨j1, j2, _⟩ := jointRegAll_joints hj h
      exact ⟨j1, fun ht _ => ht.of_ids (by rw [j2])⟩
    case cellReg ptr attr mask fns =>
      refine ⟨?_, fun ht hf => ht.cellReg (hf _ _ _ _ rfl) h⟩
      have e := (allocSRV_same h).1
      refine Joints.same ?_ e
      exact ⟨hj.keys, hj.lsw, hj.lwt, hj.lvel, hj.mov, hj.reg, hj.idx⟩
    case cellUnreg ptr =>
      refine ⟨?_, fun ht _ => ht.cellUnreg h⟩
      simp only [IK.cellUnreg] at h
      split_ifs at h
      have e := (allocSRV_same h).1
      refine Joints.same ?_ e
      exact ⟨hj.keys, hj.lsw, hj.lwt, hj.lvel, hj.mov, hj.reg, hj.idx⟩

theorem runAll_joints {ls : List (Link K)} (ops : List (Op K)) :
    ∀ {a b : IK K} {reg : ℕ → Option K}, Joints ls reg a → a.runAll ops = some b →
      Joints ls (ops.foldl (Spec.ikJointsStep ls) reg) b := by
  induction ops with
  | nil => intro a b reg h hr; simp only [runAll, Option.some.injEq] at hr; subst hr; exact h
  | cons o ops ih =>
    intro a b reg h hr
    simp only [runAll, Option.bind_eq_some_iff] at hr
    obtain ⟨a', h1, h2⟩ := hr
    exact ih (Op.run_inv (t := []) h o h1).1 h2

theorem runAll_table {ls : List (Link K)} (ops : List (Op K)) :
    ∀ {a b : IK K} {reg : ℕ → Option K} {t : List (ℕ × ℕ)}, Joints ls reg a → Table a t →
      Spec.FreshFrom t ops → a.runAll ops = some b → Table b (ops.foldl Spec.ikTableStep t) := by
  induction ops with
  | nil => intro a b reg t h ht _ hr; simp only [runAll, Option.some.injEq] at hr; subst hr; exact ht
  | cons o ops ih =>
    intro a b reg t h ht hf hr
    simp only [runAll, Option.bind_eq_some_iff] at hr
    obtain ⟨a', h1, h2⟩ := hr
    have e := Op.run_inv (t := t) h o h1
    exact ih e.1 (e.2 ht hf.1) hf.2 h2

omit [LinearOrder K] [Zm K] [ZSqrt K]

/-! ## The index -/

omit [Field K] in
theorem mem_indexFrom (sw : List Bool) :
    ∀ (n i : ℕ), i ∈ indexFrom n sw ↔ ∃ j, i = n + j ∧ sw[j]? = some true := by
  induction sw with
  | nil => intro n i; simp [indexFrom]
  | cons b sw ih =>
    intro n i
    have e : (∃ j, i = n + j ∧ (b :: sw)[j]? = some true) ↔
        (i = n ∧ b = true) ∨ ∃ j, i = n + 1 + j ∧ sw[j]? = some true := by
      constructor
      · rintro ⟨j, hj, hb⟩
        cases j with
        | zero => left; exact ⟨by omega, by simpa using hb⟩
        | succ j => right; exact ⟨j, by omega, by simpa using hb⟩
      · rintro (⟨h, hb⟩ | ⟨j, hj, hb⟩)
        · exact ⟨0, by omega, by simpa using hb⟩
        · exact ⟨j + 1, by omega, by simpa using hb⟩
    rw [e]
    simp only [indexFrom]
    split_ifs with hb
    · simp only [List.mem_cons, ih, hb, and_true]
    · simp only [ih, hb]; simp

omit [Field K] in
theorem indexFrom_sorted (sw : List Bool) : ∀ n, (indexFrom n sw).Pairwise (· < ·) := by
  induction sw with
  | nil => intro n; simp [indexFrom]
  | cons b sw ih =>
    intro n
    simp only [indexFrom]
    split_ifs
    · simp only [List.pairwise_cons]
      refine ⟨fun x hx => ?_, ih _⟩
      obtain ⟨j, hj, _⟩ := (mem_indexFrom _ _ _).1 hx
      omega
    · exact ih _

omit [Field K] in
theorem ikOfs_succ (l : Link K) (ls : List (Link K)) (reg : ℕ → Option K) (i : ℕ) :
    Spec.ikOfs (l :: ls) reg (i + 1) =
      (if (reg 0).isSome then l.size else 0) + Spec.ikOfs ls (fun j => reg (j + 1)) i := by
  simp only [Spec.ikOfs, List.range_succ_eq_map, List.filter_cons, List.filter_map]
  split_ifs with h
  · simp [Function.comp_def, Link.size]
  · simp [Function.comp_def]

omit [Field K] in
theorem ikOfs_zero (ls : List (Link K)) (reg : ℕ → Option K) : Spec.ikOfs ls reg 0 = 0 := rfl

theorem offsetsFrom_getElem? (ls : List (Link K)) :
    ∀ (sw : List Bool) (n i : ℕ) (reg : ℕ → Option K) (b : Bool), sw.length = ls.length →
      (∀ j, (reg j).isSome ↔ sw[j]? = some true) → sw[i]? = some b →
      (offsetsFrom n ls sw)[i]? = some (if b then ((n + Spec.ikOfs ls reg i : ℕ) : ℤ) else -1) := by
  induction ls with
  | nil =>
    intro sw n i reg b h _ hi
    have : sw = [] := List.length_eq_zero_iff.1 (by simpa using h)
    simp [this] at hi
  | cons l ls ih =>
    intro sw n i reg b h hreg hi
    cases sw with
    | nil => simp at h
    | cons b' sw =>
      have h' : sw.length = ls.length := by simpa using h
      cases i with
      | zero =>
        simp only [List.getElem?_cons_zero, Option.some.injEq] at hi
        subst hi
        cases b' <;> simp [offsetsFrom, ikOfs_zero]
      | succ i =>
        have h0 := hreg 0
        simp only [List.getElem?_cons_zero, Option.some.injEq] at h0
        have hr : ∀ j, ((fun j => reg (j + 1)) j).isSome ↔ sw[j]? = some true := fun j => by simpa using hreg (j + 1)
        simp only [List.getElem?_cons_succ] at hi
        rw [ikOfs_succ]
        cases b'
        · simp only [offsetsFrom, Bool.false_eq_true, if_false, List.getElem?_cons_succ]
          rw [ih sw n i _ b h' hr hi]
          simp [h0]
        · simp only [offsetsFrom, if_true, List.getElem?_cons_succ]
          rw [ih sw _ i _ b h' hr hi]
          have h1 : (reg 0).isSome = true := h0.2 rfl
          simp only [h1, if_true, Nat.add_assoc]

theorem weights_slices (LS : List (Link K)) (W : List K) (sw : List Bool) :
    ∀ (n : ℕ) (ls : List (Link K)) (reg : ℕ → Option K) (wn : List K), sw.length = ls.length →
      (∀ j, LS[n + j]? = ls[j]?) → (∀ j, (reg j).isSome ↔ sw[j]? = some true) →
      weights LS W (indexFrom n sw) = some wn →
      wn.length = Spec.ikOfs ls reg ls.length ∧
      ∀ i, sw[i]? = some true → ∃ w l, W[n + i]? = some w ∧ ls[i]? = some l ∧
        (wn.drop (Spec.ikOfs ls reg i)).take l.size = List.replicate l.size w := by
  induction sw with
  | nil =>
    intro n ls reg wn h _ _ hw
    have : ls = [] := List.length_eq_zero_iff.1 (by simpa using h.symm)
    simp only [indexFrom, weights, Option.some.injEq] at hw
    subst this
    rw [← hw]
    exact ⟨rfl, fun i hi => by simp at hi⟩
  | cons b sw ih =>
    intro n ls reg wn h hLS hreg hw
    cases ls with
    | nil => simp at h
    | cons l ls =>
      have h' : sw.length = ls.length := by simpa using h
      have h0 := hreg 0
      simp only [List.getElem?_cons_zero, Option.some.injEq] at h0
      have hr : ∀ j, ((fun j => reg (j + 1)) j).isSome ↔ sw[j]? = some true := fun j => by simpa using hreg (j + 1)
      have hLS' : ∀ j, LS[n + 1 + j]? = ls[j]? := by
        intro j
        have := hLS (j + 1)
        rw [List.getElem?_cons_succ] at this
        rw [← this]; congr 1; omega
      cases b
      · simp only [indexFrom, Bool.false_eq_true, if_false] at hw
        obtain ⟨e1, e2⟩ := ih (n + 1) ls _ wn h' hLS' hr hw
        have h1 : ¬ (reg 0).isSome = true := by simp [h0]
        refine ⟨?_, fun i hi => ?_⟩
        · rw [List.length_cons, ikOfs_succ, if_neg h1, zero_add, e1]
        · cases i with
          | zero => simp at hi
          | succ i =>
            simp only [List.getElem?_cons_succ] at hi
            obtain ⟨w, l', a1, a2, a3⟩ := e2 i hi
            refine ⟨w, l', ?_, by simpa using a2, ?_⟩
            · rw [← a1]; congr 1; omega
            · rw [ikOfs_succ, if_neg h1, zero_add, a3]
      · simp only [indexFrom, if_true, weights, Option.bind_eq_bind, Option.bind_eq_some_iff, pure,
          Option.some.injEq] at hw
        obtain ⟨l1, hl1, w, hw1, r, hr1, rfl⟩ := hw
        have hl : l1 = l := by
          have := hLS 0
          simp only [Nat.add_zero, List.getElem?_cons_zero] at this
          rw [this] at hl1
          exact (Option.some.inj hl1).symm
        subst hl
        obtain ⟨e1, e2⟩ := ih (n + 1) ls _ r h' hLS' hr hr1
        have h1 : (reg 0).isSome = true := h0.2 rfl
        refine ⟨?_, fun i hi => ?_⟩
        · rw [List.length_cons, ikOfs_succ, if_pos h1, List.length_append, List.length_replicate, e1]
        · cases i with
          | zero =>
            refine ⟨w, l1, by simpa using hw1, by simp, ?_⟩
            rw [ikOfs_zero, List.drop_zero, List.take_append_of_le_length (by simp)]
            simp
          | succ i =>
            simp only [List.getElem?_cons_succ] at hi
            obtain ⟨w', l', a1, a2, a3⟩ := e2 i hi
            refine ⟨w', l', ?_, by simpa using a2, ?_⟩
            · rw [← a1]; congr 1; omega
            · rw [ikOfs_succ, if_pos h1, List.drop_append]
              simp only [List.length_replicate, Nat.add_sub_cancel_left]
              rw [List.drop_eq_nil_of_le (by simp), List.nil_append, a3]
end IK
end Roki
