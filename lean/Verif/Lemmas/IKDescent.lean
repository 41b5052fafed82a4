import Verif.Props.IKBest
import Verif.Props.InvDyn
set_option autoImplicit false

/-! # The default method for the joint velocities goes downhill: sums -/

namespace Roki
open LinkArray
open Finset (range)
variable {K : Type*} [Field K]

/-- The components of the joint vector, joint by joint. -/
theorem sum_joints {ls : List (Link K)} (ho : setOffset ls = ls) (F : ℕ → K) :
    ∑ p ∈ range (jointSize ls), F p = ∑ i ∈ range ls.length, match ls[i]? with
      | some l => ∑ j ∈ range l.joint.prp.size, F (l.offset.toNat + j)
      | none => 0 := by
  have key : ∀ n ≤ ls.length, ∑ p ∈ range (sizes (ls.take n)), F p = ∑ i ∈ range n, match ls[i]? with
      | some l => ∑ j ∈ range l.joint.prp.size, F (l.offset.toNat + j)
      | none => 0 := by
    intro n
    induction n with
    | zero => intro _; simp [sizes]
    | succ n ih =>
      intro hn
      have hl : ls[n]? = some ls[n] := List.getElem?_eq_getElem (by omega)
      have hsz : sizes (ls.take (n + 1)) = sizes (ls.take n) + ls[n].joint.prp.size := by
        rw [List.take_succ, hl, Option.toList_some, sizes_append, sizes_cons, sizes_nil, add_zero]
      have hof : ls[n].offset = offsetAt ls[n] (sizes (ls.take n)) := by
        have := setOffsetFrom_getElem? 0 ls n
        rw [show setOffsetFrom 0 ls = ls from ho, hl, Option.map_some, Option.some.injEq] at this
        have := congrArg (fun l : Link K => l.offset) this
        simpa using this
      rw [hsz, Finset.sum_range_add, ih (by omega), Finset.sum_range_succ, hl]
      congr 1
      refine Finset.sum_congr rfl fun j hj => ?_
      have : 0 < ls[n].joint.prp.size := by have := Finset.mem_range.1 hj; omega
      have e : ls[n].offset.toNat = sizes (ls.take n) := by
        rw [hof]
        have h2 : ls[n].size ≠ 0 := by show ls[n].joint.prp.size ≠ 0; omega
        simp [offsetAt, Nat.pos_of_ne_zero h2]
      rw [e]
  have := key ls.length (le_refl _)
  rwa [List.take_length, ← show jointSize ls = sizes ls from jointSize_eq ls] at this

/-- The components of the registered joints, joint by joint. -/
theorem sum_registered (ls : List (Link K)) (reg : ℕ → Option K) (G : ℕ → K) (n : ℕ) :
    ∑ p ∈ range (Spec.ikOfs ls reg n), G p = ∑ i ∈ range n, if (reg i).isSome then
      (match ls[i]? with
      | some l => ∑ j ∈ range l.joint.prp.size, G (Spec.ikOfs ls reg i + j)
      | none => 0) else 0 := by
  induction n with
  | zero => simp [Spec.ikOfs]
  | succ n ih =>
    rw [Spec.ikOfs_step, Finset.sum_range_succ, ← ih]
    split_ifs with h
    · cases hl : ls[n]? with
      | none => simp
      | some l => simp [Finset.sum_range_add]
    · simp

theorem jacMul_get (s : ℕ) (J : List (Vec3 K)) (v : List K) (h : v.length = J.length) :
    (Spec.jacMul J v).get s = ∑ p ∈ range J.length, (J.getD p 0).get s * v.getD p 0 := by
  rw [← zipWith_sum (fun (u : Vec3 K) x => u.get s * x) 0 0 J v h, Spec.jacMul]
  induction J generalizing v with
  | nil => rcases s with _ | _ | s <;> simp [Vec3.get]
  | cons u J ih =>
    rcases v with _ | ⟨x, v⟩
    · simp at h
    have ih := ih v (by simpa using h)
    simp only [List.zipWith_cons_cons, List.sum_cons]
    rw [← ih]
    simp only [Vec3.get]
    split <;> simp [mul_comm]

/-- The motion along an axis is that of the registered joints plus that of the others. -/
theorem row_motion {ls : List (Link K)} (ho : setOffset ls = ls) {reg : ℕ → Option K} {vel vel' : List K} {J : List (Vec3 K)} {v : Vec3 K}
    {s : ℕ} {row : List K} {e : K} (hr : Spec.IkRow ls reg vel J v s row e) (hJ : J.length = jointSize ls) (hv : vel'.length = jointSize ls)
    (hrest : ∀ i l, ls[i]? = some l → reg i = none → ∀ j < l.joint.prp.size, vel'.getD (l.offset.toNat + j) 0 = 0) :
    (Spec.jacMul J vel').get s = ∑ i ∈ range ls.length, if (reg i).isSome then
      (match ls[i]? with
      | some l => ∑ j ∈ range l.joint.prp.size, row.getD (Spec.ikOfs ls reg i + j) 0 * vel'.getD (l.offset.toNat + j) 0
      | none => 0) else 0 := by
  rw [jacMul_get s J vel' (by rw [hv, hJ]), hJ, sum_joints ho]
  refine Finset.sum_congr rfl fun i hi => ?_
  have hi' := Finset.mem_range.1 hi
  have hl : ls[i]? = some ls[i] := List.getElem?_eq_getElem hi'
  rw [hl]
  by_cases h : (reg i).isSome
  · simp only [h, if_true]
    refine Finset.sum_congr rfl fun j hj => ?_
    obtain ⟨u, h1, h2⟩ := hr.coef i _ hl h j (Finset.mem_range.1 hj)
    rw [List.getD_eq_getElem?_getD (l := J), List.getD_eq_getElem?_getD (l := row), h1, h2]
    rfl
  · simp only [h, Bool.false_eq_true, if_false]
    refine Finset.sum_eq_zero fun j hj => ?_
    have hn : reg i = none := by simpa using h
    rw [hrest i _ hl hn j (Finset.mem_range.1 hj), mul_zero]

/-- The progress along the velocities of the normal equation. -/
theorem descent_identity (M : List (List K)) (s w wn : List K) (n : ℕ) (x : ℕ → K) (h2 : (2 : K) ≠ 0)
    (hx : ∀ i < n, ∑ j ∈ range n, normalMat M s w wn i j * x j = normalVec M s w i) :
    ∑ k ∈ range M.length, w.getD k 0 * (s.getD k 0 * ∑ j ∈ range n, Spec.ikCoef M k j * x j) =
      ∑ k ∈ range M.length, w.getD k 0 * (∑ j ∈ range n, Spec.ikCoef M k j * x j) ^ 2 + ∑ i ∈ range n, Spec.ikDamp s w wn i * x i ^ 2 := by
  have e := cost_diff M s w wn n x (fun _ => 0) hx
  simp only [Spec.ikCost, Spec.ikMiss, mul_zero, Finset.sum_const_zero, zero_sub, mul_neg, Finset.sum_neg_distrib, neg_sq, ne_eq,
    OfNat.ofNat_ne_zero, not_false_eq_true, zero_pow, add_zero] at e
  have e1 : ∑ k ∈ range M.length, w.getD k 0 * (∑ j ∈ range n, Spec.ikCoef M k j * x j - s.getD k 0) ^ 2 =
      ∑ k ∈ range M.length, w.getD k 0 * (∑ j ∈ range n, Spec.ikCoef M k j * x j) ^ 2 -
        2 * ∑ k ∈ range M.length, w.getD k 0 * (s.getD k 0 * ∑ j ∈ range n, Spec.ikCoef M k j * x j) +
        ∑ k ∈ range M.length, w.getD k 0 * s.getD k 0 ^ 2 := by
    rw [Finset.mul_sum, ← Finset.sum_sub_distrib, ← Finset.sum_add_distrib]
    exact Finset.sum_congr rfl fun k _ => by ring
  rw [e1] at e
  have : (2 : K) * (∑ k ∈ range M.length, w.getD k 0 * (s.getD k 0 * ∑ j ∈ range n, Spec.ikCoef M k j * x j)) =
      2 * (∑ k ∈ range M.length, w.getD k 0 * (∑ j ∈ range n, Spec.ikCoef M k j * x j) ^ 2 +
        ∑ i ∈ range n, Spec.ikDamp s w wn i * x i ^ 2) := by linear_combination e
  exact mul_left_cancel₀ h2 this

/-! ### The Jacobian matrices do not depend on the joint rates -/

/-- What the Jacobian matrices read from a link. -/
def Jacobi.view (l : Link K) : ℤ × ℕ × (ℕ → Frame K → Option (Vec3 K)) × (ℕ → Frame K → Option (Vec3 K)) × Body K :=
  (l.offset, l.size, l.joint.prp.linAxis, l.joint.prp.angAxis, l.body)

theorem Jacobi.view_rate {v a : List K} {ls ls' : List (Link K)} (h : setJointRateAll v a ls = some ls') :
    ls'.map Jacobi.view = ls.map Jacobi.view := by
  have e1 : ls'.map (fun l => (l.offset, l.body)) = ls.map fun l => (l.offset, l.body) := setJointRateAll_map _ (fun _ _ => rfl) h
  have e2 : ls'.map (fun l => (l.joint.prp.size, l.joint.prp.linAxis, l.joint.prp.angAxis)) =
      ls.map fun l => (l.joint.prp.size, l.joint.prp.linAxis, l.joint.prp.angAxis) := by
    rw [setJointRateAll_eq] at h
    obtain ⟨l1, h1, h2⟩ := Option.bind_eq_some_iff.1 h
    have a1 := setJointAll_map (fun p : Prp K => (p.size, p.linAxis, p.angAxis)) (fun p buf p' h => by
      cases p <;> rcases buf with _ | ⟨a, _ | ⟨b, _ | ⟨c, _ | ⟨d, _ | ⟨e, _ | ⟨f, buf⟩⟩⟩⟩⟩⟩ <;>
        simp [Prp.setVel, Vec3.ofBuf, Vec6.ofBuf] at h <;> subst h <;> (refine Prod.ext rfl (Prod.ext ?_ ?_) <;> funext i f <;> rcases i with _ | _ | _ | _ | _ | _ | i <;> rfl)) v ls l1 h1
    have a2 := setJointAll_map (fun p : Prp K => (p.size, p.linAxis, p.angAxis)) (fun p buf p' h => by
      cases p <;> rcases buf with _ | ⟨a, _ | ⟨b, _ | ⟨c, _ | ⟨d, _ | ⟨e, _ | ⟨f, buf⟩⟩⟩⟩⟩⟩ <;>
        simp [Prp.setAcc, Vec3.ofBuf, Vec6.ofBuf] at h <;> subst h <;> (refine Prod.ext rfl (Prod.ext ?_ ?_) <;> funext i f <;> rcases i with _ | _ | _ | _ | _ | _ | i <;> rfl)) a l1 ls' h2
    exact a2.trans a1
  apply List.ext_getElem?
  intro i
  have f1 := congrArg (fun l => l[i]?) e1
  have f2 := congrArg (fun l => l[i]?) e2
  simp only [List.getElem?_map] at f1 f2 ⊢
  cases h1 : ls'[i]? with
  | none => cases h2 : ls[i]? with
    | none => rfl
    | some l => simp [h1, h2] at f1
  | some l' => cases h2 : ls[i]? with
    | none => simp [h1, h2] at f1
    | some l =>
      simp only [h1, h2, Option.map_some, Option.some.injEq, Prod.mk.injEq] at f1 f2 ⊢
      simp only [Jacobi.view, Link.size, f1, f2]

theorem Jacobi.view_get {ls ls' : List (Link K)} (h : ls'.map Jacobi.view = ls.map Jacobi.view) (i : ℕ) :
    (ls'[i]? = none ∧ ls[i]? = none) ∨ ∃ l l', ls'[i]? = some l' ∧ ls[i]? = some l ∧ Jacobi.view l' = Jacobi.view l := by
  have f1 := congrArg (fun l => l[i]?) h
  simp only [List.getElem?_map] at f1
  cases h1 : ls'[i]? with
  | none => cases h2 : ls[i]? with
    | none => exact .inl ⟨rfl, rfl⟩
    | some l => simp [h1, h2] at f1
  | some l' => cases h2 : ls[i]? with
    | none => simp [h1, h2] at f1
    | some l => exact .inr ⟨l, l', rfl, rfl, by simpa [h1, h2] using f1⟩

theorem Jacobi.walk_view {ls ls' : List (Link K)} (h : ls'.map Jacobi.view = ls.map Jacobi.view)
    {f : Link K → List (Vec3 K) → Option (List (Vec3 K))} (hf : ∀ l l', Jacobi.view l' = Jacobi.view l → f l' = f l) (p : List ℕ) :
    ∀ m, Jacobi.walk f ls' p m = Jacobi.walk f ls p m := by
  induction p with
  | nil => intro m; rfl
  | cons i p ih =>
    intro m
    rcases Jacobi.view_get h i with ⟨h1, h2⟩ | ⟨l, l', h1, h2, hv⟩
    · simp only [Jacobi.walk, h1, h2]; rfl
    · simp only [Jacobi.walk, h1, h2, Option.bind_eq_bind, Option.bind_some, hf l l' hv, ih]

theorem Jacobi.colLoop_view {op : Vec3 K → Vec3 K → Vec3 K} {x : Vec3 K} {l l' : Link K} (h : Jacobi.view l' = Jacobi.view l) :
    Jacobi.colLoop op l' (Jacobi.linCol l' x) = Jacobi.colLoop op l (Jacobi.linCol l x) := by
  simp only [Jacobi.view, Prod.mk.injEq] at h
  obtain ⟨h1, h2, h3, h4, h5⟩ := h
  funext m
  simp only [Jacobi.colLoop, h1, h2]
  congr 1
  funext m i
  simp only [Jacobi.linCol, h3, h4, h5]

theorem Jacobi.wldLin_view {c c' : Chain K} (h : c'.link.map Jacobi.view = c.link.map Jacobi.view) (hs : c'.shape = c.shape) (id : ℕ)
    (p : Vec3 K) (m : List (Vec3 K)) : Jacobi.wldLin c' id p m = Jacobi.wldLin c id p m := by
  rcases Jacobi.view_get h id with ⟨h1, h2⟩ | ⟨l, l', h1, h2, hv⟩
  · simp only [Jacobi.wldLin, h1, h2]; rfl
  · have hb : l'.body = l.body := by simp only [Jacobi.view, Prod.mk.injEq] at hv; exact hv.2.2.2.2
    simp only [Jacobi.wldLin, h1, h2, Option.bind_eq_bind, Option.bind_some, hs, hb]
    congr 1
    funext path
    exact Jacobi.walk_view h (fun l l' hv => Jacobi.colLoop_view hv) path _

theorem Jacobi.com_view [DecidableEq K] {c c' : Chain K} (h : c'.link.map Jacobi.view = c.link.map Jacobi.view) (hs : c'.shape = c.shape)
    (hm : c'.mass = c.mass) (m : List (Vec3 K)) : Jacobi.com c' m = Jacobi.com c m := by
  have hl : c'.link.length = c.link.length := by simpa using congrArg List.length h
  have : Jacobi.comLink c' = Jacobi.comLink c := by
    funext m i
    rcases Jacobi.view_get h i with ⟨h1, h2⟩ | ⟨l, l', h1, h2, hv⟩
    · simp only [Jacobi.comLink, h1, h2]; rfl
    · have hb : l'.body = l.body := by simp only [Jacobi.view, Prod.mk.injEq] at hv; exact hv.2.2.2.2
      simp only [Jacobi.comLink, h1, h2, Option.bind_eq_bind, Option.bind_some, hs, hb, hm]
      split_ifs
      · rfl
      · congr 1
        funext path
        exact Jacobi.walk_view h (fun l l' hv => Jacobi.colLoop_view hv) path _
  simp only [Jacobi.com, hl, this]

end Roki
