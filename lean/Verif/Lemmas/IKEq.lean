import Verif.Spec.IKEq
import Verif.Lemmas.IKStep
import Verif.Lemmas.Jacobi
import Mathlib.Algebra.BigOperators.Intervals
set_option autoImplicit false

/-! # Inverse kinematics: the constraint equation -/

namespace Roki
open LinkArray
open Jacobi (Mat)
variable {K : Type*}

namespace Spec
theorem ikOfs_step (ls : List (Link K)) (reg : ℕ → Option K) (n : ℕ) :
    ikOfs ls reg (n + 1) = ikOfs ls reg n + if (reg n).isSome then (ls[n]?.map fun l => l.joint.prp.size).getD 0 else 0 := by
  simp only [ikOfs, List.range_succ, List.filter_append, List.map_append, List.sum_append, List.filter_cons,
    List.filter_nil]
  split_ifs <;> simp

theorem ikOfs_mono (ls : List (Link K)) (reg : ℕ → Option K) {m n : ℕ} (h : m ≤ n) :
    ikOfs ls reg m ≤ ikOfs ls reg n := by
  induction n, h using Nat.le_induction with
  | base => exact le_refl _
  | succ n _ ih => rw [ikOfs_step]; omega

theorem ikOfs_congr {ls ms : List (Link K)} (h : keys ls = keys ms) (reg : ℕ → Option K) (n : ℕ) :
    ikOfs ls reg n = ikOfs ms reg n := by
  induction n with
  | zero => rfl
  | succ n ih =>
    rw [ikOfs_step, ikOfs_step, ih]
    have := keys_getElem? h n
    congr 2
    cases h1 : ls[n]? <;> cases h2 : ms[n]? <;> simp [h1, h2, Link.key] at this ⊢
    exact this.1
end Spec

variable [Field K]

namespace IK

theorem copy_loop (J : Mat K) (s : ℕ) (off : ℤ) (ofs : ℕ) (n : ℕ) (h0 : 0 < n → 0 ≤ off ∧ off + n ≤ J.length) (st : List K × K)
    (hn : ofs + n ≤ st.1.length) :
    ∃ r', (List.range n).foldlM (fun (st : List K × K) (j : ℕ) =>
        (J[(off + j).toNat]?).bind fun v =>
          if 0 ≤ (ofs : ℤ) ∧ (ofs : ℤ) + j < st.1.length then some (st.1.set ((ofs : ℤ) + j).toNat (v.get s), st.2)
          else none) st = some (r', st.2) ∧ r'.length = st.1.length ∧
      (∀ j < n, ∃ u, J[off.toNat + j]? = some u ∧ r'[ofs + j]? = some (u.get s)) ∧
      (∀ q, q < ofs ∨ ofs + n ≤ q → r'[q]? = st.1[q]?) := by
  induction n with
  | zero => exact ⟨st.1, rfl, rfl, fun j h => by omega, fun _ _ => rfl⟩
  | succ n ih =>
    obtain ⟨r, e, hl, h1, h2⟩ := ih (fun _ => by have := h0 (by omega); push_cast at this; omega) (by omega)
    have hb := h0 (by omega)
    push_cast at hb
    have hlt : off.toNat + n < J.length := by omega
    rw [List.range_succ, List.foldlM_append, e]
    refine ⟨r.set (ofs + n) ((J[off.toNat + n]).get s), ?_, by simp [hl], ?_, ?_⟩
    · have e1 : (off + (n : ℤ)).toNat = off.toNat + n := by omega
      have e2 : ((ofs : ℤ) + (n : ℤ)).toNat = ofs + n := by omega
      have e3 : (ofs : ℤ) + n < r.length := by omega
      simp [e1, e2, e3, List.getElem?_eq_getElem hlt]
    · intro j hj
      by_cases hjn : j = n
      · subst hjn
        exact ⟨_, List.getElem?_eq_getElem hlt, by rw [List.getElem?_set_self (by omega)]⟩
      · obtain ⟨u, a, b⟩ := h1 j (by omega)
        exact ⟨u, a, by rw [List.getElem?_set_ne (by omega)]; exact b⟩
    · intro q hq
      rw [List.getElem?_set_ne (by omega)]
      exact h2 q (by omega)

theorem sub_loop (J : Mat K) (vel : List K) (s : ℕ) (off : ℤ) (n : ℕ)
    (h0 : 0 < n → 0 ≤ off ∧ off + n ≤ J.length ∧ off + n ≤ vel.length) (st : List K × K) :
    (List.range n).foldlM (fun (st : List K × K) (j : ℕ) =>
        (J[(off + j).toNat]?).bind fun v => (vel[(off + j).toNat]?).bind fun q => some (st.1, st.2 - v.get s * q)) st =
      some (st.1, st.2 - ∑ j ∈ Finset.range n, (J.getD (off.toNat + j) 0).get s * vel.getD (off.toNat + j) 0) := by
  induction n with
  | zero => simp
  | succ n ih =>
    have hb := h0 (by omega)
    push_cast at hb
    rw [List.range_succ, List.foldlM_append, ih (fun _ => by omega)]
    have e1 : (off + (n : ℤ)).toNat = off.toNat + n := by omega
    have hlt : off.toNat + n < J.length := by omega
    have hlt' : off.toNat + n < vel.length := by omega
    simp [e1, List.getElem?_eq_getElem hlt, List.getElem?_eq_getElem hlt', Finset.sum_range_succ, sub_sub]

/-- The state in which the rows of the equation are computed. -/
structure Env (reg : ℕ → Option K) (N : ℕ) (ik : IK K) : Prop where
  ofs : setOffset ik.chain.link = ik.chain.link
  lsw : ik.sw.length = ik.chain.link.length
  sw : ∀ i : ℕ, (reg i).isSome ↔ ik.sw[i]? = some true
  jofs : ∀ i : ℕ, ik.sw[i]? = some true → ik.jofs[i]? = some (Spec.ikOfs ik.chain.link reg i : ℤ)
  fit : (∃ i : ℕ, ik.sw[i]? = some true) → N = Spec.ikOfs ik.chain.link reg ik.chain.link.length
  lvel : ik.vel.length = jointSize ik.chain.link

theorem row_loop {reg : ℕ → Option K} {N : ℕ} {ik : IK K} (h : Env reg N ik) (hJ : ik.matCell.length = jointSize ik.chain.link)
    (s : ℕ) (r : List K) (e : K) (hr : r.length = N) (n : ℕ) (hn : n ≤ ik.chain.link.length) :
    ∃ r', (List.range n).foldlM (fun st i => ik.eqJoint s i st) (r, e) =
        some (r', e - ∑ i ∈ Finset.range n, if (reg i).isSome then 0 else
          match ik.chain.link[i]? with
          | some l => ∑ j ∈ Finset.range l.joint.prp.size,
              (ik.matCell.getD (l.offset.toNat + j) 0).get s * ik.vel.getD (l.offset.toNat + j) 0
          | none => 0) ∧ r'.length = N ∧
      (∀ i l, i < n → ik.chain.link[i]? = some l → (reg i).isSome → ∀ j < l.joint.prp.size,
        ∃ u, ik.matCell[l.offset.toNat + j]? = some u ∧ r'[Spec.ikOfs ik.chain.link reg i + j]? = some (u.get s)) := by
  induction n with
  | zero => exact ⟨r, by simp, hr, fun i l h => by omega⟩
  | succ n ih =>
    obtain ⟨r1, e1, hl1, h1⟩ := ih (by omega)
    have hlt : n < ik.chain.link.length := by omega
    obtain ⟨l, hl⟩ : ∃ l, ik.chain.link[n]? = some l := ⟨_, List.getElem?_eq_getElem hlt⟩
    have hin := Jacobi.offset_inside h.ofs hl
    have hlsw : n < ik.sw.length := by rw [h.lsw]; exact hlt
    rw [List.range_succ, List.foldlM_append, e1]
    by_cases hsw : ik.sw[n]? = some true
    · have hreg := (h.sw n).2 hsw
      have hN := h.fit ⟨n, hsw⟩
      have hstep := Spec.ikOfs_step ik.chain.link reg n
      rw [if_pos hreg, hl] at hstep
      simp only [Option.map_some, Option.getD_some] at hstep
      have hmono := Spec.ikOfs_mono ik.chain.link reg (show n + 1 ≤ ik.chain.link.length by omega)
      obtain ⟨r2, e2, hl2, a, b⟩ := copy_loop ik.matCell s l.offset (Spec.ikOfs ik.chain.link reg n) l.size
        (fun hp => by rw [hJ]; exact hin hp) (r1, _) (by simp only [hl1]; unfold Link.size; omega)
      refine ⟨r2, ?_, hl2.trans hl1, ?_⟩
      · rw [Finset.sum_range_succ, if_pos hreg, add_zero]
        simp only [List.foldlM_cons, List.foldlM_nil, Option.bind_eq_bind, Option.bind_some, eqJoint, hl, hsw, if_true,
          h.jofs n hsw]
        rw [e2]; rfl
      · intro i l' hi hl' hri j hj
        by_cases hin : i = n
        · subst hin
          rw [hl] at hl'
          cases hl'
          exact a j hj
        · obtain ⟨u, hu, hv⟩ := h1 i l' (by omega) hl' hri j hj
          refine ⟨u, hu, ?_⟩
          rw [b _ (.inl ?_)]
          · exact hv
          · have h3 := Spec.ikOfs_step ik.chain.link reg i
            rw [if_pos hri, hl'] at h3
            simp only [Option.map_some, Option.getD_some] at h3
            have := Spec.ikOfs_mono ik.chain.link reg (show i + 1 ≤ n by omega)
            omega
    · have hreg : ¬ (reg n).isSome := fun hh => hsw ((h.sw n).1 hh)
      have hf : ik.sw[n]? = some false := by
        rw [List.getElem?_eq_getElem hlsw] at hsw ⊢
        cases hb : ik.sw[n] <;> simp_all
      refine ⟨r1, ?_, hl1, ?_⟩
      · rw [Finset.sum_range_succ, if_neg hreg, hl]
        simp only [List.foldlM_cons, List.foldlM_nil, Option.bind_eq_bind, Option.bind_some, eqJoint, hl, hf]
        have := sub_loop ik.matCell ik.vel s l.offset l.size (fun hp => by rw [hJ, h.lvel]; have := hin hp; omega)
        simp only [Bool.false_eq_true, if_false, this]
        simp [sub_sub, Link.size]
      · intro i l' hi hl' hri j hj
        have : i ≠ n := by rintro rfl; exact hreg hri
        exact h1 i l' (by omega) hl' hri j hj

/-- The rows written so far. -/
structure Written (reg : ℕ → Option K) (N m : ℕ) (rs : List (Spec.IkBlock K × ℕ)) (ik : IK K) : Prop where
  env : Env reg N ik
  lmat : ik.matCell.length = jointSize ik.chain.link
  lsrv : ik.csrv.length = m
  lwe : ik.cwe.length = m
  mat : ∃ M, ik.cmat = some M ∧ M.length = m ∧ (∀ r ∈ M, r.length = N) ∧
    ∀ (k : ℕ) b s, rs[k]? = some (b, s) → ∃ row e, M[k]? = some row ∧ ik.csrv[k]? = some e ∧
      Spec.IkRow ik.chain.link reg ik.vel b.jac b.ref s row e ∧ ik.cwe[k]? = some (b.cell.attr.w.get s)

theorem cellEq_written {reg : ℕ → Option K} {N m : ℕ} {rs : List (Spec.IkBlock K × ℕ)} {ik : IK K}
    (h : Written reg N m rs ik) (b : Spec.IkBlock K) (hb : ik.matCell = b.jac) (cell : IKCell K) (hc : cell = b.cell)
    (v : Vec3 K) (hv : v = b.ref) (s : ℕ) (hm : cell.attr.axisOn s = true → rs.length < m) :
    ∃ ik', ik.cellEq cell v s rs.length = some (ik', (if cell.attr.axisOn s then [(b, s)] else []).length) ∧
      Written reg N m (rs ++ if cell.attr.axisOn s then [(b, s)] else []) ik' ∧
      ik' = { ik with cmat := ik'.cmat, csrv := ik'.csrv, cwe := ik'.cwe } := by
  subst hc hv
  by_cases ha : b.cell.attr.axisOn s = true
  · have hlt := hm ha
    obtain ⟨M, hM, hlM, hrow, hrs⟩ := h.mat
    have hltM : rs.length < M.length := by omega
    obtain ⟨r, hr⟩ : ∃ r, M[rs.length]? = some r := ⟨_, List.getElem?_eq_getElem hltM⟩
    obtain ⟨r', e1, hl', hc⟩ := row_loop h.env h.lmat s r (b.ref.get s) (hrow r (List.mem_of_getElem? hr)) _ (le_refl _)
    have hcond : rs.length < ik.csrv.length ∧ rs.length < ik.cwe.length := by rw [h.lsrv, h.lwe]; exact ⟨hlt, hlt⟩
    refine ⟨{ ik with cmat := some (M.set rs.length r'), csrv := ik.csrv.set rs.length (b.ref.get s - Spec.ikFree ik.chain.link reg ik.vel ik.matCell s),
                      cwe := ik.cwe.set rs.length (b.cell.attr.w.get s) }, ?_, ?_, rfl⟩
    · simp only [cellEq, ha, Bool.not_true, Bool.false_eq_true, if_false, hM, Option.bind_eq_bind, Option.bind_some, hr,
        hcond, and_self, if_true, e1]
      rfl
    · refine ⟨⟨h.env.ofs, h.env.lsw, h.env.sw, h.env.jofs, h.env.fit, h.env.lvel⟩, h.lmat, by simp [h.lsrv],
        by simp [h.lwe], _, rfl, by simp [hlM], ?_, ?_⟩
      · intro x hx
        rcases List.mem_or_eq_of_mem_set hx with hx | rfl
        · exact hrow x hx
        · exact hl'
      · intro k b' s' hk
        simp only [ha, if_true] at hk
        by_cases hkn : k = rs.length
        · subst hkn
          rw [List.getElem?_append_right (le_refl _)] at hk
          simp only [Nat.sub_self, List.getElem?_cons_zero, Option.some.injEq, Prod.mk.injEq] at hk
          obtain ⟨rfl, rfl⟩ := hk
          refine ⟨r', _, by rw [List.getElem?_set_self hltM], by rw [List.getElem?_set_self hcond.1], ⟨?_, ?_⟩,
            by rw [List.getElem?_set_self hcond.2]⟩
          · intro i l hl hri j hj
            obtain ⟨u, a, c⟩ := hc i l (List.getElem?_eq_some_iff.1 hl).1 hl hri j hj
            exact ⟨u, hb ▸ a, c⟩
          · rw [← hb]
        · have hklt : k < rs.length := by
            have := (List.getElem?_eq_some_iff.1 hk).1
            simp at this; omega
          rw [List.getElem?_append_left hklt] at hk
          obtain ⟨row, e, a1, a2, a3, a4⟩ := hrs k b' s' hk
          refine ⟨row, e, ?_, ?_, a3, ?_⟩
          · rw [List.getElem?_set_ne (by omega)]; exact a1
          · rw [List.getElem?_set_ne (by omega)]; exact a2
          · rw [List.getElem?_set_ne (by omega)]; exact a4
  · have ha' : b.cell.attr.axisOn s = false := by simpa using ha
    exact ⟨ik, by simp [cellEq, ha'], by simpa [ha'] using h, rfl⟩

theorem axes_eq (b : Spec.IkBlock K) : (if b.cell.attr.axisOn 0 then [(b, 0)] else []) ++
    ((if b.cell.attr.axisOn 1 then [(b, 1)] else []) ++ (if b.cell.attr.axisOn 2 then [(b, 2)] else [])) =
    (Spec.ikAxes b.cell.attr).map fun s => (b, s) := by
  simp only [IKAttr.axisOn, Spec.ikAxes]
  cases b.cell.attr.xon <;> cases b.cell.attr.yon <;> cases b.cell.attr.zon <;> rfl

variable [ZSqrt K]

theorem eqCell_written {reg : ℕ → Option K} {N m : ℕ} {rs : List (Spec.IkBlock K × ℕ)} {ik : IK K}
    (h : Written reg N m rs ik) {x : IKCell K} {J : Mat K} {e : Vec3 K} (hJ : x.fns.cmat ik.chain x.attr ik.matCell = some J)
    (he : x.fns.srv ik.chain x.attr x.ref = some e) (hl : J.length = ik.matCell.length) (b : Spec.IkBlock K)
    (hb : b = ⟨x, J, e, if x.attr.force then (x.fns.acm x.acm e).2 else e⟩)
    (hm : rs.length + (Spec.ikAxes x.attr).length ≤ m) :
    ∃ ik', ik.eqCell x rs.length = some (
          { x with eval := ZSqrt.sqrt (Spec.ikSquare x.attr.w e),
                   acm := if x.attr.force then (x.fns.acm x.acm e).1 else x.acm }, ik',
          (rs ++ (Spec.ikAxes x.attr).map fun s => (b, s)).length) ∧
      Written reg N m (rs ++ (Spec.ikAxes x.attr).map fun s => (b, s)) ik' ∧
      ik'.eval = ik.eval + Spec.ikSquare x.attr.w e ∧
      ik' = { ik with cmat := ik'.cmat, csrv := ik'.csrv, cwe := ik'.cwe, eval := ik'.eval, matCell := J } := by
  have hax := axes_eq b
  have hcell : b.cell = x := by rw [hb]
  rw [hcell] at hax
  have hlen := congrArg List.length hax
  simp only [List.length_append, List.length_map] at hlen
  have h0 : Written reg N m rs { ik with matCell := J, eval := ik.eval + Spec.ikSquare x.attr.w e } :=
    ⟨⟨h.env.ofs, h.env.lsw, h.env.sw, h.env.jofs, h.env.fit, h.env.lvel⟩, hl.trans h.lmat, h.lsrv, h.lwe, h.mat⟩
  have hsq : x.attr.w.x * e.x * e.x + x.attr.w.y * e.y * e.y + x.attr.w.z * e.z * e.z = Spec.ikSquare x.attr.w e := by
    simp only [Spec.ikSquare]; ring
  obtain ⟨ik1, e1, w1, f1⟩ := cellEq_written h0 b (by rw [hb]) x hcell.symm b.ref rfl 0
    (fun ha => by simp [ha] at hlen; omega)
  obtain ⟨ik2, e2, w2, f2⟩ := cellEq_written w1 b (by rw [f1, hb]) x hcell.symm b.ref rfl 1
    (fun ha => by simp only [List.length_append]; simp [ha] at hlen; omega)
  obtain ⟨ik3, e3, w3, f3⟩ := cellEq_written w2 b (by rw [f2, f1, hb]) x hcell.symm b.ref rfl 2
    (fun ha => by simp only [List.length_append]; simp [ha] at hlen; omega)
  refine ⟨ik3, ?_, ?_, by rw [f3, f2, f1], by rw [f3, f2, f1]⟩
  · have hacm : (if x.attr.force then x.fns.acm x.acm e else (x.acm, e)) =
        (if x.attr.force then (x.fns.acm x.acm e).1 else x.acm, b.ref) := by rw [hb]; split_ifs <;> rfl
    simp only [eqCell, hJ, he, Option.bind_eq_bind, Option.bind_some, hacm, hsq, e1, ← List.length_append, e2, e3]
    rw [← hax]
    simp only [List.append_assoc]
    rfl
  · rw [← hax, ← List.append_assoc, ← List.append_assoc]; exact w3

theorem eqCells_written {reg : ℕ → Option K} {N m : ℕ} {c : Chain K} {m0 : Mat K} {cs ys : List (IKCell K)}
    {bs : List (Spec.IkBlock K)} (hbs : Spec.IkBlocks c m0 cs bs ys) (hk : ∀ x ∈ cs, KeepsSize x.fns) :
    ∀ {rs : List (Spec.IkBlock K × ℕ)} {ik : IK K}, ik.chain = c → ik.matCell = m0 → Written reg N m rs ik →
      rs.length + (Spec.ikRows bs).length ≤ m →
      ∃ ik', eqCells cs ik rs.length = some (ys, ik', (rs ++ Spec.ikRows bs).length) ∧
        Written reg N m (rs ++ Spec.ikRows bs) ik' ∧
        ik'.eval = ik.eval + (bs.map fun b => Spec.ikSquare b.cell.attr.w b.err).sum ∧
        ik' = { ik with cmat := ik'.cmat, csrv := ik'.csrv, cwe := ik'.cwe, eval := ik'.eval, matCell := ik'.matCell } := by
  induction hbs with
  | nil m =>
    intro rs ik _ _ h _
    exact ⟨ik, by simp [eqCells, Spec.ikRows], by simpa [Spec.ikRows] using h, by simp, rfl⟩
  | off hd _ ih =>
    intro rs ik h1 h2 h hm
    obtain ⟨ik', e, w, ev, f⟩ := ih (fun x hx => hk x (List.mem_cons_of_mem _ hx)) h1 h2 h hm
    refine ⟨ik', ?_, w, ev, f⟩
    simp only [eqCells, hd, if_true, e]
    rfl
  | @on m0 x xs bs ys J er hd hJ he _ ih =>
    intro rs ik h1 h2 h hm
    subst h1 h2
    have hr : ∀ b : Spec.IkBlock K, b.cell = x → Spec.ikRows (b :: bs) =
        ((Spec.ikAxes x.attr).map fun s => (b, s)) ++ Spec.ikRows bs := fun b hb => by simp [Spec.ikRows, hb]
    rw [hr _ rfl] at hm ⊢
    simp only [List.length_append, List.length_map] at hm
    obtain ⟨ik1, e1, w1, ev1, f1⟩ := eqCell_written h hJ he (hk x (by simp) _ _ _ _ hJ) _ rfl (by omega)
    obtain ⟨ik2, e2, w2, ev2, f2⟩ := ih (fun x hx => hk x (List.mem_cons_of_mem _ hx)) (by rw [f1]) (by rw [f1]) w1
      (by simp only [List.length_append, List.length_map]; omega)
    refine ⟨ik2, ?_, ?_, ?_, ?_⟩
    · simp only [eqCells, hd, Bool.false_eq_true, if_false, e1, e2, Option.bind_eq_bind, Option.bind_some,
        ← List.append_assoc]
      rfl
    · rw [← List.append_assoc]; exact w2
    · rw [ev2, ev1]; simp [add_assoc]
    · rw [f2, f1]

/-- Success of the evaluation gives the blocks. -/
theorem blocks_of_eqCells (cs : List (IKCell K)) :
    ∀ {ik ik' : IK K} {cs' : List (IKCell K)} {row row' : ℕ}, eqCells cs ik row = some (cs', ik', row') →
      ∃ bs ys, Spec.IkBlocks ik.chain ik.matCell cs bs ys := by
  induction cs with
  | nil => intro ik _ _ _ _ _; exact ⟨[], [], .nil _⟩
  | cons x cs ih =>
    intro ik ik' cs' row row' h
    simp only [eqCells] at h
    by_cases hd : x.attr.isDisabled = true
    · simp only [hd, if_true, Option.bind_eq_bind, Option.bind_eq_some_iff] at h
      obtain ⟨⟨cs1, ik1, row1⟩, h1, _⟩ := h
      obtain ⟨bs, ys, hb⟩ := ih h1
      exact ⟨bs, _, .off hd hb⟩
    · simp only [hd, Bool.false_eq_true, if_false, Option.bind_eq_bind, Option.bind_eq_some_iff] at h
      obtain ⟨⟨c1, ik1, row1⟩, h1, ⟨cs2, ik2, row2⟩, h2, _⟩ := h
      obtain ⟨bs, ys, hb⟩ := ih h2
      have hs := eqCell_same h1
      simp only [eqCell, Option.bind_eq_bind, Option.bind_eq_some_iff, pure, Option.some.injEq, Prod.mk.injEq] at h1
      obtain ⟨mc, hm, srv, hsrv, ⟨ik2, n0⟩, g2, ⟨ik3, n1⟩, h3, ⟨ik4, n2⟩, h4, _, rfl, _⟩ := h1
      have hmc : ik4.matCell = mc := by
        have key : ∀ {a b : IK K} {cell v s row n}, a.cellEq cell v s row = some (b, n) → b.matCell = a.matCell := by
          intro a b cell v s row n h
          simp only [cellEq] at h
          by_cases ha : cell.attr.axisOn s = false
          · simp only [ha, Bool.not_false, if_true, Option.some.injEq, Prod.mk.injEq] at h
            rw [← h.1]
          · simp only [Bool.not_eq_false] at ha
            simp only [ha, Bool.not_true, Bool.false_eq_true, if_false, Option.bind_eq_bind, Option.bind_eq_some_iff] at h
            obtain ⟨m, _, r, _, h⟩ := h
            split_ifs at h
            simp only [Option.bind_eq_some_iff, pure, Option.some.injEq, Prod.mk.injEq] at h
            obtain ⟨r', _, rfl, _⟩ := h
            rfl
        rw [key h4, key h3, key g2]
      rw [hs.2.1, hmc] at hb
      exact ⟨_, _, .on (by simpa using hd) hm hsrv hb⟩

end IK
end Roki
