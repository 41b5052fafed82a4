import Verif.Lemmas.IKEq
set_option autoImplicit false

/-! # Inverse kinematics: the work space fits at all times -/

namespace Roki
open LinkArray
open Jacobi (Mat)
variable {K : Type*} [Field K] [ZSqrt K]

namespace IK

theorem jointSize_keys {ls ms : List (Link K)} (h : keys ls = keys ms) : jointSize ls = jointSize ms := by
  have key : ∀ l : List (Link K), jointSize l = ((keys l).map Prod.fst).sum := by
    intro l
    rw [(C01_offsets_tile l).1]
    simp [keys, Link.key, Function.comp_def]
  rw [key, key, h]

theorem Joints.env {ls : List (Link K)} {reg : ℕ → Option K} {ik : IK K} (h : Joints ls reg ik)
    (ho : setOffset ls = ls) : Env reg ik.jvel.length ik := by
  have hsw : ∀ i : ℕ, (reg i).isSome ↔ ik.sw[i]? = some true := by
    intro i
    rw [h.reg]
    split_ifs with h1
    · have : i < ik.weight.length := by
        rw [h.lwt, ← h.lsw]; exact (List.getElem?_eq_some_iff.1 h1).1
      simp [h1, List.getElem?_eq_getElem this]
    · simp [h1]
  have hlen : ik.chain.link.length = ls.length := keys_length h.keys
  refine ⟨setOffset_keys h.keys.symm ho, by rw [h.lsw, hlen], hsw, ?_, ?_, by rw [h.lvel, jointSize_keys h.keys]⟩
  · intro i hi
    rw [(h.idx ⟨i, hi⟩).2.1, offsetsFrom_getElem? ls ik.sw 0 i reg true h.lsw hsw hi, Spec.ikOfs_congr h.keys]
    simp
  · intro hex
    obtain ⟨_, _, e3, e4⟩ := h.idx hex
    rw [e4, (weights_slices ls ik.weight ik.sw 0 ls _ ik.jwn h.lsw (by simp) hsw e3).1, Spec.ikOfs_congr h.keys, hlen]

/-- The work space of a solver fits. -/
structure Bufs (ls : List (Link K)) (ik : IK K) : Prop where
  lmat : ik.matCell.length = jointSize ls
  fns : ∀ x ∈ ik.clist, KeepsSize x.fns
  buf : ik.clist ≠ [] → ∃ M, ik.cmat = some M ∧ M.length = ik.clist.length * 3 ∧
    (∀ r ∈ M, r.length = ik.jvel.length) ∧ ik.csrv.length = ik.clist.length * 3 ∧ ik.cwe.length = ik.clist.length * 3
  idx : ik.jidx ≠ some [] ∧ (ik.jidx = none → ik.clist = [])

omit [ZSqrt K] in
theorem Bufs.create (c : Chain K) (jv : List (List K) → List K → List K → List K → List K → ℕ → K) :
    Bufs c.link (IK.create c jv) :=
  ⟨by simp [IK.create], by simp [IK.create], by simp [IK.create], by simp [IK.create]⟩

omit [ZSqrt K] in
/-- Changes that keep the shape of everything. -/
theorem Bufs.keep {ls : List (Link K)} {a b : IK K} (h : Bufs ls a) (h1 : b.matCell = a.matCell)
    (h2 : b.clist.map (fun x => x.fns) = a.clist.map (fun x => x.fns)) (h3 : b.cmat = a.cmat) (h4 : b.csrv = a.csrv)
    (h5 : b.cwe = a.cwe) (h6 : b.jvel.length = a.jvel.length) (h7 : b.jidx = a.jidx) : Bufs ls b := by
  have hlen : b.clist.length = a.clist.length := by simpa using congrArg List.length h2
  have hnil : b.clist = [] ↔ a.clist = [] := by
    rw [← List.length_eq_zero_iff, ← List.length_eq_zero_iff, hlen]
  refine ⟨by rw [h1]; exact h.lmat, ?_, ?_, ?_⟩
  · intro x hx
    have : x.fns ∈ b.clist.map (fun x => x.fns) := List.mem_map_of_mem hx
    rw [h2] at this
    obtain ⟨y, hy, e⟩ := List.mem_map.1 this
    rw [← e]; exact h.fns y hy
  · rw [h3, h4, h5, h6, hlen]
    exact fun hb => h.buf fun ha => hb (hnil.2 ha)
  · rw [h7, hnil]; exact h.idx

theorem _root_.Roki.Spec.IkBlocks.after {c : Chain K} {m : Mat K} {cs ys : List (IKCell K)} {bs : List (Spec.IkBlock K)}
    (h : Spec.IkBlocks c m cs bs ys) : ys.map (fun x => x.fns) = cs.map (fun x => x.fns) ∧
      (Spec.ikRows bs).length ≤ cs.length * 3 := by
  induction h with
  | nil => simp [Spec.ikRows]
  | off _ _ ih => exact ⟨by simp [ih.1], by have := ih.2; simp only [List.length_cons]; omega⟩
  | on _ _ _ _ ih =>
    refine ⟨by simp [ih.1], ?_⟩
    have : ∀ a : IKAttr K, (Spec.ikAxes a).length ≤ 3 := by
      intro a; simp only [Spec.ikAxes]; split_ifs <;> simp
    have h2 := ih.2
    simp only [Spec.ikRows, List.flatMap_cons, List.length_append, List.length_map, List.length_cons] at h2 ⊢
    have := this (‹IKCell K›).attr
    omega

/-- The equation, for any state that is consistent. -/
theorem eq_spec {ls : List (Link K)} {reg : ℕ → Option K} {ik : IK K} (hj : Joints ls reg ik)
    (ho : setOffset ls = ls) (hb : Bufs ls ik) (hne : ik.clist ≠ []) {bs : List (Spec.IkBlock K)} {ys : List (IKCell K)}
    (hbs : Spec.IkBlocks ik.chain ik.matCell ik.clist bs ys) :
    ∃ ik', ik.eq = some ik' ∧ ik'.clist = ys ∧ ik'.rows = (Spec.ikRows bs).length ∧
      ik'.eval = ZSqrt.sqrt ((bs.map fun b => Spec.ikSquare b.cell.attr.w b.err).sum) ∧
      Written reg ik.jvel.length (ik.clist.length * 3) (Spec.ikRows bs) ik' ∧
      ik' = { ik with cmat := ik'.cmat, csrv := ik'.csrv, cwe := ik'.cwe, eval := ik'.eval, matCell := ik'.matCell,
                      clist := ik'.clist, rows := ik'.rows } := by
  obtain ⟨M, hM, h1, h2, h3, h4⟩ := hb.buf hne
  have e := hj.env ho
  have hw : Written reg ik.jvel.length (ik.clist.length * 3) [] { ik with eval := 0 } :=
    ⟨⟨e.ofs, e.lsw, e.sw, e.jofs, e.fit, e.lvel⟩, by rw [← jointSize_keys hj.keys.symm]; exact hb.lmat, h3, h4, M, hM, h1, h2,
      by simp⟩
  obtain ⟨ik', e1, w, ev, f⟩ := eqCells_written hbs hb.fns (rs := []) (ik := { ik with eval := 0 }) rfl rfl hw
    (by simpa using hbs.after.2)
  simp only [List.nil_append, List.length_nil] at e1 w
  obtain ⟨M', hM', _⟩ := w.mat
  refine ⟨{ ik' with clist := ys, eval := ZSqrt.sqrt ik'.eval, rows := (Spec.ikRows bs).length }, ?_, rfl, rfl, ?_, ?_, ?_⟩
  · simp only [IK.eq, e1, hM', Option.bind_eq_bind, Option.bind_some]; rfl
  · simp only [ev, zero_add]
  · exact ⟨⟨w.env.ofs, w.env.lsw, w.env.sw, w.env.jofs, w.env.fit, w.env.lvel⟩, w.lmat, w.lsrv, w.lwe, w.mat⟩
  · rw [f]

theorem blocks_of_eq {ik ik' : IK K} (h : ik.eq = some ik') : ∃ bs ys, Spec.IkBlocks ik.chain ik.matCell ik.clist bs ys := by
  simp only [IK.eq, Option.bind_eq_bind, Option.bind_eq_some_iff] at h
  obtain ⟨⟨cs, ik1, row⟩, h1, _⟩ := h
  exact blocks_of_eqCells (ik := { ik with eval := 0 }) _ h1

theorem eq_bufs {ls : List (Link K)} {reg : ℕ → Option K} {a b : IK K} (hj : Joints ls reg a)
    (ho : setOffset ls = ls) (hb : Bufs ls a) (h : a.eq = some b) : Bufs ls b := by
  by_cases hne : a.clist = []
  · simp only [IK.eq, hne, eqCells, Option.bind_eq_bind, Option.bind_some, Option.bind_eq_some_iff, pure,
      Option.some.injEq] at h
    obtain ⟨m, _, rfl⟩ := h
    exact hb.keep rfl (by simp [hne]) rfl rfl rfl rfl rfl
  · obtain ⟨bs, ys, hbs⟩ := blocks_of_eq h
    obtain ⟨ik', e, hc, _, _, w, f⟩ := eq_spec hj ho hb hne hbs
    rw [h] at e
    cases e
    obtain ⟨M, hM, hl, hr, _⟩ := w.mat
    have haft := hbs.after.1
    have hlen : ys.length = a.clist.length := by simpa using congrArg List.length haft
    have hjv : b.jvel = a.jvel := by rw [f]
    have hji : b.jidx = a.jidx := by rw [f]
    refine ⟨?_, ?_, ?_, ?_⟩
    · rw [w.lmat, show b.chain = a.chain by rw [f], jointSize_keys hj.keys]
    · intro x hx
      rw [hc] at hx
      have : x.fns ∈ ys.map (fun x => x.fns) := List.mem_map_of_mem hx
      rw [haft] at this
      obtain ⟨y, hy, e⟩ := List.mem_map.1 this
      rw [← e]; exact hb.fns y hy
    · intro _
      rw [hc, hlen]
      exact ⟨M, hM, hl, by rw [hjv]; exact hr, w.lsrv, w.lwe⟩
    · refine ⟨by rw [hji]; exact hb.idx.1, fun hn => ?_⟩
      rw [hji] at hn
      exact absurd (hb.idx.2 hn) hne

theorem solveRate_bufs {ls : List (Link K)} {reg : ℕ → Option K} {a b : IK K} (hj : Joints ls reg a)
    (ho : setOffset ls = ls) (hb : Bufs ls a) (h : a.solveRate = some b) : Bufs ls b := by
  simp only [solveRate, Option.bind_eq_bind, Option.bind_eq_some_iff, pure, Option.some.injEq] at h
  obtain ⟨ik1, h1, m, _, vel, _, rfl⟩ := h
  exact (eq_bufs hj ho hb h1).keep rfl rfl rfl rfl rfl (by simp) rfl

variable [LinearOrder K] [Zm K]

theorem solveOne_bufs {ls : List (Link K)} {reg : ℕ → Option K} {a b : IK K} (hj : Joints ls reg a)
    (ho : setOffset ls = ls) (hb : Bufs ls a) {dis dis' : List K} {dt : K} (h : a.solveOne dis dt = some (b, dis')) :
    Bufs ls b := by
  simp only [solveOne, Option.bind_eq_bind, Option.bind_eq_some_iff, pure, Option.some.injEq, Prod.mk.injEq] at h
  obtain ⟨ik1, h1, dis1, _, ls, hls, dis2, _, c, hc, rfl, _⟩ := h
  exact (solveRate_bufs hj ho hb h1).keep rfl rfl rfl rfl rfl rfl rfl

theorem solveLoop_bufs {ls : List (Link K)} {reg : ℕ → Option K} (ho : setOffset ls = ls) (tol : K) (n : ℕ) :
    ∀ {i : ℕ} {rest : Option K} {a b : IK K} {dis dis' : List K} {r : ℤ}, Joints ls reg a → Bufs ls a →
      solveLoop tol n i rest a dis = some (r, b, dis') → Bufs ls b := by
  induction n with
  | zero =>
    intro i rest a b dis dis' r _ hb h
    simp only [solveLoop, Option.some.injEq, Prod.mk.injEq] at h
    rw [← h.2.1]; exact hb
  | succ n ih =>
    intro i rest a b dis dis' r hj hb h
    simp only [solveLoop, Option.bind_eq_bind, Option.bind_eq_some_iff] at h
    obtain ⟨⟨ik1, dis1⟩, h1, h⟩ := h
    have hb' := solveOne_bufs hj ho hb h1
    have hj' := hj.same (solveOne_same h1)
    cases rest with
    | none => exact ih hj' hb' h
    | some r =>
      simp only at h
      split_ifs at h
      · simp only [Option.some.injEq, Prod.mk.injEq] at h
        rw [← h.2.1]; exact hb'
      · exact ih hj' hb' h

theorem solve_bufs {ls : List (Link K)} {reg : ℕ → Option K} {a b : IK K} (hj : Joints ls reg a)
    (ho : setOffset ls = ls) (hb : Bufs ls a) {maxIter : ℕ} {dis dis' : List K} {tol : K} {iter r : ℤ}
    (h : a.solve maxIter dis tol iter = some (r, b, dis')) : Bufs ls b := by
  simp only [solve, Option.bind_eq_bind, Option.bind_eq_some_iff] at h
  obtain ⟨dis0, _, h⟩ := h
  refine solveLoop_bufs ho _ _ (hj.same (acmZero_same a)) ?_ h
  exact hb.keep rfl (by simp [acmZero, IKCell.acmZero, Function.comp_def]) rfl rfl rfl rfl rfl

omit [ZSqrt K] [LinearOrder K] [Zm K]

theorem allocCMat_bufs {ls : List (Link K)} {a b : IK K} (h : a.allocCMat = some b) (lmat : a.matCell.length = jointSize ls)
    (fns : ∀ x ∈ a.clist, KeepsSize x.fns) (hidx : a.jidx ≠ some []) (l1 : a.clist ≠ [] → a.csrv.length = a.clist.length * 3)
    (l2 : a.clist ≠ [] → a.cwe.length = a.clist.length * 3) : Bufs ls b := by
  simp only [allocCMat] at h
  split_ifs at h with h0
  · simp only [Option.some.injEq] at h
    subst h
    have := List.length_eq_zero_iff.1 h0
    exact ⟨lmat, fns, fun hn => absurd this hn, hidx, fun _ => this⟩
  · have hne : a.clist ≠ [] := fun hh => h0 (by simp [hh])
    cases hji : a.jidx with
    | none => simp [hji] at h
    | some idx =>
      cases idx with
      | nil => exact absurd hji hidx
      | cons i is =>
        simp only [hji, Option.some.injEq] at h
        subst h
        refine ⟨lmat, fns, fun _ => ⟨_, rfl, by simp, ?_, l1 hne, l2 hne⟩, by simp [hji], by simp [hji]⟩
        intro r hr
        rw [(List.mem_replicate.1 hr).2]; simp

theorem allocSRV_bufs {ls : List (Link K)} {a b : IK K} (lmat : a.matCell.length = jointSize ls)
    (fns : ∀ x ∈ a.clist, KeepsSize x.fns) (hidx : a.jidx ≠ some []) (h : a.allocSRV = some b) : Bufs ls b := by
  simp only [allocSRV] at h
  split_ifs at h with h0
  · simp only [Option.some.injEq] at h
    subst h
    have := List.length_eq_zero_iff.1 h0
    exact ⟨lmat, fns, fun hn => absurd this hn, hidx, fun _ => this⟩
  · exact allocCMat_bufs h lmat fns hidx (by simp) (by simp)

theorem jointReg'_bufs {ls : List (Link K)} {a b : IK K} (hb : Bufs ls a) {id : ℤ} {sw ok : Bool} {w : K}
    (h : a.jointReg' id sw w = some (ok, b)) : Bufs ls b := by
  simp only [jointReg'] at h
  split_ifs at h
  · simp only [Option.some.injEq, Prod.mk.injEq] at h
    rw [← h.2]; exact hb
  · simp only [Option.map_eq_some_iff, Prod.mk.injEq] at h
    obtain ⟨ik', h, _, rfl⟩ := h
    simp only [allocJointIndex] at h
    split_ifs at h with hc
    · simp only [Option.some.injEq] at h
      subst h
      exact hb.keep rfl rfl rfl rfl rfl rfl rfl
    · simp only [Option.bind_eq_some_iff] at h
      obtain ⟨n, _, wn, _, h⟩ := h
      refine allocCMat_bufs h hb.lmat hb.fns ?_ (fun hn => ?_) (fun hn => ?_)
      · simp only [ne_eq, Option.some.injEq]
        intro hnil
        apply hc
        rw [count_eq_zero]
        rintro ⟨i, hi⟩
        have := (mem_indexFrom _ 0 i).2 ⟨i, by simp, hi⟩
        rw [hnil] at this
        simp at this
      · obtain ⟨M, _, _, _, h3, _⟩ := hb.buf hn; exact h3
      · obtain ⟨M, _, _, _, _, h3⟩ := hb.buf hn; exact h3

theorem jointRegAllFrom_bufs {ls : List (Link K)} (w : K) (is : List ℕ) :
    ∀ {a b : IK K} {ok : Bool}, Bufs ls a → jointRegAllFrom w is a = some (ok, b) → Bufs ls b := by
  induction is with
  | nil =>
    intro a b ok h hr
    simp only [jointRegAllFrom, Option.some.injEq, Prod.mk.injEq] at hr
    rw [← hr.2]; exact h
  | cons i is ih =>
    intro a b ok h hr
    simp only [jointRegAllFrom, Option.bind_eq_bind, Option.bind_eq_some_iff] at hr
    obtain ⟨l, _, hr⟩ := hr
    split_ifs at hr
    · simp only [Option.bind_eq_some_iff] at hr
      obtain ⟨⟨ok1, ik1⟩, h1, hr⟩ := hr
      have h' := jointReg'_bufs h h1
      split_ifs at hr
      · exact ih h' hr
      · simp only [Option.some.injEq, Prod.mk.injEq] at hr
        rw [← hr.2]; exact h'
    · exact ih h hr

theorem insertAfter_fns (c : IKCell K) (l : List (IKCell K)) : ∀ x ∈ insertAfter c l, x.fns = c.fns ∨ ∃ y ∈ l, x.fns = y.fns := by
  induction l with
  | nil => simp [insertAfter]
  | cons a l ih =>
    cases l with
    | nil => simp [insertAfter]
    | cons b l =>
      intro x hx
      simp only [insertAfter] at hx
      split_ifs at hx
      · rcases List.mem_cons.1 hx with rfl | hx
        · exact .inr ⟨x, by simp, rfl⟩
        · rcases List.mem_cons.1 hx with rfl | hx
          · exact .inl rfl
          · exact .inr ⟨x, List.mem_cons_of_mem _ hx, rfl⟩
      · rcases List.mem_cons.1 hx with rfl | hx
        · exact .inr ⟨x, by simp, rfl⟩
        · rcases ih x hx with h | ⟨y, hy, h⟩
          · exact .inl h
          · exact .inr ⟨y, List.mem_cons_of_mem _ hy, h⟩

theorem insertCell_fns (c : IKCell K) (l : List (IKCell K)) : ∀ x ∈ insertCell c l, x.fns = c.fns ∨ ∃ y ∈ l, x.fns = y.fns := by
  cases l with
  | nil => simp [insertCell]
  | cons a l =>
    intro x hx
    simp only [insertCell] at hx
    split_ifs at hx
    · rcases List.mem_cons.1 hx with rfl | hx
      · exact .inl rfl
      · exact .inr ⟨x, hx, rfl⟩
    · exact insertAfter_fns c _ x hx

theorem modifyCell_bufs {ls : List (Link K)} {a : IK K} (h : Bufs ls a) (ptr : ℕ) (f : IKCell K → IKCell K)
    (hf : ∀ c, (f c).fns = c.fns) : Bufs ls (a.modifyCell ptr f) := by
  refine h.keep rfl ?_ rfl rfl rfl rfl rfl
  simp only [modifyCell, List.map_map]
  apply List.map_congr_left
  intro c _
  simp only [Function.comp]
  split_ifs
  · exact hf c
  · rfl

theorem bind_bufs {ls : List (Link K)} {a b : IK K} (hb : Bufs ls a) (h : a.bind = some b) : Bufs ls b := by
  simp only [bind, Option.map_eq_some_iff] at h
  obtain ⟨l, h, rfl⟩ := h
  refine hb.keep rfl ?_ rfl rfl rfl rfl rfl
  simp only
  clear hb
  revert l
  generalize a.clist = cl
  induction cl with
  | nil => intro l h; simp only [List.mapM_nil, pure, Option.some.injEq] at h; rw [← h]
  | cons c cl ih =>
    intro l h
    simp only [List.mapM_cons, Option.bind_eq_bind, Option.bind_eq_some_iff, pure, Option.some.injEq] at h
    obtain ⟨c', hc, l', hl, rfl⟩ := h
    simp only [IKCell.bind, Option.map_eq_some_iff] at hc
    obtain ⟨r, _, rfl⟩ := hc
    simp [ih _ hl]

variable [ZSqrt K] [LinearOrder K] [Zm K]

theorem Op.run_bufs {ls : List (Link K)} {reg : ℕ → Option K} {a b : IK K} (hj : Joints ls reg a)
    (ho : setOffset ls = ls) (hb : Bufs ls a) (o : Op K) (hs : o.Sized) (h : o.run a = some b) : Bufs ls b := by
  cases o <;> simp only [IK.Op.run, Option.some.injEq, Option.map_eq_some_iff] at h
  case jointReg => obtain ⟨⟨ok, ik⟩, h, rfl⟩ := h; exact jointReg'_bufs hb h
  case jointUnreg => obtain ⟨⟨ok, ik⟩, h, rfl⟩ := h; exact jointReg'_bufs hb h
  case jointRegAll => obtain ⟨⟨ok, ik⟩, h, rfl⟩ := h; exact jointRegAllFrom_bufs _ _ hb h
  case cellReg ptr attr mask fns =>
    refine allocSRV_bufs (a := { a with clist := insertCell (IKCell.init ptr attr mask fns) a.clist }) hb.lmat ?_ hb.idx.1 h
    intro x hx
    rcases insertCell_fns _ _ x hx with h | ⟨y, hy, h⟩
    · rw [h]; exact hs
    · rw [h]; exact hb.fns y hy
  case cellUnreg ptr =>
    simp only [IK.cellUnreg] at h
    split_ifs at h
    refine allocSRV_bufs (a := { a with clist := a.clist.eraseP (fun c => c.ptr == ptr) }) hb.lmat ?_ hb.idx.1 h
    intro x hx
    exact hb.fns x (List.mem_of_mem_eraseP hx)
  case setRef => rw [← h]; exact modifyCell_bufs hb _ _ fun _ => rfl
  case setRefForce => rw [← h]; exact modifyCell_bufs hb _ _ fun _ => rfl
  case setWeight => rw [← h]; exact modifyCell_bufs hb _ _ fun _ => rfl
  case enable => rw [← h]; exact modifyCell_bufs hb _ _ fun _ => rfl
  case disable => rw [← h]; exact modifyCell_bufs hb _ _ fun _ => rfl
  case setAttr => rw [← h]; exact modifyCell_bufs hb _ _ fun _ => rfl
  case deactivate =>
    rw [← h]
    exact hb.keep rfl (by simp [IK.deactivate, Function.comp_def]) rfl rfl rfl rfl rfl
  case bind => exact bind_bufs hb h
  case chain =>
    obtain ⟨c, hc, rfl⟩ := h
    exact hb.keep rfl rfl rfl rfl rfl rfl rfl
  case eq => exact eq_bufs hj ho hb h
  case solveRate => exact solveRate_bufs hj ho hb h
  case solveOne => obtain ⟨⟨a, b⟩, h, rfl⟩ := h; exact solveOne_bufs hj ho hb h
  case solve => obtain ⟨⟨r, a, b⟩, h, rfl⟩ := h; exact solve_bufs hj ho hb h

theorem runAll_bufs {ls : List (Link K)} (ho : setOffset ls = ls) (ops : List (Op K)) :
    ∀ {a b : IK K} {reg : ℕ → Option K}, Joints ls reg a → Bufs ls a → (∀ o ∈ ops, o.Sized) →
      a.runAll ops = some b → Bufs ls b := by
  induction ops with
  | nil => intro a b reg _ h _ hr; simp only [runAll, Option.some.injEq] at hr; subst hr; exact h
  | cons o ops ih =>
    intro a b reg hj hb hs hr
    simp only [runAll, Option.bind_eq_some_iff] at hr
    obtain ⟨c, hc, hr⟩ := hr
    exact ih (Op.run_inv (t := []) hj o hc).1 (Op.run_bufs hj ho hb o (hs o (by simp)) hc)
      (fun o ho => hs o (List.mem_cons_of_mem _ ho)) hr

end IK
end Roki
