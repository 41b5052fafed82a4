import Verif.Spec.IK
import Verif.Lemmas.Index
import Mathlib.Tactic.Ring
set_option autoImplicit false

/-! # Inverse kinematics: what the calls preserve -/

namespace Roki
variable {K : Type*}

/-- What no call changes about a link: the size of its joint and its offset. -/
def Link.key (l : Link K) : ℕ × ℤ := (l.joint.prp.size, l.offset)

/-- The keys of a link array. -/
def keys (ls : List (Link K)) : List (ℕ × ℤ) := ls.map Link.key

theorem keys_set {ls : List (Link K)} {i : ℕ} {l l' : Link K} (h : ls[i]? = some l) (hk : l'.key = l.key) :
    keys (ls.set i l') = keys ls := by
  rw [keys, List.map_set, keys, hk]
  apply List.ext_getElem?
  intro j
  rw [List.getElem?_set]
  split_ifs with h1 h2
  · subst h1; simp [h]
  · subst h1
    simp only [List.length_map] at h2
    simp only [List.getElem?_map, List.getElem?_eq_none (Nat.le_of_not_lt h2), Option.map_none]
  · rfl

namespace Chain
section
variable {σ : Type*} {f : σ → Link K → Link K} {g : Link K → σ}

theorem downAt_keys (hf : ∀ st l, (f st l).key = l.key) (t : LTree ℕ) :
    ∀ (par : Option ℕ) (st : σ) (ls ls' : List (Link K)), downAt f g par t st ls = some ls' →
      keys ls' = keys ls := by
  induction t with
  | nil => intro par st ls ls' h; simp only [downAt, Option.some.injEq] at h; rw [h]
  | node i c s ihc ihs =>
    intro par st ls ls' h
    simp only [downAt, bind, Option.bind_eq_some_iff] at h
    obtain ⟨l, hl, ls1, h1, h2⟩ := h
    have e1 := (ihc _ _ _ _ h1).trans (keys_set hl (hf st l))
    split_ifs at h2 with hs
    · rw [← Option.some.inj h2]; exact e1
    · cases par with
      | none => simp at h2
      | some p =>
        simp only at h2
        cases hp : ls1[p]? with
        | none => simp [hp] at h2
        | some pl => simp only [hp] at h2; exact (ihs _ _ _ _ h2).trans e1
end

section
variable [Field K]

theorem key_calcTrq (l : Link K) (w : Vec6 K) :
    ({ l with joint := ⟨l.joint.prp.calcTrq w, w⟩ } : Link K).key = l.key := by
  simp only [Link.key, Prod.mk.injEq, and_true]
  cases l.joint.prp <;> rfl

theorem updateWrenchAt_keys (t : LTree ℕ) :
    ∀ ls ls' : List (Link K), updateWrenchAt t ls = some ls' → keys ls' = keys ls := by
  induction t with
  | nil => intro ls ls' h; simp only [updateWrenchAt, Option.some.injEq] at h; rw [h]
  | node i c s ihc ihs =>
    intro ls ls' h
    simp only [updateWrenchAt, bind, Option.bind_eq_some_iff] at h
    obtain ⟨l, hl, ls1, h1, l1, hl1, w1, hw1, h2⟩ := h
    rw [ihs _ _ h2, keys_set hl1 (key_calcTrq _ _), ihc _ _ h1]
    exact keys_set hl rfl

theorem updateFK_keys {c c' : Chain K} (h : c.updateFK = some c') : keys c'.link = keys c.link := by
  simp only [updateFK, updateFrame, Option.map_map, Option.map_eq_some_iff] at h
  obtain ⟨ls, h, rfl⟩ := h
  exact downAt_keys (f := fun pwf l => l.updateFrame1 pwf) (fun _ _ => rfl) _ _ _ _ _ h

theorem updateID_keys {c c' : Chain K} {g : Vec6 K} (h : c.updateID g = some c') :
    keys c'.link = keys c.link := by
  simp only [updateID, updateRate, updateWrench, bind, Option.bind_eq_some_iff,
    Option.map_eq_some_iff, pure, Option.some.injEq] at h
  obtain ⟨c1, ⟨l1, h1, rfl⟩, c2, ⟨l2, h2, rfl⟩, rfl⟩ := h
  unfold updateRateAt at h1
  have e1 := downAt_keys (f := fun (st : Vec6 K × Vec6 K) l => l.updateRate1 st.1 st.2)
    (fun st l => by rfl) _ _ _ _ _ h1
  have e2 := updateWrenchAt_keys _ _ _ h2
  exact e2.trans e1
end
end Chain

namespace LinkArray

theorem setWith_key {set : Prp K → List K → Option (Prp K)}
    (hs : ∀ p buf p', set p buf = some p' → p'.size = p.size) {l l' : Link K} {buf : List K}
    (h : l.setWith set buf = some l') : l'.key = l.key := by
  obtain ⟨p, hp, rfl⟩ := setWith_eq_some.1 h
  simp [Link.key, hs _ _ _ hp]

theorem setAtOffset_key {set : Prp K → List K → Option (Prp K)}
    (hs : ∀ p buf p', set p buf = some p' → p'.size = p.size) {l l' : Link K} {v : List K}
    (h : l.setAtOffset set v = some l') : l'.key = l.key := by
  simp only [Link.setAtOffset] at h
  split_ifs at h
  · exact setWith_key hs h
  · rw [← Option.some.inj h]

theorem setJointAll_keys {set : Prp K → List K → Option (Prp K)}
    (hs : ∀ p buf p', set p buf = some p' → p'.size = p.size) (v : List K) :
    ∀ ls ls' : List (Link K), setJointAll set v ls = some ls' → keys ls' = keys ls := by
  intro ls
  induction ls with
  | nil => intro ls' h; simp only [setJointAll, Option.some.injEq] at h; rw [← h]
  | cons l ls ih =>
    intro ls' h
    simp only [setJointAll, bind, Option.bind_eq_some_iff, pure, Option.some.injEq] at h
    obtain ⟨l', hl, ls1, h1, rfl⟩ := h
    simp only [keys, List.map_cons]
    rw [setAtOffset_key hs hl]
    congr 1
    exact ih _ h1

theorem setJoint_keys {set : Prp K → List K → Option (Prp K)}
    (hs : ∀ p buf p', set p buf = some p' → p'.size = p.size) (idx : List ℕ) :
    ∀ (v : List K) (ls ls' : List (Link K)), setJoint set idx v ls = some ls' → keys ls' = keys ls := by
  induction idx with
  | nil => intro v ls ls' h; simp only [setJoint, Option.some.injEq] at h; rw [h]
  | cons i idx ih =>
    intro v ls ls' h
    simp only [setJoint, bind, Option.bind_eq_some_iff] at h
    obtain ⟨l, hl, l', hl', h⟩ := h
    rw [ih _ _ _ h, keys_set hl (setWith_key hs hl')]

theorem setJointRate_keys (idx : List ℕ) :
    ∀ (v a : List K) (ls ls' : List (Link K)), setJointRate idx v a ls = some ls' → keys ls' = keys ls := by
  induction idx with
  | nil => intro v a ls ls' h; simp only [setJointRate, Option.some.injEq] at h; rw [h]
  | cons i idx ih =>
    intro v a ls ls' h
    simp only [setJointRate, bind, Option.bind_eq_some_iff] at h
    obtain ⟨l, hl, l', hl', l'', hl'', h⟩ := h
    rw [ih _ _ _ _ h,
      keys_set hl ((setWith_key isSetter_acc.size hl'').trans (setWith_key isSetter_vel.size hl'))]

theorem setJointRateAll_keys (v a : List K) (ls ls' : List (Link K))
    (h : setJointRateAll v a ls = some ls') : keys ls' = keys ls := by
  rw [setJointRateAll_eq] at h
  obtain ⟨l1, h1, h2⟩ := Option.bind_eq_some_iff.1 h
  exact (setJointAll_keys isSetter_acc.size _ _ _ h2).trans (setJointAll_keys isSetter_vel.size _ _ _ h1)

theorem setDisCNT_size [Field K] [LinearOrder K] [Zm K] (dt : K) (p : Prp K) (buf : List K) (p' : Prp K)
    (h : p.setDisCNT buf dt = some p') : p'.size = p.size := by
  cases p <;> rcases buf with _ | ⟨a, _ | ⟨b, _ | ⟨c, _ | ⟨d, _ | ⟨e, _ | ⟨f, buf⟩⟩⟩⟩⟩⟩ <;>
    simp [Prp.setDisCNT, Vec3.ofBuf, Vec6.ofBuf] at h <;> subst h <;> rfl

end LinkArray

/-- No call on a chain changes the joint sizes or the offsets. -/
theorem Chain.Op.run_keys [Field K] [LinearOrder K] [Zm K] {c c' : Chain K} (o : Chain.Op K)
    (h : o.run c = some c') : keys c'.link = keys c.link := by
  have hd := LinkArray.isSetter_dis (K := K)
  cases o <;> simp only [Chain.Op.run, Option.map_eq_some_iff] at h
  case setDis => obtain ⟨ls, h, rfl⟩ := h; exact LinkArray.setJoint_keys hd.size _ _ _ _ h
  case setDisAll => obtain ⟨ls, h, rfl⟩ := h; exact LinkArray.setJointAll_keys hd.size _ _ _ h
  case setRate => obtain ⟨ls, h, rfl⟩ := h; exact LinkArray.setJointRate_keys _ _ _ _ _ h
  case setRateAll => obtain ⟨ls, h, rfl⟩ := h; exact LinkArray.setJointRateAll_keys _ _ _ _ h
  case updateFK => exact updateFK_keys h
  case updateID => exact updateID_keys h
  case fk =>
    simp only [Chain.fk, bind, Option.bind_eq_some_iff] at h
    obtain ⟨ls, h1, h2⟩ := h
    exact (updateFK_keys h2).trans (LinkArray.setJointAll_keys hd.size _ _ _ h1)
  case id =>
    simp only [Chain.invDyn, bind, Option.bind_eq_some_iff] at h
    obtain ⟨ls, h1, h2⟩ := h
    exact (updateID_keys h2).trans (LinkArray.setJointRateAll_keys _ _ _ _ h1)
  case fkCNT =>
    simp only [Chain.fkCNT, bind, Option.bind_eq_some_iff] at h
    obtain ⟨ls, h1, c1, h2, h3⟩ := h
    exact (updateID_keys h3).trans ((updateFK_keys h2).trans
      (LinkArray.setJointAll_keys (LinkArray.setDisCNT_size _) _ _ _ h1))
  case push => obtain ⟨l, h, rfl⟩ := h; exact keys_set h rfl
  case clear =>
    rw [← Option.some.inj h]
    simp [LinkArray.extWrenchDestroy, keys, Function.comp_def, Link.key]

theorem keys_length {ls ls' : List (Link K)} (h : keys ls = keys ls') : ls.length = ls'.length := by
  simpa [keys] using congrArg List.length h

theorem keys_sizes {ls ls' : List (Link K)} (h : keys ls = keys ls') :
    LinkArray.jointSize ls = LinkArray.jointSize ls' := by
  rw [LinkArray.jointSize_eq, LinkArray.jointSize_eq]
  have := congrArg (fun t => (t.map Prod.fst).sum) h
  simpa [keys, LinkArray.sizes, Function.comp_def, Link.key, Link.size] using this

theorem keys_getElem? {ls ls' : List (Link K)} (h : keys ls = keys ls') (i : ℕ) :
    ls[i]?.map Link.key = ls'[i]?.map Link.key := by
  simpa [keys] using congrArg (fun t => t[i]?) h

/-! ## What a call other than a registration keeps -/

/-- The two states of a solver have the same registered joints, index and constraints. -/
structure IK.Same (a b : IK K) : Prop where
  keys : keys b.chain.link = keys a.chain.link
  sw : b.sw = a.sw
  weight : b.weight = a.weight
  jidx : b.jidx = a.jidx
  jofs : b.jofs = a.jofs
  jwn : b.jwn = a.jwn
  jvel : b.jvel.length = a.jvel.length
  vel : b.vel.length = a.vel.length
  ids : b.clist.map (fun c => (c.ptr, c.id)) = a.clist.map (fun c => (c.ptr, c.id))

namespace IK
theorem Same.rfl' (a : IK K) : Same a a := ⟨rfl, rfl, rfl, rfl, rfl, rfl, rfl, rfl, rfl⟩

theorem Same.trans {a b c : IK K} (h : Same a b) (g : Same b c) : Same a c :=
  ⟨g.keys.trans h.keys, g.sw.trans h.sw, g.weight.trans h.weight, g.jidx.trans h.jidx,
    g.jofs.trans h.jofs, g.jwn.trans h.jwn, g.jvel.trans h.jvel, g.vel.trans h.vel, g.ids.trans h.ids⟩

variable [Field K]

theorem modifyCell_same (ik : IK K) (ptr : ℕ) (f : IKCell K → IKCell K)
    (hf : ∀ c, (f c).ptr = c.ptr ∧ (f c).id = c.id) : Same ik (ik.modifyCell ptr f) := by
  refine ⟨rfl, rfl, rfl, rfl, rfl, rfl, rfl, rfl, ?_⟩
  simp only [modifyCell, List.map_map]
  apply List.map_congr_left
  intro c _
  simp only [Function.comp]
  split_ifs
  · rw [(hf c).1, (hf c).2]
  · rfl

theorem bind_same {ik ik' : IK K} (h : ik.bind = some ik') : Same ik ik' := by
  simp only [bind, Option.map_eq_some_iff] at h
  obtain ⟨l, h, rfl⟩ := h
  refine ⟨rfl, rfl, rfl, rfl, rfl, rfl, rfl, rfl, ?_⟩
  simp only
  revert l
  generalize ik.clist = cl
  induction cl with
  | nil => intro l h; simp only [List.mapM_nil, pure, Option.some.injEq] at h; rw [← h]
  | cons c cl ih =>
    intro l h
    simp only [List.mapM_cons, Option.bind_eq_bind, Option.bind_eq_some_iff, pure, Option.some.injEq] at h
    obtain ⟨c', hc, l', hl, rfl⟩ := h
    simp only [IKCell.bind, Option.map_eq_some_iff] at hc
    obtain ⟨r, _, rfl⟩ := hc
    simp [ih _ hl]

theorem cellEq_same {ik ik' : IK K} {cell : IKCell K} {srv : Vec3 K} {s row n : ℕ}
    (h : ik.cellEq cell srv s row = some (ik', n)) :
    Same ik ik' ∧ ik'.chain = ik.chain ∧ ik'.clist = ik.clist ∧ ik'.vel = ik.vel ∧ ik'.jvel = ik.jvel := by
  simp only [cellEq] at h
  by_cases ha : cell.attr.axisOn s = false
  · simp only [ha, Bool.not_false, if_true, Option.some.injEq, Prod.mk.injEq] at h
    rw [← h.1]; exact ⟨Same.rfl' _, rfl, rfl, rfl, rfl⟩
  · simp only [Bool.not_eq_false] at ha
    simp only [ha, Bool.not_true, Bool.false_eq_true, if_false, Option.bind_eq_bind, Option.bind_eq_some_iff] at h
    obtain ⟨m, _, r, _, h⟩ := h
    split_ifs at h
    simp only [Option.bind_eq_some_iff, pure, Option.some.injEq, Prod.mk.injEq] at h
    obtain ⟨r', _, rfl, _⟩ := h
    exact ⟨⟨rfl, rfl, rfl, rfl, rfl, rfl, rfl, rfl, rfl⟩, rfl, rfl, rfl, rfl⟩

theorem eqCell_same [ZSqrt K] {ik ik' : IK K} {cell cell' : IKCell K} {row row' : ℕ}
    (h : ik.eqCell cell row = some (cell', ik', row')) :
    Same ik ik' ∧ ik'.chain = ik.chain ∧ ik'.clist = ik.clist ∧ ik'.vel = ik.vel ∧
      ik'.jvel = ik.jvel ∧ (cell'.ptr = cell.ptr ∧ cell'.id = cell.id) := by
  simp only [eqCell, Option.bind_eq_bind, Option.bind_eq_some_iff, pure, Option.some.injEq, Prod.mk.injEq] at h
  obtain ⟨mc, _, srv, _, ⟨ik2, n0⟩, h2, ⟨ik3, n1⟩, h3, ⟨ik4, n2⟩, h4, rfl, rfl, _⟩ := h
  have e2 := cellEq_same h2
  have e3 := cellEq_same h3
  have e4 := cellEq_same h4
  refine ⟨?_, by rw [e4.2.1, e3.2.1, e2.2.1], by rw [e4.2.2.1, e3.2.2.1, e2.2.2.1],
    by rw [e4.2.2.2.1, e3.2.2.2.1, e2.2.2.2.1], by rw [e4.2.2.2.2, e3.2.2.2.2, e2.2.2.2.2], rfl, rfl⟩
  have h0 : Same ik { ik with matCell := mc, eval := ik.eval + (cell.attr.w.x * srv.x * srv.x +
    cell.attr.w.y * srv.y * srv.y + cell.attr.w.z * srv.z * srv.z) } :=
    ⟨rfl, rfl, rfl, rfl, rfl, rfl, rfl, rfl, rfl⟩
  exact ((h0.trans e2.1).trans e3.1).trans e4.1

theorem eqCells_same [ZSqrt K] (cs : List (IKCell K)) :
    ∀ {ik ik' : IK K} {cs' : List (IKCell K)} {row row' : ℕ},
      eqCells cs ik row = some (cs', ik', row') →
      Same ik ik' ∧ ik'.chain = ik.chain ∧ ik'.clist = ik.clist ∧ ik'.vel = ik.vel ∧ ik'.jvel = ik.jvel ∧
        cs'.map (fun c => (c.ptr, c.id)) = cs.map (fun c => (c.ptr, c.id)) := by
  induction cs with
  | nil =>
    intro ik ik' cs' row row' h
    simp only [eqCells, Option.some.injEq, Prod.mk.injEq] at h
    obtain ⟨rfl, rfl, _⟩ := h
    exact ⟨Same.rfl' _, rfl, rfl, rfl, rfl, rfl⟩
  | cons c cs ih =>
    intro ik ik' cs' row row' h
    simp only [eqCells] at h
    split_ifs at h
    · simp only [Option.bind_eq_bind, Option.bind_eq_some_iff, pure, Option.some.injEq, Prod.mk.injEq] at h
      obtain ⟨⟨cs1, ik1, row1⟩, h1, rfl, rfl, _⟩ := h
      have e := ih h1
      exact ⟨e.1, e.2.1, e.2.2.1, e.2.2.2.1, e.2.2.2.2.1, by simp [e.2.2.2.2.2]⟩
    · simp only [Option.bind_eq_bind, Option.bind_eq_some_iff, pure, Option.some.injEq, Prod.mk.injEq] at h
      obtain ⟨⟨c1, ik1, row1⟩, h1, ⟨cs2, ik2, row2⟩, h2, rfl, rfl, _⟩ := h
      have d := eqCell_same h1
      have e := ih h2
      exact ⟨d.1.trans e.1, e.2.1.trans d.2.1, e.2.2.1.trans d.2.2.1, e.2.2.2.1.trans d.2.2.2.1,
        e.2.2.2.2.1.trans d.2.2.2.2.1, by simp [e.2.2.2.2.2, d.2.2.2.2.2]⟩

theorem eq_same [ZSqrt K] {ik ik' : IK K} (h : ik.eq = some ik') :
    Same ik ik' ∧ ik'.chain = ik.chain ∧ ik'.vel = ik.vel ∧ ik'.jvel = ik.jvel := by
  simp only [eq, Option.bind_eq_bind, Option.bind_eq_some_iff, pure, Option.some.injEq] at h
  obtain ⟨⟨cs, ik1, row⟩, h1, m, _, rfl⟩ := h
  have e := eqCells_same _ h1
  refine ⟨⟨e.1.keys, e.1.sw, e.1.weight, e.1.jidx, e.1.jofs, e.1.jwn, e.1.jvel, e.1.vel, e.2.2.2.2.2⟩,
    e.2.1, e.2.2.2.1, e.2.2.2.2.1⟩

theorem writeAt_length {buf v r : List K} {p : ℕ} (h : LinkArray.writeAt buf p v = some r) :
    r.length = buf.length := by
  simp only [LinkArray.writeAt] at h
  split_ifs at h with hp
  rw [← Option.some.inj h]
  simp only [List.length_append, List.length_take, List.length_drop]
  omega

theorem scatter_length (ls : List (Link K)) (idx : List ℕ) :
    ∀ {vp vel r : List K}, scatter ls idx vp vel = some r → r.length = vel.length := by
  induction idx with
  | nil => intro vp vel r h; simp only [scatter, Option.some.injEq] at h; rw [h]
  | cons k idx ih =>
    intro vp vel r h
    simp only [scatter, Option.bind_eq_bind, Option.bind_eq_some_iff] at h
    obtain ⟨l, _, h⟩ := h
    split_ifs at h
    · exact ih h
    · simp only [Option.bind_eq_some_iff] at h
      obtain ⟨vel', h1, h2⟩ := h
      rw [ih h2, writeAt_length h1]

theorem solveRate_same [ZSqrt K] {ik ik' : IK K} (h : ik.solveRate = some ik') :
    Same ik ik' ∧ ik'.chain = ik.chain ∧ (∃ idx, ik.jidx = some idx ∧
      scatter ik.chain.link idx ik'.jvel ik.vel = some ik'.vel) := by
  simp only [solveRate, Option.bind_eq_bind, Option.bind_eq_some_iff, pure, Option.some.injEq] at h
  obtain ⟨ik1, h1, m, _, vel, ⟨idx, hidx, hs⟩, rfl⟩ := h
  have e := eq_same h1
  refine ⟨⟨e.1.keys, e.1.sw, e.1.weight, e.1.jidx, e.1.jofs, e.1.jwn, ?_, ?_, e.1.ids⟩, e.2.1, idx, ?_, ?_⟩
  · simpa using e.1.jvel
  · exact (scatter_length _ _ hs).trans (congrArg _ e.2.2.1)
  · rw [← e.1.jidx]; exact hidx
  · rw [← e.2.1, ← e.2.2.1]; exact hs

variable [LinearOrder K] [Zm K]

theorem solveOne_same [ZSqrt K] {ik ik' : IK K} {dis dis' : List K} {dt : K}
    (h : ik.solveOne dis dt = some (ik', dis')) : Same ik ik' := by
  simp only [solveOne, Option.bind_eq_bind, Option.bind_eq_some_iff, pure, Option.some.injEq, Prod.mk.injEq] at h
  obtain ⟨ik1, h1, dis1, _, ls, hls, dis2, _, c, hc, rfl, _⟩ := h
  have e := (solveRate_same h1).1
  refine ⟨?_, e.sw, e.weight, e.jidx, e.jofs, e.jwn, e.jvel, e.vel, e.ids⟩
  exact (Chain.updateFK_keys hc).trans ((LinkArray.setJointAll_keys LinkArray.isSetter_dis.size _ _ _ hls).trans e.keys)

theorem acmZero_same (ik : IK K) : Same ik ik.acmZero :=
  ⟨rfl, rfl, rfl, rfl, rfl, rfl, rfl, rfl, by simp [acmZero, Function.comp_def, IKCell.acmZero]⟩

theorem solveLoop_same [ZSqrt K] (tol : K) (n : ℕ) :
    ∀ {i : ℕ} {rest : Option K} {ik ik' : IK K} {dis dis' : List K} {r : ℤ},
      solveLoop tol n i rest ik dis = some (r, ik', dis') → Same ik ik' := by
  induction n with
  | zero =>
    intro i rest ik ik' dis dis' r h
    simp only [solveLoop, Option.some.injEq, Prod.mk.injEq] at h
    rw [h.2.1]; exact Same.rfl' _
  | succ n ih =>
    intro i rest ik ik' dis dis' r h
    simp only [solveLoop, Option.bind_eq_bind, Option.bind_eq_some_iff] at h
    obtain ⟨⟨ik1, dis1⟩, h1, h⟩ := h
    have e := solveOne_same h1
    cases rest with
    | none => exact e.trans (ih h)
    | some r =>
      simp only at h
      split_ifs at h
      · simp only [Option.some.injEq, Prod.mk.injEq] at h
        rw [← h.2.1]; exact e
      · exact e.trans (ih h)

theorem solve_same [ZSqrt K] {maxIter : ℕ} {ik ik' : IK K} {dis dis' : List K} {tol : K} {iter r : ℤ}
    (h : ik.solve maxIter dis tol iter = some (r, ik', dis')) : Same ik ik' := by
  simp only [solve, Option.bind_eq_bind, Option.bind_eq_some_iff] at h
  obtain ⟨dis0, _, h⟩ := h
  exact (acmZero_same ik).trans (solveLoop_same _ _ h)
end IK

/-- A call that registers or unregisters nothing. -/
def IK.Op.Quiet : IK.Op K → Prop
  | .jointReg _ _ | .jointUnreg _ | .jointRegAll _ | .cellReg _ _ _ _ | .cellUnreg _ => False
  | _ => True

theorem IK.Op.run_same [Field K] [LinearOrder K] [Zm K] [ZSqrt K] {ik ik' : IK K} (o : IK.Op K)
    (ho : o.Quiet) (h : o.run ik = some ik') : IK.Same ik ik' := by
  cases o <;> simp only [IK.Op.Quiet] at ho <;> simp only [IK.Op.run, Option.some.injEq, Option.map_eq_some_iff] at h
  case setRef => rw [← h]; exact IK.modifyCell_same _ _ _ fun _ => ⟨rfl, rfl⟩
  case setRefForce => rw [← h]; exact IK.modifyCell_same _ _ _ fun _ => ⟨rfl, rfl⟩
  case setWeight => rw [← h]; exact IK.modifyCell_same _ _ _ fun _ => ⟨rfl, rfl⟩
  case enable => rw [← h]; exact IK.modifyCell_same _ _ _ fun _ => ⟨rfl, rfl⟩
  case disable => rw [← h]; exact IK.modifyCell_same _ _ _ fun _ => ⟨rfl, rfl⟩
  case setAttr => rw [← h]; exact IK.modifyCell_same _ _ _ fun _ => ⟨rfl, rfl⟩
  case deactivate =>
    rw [← h]
    exact ⟨rfl, rfl, rfl, rfl, rfl, rfl, rfl, rfl, by simp [IK.deactivate, Function.comp_def]⟩
  case bind => exact IK.bind_same h
  case chain =>
    obtain ⟨c, hc, rfl⟩ := h
    exact ⟨Chain.Op.run_keys _ hc, rfl, rfl, rfl, rfl, rfl, rfl, rfl, rfl⟩
  case eq => exact (IK.eq_same h).1
  case solveRate => exact (IK.solveRate_same h).1
  case solveOne => obtain ⟨⟨a, b⟩, h, rfl⟩ := h; exact IK.solveOne_same h
  case solve => obtain ⟨⟨r, a, b⟩, h, rfl⟩ := h; exact IK.solve_same h

end Roki
