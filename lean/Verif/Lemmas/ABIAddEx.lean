import Verif.Lemmas.ABITree
import Verif.Spec.ABI
set_option autoImplicit false

/-! # Update for additional forces against the full update -/

namespace Roki
variable {K : Type*} [Field K]

namespace LTree
variable {α β : Type*}

/-- Two trees of one shape whose entries are related. -/
def Rel (R : α → β → Prop) : LTree α → LTree β → Prop
  | nil, nil => True
  | node a c s, node b c' s' => R a b ∧ Rel R c c' ∧ Rel R s s'
  | _, _ => False

theorem Rel.mono {R S : α → β → Prop} (h : ∀ a b, R a b → S a b) {t : LTree α} {u : LTree β}
    (ht : Rel R t u) : Rel S t u := by
  induction t generalizing u with
  | nil => cases u <;> simp_all [Rel]
  | node a c s ihc ihs =>
    cases u with
    | nil => simp [Rel] at ht
    | node b c' s' => exact ⟨h _ _ ht.1, ihc ht.2.1, ihs ht.2.2⟩

theorem Rel.refl {R : α → α → Prop} (h : ∀ a, R a a) (t : LTree α) : Rel R t t := by
  induction t with
  | nil => trivial
  | node a c s ihc ihs => exact ⟨h a, ihc, ihs⟩

theorem rel_map {R : α → β → Prop} (f : α → β) (h : ∀ a, R a (f a)) (t : LTree α) :
    Rel R t (t.map f) := by
  induction t with
  | nil => trivial
  | node a c s ihc ihs => exact ⟨h a, ihc, ihs⟩

/-- Related trees stay related under related downward passes. -/
theorem Rel.down {σ : Type*} {R S : α → α → Prop} {f : σ → α → α} {g : α → σ}
    (h : ∀ st a b, R a b → S (f st a) (f st b)) (hg : ∀ a b, S a b → g a = g b)
    {t u : LTree α} (ht : Rel R t u) (st : σ) : Rel S (t.down f g st) (u.down f g st) := by
  induction t generalizing u st with
  | nil => cases u <;> simp_all [Rel, LTree.down]
  | node a c s ihc ihs =>
    cases u with
    | nil => simp [Rel] at ht
    | node b c' s' =>
      have h1 := h st _ _ ht.1
      refine ⟨h1, ?_, ihs ht.2.2 st⟩
      rw [hg _ _ h1]
      exact ihc ht.2.1 _

theorem down_rel {σ : Type*} {R : α → α → Prop} {f : σ → α → α} {g : α → σ}
    (h : ∀ st a, R a (f st a)) (t : LTree α) (st : σ) : Rel R t (t.down f g st) := by
  induction t generalizing st with
  | nil => trivial
  | node a c s ihc ihs => exact ⟨h st a, ihc _, ihs _⟩

theorem Rel.trans {γ : Type*} {R : α → β → Prop} {S : β → γ → Prop} {T : α → γ → Prop}
    (h : ∀ a b c, R a b → S b c → T a c) {t : LTree α} {u : LTree β} {v : LTree γ}
    (h1 : Rel R t u) (h2 : Rel S u v) : Rel T t v := by
  induction t generalizing u v with
  | nil => cases u <;> cases v <;> simp_all [Rel]
  | node a c s ihc ihs =>
    cases u with
    | nil => simp [Rel] at h1
    | node b c' s' =>
      cases v with
      | nil => simp [Rel] at h2
      | node d c'' s'' => exact ⟨h _ _ _ h1.1 h2.1, ihc h1.2.1 h2.2.1, ihs h1.2.2 h2.2.2⟩

end LTree

theorem Chain.gather_rel {R : Link K → Link K → Prop} {ls ls' : List (Link K)} {t : LTree ℕ}
    {T T' : LTree (Link K)} (h : gather ls t = some T) (h' : gather ls' t = some T')
    (hr : T.Rel R T') : ∀ i ∈ t.toList, ∃ l l', ls[i]? = some l ∧ ls'[i]? = some l' ∧ R l l' := by
  induction t generalizing T T' with
  | nil => simp [LTree.toList]
  | node j c s ihc ihs =>
    obtain ⟨l, c1, s1, h1, h2, h3, rfl⟩ := gather_node.1 h
    obtain ⟨l', c2, s2, h1', h2', h3', rfl⟩ := gather_node.1 h'
    intro i hi
    simp only [LTree.toList, List.mem_cons, List.mem_append] at hi
    rcases hi with rfl | hi | hi
    · exact ⟨l, l', h1, h1', hr.1⟩
    · exact ihc h2 h2' hr.2.1 i hi
    · exact ihs h3 h3' hr.2.2 i hi

theorem Chain.rel_gather {R : Link K → Link K → Prop} {ls ls' : List (Link K)} {t : LTree ℕ}
    {T T' : LTree (Link K)} (h : gather ls t = some T) (h' : gather ls' t = some T')
    (hr : ∀ i ∈ t.toList, ∀ l l', ls[i]? = some l → ls'[i]? = some l' → R l l') : T.Rel R T' := by
  induction t generalizing T T' with
  | nil =>
    simp only [gather, Option.some.injEq] at h h'
    subst h; subst h'; trivial
  | node j c s ihc ihs =>
    obtain ⟨l, c1, s1, h1, h2, h3, rfl⟩ := gather_node.1 h
    obtain ⟨l', c2, s2, h1', h2', h3', rfl⟩ := gather_node.1 h'
    exact ⟨hr j (by simp [LTree.toList]) _ _ h1 h1',
      ihc h2 h2' fun i hi => hr i (by simp [LTree.toList, hi]),
      ihs h3 h3' fun i hi => hr i (by simp [LTree.toList, hi])⟩

/-! ## What the joint functions leave alone -/

theorem Prp.abiQAcc_again (fx : Bool) (p : Prp K) (m m' m2 : Mat6 K) (b jac b' jac' b2 jac2 : Vec6 K)
    (ih ih' ih2 : ℕ → ℕ → K) (acc : Vec6 K) :
    (p.abiQAcc fx m b jac ih acc).1.abiQAcc fx m' b' jac' ih' (p.abiQAcc fx m2 b2 jac2 ih2 acc).2 =
      p.abiQAcc fx m' b' jac' ih' acc := by
  cases p <;> cases fx <;> rfl

theorem Prp.abiBias_qacc (fx : Bool) (p : Prp K) (m m' : Mat6 K) (b jac b' : Vec6 K) (f : Frame K)
    (ih ih' : ℕ → ℕ → K) (acc : Vec6 K) :
    (p.abiQAcc fx m b jac ih acc).1.abiBias fx m' b' f ih' = p.abiBias fx m' b' f ih' := by
  cases p <;> cases fx <;> rfl

theorem Prp.abiQAcc_size (fx : Bool) (p : Prp K) (m : Mat6 K) (b jac : Vec6 K)
    (ih : ℕ → ℕ → K) (acc : Vec6 K) : (p.abiQAcc fx m b jac ih acc).1.size = p.size := by
  cases p <;> cases fx <;> rfl

theorem Prp.abiDrivingTorque_size (p : Prp K) : p.abiDrivingTorque.size = p.size := by
  cases p <;> rfl

namespace Link

/-- The link without additional forces, after initialisation. -/
def abiClear (l : Link K) : Link K := { l with abi := { l.abi with wlist := [], w := l.abi.w0 } }

/-- The link without additional forces, before initialisation. -/
def abiNoForce (l : Link K) : Link K := { l with abi := { l.abi with wlist := [] } }

theorem abiUpdateInit_noForce (v : Vec6 K) (l : Link K) :
    (l.abiNoForce).abiUpdateInit v = (l.abiUpdateInit v).abiClear := by
  simp [abiNoForce, abiUpdateInit, abiClear, WrenchList.net]

theorem abiUpdateInit_w (v : Vec6 K) (l : Link K) :
    (l.abiUpdateInit v).abi.w = (l.abiUpdateInit v).abi.wlist.net + (l.abiUpdateInit v).abi.w0 := rfl

/-- A link as a forward pass, and the caller, may have left it. -/
def touched (fx : Bool) (x o : Link K) : Prop :=
  ∃ (m m2 : Mat6 K) (bb jac bb2 jac2 : Vec6 K) (ih ih2 : ℕ → ℕ → K),
    x.joint.prp = (o.joint.prp.abiQAcc fx m bb jac ih o.body.acc).1 ∧
    x.body = { o.body with acc := (o.joint.prp.abiQAcc fx m2 bb2 jac2 ih2 o.body.acc).2 } ∧
    x.adj = o.adj ∧ x.abi.i = o.abi.i ∧ x.abi.c = o.abi.c ∧ x.abi.iaxi = o.abi.iaxi ∧
    x.abi.f = o.abi.f

theorem touched.toParentB {fx : Bool} {x o : Link K} (h : touched fx x o) (hb : x.abi.b = o.abi.b) :
    x.abiToParentB fx = o.abiToParentB fx := by
  obtain ⟨m, m2, bb, jac, bb2, jac2, ih, ih2, h1, -, h3, h4, h5, h6, -⟩ := h
  simp only [abiToParentB, h1, h3, h4, h5, h6, hb, Prp.abiBias_qacc]

end Link

namespace LTree

theorem abiInit_noForce (v : Vec6 K) (T : LTree (Link K)) :
    (T.map Link.abiNoForce).abiInit v = (T.abiInit v).map Link.abiClear := by
  induction T generalizing v with
  | nil => rfl
  | node l c s ihc ihs =>
    simp only [abiInit] at ihc ihs ⊢
    simp only [map, down, ← ihs, Link.abiUpdateInit_noForce]
    congr 1
    exact ihc _

/-- The link after the backward pass without additional forces. -/
def oldLink [Zm K] (fx : Bool) (t : Link K) (c : LTree (Link K)) : Link K :=
  (t.abiClear.abiAdd ((c.map Link.abiClear).abiBack fx).2).abiBackward fx

/-- The tree before `rkChainABIUpdateAddExForce` (left), against the tree after the initialisation
with the additional forces (right). -/
def Before [Zm K] (fx : Bool) : LTree (Link K) → LTree (Link K) → Prop
  | nil, nil => True
  | node x c s, node t c' s' =>
    (x.touched fx (oldLink fx t c') ∧ x.abi.b = (oldLink fx t c').abi.b ∧
      x.abi.w = (oldLink fx t c').abi.w ∧ x.abi.wlist = t.abi.wlist) ∧ Before fx c c' ∧ Before fx s s'
  | _, _ => False

/-- The flags mark the links that have a descendant with additional forces. -/
def PathOK : LTree (Link K) → Prop
  | nil => True
  | node l c s => (l.abi.path = true ↔ ∃ x ∈ c.toList, x.abi.wlist ≠ []) ∧ PathOK c ∧ PathOK s

theorem abiFindPath_wlist (T : LTree (Link K)) :
    T.abiFindPath.1.toList.map (fun l => l.abi.wlist) = T.toList.map fun l => l.abi.wlist := by
  induction T with
  | nil => rfl
  | node l c s ihc ihs =>
    simp only [abiFindPath, toList, List.map_cons, List.map_append, ihc, ihs]
    congr 1
    split_ifs <;> rfl

theorem abiFindPath_ok (T : LTree (Link K)) (h : ∀ l ∈ T.toList, l.abi.path = false) :
    PathOK T.abiFindPath.1 ∧ (T.abiFindPath.2 = true ↔ ∃ x ∈ T.toList, x.abi.wlist ≠ []) := by
  have key : ∀ t : LTree (Link K), (∃ x ∈ t.abiFindPath.1.toList, x.abi.wlist ≠ []) ↔
      ∃ x ∈ t.toList, x.abi.wlist ≠ [] := by
    intro t
    have e := abiFindPath_wlist t
    have : ∀ L : List (Link K), (∃ x ∈ L, x.abi.wlist ≠ []) ↔ ∃ w ∈ L.map (fun l => l.abi.wlist), w ≠ [] := by
      intro L; simp
    rw [this, this, e]
  induction T with
  | nil => simp [abiFindPath, PathOK, toList]
  | node l c s ihc ihs =>
    have hl := h l (by simp [toList])
    obtain ⟨c1, c2⟩ := ihc fun x hx => h x (by simp [toList, hx])
    obtain ⟨s1, s2⟩ := ihs fun x hx => h x (by simp [toList, hx])
    refine ⟨⟨?_, c1, s1⟩, ?_⟩
    · rw [key, ← c2]
      split_ifs with hc
      · simp [Link.abiSetPath, hc]
      · simp [hl, hc]
    · simp only [abiFindPath, toList, List.mem_cons, List.mem_append, Bool.or_eq_true, s2]
      have e : ((if c.abiFindPath.2 = true then l.abiSetPath true else l).abi.path = true ↔
          ∃ x ∈ c.toList, x.abi.wlist ≠ []) := by
        rw [← c2]
        split_ifs with hc
        · simp [Link.abiSetPath, hc]
        · simp [hl, hc]
      rw [e]
      have e2 : (if c.abiFindPath.2 = true then l.abiSetPath true else l).abi.wlist = l.abi.wlist := by
        split_ifs <;> rfl
      rw [e2]
      simp only [Bool.not_eq_true', List.isEmpty_eq_false_iff]
      constructor
      · rintro (⟨x, hx, hw⟩ | ⟨x, hx, hw⟩ | hw)
        · exact ⟨x, Or.inr (Or.inr hx), hw⟩
        · exact ⟨x, Or.inr (Or.inl hx), hw⟩
        · exact ⟨l, Or.inl rfl, hw⟩
      · rintro ⟨x, (rfl | hx | hx), hw⟩
        · exact Or.inr (Or.inr hw)
        · exact Or.inr (Or.inl ⟨x, hx, hw⟩)
        · exact Or.inl ⟨x, hx, hw⟩

theorem Before.findPath [Zm K] {fx : Bool} {B T : LTree (Link K)} (h : Before fx B T) :
    Before fx B.abiFindPath.1 T := by
  induction B generalizing T with
  | nil => exact h
  | node x c s ihc ihs =>
    cases T with
    | nil => exact h
    | node t c' s' =>
      refine ⟨?_, ihc h.2.1, ihs h.2.2⟩
      split_ifs
      · exact h.1
      · exact h.1

theorem Before.wlist [Zm K] {fx : Bool} {B T : LTree (Link K)} (h : Before fx B T) :
    B.toList.map (fun l => l.abi.wlist) = T.toList.map fun l => l.abi.wlist := by
  induction B generalizing T with
  | nil => cases T <;> simp_all [Before, toList]
  | node x c s ihc ihs =>
    cases T with
    | nil => simp [Before] at h
    | node t c' s' => simp [toList, h.1.2.2.2, ihc h.2.1, ihs h.2.2]

theorem map_clear {T : LTree (Link K)} (h : ∀ l ∈ T.toList, l.abi.w = l.abi.wlist.net + l.abi.w0)
    (hw : ∀ l ∈ T.toList, l.abi.wlist = []) : T.map Link.abiClear = T := by
  induction T with
  | nil => rfl
  | node l c s ihc ihs =>
    simp only [map]
    rw [ihc (fun x hx => h x (by simp [toList, hx])) fun x hx => hw x (by simp [toList, hx]),
      ihs (fun x hx => h x (by simp [toList, hx])) fun x hx => hw x (by simp [toList, hx])]
    congr 1
    have h1 := h l (by simp [toList])
    have h2 := hw l (by simp [toList])
    rw [h2] at h1
    simp only [WrenchList.net, List.foldl_nil, zero_add] at h1
    obtain ⟨n, j, b, o, og, ad, abi⟩ := l
    obtain ⟨m, i, f, b, c, wl, w, w0, b0, a0, pa, ax, iax⟩ := abi
    simp only at h1 h2
    simp [Link.abiClear, h1, h2]

/-- The inertia that a tree adds does not depend on the additional forces. -/
theorem abiBack_clear_i [Zm K] (fx : Bool) (T : LTree (Link K)) :
    ((T.map Link.abiClear).abiBack fx).2.1 = (T.abiBack fx).2.1 := by
  induction T with
  | nil => rfl
  | node l c s ihc ihs =>
    simp only [map, abiBack, Prod.fst_add, ihs]
    congr 1
    simp only [Link.abiToParentI, Link.abiBackward, Link.abiAdd, Link.abiClear, ihc]

/-- A link after either backward pass. -/
def After (fx : Bool) (x a : Link K) : Prop := x.touched fx a ∧ x.abi.b = a.abi.b

theorem Before.after [Zm K] {fx : Bool} {B T : LTree (Link K)} (h : Before fx B T)
    (hw : ∀ l ∈ T.toList, l.abi.wlist = []) (hT : ∀ l ∈ T.toList, l.abi.w = l.abi.wlist.net + l.abi.w0) :
    Rel (After fx) B (T.abiBack fx).1 := by
  induction B generalizing T with
  | nil => cases T <;> simp_all [Before, Rel, abiBack]
  | node x c s ihc ihs =>
    cases T with
    | nil => simp [Before] at h
    | node t c' s' =>
      refine ⟨?_, ihc h.2.1 (fun y hy => hw y (by simp [toList, hy])) (fun y hy => hT y (by simp [toList, hy])),
        ihs h.2.2 (fun y hy => hw y (by simp [toList, hy])) (fun y hy => hT y (by simp [toList, hy]))⟩
      have e := map_clear (T := node t c' s') hT hw
      simp only [map, node.injEq] at e
      have := h.1
      rw [oldLink, e.2.1, e.1] at this
      exact ⟨this.1, this.2.1⟩

/-- **The update for additional forces reaches the bias of the full update.** -/
theorem Before.addEx [Zm K] {fx : Bool} {B T : LTree (Link K)} (h : Before fx B T) (hp : PathOK B)
    (hT : ∀ l ∈ T.toList, l.abi.w = l.abi.wlist.net + l.abi.w0) (hf : ∀ l ∈ T.toList, l.abi.b = l.abi.f) :
    (B.abiAddEx fx).2 = (T.abiBack fx).2.2 ∧ Rel (After fx) (B.abiAddEx fx).1 (T.abiBack fx).1 := by
  induction B generalizing T with
  | nil => cases T <;> simp_all [Before, Rel, abiBack, abiAddEx]
  | node x c s ihc ihs =>
    cases T with
    | nil => simp [Before] at h
    | node t c' s' =>
      obtain ⟨⟨ht, hb, hwx, hwl⟩, hc, hs⟩ := h
      obtain ⟨hpx, hpc, hps⟩ := hp
      have hTc : ∀ l ∈ c'.toList, l.abi.w = l.abi.wlist.net + l.abi.w0 :=
        fun y hy => hT y (by simp [toList, hy])
      obtain ⟨s1, s2⟩ := ihs hs hps (fun y hy => hT y (by simp [toList, hy])) fun y hy => hf y (by simp [toList, hy])
      set a := (t.abiAdd (c'.abiBack fx).2).abiBackward fx with ha
      -- the touched part
      have tch : ∀ y : Link K, y.joint.prp = x.joint.prp → y.body = x.body → y.adj = x.adj →
          y.abi.i = x.abi.i → y.abi.c = x.abi.c → y.abi.iaxi = x.abi.iaxi → y.abi.f = x.abi.f →
          y.touched fx a := by
        intro y g1 g2 g3 g4 g5 g6 g7
        obtain ⟨m, m2, bb, jac, bb2, jac2, ih, ih2, e1, e2, e3, e4, e5, e6, e7⟩ := ht
        refine ⟨m, m2, bb, jac, bb2, jac2, ih, ih2, ?_, ?_, ?_, ?_, ?_, ?_, ?_⟩
        · rw [g1, e1]; rfl
        · rw [g2, e2]; rfl
        · rw [g3, e3]; rfl
        · rw [g4, e4]; simp only [oldLink, ha, Link.abiBackward, Link.abiAdd, Link.abiClear, abiBack_clear_i]
        · rw [g5, e5]; rfl
        · rw [g6, e6]; simp only [oldLink, ha, Link.abiBackward, Link.abiAdd, Link.abiClear, abiBack_clear_i]
        · rw [g7, e7]; rfl
      have netne : ∀ (y : Link K), y.abiSubNet.abi.b = y.abi.b - y.abi.wlist.net := by
        intro y
        rw [Link.abiSubNet]
        split_ifs with hy
        · simp [hy, WrenchList.net]
        · rfl
      have snp : ∀ (y : Link K), y.abiSubNet.joint = y.joint ∧ y.abiSubNet.body = y.body ∧
          y.abiSubNet.adj = y.adj ∧ y.abiSubNet.abi.i = y.abi.i ∧ y.abiSubNet.abi.c = y.abi.c ∧
          y.abiSubNet.abi.iaxi = y.abi.iaxi ∧ y.abiSubNet.abi.f = y.abi.f := by
        intro y
        rw [Link.abiSubNet]
        split_ifs <;> exact ⟨rfl, rfl, rfl, rfl, rfl, rfl, rfl⟩
      have hTt := hT t (by simp [toList])
      have fin : ∀ (l' : Link K) (cr : LTree (Link K)), l'.touched fx a → l'.abi.b = a.abi.b →
          Rel (After fx) cr (c'.abiBack fx).1 →
          (node l' cr (abiAddEx fx s).1, l'.abiToParentB fx + (abiAddEx fx s).2) =
            (node x c s).abiAddEx fx →
          ((node x c s).abiAddEx fx).2 = ((node t c' s').abiBack fx).2.2 ∧
          Rel (After fx) ((node x c s).abiAddEx fx).1 ((node t c' s').abiBack fx).1 := by
        intro l' cr h1 h2 h3 h4
        rw [← h4]
        refine ⟨?_, ⟨h1, h2⟩, h3, s2⟩
        show l'.abiToParentB fx + (abiAddEx fx s).2 = (s'.abiBack fx).2.2 + a.abiToParentB fx
        rw [h1.toParentB h2, s1, add_comm]
      by_cases hpt : x.abi.path = true
      · obtain ⟨c1, c2⟩ := ihc hc hpc hTc fun y hy => hf y (by simp [toList, hy])
        refine fin (x.abiResetB.abiSubNet.abiAdd (0, (c.abiAddEx fx).2)) (c.abiAddEx fx).1 ?_ ?_ c2 ?_
        · obtain ⟨g1, g2, g3, g4, g5, g6, g7⟩ := snp x.abiResetB
          refine tch _ ?_ ?_ ?_ ?_ ?_ ?_ ?_
          · simp only [Link.abiAdd, g1]; rfl
          · simp only [Link.abiAdd, g2]; rfl
          · simp only [Link.abiAdd, g3]; rfl
          · simp only [Link.abiAdd, g4, add_zero]; rfl
          · simp only [Link.abiAdd, g5]; rfl
          · simp only [Link.abiAdd, g6]; rfl
          · simp only [Link.abiAdd, g7]; rfl
        · simp only [Link.abiAdd, netne]
          rw [c1]
          obtain ⟨-, -, -, -, -, -, -, -, -, -, -, -, -, -, e7⟩ := ht
          simp only [Link.abiResetB, e7, hwx, hwl, ha, oldLink, Link.abiBackward, Link.abiAdd, Link.abiClear]
          rw [hTt, hf t (by simp [toList])]
          abel
        · simp [abiAddEx, hpt]
      · have hnw : ∀ l ∈ c'.toList, l.abi.wlist = [] := by
          intro l hl
          by_contra hne
          refine hpt (hpx.2 ?_)
          have e := hc.wlist
          have : l.abi.wlist ∈ c.toList.map fun l => l.abi.wlist := by
            rw [e]; exact List.mem_map.2 ⟨l, hl, rfl⟩
          obtain ⟨y, hy, ey⟩ := List.mem_map.1 this
          exact ⟨y, hy, by rw [ey]; exact hne⟩
        refine fin x.abiSubNet c ?_ ?_ (hc.after hnw hTc) ?_
        · obtain ⟨g1, g2, g3, g4, g5, g6, g7⟩ := snp x
          exact tch _ (by rw [g1]) g2 g3 g4 g5 g6 g7
        · rw [netne, hb, hwl]
          simp only [oldLink, ha, Link.abiBackward, Link.abiAdd, map_clear hTc hnw]
          simp only [Link.abiClear]
          rw [hTt]
          abel
        · simp [abiAddEx, hpt]

/-- A link in a state that a pass without additional forces has reached, apart from what forward
passes rewrite. -/
def Free (fx : Bool) (x o : Link K) : Prop :=
  x.touched fx o ∧ x.abi.b = o.abi.b ∧ x.abi.w = o.abi.w

theorem before_of_free [Zm K] {fx : Bool} {B T : LTree (Link K)}
    (h1 : Rel (Free fx) B ((T.map Link.abiClear).abiBack fx).1)
    (h2 : Rel (fun x y : Link K => x.abi.wlist = y.abi.wlist) B T) : Before fx B T := by
  induction T generalizing B with
  | nil => cases B <;> simp_all [Before, Rel]
  | node t c s ihc ihs =>
    cases B with
    | nil => simp [Rel] at h2
    | node x c' s' =>
      exact ⟨⟨h1.1.1, h1.1.2.1, h1.1.2.2, h2.1⟩, ihc h1.2.1 h2.2.1, ihs h1.2.2 h2.2.2⟩

theorem step_free (fx wr : Bool) (pa : Vec6 K) (o : Link K) : Free fx (abiStep fx wr pa o) o := by
  rw [abiStep]
  split_ifs
  · exact ⟨⟨_, _, _, _, _, _, _, _, rfl, rfl, rfl, rfl, rfl, rfl, rfl⟩, rfl, rfl⟩
  · exact ⟨⟨_, _, _, _, _, _, _, _, rfl, rfl, rfl, rfl, rfl, rfl, rfl⟩, rfl, rfl⟩

/-- The results of the two updates. -/
def Agree (wr : Bool) (x a : Link K) : Prop :=
  x.joint.prp = a.joint.prp ∧ x.body = a.body ∧ x.abi.i = a.abi.i ∧ x.abi.b = a.abi.b ∧
    (wr = true → x.joint.wrench = a.joint.wrench)

theorem After.step {fx : Bool} (wr : Bool) (pa : Vec6 K) {x a : Link K} (h : After fx x a) :
    Agree wr (abiStep fx wr pa x) (abiStep fx wr pa a) := by
  obtain ⟨⟨m, m2, bb, jac, bb2, jac2, ih, ih2, e1, e2, e3, e4, e5, e6, e7⟩, hb⟩ := h
  have hq : x.joint.prp.abiQAcc fx x.abi.i x.abi.b
        (x.adj.att.mulVecT6 (pa.linShift x.adj.pos) + x.abi.c) x.abi.iaxi x.body.acc =
      a.joint.prp.abiQAcc fx a.abi.i a.abi.b
        (a.adj.att.mulVecT6 (pa.linShift a.adj.pos) + a.abi.c) a.abi.iaxi a.body.acc := by
    rw [e1, e2, e3, e4, e5, e6, hb]
    exact Prp.abiQAcc_again ..
  have f1 : (x.abiForward fx pa).joint.prp = (a.abiForward fx pa).joint.prp := congrArg Prod.fst hq
  have f2 : (x.abiForward fx pa).body = (a.abiForward fx pa).body := by
    simp only [Link.abiForward, hq]
    simp only [e2]
  cases wr
  · exact ⟨f1, f2, e4, hb, by simp⟩
  · refine ⟨f1, f2, e4, hb, fun _ => ?_⟩
    show x.abi.i.mulVec (x.abiForward fx pa).body.acc + x.abi.b =
      a.abi.i.mulVec (a.abiForward fx pa).body.acc + a.abi.b
    rw [f2, e4, hb]

/-- **Both ways to account for additional forces give the same result.** -/
theorem Before.result [Zm K] {fx : Bool} {B T : LTree (Link K)} (h : Before fx B T) (hp : PathOK B)
    (hT : ∀ l ∈ T.toList, l.abi.w = l.abi.wlist.net + l.abi.w0) (hf : ∀ l ∈ T.toList, l.abi.b = l.abi.f)
    (wr : Bool) (pa : Vec6 K) :
    Rel (Agree wr) ((B.abiAddEx fx).1.abiFwd fx wr pa) ((T.abiBack fx).1.abiFwd fx wr pa) :=
  (h.addEx hp hT hf).2.down (fun _ _ _ h => h.step wr _) (fun a b h => by
    simp only [h.2.1]) pa

theorem abiInit_ok (T : LTree (Link K)) (v : Vec6 K) :
    (∀ l ∈ (T.abiInit v).toList, l.abi.w = l.abi.wlist.net + l.abi.w0) ∧
      ∀ l ∈ (T.abiInit v).toList, l.abi.b = l.abi.f := by
  induction T generalizing v with
  | nil => simp [abiInit, down, toList]
  | node l c s ihc ihs =>
    obtain ⟨c1, c2⟩ := ihc l.body.vel
    obtain ⟨s1, s2⟩ := ihs v
    constructor
    · intro x hx
      simp only [abiInit, down, toList, List.mem_cons, List.mem_append] at hx
      rcases hx with rfl | hx | hx
      · rfl
      · exact c1 x hx
      · exact s1 x hx
    · intro x hx
      simp only [abiInit, down, toList, List.mem_cons, List.mem_append] at hx
      rcases hx with rfl | hx | hx
      · rfl
      · exact c2 x hx
      · exact s2 x hx

/-- The passes keep the type of every joint, the position in the chain and the attached forces. -/
def Keep (x y : Link K) : Prop := x.joint.prp.size = y.joint.prp.size ∧ x.abi.wlist = y.abi.wlist

theorem abiInit_keep (T : LTree (Link K)) (v : Vec6 K) : Rel Keep T (T.abiInit v) :=
  down_rel (fun _ _ => ⟨rfl, rfl⟩) T v

theorem abiBack_keep [Zm K] (fx : Bool) (T : LTree (Link K)) : Rel Keep T (T.abiBack fx).1 := by
  induction T with
  | nil => trivial
  | node l c s ihc ihs => exact ⟨⟨(Prp.abiDrivingTorque_size _).symm, rfl⟩, ihc, ihs⟩

theorem abiFwd_keep (fx wr : Bool) (T : LTree (Link K)) (v : Vec6 K) : Rel Keep T (T.abiFwd fx wr v) :=
  down_rel (fun st a => by
    rw [abiStep]
    split_ifs <;> exact ⟨(Prp.abiQAcc_size ..).symm, rfl⟩) T v

end LTree

theorem LinkArray.jointSize_congr {ls ls' : List (Link K)}
    (h : ls.map (fun l => l.joint.prp.size) = ls'.map fun l => l.joint.prp.size) :
    LinkArray.jointSize ls = LinkArray.jointSize ls' := by
  have : ∀ (L : List (Link K)) (n : ℕ), L.foldl (fun size l => size + l.size) n =
      (L.map fun l => l.joint.prp.size).foldl (· + ·) n := by
    intro L
    induction L with
    | nil => intro n; rfl
    | cons a L ih => intro n; exact ih _
  rw [LinkArray.jointSize, LinkArray.jointSize, this, this, h]

namespace Chain

theorem WF.withForces {c : Chain K} (h : c.WF) (W : ℕ → WrenchList K) : (c.withForces W).WF :=
  h.with_link (by simp)

theorem jointSize_withForces (c : Chain K) (W : ℕ → WrenchList K) :
    LinkArray.jointSize (c.withForces W).link = LinkArray.jointSize c.link := by
  refine LinkArray.jointSize_congr ?_
  apply List.ext_getElem
  · simp [Chain.withForces]
  · intro i h1 h2; simp [Chain.withForces]

theorem WF.rel_map_eq {β : Type*} {c : Chain K} (h : c.WF) {ls : List (Link K)} {T T' : LTree (Link K)}
    (hT : gather c.link c.shape = some T) (hT' : gather ls c.shape = some T')
    (hn : ls.length = c.link.length) (f : Link K → β) {R : Link K → Link K → Prop} (hr : T.Rel R T')
    (hf : ∀ a b, R a b → f a = f b) : c.link.map f = ls.map f := by
  apply List.ext_getElem
  · simp [hn]
  · intro i h1 h2
    obtain ⟨l, l', e, e', r⟩ := gather_rel hT hT' hr i (h.mem.2 (by simpa using h1))
    simp only [List.getElem_map]
    have g1 : c.link[i]'(by simpa using h1) = l := by
      have := List.getElem?_eq_getElem (l := c.link) (i := i) (by simpa using h1)
      rw [e] at this; exact (Option.some.inj this).symm
    have g2 : ls[i]'(by simpa using h2) = l' := by
      have := List.getElem?_eq_getElem (l := ls) (i := i) (by simpa using h2)
      rw [e'] at this; exact (Option.some.inj this).symm
    rw [g1, g2]
    exact hf _ _ r

end Chain
end Roki
