import Verif.Lemmas.IKJoint
import Verif.Props.FK
import Verif.Props.JointVector
import Verif.Props.JointLimits
set_option autoImplicit false

/-! # Inverse kinematics: one step of the solver, joint by joint -/

namespace Roki
open LinkArray
variable {K : Type*}

/-! ## Offsets and keys -/

theorem offsetsFrom_keys {ls : List (Link K)} : ∀ {ms : List (Link K)} {s : ℕ}, keys ls = keys ms →
    OffsetsFrom s ls → OffsetsFrom s ms := by
  induction ls with
  | nil => intro ms s h _; cases ms <;> simp_all [keys, OffsetsFrom.nil]
  | cons l ls ih =>
    intro ms s h ho
    cases ms with
    | nil => simp [keys] at h
    | cons m ms =>
      simp only [keys, List.map_cons, List.cons.injEq, Link.key, Prod.mk.injEq] at h
      rw [offsetsFrom_cons] at ho ⊢
      have hsz : l.size = m.size := h.1.1
      refine ⟨?_, ?_⟩
      · rw [← h.1.2, ho.1]; simp only [offsetAt, hsz]
      · rw [← hsz]; exact ih h.2 ho.2

theorem setOffset_keys {ls ms : List (Link K)} (h : keys ls = keys ms) (ho : setOffset ls = ls) :
    setOffset ms = ms := offsetsFrom_keys h ho

/-- The slices of the joints of a chain are disjoint and lie in the joint vector. -/
theorem offsets_order {ls : List (Link K)} : ∀ {s : ℕ}, OffsetsFrom s ls →
    ∀ {i j : ℕ} {l m : Link K}, ls[i]? = some l → ls[j]? = some m → 0 < l.size → 0 < m.size → i < j →
      (s : ℤ) ≤ l.offset ∧ l.offset + l.size ≤ m.offset := by
  induction ls with
  | nil => intro s _ i j l m hi; simp at hi
  | cons a ls ih =>
    intro s h i j l m hi hj hl hm hij
    obtain ⟨h1, h2⟩ := offsetsFrom_cons.1 h
    cases j with
    | zero => omega
    | succ j =>
      simp only [List.getElem?_cons_succ] at hj
      have hge : ∀ {s : ℕ} {ls : List (Link K)}, OffsetsFrom s ls → ∀ {j : ℕ} {m : Link K}, ls[j]? = some m →
          0 < m.size → (s : ℤ) ≤ m.offset := by
        intro s ls
        induction ls generalizing s with
        | nil => intro _ j m hj; simp at hj
        | cons b ls ih' =>
          intro h j m hj hm
          obtain ⟨h1, h2⟩ := offsetsFrom_cons.1 h
          cases j with
          | zero =>
            simp only [List.getElem?_cons_zero, Option.some.injEq] at hj
            subst hj
            rw [h1, offsetAt, if_pos hm]
          | succ j =>
            simp only [List.getElem?_cons_succ] at hj
            have := ih' h2 hj hm
            push_cast at this
            omega
      cases i with
      | zero =>
        simp only [List.getElem?_cons_zero, Option.some.injEq] at hi
        subst hi
        have e : a.offset = (s : ℤ) := by rw [h1, offsetAt, if_pos hl]
        have := hge h2 hj hm
        push_cast at this
        omega
      | succ i =>
        simp only [List.getElem?_cons_succ] at hi
        have := ih h2 hi hj hl hm (by omega)
        push_cast at this
        omega

theorem owns_unique {ls : List (Link K)} (ho : setOffset ls = ls) {i j p : ℕ} (hi : Spec.Owns ls i p)
    (hj : Spec.Owns ls j p) : i = j := by
  obtain ⟨l, hl, sl, a1, a2⟩ := hi
  obtain ⟨m, hm, sm, b1, b2⟩ := hj
  rcases Nat.lt_trichotomy i j with h | h | h
  · have := (offsets_order (s := 0) ho hl hm sl sm h).2
    simp only [Link.size] at this
    omega
  · exact h
  · have := (offsets_order (s := 0) ho hm hl sm sl h).2
    simp only [Link.size] at this
    omega

theorem owns_keys {ls ms : List (Link K)} (h : keys ls = keys ms) (i p : ℕ) :
    Spec.Owns ls i p ↔ Spec.Owns ms i p := by
  have := keys_getElem? h i
  simp only [Spec.Owns]
  cases h1 : ls[i]? <;> cases h2 : ms[i]? <;> simp [h1, h2, Link.key] at this ⊢
  rw [this.1, this.2]

/-! ## Writing -/

theorem writeAt_getElem? {buf v r : List K} {p : ℕ} (h : writeAt buf p v = some r) (q : ℕ) :
    r[q]? = if p ≤ q ∧ q < p + v.length then v[q - p]? else buf[q]? := by
  simp only [writeAt] at h
  split_ifs at h with hp
  rw [← Option.some.inj h]
  have e1 : (buf.take p).length = p := by simp; omega
  by_cases h1 : q < p
  · rw [if_neg (by omega), List.append_assoc, List.getElem?_append_left (by omega), List.getElem?_take_of_lt h1]
  · by_cases h2 : q < p + v.length
    · rw [if_pos ⟨by omega, h2⟩, List.append_assoc, List.getElem?_append_right (by omega), e1,
        List.getElem?_append_left (by omega)]
    · rw [if_neg (by omega), List.getElem?_append_right (by simp; omega), List.getElem?_drop]
      congr 1
      simp
      omega

variable [Field K]

theorem catDis_length [Zm K] {p : Prp K} {dis v d : List K} {k : K} (h : p.catDis dis k v = some d) :
    d.length = p.size := by
  cases p <;> simp only [Prp.catDis] at h
  case fixed => rw [← Option.some.inj h]; rfl
  all_goals
    (split at h
     · rw [← Option.some.inj h]; rfl
     · exact absurd h (by simp))

theorem catJointDisAll_spec [Zm K] (k : K) (v : List K) (ls : List (Link K)) :
    ∀ (s : ℕ) (dis dis' : List K), OffsetsFrom s ls → catJointDisAll k v ls dis = some dis' →
      dis'.length = dis.length ∧ (∀ q < s, dis'[q]? = dis[q]?) ∧
      ∀ (i : ℕ) (l : Link K), ls[i]? = some l → 0 < l.size → ∃ d, l.joint.prp.catDis (dis.drop l.offset.toNat) k
        (v.drop l.offset.toNat) = some d ∧ (dis'.drop l.offset.toNat).take l.size = d := by
  induction ls with
  | nil =>
    intro s dis dis' _ h
    simp only [catJointDisAll, Option.some.injEq] at h
    subst h
    exact ⟨rfl, fun _ _ => rfl, fun i l hi => by simp at hi⟩
  | cons a ls ih =>
    intro s dis dis' ho h
    obtain ⟨h1, h2⟩ := offsetsFrom_cons.1 ho
    by_cases hs : 0 < a.size
    · have e : a.offset = (s : ℤ) := by rw [h1, offsetAt, if_pos hs]
      simp only [catJointDisAll, e, Int.natCast_nonneg, if_true, Int.toNat_natCast, Option.bind_eq_bind,
        Option.bind_eq_some_iff] at h
      obtain ⟨d, hd, dis1, hw, h⟩ := h
      obtain ⟨l1, l2, l3⟩ := ih _ _ _ h2 h
      have hdl : d.length = a.size := catDis_length hd
      have hlen := IK.writeAt_length hw
      refine ⟨l1.trans hlen, ?_, ?_⟩
      · intro q hq
        rw [l2 q (by omega), writeAt_getElem? hw, if_neg (by omega)]
      · intro i l hi hl
        cases i with
        | zero =>
          simp only [List.getElem?_cons_zero, Option.some.injEq] at hi
          subst hi
          refine ⟨d, by rw [e]; exact hd, ?_⟩
          rw [e, Int.toNat_natCast]
          apply List.ext_getElem?
          intro q
          by_cases hq : q < a.size
          · rw [List.getElem?_take_of_lt hq, List.getElem?_drop, l2 _ (by omega), writeAt_getElem? hw,
              if_pos (by omega)]
            congr 1; omega
          · rw [List.getElem?_eq_none (by simp; omega), List.getElem?_eq_none (by omega)]
        | succ i =>
          simp only [List.getElem?_cons_succ] at hi
          obtain ⟨d', g1, g2⟩ := l3 i l hi hl
          refine ⟨d', ?_, g2⟩
          rw [← g1]
          congr 1
          apply List.ext_getElem?
          intro q
          have hgt : (s : ℤ) + a.size ≤ l.offset := by
            have := (offsets_order ho (i := 0) (j := i + 1) (by simp) (by simpa using hi) hs hl (by omega)).2
            rw [e] at this; exact this
          rw [List.getElem?_drop, List.getElem?_drop, writeAt_getElem? hw, if_neg (by omega)]
    · have e : a.offset = -1 := by rw [h1, offsetAt, if_neg hs]
      simp only [catJointDisAll, e, Int.reduceNeg, Int.reduceLE, if_false] at h
      obtain ⟨l1, l2, l3⟩ := ih _ _ _ h2 h
      refine ⟨l1, fun q hq => l2 q (by omega), ?_⟩
      intro i l hi hl
      cases i with
      | zero =>
        simp only [List.getElem?_cons_zero, Option.some.injEq] at hi
        subst hi
        exact absurd hl hs
      | succ i => exact l3 i l (by simpa using hi) hl

theorem getJointAll_spec (get : Prp K → List K) (hget : ∀ p : Prp K, (get p).length = p.size)
    (ls : List (Link K)) :
    ∀ (s : ℕ) (dis dis' : List K), OffsetsFrom s ls → getJointAll get ls dis = some dis' →
      dis'.length = dis.length ∧ (∀ q < s, dis'[q]? = dis[q]?) ∧
      ∀ (i : ℕ) (l : Link K), ls[i]? = some l → 0 < l.size →
        (dis'.drop l.offset.toNat).take l.size = get l.joint.prp := by
  induction ls with
  | nil =>
    intro s dis dis' _ h
    simp only [getJointAll, Option.some.injEq] at h
    subst h
    exact ⟨rfl, fun _ _ => rfl, fun i l hi => by simp at hi⟩
  | cons a ls ih =>
    intro s dis dis' ho h
    obtain ⟨h1, h2⟩ := offsetsFrom_cons.1 ho
    by_cases hs : 0 < a.size
    · have e : a.offset = (s : ℤ) := by rw [h1, offsetAt, if_pos hs]
      simp only [getJointAll, e, Int.natCast_nonneg, if_true, Int.toNat_natCast, Option.bind_eq_bind,
        Option.bind_eq_some_iff] at h
      obtain ⟨dis1, hw, h⟩ := h
      obtain ⟨l1, l2, l3⟩ := ih _ _ _ h2 h
      have hdl : (get a.joint.prp).length = a.size := hget _
      have hlen := IK.writeAt_length hw
      refine ⟨l1.trans hlen, ?_, ?_⟩
      · intro q hq
        rw [l2 q (by omega), writeAt_getElem? hw, if_neg (by omega)]
      · intro i l hi hl
        cases i with
        | zero =>
          simp only [List.getElem?_cons_zero, Option.some.injEq] at hi
          subst hi
          rw [e, Int.toNat_natCast]
          apply List.ext_getElem?
          intro q
          by_cases hq : q < a.size
          · rw [List.getElem?_take_of_lt hq, List.getElem?_drop, l2 _ (by omega), writeAt_getElem? hw,
              if_pos (by omega)]
            congr 1; omega
          · rw [List.getElem?_eq_none (by simp; omega), List.getElem?_eq_none (by omega)]
        | succ i => exact l3 i l (by simpa using hi) hl
    · have e : a.offset = -1 := by rw [h1, offsetAt, if_neg hs]
      simp only [getJointAll, e, Int.reduceNeg, Int.reduceLE, if_false] at h
      obtain ⟨l1, l2, l3⟩ := ih _ _ _ h2 h
      refine ⟨l1, fun q hq => l2 q (by omega), ?_⟩
      intro i l hi hl
      cases i with
      | zero =>
        simp only [List.getElem?_cons_zero, Option.some.injEq] at hi
        subst hi
        exact absurd hl hs
      | succ i => exact l3 i l (by simpa using hi) hl

omit [Field K] in
theorem map_set_of {α : Type*} (k : Link K → α) {ls : List (Link K)} {i : ℕ} {l l' : Link K} (h : ls[i]? = some l)
    (hk : k l' = k l) : (ls.set i l').map k = ls.map k := by
  rw [List.map_set, hk]
  apply List.ext_getElem?
  intro j
  rw [List.getElem?_set]
  split_ifs with h1 h2
  · subst h1; simp [h]
  · subst h1
    simp only [List.length_map] at h2
    simp only [List.getElem?_map, List.getElem?_eq_none (Nat.le_of_not_lt h2), Option.map_none]
  · rfl

omit [Field K] in
theorem downAt_map {α σ : Type*} {f : σ → Link K → Link K} {g : Link K → σ} (k : Link K → α)
    (hf : ∀ st l, k (f st l) = k l) (t : LTree ℕ) :
    ∀ (par : Option ℕ) (st : σ) (ls ls' : List (Link K)), Chain.downAt f g par t st ls = some ls' →
      ls'.map k = ls.map k := by
  induction t with
  | nil => intro par st ls ls' h; simp only [Chain.downAt, Option.some.injEq] at h; rw [h]
  | node i c s ihc ihs =>
    intro par st ls ls' h
    simp only [Chain.downAt, bind, Option.bind_eq_some_iff] at h
    obtain ⟨l, hl, ls1, h1, h2⟩ := h
    have e1 := (ihc _ _ _ _ h1).trans (map_set_of k hl (hf st l))
    split_ifs at h2 with hs
    · rw [← Option.some.inj h2]; exact e1
    · cases par with
      | none => simp at h2
      | some p =>
        simp only at h2
        cases hp : ls1[p]? with
        | none => simp [hp] at h2
        | some pl => simp only [hp] at h2; exact (ihs _ _ _ _ h2).trans e1

/-- Forward kinematics does not change the joints. -/
theorem updateFK_joint {c c' : Chain K} (h : c.updateFK = some c') (i : ℕ) :
    (c'.link[i]?.map fun l => l.joint) = c.link[i]?.map fun l => l.joint := by
  simp only [Chain.updateFK, Chain.updateFrame, Option.map_map, Option.map_eq_some_iff] at h
  obtain ⟨ls, h, rfl⟩ := h
  have := downAt_map (fun l : Link K => l.joint) (f := fun pwf l => l.updateFrame1 pwf) (fun _ _ => rfl) _ _ _ _ _ h
  rw [← List.getElem?_map, ← List.getElem?_map]
  exact congrArg (fun t => t[i]?) this

/-! ## Scattering the solution -/

namespace IK

theorem scatter_other (ls : List (Link K)) (idx : List ℕ) :
    ∀ {vp vel r : List K}, scatter ls idx vp vel = some r → ∀ q, (∀ k ∈ idx, ¬ Spec.Owns ls k q) →
      r[q]? = vel[q]? := by
  induction idx with
  | nil => intro vp vel r h q _; simp only [scatter, Option.some.injEq] at h; rw [h]
  | cons k idx ih =>
    intro vp vel r h q hq
    simp only [scatter, Option.bind_eq_bind, Option.bind_eq_some_iff] at h
    obtain ⟨l, hl, h⟩ := h
    split_ifs at h with h1 h2
    · exact ih h q fun k hk => hq k (by simp [hk])
    · simp only [Option.bind_eq_some_iff] at h
      obtain ⟨vel', hw, h⟩ := h
      rw [ih h q fun k hk => hq k (by simp [hk]), writeAt_getElem? hw, if_neg]
      have := hq k (by simp)
      simp only [Spec.Owns, hl, Option.some.injEq, exists_eq_left', not_and, not_lt] at this
      simp only [Link.size] at h1 h2
      simp only [List.length_take, not_and, not_lt, Link.size]
      intro h3
      have := this (by omega) (by omega)
      omega

theorem scatter_at {ls : List (Link K)} (ho : setOffset ls = ls) (idx : List ℕ) :
    ∀ {vp vel r : List K}, idx.Pairwise (· < ·) → scatter ls idx vp vel = some r →
      ∀ (pre post : List ℕ) (k : ℕ) (l : Link K), idx = pre ++ k :: post → ls[k]? = some l →
        ∀ q < l.size, r[l.offset.toNat + q]? =
          vp[(pre.map fun j => (ls[j]?.map fun l => l.joint.prp.size).getD 0).sum + q]? := by
  induction idx with
  | nil => intro vp vel r _ _ pre post k l h; simp at h
  | cons a idx ih =>
    intro vp vel r hp h pre post k l he hk q hq
    have hp' := List.pairwise_cons.1 hp
    simp only [scatter, Option.bind_eq_bind, Option.bind_eq_some_iff] at h
    obtain ⟨m, hm, h⟩ := h
    cases pre with
    | nil =>
      simp only [List.nil_append, List.cons.injEq] at he
      obtain ⟨rfl, rfl⟩ := he
      have : m = l := by rw [hm] at hk; exact Option.some.inj hk
      subst this
      rw [if_neg (by omega)] at h
      split_ifs at h with h2
      simp only [Option.bind_eq_some_iff] at h
      obtain ⟨vel', hw, h⟩ := h
      have hown : Spec.Owns ls a (m.offset.toNat + q) :=
        ⟨m, hm, by unfold Link.size at hq; omega, by omega, by unfold Link.size at hq; push_cast; omega⟩
      rw [scatter_other _ _ h _ (fun k hk hown' => by
        have := owns_unique ho hown hown'
        have := hp'.1 k hk
        omega), writeAt_getElem? hw, if_pos (by simp; omega)]
      rw [List.getElem?_take_of_lt (by omega)]
      simp
    | cons b pre =>
      simp only [List.cons_append, List.cons.injEq] at he
      obtain ⟨rfl, he⟩ := he
      simp only [List.map_cons, List.sum_cons, hm, Option.map_some, Option.getD_some]
      split_ifs at h with h1 h2
      · rw [ih hp'.2 h pre post k l he hk q hq]
        simp only [Link.size] at h1
        rw [h1, Nat.zero_add]
      · simp only [Option.bind_eq_some_iff] at h
        obtain ⟨vel', hw, h⟩ := h
        rw [ih hp'.2 h pre post k l he hk q hq, List.getElem?_drop]
        simp only [Link.size, Nat.add_assoc]

/-! ## One step -/

variable [LinearOrder K] [Zm K] [ZSqrt K]

/-- One step of the solver moves every joint by its velocity. -/
theorem solveOne_joint {ik ik' : IK K} {dis dis' : List K} {dt : K} (ho : setOffset ik.chain.link = ik.chain.link)
    (h : ik.solveOne dis dt = some (ik', dis')) :
    (∃ ik1, ik.solveRate = some ik1 ∧ ik'.vel = ik1.vel) ∧
    (∀ (i : ℕ) (l : Link K), ik.chain.link[i]? = some l → 0 < l.size →
      ∃ d p l', l.joint.prp.catDis (dis.drop l.offset.toNat) dt (ik'.vel.drop l.offset.toNat) = some d ∧
        l.joint.prp.setDis d = some p ∧ ik'.chain.link[i]? = some l' ∧ l'.joint.prp = p ∧
        (dis'.drop l.offset.toNat).take l.size = p.getDis) ∧ dis'.length = dis.length := by
  simp only [solveOne, Option.bind_eq_bind, Option.bind_eq_some_iff, pure, Option.some.injEq, Prod.mk.injEq] at h
  obtain ⟨ik1, h1, dis1, hc, ls, hls, dis2, hg, c, hfk, rfl, rfl⟩ := h
  have hch := (solveRate_same h1).2.1
  have ho1 : setOffset ik1.chain.link = ik1.chain.link := by rw [hch]; exact ho
  have hk : keys ls = keys ik1.chain.link := setJointAll_keys isSetter_dis.size _ _ _ hls
  have hols : setOffset ls = ls := setOffset_keys hk.symm ho1
  obtain ⟨c1, c2, c3⟩ := catJointDisAll_spec dt ik1.vel ik1.chain.link 0 dis dis1 ho1 hc
  obtain ⟨g1, -, g3⟩ := getJointAll_spec Prp.getDis getDis_length ls 0 dis1 dis2 hols hg
  refine ⟨⟨ik1, h1, rfl⟩, ?_, g1.trans c1⟩
  intro i l hi hs
  rw [← hch] at hi
  obtain ⟨d, hd, hsl⟩ := c3 i l hi hs
  have hmem : l ∈ ik1.chain.link := List.mem_iff_getElem?.2 ⟨i, hi⟩
  have hoff : 0 ≤ l.offset := offset_nonneg ho1 hmem hs
  have hset := (setJointAll_getElem hls i).1
  rw [hi] at hset
  simp only [Option.bind_some, Link.setAtOffset, hoff, if_true] at hset
  have hlen : i < ls.length := by
    rw [(setJointAll_getElem hls i).2]; exact (List.getElem?_eq_some_iff.1 hi).1
  obtain ⟨l', hl'⟩ : ∃ l', ls[i]? = some l' := ⟨ls[i], List.getElem?_eq_getElem hlen⟩
  rw [hl'] at hset
  obtain ⟨p, hp, he⟩ := setWith_eq_some.1 hset
  have hdl : d.length = l.joint.prp.size := catDis_length hd
  have hp' : l.joint.prp.setDis d = some p := by
    rw [← hp]
    apply isSetter_dis.local_
    · omega
    · rw [← hsl, List.take_take]; simp [Link.size]
  have hfk' := updateFK_joint hfk i
  simp only at hfk'
  rw [hl', Option.map_some, Option.map_eq_some_iff] at hfk'
  obtain ⟨l'', hl'', hj⟩ := hfk'
  refine ⟨d, p, l'', hd, hp', hl'', by rw [hj, he], ?_⟩
  have hsz : l'.size = l.size := by
    have : p.size = l.joint.prp.size := isSetter_dis.size _ _ _ hp
    rw [he]; exact this
  have := g3 i l' hl' (by omega)
  rw [hsz] at this
  rw [he] at this
  exact this

/-- The components of the joint velocity that no listed joint owns. -/
def Free (ik : IK K) (q : ℕ) : Prop :=
  ∀ idx k, ik.jidx = some idx → k ∈ idx → ¬ Spec.Owns ik.chain.link k q

omit [Field K] [LinearOrder K] [Zm K] [ZSqrt K] in
theorem Free.same {a b : IK K} (e : Same a b) {q : ℕ} (h : a.Free q) : b.Free q := by
  intro idx k hi hk ho
  exact h idx k (e.jidx ▸ hi) hk ((owns_keys e.keys k q).1 ho)

theorem solveRate_vel {a b : IK K} (h : a.solveRate = some b) {q : ℕ} (hq : a.Free q) : b.vel[q]? = a.vel[q]? := by
  obtain ⟨e, e1, idx, hi, hs⟩ := solveRate_same h
  exact scatter_other _ _ hs q fun k hk => hq idx k hi hk

theorem solveOne_vel {a b : IK K} {dis dis' : List K} {dt : K} (h : a.solveOne dis dt = some (b, dis')) {q : ℕ}
    (hq : a.Free q) : b.vel[q]? = a.vel[q]? := by
  simp only [solveOne, Option.bind_eq_bind, Option.bind_eq_some_iff, pure, Option.some.injEq, Prod.mk.injEq] at h
  obtain ⟨ik1, h1, dis1, hc, ls, hls, dis2, hg, c, hfk, rfl, rfl⟩ := h
  exact solveRate_vel h1 hq

theorem solveLoop_vel (tol : K) (n : ℕ) :
    ∀ {i : ℕ} {rest : Option K} {ik ik' : IK K} {dis dis' : List K} {r : ℤ},
      solveLoop tol n i rest ik dis = some (r, ik', dis') → ∀ {q : ℕ}, ik.Free q → ik'.vel[q]? = ik.vel[q]? := by
  induction n with
  | zero =>
    intro i rest ik ik' dis dis' r h q _
    simp only [solveLoop, Option.some.injEq, Prod.mk.injEq] at h
    rw [h.2.1]
  | succ n ih =>
    intro i rest ik ik' dis dis' r h q hq
    simp only [solveLoop, Option.bind_eq_bind, Option.bind_eq_some_iff] at h
    obtain ⟨⟨ik1, dis1⟩, h1, h⟩ := h
    have e := solveOne_vel h1 hq
    have hq' := hq.same (solveOne_same h1)
    cases rest with
    | none => exact (ih h hq').trans e
    | some r =>
      simp only at h
      split_ifs at h
      · simp only [Option.some.injEq, Prod.mk.injEq] at h
        rw [← h.2.1]; exact e
      · exact (ih h hq').trans e

theorem Op.run_vel {a b : IK K} (o : Op K) (ho : o.Quiet) (h : o.run a = some b) {q : ℕ} (hq : a.Free q) :
    b.vel[q]? = a.vel[q]? := by
  cases o <;> simp only [Op.Quiet] at ho <;> simp only [Op.run, Option.some.injEq, Option.map_eq_some_iff] at h
  case bind =>
    simp only [IK.bind, Option.map_eq_some_iff] at h
    obtain ⟨l, _, rfl⟩ := h
    rfl
  case chain => obtain ⟨c, _, rfl⟩ := h; rfl
  case eq => rw [(eq_same h).2.2.1]
  case solveRate => exact solveRate_vel h hq
  case solveOne => obtain ⟨⟨x, y⟩, h, rfl⟩ := h; exact solveOne_vel h hq
  case solve =>
    obtain ⟨⟨r, x, y⟩, h, rfl⟩ := h
    simp only [IK.solve, Option.bind_eq_bind, Option.bind_eq_some_iff] at h
    obtain ⟨dis0, _, h⟩ := h
    exact solveLoop_vel _ _ h (hq.same (acmZero_same a))
  all_goals (rw [← h]; rfl)

omit [LinearOrder K] [Zm K] [ZSqrt K] in
theorem jointReg'_jidx {a b : IK K} {id : ℤ} {sw ok : Bool} {w : K} (h : a.jointReg' id sw w = some (ok, b)) :
    b.jidx = a.jidx ∨ ∃ i : ℕ, b.sw[i]? = some true := by
  simp only [jointReg'] at h
  split_ifs at h
  · simp only [Option.some.injEq, Prod.mk.injEq] at h
    exact .inl (by rw [h.2])
  · simp only [Option.map_eq_some_iff, Prod.mk.injEq] at h
    obtain ⟨b', h, _, rfl⟩ := h
    simp only [allocJointIndex] at h
    split_ifs at h with hc
    · rw [← Option.some.inj h]; exact .inl rfl
    · right
      simp only [Option.bind_eq_some_iff] at h
      obtain ⟨n, _, wn, _, h⟩ := h
      have e := (allocCMat_same h).1
      rw [e.sw]
      exact not_not.1 (mt (count_eq_zero _).2 hc)

/-- Only the joints in `E` are listed, and the velocity of the others is zero. -/
structure Ever (ls : List (Link K)) (E : ℕ → Prop) (ik : IK K) : Prop where
  sw : ∀ k : ℕ, ik.sw[k]? = some true → E k
  jidx : ∀ idx k, ik.jidx = some idx → k ∈ idx → E k
  vel : ∀ i q, ¬ E i → Spec.Owns ls i q → ik.vel[q]? = some 0

omit [LinearOrder K] [Zm K] [ZSqrt K] in
theorem Ever.free {ls : List (Link K)} (ho : setOffset ls = ls) {E : ℕ → Prop} {ik : IK K} (h : Ever ls E ik)
    (hk : keys ik.chain.link = keys ls) {i q : ℕ} (hi : ¬ E i) (hq : Spec.Owns ls i q) : ik.Free q := by
  intro idx k hidx hkm ho'
  have := owns_unique ho hq ((owns_keys hk k q).1 ho')
  subst this
  exact hi (h.jidx idx i hidx hkm)

theorem Op.run_ever {ls : List (Link K)} (hof : setOffset ls = ls) {reg : ℕ → Option K} {a b : IK K} {E : ℕ → Prop}
    (hj : Joints ls reg a) (he : Ever ls E a) (o : Op K) (h : o.run a = some b) :
    Ever ls (fun i => E i ∨ ∃ w, o = .jointReg (i : ℤ) w ∨ o = .jointRegAll w) b := by
  have key : ∀ {id : ℤ} {s ok : Bool} {w : K}, a.jointReg' id s w = some (ok, b) →
      Ever ls (fun i => E i ∨ ((i : ℤ) = id ∧ s = true)) b := by
    intro id s ok w h
    obtain ⟨j1, j2, j3, j4, j5⟩ := jointReg'_joints hj h
    have hsw : ∀ k : ℕ, b.sw[k]? = some true → E k ∨ ((k : ℤ) = id ∧ s = true) := by
      intro k hk
      have h1 := j1.reg k
      rw [if_pos hk] at h1
      have h2 : k < b.weight.length := by
        rw [j1.lwt, ← j1.lsw]; exact (List.getElem?_eq_some_iff.1 hk).1
      rw [List.getElem?_eq_getElem h2] at h1
      by_cases hid : (k : ℤ) = id
      · rw [if_pos hid] at h1
        split_ifs at h1 with h3
        exact .inr ⟨hid, h3.1⟩
      · rw [if_neg hid, hj.reg] at h1
        split_ifs at h1 with h3
        exact .inl (he.sw k h3)
    refine ⟨hsw, ?_, ?_⟩
    · intro idx k hidx hk
      rcases jointReg'_jidx h with h1 | h1
      · exact .inl (he.jidx idx k (h1 ▸ hidx) hk)
      · have h2 := (j1.idx h1).1
        rw [hidx] at h2
        rw [Option.some.inj h2] at hk
        obtain ⟨j, e, hj'⟩ := (mem_indexFrom _ _ _).1 hk
        rw [Nat.zero_add] at e
        subst e
        exact hsw k hj'
    · intro i q hi hq
      rw [j4]
      exact he.vel i q (fun h => hi (.inl h)) hq
  by_cases hq : o.Quiet
  · have e := Op.run_same o hq h
    refine ⟨fun k hk => .inl (he.sw k (e.sw ▸ hk)), fun idx k h1 h2 => .inl (he.jidx idx k (e.jidx ▸ h1) h2), ?_⟩
    intro i q hi hown
    have hi' : ¬ E i := fun h => hi (.inl h)
    rw [Op.run_vel o hq h (he.free hof hj.keys hi' hown)]
    exact he.vel i q hi' hown
  · cases o <;> simp only [Op.Quiet, not_true, not_false_iff] at hq <;>
      simp only [Op.run, Option.map_eq_some_iff] at h
    case jointReg id w =>
      obtain ⟨⟨ok, b'⟩, h, rfl⟩ := h
      have := key h
      refine ⟨fun k hk => ?_, fun idx k h1 h2 => ?_, fun i q hi hown => ?_⟩
      · rcases this.sw k hk with h | ⟨h, _⟩
        · exact .inl h
        · exact .inr ⟨w, .inl (by rw [h])⟩
      · rcases this.jidx idx k h1 h2 with h | ⟨h, _⟩
        · exact .inl h
        · exact .inr ⟨w, .inl (by rw [h])⟩
      · refine this.vel i q (fun h => hi ?_) hown
        rcases h with h | ⟨h, _⟩
        · exact .inl h
        · exact .inr ⟨w, .inl (by rw [h])⟩
    case jointUnreg id =>
      obtain ⟨⟨ok, b'⟩, h, rfl⟩ := h
      have := key h
      exact ⟨fun k hk => .inl (by simpa using this.sw k hk),
        fun idx k h1 h2 => .inl (by simpa using this.jidx idx k h1 h2),
        fun i q hi hown => this.vel i q (by simpa using fun h => hi (.inl h)) hown⟩
    case jointRegAll w =>
      exact ⟨fun k _ => .inr ⟨w, .inr rfl⟩, fun idx k _ _ => .inr ⟨w, .inr rfl⟩,
        fun i q hi _ => absurd (.inr ⟨w, .inr rfl⟩) hi⟩
    case cellReg ptr attr mask fns =>
      have e := allocSRV_same h
      refine ⟨fun k hk => .inl (he.sw k ?_), fun idx k h1 h2 => .inl (he.jidx idx k ?_ h2), fun i q hi hown => ?_⟩
      · rw [e.1.sw] at hk; exact hk
      · rw [e.1.jidx] at h1; exact h1
      · rw [e.2.2.2]; exact he.vel i q (fun h => hi (.inl h)) hown
    case cellUnreg ptr =>
      simp only [IK.cellUnreg] at h
      split_ifs at h
      have e := allocSRV_same h
      refine ⟨fun k hk => .inl (he.sw k ?_), fun idx k h1 h2 => .inl (he.jidx idx k ?_ h2), fun i q hi hown => ?_⟩
      · rw [e.1.sw] at hk; exact hk
      · rw [e.1.jidx] at h1; exact h1
      · rw [e.2.2.2]; exact he.vel i q (fun h => hi (.inl h)) hown

theorem runAll_ever {ls : List (Link K)} (hof : setOffset ls = ls) (ops : List (Op K)) :
    ∀ {a b : IK K} {reg : ℕ → Option K} {E : ℕ → Prop}, Joints ls reg a → Ever ls E a → a.runAll ops = some b →
      Ever ls (fun i => E i ∨ Spec.ikEver ops i) b := by
  induction ops with
  | nil =>
    intro a b reg E h he hr
    simp only [runAll, Option.some.injEq] at hr
    subst hr
    refine ⟨fun k hk => .inl (he.sw k hk), fun idx k h1 h2 => .inl (he.jidx idx k h1 h2),
      fun i q hi hown => he.vel i q (fun h => hi (.inl h)) hown⟩
  | cons o ops ih =>
    intro a b reg E h he hr
    simp only [runAll, Option.bind_eq_some_iff] at hr
    obtain ⟨a', h1, h2⟩ := hr
    have := ih (Op.run_inv (t := []) h o h1).1 (Op.run_ever hof h he o h1) h2
    have conv : ∀ i, ((E i ∨ ∃ w, o = .jointReg (i : ℤ) w ∨ o = .jointRegAll w) ∨ Spec.ikEver ops i) →
        E i ∨ Spec.ikEver (o :: ops) i := by
      rintro i ((h | ⟨w, h⟩) | ⟨w, h⟩)
      · exact .inl h
      · exact .inr ⟨w, h.imp (fun h => by simp [h]) (fun h => by simp [h])⟩
      · exact .inr ⟨w, h.imp (fun h => by simp [h]) (fun h => by simp [h])⟩
    exact ⟨fun k hk => conv k (this.sw k hk), fun idx k h1 h2 => conv k (this.jidx idx k h1 h2),
      fun i q hi hown => this.vel i q (fun h => hi (conv i h)) hown⟩

omit [LinearOrder K] [Zm K] [ZSqrt K] in
theorem Ever.create {c : Chain K} (ho : setOffset c.link = c.link)
    (jv : List (List K) → List K → List K → List K → List K → ℕ → K) :
    Ever c.link (fun _ => False) (IK.create c jv) := by
  refine ⟨?_, by simp [IK.create], ?_⟩
  · intro k hk
    simp only [IK.create, List.getElem?_replicate] at hk
    split_ifs at hk
    simp at hk
  · rintro i q _ ⟨l, hl, hs, h1, h2⟩
    simp only [IK.create, List.getElem?_replicate]
    rw [if_pos]
    have hm : l ∈ setOffset c.link := by rw [ho]; exact List.mem_iff_getElem?.2 ⟨i, hl⟩
    have := ((C01_offsets_tile c.link).2.2.2.2.1 l hm hs).2
    omega
end IK
end Roki
