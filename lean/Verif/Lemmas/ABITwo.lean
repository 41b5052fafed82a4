import Verif.Lemmas.ABIHist
set_option autoImplicit false

/-! # The update for one or two additional forces -/

namespace Roki
variable {K : Type*} [Field K]

namespace LTree

/-- The nodes that satisfy `P` are those that have `i` among their descendants. -/
def AncOK (P : ℕ → Prop) (i : ℕ) : LTree ℕ → Prop
  | nil => True
  | node j c s => (P j ↔ i ∈ c.toList) ∧ AncOK P i c ∧ AncOK P i s

theorem ancOK_of_not {P : ℕ → Prop} {i : ℕ} {t : LTree ℕ} (hi : i ∉ t.toList)
    (h : ∀ j ∈ t.toList, ¬ P j) : AncOK P i t := by
  induction t with
  | nil => trivial
  | node j c s ihc ihs =>
    simp only [toList, List.mem_cons, List.mem_append, not_or] at hi
    refine ⟨?_, ihc hi.2.1 fun k hk => h k (by simp [toList, hk]),
      ihs hi.2.2 fun k hk => h k (by simp [toList, hk])⟩
    simp [hi.2.1, h j (by simp [toList])]

theorem pathUp_sub {t : LTree ℕ} {i : ℕ} {p : List ℕ} (h : t.pathUp i = some p) :
    ∀ j ∈ p, j ∈ t.toList := by
  induction t generalizing p with
  | nil => simp [pathUp] at h
  | node j c s ihc ihs =>
    simp only [pathUp] at h
    split_ifs at h with hj
    · cases h; simp [toList, hj]
    · cases hc : c.pathUp i with
      | none =>
        rw [hc] at h
        intro k hk
        simp [toList, ihs h k hk]
      | some q =>
        rw [hc] at h
        cases h
        intro k hk
        simp only [List.mem_append, List.mem_singleton] at hk
        rcases hk with hk | rfl
        · simp [toList, ihc hc k hk]
        · simp [toList]

theorem pathUp_mem {t : LTree ℕ} {i : ℕ} {p : List ℕ} (h : t.pathUp i = some p) : i ∈ t.toList := by
  by_contra hn
  have := Chain.parentIn_none t none i hn
  rw [Chain.parentIn_eq, h] at this
  simp at this

theorem pathUp_none {t : LTree ℕ} {i : ℕ} (h : i ∉ t.toList) : t.pathUp i = none := by
  cases hp : t.pathUp i with
  | none => rfl
  | some p => exact absurd (pathUp_mem hp) h

theorem pathUp_some {t : LTree ℕ} {i : ℕ} (h : i ∈ t.toList) : ∃ p, t.pathUp i = some p := by
  obtain ⟨q, e, -⟩ := Chain.parentIn_isSome t none i h
  rw [Chain.parentIn_eq] at e
  cases hp : t.pathUp i with
  | none => simp [hp] at e
  | some p => exact ⟨p, rfl⟩

/-- The ancestors found by going from parent to parent. -/
theorem pathUp_anc {t : LTree ℕ} (hn : t.toList.Nodup) {i : ℕ} {p : List ℕ}
    (h : t.pathUp i = some p) {P : ℕ → Prop} (hP : ∀ j ∈ t.toList, P j ↔ j ∈ p.tail) : AncOK P i t := by
  induction t generalizing p with
  | nil => trivial
  | node j c s ihc ihs =>
    simp only [toList, List.nodup_cons, List.mem_append, not_or] at hn
    obtain ⟨⟨hjc, hjs⟩, hcs⟩ := hn
    obtain ⟨hc, hs, hd⟩ := List.nodup_append.1 hcs
    simp only [pathUp] at h
    split_ifs at h with hj
    · cases h
      have hN : ∀ k ∈ (node j c s).toList, ¬ P k := fun k hk hh => by
        have := (hP k hk).1 hh
        simp at this
      subst hj
      refine ⟨?_, ancOK_of_not hjc fun k hk => hN k (by simp [toList, hk]),
        ancOK_of_not hjs fun k hk => hN k (by simp [toList, hk])⟩
      simp [hjc, hN i (by simp [toList])]
    · cases hcp : c.pathUp i with
      | none =>
        rw [hcp] at h
        have hic : i ∉ c.toList := by
          intro hi
          obtain ⟨p, e⟩ := pathUp_some hi
          rw [hcp] at e; simp at e
        have hsub := pathUp_sub h
        have hin := pathUp_mem h
        refine ⟨?_, ancOK_of_not hic ?_, ihs hs h fun k hk => hP k (by simp [toList, hk])⟩
        · rw [hP j (by simp [toList])]
          simp only [hic, iff_false]
          exact fun hh => hjs (hsub j (List.mem_of_mem_tail hh))
        · intro k hk hh
          have := (hP k (by simp [toList, hk])).1 hh
          exact hd k hk k (hsub k (List.mem_of_mem_tail this)) rfl
      | some q =>
        rw [hcp] at h
        cases h
        have hsub := pathUp_sub hcp
        have hic := pathUp_mem hcp
        have hq : q ≠ [] := fun e => Chain.pathUp_ne_nil c i (by rw [hcp, e])
        have htail : ∀ k, k ∈ (q ++ [j]).tail ↔ k ∈ q.tail ∨ k = j := by
          intro k
          rw [List.tail_append_of_ne_nil hq]
          simp
        refine ⟨?_, ihc hc hcp fun k hk => ?_, ancOK_of_not (fun hh => hd i hic i hh rfl) fun k hk hh => ?_⟩
        · rw [hP j (by simp [toList]), htail]
          simp [hic]
        · rw [hP k (by simp [toList, hk]), htail]
          have : k ≠ j := fun e => hjc (e ▸ hk)
          simp [this]
        · have := (hP k (by simp [toList, hk])).1 hh
          rw [htail] at this
          rcases this with h1 | h1
          · exact hd k (hsub k (List.mem_of_mem_tail h1)) k hk rfl
          · exact hjs (h1 ▸ hk)

end LTree

namespace Chain

theorem foldl_modify_path (p : List ℕ) (ls : List (Link K)) (j : ℕ) :
    (p.foldl (fun ls j => ls.modify j fun l => l.abiSetPath true) ls)[j]? =
      ls[j]?.map fun l => if j ∈ p then l.abiSetPath true else l := by
  induction p generalizing ls with
  | nil => simp
  | cons a p ih =>
    rw [List.foldl_cons, ih, List.getElem?_modify]
    cases ls[j]? with
    | none => simp
    | some l =>
      simp only [Option.map_some, List.mem_cons]
      by_cases h1 : a = j
      · subst h1
        simp [Link.abiSetPath]
      · have h1' : ¬ j = a := fun e => h1 e.symm
        simp [h1, h1']

/-- The forces on link `i` after a push. -/
def addForce (a : Option (ℕ × Wrench K)) (i : ℕ) (wl : WrenchList K) : WrenchList K :=
  match a with
  | none => wl
  | some (j, w) => if j = i then wl.push w else wl

/-- The links on the way from a force to the root. -/
def onPath (t : LTree ℕ) (a : Option (ℕ × Wrench K)) (i : ℕ) : Prop :=
  ∃ j w p, a = some (j, w) ∧ t.pathUp j = some p ∧ i ∈ p.tail

theorem abiPushOne_spec {t : LTree ℕ} (hn : t.toList.Nodup) {ls : List (Link K)} (a : Option (ℕ × Wrench K))
    (ha : ∀ j w, a = some (j, w) → j ∈ t.toList ∧ j < ls.length) :
    ∃ ls', abiPushOne t ls a = some ls' ∧ ls'.length = ls.length ∧
      ∀ (i : ℕ) (l : Link K), ls[i]? = some l → ∃ f : Bool, ls'[i]? = some
        { l with abi := { l.abi with wlist := addForce a i l.abi.wlist, path := f } } ∧
        (f = true ↔ l.abi.path = true ∨ onPath t a i) := by
  rcases a with _ | ⟨j, w⟩
  · refine ⟨ls, rfl, rfl, fun i l h => ⟨l.abi.path, h, ?_⟩⟩
    simp [onPath]
  · obtain ⟨hj, hlt⟩ := ha j w rfl
    obtain ⟨p, hp⟩ := LTree.pathUp_some hj
    have hlen : ∀ (p : List ℕ) (ls : List (Link K)),
        (p.foldl (fun ls j => ls.modify j fun l => l.abiSetPath true) ls).length = ls.length := by
      intro p
      induction p with
      | nil => intro ls; rfl
      | cons a p ih => intro ls; rw [List.foldl_cons, ih]; simp
    obtain ⟨lj, hlj⟩ : ∃ lj, ls[j]? = some lj := ⟨ls[j], by simp [hlt]⟩
    have hj' := foldl_modify_path p.tail ls j
    rw [hlj, Option.map_some] at hj'
    refine ⟨_, by simp only [abiPushOne, hp, hj']; rfl, by simp [hlen], ?_⟩
    intro i l hl
    have hon : onPath t (some (j, w)) i ↔ i ∈ p.tail := by
      constructor
      · rintro ⟨j', w', p', e, e', h⟩
        cases e
        rw [hp] at e'
        cases e'
        exact h
      · intro h; exact ⟨j, w, p, rfl, hp, h⟩
    refine ⟨l.abi.path || decide (i ∈ p.tail), ?_, by simp [hon]⟩
    by_cases hij : j = i
    · subst hij
      rw [hlj] at hl
      cases hl
      rw [List.getElem?_set_self (by rw [hlen]; exact hlt)]
      by_cases hm : j ∈ p.tail
      · simp [hm, addForce, Link.abiSetPath]
      · simp [hm, addForce]
    · rw [List.getElem?_set_ne hij, foldl_modify_path, hl]
      by_cases hm : i ∈ p.tail
      · simp [hm, addForce, Link.abiSetPath, hij]
      · simp [hm, addForce, hij]

theorem pathOK_of_anc {ls : List (Link K)} (t : LTree ℕ) (T : LTree (Link K)) (hT : gather ls t = some T)
    (P Q : ℕ → Prop) (a b : Option (ℕ × Wrench K))
    (hP : ∀ j w, a = some (j, w) → LTree.AncOK P j t) (hQ : ∀ j w, b = some (j, w) → LTree.AncOK Q j t)
    (hP0 : a = none → ∀ i, ¬ P i) (hQ0 : b = none → ∀ i, ¬ Q i)
    (h1 : ∀ i ∈ t.toList, ∀ l, ls[i]? = some l → (l.abi.path = true ↔ P i ∨ Q i))
    (h2 : ∀ i ∈ t.toList, ∀ l, ls[i]? = some l →
      (l.abi.wlist ≠ [] ↔ (∃ w, a = some (i, w)) ∨ ∃ w, b = some (i, w))) : LTree.PathOK T := by
  induction t generalizing T with
  | nil => simp only [gather, Option.some.injEq] at hT; subst hT; trivial
  | node i c s ihc ihs =>
    obtain ⟨l, c', s', g1, g2, g3, rfl⟩ := gather_node.1 hT
    refine ⟨?_, ihc c' g2 (fun j w e => (hP j w e).2.1) (fun j w e => (hQ j w e).2.1)
        (fun k hk => h1 k (by simp [LTree.toList, hk])) (fun k hk => h2 k (by simp [LTree.toList, hk])),
      ihs s' g3 (fun j w e => (hP j w e).2.2) (fun j w e => (hQ j w e).2.2)
        (fun k hk => h1 k (by simp [LTree.toList, hk])) (fun k hk => h2 k (by simp [LTree.toList, hk]))⟩
    rw [h1 i (by simp [LTree.toList]) l g1]
    have hmem : (∃ x ∈ c'.toList, x.abi.wlist ≠ []) ↔ ∃ k ∈ c.toList, ∃ x, ls[k]? = some x ∧ x.abi.wlist ≠ [] := by
      have e := gather_toList g2
      constructor
      · rintro ⟨x, hx, hw⟩
        have : some x ∈ c.toList.map (fun i => ls[i]?) := by
          rw [← e]; exact List.mem_map.2 ⟨x, hx, rfl⟩
        obtain ⟨k, hk, ek⟩ := List.mem_map.1 this
        exact ⟨k, hk, x, ek, hw⟩
      · rintro ⟨k, hk, x, ek, hw⟩
        have : some x ∈ c'.toList.map some := by
          rw [e]; exact List.mem_map.2 ⟨k, hk, ek⟩
        obtain ⟨y, hy, ey⟩ := List.mem_map.1 this
        cases ey
        exact ⟨x, hy, hw⟩
    rw [hmem]
    have hex : ∀ k ∈ c.toList, ∃ x, ls[k]? = some x := by
      intro k hk
      have : ls[k]? ∈ c.toList.map (fun i => ls[i]?) := List.mem_map.2 ⟨k, hk, rfl⟩
      rw [← gather_toList g2] at this
      obtain ⟨x, -, ex⟩ := List.mem_map.1 this
      exact ⟨x, ex.symm⟩
    constructor
    · rintro (hp | hq)
      · rcases a with _ | ⟨j, w⟩
        · exact absurd hp (hP0 rfl i)
        · have hj := (hP j w rfl).1.1 hp
          obtain ⟨x, hx⟩ := hex j hj
          exact ⟨j, hj, x, hx, (h2 j (by simp [LTree.toList, hj]) x hx).2 (Or.inl ⟨w, rfl⟩)⟩
      · rcases b with _ | ⟨j, w⟩
        · exact absurd hq (hQ0 rfl i)
        · have hj := (hQ j w rfl).1.1 hq
          obtain ⟨x, hx⟩ := hex j hj
          exact ⟨j, hj, x, hx, (h2 j (by simp [LTree.toList, hj]) x hx).2 (Or.inr ⟨w, rfl⟩)⟩
    · rintro ⟨k, hk, x, hx, hw⟩
      rcases (h2 k (by simp [LTree.toList, hk]) x hx).1 hw with ⟨w, e⟩ | ⟨w, e⟩
      · exact Or.inl ((hP k w e).1.2 hk)
      · exact Or.inr ((hQ k w e).1.2 hk)

theorem onPath_anc {t : LTree ℕ} (hn : t.toList.Nodup) {a : Option (ℕ × Wrench K)} {j : ℕ} {w : Wrench K}
    (e : a = some (j, w)) (hj : j ∈ t.toList) : LTree.AncOK (onPath t a) j t := by
  obtain ⟨p, hp⟩ := LTree.pathUp_some hj
  refine LTree.pathUp_anc hn hp fun i _ => ?_
  constructor
  · rintro ⟨j', w', p', e', h1, h2⟩
    rw [e] at e'
    cases e'
    rw [hp] at h1
    cases h1
    exact h2
  · intro h; exact ⟨j, w, p, e, hp, h⟩

theorem forcesTwo_eq (a b : Option (ℕ × Wrench K)) (i : ℕ) :
    addForce b i (addForce a i []) = forcesTwo a b i := by
  rcases a with _ | ⟨j, w⟩ <;> rcases b with _ | ⟨k, v⟩ <;> simp only [addForce, forcesTwo] <;>
    (repeat' split_ifs) <;> simp_all [WrenchList.push]

/-- **The update for two forces gives what a full update with these forces gives.** -/
theorem free_two [Zm K] {c c2 : Chain K} (h : c.WF) {fx : Bool} {a b : Option (ℕ × Wrench K)}
    (hw : ∀ l ∈ c.link, l.abi.wlist = []) (hw2 : ∀ l ∈ c2.link, l.abi.wlist = [])
    (ha : ∀ j w, a = some (j, w) → j < c.link.length) (hb : ∀ j w, b = some (j, w) → j < c.link.length)
    (hs : LinkArray.jointSize c.link ≠ 0) {T : LTree (Link K)} (hT : gather c.link c.shape = some T)
    (e : RelTree (LTree.Free fx) c2 c.shape c.link.length ((T.abiInit 0).abiBack fx).1)
    (hs2 : LinkArray.jointSize c2.link ≠ 0) :
    ∃ c3 c4, c2.abiUpdateAddExTwo fx a b = some c3 ∧
      (c.withForces (forcesTwo a b)).abiUpdate fx false = some c4 ∧ c3.link.length = c.link.length ∧
      c4.link.length = c.link.length ∧
      ∀ i, i < c.link.length → ∃ l3 l4, c3.link[i]? = some l3 ∧ c4.link[i]? = some l4 ∧
        LTree.Agree false l3 l4 := by
  obtain ⟨hsh, hn, B, hB, hr⟩ := e
  have hc2 : c2.WF := ⟨hsh ▸ h.root, by rw [hsh, hn]; exact h.perm⟩
  rw [← hsh] at hB
  obtain ⟨TW, hTW, rW⟩ := gather_withForces (W := forcesTwo a b) hT
  have hclear : T = TW.map Link.abiNoForce := by
    have hTw : ∀ l ∈ T.toList, l.abi.wlist = [] := fun l hl =>
      hw l ((gather_perm hT h.perm).mem_iff.1 hl)
    clear hT hr hTW hB
    induction T generalizing TW with
    | nil => cases TW <;> simp_all [LTree.Rel, LTree.map]
    | node l cc s ihc ihs =>
      cases TW with
      | nil => simp [LTree.Rel] at rW
      | node l' cc' s' =>
        obtain ⟨r1, r2, r3⟩ := rW
        simp only [LTree.map]
        rw [← ihc cc' r2 fun x hx => hTw x (by simp [LTree.toList, hx]),
          ← ihs s' r3 fun x hx => hTw x (by simp [LTree.toList, hx])]
        congr 1
        have := hTw l (by simp [LTree.toList])
        rw [r1]
        obtain ⟨n, j, b, o, og, ad, abi⟩ := l
        obtain ⟨m, i, f, b, c, wl, w, w0, b0, a0, pa, ax, iax⟩ := abi
        simp only at this
        simp [Link.abiNoForce, this]
  -- the pushes
  have hmem : ∀ {j : ℕ}, j < c.link.length → j ∈ c2.shape.toList := fun hj => by
    rw [hsh]; exact h.mem.2 hj
  obtain ⟨ls1, p1, q1, u1⟩ := abiPushOne_spec hc2.nodup (ls := c2.link.map fun l => l.abiSetPath false) a
    (fun j w e => ⟨hmem (ha j w e), by simpa [hn] using ha j w e⟩)
  obtain ⟨ls2, p2, q2, u2⟩ := abiPushOne_spec hc2.nodup (ls := ls1) b
    (fun j w e => ⟨hmem (hb j w e), by rw [q1]; simpa [hn] using hb j w e⟩)
  have u : ∀ (i : ℕ) (l : Link K), c2.link[i]? = some l → ∃ f : Bool, ls2[i]? = some
      { l with abi := { l.abi with wlist := forcesTwo a b i, path := f } } ∧
      (f = true ↔ onPath c2.shape a i ∨ onPath c2.shape b i) := by
    intro i l hl
    obtain ⟨f1, g1, g1'⟩ := u1 i (l.abiSetPath false) (by simp [hl])
    obtain ⟨f2, g2, g2'⟩ := u2 i _ g1
    refine ⟨f2, ?_, ?_⟩
    · rw [g2]
      have : l.abi.wlist = [] := hw2 l (List.mem_of_getElem? hl)
      simp only [Link.abiSetPath, this, forcesTwo_eq]
    · rw [g2']; simp only [g1', Link.abiSetPath, Bool.false_eq_true, false_or]
  have hlen2 : ls2.length = c2.link.length := by rw [q2, q1]; simp
  obtain ⟨B2, hB2⟩ := gather_exists (ls := ls2) (t := c2.shape) fun i hi => by
    rw [hlen2]; exact hc2.mem.1 hi
  have hlk : ∀ i ∈ c2.shape.toList, ∃ l, c2.link[i]? = some l := fun i hi =>
    ⟨c2.link[i]'(hc2.mem.1 hi), by simp⟩
  have rB : B.Rel (fun x y => ∃ wl f, y = { x with abi := { x.abi with wlist := wl, path := f } }) B2 := by
    refine rel_gather hB hB2 fun i hi l l' e e' => ?_
    obtain ⟨f, g, -⟩ := u i l e
    rw [e'] at g
    exact ⟨_, f, Option.some.inj g⟩
  have hbefore : LTree.Before fx B2 (TW.abiInit 0) := by
    refine LTree.before_of_free ?_ ?_
    · rw [← LTree.abiInit_noForce, ← hclear]
      exact LTree.Rel.trans (R := fun (y x : Link K) => ∃ wl f,
        y = { x with abi := { x.abi with wlist := wl, path := f } })
        (fun a b d h1 h2 => by obtain ⟨wl, f, rfl⟩ := h1; exact h2) rB.flip hr
    · have i2 : B2.Rel (fun x y : Link K => x.abi.wlist = y.abi.wlist) TW := by
        refine rel_gather (by rw [hsh] at hB2; exact hB2) hTW ?_
        intro i hi l l' g1 g2
        simp only [Chain.withForces, List.getElem?_mapIdx, Option.map_eq_some_iff] at g2
        obtain ⟨_, -, rfl⟩ := g2
        obtain ⟨x, hx⟩ := hlk i (by rw [hsh]; exact hi)
        obtain ⟨f, g, -⟩ := u i x hx
        rw [g] at g1
        cases g1
        rfl
      exact LTree.Rel.trans (fun _ _ _ h1 (h2 : LTree.Keep _ _) => h1.trans h2.2) i2 (LTree.abiInit_keep TW 0)
  have hpath : LTree.PathOK B2 := by
    refine pathOK_of_anc c2.shape B2 hB2 (onPath c2.shape a) (onPath c2.shape b) a b
      (fun j w e => onPath_anc hc2.nodup e (hmem (ha j w e)))
      (fun j w e => onPath_anc hc2.nodup e (hmem (hb j w e)))
      (fun e i ⟨_, _, _, h, _⟩ => by rw [e] at h; cases h)
      (fun e i ⟨_, _, _, h, _⟩ => by rw [e] at h; cases h) ?_ ?_
    · intro i hi l hl
      obtain ⟨x, hx⟩ := hlk i hi
      obtain ⟨f, g, g'⟩ := u i x hx
      rw [g] at hl
      cases hl
      exact g'
    · intro i hi l hl
      obtain ⟨x, hx⟩ := hlk i hi
      obtain ⟨f, g, g'⟩ := u i x hx
      rw [g] at hl
      cases hl
      show forcesTwo a b i ≠ [] ↔ _
      rcases a with _ | ⟨j, w⟩ <;> rcases b with _ | ⟨k, v⟩
      · simp [forcesTwo]
      · by_cases e1 : k = i <;> simp [forcesTwo, e1]
      · by_cases e1 : j = i <;> simp [forcesTwo, e1]
      · by_cases e1 : j = i <;> by_cases e2 : k = i <;> simp [forcesTwo, e1, e2]
  obtain ⟨ok1, ok2⟩ := LTree.abiInit_ok TW (0 : Vec6 K)
  obtain ⟨-, hafter⟩ := hbefore.addEx hpath ok1 ok2
  obtain ⟨ls3, e3, g3, n3, -⟩ := abiAddExAt_refines fx c2.shape none ls2 B2 hc2.nodup hB2 (by simp)
  -- the purge
  set ls3' := abiPurgeTwo ls3 a b with hls3'
  have n3' : ls3'.length = ls3.length := by
    have := congrArg List.length (abiPurgeTwo_keep (fun _ : Link K => ()) (fun _ _ => rfl) ls3 a b)
    simpa using this
  have pe : ∀ (L : List (Link K)) (k m i : ℕ) (l : Link K), (abiPurge L k m)[i]? = some l →
      ∃ x wl, L[i]? = some x ∧ l = { x with abi := { x.abi with wlist := wl } } := by
    intro L k m i l hl
    simp only [abiPurge, List.getElem?_modify, Option.map_eq_map, Option.map_eq_some_iff] at hl
    obtain ⟨x, hx, hl⟩ := hl
    split_ifs at hl
    · exact ⟨x, _, hx, hl.symm⟩
    · exact ⟨x, x.abi.wlist, hx, hl.symm⟩
  have pu : ∀ (i : ℕ) (l : Link K), ls3'[i]? = some l →
      ∃ x wl, ls3[i]? = some x ∧ l = { x with abi := { x.abi with wlist := wl } } := by
    intro i l hl
    rcases a with _ | ⟨j, w⟩ <;> rcases b with _ | ⟨k, v⟩ <;> simp only [hls3', abiPurgeTwo] at hl
    · exact ⟨l, l.abi.wlist, hl, rfl⟩
    · exact pe _ _ _ _ _ hl
    · exact pe _ _ _ _ _ hl
    · obtain ⟨y, wl, hy, rfl⟩ := pe _ _ _ _ _ hl
      obtain ⟨z, wl', hz, rfl⟩ := pe _ _ _ _ _ hy
      exact ⟨z, wl, hz, rfl⟩
  obtain ⟨B3, hB3⟩ := gather_exists (ls := ls3') (t := c2.shape) fun i hi => by
    rw [n3', n3, hlen2]; exact hc2.mem.1 hi
  have r3 : (B2.abiAddEx fx).1.Rel (fun x y => ∃ wl, y = { x with abi := { x.abi with wlist := wl } }) B3 := by
    refine rel_gather g3 hB3 fun i hi l l' e e' => ?_
    obtain ⟨x, wl, hx, rfl⟩ := pu i l' e'
    rw [e] at hx
    cases hx
    exact ⟨wl, rfl⟩
  have hafter' : B3.Rel (LTree.After fx) ((TW.abiInit 0).abiBack fx).1 :=
    LTree.Rel.trans (R := fun (y x : Link K) => ∃ wl, y = { x with abi := { x.abi with wlist := wl } })
      (fun a b d h1 h2 => by obtain ⟨wl, rfl⟩ := h1; exact h2) r3.flip hafter
  obtain ⟨ls4, e4, g4, n4, -⟩ := abiForwardAt_refines fx false c2.shape 0 ls3' B3 hc2.nodup hB3
  obtain ⟨ls5, e5, g5, n5⟩ := (h.withForces (forcesTwo a b)).abiUpdate fx false
    (by rw [jointSize_withForces]; exact hs) hTW
  have res : (B3.abiFwd fx false 0).Rel (LTree.Agree false) (((TW.abiInit 0).abiBack fx).1.abiFwd fx false 0) :=
    hafter'.down (fun _ _ _ h => h.step false _) (fun x y h => by simp only [h.2.1]) 0
  refine ⟨{ c2 with link := ls4 }, _, ?_, e5, by rw [n4, n3', n3, hlen2, hn], n5.trans withForces_size,
    fun i hi => ?_⟩
  · simp only [Chain.abiUpdateAddExTwo, hs2, if_false]
    rw [p1]
    simp only [Option.bind_eq_bind, Option.bind_some, p2, e3]
    rw [← hls3', e4]
    rfl
  · have g4' : gather ls4 c.shape = _ := hsh ▸ g4
    exact gather_rel g4' g5 res i (h.mem.2 hi)

end Chain
end Roki
