import Verif.Lemmas.ABIAddEx
set_option autoImplicit false

/-! # What the passes of forward dynamics leave alone -/

namespace Roki
variable {K : Type*} [Field K] {β : Type*}

theorem set_map_eq {α β : Type*} {ls : List α} {i : ℕ} {l l' : α} (π : α → β) (h : ls[i]? = some l)
    (hp : π l' = π l) : (ls.set i l').map π = ls.map π := by
  apply List.ext_getElem?
  intro j
  rw [List.getElem?_map, List.getElem?_map, List.getElem?_set]
  split_ifs with h1 h2
  · subst h1; simp [h, hp]
  · subst h1
    rw [List.getElem?_eq_none (by omega)] at h; simp at h
  · rfl

theorem modify_map_eq {α β : Type*} {ls : List α} {i : ℕ} {f : α → α} (π : α → β)
    (hp : ∀ l, π (f l) = π l) : (ls.modify i f).map π = ls.map π := by
  apply List.ext_getElem?
  intro j
  rw [List.getElem?_map, List.getElem?_map, List.getElem?_modify]
  split_ifs <;> cases ls[j]? <;> simp [hp]

namespace Chain
variable (π : Link K → β)

theorem modifyParent_keep {f : Link K → Link K} (hf : ∀ l, π (f l) = π l) {par : Option ℕ}
    {ls ls' : List (Link K)} (h : modifyParent f par ls = some ls') : ls'.map π = ls.map π := by
  cases par with
  | none => cases h; rfl
  | some p =>
    simp only [modifyParent] at h
    split at h
    · simp at h
    · rename_i pl hpl
      cases h
      exact set_map_eq π hpl (hf _)

theorem abiInitAt_keep (hf : ∀ v l, π (l.abiUpdateInit v) = π l) {t : LTree ℕ}
    {ls ls' : List (Link K)} (h : abiInitAt t ls = some ls') : ls'.map π = ls.map π := by
  have step : ∀ (a b : List (Link K)) i, abiInitStep t a i = some b → b.map π = a.map π := by
    intro a b i h
    simp only [abiInitStep] at h
    split at h
    · rename_i l _ hl
      cases h; exact set_map_eq π hl (hf _ _)
    · rename_i p l _ hl
      split at h
      · cases h; exact set_map_eq π hl (hf _ _)
      · simp at h
    · simp at h
  have loop : ∀ (L : List ℕ) (a b : List (Link K)), L.foldlM (abiInitStep t) a = some b →
      b.map π = a.map π := by
    intro L
    induction L with
    | nil => intro a b h; cases h; rfl
    | cons i L ih =>
      intro a b h
      rw [List.foldlM_cons, Option.bind_eq_bind, Option.bind_eq_some_iff] at h
      obtain ⟨a', h1, h2⟩ := h
      rw [ih _ _ h2, step _ _ _ h1]
  exact loop _ _ _ h

theorem abiBackwardAt_keep [Zm K] {fx : Bool} (h1 : ∀ l, π (l.abiBackward fx) = π l)
    (h2 : ∀ l d, π (l.abiAdd d) = π l) {t : LTree ℕ} :
    ∀ {par : Option ℕ} {ls ls' : List (Link K)}, abiBackwardAt fx par t ls = some ls' →
      ls'.map π = ls.map π := by
  induction t with
  | nil => intro par ls ls' h; cases h; rfl
  | node i c s ihc ihs =>
    intro par ls ls' h
    simp only [abiBackwardAt, Option.bind_eq_bind, Option.bind_eq_some_iff] at h
    obtain ⟨ls1, e1, ls2, e2, l, e3, e4⟩ := h
    rw [modifyParent_keep π (fun l => h2 l _) e4, set_map_eq π e3 (h1 _), ihc e2, ihs e1]

theorem abiForwardAt_keep {fx wr : Bool} (h1 : ∀ l pa, π (LTree.abiStep fx wr pa l) = π l) {t : LTree ℕ} :
    ∀ {pa : Vec6 K} {ls ls' : List (Link K)}, abiForwardAt fx wr t pa ls = some ls' →
      ls'.map π = ls.map π := by
  induction t with
  | nil => intro pa ls ls' h; cases h; rfl
  | node i c s ihc ihs =>
    intro pa ls ls' h
    simp only [abiForwardAt, Option.bind_eq_bind, Option.bind_eq_some_iff] at h
    obtain ⟨l, e1, ls1, e2, l', e3, e4⟩ := h
    rw [ihc e4, ihs e2]
    exact set_map_eq π e1 (h1 l pa)

theorem abiFindPathAt_keep (h1 : ∀ l, π (l.abiSetPath true) = π l) {t : LTree ℕ} :
    ∀ {par : Option ℕ} {ls ls' : List (Link K)}, abiFindPathAt par t ls = some ls' →
      ls'.map π = ls.map π := by
  induction t with
  | nil => intro par ls ls' h; cases h; rfl
  | node i c s ihc ihs =>
    intro par ls ls' h
    simp only [abiFindPathAt, Option.bind_eq_bind, Option.bind_eq_some_iff] at h
    obtain ⟨ls1, e1, ls2, e2, l, e3, e4⟩ := h
    rw [← ihc e1, ← ihs e2]
    split_ifs at e4
    · exact modifyParent_keep π h1 e4
    · cases e4; rfl

theorem abiAddExAt_keep {fx : Bool} (h1 : ∀ l, π l.abiSubNet = π l) (h2 : ∀ l, π l.abiResetB = π l)
    (h3 : ∀ l d, π (l.abiAdd d) = π l) {t : LTree ℕ} :
    ∀ {par : Option ℕ} {ls ls' : List (Link K)}, abiAddExAt fx par t ls = some ls' →
      ls'.map π = ls.map π := by
  induction t with
  | nil => intro par ls ls' h; cases h; rfl
  | node i c s ihc ihs =>
    intro par ls ls' h
    rw [abiAddExAt] at h
    simp only [Option.bind_eq_bind] at h
    rw [Option.bind_eq_some_iff] at h
    obtain ⟨l, e1, h⟩ := h
    split_ifs at h
    · simp only [Option.bind_eq_some_iff] at h
      obtain ⟨ls1, e2, l', e3, ls2, e4, e5⟩ := h
      rw [ihs e5, modifyParent_keep π (fun l => h3 l _) e4, ihc e2]
      exact set_map_eq π e1 (by rw [h1, h2])
    · simp only [Option.bind_some, Option.bind_eq_some_iff] at h
      obtain ⟨l', e3, ls2, e4, e5⟩ := h
      rw [ihs e5, modifyParent_keep π (fun l => h3 l _) e4]
      exact set_map_eq π e1 (h1 _)

end Chain

/-! ## The saved values -/

namespace Link

/-- The saved bias and acceleration. -/
def saved (l : Link K) : Vec6 K × Vec6 K := (l.abi.b0, l.abi.a0)

theorem abiStep_abi (fx wr : Bool) (pa : Vec6 K) (l : Link K) : (LTree.abiStep fx wr pa l).abi = l.abi := by
  rw [LTree.abiStep]; split_ifs <;> rfl

theorem abiSubNet_saved (l : Link K) : l.abiSubNet.saved = l.saved := by
  rw [abiSubNet]; split_ifs <;> rfl

theorem abiSubNet_wlist (l : Link K) : l.abiSubNet.abi.wlist = l.abi.wlist := by
  rw [abiSubNet]; split_ifs <;> rfl

end Link

namespace Chain

theorem abiUpdate_keep [Zm K] (π : Link K → β) {fx wr : Bool} {c c' : Chain K}
    (hz : ∀ l : Link K, π { l with body := l.body.zeroRate } = π l)
    (hi : ∀ v l, π (l.abiUpdateInit v) = π l) (h1 : ∀ l, π (l.abiBackward fx) = π l)
    (h2 : ∀ l d, π (l.abiAdd d) = π l) (h3 : ∀ l pa, π (LTree.abiStep fx wr pa l) = π l)
    (h : c.abiUpdate fx wr = some c') : c'.link.map π = c.link.map π ∧ c'.shape = c.shape := by
  simp only [Chain.abiUpdate] at h
  split_ifs at h
  · cases h; simp [abiZeroLinkRate, hz]
  · simp only [Option.bind_eq_bind, Option.bind_eq_some_iff, Option.pure_def, Option.some.injEq] at h
    obtain ⟨ls1, e1, ls2, e2, ls3, e3, rfl⟩ := h
    refine ⟨?_, rfl⟩
    show ls3.map π = _
    rw [abiForwardAt_keep π h3 e3, abiBackwardAt_keep π h1 h2 e2, abiInitAt_keep π hi e1]

theorem abiUpdateAddEx_keep (π : Link K → β) {fx wr : Bool} {c c' : Chain K}
    (hz : ∀ l : Link K, π { l with body := l.body.zeroRate } = π l)
    (hp : ∀ l b, π (l.abiSetPath b) = π l) (h0 : ∀ l, π l.abiSubNet = π l) (h1 : ∀ l, π l.abiResetB = π l)
    (h2 : ∀ l d, π (l.abiAdd d) = π l) (h3 : ∀ l pa, π (LTree.abiStep fx wr pa l) = π l)
    (h : c.abiUpdateAddEx fx wr = some c') : c'.link.map π = c.link.map π ∧ c'.shape = c.shape := by
  simp only [Chain.abiUpdateAddEx] at h
  split_ifs at h
  · cases h; simp [abiZeroLinkRate, hz]
  · simp only [abiBackwardAddEx, Option.bind_eq_bind, Option.bind_eq_some_iff, Option.pure_def,
      Option.some.injEq] at h
    obtain ⟨ls1, ⟨ls0, e0, e1⟩, ls3, e3, rfl⟩ := h
    refine ⟨?_, rfl⟩
    show ls3.map π = _
    rw [abiForwardAt_keep π h3 e3, abiAddExAt_keep π h0 h1 h2 e1, abiFindPathAt_keep π (fun l => hp l _) e0]
    simp [hp]

/-- The lists with the wrenches of the call pushed. -/
def pushed (w : Option (ℕ × Wrench K)) (ws : List (WrenchList K)) : List (WrenchList K) :=
  match w with
  | none => ws
  | some (i, w) => ws.modify i fun l => l.push w

theorem foldl_modify_keep (π : Link K → β) (hp : ∀ l b, π (l.abiSetPath b) = π l) (p : List ℕ)
    (ls : List (Link K)) :
    (p.foldl (fun ls j => ls.modify j fun l => l.abiSetPath true) ls).map π = ls.map π := by
  induction p generalizing ls with
  | nil => rfl
  | cons j p ih => rw [List.foldl_cons, ih, modify_map_eq π fun l => hp l _]

theorem abiPushOne_keep (π : Link K → β) (hp : ∀ l b, π (l.abiSetPath b) = π l)
    (hw : ∀ (l : Link K) w, π { l with abi := { l.abi with wlist := w } } = π l)
    {t : LTree ℕ} {ls ls' : List (Link K)} {a : Option (ℕ × Wrench K)}
    (h : abiPushOne t ls a = some ls') : ls'.map π = ls.map π := by
  rcases a with _ | ⟨i, w⟩
  · cases h; rfl
  · simp only [abiPushOne] at h
    split at h
    · simp at h
    · split at h
      · simp at h
      · rename_i l hl
        cases h
        rw [set_map_eq π hl (hw _ _), foldl_modify_keep π hp]

theorem abiPushOne_wlist {t : LTree ℕ} {ls ls' : List (Link K)} {a : Option (ℕ × Wrench K)}
    (h : abiPushOne t ls a = some ls') :
    ls'.map (fun l => l.abi.wlist) = pushed a (ls.map fun l => l.abi.wlist) := by
  rcases a with _ | ⟨i, w⟩
  · cases h; rfl
  · simp only [abiPushOne] at h
    cases hp : t.pathUp i with
    | none => simp [hp] at h
    | some p =>
      simp only [hp] at h
      split at h
      · simp at h
      · rename_i l hl
        cases h
        have hk := foldl_modify_keep (fun l : Link K => l.abi.wlist) (fun _ _ => rfl) p.tail ls
        simp only [pushed]
        rw [← hk]
        apply List.ext_getElem?
        intro j
        rw [List.getElem?_map, List.getElem?_set, List.getElem?_modify, List.getElem?_map]
        split_ifs with h1 h2
        · subst h1; rw [hl]; rfl
        · subst h1; rw [List.getElem?_eq_none (by omega)] at hl; simp at hl
        · simp

theorem abiPurge_wlist (ls : List (Link K)) (i k : ℕ) :
    (abiPurge ls i k).map (fun l => l.abi.wlist) =
      (ls.map fun l => l.abi.wlist).modify i fun l => l.eraseIdx k := by
  apply List.ext_getElem?
  intro j
  simp only [abiPurge, List.getElem?_map, List.getElem?_modify]
  split_ifs <;> cases ls[j]? <;> simp

theorem abiPurgeTwo_pushed {ls : List (Link K)} {a b : Option (ℕ × Wrench K)} {ws : List (WrenchList K)}
    (h : ls.map (fun l => l.abi.wlist) = pushed b (pushed a ws)) :
    (abiPurgeTwo ls a b).map (fun l => l.abi.wlist) = ws := by
  have e1 : ∀ (ws : List (WrenchList K)) (i : ℕ) (w : Wrench K),
      (ws.modify i fun l => l.push w).modify i (fun l => l.eraseIdx 0) = ws := by
    intro ws i w
    apply List.ext_getElem?; intro k
    simp only [List.getElem?_modify]
    cases ws[k]? with
    | none => simp
    | some l => by_cases h : i = k <;> simp [WrenchList.push, h]
  rcases a with _ | ⟨i, w⟩ <;> rcases b with _ | ⟨j, v⟩
  · exact h
  · simp only [abiPurgeTwo, abiPurge_wlist, h, pushed, e1]
  · simp only [abiPurgeTwo, abiPurge_wlist, h, pushed, e1]
  · simp only [abiPurgeTwo, abiPurge_wlist, h, pushed]
    apply List.ext_getElem?; intro k
    simp only [List.getElem?_modify]
    by_cases hij : i = j
    · subst hij
      cases ws[k]? <;> simp [WrenchList.push]
      split_ifs <;> rfl
    · by_cases hi : i = k <;> by_cases hj : j = k <;> cases ws[k]? <;> simp_all [WrenchList.push]

theorem abiPurgeTwo_keep (π : Link K → β)
    (hw : ∀ (l : Link K) w, π { l with abi := { l.abi with wlist := w } } = π l) (ls : List (Link K))
    (a b : Option (ℕ × Wrench K)) : (abiPurgeTwo ls a b).map π = ls.map π := by
  rcases a with _ | ⟨i, w⟩ <;> rcases b with _ | ⟨j, v⟩ <;>
    simp only [abiPurgeTwo, abiPurge] <;> simp only [modify_map_eq π fun l => hw l _]

theorem abiUpdateAddExTwo_keep (π : Link K → β) {fx : Bool} {c c' : Chain K} {a b : Option (ℕ × Wrench K)}
    (hz : ∀ l : Link K, π { l with body := l.body.zeroRate } = π l)
    (hp : ∀ l b, π (l.abiSetPath b) = π l) (h0 : ∀ l, π l.abiSubNet = π l) (h1 : ∀ l, π l.abiResetB = π l)
    (h2 : ∀ l d, π (l.abiAdd d) = π l) (h3 : ∀ l pa, π (LTree.abiStep fx false pa l) = π l)
    (hw : ∀ (l : Link K) w, π { l with abi := { l.abi with wlist := w } } = π l)
    (h : c.abiUpdateAddExTwo fx a b = some c') : c'.link.map π = c.link.map π ∧ c'.shape = c.shape := by
  simp only [Chain.abiUpdateAddExTwo] at h
  split_ifs at h
  · cases h; simp [abiZeroLinkRate, hz]
  · simp only [Option.bind_eq_bind, Option.bind_eq_some_iff, Option.pure_def, Option.some.injEq] at h
    obtain ⟨ls1, e1, ls2, e2, ls3, e3, ls4, e4, rfl⟩ := h
    refine ⟨?_, rfl⟩
    show ls4.map π = _
    rw [abiForwardAt_keep π h3 e4, abiPurgeTwo_keep π hw, abiAddExAt_keep π h0 h1 h2 e3,
      abiPushOne_keep π hp hw e2, abiPushOne_keep π hp hw e1]
    simp [hp]

end Chain
end Roki
