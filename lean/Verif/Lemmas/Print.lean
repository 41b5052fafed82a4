import Verif.Spec.Print
import Verif.Lemmas.Jacobi
import Verif.Lemmas.FK
set_option autoImplicit false

/-! # Printing a chain: lemmas -/

namespace Roki.Print
open Spec
variable {K α : Type*}

/-- The lines of the connection: indentation and element. -/
def rows : LTree α → ℕ → List (ℕ × α)
  | .nil, _ => []
  | .node i c s, n => (n, i) :: (rows c (n + 2) ++ rows s n)

theorem rows_snd (t : LTree α) (n : ℕ) : (rows t n).map Prod.snd = t.toList := by
  induction t generalizing n with
  | nil => rfl
  | node i c s ihc ihs => simp [rows, LTree.toList, ihc, ihs]

theorem rows_ge (t : LTree α) (n : ℕ) : ∀ r ∈ rows t n, n ≤ r.1 := by
  induction t generalizing n with
  | nil => simp [rows]
  | node i c s ihc ihs =>
    intro r hr
    simp only [rows, List.mem_cons, List.mem_append] at hr
    rcases hr with rfl | hr | hr
    · exact le_refl _
    · exact le_trans (by omega) (ihc _ r hr)
    · exact ihs _ r hr

theorem connAt_eq (ls : List (Link K)) (t : LTree ℕ) (n : ℕ) (h : ∀ i ∈ t.toList, i < ls.length) :
    connAt ls t n = some ((rows t n).flatMap fun r => (ls[r.2]?.map fun l => connLine r.1 l).getD []) := by
  induction t generalizing n with
  | nil => rfl
  | node i c s ihc ihs =>
    simp only [LTree.toList, List.mem_cons, List.mem_append] at h
    obtain ⟨l, hl⟩ : ∃ l, ls[i]? = some l := ⟨_, List.getElem?_eq_getElem (h i (Or.inl rfl))⟩
    simp only [connAt, hl, Option.bind_some, ihc _ fun i hi => h i (Or.inr (Or.inl hi)), ihs _ fun i hi => h i (Or.inr (Or.inr hi)),
      Option.map_some, rows, List.flatMap_cons, List.flatMap_append, Option.getD_some]

theorem find_skip {pre : List (ℕ × α)} {n : ℕ} {rs : List (ℕ × α)} (h : ∀ r ∈ rs, n ≤ r.1) :
    ((rs ++ pre).find? fun q => decide (q.1 < n)) = pre.find? fun q => decide (q.1 < n) := by
  rw [List.find?_append, List.find?_eq_none.2 (by intro x hx; simpa using h x hx)]
  rfl

/-- The line to which a line belongs, when the tree is printed after the lines `pre`. -/
theorem owner_rows (t : LTree α) (n : ℕ) (pre above post : List (ℕ × α)) (r : ℕ × α) (e : rows t n = above ++ r :: post) :
    (owner (pre ++ above) r = owner pre (n, r.2) ∧ IsPath t [r.2]) ∨ ∃ p, owner (pre ++ above) r = some p ∧ IsParent t p r.2 := by
  induction t generalizing n pre above post with
  | nil => simp [rows] at e
  | node i c s ihc ihs =>
    rcases above with _ | ⟨a, above⟩
    · simp only [rows, List.nil_append, List.cons.injEq] at e
      obtain ⟨rfl, -⟩ := e
      exact Or.inl ⟨by simp, .here _ _ _⟩
    · simp only [rows, List.cons_append, List.cons.injEq] at e
      obtain ⟨rfl, e⟩ := e
      rcases List.append_eq_append_iff.1 e with ⟨as, h1, h2⟩ | ⟨cs, h1, h2⟩
      · refine (ihs n (pre ++ (n, i) :: rows c (n + 2)) as post h2).elim (fun h => Or.inl ?_) (fun h => Or.inr ?_)
        · rw [h1, show pre ++ (n, i) :: (rows c (n + 2) ++ as) = pre ++ (n, i) :: rows c (n + 2) ++ as by simp, h.1]
          refine ⟨?_, .sibl h.2⟩
          simp only [owner, List.reverse_append, List.reverse_cons]
          rw [find_skip (n := n)]
          intro r hr
          simp only [List.mem_append, List.mem_reverse, List.mem_cons, List.not_mem_nil, or_false] at hr
          rcases hr with hr | rfl
          · exact le_trans (by omega) (rows_ge _ _ r hr)
          · exact le_refl _
        · obtain ⟨p, h3, path, h4⟩ := h
          exact ⟨p, by rw [h1, show pre ++ (n, i) :: (rows c (n + 2) ++ as) = pre ++ (n, i) :: rows c (n + 2) ++ as by simp, h3],
            path, .sibl h4⟩
      · rcases cs with _ | ⟨b, cs⟩
        · simp only [List.append_nil, List.nil_append] at h1 h2
          refine (ihs n (pre ++ (n, i) :: rows c (n + 2)) [] post (by simpa using h2.symm)).elim (fun h => Or.inl ?_) (fun h => Or.inr ?_)
          · rw [List.append_nil] at h
            rw [← h1, h.1]
            refine ⟨?_, .sibl h.2⟩
            simp only [owner, List.reverse_append, List.reverse_cons]
            rw [find_skip (n := n)]
            intro r hr
            simp only [List.mem_append, List.mem_reverse, List.mem_cons, List.not_mem_nil, or_false] at hr
            rcases hr with hr | rfl
            · exact le_trans (by omega) (rows_ge _ _ r hr)
            · exact le_refl _
          · obtain ⟨p, h3, path, h4⟩ := h
            rw [List.append_nil] at h3
            exact ⟨p, by rw [← h1, h3], path, .sibl h4⟩
        · simp only [List.cons_append, List.cons.injEq] at h2
          obtain ⟨rfl, -⟩ := h2
          refine Or.inr ?_
          refine (ihc (n + 2) (pre ++ [(n, i)]) above cs h1).elim (fun h => ?_) (fun h => ?_)
          · refine ⟨i, ?_, [], .child h.2⟩
            rw [show pre ++ (n, i) :: above = pre ++ [(n, i)] ++ above by simp, h.1]
            simp [owner]
          · obtain ⟨p, h3, path, h4⟩ := h
            exact ⟨p, by rw [show pre ++ (n, i) :: above = pre ++ [(n, i)] ++ above by simp, h3], i :: path, .child h4⟩

/-! ## Reading the text -/

theorem dec_mem (z : ℤ) : ∀ x ∈ dec z, x = '-' ∨ x.isDigit := by
  intro x hx
  cases z with
  | ofNat n => exact Or.inr (Nat.isDigit_of_mem_toDigits (by omega) (by omega) hx)
  | negSucc n =>
    simp only [dec, List.mem_cons] at hx
    exact hx.imp id fun h => Nat.isDigit_of_mem_toDigits (by omega) (by omega) h

theorem toDigits_inj {m n : ℕ} (h : Nat.toDigits 10 m = Nat.toDigits 10 n) : m = n := by
  have := congrArg (fun l => Nat.ofDigitChars 10 l 0) h
  simpa using this

theorem dec_inj {a b : ℤ} (h : dec a = dec b) : a = b := by
  have key : ∀ m n : ℕ, Nat.toDigits 10 m ≠ '-' :: Nat.toDigits 10 n := by
    intro m n e
    have : '-' ∈ Nat.toDigits 10 m := by rw [e]; simp
    exact absurd (Nat.isDigit_of_mem_toDigits (by omega) (by omega) this) (by decide)
  cases a with
  | ofNat m => cases b with
    | ofNat n => rw [toDigits_inj h]
    | negSucc n => exact absurd h (key _ _)
  | negSucc m => cases b with
    | ofNat n => exact absurd h.symm (key _ _)
    | negSucc n =>
      have := toDigits_inj (List.cons.inj h).2
      have : m = n := by omega
      rw [this]

/-- Two texts that are equal up to the first occurrence of a character. -/
theorem split_at {x : Char} {a b r s : List Char} (ha : x ∉ a) (hb : x ∉ b) (h : a ++ x :: r = b ++ x :: s) : a = b ∧ r = s := by
  induction a generalizing b with
  | nil =>
    rcases b with _ | ⟨y, b⟩
    · simpa using h
    · simp only [List.nil_append, List.cons_append, List.cons.injEq] at h
      exact absurd (by rw [← h.1]; simp) hb
  | cons y a ih =>
    rcases b with _ | ⟨z, b⟩
    · simp only [List.nil_append, List.cons_append, List.cons.injEq] at h
      exact absurd (by rw [h.1]; simp) ha
    · simp only [List.cons_append, List.cons.injEq, List.mem_cons, not_or] at h ha hb
      obtain ⟨h1, h2⟩ := ih ha.2 hb.2 h.2
      exact ⟨by rw [h.1, h1], h2⟩

/-- The same from the end. -/
theorem split_last {x : Char} {a b r s : List Char} (ha : x ∉ a) (hb : x ∉ b) (h : r ++ x :: a = s ++ x :: b) : a = b ∧ r = s := by
  have := congrArg List.reverse h
  simp only [List.reverse_append, List.reverse_cons, List.append_assoc, List.singleton_append] at this
  obtain ⟨h1, h2⟩ := split_at (by simpa using ha) (by simpa using hb) this
  exact ⟨List.reverse_injective h1, List.reverse_injective h2⟩

theorem typeStr_mem (p : Prp K) : ∀ x ∈ p.typeStr.toList, x ≠ '(' ∧ x ≠ '\n' := by
  cases p <;> simp only [Prp.typeStr] <;> decide

/-- A line without its end, and without the indentation. -/
def body (l : Link K) : List Char := l.name.toList ++ ' ' :: '(' :: (l.joint.prp.typeStr.toList ++ ':' :: (dec l.offset ++ [')']))

theorem connLine_eq (n : ℕ) (l : Link K) : connLine n l = List.replicate n ' ' ++ '|' :: ('-' :: body l ++ ['\n']) := by
  simp [connLine, body]

theorem dec_not_mem (z : ℤ) (x : Char) (h1 : x ≠ '-') (h2 : x.isDigit = false) : x ∉ dec z := by
  intro h3
  rcases dec_mem z x h3 with h | h
  · exact h1 h
  · rw [h] at h2; exact absurd h2 (by simp)

theorem colon_not_mem (z : ℤ) : ':' ∉ dec z ++ [')'] := by
  intro hx
  rcases List.mem_append.1 hx with hx | hx
  · exact dec_not_mem _ ':' (by decide) (by decide) hx
  · exact absurd hx (by decide)

theorem paren_not_mem (l : Link K) : '(' ∉ l.joint.prp.typeStr.toList ++ ':' :: (dec l.offset ++ [')']) := by
  intro hx
  rcases List.mem_append.1 hx with hx | hx
  · exact (typeStr_mem _ _ hx).1 rfl
  · rcases List.mem_cons.1 hx with hx | hx
    · exact absurd hx (by decide)
    · rcases List.mem_append.1 hx with hx | hx
      · exact dec_not_mem _ '(' (by decide) (by decide) hx
      · exact absurd hx (by decide)

theorem body_inj {l m : Link K} (h : body l = body m) : label l = label m := by
  have e : ∀ l : Link K, body l = (l.name.toList ++ [' ']) ++ '(' :: (l.joint.prp.typeStr.toList ++ ':' :: (dec l.offset ++ [')'])) := by
    intro l; rw [body, List.append_assoc, List.singleton_append]
  rw [e, e] at h
  obtain ⟨h1, h2⟩ := split_last (paren_not_mem l) (paren_not_mem m) h
  obtain ⟨h3, h4⟩ := split_last (colon_not_mem l.offset) (colon_not_mem m.offset) h1
  have h5 : dec l.offset = dec m.offset := List.append_cancel_right h3
  have h6 : l.name.toList = m.name.toList := List.append_cancel_right h2
  rw [label, label, String.toList_inj.1 h6, String.toList_inj.1 h4, dec_inj h5]

theorem body_newline {l : Link K} (h : '\n' ∉ l.name.toList) : '\n' ∉ body l := by
  intro hx
  rcases List.mem_append.1 hx with hx | hx
  · exact h hx
  · rcases List.mem_cons.1 hx with hx | hx
    · exact absurd hx (by decide)
    · rcases List.mem_cons.1 hx with hx | hx
      · exact absurd hx (by decide)
      · rcases List.mem_append.1 hx with hx | hx
        · exact (typeStr_mem _ _ hx).2 rfl
        · rcases List.mem_cons.1 hx with hx | hx
          · exact absurd hx (by decide)
          · rcases List.mem_append.1 hx with hx | hx
            · exact dec_not_mem _ '\n' (by decide) (by decide) hx
            · exact absurd hx (by decide)

/-- A line is read back, together with what follows it. -/
theorem connLine_inj {a b : ℕ} {l m : Link K} {r s : List Char} (hl : '\n' ∉ l.name.toList) (hm : '\n' ∉ m.name.toList)
    (h : connLine a l ++ r = connLine b m ++ s) : a = b ∧ label l = label m ∧ r = s := by
  have e : ∀ (n : ℕ) (l : Link K) (r : List Char), connLine n l ++ r = List.replicate n ' ' ++ '|' :: ('-' :: body l ++ '\n' :: r) := by
    intro n l r; rw [connLine_eq]; simp
  rw [e, e] at h
  have bar : ∀ n : ℕ, '|' ∉ List.replicate n ' ' := fun n hx => absurd (List.eq_of_mem_replicate hx) (by decide)
  obtain ⟨h1, h2⟩ := split_at (bar a) (bar b) h
  have nl : ∀ {l : Link K}, '\n' ∉ l.name.toList → '\n' ∉ '-' :: body l := by
    intro l hl hx
    rcases List.mem_cons.1 hx with hx | hx
    · exact absurd hx (by decide)
    · exact body_newline hl hx
  obtain ⟨h3, h4⟩ := split_at (nl hl) (nl hm) h2
  exact ⟨by simpa using congrArg List.length h1, body_inj (List.cons.inj h3).2, h4⟩

/-- The text is read back as rows. -/
theorem rowsText_inj (ls ms : List (Link K)) (hl : ∀ l ∈ ls, '\n' ∉ l.name.toList) (hm : ∀ l ∈ ms, '\n' ∉ l.name.toList)
    (R S : List (ℕ × ℕ)) (hR : ∀ r ∈ R, r.2 < ls.length) (hS : ∀ r ∈ S, r.2 < ms.length)
    (h : (R.flatMap fun r => (ls[r.2]?.map fun l => connLine r.1 l).getD []) =
      S.flatMap fun r => (ms[r.2]?.map fun l => connLine r.1 l).getD []) :
    R.map (fun r => (r.1, ls[r.2]?.map label)) = S.map fun r => (r.1, ms[r.2]?.map label) := by
  have ne : ∀ (n : ℕ) (l : Link K) (r : List Char), connLine n l ++ r ≠ [] := by
    intro n l r e
    have := congrArg List.length e
    rw [connLine_eq] at this
    simp at this
  induction R generalizing S with
  | nil =>
    rcases S with _ | ⟨s, S⟩
    · rfl
    · rw [List.flatMap_nil, List.flatMap_cons, List.getElem?_eq_getElem (hS s (by simp))] at h
      exact absurd h.symm (ne _ _ _)
  | cons r R ih =>
    rcases S with _ | ⟨s, S⟩
    · rw [List.flatMap_nil, List.flatMap_cons, List.getElem?_eq_getElem (hR r (by simp))] at h
      exact absurd h (ne _ _ _)
    · rw [List.flatMap_cons, List.flatMap_cons, List.getElem?_eq_getElem (hR r (by simp)), List.getElem?_eq_getElem (hS s (by simp))] at h
      obtain ⟨h1, h2, h3⟩ := connLine_inj (hl _ (List.getElem_mem _)) (hm _ (List.getElem_mem _)) h
      rw [List.map_cons, List.map_cons, ih S (fun r h => hR r (by simp [h])) (fun r h => hS r (by simp [h])) h3,
        List.getElem?_eq_getElem (hR r (by simp)), List.getElem?_eq_getElem (hS s (by simp)), h1, Option.map_some, Option.map_some, h2]

theorem rows_map {β : Type*} (f : α → β) (t : LTree α) (n : ℕ) : rows (t.map f) n = (rows t n).map fun r => (r.1, f r.2) := by
  induction t generalizing n with
  | nil => rfl
  | node i c s ihc ihs => simp [rows, LTree.map, ihc, ihs]

/-- A tree is read back from its rows. -/
theorem rows_inj (s t : LTree α) (n : ℕ) (r r' : List (ℕ × α)) (hr : ∀ x ∈ r.head?, x.1 < n) (hr' : ∀ x ∈ r'.head?, x.1 < n)
    (h : rows s n ++ r = rows t n ++ r') : s = t ∧ r = r' := by
  induction s generalizing t n r r' with
  | nil =>
    cases t with
    | nil => exact ⟨rfl, by simpa [rows] using h⟩
    | node j c s =>
      simp only [rows, List.nil_append] at h
      rw [h] at hr
      exact absurd (hr (n, j) (by simp)) (by simp)
  | node i c s ihc ihs =>
    cases t with
    | nil =>
      simp only [rows, List.nil_append] at h
      rw [← h] at hr'
      exact absurd (hr' (n, i) (by simp)) (by simp)
    | node j d u =>
      simp only [rows, List.cons_append, List.append_assoc, List.cons.injEq, Prod.mk.injEq, true_and] at h
      have hh : ∀ (v : LTree α) (q : List (ℕ × α)), (∀ x ∈ q.head?, x.1 < n) → ∀ x ∈ (rows v n ++ q).head?, x.1 < n + 2 := by
        intro v q hq x hx
        cases v with
        | nil => exact lt_trans (hq x (by simpa [rows] using hx)) (by omega)
        | node k a b =>
          simp only [rows, List.cons_append, List.head?_cons, Option.mem_def, Option.some.injEq] at hx
          rw [← hx]; simp
      obtain ⟨h1, h2⟩ := ihc d (n + 2) _ _ (hh s r hr) (hh u r' hr') h.2
      obtain ⟨h3, h4⟩ := ihs u n r r' hr hr' h2
      exact ⟨by rw [h.1, h1, h3], h4⟩

end Roki.Print
