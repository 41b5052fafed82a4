import Verif.Model.Contact
import Mathlib.Data.List.Basic
import Mathlib.Data.List.Induction
import Mathlib.Data.Rat.Lemmas
import Mathlib.Tactic.NormNum
set_option autoImplicit false

/-!
# Contact information (C49, C63)
-/

namespace Roki
variable {K : Type*} [Field K]

namespace Spec

/-- The entry is bound to the two keys, in either order. -/
def Binds (s t : String) (c : CI K) : Prop :=
  (c.k0 = some s ∧ c.k1 = some t) ∨ (c.k0 = some t ∧ c.k1 = some s)

/-- The entry has been given two keys. -/
def HasKeys (c : CI K) : Prop := c.k0 ≠ none ∧ c.k1 ≠ none

/-- `r` is the index of the first entry with the property, or nothing if there is none. -/
def First (a : List (CI K)) (P : CI K → Prop) : Option ℕ → Prop
  | some i => (∃ c, a[i]? = some c ∧ P c) ∧ ∀ j < i, ∀ c, a[j]? = some c → ¬P c
  | none => ∀ c ∈ a, ¬P c

/-- The pair of keys given by a line of a section. -/
def bindOf : CIKey K → Option (String × String)
  | .bind s t => some (s, t)
  | _ => none

/-- The two pairs consist of the same keys. -/
def SameKeys (p q : String × String) : Prop := p = q ∨ p = (q.2, q.1)

instance (p q : String × String) : Decidable (SameKeys p q) := inferInstanceAs (Decidable (_ ∨ _))

/-- The pairs that have occurred before, in `seen` or earlier in the list. -/
def dups (seen : List (String × String)) : List (String × String) → List (String × String)
  | [] => []
  | p :: ps => (if ∃ q ∈ seen, SameKeys p q then [p] else []) ++ dups (seen ++ [p]) ps

/-- The last of the values, or zero if there is none. -/
def lastOr (l : List K) : K := l.getLast?.getD 0

/-- The values of the two parameters, the type, and the friction coefficients a line gives. -/
def val0 : CIKey K → Option K | .k x => some x | .e x => some x | _ => none
@[inherit_doc val0] def val1 : CIKey K → Option K | .l x => some x | .v x => some x | _ => none
@[inherit_doc val0] def valSF : CIKey K → Option K | .sf x => some x | _ => none
@[inherit_doc val0] def valKF : CIKey K → Option K | .kf x => some x | _ => none
@[inherit_doc val0] def valType : CIKey K → Option CIType
  | .k _ => some .rigid | .l _ => some .rigid | .e _ => some .elastic | .v _ => some .elastic | _ => none

/-- The entry described by the lines of a section: the last line of each kind counts. -/
def entry (sec : List (CIKey K)) : CI K where
  k0 := (sec.filterMap bindOf).getLast?.map Prod.fst
  k1 := (sec.filterMap bindOf).getLast?.map Prod.snd
  type := (sec.filterMap valType).getLast?.getD .rigid
  p0 := lastOr (sec.filterMap val0)
  p1 := lastOr (sec.filterMap val1)
  sf := lastOr (sec.filterMap valSF)
  kf := lastOr (sec.filterMap valKF)

end Spec
open Spec CI

private theorem assoc_eq {c : CI K} (h : HasKeys c) (s t : String) :
    ∃ b : Bool, c.assoc s t = some b ∧ (b = true ↔ Binds s t c) := by
  obtain ⟨h0, h1⟩ := h
  obtain ⟨u, hu⟩ := Option.ne_none_iff_exists'.1 h0
  obtain ⟨v, hv⟩ := Option.ne_none_iff_exists'.1 h1
  simp only [CI.assoc, andThen, same, hu, hv, Option.map_some, Option.bind_some, Binds, Option.some.injEq]
  by_cases a1 : u = s <;> by_cases a2 : v = t <;> by_cases a3 : u = t <;> by_cases a4 : v = s <;>
    simp [a1, a2, a3, a4] <;> subst_vars <;> simp_all

private theorem first_cons {c : CI K} {cs : List (CI K)} {P : CI K → Prop} {r : Option ℕ} (hc : ¬P c)
    (h : First cs P r) : First (c :: cs) P (r.map (· + 1)) := by
  cases r with
  | none => simpa [First, hc] using h
  | some i =>
    obtain ⟨h1, h2⟩ := h
    refine ⟨by simpa using h1, fun j hj d hd => ?_⟩
    cases j with
    | zero => rw [List.getElem?_cons_zero, Option.some.injEq] at hd; rw [← hd]; exact hc
    | succ j => exact h2 j (by simpa using hj) d (by simpa using hd)

private theorem findAssoc_first {a : List (CI K)} (h : ∀ c ∈ a, HasKeys c) (s t : String) :
    ∃ r, First a (Binds s t) r ∧ ∀ i, findAssoc s t i a = some (r.map (· + i)) := by
  induction a with
  | nil => exact ⟨none, by simp [First], fun i => rfl⟩
  | cons c cs ih =>
    obtain ⟨b, e, hb⟩ := assoc_eq (h c (by simp)) s t
    cases b with
    | true =>
      refine ⟨some 0, ⟨⟨c, rfl, hb.1 rfl⟩, fun j hj => absurd hj (by omega)⟩, fun i => ?_⟩
      simp [findAssoc, e]
    | false =>
      obtain ⟨r, h1, h2⟩ := ih fun d hd => h d (by simp [hd])
      refine ⟨r.map (· + 1), first_cons (fun k => Bool.false_ne_true (hb.2 k)) h1, fun i => ?_⟩
      simp only [findAssoc, e, Option.bind_some, Bool.false_eq_true, if_false, h2, Option.map_map]
      cases r <;> simp; omega

/-- C49: `rkContactInfoArrayAssoc` gives the first entry bound to the two keys in either order, and nothing if there is
none or a key is null. -/
theorem C49_first (a : List (CI K)) (h : ∀ c ∈ a, HasKeys c) (s t : String) :
    (∃ r, arrayAssoc a (some s) (some t) = some r ∧ First a (Binds s t) r) ∧
    ∀ k, arrayAssoc a none k = some none ∧ arrayAssoc a k none = some none := by
  obtain ⟨r, h1, h2⟩ := findAssoc_first h s t
  refine ⟨⟨r, ?_, h1⟩, fun k => ⟨rfl, by cases k <;> rfl⟩⟩
  rw [arrayAssoc, h2]; cases r <;> simp

/-- C49: an entry made by `rkContactInfoRigidCreate` or `rkContactInfoElasticCreate` has two keys and the parameters it was
given, is bound to those keys in either order and to no others, and is of the kind it was made for. -/
theorem C49_create (x y sf kf : K) (s t : String) :
    (∀ c, c = CI.rigidCreate x y sf kf s t ∨ c = CI.elasticCreate x y sf kf s t →
      HasKeys c ∧ c.p0 = x ∧ c.p1 = y ∧ c.sf = sf ∧ c.kf = kf ∧
      ∀ u v, Binds u v c ↔ (u = s ∧ v = t) ∨ (u = t ∧ v = s)) ∧
    (CI.rigidCreate x y sf kf s t).type = .rigid ∧ (CI.elasticCreate x y sf kf s t).type = .elastic := by
  refine ⟨?_, rfl, rfl⟩
  rintro c (rfl | rfl) <;> refine ⟨⟨by simp [CI.rigidCreate, CI.elasticCreate], by simp [CI.rigidCreate, CI.elasticCreate]⟩, rfl, rfl, rfl, rfl, ?_⟩ <;>
    intro u v <;> simp only [Binds, CI.rigidCreate, CI.elasticCreate, Option.some.injEq] <;> tauto

/-- C49: the order of the two keys does not matter. -/
theorem C49_symm (a : List (CI K)) (h : ∀ c ∈ a, HasKeys c) (s t : Option String) :
    arrayAssoc a s t = arrayAssoc a t s := by
  cases s <;> cases t <;> try rfl
  rename_i s t
  simp only [arrayAssoc]
  generalize 0 = i
  induction a generalizing i with
  | nil => rfl
  | cons c cs ih =>
    obtain ⟨b, e, hb⟩ := assoc_eq (h c (by simp)) s t
    obtain ⟨b', e', hb'⟩ := assoc_eq (h c (by simp)) t s
    have : b = b' := by
      rw [Bool.eq_iff_iff, hb, hb', Binds, Binds]; exact or_comm
    subst this
    rw [findAssoc, findAssoc, e, e', ih fun d hd => h d (by simp [hd])]

/-- C49: `rkContactInfoArrayAssocType` gives the first entry of that type bound to the two keys in either order, and
nothing if there is none or a key is null. -/
theorem C49_type (a : List (CI K)) (h : ∀ c ∈ a, HasKeys c) (ty : CIType) (s t : String) :
    (∃ r, arrayAssocType a ty (some s) (some t) = some r ∧ First a (fun c => c.type = ty ∧ Binds s t c) r) ∧
    ∀ k, arrayAssocType a ty none k = some none ∧ arrayAssocType a ty k none = some none := by
  have : ∃ r, First a (fun c => c.type = ty ∧ Binds s t c) r ∧
      ∀ i, findAssocType s t ty i a = some (r.map (· + i)) := by
    induction a with
    | nil => exact ⟨none, by simp [First], fun i => rfl⟩
    | cons c cs ih =>
      obtain ⟨b, e, hb⟩ := assoc_eq (h c (by simp)) s t
      obtain ⟨r, h1, h2⟩ := ih fun d hd => h d (by simp [hd])
      by_cases hty : c.type = ty
      · cases b with
        | true =>
          refine ⟨some 0, ⟨⟨c, rfl, hty, hb.1 rfl⟩, fun j hj => absurd hj (by omega)⟩, fun i => ?_⟩
          simp [findAssocType, e, hty]
        | false =>
          refine ⟨r.map (· + 1), first_cons (fun k => Bool.false_ne_true (hb.2 k.2)) h1, fun i => ?_⟩
          simp only [findAssocType, hty, if_true, e, Option.bind_some, Bool.false_eq_true, if_false, h2, Option.map_map]
          cases r <;> simp; omega
      · refine ⟨r.map (· + 1), first_cons (fun k => hty k.1) h1, fun i => ?_⟩
        simp only [findAssocType, if_neg hty, Option.bind_some, Bool.false_eq_true, if_false, h2, Option.map_map]
        cases r <;> simp; omega
  obtain ⟨r, h1, h2⟩ := this
  refine ⟨⟨r, ?_, h1⟩, fun k => ⟨rfl, by cases k <;> rfl⟩⟩
  rw [arrayAssocType, h2]; cases r <;> simp

/-- Cases for C49: the first match is found, in either order of the keys; the typed lookup skips it. -/
example : arrayAssoc [rigidCreate (1 : ℚ) 2 3 4 "a" "b", elasticCreate 5 6 7 8 "b" "a"] (some "b") (some "a") =
      some (some 0) ∧
    arrayAssocType [rigidCreate (1 : ℚ) 2 3 4 "a" "b", elasticCreate 5 6 7 8 "b" "a"] .elastic (some "a") (some "b") =
      some (some 1) ∧
    ∀ c ∈ [rigidCreate (1 : ℚ) 2 3 4 "a" "b", elasticCreate 5 6 7 8 "b" "a"], HasKeys c := by
  refine ⟨by decide +kernel, by decide +kernel, ?_⟩
  simp [HasKeys, rigidCreate, elasticCreate]

/-! ### Reading and printing -/

private theorem lastOr_append (l : List K) (x : K) : lastOr (l ++ [x]) = x := by simp [lastOr]

private theorem foldl_entry (sec : List (CIKey K)) : sec.foldl (fun c k => k.apply c) init = entry sec := by
  induction sec using List.reverseRecOn with
  | nil => rfl
  | append_singleton l k ih =>
    rw [List.foldl_append, ih]
    cases k <;> simp [entry, CIKey.apply, List.filterMap_append, bindOf, val0, val1, valSF, valKF, valType, lastOr]

private theorem readSec_none {i : ℕ} {keys : List (CIKey K)} (h : keys.filterMap bindOf = []) (st : CIRead K) :
    readSec i keys st = some (st.1.modify i fun c => keys.foldl (fun c k => k.apply c) c, st.2) := by
  induction keys generalizing st with
  | nil =>
    have : (st.1.modify i fun c => c) = st.1 := List.modify_id i st.1
    simp [readSec, this]
  | cons k ks ih =>
    have hk : bindOf k = none := by
      cases e : bindOf k with
      | none => rfl
      | some x => simp [List.filterMap_cons, e] at h
    rw [List.filterMap_cons_none hk] at h
    have : readKey i st k = some (st.1.modify i k.apply, st.2) := by cases k <;> first | rfl | simp [bindOf] at hk
    rw [readSec, this, Option.bind_some, ih h, List.modify_modify_eq]
    rfl

private theorem readSec_append (i : ℕ) (l₁ l₂ : List (CIKey K)) (st : CIRead K) :
    readSec i (l₁ ++ l₂) st = (readSec i l₁ st).bind (readSec i l₂) := by
  induction l₁ generalizing st with
  | nil => rfl
  | cons k ks ih =>
    simp only [List.cons_append, readSec, Option.bind_assoc]
    cases readKey i st k with
    | none => rfl
    | some x => simp [ih]

private theorem findAssoc_append {a b : List (CI K)} (h : ∀ c ∈ a, HasKeys c) (s t : String) (i : ℕ) {c : CI K}
    (hc : Binds s t c) : ∃ r, findAssoc s t i (a ++ c :: b) = some (some r) ∧
      (r = i + a.length ↔ ∀ d ∈ a, ¬Binds s t d) := by
  have hk : HasKeys c := by rcases hc with ⟨h1, h2⟩ | ⟨h1, h2⟩ <;> simp [HasKeys, h1, h2]
  induction a generalizing i with
  | nil =>
    obtain ⟨x, e, hx⟩ := assoc_eq hk s t
    rw [hx.2 hc] at e
    exact ⟨i, by simp [findAssoc, e], by simp⟩
  | cons d ds ih =>
    obtain ⟨x, e, hx⟩ := assoc_eq (h d (by simp)) s t
    cases x with
    | true => exact ⟨i, by simp [findAssoc, e], by simpa using fun k => absurd (hx.1 rfl) k⟩
    | false =>
      obtain ⟨r, h1, h2⟩ := ih (fun d hd => h d (by simp [hd])) (i + 1)
      refine ⟨r, by simp [findAssoc, e, h1], ?_⟩
      have : ¬Binds s t d := fun k => Bool.false_ne_true (hx.2 k)
      simp only [List.mem_cons, forall_eq_or_imp, this, not_false_eq_true, true_and, ← h2, List.length_cons]
      omega

private theorem exists_split {sec : List (CIKey K)} {p : String × String} (h : sec.filterMap bindOf = [p]) :
    ∃ pre post, sec = pre ++ .bind p.1 p.2 :: post ∧ pre.filterMap bindOf = [] ∧ post.filterMap bindOf = [] := by
  induction sec with
  | nil => simp at h
  | cons k ks ih =>
    cases e : bindOf k with
    | none =>
      rw [List.filterMap_cons_none e] at h
      obtain ⟨pre, post, h1, h2, h3⟩ := ih h
      exact ⟨k :: pre, post, by simp [h1], by rw [List.filterMap_cons_none e, h2], h3⟩
    | some q =>
      rw [List.filterMap_cons_some e] at h
      obtain ⟨rfl, h2⟩ := List.cons.inj h
      refine ⟨[], ks, ?_, rfl, h2⟩
      cases k <;> simp [bindOf] at e
      subst e; rfl

private theorem modify_append {a b : List (CI K)} {c : CI K} (f : CI K → CI K) :
    (a ++ c :: b).modify a.length f = a ++ f c :: b := by
  induction a with
  | nil => rfl
  | cons d ds ih => simp [ih]

private theorem keys_apply {k : CIKey K} (h : bindOf k = none) (c : CI K) :
    (k.apply c).k0 = c.k0 ∧ (k.apply c).k1 = c.k1 := by cases k <;> simp [bindOf, CIKey.apply] at h ⊢

private theorem readSec_bind {done rest : List (CI K)} {w : List (String × String)} {sec : List (CIKey K)}
    {p : String × String} (h : sec.filterMap bindOf = [p]) (hd : ∀ c ∈ done, HasKeys c) :
    ∃ w', readSec done.length sec (done ++ init :: rest, w) = some (done ++ entry sec :: rest, w ++ w') ∧
      ((∀ c ∈ done, ¬Binds p.1 p.2 c) → w' = []) ∧ (¬(∀ c ∈ done, ¬Binds p.1 p.2 c) → w' = [p]) := by
  obtain ⟨pre, post, rfl, h1, h2⟩ := exists_split h
  rw [readSec_append, readSec_none h1, Option.bind_some, readSec, readKey]
  simp only [modify_append, arrayAssoc]
  obtain ⟨r, e, hr⟩ := findAssoc_append (b := rest) hd p.1 p.2 0
    (c := (CIKey.bind p.1 p.2).apply (pre.foldl (fun c k => k.apply c) init)) (.inl ⟨rfl, rfl⟩)
  rw [e, Option.map_some, Option.bind_some, readSec_none h2]
  simp only [modify_append]
  rw [Nat.zero_add] at hr
  have he : post.foldl (fun c k => k.apply c) ((CIKey.bind p.1 p.2).apply (pre.foldl (fun c k => k.apply c) init)) =
      entry (pre ++ CIKey.bind p.1 p.2 :: post) := by rw [← foldl_entry, List.foldl_append]; rfl
  rw [he]
  refine ⟨if some r = some done.length then [] else [p], ?_, fun k => ?_, fun k => ?_⟩
  · split_ifs <;> simp
  · rw [if_pos (by rw [hr.2 k])]
  · rw [if_neg (fun k' => k (hr.1 (Option.some.inj k')))]

private theorem entry_binds {sec : List (CIKey K)} {q : String × String} (h : sec.filterMap bindOf = [q])
    (p : String × String) : Binds p.1 p.2 (entry sec) ↔ SameKeys p q := by
  obtain ⟨s, t⟩ := p
  obtain ⟨u, v⟩ := q
  simp only [Binds, entry, h, SameKeys, List.getLast?_singleton, Option.map_some, Option.some.injEq, Prod.mk.injEq]
  constructor <;> rintro (⟨a, b⟩ | ⟨a, b⟩) <;> simp_all

private theorem readSecs_eq {secs : List (List (CIKey K))} {ps : List (String × String)}
    (h : secs.map (·.filterMap bindOf) = ps.map fun p => [p]) (done : List (List (CIKey K)))
    (qs : List (String × String)) (hd : done.map (·.filterMap bindOf) = qs.map fun p => [p])
    (w : List (String × String)) :
    readSecs done.length secs (done.map entry ++ List.replicate secs.length init, w) =
      some (done.map entry ++ secs.map entry, w ++ dups qs ps) := by
  induction secs generalizing ps done qs w with
  | nil =>
    cases ps with
    | nil => simp [readSecs, dups]
    | cons => simp at h
  | cons sec secs ih =>
    cases ps with
    | nil => simp at h
    | cons p ps =>
      simp only [List.map_cons, List.cons.injEq] at h
      obtain ⟨h1, h2⟩ := h
      have hk : ∀ c ∈ done.map entry, HasKeys c := by
        intro c hc
        obtain ⟨d, hd', rfl⟩ := List.mem_map.1 hc
        have : d.filterMap bindOf ∈ qs.map fun p => [p] := by rw [← hd]; exact List.mem_map_of_mem hd'
        obtain ⟨q, -, hq⟩ := List.mem_map.1 this
        simp [HasKeys, entry, ← hq]
      obtain ⟨w', e, k1, k2⟩ := readSec_bind (rest := List.replicate secs.length init) (w := w) h1 hk
      rw [List.length_map] at e
      rw [readSecs, List.length_cons, List.replicate_succ, e, Option.bind_some]
      have := ih h2 (done ++ [sec]) (qs ++ [p]) (by simp [hd, h1]) (w ++ w')
      simp only [List.length_append, List.length_singleton, List.map_append, List.map_cons, List.map_nil,
        List.append_assoc, List.singleton_append] at this
      rw [this]
      have hdone : (∀ c ∈ done.map entry, ¬Binds p.1 p.2 c) ↔ ¬∃ q ∈ qs, SameKeys p q := by
        constructor
        · rintro h ⟨q, hq, hs⟩
          have : [q] ∈ done.map (·.filterMap bindOf) := by rw [hd]; exact List.mem_map_of_mem hq
          obtain ⟨d, hd', e⟩ := List.mem_map.1 this
          exact h _ (List.mem_map_of_mem hd') ((entry_binds e p).2 hs)
        · intro h c hc hb
          obtain ⟨d, hd', rfl⟩ := List.mem_map.1 hc
          have : d.filterMap bindOf ∈ qs.map fun p => [p] := by rw [← hd]; exact List.mem_map_of_mem hd'
          obtain ⟨q, hq, e⟩ := List.mem_map.1 this
          exact h ⟨q, hq, (entry_binds e.symm p).1 hb⟩
      have : w' = if ∃ q ∈ qs, SameKeys p q then [p] else [] := by
        split_ifs with hq
        · exact k2 fun k => hdone.1 k hq
        · exact k1 (hdone.2 hq)
      simp [dups, this]

/-- C63: reading a contact file in which every section gives one pair of keys.  The entries are those described by the
sections, in order, and a warning is given for exactly the pairs that occurred before, in either order. -/
theorem C63_read (secs : List (List (CIKey K))) (ps : List (String × String))
    (h : secs.map (·.filterMap bindOf) = ps.map fun p => [p]) :
    fromZTK secs = some (secs.map entry, dups [] ps) := by
  have := readSecs_eq h [] [] rfl []
  simpa [fromZTK] using this

/-- C63: a section without keys before another section makes reading undefined: a null pointer is compared. -/
theorem C63_unbound_fails : ∃ secs : List (List (CIKey ℚ)), (∃ sec ∈ secs, sec.filterMap bindOf ≠ []) ∧
    fromZTK secs = none :=
  ⟨[[.sf 1], [.bind "a" "b"]], ⟨_, by simp; exact .inr rfl, by simp [bindOf]⟩, by decide +kernel⟩

/-- C63 fails for a section with keys of both groups: the parameters of an elastic contact may be those given for a rigid
one.  Here the viscosity is the given relaxation. -/
theorem C63_alias_fails : ∃ (sec : List (CIKey ℚ)) (c : CI ℚ), fromZTK [sec] = some ([c], []) ∧ c.type = .elastic ∧
    (∀ x, CIKey.v x ∉ sec) ∧ c.p1 ≠ 0 :=
  ⟨[.bind "a" "b", .k 5, .l 3, .e 7], ⟨some "a", some "b", .elastic, 7, 3, 0, 0⟩, by decide +kernel, rfl,
    by simp, by norm_num⟩

private theorem printAll_eq {rnd : K → K} {a : List (CI K)} (h : ∀ c ∈ a, HasKeys c) :
    ∃ (secs : List (List (CIKey K))) (ps : List (String × String)), printAll rnd a = some secs ∧
      secs.map (·.filterMap bindOf) = ps.map (fun p => [p]) ∧
      a.map (fun c => (c.k0, c.k1)) = ps.map (fun p => (some p.1, some p.2)) ∧
      secs.map entry = a.map fun c => { c with p0 := rnd c.p0, p1 := rnd c.p1, sf := rnd c.sf, kf := rnd c.kf } := by
  induction a with
  | nil => exact ⟨[], [], rfl, rfl, rfl, rfl⟩
  | cons c cs ih =>
    obtain ⟨secs, ps, h1, h2, h3, h4⟩ := ih fun d hd => h d (by simp [hd])
    obtain ⟨k0, k1, ty, p0, p1, sf, kf⟩ := c
    obtain ⟨a0, a1⟩ := h _ (List.mem_cons_self ..)
    obtain ⟨u, rfl⟩ := Option.ne_none_iff_exists'.1 a0
    obtain ⟨v, rfl⟩ := Option.ne_none_iff_exists'.1 a1
    cases ty
    · refine ⟨[.bind u v, .k (rnd p0), .l (rnd p1), .sf (rnd sf), .kf (rnd kf)] :: secs, (u, v) :: ps, ?_, ?_, ?_, ?_⟩
      · simp [printAll, print, h1]
      · rw [List.map_cons, List.map_cons, h2]; rfl
      · simp [h3]
      · rw [List.map_cons, List.map_cons, h4]; rfl
    · refine ⟨[.bind u v, .e (rnd p0), .v (rnd p1), .sf (rnd sf), .kf (rnd kf)] :: secs, (u, v) :: ps, ?_, ?_, ?_, ?_⟩
      · simp [printAll, print, h1]
      · rw [List.map_cons, List.map_cons, h2]; rfl
      · simp [h3]
      · rw [List.map_cons, List.map_cons, h4]; rfl

/-- C63: printing an array and reading it back gives the same entries, up to the digits printed (`rnd`), and a warning for
each repeated pair of keys. -/
theorem C63_roundtrip (rnd : K → K) (a : List (CI K)) (ps : List (String × String))
    (h : a.map (fun c => (c.k0, c.k1)) = ps.map fun p => (some p.1, some p.2)) :
    ∃ secs, printAll rnd a = some secs ∧ fromZTK secs = some
      (a.map (fun c => { c with p0 := rnd c.p0, p1 := rnd c.p1, sf := rnd c.sf, kf := rnd c.kf }), dups [] ps) := by
  have hk : ∀ c ∈ a, HasKeys c := by
    intro c hc
    have : (c.k0, c.k1) ∈ ps.map fun p => (some p.1, some p.2) := by
      rw [← h]; exact List.mem_map_of_mem (f := fun c : CI K => (c.k0, c.k1)) hc
    obtain ⟨p, -, e⟩ := List.mem_map.1 this
    obtain ⟨e0, e1⟩ := Prod.mk.inj e
    simp [HasKeys, ← e0, ← e1]
  obtain ⟨secs, qs, h1, h2, h3, h4⟩ := printAll_eq (rnd := rnd) hk
  have : qs = ps := by
    rw [h] at h3
    refine (List.map_injective_iff.2 ?_ h3).symm
    intro p q k
    simpa [Prod.ext_iff] using k
  subst this
  exact ⟨secs, h1, by rw [C63_read secs qs h2, h4]⟩

/-- A case for C63: the second section repeats the keys of the first. -/
example : fromZTK [[CIKey.bind "a" "b", .k (5 : ℚ), .sf 1], [.e 3, .bind "b" "a", .v 4]] =
    some ([⟨some "a", some "b", .rigid, 5, 0, 1, 0⟩, ⟨some "b", some "a", .elastic, 3, 4, 0, 0⟩], [("b", "a")]) := by
  decide +kernel

/-- C63: `rkContactInfoArrayWriteZTK` opens whatever file its uninitialised buffer names, not the one given. -/
theorem C63_write_fails : ¬∀ garbage filename, writePath garbage filename = filename := fun h => by
  have := h "x" "contact.ztk"
  simp [writePath] at this

end Roki
