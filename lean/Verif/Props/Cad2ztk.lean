import Verif.Model.Cad2ztk
import Verif.Lemmas.Vec
import Verif.Lemmas.FK
import Mathlib.Tactic.FieldSimp
import Mathlib.Data.List.Nodup
import Mathlib.Data.List.Find
set_option autoImplicit false

/-!
# C53, C64: the tool `cad2ztk`
-/

namespace Roki
open Spec Cad
variable {K : Type*} [Field K]

/-! ## C53 -/

/-- C53 fails for every command line, whatever the files: the program shows its documentation, exits with success and
writes nothing. -/
theorem C53_nothing_fails [LinearOrder K] (toZYX : Mat3 K → Vec3 K) (cmd : Cmd) (links : Option (List (LinkRow K)))
    (shapes : Option (List (ShapeRow K))) : Cad.main toZYX cmd links shapes = .exit 0 .nothing := rfl

/-! ## C64 -/

namespace Spec

/-- A frame in millimetres, in metres. -/
def metres (f : Frame K) : Frame K := ⟨(1 / 1000 : K) • f.pos, f.att⟩

/-- The frame given by a row. -/
def rowFrame (r : LinkRow K) : Frame K := ⟨r.pos, r.att⟩

/-- The parents that the rows name exist, and the rows have different names.  No link is named `nil`. -/
structure GoodRows (rows : List (LinkRow K)) : Prop where
  nodup : (rows.map (·.name)).Nodup
  parent : ∀ r ∈ rows, r.parentname = "nil" ∨ ∃ p ∈ rows, p.name = r.parentname
  rot : ∀ r ∈ rows, r.att.IsRot

/-- Rows from a root to a link, each the parent of the next. -/
inductive Lineage (rows : List (LinkRow K)) : List ℕ → Prop
  | root {i : ℕ} {r : LinkRow K} : rows[i]? = some r → r.parentname = "nil" → Lineage rows [i]
  | step {path : List ℕ} {j i : ℕ} {p r : LinkRow K} : Lineage rows (path ++ [j]) → rows[j]? = some p → rows[i]? = some r →
      r.parentname ≠ "nil" → p.name = r.parentname → Lineage rows (path ++ [j, i])

/-- What a section of the model file must say about a row: same name and type of joint; parent as named; the mass
properties, moved to the world by the frame of the row, are those of the row in kilograms and metres; and the shapes are
those of the shape rows for that link, in order. -/
structure Describes (srows : List (ShapeRow K)) (r : LinkRow K) (o : OutLink K) : Prop where
  name : o.name = r.name
  jointtype : o.jointtype = r.jointtype
  parent : o.parent = if r.parentname = "nil" then none else some r.parentname
  mp : o.mp.xform (metres (rowFrame r)) = ⟨1 / 1000 * r.mass, (1 / 1000 : K) • r.com,
    (1 / 1000000000 : K) • ⟨⟨r.xx, r.xy, r.xz⟩, ⟨r.xy, r.yy, r.yz⟩, ⟨r.xz, r.yz, r.zz⟩⟩⟩
  shapes : o.shapes = (srows.filter (·.linkname == r.name)).map (·.name)

end Spec

namespace Cad

theorem find_iff {la : List (LinkT K)} (hn : (la.map (·.name)).Nodup) {i : ℕ} {s : String} :
    findLink la s = some i ↔ ∃ l, la[i]? = some l ∧ l.name = s := by
  rw [findLink, List.findIdx?_eq_some_iff_getElem]
  constructor
  · rintro ⟨h, h1, -⟩
    exact ⟨la[i], List.getElem?_eq_getElem h, by simpa using h1⟩
  · rintro ⟨l, hl, rfl⟩
    obtain ⟨h, rfl⟩ := List.getElem?_eq_some_iff.1 hl
    refine ⟨h, by simp, fun j hj => ?_⟩
    simp only [Bool.not_eq_true, beq_eq_false_iff_ne, ne_eq]
    intro e
    have hj' : j < la.length := by omega
    have := (List.Nodup.getElem_inj_iff hn (i := j) (j := i) (hi := by simpa) (hj := by simpa)).1 (by simpa using e)
    omega

/-- The array after the parents have been found. -/
def array (rows : List (LinkRow K)) : List (LinkT K) := (assocParent (rows.map readLink)).1

theorem array_length (rows : List (LinkRow K)) : (array rows).length = rows.length := by simp [array, assocParent]

theorem array_get (rows : List (LinkRow K)) (i : ℕ) : (array rows)[i]? = (rows[i]?).map fun r =>
    { readLink r with parent := if r.parentname = "nil" then none else findLink (rows.map readLink) r.parentname } := by
  simp only [array, assocParent, List.getElem?_map, Option.map_map]
  congr 1
  funext r
  simp only [Function.comp_apply, assocLink]
  have : (readLink r).parentname = r.parentname := rfl
  rw [this]
  split_ifs <;> rfl

theorem names_read (rows : List (LinkRow K)) : (rows.map readLink).map (·.name) = rows.map (·.name) := by
  simp [Function.comp_def, readLink]

theorem names_array (rows : List (LinkRow K)) : (array rows).map (·.name) = rows.map (·.name) := by
  refine List.ext_getElem? fun i => ?_
  simp only [List.getElem?_map, array_get, Option.map_map]
  rfl

theorem assoc_ok {rows : List (LinkRow K)} (h : GoodRows rows) : (assocParent (rows.map readLink)).2 = true := by
  simp only [assocParent, List.all_map, List.all_eq_true, Function.comp_apply]
  intro r hr
  simp only [assocLink]
  have e : (readLink r).parentname = r.parentname := rfl
  rw [e]
  split_ifs with hnil
  · rfl
  · obtain ⟨p, hp, hpn⟩ := (h.parent r hr).resolve_left hnil
    obtain ⟨j, hj⟩ := List.mem_iff_getElem?.1 hp
    have : findLink (rows.map readLink) r.parentname = some j := by
      rw [find_iff (by rw [names_read]; exact h.nodup)]
      exact ⟨readLink p, by simp [hj], hpn⟩
    simp [this]

theorem find_row {rows : List (LinkRow K)} (h : (rows.map (·.name)).Nodup) {i : ℕ} {s : String} :
    findLink (array rows) s = some i ↔ ∃ r, rows[i]? = some r ∧ r.name = s := by
  rw [find_iff (by rw [names_array]; exact h), array_get]
  constructor
  · rintro ⟨l, hl, rfl⟩
    obtain ⟨r, hr, rfl⟩ := Option.map_eq_some_iff.1 hl
    exact ⟨r, hr, rfl⟩
  · rintro ⟨r, hr, rfl⟩
    exact ⟨_, by rw [hr]; rfl, rfl⟩

theorem readShapes_ok {rows : List (LinkRow K)} (h : (rows.map (·.name)).Nodup) {srows : List (ShapeRow K)}
    (hs : ∀ s ∈ srows, ∃ r ∈ rows, r.name = s.linkname) : ∃ sa, readShapes (array rows) srows = some sa ∧
      ∀ i r, rows[i]? = some r → linkShapes sa i = (srows.filter (·.linkname == r.name)).map (·.name) := by
  induction srows with
  | nil => exact ⟨[], rfl, fun _ _ _ => rfl⟩
  | cons s srows ih =>
    obtain ⟨sa, e, h1⟩ := ih fun s hs' => hs s (by simp [hs'])
    obtain ⟨r0, hr0, hn0⟩ := hs s (by simp)
    obtain ⟨j, hj⟩ := List.mem_iff_getElem?.1 hr0
    have hf := (find_row h).2 ⟨r0, hj, hn0⟩
    refine ⟨⟨s.name, s.stlname, some j, ⟨s.pos, s.att⟩⟩ :: sa, ?_, ?_⟩
    · rw [readShapes] at e ⊢
      simp only [List.mapM_cons, readShape, hf, Option.map_some, Option.pure_def, Option.bind_eq_bind, Option.bind_some, e]
    · intro i r hr
      have h2 := h1 i r hr
      simp only [linkShapes] at h2 ⊢
      have hiff : ((some j : Option ℕ) == some i) = (s.linkname == r.name) := by
        rw [Bool.eq_iff_iff, beq_iff_eq, beq_iff_eq, Option.some.injEq]
        constructor
        · rintro rfl
          rw [hj, Option.some.injEq] at hr
          rw [← hr, hn0]
        · intro e'
          have := (find_row h).2 ⟨r, hr, e'.symm⟩
          rw [hf, Option.some.injEq] at this
          exact this
      simp only [List.filter_cons, hiff]
      split_ifs
      · simp only [List.map_cons, h2]
      · exact h2

theorem script_ok [LinearOrder K] {rows : List (LinkRow K)} (h : (rows.map (·.name)).Nodup) {srows : List (ShapeRow K)}
    (hs : ∀ s ∈ srows, ∃ r ∈ rows, r.name = s.linkname) {sa : List (ShapeT K)} (e : readShapes (array rows) srows = some sa) (cmd : Cmd) :
    ∃ sc, script cmd (array rows) sa = some sc := by
  induction srows generalizing sa with
  | nil =>
    obtain rfl : sa = [] := by simpa [readShapes, eq_comm] using e
    exact ⟨[], rfl⟩
  | cons s srows ih =>
    obtain ⟨r0, hr0, hn0⟩ := hs s (by simp)
    obtain ⟨j, hj⟩ := List.mem_iff_getElem?.1 hr0
    have hf := (find_row h).2 ⟨r0, hj, hn0⟩
    rw [readShapes] at e
    simp only [List.mapM_cons, readShape, hf, Option.map_some, Option.pure_def, Option.bind_eq_bind, Option.bind_some,
      Option.bind_eq_some_iff, Option.some.injEq] at e
    obtain ⟨sa', e', rfl⟩ := e
    obtain ⟨sc, hsc⟩ := ih (fun s hs' => hs s (by simp [hs'])) e'
    have hl := array_get rows j
    rw [hj, Option.map_some] at hl
    rw [script] at hsc ⊢
    simp only [List.mapM_cons, scriptLine, Option.bind_some, hl, Option.map_some, Option.bind_eq_bind]
    exact ⟨_, by erw [hsc]; rfl⟩

theorem mapM_range {β : Type*} {f : ℕ → Option β} : ∀ {n : ℕ}, (∀ i < n, ∃ b, f i = some b) →
    ∃ out, (List.range n).mapM f = some out ∧ out.length = n ∧ ∀ i < n, out[i]? = f i := by
  intro n h
  have : ∀ l : List ℕ, (∀ i ∈ l, ∃ b, f i = some b) → ∃ out, l.mapM f = some out ∧ out.length = l.length ∧
      ∀ k i : ℕ, l[k]? = some i → out[k]? = f i := by
    intro l hl
    induction l with
    | nil => exact ⟨[], rfl, rfl, by simp⟩
    | cons a l ih =>
      obtain ⟨out, e, n1, h1⟩ := ih fun i hi => hl i (by simp [hi])
      obtain ⟨b, hb⟩ := hl a (by simp)
      refine ⟨b :: out, by simp [hb, e], by simp [n1], fun k i hk => ?_⟩
      cases k with
      | zero => simp only [List.getElem?_cons_zero, Option.some.injEq] at hk ⊢; rw [← hk, hb]
      | succ k => exact h1 k i (by simpa using hk)
  obtain ⟨out, e, n1, h1⟩ := this (List.range n) fun i hi => h i (List.mem_range.1 hi)
  exact ⟨out, e, by simpa using n1, fun i hi => h1 i i (by simp [hi])⟩

theorem metres_cascade (f g : Frame K) : metres (f.cascade g) = (metres f).cascade (metres g) := by
  simp only [metres]; vec_ring

/-- Every link is written. -/
theorem outLink_ok {rows : List (LinkRow K)} (h : GoodRows rows) {srows : List (ShapeRow K)} {sa : List (ShapeT K)}
    (hsh : ∀ (i : ℕ) (r : LinkRow K), rows[i]? = some r → linkShapes sa i = (srows.filter (·.linkname == r.name)).map (·.name))
    {i : ℕ} {r : LinkRow K} (hr : rows[i]? = some r) : ∃ o, outLink (array rows) sa i = some o ∧ Describes srows r o ∧
      (r.parentname = "nil" → o.frame = metres (rowFrame r)) ∧
      (∀ (j : ℕ) (p : LinkRow K), rows[j]? = some p → r.parentname ≠ "nil" → p.name = r.parentname →
        (metres (rowFrame p)).cascade o.frame = metres (rowFrame r)) := by
  have hm : r ∈ rows := List.mem_iff_getElem?.2 ⟨i, hr⟩
  have hrot := h.rot r hm
  have hl := array_get rows i
  rw [hr, Option.map_some] at hl
  have hmp : ∀ l : LinkT K, l.frame = rowFrame r → l.mp = (readLink r).mp → (relMP l).xform (metres (rowFrame r)) =
      ⟨1 / 1000 * r.mass, (1 / 1000 : K) • r.com,
        (1 / 1000000000 : K) • ⟨⟨r.xx, r.xy, r.xz⟩, ⟨r.xy, r.yy, r.yz⟩, ⟨r.xz, r.yz, r.zz⟩⟩⟩ := by
    intro l hf hmpl
    have e1 : (metres (rowFrame r)).xform ((1 / 1000 : K) • (rowFrame r).xformInv r.com) = (1 / 1000 : K) • r.com := by
      have : (metres (rowFrame r)).xform ((1 / 1000 : K) • (rowFrame r).xformInv r.com) =
          (1 / 1000 : K) • (rowFrame r).xform ((rowFrame r).xformInv r.com) := by
        simp only [metres]; vec_ring
      rw [this, Frame.xform_xformInv (f := rowFrame r) hrot]
    have e2 : Mat3.rot (rowFrame r).att ((1 / 1000000000 : K) • Mat3.rotInv (rowFrame r).att (readLink r).mp.inertia) =
        (1 / 1000000000 : K) • (readLink r).mp.inertia := by
      have : ∀ (k : K) (m : Mat3 K), Mat3.rot (rowFrame r).att (k • m) = k • Mat3.rot (rowFrame r).att m := by
        intro k m; vec_ring
      rw [this, Mat3.rot_rotInv (r := (rowFrame r).att) hrot]
    simp only [relMP, MP.gmm2kgm, MP.xformInv, MP.xform, hf, hmpl]
    refine MP.ext ?_ e1 e2
    exact mul_comm _ _
  by_cases hnil : r.parentname = "nil"
  · refine ⟨⟨r.name, r.jointtype, metres (rowFrame r), relMP (readLink r), linkShapes sa i, none⟩, ?_, ⟨rfl, rfl, by simp [hnil], ?_, hsh i r hr⟩,
      fun _ => rfl, fun _ _ _ hn => absurd hnil hn⟩
    · rw [outLink, hl]
      simp only [if_pos hnil, Option.bind_some, relFrame, parentName, Option.map_some]
      rfl
    · exact hmp _ rfl rfl
  · obtain ⟨p, hp, hpn⟩ := (h.parent r hm).resolve_left hnil
    obtain ⟨j, hj⟩ := List.mem_iff_getElem?.1 hp
    have hfind : findLink (rows.map readLink) r.parentname = some j := by
      rw [find_iff (by rw [names_read]; exact h.nodup)]
      exact ⟨readLink p, by simp [hj], hpn⟩
    have hlp := array_get rows j
    rw [hj, Option.map_some] at hlp
    refine ⟨⟨r.name, r.jointtype, metres ((rowFrame p).xformF (rowFrame r)), relMP (readLink r), linkShapes sa i, some p.name⟩, ?_,
      ⟨rfl, rfl, by simp [hnil, hpn], ?_, hsh i r hr⟩, fun hn => absurd hn hnil, ?_⟩
    · rw [outLink, hl]
      simp only [if_neg hnil, Option.bind_some, relFrame, parentName, hfind, hlp, Option.map_some]
      rfl
    · exact hmp _ rfl rfl
    · intro j' p' hj' _ hp'
      have : j' = j := by
        have h1 := (find_row h.nodup).2 ⟨p, hj, hpn⟩
        have h2 := (find_row h.nodup).2 ⟨p', hj', hp'⟩
        rw [h1, Option.some.injEq] at h2
        exact h2.symm
      subst this
      rw [hj, Option.some.injEq] at hj'
      subst hj'
      rw [← metres_cascade, Frame.cascade_xformF (h.rot p hp)]

end Cad

open Cad in
/-- C64: if the first call of `main` returned, the conversion would write a model file with one section per row of the link
file that describes it, and the frames written would compose along the parents to the world frames of the rows. -/
theorem C64_ztk_partial [LinearOrder K] (toZYX : Mat3 K → Vec3 K) (cmd : Cmd) (name : String) (rows : List (LinkRow K))
    (srows : List (ShapeRow K)) (hcmd : 2 ≤ cmd.argc ∧ cmd.help = false ∧ cmd.doc = false ∧ cmd.urdf = false ∧ cmd.name = some name)
    (h : GoodRows rows) (h0 : rows ≠ []) (hs : ∀ s ∈ srows, ∃ r ∈ rows, r.name = s.linkname) :
    ∃ sc sh out, Cad.convert toZYX cmd (some rows) (some srows) = .exit 0 (.ztk sc name sh out) ∧ out.length = rows.length ∧
      (∀ (i : ℕ) (r : LinkRow K) (o : OutLink K), rows[i]? = some r → out[i]? = some o → Describes srows r o) ∧
      ∀ (path : List ℕ) (i : ℕ) (r : LinkRow K), Lineage rows (path ++ [i]) → rows[i]? = some r →
        ∃ os : List (OutLink K), (path ++ [i]).map (fun j => out[j]?) = os.map some ∧
          product (os.map (·.frame)) = metres (rowFrame r) := by
  obtain ⟨sa, es, hsh⟩ := readShapes_ok h.nodup hs
  obtain ⟨sc, esc⟩ := script_ok h.nodup hs es cmd
  obtain ⟨c1, c2, c3, c4, c5⟩ := hcmd
  have hone := fun i r hr => outLink_ok h (sa := sa) hsh (i := i) (r := r) hr
  obtain ⟨out, eo, no, ho⟩ := mapM_range (f := outLink (array rows) sa) (n := (array rows).length) (by
    intro i hi
    rw [array_length] at hi
    obtain ⟨o, ho, -⟩ := hone i _ (List.getElem?_eq_getElem hi)
    exact ⟨o, ho⟩)
  rw [array_length] at no ho
  have hout : ∀ (i : ℕ) (r : LinkRow K), rows[i]? = some r → out[i]? = outLink (array rows) sa i := fun i r hr =>
    ho i (List.getElem?_eq_some_iff.1 hr).1
  refine ⟨sc, outShapes cmd sa, out, ?_, no, ?_, ?_⟩
  · have e1 : assocParent (rows.map readLink) = (array rows, true) := Prod.ext rfl (assoc_ok h)
    have e2 : outZtk (array rows) sa = some out := eo
    cases rows with
    | nil => exact absurd rfl h0
    | cons r rows =>
      simp only [convert, c2, c3, c4, c5, e1, es, esc, e2, Bool.not_true]
      simp [Nat.not_lt.2 c1]
  · intro i r o hr hoi
    obtain ⟨o', h1, h2, -⟩ := hone i r hr
    rw [hout i r hr, h1, Option.some.injEq] at hoi
    exact hoi ▸ h2
  · intro path i r hp hr
    generalize hq : path ++ [i] = q at hp
    induction hp generalizing path i r with
    | @root i' r' hr' hnil =>
      obtain ⟨rfl, rfl⟩ : path = [] ∧ i = i' := by
        have := List.append_eq_singleton_iff.1 hq
        rcases this with ⟨h1, h2⟩ | ⟨h1, h2⟩
        · exact ⟨h1, by simpa using h2⟩
        · simp at h2
      rw [hr, Option.some.injEq] at hr'
      subst hr'
      obtain ⟨o, h1, -, h2, -⟩ := hone i r hr
      refine ⟨[o], by simp [hout i r hr, h1], ?_⟩
      simp only [List.map_cons, List.map_nil, product, h2 hnil]
      exact Frame.cascade_ident _
    | @step path' j i' p r' hp' hj hr' hnil hpn ih =>
      obtain ⟨rfl, rfl⟩ : path = path' ++ [j] ∧ i = i' := by
        have : path ++ [i] = (path' ++ [j]) ++ [i'] := by rw [hq]; simp
        exact ⟨(List.append_inj' this rfl).1, by simpa using (List.append_inj' this rfl).2⟩
      rw [hr, Option.some.injEq] at hr'
      subst hr'
      obtain ⟨os, h1, h2⟩ := ih path' j p hj rfl
      obtain ⟨o, h3, -, -, h4⟩ := hone i r hr
      refine ⟨os ++ [o], ?_, ?_⟩
      · rw [show path' ++ [j, i] = (path' ++ [j]) ++ [i] by simp, List.map_append, h1]
        simp [hout i r hr, h3]
      · rw [List.map_append, product_append, h2]
        simp only [List.map_cons, List.map_nil, product]
        have e : (Frame.cascade o.frame ⟨0, 1⟩) = o.frame := Frame.cascade_ident _
        rw [e]
        exact h4 j p hj hnil hpn

/-- C64 fails for a shape row that names no link: instead of an error, the name of a null link is read. -/
theorem C64_shape_fails (toZYX : Mat3 ℚ → Vec3 ℚ) : ∃ (cmd : Cmd) (rows : List (LinkRow ℚ)) (srows : List (ShapeRow ℚ)),
    GoodRows rows ∧ Cad.convert toZYX cmd (some rows) (some srows) = .undefined :=
  ⟨{ argc := 2, help := false, doc := false, urdf := false, name := some "robot" }, [⟨"base", "nil", "float", 0, 1, 1, 0, 1, 0, 0, 1, 0, 1⟩],
    [⟨"cover", "cover", "bse", 0, 1⟩], ⟨by simp, by simp, by simp [Mat3.isRot_one]⟩, rfl⟩

/-- C64 fails for URDF output if a joint is of a documented type that URDF does not have: a null string is printed. -/
theorem C64_urdf_type_fails (toZYX : Mat3 ℚ → Vec3 ℚ) (t : String) (ht : t ∈ ["cylindrical", "hooke", "spherical"]) :
    ∃ (cmd : Cmd) (rows : List (LinkRow ℚ)), GoodRows rows ∧ (∀ r ∈ rows, r.jointtype = t) ∧
      Cad.convert toZYX cmd (some rows) (some []) = .undefined := by
  refine ⟨{ argc := 2, help := false, doc := false, urdf := true, name := some "robot" }, [⟨"base", "nil", t, 0, 1, 1, 0, 1, 0, 0, 1, 0, 1⟩],
    ⟨by simp, by simp, by simp [Mat3.isRot_one]⟩, by simp, ?_⟩
  simp only [List.mem_cons, List.not_mem_nil, or_false] at ht
  rcases ht with rfl | rfl | rfl <;> rfl

theorem Cad.convert_parts [LinearOrder K] {toZYX : Mat3 K → Vec3 K} {cmd : Cmd} {rows : List (LinkRow K)}
    {srows : List (ShapeRow K)} {o : Output K} (h : Cad.convert toZYX cmd (some rows) (some srows) = .exit 0 o) :
    o = .nothing ∨ ∃ sa sc name, readShapes (array rows) srows = some sa ∧ script cmd (array rows) sa = some sc ∧
      cmd.name = some name ∧
      ((∃ ls js, cmd.urdf = true ∧ o = .urdf sc name ls js ∧ outUrdf toZYX cmd (array rows) sa = some (ls, js)) ∨
       (∃ ls, cmd.urdf = false ∧ o = .ztk sc name (outShapes cmd sa) ls ∧ outZtk (array rows) sa = some ls)) := by
  have e : assocParent (rows.map readLink) = (array rows, (assocParent (rows.map readLink)).2) := rfl
  generalize (assocParent (rows.map readLink)).2 = ok at e
  rw [Cad.convert] at h
  by_cases h1 : cmd.argc < 2
  · rw [if_pos h1] at h; cases h; exact .inl rfl
  rw [if_neg h1] at h
  by_cases h2 : cmd.help = true
  · rw [if_pos h2] at h; cases h; exact .inl rfl
  rw [if_neg h2] at h
  cases hdoc : (if cmd.doc then howToUse else none) with
  | some code => rw [hdoc] at h; cases h; exact .inl rfl
  | none =>
  rw [hdoc] at h
  cases hname : cmd.name with
  | none => rw [hname] at h; simp at h
  | some name =>
  rw [hname] at h
  cases rows with
  | nil => simp at h
  | cons r rows =>
  simp only [e] at h
  by_cases h3 : (!ok) = true
  · rw [if_pos h3] at h; cases h; exact .inl rfl
  rw [if_neg h3] at h
  cases hr : readShapes (array (r :: rows)) srows with
  | none => rw [hr] at h; simp at h
  | some sa =>
  rw [hr] at h
  cases hsc : script cmd (array (r :: rows)) sa with
  | none => simp [hsc] at h
  | some sc =>
  simp only [hsc] at h
  by_cases hu : cmd.urdf = true
  · rw [if_pos hu] at h
    cases ho : outUrdf toZYX cmd (array (r :: rows)) sa with
    | none => simp [ho] at h
    | some x =>
      simp only [ho] at h
      cases h
      exact .inr ⟨sa, sc, name, rfl, hsc, rfl, .inl ⟨_, _, hu, rfl, ho⟩⟩
  · rw [if_neg hu] at h
    cases ho : outZtk (array (r :: rows)) sa with
    | none => simp [ho] at h
    | some x =>
      simp only [ho] at h
      cases h
      exact .inr ⟨sa, sc, name, rfl, hsc, rfl, .inr ⟨_, by simpa using hu, rfl, ho⟩⟩

theorem Cad.convert_urdf [LinearOrder K] {toZYX : Mat3 K → Vec3 K} {cmd : Cmd} {rows : List (LinkRow K)} {srows : List (ShapeRow K)}
    {name : String} {sc : List (ScriptLine K)} {ls : List (String × MP K × List String)} {js : List (OutJoint K)}
    (h : Cad.convert toZYX cmd (some rows) (some srows) = .exit 0 (.urdf sc name ls js)) :
    ∃ sa, Cad.outUrdf toZYX cmd (Cad.array rows) sa = some (ls, js) := by
  rcases Cad.convert_parts h with h | ⟨sa, sc', name', -, -, -, ⟨ls', js', -, e, h⟩ | ⟨_, -, e, -⟩⟩
  · cases h
  · cases e; exact ⟨sa, h⟩
  · cases e

/-- C64 fails for URDF output: whenever a file is written, it has a joint whose parent is a link that is not in the file,
if a row has no parent and no row is called `nil`. -/
theorem C64_urdf_root_fails [LinearOrder K] (toZYX : Mat3 K → Vec3 K) (cmd : Cmd) (rows : List (LinkRow K)) (srows : List (ShapeRow K))
    (name : String) (sc : List (ScriptLine K)) (ls : List (String × MP K × List String)) (js : List (OutJoint K))
    (hr : ∃ r ∈ rows, r.parentname = "nil") (hn : ∀ r ∈ rows, r.name ≠ "nil")
    (h : Cad.convert toZYX cmd (some rows) (some srows) = .exit 0 (.urdf sc name ls js)) :
    ∃ j ∈ js, ∀ l ∈ ls, l.1 ≠ j.parent := by
  obtain ⟨r, hr, hnil⟩ := hr
  obtain ⟨i, hi⟩ := List.mem_iff_getElem?.1 hr
  obtain ⟨sa, hu⟩ := Cad.convert_urdf h
  obtain ⟨js', hjs, e⟩ := Option.bind_eq_some_iff.1 hu
  simp only [Option.some.injEq, Prod.mk.injEq] at e
  obtain ⟨rfl, rfl⟩ := e
  have hl := Cad.array_get rows i
  rw [hi, Option.map_some] at hl
  have hj : ∀ (la : List (LinkT K)) (js : List (OutJoint K)) (l : LinkT K), la.mapM (outJoint toZYX (array rows)) = some js →
      l ∈ la → ∃ j ∈ js, j.parent = l.parentname := by
    intro la
    induction la with
    | nil => simp
    | cons a la ih =>
      intro js l e hl
      simp only [List.mapM_cons, Option.bind_eq_bind, Option.bind_eq_some_iff, Option.pure_def, Option.some.injEq] at e
      obtain ⟨j, hj, js2, hjs2, rfl⟩ := e
      rcases List.mem_cons.1 hl with rfl | hl
      · refine ⟨j, by simp, ?_⟩
        obtain ⟨t, -, e⟩ := Option.bind_eq_some_iff.1 hj
        obtain ⟨f, -, rfl⟩ := Option.map_eq_some_iff.1 e
        rfl
      · obtain ⟨j', h1, h2⟩ := ih js2 l hjs2 hl
        exact ⟨j', by simp [h1], h2⟩
  obtain ⟨j, hjm, hjp⟩ := hj _ _ _ hjs (List.mem_iff_getElem?.2 ⟨i, hl⟩)
  refine ⟨j, hjm, fun l hl' => ?_⟩
  rw [hjp]
  have hp : (readLink r).parentname = "nil" := hnil
  change l.1 ≠ (readLink r).parentname
  rw [hp]
  obtain ⟨k, hk⟩ := List.mem_iff_getElem?.1 hl'
  rw [List.getElem?_zipWith] at hk
  cases h1 : (array rows)[k]? with
  | none => rw [h1] at hk; cases h2 : (List.range (array rows).length)[k]? <;> simp [h2] at hk
  | some a =>
    have h1' := h1
    rw [Cad.array_get] at h1'
    obtain ⟨r', hr', rfl⟩ := Option.map_eq_some_iff.1 h1'
    rw [h1] at hk
    cases h2 : (List.range (array rows).length)[k]? with
    | none => simp [h2] at hk
    | some m =>
      rw [h2] at hk
      simp only [Option.some.injEq] at hk
      rw [← hk]
      exact hn r' (List.mem_iff_getElem?.2 ⟨k, hr'⟩)

/-- The case of C64: an arm on a base, turned and shifted, with a shape on each link. -/
example : ∃ (rows : List (LinkRow ℚ)) (srows : List (ShapeRow ℚ)), GoodRows rows ∧ rows.length = 2 ∧ srows.length = 2 ∧
    (∀ s ∈ srows, ∃ r ∈ rows, r.name = s.linkname) ∧ Lineage rows [0, 1] := by
  refine ⟨[⟨"base", "nil", "float", ⟨10, 0, 0⟩, 1, 1, 0, 1, 0, 0, 1, 0, 1⟩,
    ⟨"arm", "base", "revolute", ⟨0, 20, 0⟩, ⟨⟨0, 1, 0⟩, ⟨-1, 0, 0⟩, ⟨0, 0, 1⟩⟩, 1, 0, 1, 0, 0, 1, 0, 1⟩],
    [⟨"a", "a", "arm", 0, 1⟩, ⟨"b", "b", "base", 0, 1⟩], ⟨by simp, by simp, ?_⟩, rfl, rfl, by simp, ?_⟩
  · intro r hr
    simp only [List.mem_cons, List.not_mem_nil, or_false] at hr
    rcases hr with rfl | rfl
    · exact Mat3.isRot_one
    · constructor <;> simp [dot, cross]
  · exact Lineage.step (path := []) (j := 0) (.root rfl rfl) rfl rfl (by decide) rfl

end Roki
