import Verif.Spec.ChainFile
import Verif.Lemmas.LinkHeap
import Mathlib.Tactic.FieldSimp
import Mathlib.Tactic.Ring
set_option autoImplicit false

/-! # Reading and writing chains: lemmas on tables, motors and joints -/

namespace Roki.ZTK
open Roki.Spec.File
variable {K σ : Type*}

/-! ## Tables -/

@[simp] theorem Res.andThen_ok (s : σ) (f : σ → Res σ) : (Res.ok s).andThen f = f s := rfl
@[simp] theorem Res.andThen_null (s : σ) (f : σ → Res σ) : (Res.null s).andThen f = .null s := rfl
@[simp] theorem Res.andThen_ub (f : σ → Res σ) : (Res.ub : Res σ).andThen f = .ub := rfl
@[simp] theorem Res.bind_ok {τ : Type*} (s : σ) (b f : σ → Res τ) : (Res.ok s).bind b f = f s := rfl
@[simp] theorem Res.bind_null {τ : Type*} (s : σ) (b f : σ → Res τ) : (Res.null s).bind b f = b s := rfl
@[simp] theorem Res.bind_ub {τ : Type*} (b f : σ → Res τ) : (Res.ub : Res σ).bind b f = .ub := rfl
@[simp] theorem Res.ignore_ok (s : σ) : (Res.ok s).ignore = .ok s := rfl
@[simp] theorem Res.ignore_null (s : σ) : (Res.null s).ignore = .ok s := rfl
@[simp] theorem Res.andThen_id (r : Res σ) : (r.andThen fun s => .ok s) = r := by cases r <;> rfl

/-- The values of a key. -/
def vals (sec : List (Fld K)) (k : String) : List (List (Tok K)) := (sec.filter fun f => f.key == k).map Fld.val

/-- Read values of one row. -/
def rdAll (row : Row σ K) (vs : List (List (Tok K))) (r : Res σ) : Res σ :=
  vs.foldl (fun r v => r.andThen fun s => row.rd s v) r

/-- Read the rows one after the other. -/
def rdRows (sec : List (Fld K)) : List (Row σ K) → Res σ → Res σ
  | [], r => r
  | row :: tab, r => rdRows sec tab (rdAll row (vals sec row.key) r)

theorem evalKeys_table (tab : List (Row σ K)) (sec : List (Fld K)) (s : σ) :
    evalKeys .table tab sec s = rdRows sec tab (.ok s) := by
  have : ∀ (tab : List (Row σ K)) (r : Res σ), tab.foldl (fun r row =>
      (sec.filter fun f => f.key == row.key).foldl (fun r f => r.andThen fun s => row.rd s f.val) r) r = rdRows sec tab r := by
    intro tab
    induction tab with
    | nil => intro r; rfl
    | cons row tab ih => intro r; rw [List.foldl_cons, ih, rdRows, rdAll, vals, List.foldl_map]
  exact this tab _

/-- The fields that a table knows. -/
def known (tab : List (Row σ K)) (sec : List (Fld K)) : List (Fld K) := sec.filter fun f => tab.any fun r => r.key == f.key

theorem evalFld_unknown {tab : List (Row σ K)} {f : Fld K} (h : (tab.any fun r => r.key == f.key) = false) (s : σ) :
    evalFld tab s f = .ok s := by
  have : (tab.find? fun r => r.key == f.key) = none := by
    rw [List.find?_eq_none]
    intro x hx
    simp only [List.any_eq_false] at h
    simpa using h x hx
  rw [evalFld, this]

theorem fold_known (tab : List (Row σ K)) (sec : List (Fld K)) (r : Res σ) :
    sec.foldl (fun r f => r.andThen fun s => evalFld tab s f) r =
      (known tab sec).foldl (fun r f => r.andThen fun s => evalFld tab s f) r := by
  induction sec generalizing r with
  | nil => rfl
  | cons f sec ih =>
    rw [List.foldl_cons, ih, known, known, List.filter_cons]
    by_cases h : (tab.any fun r => r.key == f.key) = true
    · rw [if_pos h, List.foldl_cons]
    · rw [if_neg h]
      simp only [Bool.not_eq_true] at h
      simp only [evalFld_unknown h, Res.andThen_id]

theorem evalFld_row {tab : List (Row σ K)} (hn : (tab.map Row.key).Nodup) {row : Row σ K} (hr : row ∈ tab) {f : Fld K}
    (hf : f.key = row.key) (s : σ) : evalFld tab s f = row.rd s f.val := by
  have : (tab.find? fun r => r.key == f.key) = some row := by
    induction tab with
    | nil => simp at hr
    | cons a tab ih =>
      simp only [List.map_cons, List.nodup_cons] at hn
      rw [List.find?_cons]
      rcases List.mem_cons.1 hr with rfl | hr
      · simp [hf]
      · have : (a.key == f.key) = false := by
          simp only [beq_eq_false_iff_ne]
          intro e
          exact hn.1 (e.trans hf ▸ List.mem_map.2 ⟨row, hr, rfl⟩)
        rw [this]
        exact ih hn.2 hr
  rw [evalFld, this]

theorem fold_row {tab : List (Row σ K)} (hn : (tab.map Row.key).Nodup) {row : Row σ K} (hr : row ∈ tab) :
    ∀ (fs : List (Fld K)), (∀ f ∈ fs, f.key = row.key) → ∀ r : Res σ,
    fs.foldl (fun r f => r.andThen fun s => evalFld tab s f) r = rdAll row (fs.map Fld.val) r := by
  intro fs
  induction fs with
  | nil => intro _ r; rfl
  | cons f fs ih =>
    intro h r
    rw [List.foldl_cons, ih fun g hg => h g (List.mem_cons_of_mem _ hg), rdAll, rdAll, List.map_cons, List.foldl_cons]
    congr 2
    funext s
    exact evalFld_row hn hr (h f (by simp)) s

/-- When the fields of a section come in the order of the table, the order of evaluation does not matter. -/
theorem evalKeys_eq (o : Order) {tab : List (Row σ K)} (hn : (tab.map Row.key).Nodup) {sec : List (Fld K)}
    (hs : known tab sec = tab.flatMap fun row => sec.filter fun f => f.key == row.key) (s : σ) :
    evalKeys o tab sec s = rdRows sec tab (.ok s) := by
  cases o with
  | table => exact evalKeys_table tab sec s
  | file =>
    rw [evalKeys, fold_known, hs]
    have : ∀ (l : List (Row σ K)), (∀ row ∈ l, row ∈ tab) → ∀ r : Res σ,
        (l.flatMap fun row => sec.filter fun f => f.key == row.key).foldl (fun r f => r.andThen fun s => evalFld tab s f) r =
          rdRows sec l r := by
      intro l
      induction l with
      | nil => intro _ r; rfl
      | cons row l ih =>
        intro hl r
        rw [List.flatMap_cons, List.foldl_append, ih fun x hx => hl x (List.mem_cons_of_mem _ hx), rdRows,
          fold_row hn (hl row (by simp)) _ (by
            intro f hf
            have := (List.mem_filter.1 hf).2
            simpa using this), vals]
    exact this tab (fun _ h => h) _

theorem known_append (tab : List (Row σ K)) (a b : List (Fld K)) : known tab (a ++ b) = known tab a ++ known tab b := by
  simp [known]

theorem evalKeys_known (o : Order) (tab : List (Row σ K)) (sec : List (Fld K)) (s : σ) :
    evalKeys o tab (known tab sec) s = evalKeys o tab sec s := by
  cases o with
  | file =>
    have h : known tab (known tab sec) = known tab sec := by simp [known]
    rw [evalKeys, evalKeys, fold_known, fold_known tab sec, h]
  | table =>
    rw [evalKeys_table, evalKeys_table]
    have : ∀ (l : List (Row σ K)), (∀ row ∈ l, row ∈ tab) → ∀ r : Res σ, rdRows (known tab sec) l r = rdRows sec l r := by
      intro l
      induction l with
      | nil => intro _ r; rfl
      | cons row l ih =>
        intro hl r
        have hv : vals (known tab sec) row.key = vals sec row.key := by
          rw [vals, vals, known, List.filter_filter]
          congr 1
          refine List.filter_congr fun f _ => ?_
          by_cases h : (f.key == row.key) = true
          · rw [h, Bool.true_and, List.any_eq_true]
            exact ⟨row, hl row (by simp), by rw [beq_iff_eq] at h ⊢; exact h.symm⟩
          · simp only [Bool.not_eq_true] at h
            rw [h, Bool.false_and]
        rw [rdRows, rdRows, hv, ih fun x hx => hl x (List.mem_cons_of_mem _ hx)]
    exact this tab (fun _ h => h) _

/-- A row with the values that a section has for it. -/
abbrev Group (σ K : Type*) := Row σ K × List (List (Tok K))

/-- The fields of a row. -/
def Group.flds (g : Group σ K) : List (Fld K) := g.2.map fun v => ⟨g.1.key, v⟩

theorem mem_flds {gs : List (Group σ K)} {f : Fld K} (h : f ∈ gs.flatMap Group.flds) : ∃ g ∈ gs, f.key = g.1.key := by
  obtain ⟨g, hg, hf⟩ := List.mem_flatMap.1 h
  obtain ⟨v, _, rfl⟩ := List.mem_map.1 hf
  exact ⟨g, hg, rfl⟩

theorem filter_flds {gs : List (Group σ K)} (hn : (gs.map fun g => g.1.key).Nodup) {g : Group σ K} (hg : g ∈ gs) :
    (gs.flatMap Group.flds).filter (fun f => f.key == g.1.key) = g.flds := by
  induction gs with
  | nil => simp at hg
  | cons a gs ih =>
    simp only [List.map_cons, List.nodup_cons] at hn
    rw [List.flatMap_cons, List.filter_append]
    rcases List.mem_cons.1 hg with rfl | hg
    · have h1 : g.flds.filter (fun f => f.key == g.1.key) = g.flds := by
        rw [List.filter_eq_self]
        intro f hf
        obtain ⟨v, _, rfl⟩ := List.mem_map.1 hf
        simp
      have h2 : (gs.flatMap Group.flds).filter (fun f => f.key == g.1.key) = [] := by
        rw [List.filter_eq_nil_iff]
        intro f hf
        obtain ⟨b, hb, e⟩ := mem_flds hf
        simp only [beq_iff_eq, e]
        intro e
        exact hn.1 (e ▸ List.mem_map.2 ⟨b, hb, rfl⟩)
      rw [h1, h2, List.append_nil]
    · have h1 : a.flds.filter (fun f => f.key == g.1.key) = [] := by
        rw [List.filter_eq_nil_iff]
        intro f hf
        obtain ⟨v, _, rfl⟩ := List.mem_map.1 hf
        simp only [beq_iff_eq]
        intro e
        exact hn.1 (e ▸ List.mem_map.2 ⟨g, hg, rfl⟩)
      rw [h1, ih hn.2 hg, List.nil_append]

/-- A section that follows the table is read row by row, whatever the order of evaluation. -/
theorem evalKeys_groups (o : Order) (gs : List (Group σ K)) (hn : (gs.map fun g => g.1.key).Nodup) (s : σ) :
    evalKeys o (gs.map Prod.fst) (gs.flatMap Group.flds) s = gs.foldl (fun r g => rdAll g.1 g.2 r) (.ok s) := by
  have hk : ∀ (l : List (Group σ K)), (∀ g ∈ l, g ∈ gs) →
      (l.map Prod.fst).flatMap (fun row => (gs.flatMap Group.flds).filter fun f => f.key == row.key) = l.flatMap Group.flds := by
    intro l
    induction l with
    | nil => intro _; rfl
    | cons g l ih =>
      intro hl
      rw [List.map_cons, List.flatMap_cons, List.flatMap_cons, filter_flds hn (hl g (by simp)),
        ih fun x hx => hl x (List.mem_cons_of_mem _ hx)]
  rw [evalKeys_eq o (by rwa [List.map_map]) (by
    rw [hk gs fun _ h => h, known, List.filter_eq_self]
    intro f hf
    obtain ⟨g, hg, e⟩ := mem_flds hf
    rw [List.any_eq_true]
    exact ⟨g.1, List.mem_map.2 ⟨g, hg, rfl⟩, by simp [e]⟩)]
  have : ∀ (l : List (Group σ K)), (∀ g ∈ l, g ∈ gs) → ∀ r : Res σ,
      rdRows (gs.flatMap Group.flds) (l.map Prod.fst) r = l.foldl (fun r g => rdAll g.1 g.2 r) r := by
    intro l
    induction l with
    | nil => intro _ r; rfl
    | cons g l ih =>
      intro hl r
      rw [List.map_cons, rdRows, ih fun x hx => hl x (List.mem_cons_of_mem _ hx), List.foldl_cons, vals,
        filter_flds hn (hl g (by simp)), Group.flds, List.map_map]
      congr 2
      simp [Function.comp_def]
  exact this gs (fun _ h => h) _

/-- The same with other fields around. -/
theorem evalKeys_among (o : Order) (gs : List (Group σ K)) (hn : (gs.map fun g => g.1.key).Nodup) {sec : List (Fld K)}
    (hs : known (gs.map Prod.fst) sec = gs.flatMap Group.flds) (s : σ) :
    evalKeys o (gs.map Prod.fst) sec s = gs.foldl (fun r g => rdAll g.1 g.2 r) (.ok s) := by
  rw [← evalKeys_known, hs, evalKeys_groups o gs hn]

/-- The keys of a table. -/
def keys (tab : List (Row σ K)) : List String := tab.map Row.key

theorem known_none {tab : List (Row σ K)} {sec : List (Fld K)} (h : ∀ f ∈ sec, f.key ∉ keys tab) : known tab sec = [] := by
  rw [known, List.filter_eq_nil_iff]
  intro f hf hh
  obtain ⟨r, hr, e⟩ := List.any_eq_true.1 hh
  exact h f hf (List.mem_map.2 ⟨r, hr, by simpa using e⟩)

theorem known_all {tab : List (Row σ K)} {sec : List (Fld K)} (h : ∀ f ∈ sec, f.key ∈ keys tab) : known tab sec = sec := by
  rw [known, List.filter_eq_self]
  intro f hf
  obtain ⟨r, hr, e⟩ := List.mem_map.1 (h f hf)
  exact List.any_eq_true.2 ⟨r, hr, by simp [e]⟩

/-! ## Motors -/

/-- The groups of a printed motor. -/
def motorGroups [Field K] (name type : String) : List (Group (NMotor K) K) := motorTab.zip [[[.str name]], [[.str type]]]

def dcGroups (p : DCPrp K) : List (Group (DCPrp K) K) :=
  dcTab.zip [[[.num p.k]], [[.num p.admit]], [[tokLim false p.maxvol]], [[tokLim true p.minvol]], [[.num p.decratio]],
    [[.num p.inertia]], [[.num p.inertiaGear]]]

def trqGroups (p : TrqPrp K) : List (Group (TrqPrp K) K) := trqTab.zip [[[tokLim false p.max]], [[tokLim true p.min]]]

@[simp] theorem limTok_tokLim (neg : Bool) (x : Option K) : limTok neg (tokLim neg x) = some x := by
  cases x <;> simp [limTok, tokLim]

theorem motorPrp_roundtrip [Field K] (o : Order) (q : Motor K) : ∃ sec q0, motorPrpPrint q = some sec ∧
    Motor.queryAssign q.typeStr = some q0 ∧ (∀ f ∈ sec, f.key ∉ keys (motorTab (K := K))) ∧
    ∀ base : List (Fld K), (∀ f ∈ base, f.key ∈ keys (motorTab (K := K))) → motorPrpRead o (base ++ sec) q0 = .ok (restMotor q) := by
  cases q with
  | none =>
    refine ⟨[], .none, rfl, by simp [Motor.queryAssign, Motor.comArray, Motor.typeStr], by simp, fun base _ => rfl⟩
  | dc p =>
    refine ⟨(dcGroups p).flatMap Group.flds, _, rfl, by
      simp [Motor.queryAssign, Motor.comArray, Motor.typeStr]
      rfl, ?_, fun base hb => ?_⟩
    · simp [dcGroups, dcTab, Group.flds, numRow, limRow, keys, motorTab]
    · have h1 : dcTab = (dcGroups p).map Prod.fst := rfl
      have h2 : known dcTab base = [] := known_none fun f hf h => by
        have := hb f hf
        simp [keys, motorTab] at this
        rcases this with e | e <;> rw [e] at h <;> simp [keys, dcTab, numRow, limRow] at h
      have h3 : known dcTab ((dcGroups p).flatMap Group.flds) = (dcGroups p).flatMap Group.flds := known_all fun f hf => by
        obtain ⟨g, hg, e⟩ := mem_flds hf
        rw [e]
        exact List.mem_map.2 ⟨g.1, h1 ▸ List.mem_map.2 ⟨g, hg, rfl⟩, rfl⟩
      have h4 : ((dcGroups p).map fun g => g.1.key).Nodup := by simp [dcGroups, dcTab, numRow, limRow]
      rw [motorPrpRead, h1, evalKeys_among o (dcGroups p) h4 (by rw [← h1, known_append, h2, h3, List.nil_append])]
      simp [dcGroups, dcTab, numRow, limRow, rdAll, restMotor]
  | trq p =>
    refine ⟨(trqGroups p).flatMap Group.flds, _, rfl, by
      simp [Motor.queryAssign, Motor.comArray, Motor.typeStr]
      rfl, ?_, fun base hb => ?_⟩
    · simp [trqGroups, trqTab, Group.flds, numRow, limRow, keys, motorTab]
    · have h1 : trqTab = (trqGroups p).map Prod.fst := rfl
      have h2 : known trqTab base = [] := known_none fun f hf h => by
        have := hb f hf
        simp [keys, motorTab] at this
        rcases this with e | e <;> rw [e] at h <;> simp [keys, trqTab, numRow, limRow] at h
      have h3 : known trqTab ((trqGroups p).flatMap Group.flds) = (trqGroups p).flatMap Group.flds := known_all fun f hf => by
        obtain ⟨g, hg, e⟩ := mem_flds hf
        rw [e]
        exact List.mem_map.2 ⟨g.1, h1 ▸ List.mem_map.2 ⟨g, hg, rfl⟩, rfl⟩
      have h4 : ((trqGroups p).map fun g => g.1.key).Nodup := by simp [trqGroups, trqTab, numRow, limRow]
      rw [motorPrpRead, h1, evalKeys_among o (trqGroups p) h4 (by rw [← h1, known_append, h2, h3, List.nil_append])]
      simp [trqGroups, trqTab, numRow, limRow, rdAll, restMotor]

theorem motor_roundtrip [Field K] (o : Order) (noname : String) (m : NMotor K) (hm : m.motor.isSome) :
    ∃ sec, motorPrint m = some sec ∧ motorRead o noname sec = .ok { m with motor := m.motor.map restMotor } := by
  obtain ⟨name, mo⟩ := m
  rcases mo with _ | q
  · simp at hm
  obtain ⟨sec, q0, h1, h2, h3, h4⟩ := motorPrp_roundtrip o q
  have e1 : motorTab (K := K) = (motorGroups name q.typeStr).map Prod.fst := rfl
  have e2 : ∀ f ∈ (motorGroups (K := K) name q.typeStr).flatMap Group.flds, f.key ∈ keys (motorTab (K := K)) := fun f hf => by
    obtain ⟨g, hg, e⟩ := mem_flds hf
    rw [e]
    exact List.mem_map.2 ⟨g.1, e1 ▸ List.mem_map.2 ⟨g, hg, rfl⟩, rfl⟩
  refine ⟨(motorGroups name q.typeStr).flatMap Group.flds ++ sec, ?_, ?_⟩
  · have : printKeys motorTab (⟨name, some q⟩ : NMotor K) = some ((motorGroups name q.typeStr).flatMap Group.flds) := rfl
    rw [motorPrint, this]
    simp [h1]
  · have h5 : ((motorGroups (K := K) name q.typeStr).map fun g => g.1.key).Nodup := by simp [motorGroups, motorTab]
    rw [motorRead]
    conv_lhs => rw [e1]
    rw [evalKeys_among o _ h5 (by rw [← e1, known_append, known_all e2, known_none h3, List.append_nil])]
    have h6 : (motorGroups (K := K) name q.typeStr).foldl (fun r g => rdAll g.1 g.2 r) (.ok ⟨noname, none⟩) =
        .ok ⟨name, some q0⟩ := by simp [motorGroups, motorTab, rdAll, h2]
    rw [h6]
    simp [h4 _ e2]

/-! ## Joints -/

section
variable [Field K] [LinearOrder K] [IsStrictOrderedRing K] [Zm K] [LawfulZm K]

theorem deg2rad_rad2deg (x : K) : deg2rad (rad2deg x) = x := by
  have h1 : (Zm.pi : K) ≠ 0 := LawfulZm.pi_pos.ne'
  rw [deg2rad, rad2deg]
  field_simp

@[simp] theorem degTok_tokDeg (neg : Bool) (x : Option K) : degTok neg (tokDeg neg x) = some x := by
  cases x <;> simp [degTok, tokDeg, deg2rad_rad2deg]

/-- The joint after the keys of its link have been read: the displacement was set without limits. -/
def mid (p : Prp K) : Prp K :=
  match rest p with
  | .revol q => .revol { q with dis := Zm.phaseNormalize q.dis, s := Zm.sin (Zm.phaseNormalize q.dis),
                                c := Zm.cos (Zm.phaseNormalize q.dis) }
  | .cylin q => .cylin { q with dis1 := Zm.phaseNormalize q.dis1, s1 := Zm.sin (Zm.phaseNormalize q.dis1),
                                c1 := Zm.cos (Zm.phaseNormalize q.dis1) }
  | .hooke q => .hooke { q with dis0 := Zm.phaseNormalize q.dis0, s0 := Zm.sin (Zm.phaseNormalize q.dis0),
                                c0 := Zm.cos (Zm.phaseNormalize q.dis0), dis1 := Zm.phaseNormalize q.dis1,
                                s1 := Zm.sin (Zm.phaseNormalize q.dis1), c1 := Zm.cos (Zm.phaseNormalize q.dis1) }
  | .spher q => .spher { q with att := Zm.fromAA q.aa }
  | .float q => .float { q with att := Zm.fromAA q.dis.ang }
  | .brfloat q => .brfloat { q with att := Zm.fromAA q.dis.ang }
  | q => q

/-- The keys of the joints. -/
def jointKeys : List String :=
  ["dis", "min", "max", "stiffness", "viscosity", "coulomb", "staticfriction", "motor", "forcethreshold", "torquethreshold"]

theorem rdAll_one {s s' : σ} {row : Row σ K} {v : List (Tok K)} (h : row.rd s v = .ok s') : rdAll row [v] (.ok s) = .ok s' := h

/-- The groups of a printed joint. -/
def jointGroups (motors : List (NMotor K)) (mname : String) (p : Prp K) : List (Group (FJoint K) K) :=
  (jointTab motors p).zip (match p with
    | .fixed => []
    | .revol q => [[[.num (rad2deg q.dis)]], [[tokDeg true q.lo]], [[tokDeg false q.hi]], [[.num q.stiffness]], [[.num q.viscosity]],
        [[.num q.coulomb]], [[.num q.sf]], [[.str mname]]]
    | .prism q => [[[.num q.dis]], [[tokLim true q.lo]], [[tokLim false q.hi]], [[.num q.stiffness]], [[.num q.viscosity]],
        [[.num q.coulomb]], [[.num q.sf]], [[.str mname]]]
    | .cylin q => [[[.num q.dis0, .num (rad2deg q.dis1)]], [[tokLim true q.lo0, tokDeg true q.lo1]],
        [[tokLim false q.hi0, tokDeg false q.hi1]], [[.num q.stiffness0, .num q.stiffness1]],
        [[.num q.viscosity0, .num q.viscosity1]], [[.num q.coulomb0, .num q.coulomb1]], [[.num q.sf0, .num q.sf1]], [[.str mname]]]
    | .hooke q => [[[.num (rad2deg q.dis0), .num (rad2deg q.dis1)]], [[tokDeg true q.lo0, tokDeg true q.lo1]],
        [[tokDeg false q.hi0, tokDeg false q.hi1]], [[.num q.stiffness0, .num q.stiffness1]],
        [[.num q.viscosity0, .num q.viscosity1]], [[.num q.coulomb0, .num q.coulomb1]], [[.num q.sf0, .num q.sf1]], [[.str mname]]]
    | .spher q => [[tokVec q.aa], [[.str mname]]]
    | .float q => [[tokVec q.dis.lin ++ tokVec q.dis.ang]]
    | .brfloat q => [[tokVec q.dis.lin ++ tokVec q.dis.ang], [[tokLim false q.epf]], [[tokLim false q.ept]]])

theorem jointGroups_fst (motors : List (NMotor K)) (mname : String) (p : Prp K) :
    (jointGroups motors mname p).map Prod.fst = jointTab motors p := by
  cases p <;> rfl

theorem jointPrint_eq (motors : List (NMotor K)) (mname : String) (p : Prp K) :
    jointPrint ⟨p, mname⟩ = some ((jointGroups motors mname p).flatMap Group.flds) := by
  cases p <;> rfl

theorem jointTab_keys (motors : List (NMotor K)) (p : Prp K) :
    (keys (jointTab motors p)).Nodup ∧ ∀ k ∈ keys (jointTab motors p), k ∈ jointKeys := by
  have h : jointKeys.Nodup := by decide
  have : (keys (jointTab motors p)).Sublist jointKeys := by
    cases p <;> simp only [keys, jointTab, jointKeys, coef1, coef2, row1, row2, rowF, disRow, motorRow, List.map, List.cons_append, List.nil_append] <;> decide
  exact ⟨h.sublist this, fun k hk => this.subset hk⟩

theorem jointTab_congr (motors : List (NMotor K)) {p p0 : Prp K} (h0 : p.fresh.neutral = some p0) :
    jointTab motors p0 = jointTab motors p := by
  cases p <;> simp [Prp.fresh, Prp.neutral, Prp.setDis, Vec3.ofBuf, Vec6.ofBuf] at h0 <;> subst h0 <;> rfl

theorem motorRow_rd {motors : List (NMotor K)} {noname mname : String} {q : Motor K} (p : Prp K) (hq : p.getMotor = some .none)
    (hm : motorFind motors mname = some (some ⟨mname, some (restMotor q)⟩) ∨
      (motorFind motors mname = some none ∧ q = .none ∧ mname = noname)) :
    (rdAll (motorRow motors) [[.str mname]] (.ok ⟨p, noname⟩)).ignore = .ok ⟨p.withMotor (restMotor q), mname⟩ := by
  rcases hm with h | ⟨h, rfl, rfl⟩
  · simp [rdAll, motorRow, h]
  · simp [rdAll, motorRow, h]
    cases p <;> simp [Prp.getMotor] at hq <;> simp [Prp.withMotor, restMotor, ← hq]

theorem rd_cylin {α : Type*} {key : String} {rd0 rd1 : Tok K → Option α} {tok0 tok1 : α → Tok K} {set : Dof2 K → α → α → Dof2 K}
    {g0 g1 : Dof2 K → α} {t u : Tok K} {x y : α} (p : Dof2 K) (n : String) (h0 : rd0 t = some x) (h1 : rd1 u = some y) :
    rdAll (row2 key rd0 rd1 tok0 tok1 set g0 g1) [[t, u]] (.ok ⟨.cylin p, n⟩) = .ok ⟨.cylin (set p x y), n⟩ := by
  simp [rdAll, row2, h0, h1]

theorem rd_hooke {α : Type*} {key : String} {rd0 rd1 : Tok K → Option α} {tok0 tok1 : α → Tok K} {set : Dof2 K → α → α → Dof2 K}
    {g0 g1 : Dof2 K → α} {t u : Tok K} {x y : α} (p : Dof2 K) (n : String) (h0 : rd0 t = some x) (h1 : rd1 u = some y) :
    rdAll (row2 key rd0 rd1 tok0 tok1 set g0 g1) [[t, u]] (.ok ⟨.hooke p, n⟩) = .ok ⟨.hooke (set p x y), n⟩ := by
  simp [rdAll, row2, h0, h1]

theorem rd_revol {α : Type*} {key : String} {rd0 : Tok K → Option α} {tok0 : α → Tok K} {set : Dof1 K → α → Dof1 K}
    {g0 : Dof1 K → α} {t : Tok K} {x : α} (p : Dof1 K) (n : String) (h0 : rd0 t = some x) :
    rdAll (row1 key rd0 tok0 set g0) [[t]] (.ok ⟨.revol p, n⟩) = .ok ⟨.revol (set p x), n⟩ := by
  simp [rdAll, row1, h0]

theorem rd_prism {α : Type*} {key : String} {rd0 : Tok K → Option α} {tok0 : α → Tok K} {set : Dof1 K → α → Dof1 K}
    {g0 : Dof1 K → α} {t : Tok K} {x : α} (p : Dof1 K) (n : String) (h0 : rd0 t = some x) :
    rdAll (row1 key rd0 tok0 set g0) [[t]] (.ok ⟨.prism p, n⟩) = .ok ⟨.prism (set p x), n⟩ := by
  simp [rdAll, row1, h0]

theorem rd_dis {p p' : Prp K} {v : List (Tok K)} (n : String) (h : disRead p v = some p') :
    rdAll disRow [v] (.ok ⟨p, n⟩) = .ok ⟨p', n⟩ := by
  simp [rdAll, disRow, h]

theorem numTok_num (x : K) : numTok (.num x) = some x := rfl

theorem joint_roundtrip (o : Order) (noname : String) (motors : List (NMotor K)) (p p0 : Prp K) (mname : String)
    (h0 : p.fresh.neutral = some p0)
    (hm : ∀ q, p.getMotor = some q → motorFind motors mname = some (some ⟨mname, some (restMotor q)⟩) ∨
      (motorFind motors mname = some none ∧ q = .none ∧ mname = noname))
    (hn : p.getMotor = none → mname = noname) {sec : List (Fld K)}
    (hs : known (jointTab motors p) sec = (jointGroups motors mname p).flatMap Group.flds) :
      (jointRead o motors sec ⟨p0, noname⟩).ignore = .ok ⟨mid p, mname⟩ := by
  have hk : ((jointGroups motors mname p).map fun g => g.1.key).Nodup := by
    have := (jointTab_keys motors p).1
    rwa [← jointGroups_fst motors mname p, keys, List.map_map] at this
  rw [jointRead, jointTab_congr motors h0, ← jointGroups_fst motors mname p, evalKeys_among o _ hk (by rw [jointGroups_fst, hs])]
  clear hk hs
  cases p with
  | fixed =>
    simp [Prp.fresh, Prp.neutral, Prp.setDis] at h0
    subst h0
    simp [jointGroups, jointTab, mid, rest, hn rfl]
  | revol p =>
    have e : jointGroups motors mname (.revol p) =
        (jointGroups motors mname (.revol p)).take 7 ++ [(motorRow motors, [[.str mname]])] := rfl
    have h7 : ((jointGroups motors mname (.revol p)).take 7).foldl (fun r g => rdAll g.1 g.2 r) (.ok ⟨p0, noname⟩) =
        .ok ⟨(mid (.revol p)).withMotor .none, noname⟩ := by
      simp only [Prp.fresh, Prp.neutral, Prp.setDis, Vec3.ofBuf, Option.some.injEq, Option.map_some] at h0
      subst h0
      simp only [jointGroups, jointTab, coef1, List.cons_append, List.nil_append, List.zip_cons_cons, List.zip_nil_right,
        List.take_succ_cons, List.take_zero, List.foldl_cons, List.foldl_nil]
      rw [rd_dis _ rfl]
      simp only [deg2rad_rad2deg]
      iterate 6 rw [rd_revol _ _ (by first | exact numTok_num _ | exact limTok_tokLim _ _ | exact degTok_tokDeg _ _)]
      rfl
    rw [e, List.foldl_append, h7]
    exact motorRow_rd _ rfl (hm _ rfl)
  | prism p =>
    have e : jointGroups motors mname (.prism p) =
        (jointGroups motors mname (.prism p)).take 7 ++ [(motorRow motors, [[.str mname]])] := rfl
    have h7 : ((jointGroups motors mname (.prism p)).take 7).foldl (fun r g => rdAll g.1 g.2 r) (.ok ⟨p0, noname⟩) =
        .ok ⟨(mid (.prism p)).withMotor .none, noname⟩ := by
      simp only [Prp.fresh, Prp.neutral, Prp.setDis, Vec3.ofBuf, Option.some.injEq, Option.map_some] at h0
      subst h0
      simp only [jointGroups, jointTab, coef1, List.cons_append, List.nil_append, List.zip_cons_cons, List.zip_nil_right,
        List.take_succ_cons, List.take_zero, List.foldl_cons, List.foldl_nil]
      rw [rd_dis _ rfl]
      iterate 6 rw [rd_prism _ _ (by first | exact numTok_num _ | exact limTok_tokLim _ _ | exact degTok_tokDeg _ _)]
      rfl
    rw [e, List.foldl_append, h7]
    exact motorRow_rd _ rfl (hm _ rfl)
  | cylin p =>
    have e : jointGroups motors mname (.cylin p) =
        (jointGroups motors mname (.cylin p)).take 7 ++ [(motorRow motors, [[.str mname]])] := rfl
    have h7 : ((jointGroups motors mname (.cylin p)).take 7).foldl (fun r g => rdAll g.1 g.2 r) (.ok ⟨p0, noname⟩) =
        .ok ⟨(mid (.cylin p)).withMotor .none, noname⟩ := by
      simp only [Prp.fresh, Prp.neutral, Prp.setDis, Vec3.ofBuf, Option.some.injEq, Option.map_some] at h0
      subst h0
      simp only [jointGroups, jointTab, coef2, List.cons_append, List.nil_append, List.zip_cons_cons, List.zip_nil_right,
        List.take_succ_cons, List.take_zero, List.foldl_cons, List.foldl_nil]
      rw [rd_dis _ rfl]
      simp only [deg2rad_rad2deg]
      iterate 6 rw [rd_cylin _ _ (by first | exact numTok_num _ | exact limTok_tokLim _ _ | exact degTok_tokDeg _ _) (by first | exact numTok_num _ | exact limTok_tokLim _ _ | exact degTok_tokDeg _ _)]
      rfl
    rw [e, List.foldl_append, h7]
    exact motorRow_rd _ rfl (hm _ rfl)
  | hooke p =>
    have e : jointGroups motors mname (.hooke p) =
        (jointGroups motors mname (.hooke p)).take 7 ++ [(motorRow motors, [[.str mname]])] := rfl
    have h7 : ((jointGroups motors mname (.hooke p)).take 7).foldl (fun r g => rdAll g.1 g.2 r) (.ok ⟨p0, noname⟩) =
        .ok ⟨(mid (.hooke p)).withMotor .none, noname⟩ := by
      simp only [Prp.fresh, Prp.neutral, Prp.setDis, Vec3.ofBuf, Option.some.injEq, Option.map_some] at h0
      subst h0
      simp only [jointGroups, jointTab, coef2, List.cons_append, List.nil_append, List.zip_cons_cons, List.zip_nil_right,
        List.take_succ_cons, List.take_zero, List.foldl_cons, List.foldl_nil]
      rw [rd_dis _ rfl]
      simp only [deg2rad_rad2deg]
      iterate 6 rw [rd_hooke _ _ (by first | exact numTok_num _ | exact limTok_tokLim _ _ | exact degTok_tokDeg _ _) (by first | exact numTok_num _ | exact limTok_tokLim _ _ | exact degTok_tokDeg _ _)]
      rfl
    rw [e, List.foldl_append, h7]
    exact motorRow_rd _ rfl (hm _ rfl)
  | spher p =>
    have e : jointGroups motors mname (.spher p) =
        (jointGroups motors mname (.spher p)).take 1 ++ [(motorRow motors, [[.str mname]])] := rfl
    have h7 : ((jointGroups motors mname (.spher p)).take 1).foldl (fun r g => rdAll g.1 g.2 r) (.ok ⟨p0, noname⟩) =
        .ok ⟨(mid (.spher p)).withMotor .none, noname⟩ := by
      simp only [Prp.fresh, Prp.neutral, Prp.setDis, Vec3.ofBuf, Option.some.injEq, Option.map_some] at h0
      subst h0
      simp only [jointGroups, jointTab, List.cons_append, List.nil_append, List.zip_cons_cons, List.zip_nil_right,
        List.take_succ_cons, List.take_zero, List.foldl_cons, List.foldl_nil]
      rw [rd_dis _ rfl]
      rfl
    rw [e, List.foldl_append, h7]
    exact motorRow_rd _ rfl (hm _ rfl)
  | float p =>
    simp [Prp.fresh, Prp.neutral, Prp.setDis, Vec6.ofBuf] at h0
    subst h0
    simp [jointGroups, jointTab, rdAll, disRow, disRead, Prp.setDis, mid, rest, vecTok, tokVec, Vec6.ofBuf, Vec3.toBuf, hn rfl]
  | brfloat p =>
    simp [Prp.fresh, Prp.neutral, Prp.setDis, Vec6.ofBuf] at h0
    subst h0
    simp [jointGroups, jointTab, rdAll, disRow, rowF, disRead, Prp.setDis, mid, rest, vecTok, tokVec, Vec6.ofBuf, Vec3.toBuf, hn rfl]
end
end Roki.ZTK
