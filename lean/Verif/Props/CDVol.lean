import Verif.Lemmas.CDVol
import Verif.Spec.CDVol
import Verif.Props.CDQuery
import Verif.Lemmas.Vec
set_option autoImplicit false

/-!
# Collision volumes and their normals (C91, C92)
-/

namespace Roki
variable {K : Type*} [Field K] {G : CDGeo K}
open CD Spec

theorem brepNorm_eq (b1 b2 : BRepS K) : brepNorm G b1 b2 =
    if G.tiny (areaSum b2 - areaSum b1) then ⟨0, 0, 1⟩ else G.normalize (areaSum b2 - areaSum b1) := by
  have h1 : ∀ (l : List (Vec3 K × Vec3 K × Vec3 K)) (n : Vec3 K), l.foldl (fun n t => n - areaVec t) n =
      n - (l.map areaVec).sum := by
    intro l
    induction l with
    | nil => intro n; simp
    | cons t l ih => intro n; simp only [List.foldl_cons, ih, List.map_cons, List.sum_cons]; abel
  have h2 : ∀ (l : List (Vec3 K × Vec3 K × Vec3 K)) (n : Vec3 K), l.foldl (fun n t => n + areaVec t) n =
      n + (l.map areaVec).sum := by
    intro l
    induction l with
    | nil => intro n; simp
    | cons t l ih => intro n; simp only [List.foldl_cons, ih, List.map_cons, List.sum_cons]; abel
  have e : b2.tri.foldl (fun n t => n + areaVec t) (b1.tri.foldl (fun n t => n - areaVec t) 0) = areaSum b2 - areaSum b1 := by
    rw [h1, h2, areaSum, areaSum]
    show 0 - (b1.tri.map areaVec).sum + (b2.tri.map areaVec).sum = (b2.tri.map areaVec).sum - (b1.tri.map areaVec).sum
    abel
  simp only [brepNorm, e]

/-- What the result of a query by boundary representations says about a pair of cells with polyhedra `a`, `b`. -/
structure Spec.VolResult (V : VolGeo K) (G : CDGeo K) (a b : PH K) (b1 b2 : BRepS K) (q : CDPair K) (y : VolInfo K) :
    Prop where
  cut : Cut V a b b1 b2
  solid : Solid (common V b1 b2)
  vol : q.colvol = common V b1 b2
  normal : y.norm = if G.tiny (areaSum b2 - areaSum b1) then ⟨0, 0, 1⟩ else G.normalize (areaSum b2 - areaSum b1)
  axis0 : y.axis0 = y.norm
  axes : (y.axis1, y.axis2) = G.ortho y.norm
  center : y.center = V.bary q.colvol

theorem outBREP_spec (V : VolGeo K) (p : CDPair K) (hp : p.isCol = true) (x : VolInfo K) (a b : PH K)
    (o : (CDPair K × VolInfo K) × ℕ) (ho : outBREP V G p x a b = o) :
    ((o.1.1.isCol = true ↔ ∃ b1 b2, Cut V a b b1 b2 ∧ Solid (common V b1 b2)) ∧
    (o.1.1.isCol = true →
      ∃ b1 b2, VolResult V G a b b1 b2 o.1.1 o.1.2)) ∧
    o.2 = (if o.1.1.isCol then 1 else 0) ∧
    o.1.1.c0 = p.c0 ∧ o.1.1.c1 = p.c1 ∧
    o.1.2.rigid = x.rigid := by
  unfold outBREP at ho
  cases h1 : V.trunc (V.ofPH a) b with
  | none => rw [h1] at ho; subst ho; simp [Cut, h1]
  | some b1 =>
    cases h2 : V.trunc (V.ofPH b) a with
    | none => rw [h1, h2] at ho; subst ho; simp [Cut, h2]
    | some b2 =>
      rw [h1, h2] at ho
      simp only at ho
      by_cases he : (b1.vert.isEmpty && b2.vert.isEmpty) = true
      · rw [if_pos he] at ho; subst ho
        simp only [Bool.and_eq_true, List.isEmpty_iff] at he
        simp [Cut, h1, h2, he]
      · rw [if_neg he] at ho
        have he' : b1.vert ≠ [] ∨ b2.vert ≠ [] := by
          simp only [Bool.and_eq_true, List.isEmpty_iff, not_and_or] at he; exact he
        by_cases hs : (decide ((mergeCH V b1 b2).vert.length < 4) || decide ((mergeCH V b1 b2).face.length < 4)) = true
        · rw [if_pos hs] at ho; subst ho
          simp only [Bool.or_eq_true, decide_eq_true_eq] at hs
          have : ¬ Solid (common V b1 b2) := by
            rintro ⟨i, j⟩
            have e : mergeCH V b1 b2 = common V b1 b2 := rfl
            rw [e] at hs; omega
          simp [Cut, h1, h2]
          exact fun _ h => this h
        · rw [if_neg hs] at ho; subst ho
          simp only [Bool.or_eq_true, decide_eq_true_eq, not_or, not_lt] at hs
          have hs' : Solid (common V b1 b2) := hs
          refine ⟨⟨?_, fun _ => ⟨b1, b2, ⟨⟨h1, h2, he'⟩, hs', rfl, ?_, rfl, rfl, rfl⟩⟩⟩, ?_, rfl, rfl, rfl⟩
          · simp only [hp, true_iff]
            exact ⟨b1, b2, ⟨h1, h2, he'⟩, hs'⟩
          · exact brepNorm_eq b1 b2
          · simp [hp]

private theorem boxes_iff {cd : CD K G} (hg : ∀ c ∈ cd.cells, Good c) {p : CDPair K} {a b : CDCell K G} (W : ℕ → Frame K)
    (ha : deref cd.cells p.c0 = some a) (hb : deref cd.cells p.c1 = some b) :
    (resAABB W cd.cells p && resBox W cd.cells p) = true ↔ BoxesMeet W a b := by
  simp only [resAABB, resBox, withCells_eq ha hb, seenAABB_eq (hg a (deref_mem ha).1), seenAABB_eq (hg b (deref_mem hb).1),
    Bool.and_eq_true, BoxesMeet]

private theorem map_fst_zip {α β : Type*} : ∀ {l : List α} {m : List β}, m.length = l.length → (l.zip m).map (·.1) = l
  | [], [], _ => rfl
  | _ :: l, _ :: m, h => by simp [map_fst_zip (l := l) (m := m) (by simpa using h)]

private theorem map_snd_zip {α β : Type*} : ∀ {l : List α} {m : List β}, m.length = l.length → (l.zip m).map (·.2) = m
  | [], [], _ => rfl
  | _ :: l, _ :: m, h => by simp [map_snd_zip (l := l) (m := m) (by simpa using h)]

/-- C91: after any history, `rkCDColVolBREP` counts the pairs that it marks.  It marks exactly the pairs whose boxes collide and
whose truncated boundaries span a solid; the volume of such a pair is the hull of the two boundaries, the normal is that of the
boundary of the second cell less that of the first, the axes are the normal and its orthogonal directions, and the center is
that of the volume. -/
theorem C91_brep (V : VolGeo K) (hV : HullValid V) (ops : List (CD.Op K G)) (ho : ∀ op ∈ ops, op.Plain) (cd : CD K G)
    (h : create.runAll ops = some cd) (W : ℕ → Frame K) (xs : List (VolInfo K)) (hx : xs.length = cd.pairs.length) :
    ∃ cd' xs', cd.colVolBREP V W xs = some (cd', xs') ∧
      cd'.pairs.map (fun p => (p.c0, p.c1)) = cd.pairs.map (fun p => (p.c0, p.c1)) ∧ xs'.length = cd'.pairs.length ∧
      cd'.colnum = cd'.pairs.countP (fun p => p.isCol) ∧
      ∀ (i : ℕ) (q : CDPair K) (y : VolInfo K), cd'.pairs[i]? = some q → xs'[i]? = some y → On cd (fun a b =>
        (q.isCol = true ↔ BoxesMeet W a b ∧
          ∃ b1 b2, Cut V (seenPH W a) (seenPH W b) b1 b2 ∧ Solid (common V b1 b2)) ∧
        (q.isCol = true → ∃ b1 b2, VolResult V G (seenPH W a) (seenPH W b) b1 b2 q y)) q := by
  obtain ⟨hi, hg⟩ := good_of_runAll ho h
  by_cases hp : cd.pairs = []
  · have hx0 : xs = [] := List.length_eq_zero_iff.1 (by rw [hx, hp]; rfl)
    refine ⟨_, _, by rw [colVolBREP, volQuery, (queries_nil W hp).2.1, Option.bind_some, hp, List.zip_nil_left]; rfl, ?_, ?_,
      ?_, ?_⟩ <;> simp [hp]
  · have hf : ∀ c ∈ cd.cells, Fit c := fun c hc => (hg c hc).fit
    obtain ⟨cells, e⟩ := colVolBREP_eq hV W hi.ready hf hp xs
    -- one pair
    have one : ∀ z ∈ cd.pairs.zip xs, ∃ a b, deref cd.cells z.1.c0 = some a ∧ deref cd.cells z.1.c1 = some b ∧
        ∀ o, o = volOut W cd.cells (fun p x a b => if p.isCol then outBREP V G p x a.ph b.ph else ((p, x), 0)) z →
        o.1.1.c0 = z.1.c0 ∧ o.1.1.c1 = z.1.c1 ∧ o.2 = (if o.1.1.isCol then 1 else 0) ∧
        (o.1.1.isCol = true ↔ BoxesMeet W a b ∧
          ∃ b1 b2, Cut V (seenPH W a) (seenPH W b) b1 b2 ∧ Solid (common V b1 b2)) ∧
        (o.1.1.isCol = true → ∃ b1 b2, VolResult V G (seenPH W a) (seenPH W b) b1 b2 o.1.1 o.1.2) := by
      intro z hz
      obtain ⟨a, b, ha, hb⟩ := hi.live z.1 (List.of_mem_zip (a := z.1) (b := z.2) hz).1
      refine ⟨a, b, ha, hb, ?_⟩
      rintro o rfl
      rw [volOut, withCells_eq ha hb]
      have hbx := boxes_iff hg W ha hb
      cases hr : (resAABB W cd.cells z.1 && resBox W cd.cells z.1) with
      | false =>
        rw [hr] at hbx
        simp only [Bool.false_eq_true, false_iff] at hbx
        simp [markP, hbx]
      | true =>
        rw [hr] at hbx
        have hbx := hbx.1 rfl
        have s := outBREP_spec (G := G) V (markP true z.1) rfl z.2 (seenPH W a) (seenPH W b) _ rfl
        rw [if_pos (by rfl)]
        exact ⟨s.2.2.1, s.2.2.2.1, s.2.1, s.1.1.trans ⟨fun h => ⟨hbx, h⟩, fun h => h.2⟩, s.1.2⟩
    refine ⟨_, _, e, ?_, ?_, ?_, ?_⟩
    · simp only [List.map_map]
      conv_rhs => rw [← map_fst_zip hx, List.map_map]
      refine List.map_congr_left fun z hz => ?_
      obtain ⟨a, b, ha, hb, ho⟩ := one z hz
      simp only [Function.comp, (ho _ rfl).1, (ho _ rfl).2.1]
    · simp
    · simp only [List.countP_map]
      rw [countP_sum]
      refine congrArg List.sum (List.map_congr_left fun z hz => ?_)
      obtain ⟨a, b, ha, hb, ho⟩ := one z hz
      simp only [(ho _ rfl).2.2.1]
      rfl
    · intro i q y hq hy
      simp only [List.getElem?_map, Option.map_eq_some_iff] at hq hy
      obtain ⟨z, hz, rfl⟩ := hq
      obtain ⟨z', hz', rfl⟩ := hy
      have : z = z' := Option.some.inj (hz.symm.trans hz')
      subst this
      obtain ⟨a, b, ha, hb, ho⟩ := one z (List.mem_of_getElem? hz)
      obtain ⟨h1, h2, -, h4, h5⟩ := ho _ rfl
      exact ⟨a, (deref_mem ha).1, b, (deref_mem hb).1, by rw [h1]; exact (deref_mem ha).2,
        by rw [h2]; exact (deref_mem hb).2, h4, h5⟩

/-- C91: after any history, `rkCDColVolBREPVert` treats a pair with rigid contact as `rkCDColVolBREP` does, and any other pair as
`rkCDColChkVert` does; the count is the number of marked rigid pairs plus the number of vertices listed for the others. -/
theorem C91_brepVert (V : VolGeo K) (hV : HullValid V) (ops : List (CD.Op K G)) (ho : ∀ op ∈ ops, op.Plain) (cd : CD K G)
    (h : create.runAll ops = some cd) (W : ℕ → Frame K) (xs : List (VolInfo K)) (hx : xs.length = cd.pairs.length) :
    ∃ cd' xs', cd.colVolBREPVert V W xs = some (cd', xs') ∧
      cd'.pairs.map (fun p => (p.c0, p.c1)) = cd.pairs.map (fun p => (p.c0, p.c1)) ∧
      xs'.map (·.rigid) = xs.map (·.rigid) ∧
      cd'.colnum = ((cd'.pairs.zip xs').map fun z =>
        if z.2.rigid then (if z.1.isCol then 1 else 0) else z.1.vlist.length).sum ∧
      ∀ (i : ℕ) (q : CDPair K) (y : VolInfo K), cd'.pairs[i]? = some q → xs'[i]? = some y → On cd (fun a b =>
        if y.rigid then
          (q.isCol = true ↔ BoxesMeet W a b ∧
            ∃ b1 b2, Cut V (seenPH W a) (seenPH W b) b1 b2 ∧ Solid (common V b1 b2)) ∧
          (q.isCol = true → ∃ b1 b2, VolResult V G (seenPH W a) (seenPH W b) b1 b2 q y)
        else q.isCol = true ↔ q.vlist ≠ []) q := by
  obtain ⟨hi, hg⟩ := good_of_runAll ho h
  by_cases hp : cd.pairs = []
  · have hx0 : xs = [] := List.length_eq_zero_iff.1 (by rw [hx, hp]; rfl)
    refine ⟨_, _, by rw [colVolBREPVert, volQuery, (queries_nil W hp).2.1, Option.bind_some, hp, List.zip_nil_left]; rfl, ?_,
      ?_, ?_, ?_⟩ <;> simp [hp, hx0]
  · have hf : ∀ c ∈ cd.cells, Fit c := fun c hc => (hg c hc).fit
    obtain ⟨cells, e⟩ := colVolBREPVert_eq hV W hi.ready hf hp xs
    have one : ∀ z ∈ cd.pairs.zip xs, ∃ a b, deref cd.cells z.1.c0 = some a ∧ deref cd.cells z.1.c1 = some b ∧
        ∀ o, o = volOut W cd.cells (fun p x (a b : CDCell K G) => if p.isCol then
          if x.rigid then outBREP V G p x a.ph b.ph else
            (((pairVert W cd.defType p a b).1, x), (pairVert W cd.defType p a b).2)
          else (({ p with vlist := [] }, x), 0)) z →
        o.1.1.c0 = z.1.c0 ∧ o.1.1.c1 = z.1.c1 ∧ o.1.2.rigid = z.2.rigid ∧
        o.2 = (if o.1.2.rigid then (if o.1.1.isCol then 1 else 0) else o.1.1.vlist.length) ∧
        if o.1.2.rigid then
          (o.1.1.isCol = true ↔ BoxesMeet W a b ∧
            ∃ b1 b2, Cut V (seenPH W a) (seenPH W b) b1 b2 ∧ Solid (common V b1 b2)) ∧
          (o.1.1.isCol = true → ∃ b1 b2, VolResult V G (seenPH W a) (seenPH W b) b1 b2 o.1.1 o.1.2)
        else o.1.1.isCol = true ↔ o.1.1.vlist ≠ [] := by
      intro z hz
      obtain ⟨a, b, ha, hb⟩ := hi.live z.1 (List.of_mem_zip (a := z.1) (b := z.2) hz).1
      refine ⟨a, b, ha, hb, ?_⟩
      rintro o ho
      rw [volOut, withCells_eq ha hb] at ho
      have hbx := boxes_iff hg W ha hb
      cases hr : (resAABB W cd.cells z.1 && resBox W cd.cells z.1) with
      | false =>
        rw [hr] at hbx ho
        simp only [Bool.false_eq_true, false_iff] at hbx
        subst ho
        simp [markP, hbx]
      | true =>
        rw [hr] at hbx ho
        have hbx := hbx.1 rfl
        rw [if_pos (by rfl)] at ho
        by_cases hg : z.2.rigid = true
        · rw [if_pos hg] at ho
          have s := outBREP_spec (G := G) V (markP true z.1) rfl z.2 (seenPH W a) (seenPH W b) o ho.symm
          rw [s.2.2.2.2, hg, if_pos rfl, if_pos rfl]
          exact ⟨s.2.2.1, s.2.2.2.1, rfl, s.2.1, s.1.1.trans ⟨fun h => ⟨hbx, h⟩, fun h => h.2⟩, s.1.2⟩
        · rw [if_neg hg] at ho
          have s := pairVert_spec W cd.defType (markP true z.1) rfl (seen W a) (seen W b)
          subst ho
          rw [if_neg hg, if_neg hg]
          exact ⟨rfl, rfl, rfl, s.2, s.1⟩
    refine ⟨_, _, e, ?_, ?_, ?_, ?_⟩
    · simp only [List.map_map]
      conv_rhs => rw [← map_fst_zip hx, List.map_map]
      refine List.map_congr_left fun z hz => ?_
      obtain ⟨a, b, ha, hb, ho⟩ := one z hz
      simp only [Function.comp, (ho _ rfl).1, (ho _ rfl).2.1]
    · simp only [List.map_map]
      conv_rhs => rw [← map_snd_zip hx, List.map_map]
      refine List.map_congr_left fun z hz => ?_
      obtain ⟨a, b, ha, hb, ho⟩ := one z hz
      simp only [Function.comp, (ho _ rfl).2.2.1]
    · simp only [List.zip_map', List.map_map]
      refine congrArg List.sum (List.map_congr_left fun z hz => ?_)
      obtain ⟨a, b, ha, hb, ho⟩ := one z hz
      exact (ho _ rfl).2.2.2.1
    · intro i q y hq hy
      simp only [List.getElem?_map, Option.map_eq_some_iff] at hq hy
      obtain ⟨z, hz, rfl⟩ := hq
      obtain ⟨z', hz', rfl⟩ := hy
      have : z = z' := Option.some.inj (hz.symm.trans hz')
      subst this
      obtain ⟨a, b, ha, hb, ho⟩ := one z (List.mem_of_getElem? hz)
      obtain ⟨h1, h2, -, -, h5⟩ := ho _ rfl
      exact ⟨a, (deref_mem ha).1, b, (deref_mem hb).1, by rw [h1]; exact (deref_mem ha).2,
        by rw [h2]; exact (deref_mem hb).2, h5⟩

/-! ## The fast variant -/

/-- C91 for `rkCDColVolBREPFast`, if the boxes of the polyhedra intersect for every pair whose cells have colliding boxes: the count
is the number of marked pairs.  What is missing is shown by `C91_fast_fails`. -/
theorem C91_fast_partial (V : VolGeo K) (hV : HullValid V) (ops : List (CD.Op K G)) (ho : ∀ op ∈ ops, op.Plain)
    (cd : CD K G) (h : create.runAll ops = some cd) (W : ℕ → Frame K) (xs : List (VolInfo K))
    (hx : xs.length = cd.pairs.length)
    (hb : ∀ a ∈ cd.cells, ∀ b ∈ cd.cells, BoxesMeet W a b → V.interBox (seenPH W a) (seenPH W b) ≠ none) :
    ∃ cd' xs', cd.colVolBREPFast V W xs = some (cd', xs') ∧
      cd'.pairs.map (fun p => (p.c0, p.c1)) = cd.pairs.map (fun p => (p.c0, p.c1)) ∧
      cd'.colnum = cd'.pairs.countP (fun p => p.isCol) := by
  obtain ⟨hi, hg⟩ := good_of_runAll ho h
  by_cases hp : cd.pairs = []
  · refine ⟨_, _, by rw [colVolBREPFast, (queries_nil W hp).2.1, Option.bind_some, hp, List.zip_nil_left]; rfl, ?_, ?_⟩ <;>
      simp [hp]
  · have hf : ∀ c ∈ cd.cells, Fit c := fun c hc => (hg c hc).fit
    obtain ⟨cells, e⟩ := colVolBREPFast_eq hV W hi.ready hf hp xs (fun p _ a b ha hb' hr =>
      hb a (deref_mem ha).1 b (deref_mem hb').1 ((boxes_iff hg W ha hb').1 hr))
    have one : ∀ z ∈ cd.pairs.zip xs,
        ∀ o, o = volOut W cd.cells (fun p x a b => if p.isCol then outFast V G p x a.ph b.ph else ((p, x), 0)) z →
        o.1.1.c0 = z.1.c0 ∧ o.1.1.c1 = z.1.c1 ∧ o.2 = (if o.1.1.isCol then 1 else 0) := by
      rintro z hz o rfl
      obtain ⟨a, b, ha, hb⟩ := hi.live z.1 (List.of_mem_zip (a := z.1) (b := z.2) hz).1
      rw [volOut, withCells_eq ha hb]
      cases hr : (resAABB W cd.cells z.1 && resBox W cd.cells z.1) with
      | false => simp [markP]
      | true =>
        rw [if_pos (by rfl)]
        unfold outFast
        repeat' split
        all_goals first | exact ⟨rfl, rfl, rfl⟩ | (exfalso; simp_all [markP])
    refine ⟨_, _, e, ?_, ?_⟩
    · simp only [List.map_map]
      conv_rhs => rw [← map_fst_zip hx, List.map_map]
      refine List.map_congr_left fun z hz => ?_
      simp only [Function.comp, (one z hz _ rfl).1, (one z hz _ rfl).2.1]
    · simp only [List.countP_map]
      rw [countP_sum]
      refine congrArg List.sum (List.map_congr_left fun z hz => ?_)
      simp only [(one z hz _ rfl).2.2]
      rfl

/-- C91 fails for `rkCDColVolBREPFast`: after any history, if the boxes of the polyhedra of the first pair that passes the box tests do
not intersect, boundary representations that were never initialised are destroyed. -/
theorem C91_fast_fails (V : VolGeo K) (ops : List (CD.Op K G)) (ho : ∀ op ∈ ops, op.Plain) (cd : CD K G)
    (h : create.runAll ops = some cd) (W : ℕ → Frame K) (xs : List (VolInfo K)) (hx : xs.length = cd.pairs.length)
    (pre post : List (CDPair K)) (p : CDPair K) (he : cd.pairs = pre ++ p :: post)
    (h1 : ∀ q ∈ pre, On cd (fun a b => ¬ BoxesMeet W a b) q)
    (h2 : On cd (fun a b => BoxesMeet W a b ∧ V.interBox (seenPH W a) (seenPH W b) = none) p) :
    cd.colVolBREPFast V W xs = none := by
  obtain ⟨hi, hg⟩ := good_of_runAll ho h
  have hf : ∀ c ∈ cd.cells, Fit c := fun c hc => (hg c hc).fit
  have hp : cd.pairs ≠ [] := by rw [he]; simp
  obtain ⟨S, e1, -⟩ := colChkOBB_eq W hi.ready hp
  rw [map_boxed] at e1
  have hn : (ptrs (cd.cells.map (boxed W S))).Nodup := by rw [ptrs_map (boxed_ptr W S)]; exact hi.ready.nodup
  have hfit : ∀ c ∈ cd.cells.map (boxed W S), Fit c := by
    intro c hc
    obtain ⟨d, hd, rfl⟩ := List.mem_map.1 hc
    exact boxed_fit W S (hf d hd)
  have hd : ∀ {p c}, deref cd.cells p = some c → deref (cd.cells.map (boxed W S)) p = some (boxed W S c) := by
    intro p c hc; rw [deref_map (boxed_ptr W S), hc]; rfl
  obtain ⟨a, ma, b, mb, pa, pb, hm, hbx⟩ := h2
  have da : deref cd.cells p.c0 = some a := by rw [← pa]; exact deref_of_mem hi.ready.nodup ma
  have db : deref cd.cells p.c1 = some b := by rw [← pb]; exact deref_of_mem hi.ready.nodup mb
  -- the list of pairs with their data
  obtain ⟨xa, x, xb, rfl, hxa⟩ : ∃ xa x xb, xs = xa ++ x :: xb ∧ xa.length = pre.length := by
    have hl : pre.length < xs.length := by rw [hx, he]; simp
    exact ⟨xs.take pre.length, xs[pre.length], xs.drop (pre.length + 1), by simp, by simp; omega⟩
  rw [colVolBREPFast, e1, Option.bind_some]
  simp only
  rw [he, List.map_append, List.map_cons, List.zip_append (by simp [hxa]), List.zip_cons_cons]
  have := fastLoop_none (V := V) W hn hfit (markP (resAABB W cd.cells p && resBox W cd.cells p) p, x)
    ((post.map fun p => markP (resAABB W cd.cells p && resBox W cd.cells p) p).zip xb) [] (hd da) (hd db)
    ((boxes_iff hg W da db).2 hm) (by rw [(boxed_seen W S a).1, (boxed_seen W S b).1]; exact hbx)
    ((pre.map fun p => markP (resAABB W cd.cells p && resBox W cd.cells p) p).zip xa) (by
      intro q hq
      have hq' := (List.of_mem_zip (a := q.1) (b := q.2) hq).1
      obtain ⟨q0, hq0, e0⟩ := List.mem_map.1 hq'
      obtain ⟨a', ma', b', mb', pa', pb', hm'⟩ := h1 q0 hq0
      have da' : deref cd.cells q0.c0 = some a' := by rw [← pa']; exact deref_of_mem hi.ready.nodup ma'
      have db' : deref cd.cells q0.c1 = some b' := by rw [← pb']; exact deref_of_mem hi.ready.nodup mb'
      rw [← e0]
      show (resAABB W cd.cells q0 && resBox W cd.cells q0) = false
      rw [← Bool.not_eq_true, boxes_iff hg W da' db']
      exact hm')
  rw [rf_nil] at this
  rw [this]; rfl

/-! ## The check of the indices -/

omit [Field K] in
/-- C91: what the check of the volume accepts. -/
theorem C91_check (ph : PH K) : volError ph = false ↔
    ∀ f ∈ ph.face, f.1 ≤ ph.vert.length ∧ f.2.1 ≤ ph.vert.length ∧ f.2.2 ≤ ph.vert.length := by
  simp only [volError, List.any_eq_false, Bool.or_eq_true, decide_eq_true_eq, not_or, not_lt, gt_iff_lt, and_assoc]

namespace Sample

/-- A tetrahedron with a corner at `v`. -/
def tetra (v : Vec3 ℚ) (k : ℕ) : PH ℚ :=
  ⟨[v, v + ⟨1, 0, 0⟩, v + ⟨0, 1, 0⟩, v + ⟨0, 0, 1⟩], [(0, 2, 1), (0, 1, 3), (0, 3, 2), (1, 2, k)]⟩

/-- Boundaries are the vertices and one face; a hull is a tetrahedron, whose last face ends at vertex `k`. -/
def vols (k : ℕ) : VolGeo ℚ where
  Box := Unit
  ofPH a := ⟨a.vert, []⟩
  interBox a b := if near 0 a b then some () else none
  ofPHIn a _ := ⟨a.vert, []⟩
  trunc b ph := if near 0 ⟨b.vert, []⟩ ph then
    some ⟨b.vert.filter fun v => decide (lo ph ≤ v.x) && decide (v.x ≤ hi ph),
      [(⟨0, 0, 0⟩, ⟨0, 1, 0⟩, ⟨0, 0, (ph.vert.length : ℚ) - (hi ph - lo ph)⟩)]⟩ else none
  hull l := match l with
    | [] => PH.empty
    | v :: _ => tetra v k
  bary ph := (ph.vert.head?).getD 0

/-- No data yet. -/
def info (r : Bool) : VolInfo ℚ := ⟨0, 0, 0, 0, 0, r⟩

theorem vols_valid : HullValid (vols 3) := by
  intro l f hf
  cases l with
  | nil => simp [vols, PH.empty] at hf
  | cons v l =>
    simp only [vols, tetra, List.mem_cons, List.not_mem_nil, or_false] at hf ⊢
    rcases hf with rfl | rfl | rfl | rfl <;> simp

end Sample

/-- C91 fails: the check accepts a face that refers to a vertex one past the last, and the query then reads it. -/
theorem C91_index_fails : ∃ (V : VolGeo ℚ) (ops : List (CD.Op ℚ Sample.geo)) (W : ℕ → Frame ℚ) (xs : List (VolInfo ℚ)),
    (create.runAll ops).map (fun cd => (cd.pairs.length, (cd.colVolBREP V W xs).isSome)) = some (xs.length, false) := by
  refine ⟨Sample.vols 4, Sample.two (fun i => 10 * i), Sample.along fun _ => 20, [Sample.info true, Sample.info true, Sample.info true], ?_⟩
  decide +kernel

/-! ## The normal -/

/-- C92: the normal of a collision volume reverses if the two cells are exchanged, unless the volume has no distinct normal. -/
theorem C92_exchange (hn : ∀ v, G.normalize (-v) = -G.normalize v) (ht : ∀ v, G.tiny (-v) = G.tiny v) (b1 b2 : BRepS K)
    (h : G.tiny (areaSum b2 - areaSum b1) = false) : brepNorm G b2 b1 = -brepNorm G b1 b2 := by
  have e : areaSum b1 - areaSum b2 = -(areaSum b2 - areaSum b1) := by abel
  rw [brepNorm_eq, brepNorm_eq, e, ht, h, hn]; rfl

/-- C92: the normal does not depend on the order in which the faces are listed, nor on the corner at which a face begins. -/
theorem C92_order (b1 b2 b1' b2' : BRepS K) (h1 : b1.tri.Perm b1'.tri)
    (h2 : b2'.tri = b2.tri.map fun t => (t.2.1, t.2.2, t.1)) : brepNorm G b1 b2 = brepNorm G b1' b2' := by
  have e1 : areaSum b1 = areaSum b1' := (h1.map _).sum_eq
  have e2 : areaSum b2 = areaSum b2' := by
    unfold areaSum
    rw [h2, List.map_map]
    refine congrArg List.sum (List.map_congr_left fun t _ => ?_)
    obtain ⟨p, q, r⟩ := t
    simp only [Function.comp]
    vec_ring
  rw [brepNorm_eq, brepNorm_eq, e1, e2]

/-- C92: if the two boundaries together close, the normal has the direction of the area vector of the boundary of the second
cell. -/
theorem C92_closed (hs : ∀ v, G.normalize ((2 : K) • v) = G.normalize v) (b1 b2 : BRepS K)
    (h : areaSum b1 + areaSum b2 = 0) (ht : G.tiny (areaSum b2 - areaSum b1) = false) :
    brepNorm G b1 b2 = G.normalize (areaSum b2) := by
  have e : areaSum b2 - areaSum b1 = (2 : K) • areaSum b2 := by
    rw [eq_neg_of_add_eq_zero_left h, two_smul]; abel
  rw [brepNorm_eq, ht, e, hs]; rfl

omit [Field K] in
private theorem forVols_norm {body : CDPair K → VolInfo K → List (CDCell K G) →
      Option (((CDPair K × VolInfo K) × ℕ) × List (CDCell K G))}
    (hb : ∀ p x cs r, body p x cs = some r → r.1.1.2.norm = x.norm ∧
      (r.1.1.1.isCol = true → p.isCol = true → r.1.1.2.axis0 = x.norm ∧ (r.1.1.2.axis1, r.1.1.2.axis2) = G.ortho x.norm) ∧
      (r.1.1.1.isCol = true → p.isCol = true)) :
    ∀ (ps : List (CDPair K × VolInfo K)) (cs : List (CDCell K G)) (r), forVols body ps cs = some r →
      List.Forall₂ (fun p o => o.2.norm = p.2.norm ∧ (o.1.isCol = true → o.2.axis0 = p.2.norm ∧
        (o.2.axis1, o.2.axis2) = G.ortho p.2.norm)) ps r.1.1
  | [], cs, r, h => by simp only [forVols, Option.some.injEq] at h; subst h; exact .nil
  | p :: ps, cs, r, h => by
    simp only [forVols, Option.bind_eq_bind, Option.bind_eq_some_iff, Option.pure_def, Option.some.injEq] at h
    obtain ⟨⟨⟨p', n⟩, cs'⟩, h1, ⟨⟨ps', m⟩, cs''⟩, h2, rfl⟩ := h
    have := hb _ _ _ _ h1
    exact .cons ⟨this.1, fun h => this.2.1 h (this.2.2 h)⟩ (forVols_norm hb ps cs' _ h2)

/-- C92 fails: `rkCDColVol` does not compute the normal.  At whatever poses it is called, the normals of all pairs remain as they
were, and the axes of a pair that it marks are made from the normal that an earlier query left. -/
theorem C92_vol_fails (V : VolGeo K) (W : ℕ → Frame K) (cd cd' : CD K G) (xs xs' : List (VolInfo K))
    (hx : xs.length = cd.pairs.length) (h : cd.colVolX V W xs = some (cd', xs')) :
    xs'.map (·.norm) = xs.map (·.norm) ∧
      ∀ (i : ℕ) (q : CDPair K) (x y : VolInfo K), cd'.pairs[i]? = some q → xs[i]? = some x → xs'[i]? = some y →
        q.isCol = true → y.axis0 = x.norm ∧ (y.axis1, y.axis2) = G.ortho x.norm := by
  simp only [colVolX, volQuery, Option.bind_eq_some_iff, Option.map_eq_some_iff, Prod.mk.injEq] at h
  obtain ⟨cd1, h1, r, h2, rfl, rfl⟩ := h
  have hl : cd1.pairs.length = cd.pairs.length := by
    exact colChkOBB_length W cd cd1 h1
  have hf := forVols_norm (body := volBodyX V W) (by
    intro p x cs r hr
    unfold volBodyX at hr
    by_cases hc : p.isCol = true
    · rw [if_pos hc] at hr
      simp only [Option.bind_eq_bind, Option.bind_eq_some_iff] at hr
      obtain ⟨_, -, _, -, a, -, b, -, hr⟩ := hr
      cases hv : G.intersect a.ph b.ph with
      | none =>
        rw [hv] at hr
        simp only [Option.pure_def, Option.some.injEq] at hr
        subst hr; simp
      | some v =>
        rw [hv] at hr
        simp only [Option.map_eq_some_iff] at hr
        obtain ⟨c, -, rfl⟩ := hr
        simp [volAxes, hc]
    · rw [if_neg hc, Option.some.injEq] at hr
      subst hr; simp [hc]) _ _ _ h2
  have hz : ((cd1.pairs.zip xs).map (·.2)) = xs := map_snd_zip (by rw [hx, hl])
  constructor
  · conv_rhs => rw [← hz]
    rw [List.map_map, List.map_map]
    generalize cd1.pairs.zip xs = l at hf
    clear h2 hz
    generalize r.1.1 = l' at hf
    induction hf with
    | nil => rfl
    | cons h _ ih => simp [h.1, ih]
  · intro i q x y hq hxi hy hm
    simp only [List.getElem?_map, Option.map_eq_some_iff] at hq hy
    obtain ⟨z, hz1, rfl⟩ := hq
    obtain ⟨z', hz', rfl⟩ := hy
    have : z = z' := Option.some.inj (hz1.symm.trans hz')
    subst this
    have hi : i < r.1.1.length := (List.getElem?_eq_some_iff.1 hz1).1
    have hi' : i < (cd1.pairs.zip xs).length := by rw [hf.length_eq]; exact hi
    have hg := hf.get hi' hi
    have e1 : r.1.1.get ⟨i, hi⟩ = z := by
      rw [List.get_eq_getElem]; exact Option.some.inj ((List.getElem?_eq_getElem hi).symm.trans hz1)
    have e2 : ((cd1.pairs.zip xs).get ⟨i, hi'⟩).2 = x := by
      have : (((cd1.pairs.zip xs).map (·.2)))[i]? = some x := by rw [hz]; exact hxi
      rw [List.getElem?_map, List.getElem?_eq_getElem hi'] at this
      exact Option.some.inj this
    rw [e1, e2] at hg
    exact hg.2 hm

/-! ## Examples -/

-- All three pairs are marked, with a volume and a normal.
example : (create.runAll (Sample.two fun i => 10 * i)).bind (fun cd =>
    (cd.colVolBREP (Sample.vols 3) (Sample.along fun _ => 20) (List.replicate 3 (Sample.info true))).map fun r =>
      (r.1.colnum, r.1.pairs.map (·.isCol), r.2.map (·.norm))) =
    some (3, [true, true, true], [⟨1, 0, 0⟩, ⟨0, 0, 1⟩, ⟨-1, 0, 0⟩]) := by decide +kernel

-- One rigid pair and two others: one volume and one vertex are counted.
example : (create.runAll (Sample.two fun i => 10 * i)).bind (fun cd =>
    (cd.colVolBREPVert (Sample.vols 3) (Sample.along fun _ => 20)
      [Sample.info true, Sample.info false, Sample.info false]).map fun r =>
      (r.1.colnum, r.1.pairs.map (fun p => p.vlist.length), r.1.pairs.map (·.isCol))) =
    some (2, [0, 0, 1], [true, false, true]) := by decide +kernel

-- The fast variant is defined where the polyhedra meet, and undefined where only the boxes of the cells do.
example : (create.runAll (Sample.two fun i => 10 * i)).map (fun cd =>
    ((cd.colVolBREPFast (Sample.vols 3) (Sample.along fun _ => 20) (List.replicate 3 (Sample.info true))).map (·.1.colnum),
     (cd.colVolBREPFast (Sample.vols 3) (Sample.along fun i => if i = 0 then 50 else 21 + 1 / 2)
       (List.replicate 3 (Sample.info true))).map (·.1.colnum))) = some (some 3, none) := by decide +kernel

-- The hypotheses on the geometry in `C92_exchange` are met, e.g. by the identity in place of the normalisation.
example : ∃ G : CDGeo ℚ, (∀ v, G.normalize (-v) = -G.normalize v) ∧ (∀ v, G.tiny (-v) = G.tiny v) ∧
    G.tiny (areaSum (⟨[], [(0, ⟨0, 1, 0⟩, ⟨0, 0, 1⟩)]⟩ : BRepS ℚ) - areaSum (⟨[], []⟩ : BRepS ℚ)) = false :=
  ⟨{ Sample.geo with normalize := id, tiny := fun v => decide (v = 0) }, fun _ => rfl, fun v => by simp, by decide +kernel⟩

-- The normal that `rkCDColVol` uses is that of the poses of an earlier query.
example : (create.runAll (Sample.two fun i => 10 * i)).bind (fun cd =>
    (cd.colVolX (Sample.vols 3) (Sample.along fun _ => 20) [⟨⟨0, 1, 0⟩, 0, 0, 0, 0, true⟩, Sample.info true, Sample.info true]).map
      fun r => (r.1.pairs.map (·.isCol), r.2.map (·.axis0))) =
    some ([true, true, true], [⟨0, 1, 0⟩, 0, 0]) := by decide +kernel

end Roki
