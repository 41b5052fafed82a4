import Verif.Spec.Convert
import Verif.Props.Geom
set_option autoImplicit false

/-! # C111: the converters of shapes -/

namespace Roki
set_option linter.unusedSectionVars false
open Convert Spec Spec.Geom Spec.Convert Roki.Geom
variable {K σ : Type*} [Field K] [LinearOrder K] [ShapeOps K σ]

theorem writeShapes_spec (ss : List (NShape σ)) (f : Frame K) (is : List ℕ) (h : ∀ i ∈ is, ∃ s, ss[i]? = some s) :
    ∃ out, writeShapes ss f is = some out ∧ out.map (fun s => s.name) = is.filterMap (fun i => ss[i]?.map fun s => s.name) ∧
      (∀ s, s ∈ out ↔ ∃ i ∈ is, ∃ s0, ss[i]? = some s0 ∧ s = ⟨s0.name, ShapeOps.xform f s0.solid⟩) := by
  induction is with
  | nil => exact ⟨[], rfl, rfl, by simp⟩
  | cons i is ih =>
    obtain ⟨s0, h0⟩ := h i (by simp)
    obtain ⟨r, e1, e2, e3⟩ := ih fun j hj => h j (by simp [hj])
    refine ⟨⟨s0.name, ShapeOps.xform f s0.solid⟩ :: r, by simp [writeShapes, moved, h0, e1], ?_, fun s => ?_⟩
    · simp [h0, e2]
    · simp only [List.mem_cons, e3]
      constructor
      · rintro (rfl | ⟨j, hj, s1, a, b⟩)
        · exact ⟨i, .inl rfl, s0, h0, rfl⟩
        · exact ⟨j, .inr hj, s1, a, b⟩
      · rintro ⟨j, rfl | hj, s1, a, b⟩
        · rw [h0] at a; cases a; exact .inl b
        · exact .inr ⟨j, hj, s1, a, b⟩

theorem writeLinks_spec (ss : List (NShape σ)) (ls : List (Frame K × List ℕ)) (h : ∀ l ∈ ls, ∀ i ∈ l.2, ∃ s, ss[i]? = some s) :
    ∃ out, writeLinks ss ls = some out ∧
      out.map (fun s => s.name) = (ls.flatMap fun l => l.2).filterMap (fun i => ss[i]?.map fun s => s.name) ∧
      (∀ s, s ∈ out ↔ ∃ l ∈ ls, ∃ i ∈ l.2, ∃ s0, ss[i]? = some s0 ∧ s = ⟨s0.name, ShapeOps.xform l.1 s0.solid⟩) := by
  induction ls with
  | nil => exact ⟨[], rfl, rfl, by simp⟩
  | cons l ls ih =>
    obtain ⟨a, a1, a2, a3⟩ := writeShapes_spec ss l.1 l.2 (h l (by simp))
    obtain ⟨b, b1, b2, b3⟩ := ih fun m hm => h m (by simp [hm])
    refine ⟨a ++ b, by simp [writeLinks, a1, b1], by simp [a2, b2, List.filterMap_append], fun s => ?_⟩
    simp only [List.mem_append, a3, b3, List.mem_cons, exists_eq_or_imp]

/-- **C111** `chain2mshape` writes every shape that a link of the robot uses, in the order of the links and under its own name, and together the
shapes that it writes are the points of space that the robot occupies. -/
theorem C111_mshape_partial (S : Solids K σ) (r : Robot K σ) (hr : Valid r) (hm : r.mshape ≠ none) :
    ∃ out, chain2mshape r = some out ∧ out.map (fun s => s.name) = used r ∧ ∀ p, InShapes S out p ↔ InRobot S r p := by
  obtain ⟨ss, hs⟩ := Option.ne_none_iff_exists'.1 hm
  obtain ⟨out, e1, e2, e3⟩ := writeLinks_spec ss r.link fun l hl i hi => by
    have := (hr l hl).2 i hi
    rwa [hs] at this
  refine ⟨out, by simp [chain2mshape, hs, e1], by simp [used, hs, e2], fun p => ?_⟩
  constructor
  · rintro ⟨s, h1, h2⟩
    obtain ⟨l, hl, i, hi, s0, h0, rfl⟩ := (e3 s).1 h1
    obtain ⟨q, hq, e⟩ := (S.xform l.1 s0.solid p (hr l hl).1).1 h2
    exact ⟨ss, l, i, s0, hs, hl, hi, h0, q, hq, e⟩
  · rintro ⟨ss', l, i, s0, h1, hl, hi, h0, q, hq, e⟩
    rw [hs] at h1; cases h1
    exact ⟨_, (e3 _).2 ⟨l, hl, i, hi, s0, h0, rfl⟩, (S.xform l.1 s0.solid p (hr l hl).1).2 ⟨q, hq, e⟩⟩

theorem findIdx_names {ss : List (NShape σ)} (hn : (ss.map fun s => s.name).Nodup) :
    ((ss.map fun s => s.name).mapM fun n => ss.findIdx? fun s => s.name == n) = some (List.range ss.length) := by
  have key : ∀ i (h : i < ss.length), ss.findIdx? (fun s => s.name == ss[i].name) = some i := by
    intro i h
    rw [List.findIdx?_eq_some_iff_getElem]
    refine ⟨h, by simp, fun j hj => ?_⟩
    simp only [beq_iff_eq]
    intro e
    have := (List.Nodup.getElem_inj_iff hn (i := j) (j := i) (hi := by simp; omega) (hj := by simpa using h)).1 (by simpa using e)
    omega
  have all : ∀ is : List ℕ, (∀ i ∈ is, i < ss.length) →
      ((is.map fun i => (ss[i]?.map fun s => s.name).getD "").mapM fun n => ss.findIdx? fun s => s.name == n) = some is := by
    intro is
    induction is with
    | nil => intro _; rfl
    | cons i is ih =>
      intro h
      have hi := h i (by simp)
      have e := key i hi
      rw [List.map_cons, List.mapM_cons, ih fun j hj => h j (by simp [hj])]
      simp only [List.getElem?_eq_getElem hi, Option.map_some, Option.getD_some, e]
      rfl
  have e : (ss.map fun s => s.name) = (List.range ss.length).map fun i => (ss[i]?.map fun s => s.name).getD "" := by
    apply List.ext_getElem
    · simp
    · intro i h1 h2
      simp only [List.length_map] at h1
      simp [List.getElem?_eq_getElem h1]
  rw [e]
  exact all _ fun i hi => List.mem_range.1 hi

/-- **C111** `mshape2chain` writes a robot file whose robot, read back, occupies exactly the points of the shapes, if the names of the shapes are
different. -/
theorem C111_chain_partial (S : Solids K σ) (base : String) (ss : List (NShape σ)) (hn : (ss.map fun s => s.name).Nodup) :
    ∃ r, readRobot (K := K) (mshape2chain base ss) = some r ∧ Valid r ∧ ∀ p, InRobot S r p ↔ InShapes S ss p := by
  have hid : ∀ q : Vec3 K, Frame.ident.xform q = q := by intro q; simp only [Frame.ident]; vec_ring
  refine ⟨⟨if ss.isEmpty then none else some ss, [(Frame.ident, List.range ss.length)]⟩, ?_, ?_, fun p => ?_⟩
  · simp only [readRobot, mshape2chain, findIdx_names hn, Option.map_some]; rfl
  · intro l hl
    simp only [List.mem_singleton] at hl
    subst hl
    refine ⟨Mat3.isRot_one, fun i hi => ?_⟩
    have hi' : i < ss.length := by simpa using hi
    have h0 : ss ≠ [] := by rintro rfl; simp at hi'
    exact ⟨ss[i], by simp [h0, List.getElem?_eq_getElem hi']⟩
  · constructor
    · rintro ⟨ss', l, i, s, h1, hl, hi, h0, q, hq, rfl⟩
      by_cases he : ss = []
      · simp [he] at h1
      rw [if_neg (by simpa using he), Option.some.injEq] at h1
      subst h1
      simp only [List.mem_singleton] at hl
      subst hl
      refine ⟨s, List.mem_of_getElem? h0, ?_⟩
      rwa [hid]
    · rintro ⟨s, hs, hp⟩
      obtain ⟨i, hi, rfl⟩ := List.getElem_of_mem hs
      have h0 : ss ≠ [] := by rintro rfl; simp at hi
      refine ⟨ss, _, i, ss[i], by simp [h0], List.mem_singleton.2 rfl, by simpa using hi, List.getElem?_eq_getElem hi, p, hp, ?_⟩
      rw [hid]

/-- **C111** Converting a robot to shapes and back gives a robot that occupies the same points, if no two of its links use the same shape nor
shapes of the same name. -/
theorem C111_roundtrip_partial (S : Solids K σ) (base : String) (r : Robot K σ) (hr : Valid r) (hm : r.mshape ≠ none) (hn : (used r).Nodup) :
    ∃ ss r', chain2mshape r = some ss ∧ readRobot (K := K) (mshape2chain base ss) = some r' ∧ ∀ p, InRobot S r' p ↔ InRobot S r p := by
  obtain ⟨ss, e1, e2, e3⟩ := C111_mshape_partial S r hr hm
  obtain ⟨r', f1, -, f3⟩ := C111_chain_partial S base ss (by rw [e2]; exact hn)
  exact ⟨ss, r', e1, f1, fun p => (f3 p).trans (e3 p)⟩

theorem gpShapes_spec {face : σ → Option (List (Vec3 K × Vec3 K × Vec3 K))} (hf : FaceMoves face) (ss : List (NShape σ)) (f : Frame K) (hR : f.att.IsRot)
    (is : List ℕ) (h : ∀ i ∈ is, ∃ s, ss[i]? = some s ∧ (face s.solid).isSome) :
    ∃ out, gpShapes face ss f is = some out ∧
      ∀ b, b ∈ out ↔ ∃ i ∈ is, ∃ s ts t, ss[i]? = some s ∧ face s.solid = some ts ∧ t ∈ ts ∧ b = gpFace (f.xform t.1, f.xform t.2.1, f.xform t.2.2) := by
  induction is with
  | nil => exact ⟨[], rfl, by simp⟩
  | cons i is ih =>
    obtain ⟨s0, h0, hs⟩ := h i (by simp)
    obtain ⟨ts, hts⟩ := Option.isSome_iff_exists.1 hs
    obtain ⟨r, e1, e2⟩ := ih fun j hj => h j (by simp [hj])
    refine ⟨ts.map (fun t => gpFace (f.xform t.1, f.xform t.2.1, f.xform t.2.2)) ++ r, ?_, fun b => ?_⟩
    · simp [gpShapes, moved, h0, gpShape, hf f s0.solid hR, hts, e1, Function.comp_def]
    · simp only [List.mem_append, List.mem_map, e2]
      constructor
      · rintro (⟨t, ht, rfl⟩ | ⟨j, hj, s, us, t, a1, a2, a3, a4⟩)
        · exact ⟨i, by simp, s0, ts, t, h0, hts, ht, rfl⟩
        · exact ⟨j, by simp [hj], s, us, t, a1, a2, a3, a4⟩
      · rintro ⟨j, hj, s, us, t, a1, a2, a3, rfl⟩
        rcases List.mem_cons.1 hj with rfl | hj
        · rw [h0] at a1; cases a1
          rw [hts] at a2; cases a2
          exact .inl ⟨t, a3, rfl⟩
        · exact .inr ⟨j, hj, s, us, t, a1, a2, a3, rfl⟩

theorem gpLinks_spec {face : σ → Option (List (Vec3 K × Vec3 K × Vec3 K))} (hf : FaceMoves face) (ss : List (NShape σ))
    (ls : List (Frame K × List ℕ)) (h : ∀ l ∈ ls, l.1.att.IsRot ∧ ∀ i ∈ l.2, ∃ s, ss[i]? = some s ∧ (face s.solid).isSome) :
    ∃ out, gpLinks face ss ls = some out ∧
      ∀ b, b ∈ out ↔ ∃ l ∈ ls, ∃ i ∈ l.2, ∃ s ts t, ss[i]? = some s ∧ face s.solid = some ts ∧ t ∈ ts ∧
        b = gpFace (l.1.xform t.1, l.1.xform t.2.1, l.1.xform t.2.2) := by
  induction ls with
  | nil => exact ⟨[], rfl, by simp⟩
  | cons l ls ih =>
    obtain ⟨a, a1, a2⟩ := gpShapes_spec hf ss l.1 (h l (by simp)).1 l.2 (h l (by simp)).2
    obtain ⟨b, b1, b2⟩ := ih fun m hm => h m (by simp [hm])
    refine ⟨a ++ b, by simp [gpLinks, a1, b1], fun s => ?_⟩
    simp only [List.mem_append, a2, b2, List.mem_cons, exists_eq_or_imp]

/-- The lines of a face are its three sides and a point. -/
theorem gpFace_line (u v w a b : Vec3 K) (hab : a ≠ b) :
    Line (gpFace (u, v, w)) a b ↔ (a = u ∧ b = v) ∨ (a = v ∧ b = w) ∨ (a = u ∧ b = w) := by
  constructor
  · rintro (⟨r, hr, i, h1, h2⟩ | ⟨j, i, r, r', h1, h2, h3, h4⟩)
    · simp only [gpFace, List.mem_cons, List.not_mem_nil, or_false] at hr
      rcases hr with rfl | rfl
      · rcases i with _ | _ | i
        · simp only [List.getElem?_cons_zero, Option.some.injEq, List.getElem?_cons_succ] at h1 h2
          exact .inl ⟨h1.symm, h2.symm⟩
        · simp at h2
        · simp at h2
      · rcases i with _ | _ | i
        · simp only [List.getElem?_cons_zero, Option.some.injEq, List.getElem?_cons_succ] at h1 h2
          exact absurd (h1.symm.trans h2) hab
        · simp at h2
        · simp at h2
    · rcases j with _ | j
      · simp only [gpFace, List.getElem?_cons_zero, Option.some.injEq, List.getElem?_cons_succ] at h1 h2
        subst h1 h2
        rcases i with _ | _ | i
        · simp only [List.getElem?_cons_zero, Option.some.injEq] at h3 h4
          exact .inr (.inr ⟨h3.symm, h4.symm⟩)
        · simp only [List.getElem?_cons_zero, Option.some.injEq, List.getElem?_cons_succ] at h3 h4
          exact .inr (.inl ⟨h3.symm, h4.symm⟩)
        · simp at h3
      · simp [gpFace] at h2
  · rintro (⟨rfl, rfl⟩ | ⟨rfl, rfl⟩ | ⟨rfl, rfl⟩)
    · exact .inl ⟨[a, b], by simp [gpFace], 0, rfl, rfl⟩
    · exact .inr ⟨0, 1, _, _, rfl, rfl, rfl, rfl⟩
    · exact .inr ⟨0, 0, _, _, rfl, rfl, rfl, rfl⟩

/-- **C111** The lines that are drawn for the output of `chain2gp` are exactly the sides of the faces of the robot, at the frames of its links, if
all shapes are polyhedra. -/
theorem C111_gp_partial (face : σ → Option (List (Vec3 K × Vec3 K × Vec3 K))) (hf : FaceMoves face) (r : Robot K σ) (hr : Valid r)
    (hp : ∀ ss, r.mshape = some ss → ∀ s ∈ ss, (face s.solid).isSome) :
    ∃ out, chain2gp face r = some out ∧ ∀ a b, a ≠ b → ((∃ block ∈ out, Line block a b) ↔ Side face r a b) := by
  obtain ⟨out, e1, e2⟩ := gpLinks_spec hf (r.mshape.getD []) r.link fun l hl => by
    refine ⟨(hr l hl).1, fun i hi => ?_⟩
    obtain ⟨s, hs⟩ := (hr l hl).2 i hi
    refine ⟨s, hs, ?_⟩
    cases hm : r.mshape with
    | none => rw [hm] at hs; simp at hs
    | some ss =>
      rw [hm] at hs
      exact hp ss hm s (List.mem_of_getElem? hs)
  refine ⟨out, e1, fun a b hab => ?_⟩
  constructor
  · rintro ⟨block, hb, hl⟩
    obtain ⟨l, hl', i, hi, s, ts, t, h0, h1, h2, rfl⟩ := (e2 block).1 hb
    cases hm : r.mshape with
    | none => rw [hm] at h0; simp at h0
    | some ss =>
      rw [hm] at h0
      exact ⟨ss, l, i, s, ts, t, hm, hl', hi, h0, h1, h2, (gpFace_line _ _ _ _ _ hab).1 hl⟩
  · rintro ⟨ss, l, i, s, ts, t, hm, hl', hi, h0, h1, h2, h3⟩
    refine ⟨_, (e2 _).2 ⟨l, hl', i, hi, s, ts, t, by rw [hm]; exact h0, h1, h2, rfl⟩, (gpFace_line _ _ _ _ _ hab).2 h3⟩

/-- **C111** `chain2mshape` fails for every robot without shapes. -/
theorem C111_null_fails (links : List (Frame K × List ℕ)) : chain2mshape (σ := σ) ⟨none, links⟩ = none := rfl

/-- **C111** Run in the directory of the file that it converts, `chain2mshape` overwrites it: the robot is lost. -/
theorem C111_overwrite_fails (base ztk : String → String) (fs : String → Option (Text K σ)) (arg : String) (r : Robot K σ) (ss : List (NShape σ))
    (hd : ztk (base arg) = arg) (h : fs arg = some (.robot r)) (hc : chain2mshape r = some ss) :
    ∃ fs', chain2mshapeMain base ztk fs arg = some fs' ∧ fs' arg = some (.mshape ss) := by
  refine ⟨Function.update fs (ztk (base arg)) (some (.mshape ss)), by simp only [chain2mshapeMain, h, hc, Option.map_some], ?_⟩
  rw [hd]; simp

/-- **C111** So does `mshape2chain`. -/
theorem C111_overwrite2_fails (base ztk : String → String) (fs : String → Option (Text K σ)) (arg : String) (ss : List (NShape σ))
    (hd : ztk (base arg) = arg) (h : fs arg = some (.mshape ss)) :
    mshape2chainMain base ztk fs arg arg = some (.text (mshape2chain (base arg) ss)) := by
  simp only [mshape2chainMain, h, hd]; simp

/-- **C111** Elsewhere the tools write one file and leave all others, and refuse what they cannot read. -/
theorem C111_files (base ztk : String → String) (fs fs' : String → Option (Text K σ)) (arg : String)
    (h : chain2mshapeMain base ztk fs arg = some fs' ∨ mshape2chainMain base ztk fs arg = fs') :
    (∀ f, f ≠ ztk (base arg) → fs' f = fs f) ∧ (fs arg = none → fs' = fs) := by
  rcases h with h | h
  · unfold chain2mshapeMain at h
    split at h
    · rename_i r hr
      obtain ⟨ss, -, rfl⟩ := Option.map_eq_some_iff.1 h
      exact ⟨fun f hf => by simp [hf], fun e => by rw [e] at hr; cases hr⟩
    · cases h; exact ⟨fun _ _ => rfl, fun _ => rfl⟩
  · unfold mshape2chainMain at h
    split at h
    · rename_i r hr
      subst h
      exact ⟨fun f hf => by simp [hf], fun e => by rw [e] at hr; cases hr⟩
    · cases h; exact ⟨fun _ _ => rfl, fun _ => rfl⟩

namespace Sample
open Roki.Convert

/-- A cart with two wheels of one shape. -/
def cart : Convert.Robot ℚ (Sh ℚ) :=
  ⟨some [⟨"wheel", .poly [⟨0, 0, 0⟩]⟩], [(⟨⟨1, 0, 0⟩, 1⟩, [0]), (⟨⟨2, 0, 0⟩, 1⟩, [0])]⟩

/-- The same with a shape for each wheel. -/
def cart2 : Convert.Robot ℚ (Sh ℚ) :=
  ⟨some [⟨"left", .poly [⟨0, 0, 0⟩, ⟨1, 0, 0⟩, ⟨0, 1, 0⟩]⟩, ⟨"right", .poly [⟨0, 0, 0⟩, ⟨1, 0, 0⟩, ⟨0, 1, 0⟩]⟩],
    [(⟨⟨1, 0, 0⟩, 1⟩, [0]), (⟨⟨2, 0, 0⟩, 1⟩, [1])]⟩

/-- A triangle for every polyhedron with three vertices. -/
def shFace : Sh K → Option (List (Vec3 K × Vec3 K × Vec3 K))
  | .poly [a, b, c] => some [(a, b, c)]
  | .poly _ => some []
  | _ => none

theorem shFace_moves : FaceMoves (shFace (K := K)) := by
  intro f s _
  rcases s with vs | ⟨c, r⟩ | vs
  · rcases vs with _ | ⟨a, _ | ⟨b, _ | ⟨c, _ | ⟨d, vs⟩⟩⟩⟩ <;> rfl
  · rfl
  · rfl

theorem cart_valid : Valid cart ∧ Valid cart2 := by
  constructor
  · intro l hl
    simp only [cart, List.mem_cons, List.not_mem_nil, or_false] at hl
    rcases hl with rfl | rfl
    · exact ⟨Mat3.isRot_one, by simp [cart]⟩
    · exact ⟨Mat3.isRot_one, by simp [cart]⟩
  · intro l hl
    simp only [cart2, List.mem_cons, List.not_mem_nil, or_false] at hl
    rcases hl with rfl | rfl
    · exact ⟨Mat3.isRot_one, by simp [cart2]⟩
    · exact ⟨Mat3.isRot_one, by simp [cart2]⟩

end Sample

/-- **C111** A robot whose links share a shape is not restored: both shapes are written under one name, and both links of it get the first. -/
theorem C111_shared_fails : ∃ ss r', chain2mshape Sample.cart = some ss ∧ readRobot (K := ℚ) (mshape2chain "cart" ss) = some r' ∧
    InRobot Sample.solids Sample.cart ⟨2, 0, 0⟩ ∧ ¬ InRobot Sample.solids r' ⟨2, 0, 0⟩ := by
  refine ⟨_, _, rfl, rfl, ?_, ?_⟩
  · refine ⟨_, (⟨⟨2, 0, 0⟩, 1⟩, [0]), 0, _, rfl, by simp [Sample.cart], by simp, rfl, ⟨0, 0, 0⟩, ?_, by decide +kernel⟩
    exact subset_convexHull ℚ _ (by simp)
  · rintro ⟨ss, l, i, s, h1, hl, hi, h0, q, hq, e⟩
    cases h1
    simp only [List.mem_singleton] at hl
    subst hl
    simp only [List.mem_reverse, List.mem_cons, List.not_mem_nil, or_false, or_self] at hi
    subst hi
    cases h0
    have hq' : q ∈ convexHull ℚ {v : Vec3 ℚ | v ∈ [Frame.xform ⟨⟨1, 0, 0⟩, 1⟩ ⟨0, 0, 0⟩]} := hq
    have e1 : {v : Vec3 ℚ | v ∈ [Frame.xform ⟨⟨1, 0, 0⟩, 1⟩ ⟨0, 0, 0⟩]} = {⟨1, 0, 0⟩} := by
      have e2 : Frame.xform ⟨⟨1, 0, 0⟩, 1⟩ (⟨0, 0, 0⟩ : Vec3 ℚ) = ⟨1, 0, 0⟩ := by decide +kernel
      ext v; rw [e2]; simp
    rw [e1, convexHull_singleton, Set.mem_singleton_iff] at hq'
    subst hq'
    revert e
    decide +kernel

/-- The hypotheses are met by the cart with a shape for each wheel, and one of the lines that are drawn for it is as expected. -/
example : Valid Sample.cart2 ∧ Sample.cart2.mshape ≠ none ∧ (used Sample.cart2).Nodup ∧
    (∀ ss, Sample.cart2.mshape = some ss → ∀ s ∈ ss, (Sample.shFace s.solid).isSome) ∧
    Side Sample.shFace Sample.cart2 ⟨2, 0, 0⟩ ⟨2, 1, 0⟩ := by
  refine ⟨Sample.cart_valid.2, by simp [Sample.cart2], by decide +kernel, ?_, ?_⟩
  · intro ss h s hs
    cases h
    simp only [List.mem_cons, List.not_mem_nil, or_false] at hs
    rcases hs with rfl | rfl <;> rfl
  · exact ⟨_, (⟨⟨2, 0, 0⟩, 1⟩, [1]), 1, _, _, _, rfl, by simp [Sample.cart2], by simp, rfl, rfl, List.mem_singleton.2 rfl,
      .inr (.inr ⟨by decide +kernel, by decide +kernel⟩)⟩

/-- **C111** `chain2gp` fails for a robot with a sphere. -/
theorem C111_gp_fails : chain2gp Sample.shFace ⟨some [⟨"ball", (.sphere 0 1 : Sample.Sh ℚ)⟩], [(Frame.ident, [0])]⟩ = none := rfl

end Roki
