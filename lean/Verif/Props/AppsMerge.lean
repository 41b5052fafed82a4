import Verif.Model.Apps
set_option autoImplicit false

/-! # The tool `rk_ikcell_merge` -/

namespace Roki
open Apps
variable {K : Type*} [Field K]

/-- A file of the tool: for each step the number of entries and the entries. -/
def Spec.mergeText (fmt : K → K) (steps : List (List (MergeEntry K))) : List (IKTok K) :=
  steps.flatMap fun es => .int es.length :: es.flatMap fun e =>
    [.int e.entry, .real (fmt e.w), .real (fmt e.v.x), .real (fmt e.v.y), .real (fmt e.v.z)]

theorem mergeEntries_print (toInt : K → Option ℤ) (r : List (IKTok K)) : ∀ es : List (MergeEntry K),
    mergeEntries toInt es.length ((es.flatMap fun e => [.int e.entry, .real e.w, .real e.v.x, .real e.v.y, .real e.v.z]) ++ r) =
      some (es, r)
  | [] => rfl
  | e :: es => by
    have ih := mergeEntries_print toInt r es
    simp only [List.length_cons, mergeEntries, List.flatMap_cons, List.cons_append, List.nil_append, mergeEntry, getI, getD,
      bind, Option.bind_some, pure, ih]

theorem mergeText_cons (es : List (MergeEntry K)) (f : List (List (MergeEntry K))) : Spec.mergeText id (es :: f) =
    .int es.length :: ((es.flatMap fun e => [.int e.entry, .real e.w, .real e.v.x, .real e.v.y, .real e.v.z]) ++
      Spec.mergeText id f) := by
  simp [Spec.mergeText]

theorem mergeNums_nil (toInt : K → Option ℤ) : ∀ fs : List (List (List (MergeEntry K))), [] ∈ fs →
    mergeNums toInt (fs.map (Spec.mergeText id)) = some none
  | [] :: fs, _ => rfl
  | (es :: f) :: fs, h => by
    have ih := mergeNums_nil toInt fs (by simpa using h)
    rw [List.map_cons, mergeText_cons, mergeNums, ih]
    · rfl
    · simp

theorem mergeNums_cons (toInt : K → Option ℤ) : ∀ gs : List (List (MergeEntry K) × List (List (MergeEntry K))),
    mergeNums toInt ((gs.map fun g => g.1 :: g.2).map (Spec.mergeText id)) =
      some (some (gs.map fun g => ((g.1.length : ℤ),
        (g.1.flatMap fun e => [.int e.entry, .real e.w, .real e.v.x, .real e.v.y, .real e.v.z]) ++ Spec.mergeText id g.2)))
  | [] => rfl
  | g :: gs => by
    have ih := mergeNums_cons toInt gs
    rw [List.map_cons, List.map_cons, mergeText_cons, mergeNums, ih]
    · rfl
    · simp

theorem mergeFiles_print (toInt : K → Option ℤ) : ∀ gs : List (List (MergeEntry K) × List (List (MergeEntry K))),
    mergeFiles toInt (gs.map fun g => ((g.1.length : ℤ),
        (g.1.flatMap fun e => [.int e.entry, .real e.w, .real e.v.x, .real e.v.y, .real e.v.z]) ++ Spec.mergeText id g.2)) =
      some (gs.flatMap Prod.fst, gs.map fun g => Spec.mergeText id g.2)
  | [] => rfl
  | g :: gs => by
    have ih := mergeFiles_print toInt gs
    simp only [List.map_cons, mergeFiles, Int.toNat_natCast, mergeEntries_print, bind, Option.bind_some, ih, pure,
      List.flatMap_cons]

/-- **C83** `rk_ikcell_merge` on any number of files, of any lengths: it prints as many steps as the shortest file has, and each
step has the entries of that step of all files, in the order of the files, preceded by their number. -/
theorem C83_merge (toInt : K → Option ℤ) (fmt : K → K) (fs : List (List (List (MergeEntry K)))) (hne : fs ≠ []) :
    ∃ steps, merge toInt fmt (fs.map (Spec.mergeText id)) = some (Spec.mergeText fmt steps) ∧
      (∃ f ∈ fs, steps.length = f.length) ∧ (∀ f ∈ fs, steps.length ≤ f.length) ∧
      ∀ k < steps.length, steps[k]? = some (fs.flatMap fun f => f.getD k []) := by
  have key : ∀ (n : ℕ) (fs : List (List (List (MergeEntry K)))), fs ≠ [] → (∃ f ∈ fs, f.length < n) →
      ∃ steps, mergeLoop toInt fmt n (fs.map (Spec.mergeText id)) = some (Spec.mergeText fmt steps) ∧
      (∃ f ∈ fs, steps.length = f.length) ∧ (∀ f ∈ fs, steps.length ≤ f.length) ∧
      ∀ k < steps.length, steps[k]? = some (fs.flatMap fun f => f.getD k []) := by
    intro n
    induction n with
    | zero => rintro fs - ⟨f, -, h⟩; simp at h
    | succ n ih =>
      rintro fs hne ⟨f0, hf0, hlt⟩
      by_cases hnil : [] ∈ fs
      · refine ⟨[], ?_, ⟨[], hnil, rfl⟩, by simp, by simp⟩
        simp only [mergeLoop, mergeNums_nil toInt fs hnil, bind, Option.bind_some]
        rfl
      · obtain ⟨gs, rfl⟩ : ∃ gs : List (List (MergeEntry K) × List (List (MergeEntry K))), fs = gs.map fun g => g.1 :: g.2 := by
          refine ⟨fs.map fun f => (f.headD [], f.tail), ?_⟩
          rw [List.map_map]
          conv_lhs => rw [← List.map_id fs]
          refine List.map_congr_left fun f hf => ?_
          cases f with
          | nil => exact absurd hf hnil
          | cons a f => rfl
        obtain ⟨g0, hg0, rfl⟩ := List.mem_map.1 hf0
        obtain ⟨steps, h1, ⟨f1, hf1, e1⟩, h3, h4⟩ := ih (gs.map Prod.snd) (by simpa using hne)
          ⟨g0.2, List.mem_map.2 ⟨g0, hg0, rfl⟩, by simpa using hlt⟩
        obtain ⟨g1, hg1, rfl⟩ := List.mem_map.1 hf1
        rw [List.map_map] at h1
        refine ⟨gs.flatMap Prod.fst :: steps, ?_, ⟨g1.1 :: g1.2, List.mem_map.2 ⟨g1, hg1, rfl⟩, by simp [e1]⟩, ?_, ?_⟩
        · simp only [mergeLoop, mergeNums_cons, bind, Option.bind_some, mergeFiles_print]
          rw [show (gs.map fun g => Spec.mergeText id g.2) = gs.map (Spec.mergeText id ∘ Prod.snd) from rfl, h1]
          simp only [Option.bind_some, pure, Option.some.injEq, Spec.mergeText, List.flatMap_cons, List.cons_append]
          congr 1
          rw [List.map_map]
          congr 1
          clear * -
          induction gs with
          | nil => rfl
          | cons g gs ih => simp only [List.map_cons, List.sum_cons, ih, List.flatMap_cons, List.length_append, Function.comp]; push_cast; rfl
        · intro f hf
          obtain ⟨g, hg, rfl⟩ := List.mem_map.1 hf
          simpa using h3 g.2 (List.mem_map.2 ⟨g, hg, rfl⟩)
        · rintro (_ | k) hk
          · simp only [List.getElem?_cons_zero, List.flatMap_map, List.getD_cons_zero]
          · rw [List.getElem?_cons_succ, h4 k (by simpa using hk)]
            simp only [List.flatMap_map, List.getD_cons_succ]
  cases fs with
  | nil => exact absurd rfl hne
  | cons f fs =>
    refine key _ (f :: fs) hne ⟨f, by simp, ?_⟩
    simp only [List.map_cons, List.head?_cons, Option.getD_some]
    clear * -
    induction f with
    | nil => simp
    | cons a f ih => rw [mergeText_cons]; simp only [List.length_cons, List.length_append]; omega

/-- Two files of different lengths. -/
example : merge (fun _ => none) id ([[[⟨0, 1, ⟨1, 2, 3⟩⟩], [⟨1, 1, ⟨4, 5, 6⟩⟩]], [[⟨7, 2, ⟨0, 0, 1⟩⟩]]].map (Spec.mergeText (K := ℚ) id)) =
    some (Spec.mergeText id [[⟨0, 1, ⟨1, 2, 3⟩⟩, ⟨7, 2, ⟨0, 0, 1⟩⟩]]) := by decide +kernel

/-- The number that a token shows. -/
def Spec.tokNum : IKTok K → K
  | .int n => n
  | .real x => x

/-- **C83 fails** for the sequences that `rkIKSeqPrintFile` writes and `rk_ik` reads (duration, number, and entries with
three weights each): merging two of them prints a text which is not a sequence. -/
theorem C83_sequence_fails : ∃ (seq : List (IKSeqCell ℚ)) (out : List (IKTok ℚ)),
    merge (fun x => if x.den = 1 then some x.num else none) id [IKSeq.print id seq, IKSeq.print id seq] = some out ∧
      ∀ seq' : List (IKSeqCell ℚ), (IKSeq.print id seq').map Spec.tokNum ≠ out.map Spec.tokNum := by
  refine ⟨[⟨1, [⟨0, ⟨1, 1, 1⟩, ⟨0, 0, 0⟩⟩]⟩], [.int 2, .int 1, .real 0, .real 1, .real 1, .real 1, .int 1, .real 0, .real 1,
    .real 1, .real 1, .int 0, .int 0, .int 0], by decide +kernel, fun seq' h => ?_⟩
  have key : ∀ (s : IKSeqCell ℚ) (l : List (IKSeqCell ℚ)), (IKSeq.print id (l ++ [s])).map Spec.tokNum =
      s.dt :: (s.entry.length : ℚ) :: ((s.entry.flatMap (IKSeq.printEntry id)).map Spec.tokNum ++
        (IKSeq.print id l).map Spec.tokNum) := by
    intro s l
    simp [IKSeq.print, IKSeq.printCell, Spec.tokNum]
  have len : ∀ es : List (IKEntry ℚ), ((es.flatMap (IKSeq.printEntry id)).map Spec.tokNum).length = 7 * es.length := by
    intro es
    induction es with
    | nil => rfl
    | cons e es ih =>
      rw [List.flatMap_cons, List.map_append, List.length_append, ih]
      simp [IKSeq.printEntry]; ring
  rcases List.eq_nil_or_concat seq' with rfl | ⟨l, s, rfl⟩
  · simp [IKSeq.print] at h
  rw [List.concat_eq_append, key] at h
  simp only [List.map_cons, List.map_nil, Spec.tokNum, List.cons.injEq] at h
  obtain ⟨-, hn, h⟩ := h
  have hn' : s.entry.length = 1 := by exact_mod_cast hn
  have hl := len s.entry
  rw [hn'] at hl
  have h2 := congrArg (List.drop 7) h
  rw [List.drop_left' hl] at h2
  rcases List.eq_nil_or_concat l with rfl | ⟨l, t, rfl⟩
  · simp [IKSeq.print] at h2
  rw [List.concat_eq_append, key] at h2
  simp only [List.drop_succ_cons, List.drop_zero, List.cons.injEq] at h2
  obtain ⟨-, hm, h2⟩ := h2
  have hm' : t.entry.length = 1 := by exact_mod_cast hm
  have := congrArg List.length h2
  rw [List.length_append, len, hm'] at this
  simp at this
  omega
end Roki
