import Verif.Spec.Cmd
set_option autoImplicit false

/-! # C112: command lines of the tools -/

namespace Roki
open Cmd Spec.Cmd
variable {C S P V : Type*}

theorem given_iff (pos : List String) (n : ℕ) (opt : Option String) (f : String) : (pos[n]? <|> opt) = some f ↔ given pos n opt f := by
  unfold given
  cases h : pos[n]? with
  | none =>
    rw [List.getElem?_eq_none_iff] at h
    simp [h]
  | some g =>
    have hn : ¬ pos.length ≤ n := by have := (List.getElem?_eq_some_iff.1 h).1; omega
    simp [hn]

theorem notGiven_iff (pos : List String) (n : ℕ) (opt : Option String) : (pos[n]? <|> opt) = none ↔ notGiven pos n opt := by
  unfold notGiven
  cases h : pos[n]? with
  | none =>
    rw [List.getElem?_eq_none_iff] at h
    simp [h]
  | some g =>
    have hn : ¬ pos.length ≤ n := by have := (List.getElem?_eq_some_iff.1 h).1; omega
    simp [hn]

theorem loadSeq_iff (w : World C S P V) (d : String) (pos : List String) (n : ℕ) (opt : Option String) (s : S) (b : String) :
    loadSeq w d (pos[n]? <|> opt) = some (s, b) ↔ SeqFrom w d pos n opt s b := by
  unfold SeqFrom
  simp only [← given_iff, ← notGiven_iff]
  generalize (pos[n]? <|> opt) = x
  cases x with
  | none =>
    cases h : w.stdin with
    | none => simp [loadSeq, h]
    | some t => simp [loadSeq, h, eq_comm]
  | some f =>
    cases h : w.seq f with
    | none => simp [loadSeq, h]
    | some t => simp [loadSeq, h, eq_comm]

theorem initOpt_iff (w : World C S P V) (opt : Option String) (h : InitOK w opt) (c c' : C) : initOpt w c opt = some c' ↔ PoseFrom w opt c c' := by
  unfold PoseFrom
  cases opt with
  | none => simp [initOpt, eq_comm]
  | some f =>
    obtain ⟨p, hp⟩ := Option.ne_none_iff_exists'.1 (h f rfl)
    simp [initOpt, initRead, hp, eq_comm]

theorem named_iff (w : World C S P V) (c : C) (n : String) (i : ℕ) : (w.names c).findIdx? (fun m => m == n) = some i ↔ Named w c n i := by
  unfold Named
  rw [List.findIdx?_eq_some_iff_getElem]
  constructor
  · rintro ⟨h, h1, h2⟩
    refine ⟨by rw [List.getElem?_eq_getElem h]; simpa using h1, fun j hj => ?_⟩
    have := h2 j hj
    rw [List.getElem?_eq_getElem (by omega)]
    simpa using this
  · rintro ⟨h1, h2⟩
    obtain ⟨h, e⟩ := List.getElem?_eq_some_iff.1 h1
    refine ⟨h, by simpa using e, fun j hj => ?_⟩
    have := h2 j hj
    rw [List.getElem?_eq_getElem (by omega)] at this
    simpa using this

/-- **C112** `rk_fk` computes exactly what its command line asks for: with the chain of the first argument, in the pose of the file of the
option `init` if it is given, for the first link with the name of the second argument and the sequence of the third argument, of the option `seq` or of
the standard input; the log is named after the sequence and the link. -/
theorem C112_fk_partial (w : World C S P V) (o : Opts) (pos : List String) (hi : InitOK w o.init) (c : C) (i : ℕ) (s : S) (logs : List String) :
    rkFk w o pos = .go (c, i, s) logs ↔
      o.help = false ∧ ∃ chainfile link c0 b, pos[0]? = some chainfile ∧ pos[1]? = some link ∧ w.chain chainfile = some c0 ∧ Named w c0 link i ∧
        SeqFrom w "fk.out" pos 2 o.seq s b ∧ w.canWrite (b ++ "." ++ link) = true ∧ PoseFrom w o.init c0 c ∧ logs = [b ++ "." ++ link] := by
  simp only [← initOpt_iff w o.init hi, ← loadSeq_iff, ← named_iff]
  unfold rkFk
  constructor
  · intro h
    split at h
    · cases h
    rename_i h0
    split at h
    · cases h
    rename_i cf h1
    split at h
    · cases h
    rename_i ln h2
    split at h
    · cases h
    rename_i c0 h3
    split at h
    · cases h
    rename_i j h4
    split at h
    · cases h
    rename_i s' b h5
    split at h
    · rename_i h6
      split at h
      · cases h
      rename_i c' h7
      cases h
      exact ⟨by simpa using h0, cf, ln, c0, b, h1, h2, h3, h4, h5, h6, h7, rfl⟩
    · cases h
  · rintro ⟨h0, cf, ln, c0, b, h1, h2, h3, h4, h5, h6, h7, rfl⟩
    simp only [h0, h1, h2, h3, h4, h5, h6, h7, if_true, if_false, Bool.false_eq_true]

/-- **C112** `rk_fk` stops with its usage exactly if help is asked for or one of the first two arguments is missing, and if it stops with an error it has
not touched any file. -/
theorem C112_fk_stop (w : World C S P V) (o : Opts) (pos : List String) :
    (rkFk w o pos = .usage ↔ o.help = true ∨ pos.length < 2) ∧ ∀ opened, rkFk w o pos = .error opened → opened = [] := by
  constructor
  · unfold rkFk
    rcases pos with _ | ⟨a, _ | ⟨b, pos⟩⟩
    · simp
    · simp
    · by_cases h : o.help = true
      · simp [h]
      · simp only [h, Bool.false_eq_true, if_false, List.getElem?_cons_zero, List.getElem?_cons_succ, List.length_cons, false_or]
        constructor
        · intro e
          exfalso
          repeat' (split at e)
          all_goals cases e
        · intro e; omega
  · intro opened h
    unfold rkFk at h
    split at h
    · cases h
    split at h
    · cases h
    split at h
    · cases h
    split at h
    · cases h; rfl
    split at h
    · cases h; rfl
    split at h
    · cases h; rfl
    split at h
    · split at h
      · rename_i hn
        exfalso
        unfold initOpt initRead at hn
        repeat' (split at hn)
        all_goals cases hn
      · cases h
    · cases h; rfl

theorem openLogs_spec (cw : String → Bool) (b : String) (ts : List String) :
    ((openLogs cw b ts).2 = true ↔ ∀ t ∈ ts, cw (b ++ "." ++ t) = true) ∧
    ((openLogs cw b ts).2 = true → (openLogs cw b ts).1 = ts.map fun t => b ++ "." ++ t) ∧
    (openLogs cw b ts).1 <+: ts.map fun t => b ++ "." ++ t := by
  induction ts with
  | nil => simp [openLogs]
  | cons t ts ih =>
    obtain ⟨h1, h2, h3⟩ := ih
    unfold openLogs
    by_cases h : cw (b ++ "." ++ t) = true
    · simp only [h, if_true, List.mem_cons, forall_eq_or_imp, true_and, List.map_cons]
      exact ⟨h1, fun e => by rw [h2 e], List.cons_prefix_cons.2 ⟨rfl, h3⟩⟩
    · simp [h]

/-- **C112** `rk_id` computes exactly what its command line asks for, and opens the seven logs that are named after the sequence. -/
theorem C112_id_partial (w : World C S P V) (o : Opts) (pos : List String) (hi : InitOK w o.init) (c : C) (s : S) (logs : List String) :
    rkId w o pos = .go (c, s) logs ↔
      o.help = false ∧ ∃ chainfile c0 b, pos[0]? = some chainfile ∧ w.chain chainfile = some c0 ∧ SeqFrom w "id.out" pos 1 o.seq s b ∧
        (∀ l ∈ logs, w.canWrite l = true) ∧ PoseFrom w o.init c0 c ∧
        logs = ["com", "comv", "coma", "zmp", "att", "am", "trq"].map fun t => b ++ "." ++ t := by
  simp only [← initOpt_iff w o.init hi, ← loadSeq_iff]
  unfold rkId
  constructor
  · intro h
    split at h
    · cases h
    rename_i h0
    split at h
    · cases h
    rename_i cf h1
    split at h
    · cases h
    rename_i c0 h3
    split at h
    · cases h
    rename_i s' b h5
    split at h
    · rename_i h6
      split at h
      · cases h
      rename_i c' h7
      cases h
      obtain ⟨o1, o2, -⟩ := openLogs_spec w.canWrite b idTypes
      refine ⟨by simpa using h0, cf, c0, b, h1, h3, h5, ?_, h7, o2 h6⟩
      rw [o2 h6]
      intro l hl
      obtain ⟨t, ht, rfl⟩ := List.mem_map.1 hl
      exact o1.1 h6 t ht
    · cases h
  · rintro ⟨h0, cf, c0, b, h1, h3, h5, h6, h7, h8⟩
    obtain ⟨o1, o2, -⟩ := openLogs_spec w.canWrite b idTypes
    have h9 : (openLogs w.canWrite b idTypes).2 = true := by
      rw [o1]
      intro t ht
      refine h6 _ ?_
      rw [h8]
      exact List.mem_map.2 ⟨t, ht, rfl⟩
    simp only [h0, h1, h3, h5, h9, h7, o2 h9, if_true, if_false, Bool.false_eq_true]
    rw [h8]; rfl

/-- **C112** If `rk_id` stops with an error, it has touched no other files than logs of the sequence. -/
theorem C112_id_stop (w : World C S P V) (o : Opts) (pos : List String) :
    (rkId w o pos = .usage ↔ o.help = true ∨ pos = []) ∧
    ∀ opened, rkId w o pos = .error opened → opened = [] ∨ ∃ s b, SeqFrom w "id.out" pos 1 o.seq s b ∧
      opened <+: ["com", "comv", "coma", "zmp", "att", "am", "trq"].map fun t => b ++ "." ++ t := by
  constructor
  · unfold rkId
    rcases pos with _ | ⟨a, pos⟩
    · simp
    · by_cases h : o.help = true
      · simp [h]
      · simp only [h, Bool.false_eq_true, if_false, List.getElem?_cons_zero, List.getElem?_cons_succ, false_or, reduceCtorEq, iff_false]
        intro e
        repeat' (split at e)
        all_goals cases e
  · intro opened h
    simp only [← loadSeq_iff]
    unfold rkId at h
    split at h
    · cases h
    split at h
    · cases h
    split at h
    · cases h; exact .inl rfl
    split at h
    · cases h; exact .inl rfl
    rename_i s b hs
    right
    refine ⟨s, b, hs, ?_⟩
    have hp := (openLogs_spec w.canWrite b idTypes).2.2
    split at h
    · split at h
      · cases h; exact hp
      · cases h
    · cases h; exact hp

/-- **C112** `rk_mp` takes the model and the pose of the files that are given, as arguments or by the options, if they can be read. -/
theorem C112_mp_partial (w : World C S P V) (zero : C) (o : MPOpts) (pos : List String) (hh : o.help = false) (mfile : String)
    (hm : given pos 0 o.model mfile) (c : C) (hc : w.chain mfile = some c) :
    (notGiven pos 1 o.vec → rkMp w zero o pos = .go c []) ∧
    (∀ f v, given pos 1 o.vec f → w.vec f = some v → rkMp w zero o pos = .go (w.fk v c) []) := by
  rw [← given_iff] at hm
  constructor
  · intro h
    rw [← notGiven_iff] at h
    simp only [rkMp, hh, hm, hc, h, if_false, Bool.false_eq_true]
  · intro f v h hv
    rw [← given_iff] at h
    simp only [rkMp, hh, hm, hc, h, hv, if_false, Bool.false_eq_true]

/-- **C112** The options `-chain` and `-link` of `rk_fk` are of no use: the usage is printed. -/
theorem C112_options_fails (w : World C S P V) (chainfile link seqfile : String) :
    rkFk w { chain := some chainfile, link := some link, seq := some seqfile } [] = .usage ∧
    rkId w { chain := some chainfile, seq := some seqfile } [] = .usage := ⟨rfl, rfl⟩

/-- **C112** A pose file that cannot be read does not stop the tools: they compute with the pose of the model. -/
theorem C112_init_fails (w : World C S P V) (chainfile link seqfile initfile : String) (c : C) (i : ℕ) (s : S) (hc : w.chain chainfile = some c)
    (hl : Named w c link i) (hs : w.seq seqfile = some s) (hw : ∀ f, w.canWrite f = true) (hn : w.init initfile = none) :
    rkFk w { init := some initfile } [chainfile, link, seqfile] = .go (w.still c, i, s) [w.base seqfile ++ "." ++ link] ∧
    ∃ logs, rkId w { init := some initfile } [chainfile, seqfile] = .go (w.still c, s) logs := by
  rw [← named_iff] at hl
  constructor
  · simp [rkFk, hc, hl, loadSeq, hs, hw, initOpt, initRead, hn]
  · refine ⟨(openLogs w.canWrite (w.base seqfile) idTypes).1, ?_⟩
    have := (openLogs_spec w.canWrite (w.base seqfile) idTypes).1.2 fun t _ => hw _
    simp [rkId, hc, loadSeq, hs, this, initOpt, initRead, hn]

/-- **C112** `rk_mp` goes on when the file of the pose cannot be read, with the pose of the model, and also when the model cannot be read. -/
theorem C112_mp_fails (w : World C S P V) (zero c : C) (mfile vfile : String) :
    (w.chain mfile = some c → w.vec vfile = none → rkMp w zero {} [mfile, vfile] = .go c []) ∧
    (w.chain mfile = none → rkMp w zero {} [mfile, vfile] = .go zero []) := by
  constructor
  · intro h1 h2; simp [rkMp, h1, h2]
  · intro h1; simp [rkMp, h1]

/-- **C112** When one of the logs of `rk_id` cannot be opened the others before it have been emptied. -/
theorem C112_logs_fails : ∃ w : World Unit Unit Unit Unit, rkId w {} ["robot.ztk", "walk.zvs"] = .error ["walk.com", "walk.comv"] := by
  refine ⟨⟨fun _ => some (), fun _ => some (), none, fun _ => none, fun _ => none, fun f => f != "walk.coma", fun _ => [], fun _ c => c, fun c => c,
    fun _ c => c, fun _ => "walk"⟩, ?_⟩
  decide +kernel

namespace Sample
/-- A world with one robot, one sequence and one pose. -/
def world : World ℕ ℕ ℕ ℕ :=
  ⟨fun f => if f = "robot.ztk" then some 1 else none, fun f => if f = "walk.zvs" then some 2 else none, some 3,
    fun f => if f = "stand.zkci" then some 4 else none, fun f => if f = "q.zv" then some 5 else none, fun _ => true,
    fun _ => ["base", "arm", "hand"], fun p c => 10 * p + c, fun c => c, fun v c => 100 * v + c, fun f => if f = "walk.zvs" then "walk" else f⟩
end Sample

/-- The hypotheses are met, and the tools start as they should. -/
example : InitOK Sample.world (some "stand.zkci") ∧ Named Sample.world 1 "arm" 1 ∧
    rkFk Sample.world { init := some "stand.zkci" } ["robot.ztk", "arm", "walk.zvs"] = .go (41, 1, 2) ["walk.arm"] ∧
    rkFk Sample.world { seq := some "walk.zvs" } ["robot.ztk", "leg"] = .error [] ∧
    rkId Sample.world {} ["robot.ztk"] =
      .go (1, 3) ["id.out.com", "id.out.comv", "id.out.coma", "id.out.zmp", "id.out.att", "id.out.am", "id.out.trq"] ∧
    rkMp Sample.world 0 { model := some "robot.ztk", vec := some "q.zv" } [] = .go 501 [] := by
  refine ⟨fun f h => ?_, ⟨rfl, fun j hj => ?_⟩, ?_, ?_, ?_, ?_⟩
  · cases h; simp [Sample.world]
  · have : j = 0 := by omega
    subst this; simp [Sample.world]
  all_goals decide +kernel

end Roki
