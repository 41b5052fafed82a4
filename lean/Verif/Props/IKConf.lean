import Verif.Lemmas.IKConf
import Verif.Props.IK
set_option autoImplicit false

/-! # C79: configuration files of the inverse kinematics solver -/

namespace Roki
open Spec ZTK

section
variable {K : Type*} [Field K] [LinearOrder K] [IsStrictOrderedRing K] [Zm K] [ZSqrt K]

omit [IsStrictOrderedRing K] [ZSqrt K] in
theorem foldl_res_ub (tab : List (Row (IKSt K) K)) (fs : List (Fld K)) :
    fs.foldl (fun (r : Res (IKSt K)) f => r.andThen fun s => evalFld tab s f) .ub = .ub := by
  induction fs with
  | nil => rfl
  | cons f fs ih => exact ih

omit [IsStrictOrderedRing K] [ZSqrt K] in
theorem foldl_res_null (tab : List (Row (IKSt K) K)) (fs : List (Fld K)) (s : IKSt K) :
    fs.foldl (fun (r : Res (IKSt K)) f => r.andThen fun s => evalFld tab s f) (.null s) = .null s := by
  induction fs with
  | nil => rfl
  | cons f fs ih => exact ih

/-- The address after lines. -/
def nextPtr : ℕ → List (ConfLine K) → ℕ
  | ptr, [] => ptr
  | ptr, l :: lines => nextPtr (if l.isJoint then ptr else ptr + 1) lines

theorem lines_read {acm : IKAcm K → Vec3 K → IKAcm K × Vec3 K} (junk : IKAttr K) {ls : List (Link K)} (hn : Nameable ls) :
    ∀ (lines : List (ConfLine K)), (∀ l ∈ lines, l.Valid ls) → ∀ (s : IKSt K), s.1.chain.link.map confSig = ls.map confSig →
    (lines.map (ConfLine.fld (linkName ls))).foldl (fun r f => r.andThen fun s => evalFld (ikTab acm junk) s f) (.ok s) =
      opRes (nextPtr s.2 lines) (s.1.runAll (confOps acm ls s.2 lines)) ∧
    ∀ ik', s.1.runAll (confOps acm ls s.2 lines) = some ik' → ik'.chain.link.map confSig = ls.map confSig := by
  intro lines
  induction lines with
  | nil => intro _ s hs; exact ⟨rfl, fun ik' h => by rw [← Option.some.inj h]; exact hs⟩
  | cons l lines ih =>
    intro hv s hs
    have e := line_read (acm := acm) junk hn hs (hv l (by simp))
    rw [List.map_cons, List.foldl_cons, show (Res.ok s).andThen (fun s => evalFld (ikTab acm junk) s (l.fld (linkName ls))) =
      evalFld (ikTab acm junk) s (l.fld (linkName ls)) from rfl, e]
    simp only [confOps, IK.runAll, nextPtr]
    rcases h : (l.op acm ls s.2).run s.1 with _ | ik
    · exact ⟨foldl_res_ub _ _, fun ik' h => by simp at h⟩
    · exact ih (fun x hx => hv x (List.mem_cons_of_mem _ hx)) (ik, _) (line_sig hs l h)

omit [IsStrictOrderedRing K] [ZSqrt K] in
theorem evalKeys_order (o : Order) (acm : IKAcm K → Vec3 K → IKAcm K × Vec3 K) (junk : IKAttr K) (nm : ℕ → String)
    (lines : List (ConfLine K)) (s : IKSt K) : evalKeys o (ikTab acm junk) (lines.map (ConfLine.fld nm)) s =
      ((confOrder o lines).map (ConfLine.fld nm)).foldl (fun r f => r.andThen fun s => evalFld (ikTab acm junk) s f) (.ok s) := by
  cases o with
  | file => rfl
  | table =>
    have hnd : ((ikTab acm junk).map Row.key).Nodup := by simp [ikTab]
    have h1 : ((lines.map (ConfLine.fld nm)).filter fun f => f.key == "joint") =
        (lines.filter ConfLine.isJoint).map (ConfLine.fld nm) := by
      rw [List.filter_map]
      congr 1
      apply List.filter_congr
      intro l _
      cases l <;> rfl
    have h2 : ((lines.map (ConfLine.fld nm)).filter fun f => f.key == "constraint") =
        (lines.filter fun l => !l.isJoint).map (ConfLine.fld nm) := by
      rw [List.filter_map]
      congr 1
      apply List.filter_congr
      intro l _
      cases l <;> rfl
    have e1 := fold_row hnd (row := ⟨"joint", ikJointRead, none⟩) (by simp [ikTab])
      ((lines.filter ConfLine.isJoint).map (ConfLine.fld nm)) (by
        rw [← h1]; intro f hf; simpa using (List.mem_filter.1 hf).2)
    have e2 := fold_row hnd (row := ⟨"constraint", ikConsRead acm junk, none⟩) (by simp [ikTab])
      ((lines.filter fun l => !l.isJoint).map (ConfLine.fld nm)) (by
        rw [← h2]; intro f hf; simpa using (List.mem_filter.1 hf).2)
    rw [evalKeys_table, confOrder, List.map_append, List.foldl_append, e1, e2]
    simp only [ikTab, rdRows, vals, h1, h2]

/-- **C79**: reading a configuration file in which every line makes sense for the chain has the same effect as the calls that the
lines stand for, one after the other: `none` on both sides is undefined behaviour.  Joints that are named get their weight, or the
default weight; a joint with weight zero is put at the displacement in the file; each constraint is registered with its kind, links,
attention point, weight and mode. -/
theorem C79_config (o : Order) (acm : IKAcm K → Vec3 K → IKAcm K × Vec3 K) (junk : IKAttr K) (c : Chain K)
    (jv : List (List K) → List K → List K → List K → List K → ℕ → K) (hn : Nameable c.link) (lines : List (ConfLine K))
    (hv : ∀ l ∈ lines, l.Valid c.link) (f : File K) (hf : secs "ik" f = [lines.map (ConfLine.fld (linkName c.link))]) :
    (ikConfRead o acm junk c jv f).map (fun r => (r.1, r.2.1)) =
      ((IK.create c jv).runAll (confOps acm c.link 0 (confOrder o lines))).map fun ik => (true, ik) := by
  have hv' : ∀ l ∈ confOrder o lines, l.Valid c.link := by
    intro l hl
    cases o with
    | file => exact hv l hl
    | table =>
      rcases List.mem_append.1 hl with h | h
      · exact hv l (List.mem_filter.1 h).1
      · exact hv l (List.mem_filter.1 h).1
  rw [ikConfRead, ikConf, hf]
  simp only [evalTag]
  rw [evalKeys_order, (lines_read junk hn _ hv' (IK.create c jv, 0) rfl).1]
  cases (IK.create c jv).runAll (confOps acm c.link 0 (confOrder o lines)) <;> rfl

/-- **C79**: what happens to a file with a line that makes no sense, when the lines are read in the order of the file: the lines
before it have been carried out, the rest of the file is ignored, and the solver is returned as if the file were all right. -/
theorem C79_stop (acm : IKAcm K → Vec3 K → IKAcm K × Vec3 K) (junk : IKAttr K) (c : Chain K)
    (jv : List (List K) → List K → List K → List K → List K → ℕ → K) (hn : Nameable c.link) (lines : List (ConfLine K))
    (hv : ∀ l ∈ lines, l.Valid c.link) (bad : Fld K) (hb : ConfBad c.link bad) (rest : List (Fld K)) (f : File K)
    (hf : secs "ik" f = [lines.map (ConfLine.fld (linkName c.link)) ++ bad :: rest]) :
    (ikConfRead .file acm junk c jv f).map (fun r => (r.1, r.2.1)) =
      ((IK.create c jv).runAll (confOps acm c.link 0 lines)).map fun ik => (true, ik) := by
  obtain ⟨h1, h2⟩ := lines_read (acm := acm) junk hn lines hv (IK.create c jv, 0) rfl
  rw [ikConfRead, ikConf, hf]
  simp only [evalTag, evalKeys]
  rw [List.foldl_append, h1, List.foldl_cons]
  rcases h : (IK.create c jv).runAll (confOps acm c.link 0 lines) with _ | ik
  · rw [show (opRes (nextPtr (IK.create c jv, 0).2 lines) (none : Option (IK K))).andThen
      (fun s => evalFld (ikTab acm junk) s bad) = .ub from rfl, foldl_res_ub]
    rfl
  · have hs := h2 ik h
    have : ∀ ptr, evalFld (ikTab acm junk) (ik, ptr) bad = .null (ik, ptr) := by
      intro ptr
      cases hb with
      | noJoint n w h1 h2 =>
        change ikJointRead (ik, ptr) (.str n :: w.toList.map .num) = _
        rw [ikJointRead, ikWeight_opt]
        simp only [if_neg h1, ikLink_none hs h2]
      | fixed i l w h1 h2 h3 =>
        have hlt := (List.getElem?_eq_some_iff.1 h1).1
        have en : l.name = linkName c.link i := by rw [linkName, h1]; rfl
        obtain ⟨n1, n2⟩ := ikLink_name hn hs hlt
        obtain ⟨l', g1, g2⟩ := sig_get hs h1
        have hsz : l'.size = 0 := by
          have := congrArg (fun x => x.2.1) g2
          simp only [confSig] at this
          rw [Link.size, this, h2]
        have hw0 : w.getD (1 / 1000) ≠ 0 := by
          rcases w with _ | w
          · simp
          · simpa using h3
        change ikJointRead (ik, ptr) (.str l.name :: w.toList.map .num) = _
        rw [en, ikJointRead, ikWeight_opt]
        simp only [n1, g1, if_neg hw0, if_pos hsz, if_neg (show linkName c.link i ≠ "all" from fun e => n2 (by simp [e]))]
      | noKind n ts h =>
        change ikConsRead acm junk (ik, ptr) (.str n :: ts) = _
        rw [ikConsRead, ikLookup_none acm h]
      | noLink k n args ts h1 h2 h3 =>
        change ikConsRead acm junk (ik, ptr) (.str k.name :: (args.flatMap (ConfArg.toks (linkName c.link)) ++ .str n :: ts)) = _
        rw [ikConsRead, ikLookup_kind]
        simp only [List.mem_cons, List.not_mem_nil, or_false, not_or] at h2
        have := ikConsArgs_toks (ik := ik) (nm := linkName c.link) args (fun i hi => by
          obtain ⟨n1, n2⟩ := ikLink_name hn hs (h1 i hi)
          exact ⟨n1, fun h => n2 (List.mem_cons_of_mem _ h)⟩) (.str n :: ts) ⟨junk, ⟨false, false, false, false, false⟩, 0⟩
        simp only [this]
        rw [ikConsArgs, if_neg h2.1, if_neg h2.2.1, if_neg h2.2.2]
        simp only [ikLink_none hs h3]
    rw [show (opRes (nextPtr (IK.create c jv, 0).2 lines) (some ik)).andThen (fun s => evalFld (ikTab acm junk) s bad) =
      evalFld (ikTab acm junk) (ik, nextPtr 0 lines) bad from rfl, this, foldl_res_null]
    rfl

end

/-- A fixed base with two sliders on it. -/
def Sample.onBase : Chain ℚ :=
  { link := LinkArray.setOffset [Sample.link "base" .fixed Sample.mp1 Frame.ident, Sample.slider "a", Sample.slider "b"],
    shape := .node 0 (.node 1 (.node 2 .nil .nil) .nil) .nil, mass := 3, wldCOM := 0, comVel := 0, comAcc := 0 }

/-- Attitude errors are not accumulated, in the examples. -/
def Sample.acm0 (a : IKAcm ℚ) (v : Vec3 ℚ) : IKAcm ℚ × Vec3 ℚ := (a, v)

/-- Put one slider at 2, register the joint of the other with weight 3, constrain the positions of two links. -/
def Sample.confLines : List (ConfLine ℚ) :=
  [.pose 2 [2], .joint 1 (some 3), .constraint .worldPos [.link 2, .point ⟨0, 0, 1⟩, .force],
   .constraint .l2lPos [.weight ⟨1, 2, 3⟩, .link 1, .link 0]]

/-- The file with these lines. -/
def Sample.confFile : File ℚ := [("ik", Sample.confLines.map (ConfLine.fld (linkName Sample.onBase.link)))]

theorem Sample.onBase_nameable : Nameable Sample.onBase.link := by
  refine ⟨by decide, ?_⟩
  have : ∀ n ∈ Sample.onBase.link.map (fun l => l.name), n ∉ ["all", "at", "w", "f"] := by decide
  exact fun l hl => this _ (List.mem_map.2 ⟨l, hl, rfl⟩)

theorem Sample.confLines_valid : ∀ l ∈ Sample.confLines, l.Valid Sample.onBase.link := by
  intro l hl
  simp only [Sample.confLines, List.mem_cons, List.not_mem_nil, or_false] at hl
  rcases hl with rfl | rfl | rfl | rfl
  · exact ⟨_, rfl, by decide, by decide⟩
  · exact ⟨⟨_, rfl, by decide⟩, by decide⟩
  · intro i hi
    have : i ∈ [2] := hi
    revert i; decide
  · intro i hi
    have : i ∈ [1, 0] := hi
    revert i; decide

/-- The file that `Sample.confLines` stands for, written out. -/
example : Sample.confFile =
    [("ik", [⟨"joint", [.str "b", .num 0, .num 2]⟩, ⟨"joint", [.str "a", .num 3]⟩,
      ⟨"constraint", [.str "world_pos", .str "b", .str "at", .num 0, .num 0, .num 1, .str "f"]⟩,
      ⟨"constraint", [.str "l2l_pos", .str "w", .num 1, .num 2, .num 3, .str "a", .str "base"]⟩])] := rfl

/-- The hypotheses of `C79_config` are met, and the solver has one registered joint and two constraints. -/
example (junk : IKAttr ℚ) : ∃ r, ikConfRead .file Sample.acm0 junk Sample.onBase (IK.jointVelAD Sample.gauss1) Sample.confFile =
    some (true, r) ∧ r.1.sw = [false, true, false] ∧ r.1.weight = [0, 3, 0] ∧
    (r.1.clist.map fun c => ([c.attr.id, c.attr.idSub], [c.attr.ap.z, c.attr.w.y], c.attr.force)) =
      [([2, 0], [1, 1], true), ([1, 0], [0, 2], false)] := by
  have h := C79_config .file Sample.acm0 junk Sample.onBase (IK.jointVelAD Sample.gauss1) Sample.onBase_nameable Sample.confLines
    Sample.confLines_valid Sample.confFile rfl
  have key : (((IK.create Sample.onBase (IK.jointVelAD Sample.gauss1)).runAll
      (confOps Sample.acm0 Sample.onBase.link 0 (confOrder .file Sample.confLines))).map fun s => ((s.sw, s.weight) : List Bool × List ℚ)) =
      some ([false, true, false], [0, 3, 0]) := by decide +kernel
  have key' : (((IK.create Sample.onBase (IK.jointVelAD Sample.gauss1)).runAll
      (confOps Sample.acm0 Sample.onBase.link 0 (confOrder .file Sample.confLines))).map fun s =>
        s.clist.map fun c => ([c.attr.id, c.attr.idSub], [c.attr.ap.z, c.attr.w.y], c.attr.force)) =
      some [([2, 0], [1, 1], true), ([1, 0], [0, 2], false)] := by decide +kernel
  obtain ⟨ik, h1, h2⟩ := Option.map_eq_some_iff.1 key
  rw [h1] at h key'
  obtain ⟨⟨b, r⟩, h3, h4⟩ := Option.map_eq_some_iff.1 h
  simp only [Prod.mk.injEq] at h4 h2
  obtain ⟨rfl, rfl⟩ := h4
  exact ⟨r, h3, h2.1, h2.2, Option.some.inj key'⟩

/-- **C79**: a file that names a link that does not exist, or a kind of constraints that does not exist, is not rejected: a solver is
returned in which the lines from there on are missing. -/
theorem C79_reject_fails (junk : IKAttr ℚ) : ∃ r, ikConfRead .file Sample.acm0 junk Sample.onBase (IK.jointVelAD Sample.gauss1)
      [("ik", [⟨"joint", [.str "a"]⟩, ⟨"constraint", [.str "world_pos", .str "hand"]⟩,
        ⟨"constraint", [.str "world_pos", .str "b"]⟩, ⟨"joint", [.str "b"]⟩])] = some (true, r) ∧
    r.1.sw = [false, true, false] ∧ r.1.clist.length = 0 := by
  have h := C79_stop Sample.acm0 junk Sample.onBase (IK.jointVelAD Sample.gauss1) Sample.onBase_nameable [.joint 1 none]
    (by
      intro l hl
      rw [List.mem_singleton.1 hl]
      exact ⟨⟨_, rfl, by decide⟩, by simp⟩)
    ⟨"constraint", [.str "world_pos", .str "hand"]⟩ (.noLink .worldPos "hand" [] [] (by simp [ConfArg.links]) (by decide) (by decide))
    [⟨"constraint", [.str "world_pos", .str "b"]⟩, ⟨"joint", [.str "b"]⟩]
    [("ik", [⟨"joint", [.str "a"]⟩, ⟨"constraint", [.str "world_pos", .str "hand"]⟩,
        ⟨"constraint", [.str "world_pos", .str "b"]⟩, ⟨"joint", [.str "b"]⟩])] rfl
  have key : (((IK.create Sample.onBase (IK.jointVelAD Sample.gauss1)).runAll
      (confOps Sample.acm0 Sample.onBase.link 0 [.joint 1 none])).map fun s => (s.sw, s.clist.length)) =
      some ([false, true, false], 0) := by decide +kernel
  obtain ⟨ik, h1, h2⟩ := Option.map_eq_some_iff.1 key
  rw [h1] at h
  obtain ⟨⟨b, r⟩, h3, h4⟩ := Option.map_eq_some_iff.1 h
  simp only [Prod.mk.injEq] at h4 h2
  obtain ⟨rfl, rfl⟩ := h4
  exact ⟨r, h3, h2.1, h2.2⟩

/-- **C79**: when the lines are read in the order of the file, a file in which a constraint comes before the joints runs into
undefined behaviour; with the joints first it does not. -/
theorem C79_order_fails (junk : IKAttr ℚ) :
    ikConfRead .file Sample.acm0 junk Sample.onBase (IK.jointVelAD Sample.gauss1)
      [("ik", [⟨"constraint", [.str "world_pos", .str "b"]⟩, ⟨"joint", [.str "all"]⟩])] = none ∧
    (ikConfRead .file Sample.acm0 junk Sample.onBase (IK.jointVelAD Sample.gauss1)
      [("ik", [⟨"joint", [.str "all"]⟩, ⟨"constraint", [.str "world_pos", .str "b"]⟩])]).isSome := by
  have hv : ∀ l ∈ ([.constraint .worldPos [.link 2], .all none] : List (ConfLine ℚ)), l.Valid Sample.onBase.link := by
    intro l hl
    simp only [List.mem_cons, List.not_mem_nil, or_false] at hl
    rcases hl with rfl | rfl
    · intro i hi
      have : i ∈ [2] := hi
      revert i; decide
    · trivial
  have h1 := C79_config .file Sample.acm0 junk Sample.onBase (IK.jointVelAD Sample.gauss1) Sample.onBase_nameable
    [.constraint .worldPos [.link 2], .all none] hv
    [("ik", [⟨"constraint", [.str "world_pos", .str "b"]⟩, ⟨"joint", [.str "all"]⟩])] rfl
  have h2 := C79_config .file Sample.acm0 junk Sample.onBase (IK.jointVelAD Sample.gauss1) Sample.onBase_nameable
    [.all none, .constraint .worldPos [.link 2]] (fun l hl => hv l (by simpa [or_comm] using hl))
    [("ik", [⟨"joint", [.str "all"]⟩, ⟨"constraint", [.str "world_pos", .str "b"]⟩])] rfl
  have k1 : (((IK.create Sample.onBase (IK.jointVelAD Sample.gauss1)).runAll
      (confOps Sample.acm0 Sample.onBase.link 0 [.constraint .worldPos [.link 2], .all none])).map fun s => s.sw) = none := by
    decide +kernel
  have k2 : (((IK.create Sample.onBase (IK.jointVelAD Sample.gauss1)).runAll
      (confOps Sample.acm0 Sample.onBase.link 0 [.all none, .constraint .worldPos [.link 2]])).map fun s => s.sw) =
      some [false, true, true] := by
    decide +kernel
  constructor
  · rw [confOrder, Option.map_eq_none_iff.1 k1] at h1
    simpa using h1
  · obtain ⟨ik, k2, -⟩ := Option.map_eq_some_iff.1 k2
    rw [confOrder, k2] at h2
    obtain ⟨r, h3, -⟩ := Option.map_eq_some_iff.1 h2
    rw [h3]; rfl

end Roki
