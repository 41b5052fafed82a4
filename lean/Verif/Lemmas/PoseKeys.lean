import Verif.Spec.PoseKeys
import Verif.Lemmas.ChainFile6
set_option autoImplicit false

/-!
# Lemmas on the keys that place a link
-/

namespace Roki.ZTK
open Roki.Spec
variable {K : Type*} [Field K] [LinearOrder K] [Zm K] {σ : Type*}

/-- The fields of a section in the order in which they are met. -/
def arr (o : Order) (ks : List String) (sec : List (Fld K)) : List (Fld K) :=
  match o with
  | .file => sec
  | .table => ks.flatMap fun k => sec.filter fun f => f.key == k

/-- Evaluate fields one after the other. -/
def evalList (tab : List (Row σ K)) : List (Fld K) → σ → Res σ
  | [], s => .ok s
  | f :: l, s => (evalFld tab s f).andThen (evalList tab l)

omit [Field K] [LinearOrder K] [Zm K] in
theorem foldl_evalList (tab : List (Row σ K)) : ∀ (l : List (Fld K)) (r : Res σ),
    l.foldl (fun r f => r.andThen fun s => evalFld tab s f) r = r.andThen (evalList tab l) := by
  intro l
  induction l with
  | nil => intro r; cases r <;> rfl
  | cons f l ih =>
    intro r
    rw [List.foldl_cons, ih]
    cases r <;> rfl

omit [Field K] [LinearOrder K] [Zm K] in
theorem evalList_append (tab : List (Row σ K)) : ∀ (l l' : List (Fld K)) (s : σ),
    evalList tab (l ++ l') s = (evalList tab l s).andThen (evalList tab l') := by
  intro l
  induction l with
  | nil => intro l' s; rfl
  | cons f l ih =>
    intro l' s
    rw [List.cons_append, evalList, evalList]
    cases evalFld tab s f with
    | ub => rfl
    | null t => rfl
    | ok t => exact ih l' t

omit [Field K] [LinearOrder K] [Zm K] in
theorem evalKeys_arr (o : Order) {tab : List (Row σ K)} (hn : (tab.map Row.key).Nodup) (sec : List (Fld K)) (s : σ) :
    evalKeys o tab sec s = evalList tab (arr o (keys tab) sec) s := by
  cases o with
  | file => exact (foldl_evalList tab sec (.ok s))
  | table =>
    rw [evalKeys_table]
    have : ∀ (l : List (Row σ K)), (∀ row ∈ l, row ∈ tab) → ∀ r : Res σ,
        rdRows sec l r = r.andThen (evalList tab (arr .table (keys l) sec)) := by
      intro l
      induction l with
      | nil => intro _ r; cases r <;> rfl
      | cons row l ih =>
        intro hl r
        have e : arr .table (keys (row :: l)) sec = (sec.filter fun f => f.key == row.key) ++ arr .table (keys l) sec := by
          simp [arr, keys]
        rw [rdRows, ih fun x hx => hl x (List.mem_cons_of_mem _ hx), e, vals,
          ← fold_row hn (hl row (by simp)) (sec.filter fun f => f.key == row.key) (by
            intro f hf
            simpa using (List.mem_filter.1 hf).2) r, foldl_evalList]
        cases r with
        | ub => rfl
        | null t => rfl
        | ok t => exact (evalList_append tab _ _ t).symm
    exact this tab (fun _ h => h) _

/-! ## Links -/

omit [Field K] [LinearOrder K] [Zm K] in
theorem pos_ne {f : Fld K} (h : f.key ∉ poseKeys) :
    f.key ≠ "pos" ∧ f.key ≠ "att" ∧ f.key ≠ "rot" ∧ f.key ≠ "frame" ∧ f.key ≠ "DH" := by
  simpa [poseKeys] using h

/-- A line that does not place the link. -/
theorem linkTabZ_other (z : PoseZeo K) (names shapes : List String) {f : Fld K} (h : f.key ∉ poseKeys) (s : FLink K) (F : Frame K) :
    evalFld (linkTabZ z names shapes) (setOrg s F) f =
      (evalFld (linkTabAll none names shapes) s f).bind (fun t => .null (setOrg t F)) fun t => .ok (setOrg t F) := by
  obtain ⟨h1, h2, h3, h4, h5⟩ := pos_ne h
  have e1 : (linkTabZ z names shapes).find? (fun r => r.key == f.key) =
      (linkTabAll none names shapes).find? (fun r => r.key == f.key) := by
    have a3 : ((rotRow z).key == f.key) = false := by simpa [rotRow] using Ne.symm h3
    have a4 : ((frameRow z).key == f.key) = false := by simpa [frameRow] using Ne.symm h4
    have a5 : ((dhRow z).key == f.key) = false := by simpa [dhRow] using Ne.symm h5
    simp only [linkTabZ, linkTabAll, List.find?_append, List.find?_cons, a3, a4, a5]
  rw [evalFld, evalFld, e1]
  cases hr : (linkTabAll (K := K) none names shapes).find? (fun r => r.key == f.key) with
  | none => rfl
  | some row =>
    have hm := List.mem_of_find?_eq_some hr
    have hk := List.find?_some hr
    simp only [beq_iff_eq] at hk
    simp only [linkTabAll, linkTab, List.cons_append, List.nil_append, List.mem_cons, List.not_mem_nil, or_false] at hm
    rcases hm with rfl | rfl | rfl | rfl | rfl | rfl | rfl | rfl | rfl
    · rcases f.val with _ | ⟨a | a | a, l⟩ <;> try rfl
      simp only
      split <;> rfl
    · rcases f.val with _ | ⟨a | a | a, l⟩ <;> try rfl
      simp only [setOrg]
      rcases s.link.joint.queryAssign a with _ | _ | j <;> rfl
    · rcases f.val with _ | ⟨a | a | a, l⟩ <;> rfl
    · rcases f.val with _ | ⟨a | a | a, l⟩ <;> rfl
    · simp only
      rcases vecTok f.val with _ | v <;> rfl
    · simp only
      rcases matTok f.val with _ | v <;> rfl
    · exact absurd hk.symm h1
    · exact absurd hk.symm h2
    · rcases f.val with _ | ⟨a | a | a, l⟩ <;> try rfl
      simp only [shapeRow]
      split
      · rfl
      · split <;> rfl

theorem linkTabZ_pose (z : PoseZeo K) (names shapes : List String) {f : Fld K} (h : f.key ∈ poseKeys) (s : FLink K) :
    evalFld (linkTabZ z names shapes) s f = match place z s.link.org f with
      | none => .ub
      | some F => .ok (setOrg s F) := by
  obtain ⟨k, v⟩ := f
  simp only [poseKeys, List.mem_cons, List.not_mem_nil, or_false] at h
  rcases h with rfl | rfl | rfl | rfl | rfl
  · simp only [evalFld, linkTabZ, linkTab, numRow, place]
    simp
    rcases vecTok v with _ | v <;> rfl
  · simp only [evalFld, linkTabZ, linkTab, numRow, place]
    simp
    rcases matTok v with _ | v <;> rfl
  · simp only [evalFld, linkTabZ, linkTab, numRow, place]
    simp [rotRow]
    rcases z.aa v with _ | v <;> rfl
  · simp only [evalFld, linkTabZ, linkTab, numRow, place]
    simp [rotRow, frameRow]
    rcases z.frame v with _ | v <;> rfl
  · simp only [evalFld, linkTabZ, linkTab, numRow, place]
    simp [rotRow, frameRow, dhRow]
    rcases z.dh v with _ | v <;> rfl

omit [LinearOrder K] in
theorem setOrg_setOrg (s : FLink K) (F G : Frame K) : setOrg (setOrg s F) G = setOrg s G := rfl

omit [LinearOrder K] in
theorem setOrg_self (s : FLink K) : setOrg s s.link.org = s := rfl

omit [LinearOrder K] in
theorem place_other (z : PoseZeo K) {f : Fld K} (h : f.key ∉ poseKeys) (F : Frame K) : place z F f = some F := by
  obtain ⟨h1, h2, h3, h4, h5⟩ := pos_ne h
  simp [place, h1, h2, h3, h4, h5]

omit [LinearOrder K] in
theorem placeAll_noPose (z : PoseZeo K) : ∀ (l : List (Fld K)) (F : Frame K),
    placeAll z (l.filter fun f => f.key ∈ poseKeys) F = placeAll z l F := by
  intro l
  induction l with
  | nil => intro F; rfl
  | cons f l ih =>
    intro F
    by_cases h : f.key ∈ poseKeys
    · rw [List.filter_cons_of_pos (by simpa using h), placeAll, placeAll]
      congr 1
      funext G
      exact ih G
    · rw [List.filter_cons_of_neg (by simpa using h), placeAll, place_other z h, ih]
      rfl

theorem evalList_split (z : PoseZeo K) (names shapes : List String) : ∀ (L : List (Fld K)) (s t : FLink K) (F : Frame K),
    evalList (linkTabZ z names shapes) L (setOrg s F) = .ok t ↔
      ∃ t' G, evalList (linkTabAll none names shapes) (noPose L) s = .ok t' ∧ placeAll z L F = some G ∧ t = setOrg t' G := by
  intro L
  induction L with
  | nil =>
    intro s t F
    simp only [evalList, noPose, List.filter_nil, placeAll, Res.ok.injEq, Option.some.injEq]
    constructor
    · rintro rfl; exact ⟨s, F, rfl, rfl, rfl⟩
    · rintro ⟨t', G, rfl, rfl, rfl⟩; rfl
  | cons f L ih =>
    intro s t F
    by_cases h : f.key ∈ poseKeys
    · have e : noPose (f :: L) = noPose L := by simp [noPose, h]
      rw [evalList, linkTabZ_pose z names shapes h, e, placeAll]
      have e2 : (setOrg s F).link.org = F := rfl
      rw [e2]
      cases hp : place z F f with
      | none => simp [Res.andThen]
      | some F' =>
        simp only [Option.bind_some, setOrg_setOrg]
        exact ih s t F'
    · have e : noPose (f :: L) = f :: noPose L := by simp [noPose, h]
      rw [evalList, linkTabZ_other z names shapes h, e, placeAll, place_other z h, evalList]
      cases hp : evalFld (linkTabAll none names shapes) s f with
      | ub => simp [Res.andThen]
      | null a => simp [Res.andThen]
      | ok a =>
        simp only [Option.bind_some]
        exact ih a t F

omit [Field K] [LinearOrder K] [Zm K] in
theorem noPose_noPose (l : List (Fld K)) : noPose (noPose l) = noPose l := by simp [noPose]

theorem linkTabZ_keys (z : PoseZeo K) (names shapes : List String) :
    keys (linkTabZ z names shapes) = ["name", "jointtype", "mass", "stuff", "COM", "inertia", "pos", "att", "rot", "frame", "DH", "shape"] := rfl

omit [Field K] [LinearOrder K] [Zm K] in
theorem filter_key_noPose {k : String} (h : k ∉ poseKeys) (sec : List (Fld K)) :
    (noPose sec).filter (fun f => f.key == k) = sec.filter fun f => f.key == k := by
  rw [noPose, List.filter_filter]
  refine List.filter_congr fun f _ => ?_
  by_cases e : f.key = k
  · simp [e, h]
  · simp [e]

omit [Field K] [LinearOrder K] [Zm K] in
theorem noPose_filter_key {k : String} (h : k ∉ poseKeys) (sec : List (Fld K)) :
    noPose (sec.filter fun f => f.key == k) = sec.filter fun f => f.key == k := by
  rw [← filter_key_noPose h, noPose, noPose, List.filter_filter, List.filter_filter, List.filter_filter]
  refine List.filter_congr fun f _ => ?_
  cases (decide (f.key ∉ poseKeys)) <;> simp

omit [Field K] [LinearOrder K] [Zm K] in
theorem noPose_filter_pose {k : String} (h : k ∈ poseKeys) (sec : List (Fld K)) : noPose (sec.filter fun f => f.key == k) = [] := by
  rw [noPose, List.filter_filter, List.filter_eq_nil_iff]
  intro f _
  by_cases e : f.key = k
  · simp [e, h]
  · simp [e]

omit [Field K] [LinearOrder K] [Zm K] in
theorem filter_pose_noPose {k : String} (h : k ∈ poseKeys) (sec : List (Fld K)) : (noPose sec).filter (fun f => f.key == k) = [] := by
  rw [noPose, List.filter_filter, List.filter_eq_nil_iff]
  intro f _
  by_cases e : f.key = k
  · simp [e, h]
  · simp [e]

theorem noPose_arr (z : PoseZeo K) (o : Order) (names shapes : List String) (sec : List (Fld K)) :
    noPose (arr o (keys (linkTabZ z names shapes)) sec) = arr o (keys (linkTabAll (K := K) none names shapes)) (noPose sec) := by
  cases o with
  | file => rfl
  | table =>
    have ha : ∀ a b : List (Fld K), noPose (a ++ b) = noPose a ++ noPose b := fun a b => by simp [noPose]
    rw [linkTabZ_keys, linkTabAll_keys]
    simp only [arr, linkKeys, List.flatMap_cons, List.flatMap_nil, List.append_nil, ha]
    rw [noPose_filter_pose (k := "pos") (by decide), noPose_filter_pose (k := "att") (by decide),
      noPose_filter_pose (k := "rot") (by decide), noPose_filter_pose (k := "frame") (by decide),
      noPose_filter_pose (k := "DH") (by decide), filter_pose_noPose (k := "pos") (by decide), filter_pose_noPose (k := "att") (by decide),
      noPose_filter_key (k := "name") (by decide), noPose_filter_key (k := "jointtype") (by decide),
      noPose_filter_key (k := "mass") (by decide), noPose_filter_key (k := "stuff") (by decide),
      noPose_filter_key (k := "COM") (by decide), noPose_filter_key (k := "inertia") (by decide),
      noPose_filter_key (k := "shape") (by decide),
      filter_key_noPose (k := "name") (by decide), filter_key_noPose (k := "jointtype") (by decide),
      filter_key_noPose (k := "mass") (by decide), filter_key_noPose (k := "stuff") (by decide),
      filter_key_noPose (k := "COM") (by decide), filter_key_noPose (k := "inertia") (by decide),
      filter_key_noPose (k := "shape") (by decide)]
    simp only [List.nil_append]

theorem placeAll_append (z : PoseZeo K) : ∀ (l l' : List (Fld K)) (F : Frame K),
    placeAll z (l ++ l') F = (placeAll z l F).bind (placeAll z l') := by
  intro l
  induction l with
  | nil => intro l' F; rfl
  | cons f l ih =>
    intro l' F
    rw [List.cons_append, placeAll, placeAll]
    cases place z F f with
    | none => rfl
    | some G => exact ih l' G

theorem placeAll_other (z : PoseZeo K) : ∀ (l : List (Fld K)), (∀ f ∈ l, f.key ∉ poseKeys) → ∀ F : Frame K, placeAll z l F = some F := by
  intro l
  induction l with
  | nil => intro _ F; rfl
  | cons f l ih =>
    intro h F
    rw [placeAll, place_other z (h f (by simp))]
    exact ih (fun g hg => h g (List.mem_cons_of_mem _ hg)) F

theorem placeAll_arr (z : PoseZeo K) (o : Order) (names shapes : List String) (sec : List (Fld K)) (F : Frame K) :
    placeAll z (arr o (keys (linkTabZ z names shapes)) sec) F = placeAll z (poseLines o sec) F := by
  cases o with
  | file => rfl
  | table =>
    have hk : ∀ k : String, k ∉ poseKeys → ∀ F : Frame K, placeAll z (sec.filter fun f => f.key == k) F = some F := by
      intro k hk F
      refine placeAll_other z _ (fun f hf => ?_) F
      have := (List.mem_filter.1 hf).2
      simp only [beq_iff_eq] at this
      rw [this]; exact hk
    rw [linkTabZ_keys]
    simp only [arr, poseLines, poseKeys, List.flatMap_cons, List.flatMap_nil, List.append_nil, placeAll_append]
    rw [hk "name" (by decide), Option.bind_some, hk "jointtype" (by decide), Option.bind_some, hk "mass" (by decide),
      Option.bind_some, hk "stuff" (by decide), Option.bind_some, hk "COM" (by decide), Option.bind_some,
      hk "inertia" (by decide), Option.bind_some]
    have e : (fun F : Frame K => placeAll z (sec.filter fun f => f.key == "shape") F) = some := funext (hk "shape" (by decide))
    have e' : placeAll z (sec.filter fun f => f.key == "shape") = some := e
    rw [e']
    simp

omit [Field K] [LinearOrder K] [Zm K] in
/-- Two sections that differ in the lines that place the link are the same to a table without these keys. -/
theorem evalKeys_noPose (o : Order) {tab : List (Row σ K)} (hk : ∀ k ∈ keys tab, k ∉ poseKeys) {a b : List (Fld K)}
    (h : noPose a = noPose b) (s : σ) : evalKeys o tab a s = evalKeys o tab b s := by
  have e : ∀ c : List (Fld K), known tab c = known tab (noPose c) := by
    intro c
    rw [known, known, noPose, List.filter_filter]
    refine List.filter_congr fun f _ => ?_
    rw [Bool.eq_iff_iff]
    simp only [Bool.and_eq_true, decide_eq_true_eq]
    refine ⟨fun hf => ⟨hf, fun hp => ?_⟩, fun hf => hf.1⟩
    obtain ⟨r, hr, e⟩ := List.any_eq_true.1 hf
    simp only [beq_iff_eq] at e
    exact hk r.key (List.mem_map.2 ⟨r, hr, rfl⟩) (e ▸ hp)
  rw [← evalKeys_known, ← evalKeys_known o tab b, e a, e b, h]

theorem jointRead_noPose (o : Order) (motors : List (NMotor K)) {a b : List (Fld K)} (h : noPose a = noPose b) (j : FJoint K) :
    jointRead o motors a j = jointRead o motors b j := by
  refine evalKeys_noPose o (fun k hk => ?_) h j
  have hs : ∀ p : Prp K, (keys (jointTab motors p)).Sublist jointKeys := by
    intro p
    cases p <;> simp only [keys, jointTab, jointKeys, coef1, coef2, row1, row2, rowF, disRow, motorRow, List.map, List.cons_append,
      List.nil_append] <;> decide
  have hj : ∀ k ∈ jointKeys, k ∉ poseKeys := by decide
  exact hj k ((hs j.prp).subset hk)

/-- The link that is read. -/
theorem linkReadZ_ok (z : PoseZeo K) (o : Order) (noname : String) (names shapes : List String) (motors : List (NMotor K))
    (sec : List (Fld K)) (l : FLink K) :
    linkReadZ z o noname names shapes motors sec = .ok l ↔
      ∃ l' G, linkRead o noname names shapes motors (noPose sec) = .ok l' ∧
        placeAll z (poseLines o sec) Frame.ident = some G ∧ l = setOrg l' G := by
  have key : ∀ t, evalKeys o (linkTabZ z names shapes) sec (linkInit noname) = .ok t ↔
      ∃ t' G, evalKeys o (linkTabAll none names shapes) (noPose sec) (linkInit noname) = .ok t' ∧
        placeAll z (poseLines o sec) Frame.ident = some G ∧ t = setOrg t' G := by
    intro t
    have hn1 : ((linkTabZ z names shapes).map Row.key).Nodup := by
      have := linkTabZ_keys z names shapes
      rw [keys] at this
      rw [this]; decide
    have hn2 : ((linkTabAll (K := K) none names shapes).map Row.key).Nodup := by
      have := linkTabAll_keys (K := K) none names shapes
      rw [keys] at this
      rw [this]; decide
    rw [evalKeys_arr o hn1, evalKeys_arr o hn2, ← noPose_arr z o names shapes sec, ← placeAll_arr z o names shapes sec]
    exact evalList_split z names shapes _ (linkInit noname) t Frame.ident
  constructor
  · intro h
    rw [linkReadZ] at h
    cases ht : evalKeys o (linkTabZ z names shapes) sec (linkInit noname) with
    | ub => rw [ht] at h; simp [Res.andThen] at h
    | null t => rw [ht] at h; simp [Res.andThen] at h
    | ok t =>
      rw [ht] at h
      obtain ⟨t', G, e1, e2, rfl⟩ := (key t).1 ht
      refine ⟨setOrg l t'.link.org, G, ?_, e2, ?_⟩
      · rw [linkRead, e1]
        simp only [Res.andThen_ok] at h ⊢
        rw [jointRead_noPose o motors (noPose_noPose sec)]
        have e3 : (⟨(setOrg t' G).link.joint.prp, (setOrg t' G).mname⟩ : FJoint K) = ⟨t'.link.joint.prp, t'.mname⟩ := rfl
        rw [e3] at h
        cases hj : (jointRead o motors sec ⟨t'.link.joint.prp, t'.mname⟩).ignore with
        | ub => rw [hj] at h; simp [Res.bind] at h
        | null j => rw [hj] at h; simp [Res.bind] at h
        | ok j =>
          rw [hj] at h
          simp only [Res.bind, Res.ok.injEq] at h ⊢
          rw [← h]; rfl
      · have : l.link.org = G := by
          simp only [Res.andThen_ok] at h
          cases hj : (jointRead o motors sec ⟨(setOrg t' G).link.joint.prp, (setOrg t' G).mname⟩).ignore with
          | ub => rw [hj] at h; simp [Res.bind] at h
          | null j => rw [hj] at h; simp [Res.bind] at h
          | ok j =>
            rw [hj] at h
            simp only [Res.bind, Res.ok.injEq] at h
            rw [← h]; rfl
        rw [setOrg_setOrg, ← this, setOrg_self]
  · rintro ⟨l', G, h, e2, rfl⟩
    rw [linkRead] at h
    cases ht : evalKeys o (linkTabAll none names shapes) (noPose sec) (linkInit noname) with
    | ub => rw [ht] at h; simp [Res.andThen] at h
    | null t => rw [ht] at h; simp [Res.andThen] at h
    | ok t =>
      rw [ht] at h
      rw [linkReadZ, (key (setOrg t G)).2 ⟨t, G, ht, e2, rfl⟩]
      simp only [Res.andThen_ok] at h ⊢
      rw [jointRead_noPose o motors (noPose_noPose sec)] at h
      have e3 : (⟨(setOrg t G).link.joint.prp, (setOrg t G).mname⟩ : FJoint K) = ⟨t.link.joint.prp, t.mname⟩ := rfl
      rw [e3]
      cases hj : (jointRead o motors sec ⟨t.link.joint.prp, t.mname⟩).ignore with
      | ub => rw [hj] at h; simp [Res.bind] at h
      | null j => rw [hj] at h; simp [Res.bind] at h
      | ok j =>
        rw [hj] at h
        simp only [Res.bind, Res.ok.injEq] at h ⊢
        rw [← h]; rfl

/-! ## A section with the place given by `pos` and `att` alone -/

/-- The lines for a frame. -/
def frameLines (F : Frame K) : List (Fld K) := [⟨"pos", tokVec F.pos⟩, ⟨"att", tokMat F.att⟩]

/-- A line that cannot be read. -/
def badLine : Fld K := ⟨"pos", []⟩

/-- Each line that places the link is replaced by the frame it gives. -/
def inPlace (z : PoseZeo K) : Frame K → List (Fld K) → List (Fld K)
  | _, [] => []
  | F, f :: l =>
    if f.key ∈ poseKeys then
      match place z F f with
      | none => badLine :: noPose l
      | some G => frameLines G ++ inPlace z G l
    else f :: inPlace z F l

/-- The section with the place given by `pos` and `att` alone. -/
def plainSec (z : PoseZeo K) (o : Order) (sec : List (Fld K)) : List (Fld K) :=
  match o with
  | .file => inPlace z Frame.ident sec
  | .table => noPose sec ++ match placeAll z (poseLines .table sec) Frame.ident with
    | none => [badLine]
    | some F => frameLines F

theorem linkTabZ_plain (z : PoseZeo K) (names shapes : List String) {f : Fld K} (h : f.key ∉ poseKeys) (s : FLink K) :
    evalFld (linkTabZ z names shapes) s f = evalFld (linkTabAll none names shapes) s f := by
  obtain ⟨h1, h2, h3, h4, h5⟩ := pos_ne h
  have a3 : ((rotRow z).key == f.key) = false := by simpa [rotRow] using Ne.symm h3
  have a4 : ((frameRow z).key == f.key) = false := by simpa [frameRow] using Ne.symm h4
  have a5 : ((dhRow z).key == f.key) = false := by simpa [dhRow] using Ne.symm h5
  simp only [evalFld, linkTabZ, linkTabAll, List.find?_append, List.find?_cons, a3, a4, a5]

theorem linkTabAll_keepsOrg (z : PoseZeo K) (names shapes : List String) {f : Fld K} (h : f.key ∉ poseKeys) {s t : FLink K}
    (ht : evalFld (linkTabAll none names shapes) s f = .ok t) : t.link.org = s.link.org := by
  have := linkTabZ_other z names shapes h s s.link.org
  rw [setOrg_self, linkTabZ_plain z names shapes h, ht] at this
  simp only [Res.bind, Res.ok.injEq] at this
  rw [this]; rfl

theorem evalList_frameLines (names shapes : List String) (F : Frame K) (s : FLink K) :
    evalList (linkTabAll none names shapes) (frameLines F) s = .ok (setOrg s F) := by
  obtain ⟨⟨a, b, c⟩, ⟨⟨m11, m12, m13⟩, ⟨m21, m22, m23⟩, ⟨m31, m32, m33⟩⟩⟩ := F
  simp [frameLines, evalList, evalFld, linkTabAll, linkTab, numRow, tokVec, vecTok, tokMat, matTok, Res.andThen, Res.bind, setOrg]

theorem evalList_badLine (names shapes : List String) (l : List (Fld K)) (s : FLink K) :
    evalList (linkTabAll none names shapes) (badLine :: l) s = .ub := by
  simp [badLine, evalList, evalFld, linkTabAll, linkTab, numRow, vecTok, Res.andThen, Res.bind]

theorem evalList_inPlace (z : PoseZeo K) (names shapes : List String) : ∀ (L : List (Fld K)) (s : FLink K),
    evalList (linkTabZ z names shapes) L s = evalList (linkTabAll none names shapes) (inPlace z s.link.org L) s := by
  intro L
  induction L with
  | nil => intro s; rfl
  | cons f L ih =>
    intro s
    rw [inPlace]
    by_cases h : f.key ∈ poseKeys
    · rw [if_pos h, evalList, linkTabZ_pose z names shapes h]
      cases place z s.link.org f with
      | none => rw [evalList_badLine]; rfl
      | some G =>
        simp only [Res.andThen_ok]
        rw [evalList_append, evalList_frameLines, Res.andThen_ok, ih]
        rfl
    · rw [if_neg h, evalList, evalList, linkTabZ_plain z names shapes h]
      cases ht : evalFld (linkTabAll none names shapes) s f with
      | ub => rfl
      | null t => rfl
      | ok t =>
        simp only [Res.andThen_ok]
        rw [ih, linkTabAll_keepsOrg z names shapes h ht]

theorem evalList_pose (z : PoseZeo K) (names shapes : List String) : ∀ (L : List (Fld K)), (∀ f ∈ L, f.key ∈ poseKeys) → ∀ s : FLink K,
    evalList (linkTabZ z names shapes) L s = match placeAll z L s.link.org with
      | none => .ub
      | some F => .ok (setOrg s F) := by
  intro L
  induction L with
  | nil => intro _ s; rfl
  | cons f L ih =>
    intro h s
    rw [evalList, linkTabZ_pose z names shapes (h f (by simp)), placeAll]
    cases place z s.link.org f with
    | none => rfl
    | some G =>
      simp only [Res.andThen_ok, Option.bind_some]
      exact ih (fun g hg => h g (List.mem_cons_of_mem _ hg)) (setOrg s G)

theorem evalList_other (z : PoseZeo K) (names shapes : List String) : ∀ (L : List (Fld K)), (∀ f ∈ L, f.key ∉ poseKeys) → ∀ s : FLink K,
    evalList (linkTabZ z names shapes) L s = evalList (linkTabAll none names shapes) L s ∧
      ∀ t, evalList (linkTabAll none names shapes) L s = .ok t → t.link.org = s.link.org := by
  intro L
  induction L with
  | nil =>
    intro _ s
    refine ⟨rfl, fun t ht => ?_⟩
    simp only [evalList, Res.ok.injEq] at ht
    rw [ht]
  | cons f L ih =>
    intro h s
    rw [evalList, evalList, linkTabZ_plain z names shapes (h f (by simp))]
    cases ht : evalFld (linkTabAll none names shapes) s f with
    | ub => exact ⟨rfl, fun t h => by simp [Res.andThen] at h⟩
    | null t => exact ⟨rfl, fun t h => by simp [Res.andThen] at h⟩
    | ok t =>
      simp only [Res.andThen_ok]
      obtain ⟨h1, h2⟩ := ih (fun g hg => h g (List.mem_cons_of_mem _ hg)) t
      exact ⟨h1, fun u hu => (h2 u hu).trans (linkTabAll_keepsOrg z names shapes (h f (by simp)) ht)⟩

theorem noPose_frameLines (F : Frame K) : noPose (frameLines F) = [] := by
  simp [noPose, frameLines, poseKeys]

theorem noPose_badLine (l : List (Fld K)) : noPose (badLine :: l) = noPose l := by
  simp [noPose, badLine, poseKeys]

theorem noPose_append (a b : List (Fld K)) : noPose (a ++ b) = noPose a ++ noPose b := by simp [noPose]

theorem noPose_inPlace (z : PoseZeo K) : ∀ (l : List (Fld K)) (F : Frame K), noPose (inPlace z F l) = noPose l := by
  intro l
  induction l with
  | nil => intro F; rfl
  | cons f l ih =>
    intro F
    rw [inPlace]
    by_cases h : f.key ∈ poseKeys
    · have e : noPose (f :: l) = noPose l := by simp [noPose, h]
      rw [if_pos h, e]
      cases place z F f with
      | none => simp only; rw [noPose_badLine, noPose_noPose]
      | some G => simp only; rw [noPose_append, noPose_frameLines, List.nil_append, ih]
    · have e : ∀ m, noPose (f :: m) = f :: noPose m := fun m => by simp [noPose, h]
      rw [if_neg h, e, e, ih]

theorem noPose_plainSec (z : PoseZeo K) (o : Order) (sec : List (Fld K)) : noPose (plainSec z o sec) = noPose sec := by
  cases o with
  | file => exact noPose_inPlace z sec _
  | table =>
    rw [plainSec, noPose_append, noPose_noPose]
    cases placeAll z (poseLines .table sec) Frame.ident with
    | none => simp only; rw [noPose_badLine]; simp [noPose]
    | some F => simp only; rw [noPose_frameLines, List.append_nil]

theorem plain_noPose (l : List (Fld K)) : Plain (noPose l) := by
  intro f hf
  have := (List.mem_filter.1 hf).2
  simp only [decide_eq_true_eq] at this
  obtain ⟨_, _, h3, h4, h5⟩ := pos_ne this
  exact ⟨h3, h4, h5⟩

theorem plain_append {a b : List (Fld K)} (ha : Plain a) (hb : Plain b) : Plain (a ++ b) := by
  intro f hf
  rcases List.mem_append.1 hf with h | h
  · exact ha f h
  · exact hb f h

theorem plain_frameLines (F : Frame K) : Plain (frameLines F) := by
  intro f hf
  simp only [frameLines, List.mem_cons, List.not_mem_nil, or_false] at hf
  rcases hf with rfl | rfl <;> simp

theorem plain_badLine {l : List (Fld K)} (h : Plain l) : Plain (badLine :: l) := by
  intro f hf
  rcases List.mem_cons.1 hf with rfl | hf
  · simp [badLine]
  · exact h f hf

theorem plain_inPlace (z : PoseZeo K) : ∀ (l : List (Fld K)) (F : Frame K), Plain (inPlace z F l) := by
  intro l
  induction l with
  | nil => intro F f hf; simp [inPlace] at hf
  | cons f l ih =>
    intro F
    rw [inPlace]
    by_cases h : f.key ∈ poseKeys
    · rw [if_pos h]
      cases place z F f with
      | none => exact plain_badLine (plain_noPose l)
      | some G => exact plain_append (plain_frameLines G) (ih G)
    · rw [if_neg h]
      intro g hg
      rcases List.mem_cons.1 hg with rfl | hg
      · exact (pos_ne h).2.2
      · exact ih F g hg

theorem plain_plainSec (z : PoseZeo K) (o : Order) (sec : List (Fld K)) : Plain (plainSec z o sec) := by
  cases o with
  | file => exact plain_inPlace z sec _
  | table =>
    refine plain_append (plain_noPose sec) ?_
    cases placeAll z (poseLines .table sec) Frame.ident with
    | none => exact plain_badLine fun f hf => by simp at hf
    | some F => exact plain_frameLines F

theorem filter_key_plain (z : PoseZeo K) (o : Order) (sec : List (Fld K)) {k : String} (h : k ∉ poseKeys) :
    (plainSec z o sec).filter (fun f => f.key == k) = sec.filter fun f => f.key == k := by
  rw [← filter_key_noPose h, noPose_plainSec, filter_key_noPose h]

theorem evalKeys_plainSec (z : PoseZeo K) (o : Order) (noname : String) (names shapes : List String) (sec : List (Fld K)) :
    evalKeys o (linkTabZ z names shapes) sec (linkInit noname) =
      evalKeys o (linkTabAll none names shapes) (plainSec z o sec) (linkInit noname) := by
  have hn1 : ((linkTabZ z names shapes).map Row.key).Nodup := by
    have := linkTabZ_keys z names shapes
    rw [keys] at this
    rw [this]; decide
  have hn2 : ((linkTabAll (K := K) none names shapes).map Row.key).Nodup := by
    have := linkTabAll_keys (K := K) none names shapes
    rw [keys] at this
    rw [this]; decide
  rw [evalKeys_arr o hn1, evalKeys_arr o hn2, linkTabZ_keys, linkTabAll_keys]
  cases o with
  | file => exact evalList_inPlace z names shapes sec (linkInit noname)
  | table =>
    let A : List (Fld K) := ["name", "jointtype", "mass", "stuff", "COM", "inertia"].flatMap fun k => sec.filter fun f => f.key == k
    let B : List (Fld K) := sec.filter fun f => f.key == "shape"
    have eZ : arr .table ["name", "jointtype", "mass", "stuff", "COM", "inertia", "pos", "att", "rot", "frame", "DH", "shape"] sec =
        A ++ (poseLines .table sec ++ B) := by
      simp [arr, A, B, poseLines, poseKeys]
    have eP : arr .table linkKeys (plainSec z .table sec) =
        A ++ ((plainSec z .table sec).filter (fun f => f.key == "pos") ++ ((plainSec z .table sec).filter (fun f => f.key == "att") ++ B)) := by
      simp only [arr, linkKeys, List.flatMap_cons, List.flatMap_nil, List.append_nil]
      rw [filter_key_plain z .table sec (k := "name") (by decide), filter_key_plain z .table sec (k := "jointtype") (by decide),
        filter_key_plain z .table sec (k := "mass") (by decide), filter_key_plain z .table sec (k := "stuff") (by decide),
        filter_key_plain z .table sec (k := "COM") (by decide), filter_key_plain z .table sec (k := "inertia") (by decide),
        filter_key_plain z .table sec (k := "shape") (by decide)]
      simp [A, B]
    have hA : ∀ f ∈ A, f.key ∉ poseKeys := by
      intro f hf
      obtain ⟨k, hk, hf⟩ := List.mem_flatMap.1 hf
      have := (List.mem_filter.1 hf).2
      simp only [beq_iff_eq] at this
      rw [this]
      have h6 : ∀ k ∈ ["name", "jointtype", "mass", "stuff", "COM", "inertia"], k ∉ poseKeys := by decide
      exact h6 k hk
    have hB : ∀ f ∈ B, f.key ∉ poseKeys := by
      intro f hf
      have := (List.mem_filter.1 hf).2
      simp only [beq_iff_eq] at this
      rw [this]; decide
    have hP : ∀ f ∈ poseLines .table sec, f.key ∈ poseKeys := by
      intro f hf
      obtain ⟨k, hk, hf⟩ := List.mem_flatMap.1 hf
      have := (List.mem_filter.1 hf).2
      simp only [beq_iff_eq] at this
      rw [this]; exact hk
    rw [eZ, eP, evalList_append, evalList_append, (evalList_other z names shapes A hA _).1]
    cases hs : evalList (linkTabAll none names shapes) A (linkInit noname) with
    | ub => rfl
    | null t => rfl
    | ok t =>
      have ho : t.link.org = Frame.ident := (evalList_other z names shapes A hA _).2 t hs
      simp only [Res.andThen_ok]
      rw [evalList_append, evalList_pose z names shapes _ hP, ho]
      have hf : ∀ (k : String), k ∈ poseKeys → (plainSec z .table sec).filter (fun f => f.key == k) =
          (match placeAll z (poseLines .table sec) Frame.ident with
            | none => [badLine]
            | some F => frameLines F).filter fun f => f.key == k := by
        intro k hk
        rw [plainSec, List.filter_append, filter_pose_noPose hk, List.nil_append]
      rw [hf "pos" (by decide), hf "att" (by decide)]
      cases placeAll z (poseLines .table sec) Frame.ident with
      | none =>
        have : ([badLine] : List (Fld K)).filter (fun f => f.key == "pos") = [badLine] := by simp [badLine]
        simp only
        rw [this, List.cons_append, evalList_badLine]
        rfl
      | some F =>
        have e1 : (frameLines F).filter (fun f => f.key == "pos") = [⟨"pos", tokVec F.pos⟩] := by simp [frameLines]
        have e2 : (frameLines F).filter (fun f => f.key == "att") = [⟨"att", tokMat F.att⟩] := by simp [frameLines]
        simp only
        rw [e1, e2, ← List.append_assoc]
        have e3 : ([⟨"pos", tokVec F.pos⟩] ++ [⟨"att", tokMat F.att⟩] : List (Fld K)) = frameLines F := rfl
        rw [e3, evalList_append, evalList_frameLines]
        simp only [Res.andThen_ok]
        exact (evalList_other z names shapes B hB _).1

theorem linkReadZ_plain (z : PoseZeo K) (o : Order) (noname : String) (names shapes : List String) (motors : List (NMotor K))
    (sec : List (Fld K)) :
    linkReadZ z o noname names shapes motors sec = linkRead o noname names shapes motors (plainSec z o sec) := by
  rw [linkReadZ, linkRead, evalKeys_plainSec]
  congr 1
  funext s
  rw [jointRead_noPose o motors (noPose_plainSec z o sec)]

end Roki.ZTK
