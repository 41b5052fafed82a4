import Verif.Lemmas.PoseKeys
set_option autoImplicit false

/-!
# Lemmas on the keys that place the base, and on whole files
-/

namespace Roki.ZTK
open Roki.Spec
variable {K : Type*} [Field K] [LinearOrder K] [Zm K] {σ : Type*}

theorem initTabZ_pose (z : PoseZeo K) {f : Fld K} (h : f.key ∈ baseKeys) (r : Robot K) :
    evalFld (initTabZ z) r f = match r.link[0]? with
      | none => .ub
      | some l => match place z l.link.org f with
        | none => .ub
        | some F => modOrg r fun _ => F := by
  obtain ⟨k, v⟩ := f
  simp only [baseKeys, List.mem_cons, List.not_mem_nil, or_false] at h
  rcases h with rfl | rfl | rfl
  · simp only [evalFld, initTabZ, initTab, place]
    simp only [List.cons_append, List.nil_append, List.find?_cons, BEq.rfl, if_true]
    rcases hl : r.link[0]? with _ | l <;> rcases vecTok v with _ | w <;> simp [modOrg, hl]
  · simp only [evalFld, initTabZ, initTab, place]
    simp
    rcases hl : r.link[0]? with _ | l <;> rcases matTok v with _ | w <;> simp [modOrg, hl]
  · simp only [evalFld, initTabZ, initTab, place]
    simp [initFrameRow]
    rcases hl : r.link[0]? with _ | l <;> rcases z.frame v with _ | w <;> simp [modOrg, hl]

theorem initTabZ_other (z : PoseZeo K) {f : Fld K} (h : f.key ≠ "frame") (r : Robot K) :
    evalFld (initTabZ z) r f = evalFld initTabAll r f := by
  have a : ((initFrameRow z).key == f.key) = false := by simpa [initFrameRow] using Ne.symm h
  simp only [evalFld, initTabZ, initTabAll, List.find?_append, List.find?_cons, a]

/-- A line that does not place the base does not move it. -/
theorem initTabZ_keeps (z : PoseZeo K) {f : Fld K} (h : f.key ∉ baseKeys) {r r' : Robot K} (hr : evalFld (initTabZ z) r f = .ok r') :
    r'.link[0]?.map (fun l => l.link.org) = r.link[0]?.map fun l => l.link.org := by
  simp only [baseKeys, List.mem_cons, List.not_mem_nil, or_false, not_or] at h
  obtain ⟨h1, h2, h3⟩ := h
  have a1 : ("pos" == f.key) = false := by simpa using Ne.symm h1
  have a2 : ("att" == f.key) = false := by simpa using Ne.symm h2
  have a3 : ("frame" == f.key) = false := by simpa using Ne.symm h3
  simp only [evalFld, initTabZ, initTab, initFrameRow, List.cons_append, List.nil_append, List.find?_cons, a1, a2, a3,
    List.find?_nil] at hr
  by_cases a4 : ((initJointRow (K := K)).key == f.key) = true
  · simp only [a4] at hr
    generalize f.val = v at hr
    rcases v with _ | ⟨a | a | a, l⟩
    · simp [initJointRow] at hr
    rotate_left
    · simp [initJointRow] at hr
    · simp [initJointRow] at hr
    simp only [initJointRow] at hr
    cases hi : r.names.findIdx? (fun m => m == a) with
    | none => simp [hi] at hr
    | some i =>
      cases hl : r.link[i]? with
      | none => simp [hi, hl] at hr
      | some L =>
        cases hd : disRead L.link.joint.prp l with
        | none => simp [hi, hl, hd] at hr
        | some p =>
          simp only [hi, hl, hd, Res.ok.injEq] at hr
          rw [← hr]
          simp only
          rcases i with _ | i
          · rw [hl]
            have : 0 < r.link.length := by
              by_contra hc
              simp only [not_lt, Nat.le_zero, List.length_eq_zero_iff] at hc
              simp [hc] at hl
            simp [this]
          · simp
  · simp only [Bool.not_eq_true] at a4
    simp only [a4, Res.ok.injEq] at hr
    rw [hr]

theorem modOrg_zero {r : Robot K} {l : FLink K} (hl : r.link[0]? = some l) (F : Frame K) :
    ∃ r', modOrg r (fun _ => F) = .ok r' ∧ r'.link[0]? = some (setOrg l F) ∧ ∀ G, modOrg r' (fun _ => G) = modOrg r fun _ => G := by
  have h0 : 0 < r.link.length := by
    by_contra hc
    simp only [not_lt, Nat.le_zero, List.length_eq_zero_iff] at hc
    simp [hc] at hl
  refine ⟨_, by rw [modOrg, hl], by simp [h0, setOrg], fun G => ?_⟩
  simp only [modOrg, hl]
  simp [h0]

theorem modOrg_self {r : Robot K} {l : FLink K} (hl : r.link[0]? = some l) : modOrg r (fun _ => l.link.org) = .ok r := by
  rw [modOrg, hl]
  simp only [Res.ok.injEq]
  obtain ⟨h, e⟩ := List.getElem?_eq_some_iff.1 hl
  obtain ⟨a, b, c, d, n⟩ := r
  simp only [Robot.mk.injEq, true_and, and_true]
  simp only at e h
  have : d.set 0 d[0] = d := List.set_getElem_self h
  rw [e] at this
  exact this

theorem evalList_base (z : PoseZeo K) : ∀ (L : List (Fld K)), (∀ f ∈ L, f.key ∈ baseKeys) → ∀ (r : Robot K) (l : FLink K),
    r.link[0]? = some l → evalList (initTabZ z) L r = match placeAll z L l.link.org with
      | none => .ub
      | some F => modOrg r fun _ => F := by
  intro L
  induction L with
  | nil => intro _ r l hl; rw [evalList, placeAll]; exact (modOrg_self hl).symm
  | cons f L ih =>
    intro h r l hl
    rw [evalList, initTabZ_pose z (h f (by simp)), hl, placeAll]
    simp only
    cases place z l.link.org f with
    | none => rfl
    | some F =>
      obtain ⟨r', e1, e2, e3⟩ := modOrg_zero hl F
      simp only [Option.bind_some]
      rw [e1, Res.andThen_ok, ih (fun g hg => h g (List.mem_cons_of_mem _ hg)) r' _ e2]
      simp only [e3]
      rfl

theorem evalList_base_none (z : PoseZeo K) {L : List (Fld K)} (h : ∀ f ∈ L, f.key ∈ baseKeys) (hne : L ≠ []) {r : Robot K}
    (hl : r.link[0]? = none) : evalList (initTabZ z) L r = .ub := by
  cases L with
  | nil => exact absurd rfl hne
  | cons f L =>
    rw [evalList, initTabZ_pose z (h f (by simp)), hl]
    rfl

theorem evalList_initFrame (F : Frame K) (r : Robot K) : evalList initTabAll (frameLines F) r = modOrg r fun _ => F := by
  obtain ⟨⟨a, b, c⟩, ⟨⟨m11, m12, m13⟩, ⟨m21, m22, m23⟩, ⟨m31, m32, m33⟩⟩⟩ := F
  cases hl : r.link[0]? with
  | none => simp [frameLines, evalList, evalFld, initTabAll, initTab, tokVec, vecTok, tokMat, matTok, Res.andThen, Res.bind, modOrg, hl]
  | some l =>
    have h0 : 0 < r.link.length := by
      by_contra hc
      simp only [not_lt, Nat.le_zero, List.length_eq_zero_iff] at hc
      simp [hc] at hl
    simp [frameLines, evalList, evalFld, initTabAll, initTab, tokVec, vecTok, tokMat, matTok, Res.andThen, Res.bind, modOrg, hl, h0]

theorem evalList_initBad (l : List (Fld K)) (r : Robot K) : evalList initTabAll (badLine :: l) r = .ub := by
  simp [badLine, evalList, evalFld, initTabAll, initTab, vecTok, Res.andThen, Res.bind]

/-! ## The section of the pose with the place given by `pos` and `att` alone -/

/-- A line `frame` is replaced by its parts. -/
def frameParts (z : PoseZeo K) (f : Fld K) : List (Fld K) :=
  if f.key = "frame" then
    match z.frame f.val with
    | none => [badLine]
    | some F => frameLines F
  else [f]

/-- The section of the pose with the place given by `pos` and `att` alone. -/
def plainInit (z : PoseZeo K) (o : Order) (sec : List (Fld K)) : List (Fld K) :=
  match o with
  | .file => sec.flatMap (frameParts z)
  | .table =>
    if (sec.filter fun f => f.key == "frame") = [] then sec
    else (sec.filter fun f => f.key ∉ baseKeys) ++ match placeAll z (baseLines .table sec) Frame.ident with
      | none => [badLine]
      | some F => frameLines F

theorem evalList_frameParts (z : PoseZeo K) (f : Fld K) (r : Robot K) :
    evalFld (initTabZ z) r f = evalList initTabAll (frameParts z f) r := by
  rw [frameParts]
  by_cases h : f.key = "frame"
  · rw [if_pos h]
    obtain ⟨k, v⟩ := f
    simp only at h
    subst h
    have e : evalFld (initTabZ z) r ⟨"frame", v⟩ = match z.frame v with
        | some F => modOrg r fun _ => F
        | none => .ub := by
      simp only [evalFld, initTabZ, initTab, initFrameRow]
      simp
      cases z.frame v <;> rfl
    rw [e]
    cases z.frame v with
    | none => simp only; rw [evalList_initBad]
    | some F => simp only; rw [evalList_initFrame]
  · rw [if_neg h, initTabZ_other z h]
    simp [evalList]

theorem evalList_flatMap_parts (z : PoseZeo K) : ∀ (L : List (Fld K)) (r : Robot K),
    evalList (initTabZ z) L r = evalList initTabAll (L.flatMap (frameParts z)) r := by
  intro L
  induction L with
  | nil => intro r; rfl
  | cons f L ih =>
    intro r
    rw [List.flatMap_cons, evalList_append, ← evalList_frameParts, evalList]
    congr 1
    funext t
    exact ih t

theorem place_isSome (z : PoseZeo K) (f : Fld K) (F G : Frame K) : (place z F f).isSome = (place z G f).isSome := by
  unfold place
  split
  · simp
  · split
    · simp
    · split
      · simp
      · split
        · rfl
        · split <;> rfl

theorem placeAll_isSome (z : PoseZeo K) : ∀ (L : List (Fld K)) (F G : Frame K), (placeAll z L F).isSome = (placeAll z L G).isSome := by
  intro L
  induction L with
  | nil => intro F G; rfl
  | cons f L ih =>
    intro F G
    rw [placeAll, placeAll]
    have := place_isSome z f F G
    cases hF : place z F f with
    | none =>
      rw [hF] at this
      cases hG : place z G f with
      | none => rfl
      | some G' => rw [hG] at this; simp at this
    | some F' =>
      rw [hF] at this
      cases hG : place z G f with
      | none => rw [hG] at this; simp at this
      | some G' => exact ih F' G'

theorem placeAll_frame (z : PoseZeo K) (L : List (Fld K)) {f : Fld K} (hf : f.key = "frame") (F G : Frame K) :
    placeAll z (L ++ [f]) F = placeAll z (L ++ [f]) G := by
  rw [placeAll_append, placeAll_append]
  have e : ∀ H : Frame K, placeAll z [f] H = z.frame f.val := by
    intro H
    simp only [placeAll, place, hf]
    cases z.frame f.val <;> rfl
  have := placeAll_isSome z L F G
  cases hF : placeAll z L F with
  | none =>
    rw [hF] at this
    cases hG : placeAll z L G with
    | none => rfl
    | some G' => rw [hG] at this; simp at this
  | some F' =>
    rw [hF] at this
    cases hG : placeAll z L G with
    | none => rw [hG] at this; simp at this
    | some G' => simp only [Option.bind_some, e]

theorem initTabZ_keys (z : PoseZeo K) : keys (initTabZ z) = ["pos", "att", "frame", "joint"] := rfl
theorem initTabAll_keys : keys (initTabAll (K := K)) = ["pos", "att", "joint"] := rfl

theorem evalKeys_plainInit (z : PoseZeo K) (o : Order) (sec : List (Fld K)) (r : Robot K) :
    evalKeys o (initTabZ z) sec r = evalKeys o initTabAll (plainInit z o sec) r := by
  have hn1 : ((initTabZ z).map Row.key).Nodup := by
    have := initTabZ_keys z
    rw [keys] at this
    rw [this]; decide
  have hn2 : ((initTabAll (K := K)).map Row.key).Nodup := by
    have := initTabAll_keys (K := K)
    rw [keys] at this
    rw [this]; decide
  rw [evalKeys_arr o hn1, evalKeys_arr o hn2, initTabZ_keys, initTabAll_keys]
  cases o with
  | file => exact evalList_flatMap_parts z sec r
  | table =>
    let P := sec.filter fun f => f.key == "pos"
    let A := sec.filter fun f => f.key == "att"
    let F := sec.filter fun f => f.key == "frame"
    let J := sec.filter fun f => f.key == "joint"
    have mem : ∀ (k : String) (f : Fld K), f ∈ sec.filter (fun f => f.key == k) → f.key = k := by
      intro k f hf
      simpa using (List.mem_filter.1 hf).2
    have hsame : ∀ (L : List (Fld K)), (∀ f ∈ L, f.key ≠ "frame") → ∀ s : Robot K, evalList (initTabZ z) L s = evalList initTabAll L s := by
      intro L
      induction L with
      | nil => intro _ s; rfl
      | cons f L ih =>
        intro h s
        rw [evalList, evalList, initTabZ_other z (h f (by simp))]
        congr 1
        funext t
        exact ih (fun g hg => h g (List.mem_cons_of_mem _ hg)) t
    have eZ : arr .table ["pos", "att", "frame", "joint"] sec = baseLines .table sec ++ J := by simp [arr, baseLines, baseKeys, J]
    have hJ : ∀ s : Robot K, evalList (initTabZ z) J s = evalList initTabAll J s :=
      hsame J fun f hf => by rw [mem "joint" f hf]; decide
    have hB : ∀ f ∈ baseLines .table sec, f.key ∈ baseKeys := by
      intro f hf
      obtain ⟨k, hk, hf⟩ := List.mem_flatMap.1 hf
      rw [mem k f hf]; exact hk
    rw [eZ, plainInit]
    by_cases hF : F = []
    · have hF' : (sec.filter fun f => f.key == "frame") = [] := hF
      rw [if_pos hF']
      have : arr .table ["pos", "att", "joint"] sec = baseLines .table sec ++ J := by simp [arr, baseLines, baseKeys, J, hF']
      rw [this]
      refine hsame _ (fun f hf he => ?_) r
      rcases List.mem_append.1 hf with h | h
      · simp only [baseLines, baseKeys, List.flatMap_cons, List.flatMap_nil, List.append_nil, hF', List.mem_append] at h
        rcases h with h | h
        · rw [mem "pos" f h] at he; exact absurd he (by decide)
        · rw [mem "att" f h] at he; exact absurd he (by decide)
      · rw [mem "joint" f h] at he; exact absurd he (by decide)
    · have hF' : ¬ (sec.filter fun f => f.key == "frame") = [] := hF
      rw [if_neg hF']
      obtain ⟨F0, fl, hfl⟩ : ∃ F0 fl, F = F0 ++ [fl] := ⟨F.dropLast, F.getLast hF, (List.dropLast_append_getLast hF).symm⟩
      have hBL : baseLines .table sec = (P ++ A ++ F0) ++ [fl] := by
        have : baseLines .table sec = P ++ A ++ F := by simp [baseLines, baseKeys, P, A, F]
        rw [this, hfl]; simp
      have hflk : fl.key = "frame" := mem "frame" fl (by
        change fl ∈ F
        rw [hfl]; simp)
      have hdrop : ∀ k : String, k ∈ baseKeys → (sec.filter fun f => f.key ∉ baseKeys).filter (fun f => f.key == k) = [] := by
        intro k hk
        rw [List.filter_filter, List.filter_eq_nil_iff]
        intro f _
        by_cases e : f.key = k
        · simp [e, hk]
        · simp [e]
      have hjoint : (sec.filter fun f => f.key ∉ baseKeys).filter (fun f => f.key == "joint") = J := by
        rw [List.filter_filter]
        refine List.filter_congr fun f _ => ?_
        by_cases e : f.key = "joint"
        · simp [e, baseKeys]
        · simp [e]
      rw [evalList_append]
      have main : ∀ X : List (Fld K), arr .table ["pos", "att", "joint"] ((sec.filter fun f => f.key ∉ baseKeys) ++ X) =
          (X.filter fun f => f.key == "pos") ++ ((X.filter fun f => f.key == "att") ++ (J ++ X.filter fun f => f.key == "joint")) := by
        intro X
        simp only [arr, List.flatMap_cons, List.flatMap_nil, List.append_nil, List.filter_append]
        rw [hdrop "pos" (by decide), hdrop "att" (by decide), hjoint]
        simp
      rw [main]
      cases hl : r.link[0]? with
      | none =>
        rw [evalList_base_none z hB (by rw [hBL]; simp) hl]
        cases placeAll z (baseLines .table sec) Frame.ident with
        | none =>
          have : ([badLine] : List (Fld K)).filter (fun f => f.key == "pos") = [badLine] := by simp [badLine]
          simp only
          rw [this, List.cons_append, evalList_initBad]
          rfl
        | some G =>
          have e1 : (frameLines G).filter (fun f => f.key == "pos") = [⟨"pos", tokVec G.pos⟩] := by simp [frameLines]
          have e2 : (frameLines G).filter (fun f => f.key == "att") = [⟨"att", tokMat G.att⟩] := by simp [frameLines]
          have e3 : (frameLines G).filter (fun f => f.key == "joint") = [] := by simp [frameLines]
          have e4 : ([⟨"pos", tokVec G.pos⟩] ++ [⟨"att", tokMat G.att⟩] : List (Fld K)) = frameLines G := rfl
          simp only
          rw [e1, e2, e3, ← List.append_assoc, e4, evalList_append, evalList_initFrame]
          simp [modOrg, hl, Res.andThen]
      | some l =>
        rw [evalList_base z _ hB r l hl, hBL, placeAll_frame z _ hflk l.link.org Frame.ident]
        cases placeAll z ((P ++ A ++ F0) ++ [fl]) Frame.ident with
        | none =>
          have : ([badLine] : List (Fld K)).filter (fun f => f.key == "pos") = [badLine] := by simp [badLine]
          simp only
          rw [this, List.cons_append, evalList_initBad]
          rfl
        | some G =>
          have e1 : (frameLines G).filter (fun f => f.key == "pos") = [⟨"pos", tokVec G.pos⟩] := by simp [frameLines]
          have e2 : (frameLines G).filter (fun f => f.key == "att") = [⟨"att", tokMat G.att⟩] := by simp [frameLines]
          have e3 : (frameLines G).filter (fun f => f.key == "joint") = [] := by simp [frameLines]
          have e4 : ([⟨"pos", tokVec G.pos⟩] ++ [⟨"att", tokMat G.att⟩] : List (Fld K)) = frameLines G := rfl
          simp only
          rw [e1, e2, e3, ← List.append_assoc, e4, evalList_append, evalList_initFrame, List.append_nil]
          congr 1
          funext t
          exact hJ t

/-- What the pose says about the base. -/
theorem evalKeys_initTabZ_base (z : PoseZeo K) (o : Order) (sec : List (Fld K)) {r r' : Robot K} {l : FLink K}
    (hl : r.link[0]? = some l) (h : evalKeys o (initTabZ z) sec r = .ok r') :
    ∃ l', r'.link[0]? = some l' ∧ placeAll z (baseLines o sec) l.link.org = some l'.link.org := by
  have hn1 : ((initTabZ z).map Row.key).Nodup := by
    have := initTabZ_keys z
    rw [keys] at this
    rw [this]; decide
  have gen : ∀ (L : List (Fld K)) (r : Robot K) (l : FLink K), r.link[0]? = some l → evalList (initTabZ z) L r = .ok r' →
      ∃ l', r'.link[0]? = some l' ∧ placeAll z (L.filter fun f => f.key ∈ baseKeys) l.link.org = some l'.link.org := by
    intro L
    induction L with
    | nil =>
      intro r l hl h
      simp only [evalList, Res.ok.injEq] at h
      exact ⟨l, h ▸ hl, rfl⟩
    | cons f L ih =>
      intro r l hl h
      rw [evalList] at h
      by_cases hk : f.key ∈ baseKeys
      · rw [initTabZ_pose z hk, hl] at h
        rw [List.filter_cons_of_pos (by simpa using hk), placeAll]
        simp only at h
        cases hp : place z l.link.org f with
        | none => rw [hp] at h; simp [Res.andThen] at h
        | some F =>
          obtain ⟨r1, e1, e2, _⟩ := modOrg_zero hl F
          rw [hp] at h
          simp only [e1, Res.andThen_ok] at h
          exact ih r1 _ e2 h
      · rw [List.filter_cons_of_neg (by simpa using hk)]
        cases he : evalFld (initTabZ z) r f with
        | ub => rw [he] at h; simp [Res.andThen] at h
        | null t => rw [he] at h; simp [Res.andThen] at h
        | ok t =>
          rw [he, Res.andThen_ok] at h
          have := initTabZ_keeps z hk he
          rw [hl] at this
          simp only [Option.map_some, Option.map_eq_some_iff] at this
          obtain ⟨l1, h1, h2⟩ := this
          rw [← h2]
          exact ih t l1 h1 h
  rw [evalKeys_arr o hn1, initTabZ_keys] at h
  obtain ⟨l', h1, h2⟩ := gen _ r l hl h
  refine ⟨l', h1, ?_⟩
  rw [← h2]
  congr 1
  cases o with
  | file => rfl
  | table =>
    have fk : ∀ k : String, k ∈ baseKeys → (sec.filter fun f => f.key == k).filter (fun f => f.key ∈ baseKeys) = sec.filter fun f => f.key == k := by
      intro k hk
      rw [List.filter_eq_self]
      intro f hf
      have := (List.mem_filter.1 hf).2
      simp only [beq_iff_eq] at this
      simpa [this] using hk
    have fj : (sec.filter fun f => f.key == "joint").filter (fun f => f.key ∈ baseKeys) = [] := by
      rw [List.filter_eq_nil_iff]
      intro f hf
      have := (List.mem_filter.1 hf).2
      simp only [beq_iff_eq] at this
      simp [this, baseKeys]
    simp only [arr, baseLines, List.flatMap_cons, List.flatMap_nil, List.append_nil, List.filter_append, baseKeys]
    have f1 := fk "pos" (by decide)
    have f2 := fk "att" (by decide)
    have f3 := fk "frame" (by decide)
    simp only [baseKeys] at f1 f2 f3 fj
    rw [f1, f2, f3, fj, List.append_nil]

/-! ## Whole files -/

/-- The file with the places given by `pos` and `att` alone. -/
def plainFile (z : PoseZeo K) (o : Order) (f : File K) : File K :=
  f.map fun s => (s.1, if s.1 = "link" then plainSec z o s.2 else if s.1 = "init" then plainInit z o s.2 else s.2)

theorem secs_plainFile (z : PoseZeo K) (o : Order) (f : File K) :
    secs "link" (plainFile z o f) = (secs "link" f).map (plainSec z o) ∧
    secs "init" (plainFile z o f) = (secs "init" f).map (plainInit z o) ∧
    ∀ tag : String, tag ≠ "link" → tag ≠ "init" → secs tag (plainFile z o f) = secs tag f := by
  have gen : ∀ (tag : String), secs tag (plainFile z o f) =
      (secs tag f).map fun s => if tag = "link" then plainSec z o s else if tag = "init" then plainInit z o s else s := by
    intro tag
    simp only [secs, plainFile, List.filter_map, List.map_map]
    refine List.map_congr_left fun s hs => ?_
    have := (List.mem_filter.1 hs).2
    simp only [Function.comp_apply, beq_iff_eq] at this
    simp [this]
  refine ⟨by rw [gen]; simp, by rw [gen]; simp, fun tag h1 h2 => ?_⟩
  rw [gen]
  simp [h1, h2]

theorem rdLinkZ_plain (z : PoseZeo K) (o : Order) (noname : String) (r : Robot K) (i : ℕ) (sec : List (Fld K)) :
    rdLinkZ z o noname r i sec = rdLink o noname r i (plainSec z o sec) := by
  simp only [rdLinkZ, rdLink, linkReadZ_plain]

theorem rdParent_plain (z : PoseZeo K) (o : Order) (names : List String) (h : List LinkHeap.Node) (i : ℕ) (sec : List (Fld K)) :
    rdParent o names h i (plainSec z o sec) = rdParent o names h i sec :=
  evalKeys_noPose o (by
    intro k hk
    simp only [keys, parentTab, List.map_cons, List.map_nil, List.mem_cons, List.not_mem_nil, or_false] at hk
    rw [hk]; decide) (noPose_plainSec z o sec) h

theorem evalTag_fmap {rd rd' : σ → ℕ → List (Fld K) → Res σ} {φ : List (Fld K) → List (Fld K)}
    (h : ∀ s i sec, rd s i sec = rd' s i (φ sec)) : ∀ (ss : List (List (Fld K))) (i : ℕ) (s : σ),
    evalTag rd i ss s = evalTag rd' i (ss.map φ) s := by
  intro ss
  induction ss with
  | nil => intro i s; rfl
  | cons sec ss ih =>
    intro i s
    rw [List.map_cons, evalTag, evalTag, h]
    congr 1
    funext s
    exact ih (i + 1) s

theorem initTag_plain (z : PoseZeo K) (o : Order) (ss : List (List (Fld K))) (i : ℕ) (s : Robot K) :
    evalTag (fun r _ sec => evalKeys o (initTabZ z) sec r) i ss s =
      evalTag (fun r _ sec => evalKeys o initTabAll sec r) i (ss.map (plainInit z o)) s :=
  evalTag_fmap (rd := fun (r : Robot K) _ sec => evalKeys o (initTabZ z) sec r)
    (rd' := fun (r : Robot K) _ sec => evalKeys o initTabAll sec r) (fun r _ sec => evalKeys_plainInit z o sec r) ss i s

theorem parentTag_plain (z : PoseZeo K) (o : Order) (names : List String) (ss : List (List (Fld K))) (i : ℕ) (h : List LinkHeap.Node) :
    evalTag (rdParent o names) i (ss.map (plainSec z o)) h = evalTag (rdParent o names) i ss h :=
  (evalTag_fmap (fun s i sec => (rdParent_plain z o names s i sec).symm) ss i h).symm

theorem readPartsZ_plain (z : PoseZeo K) (o : Order) (noname : String) (f : File K) :
    readPartsZ z o noname f = readParts o noname (plainFile z o f) := by
  obtain ⟨h1, h2, h3⟩ := secs_plainFile z o f
  rw [readPartsZ, readParts, h1, h2, h3 "motor" (by decide) (by decide), h3 "shape" (by decide) (by decide),
    h3 "chain" (by decide) (by decide), List.length_map]
  simp only [evalTag_fmap (rdLinkZ_plain z o noname), parentTag_plain, initTag_plain]
  rfl

theorem readZ_plain (z : PoseZeo K) (o : Order) (noname : String) (g : Vec6 K) (f : File K) :
    readZ z o noname g f = read o noname g (plainFile z o f) := by
  have h1 := (secs_plainFile z o f).1
  have h2 : (secs "link" (plainFile z o f) = []) ↔ (secs "link" f = []) := by rw [h1]; simp
  rw [readZ, read, readPartsZ_plain]
  simp only [h2]

theorem poseReadZ_plain (z : PoseZeo K) (o : Order) (g : Vec6 K) (f : File K) (c : Chain K) :
    poseReadZ z o g f c = poseRead o g (plainFile z o f) c := by
  rw [poseReadZ, poseRead, (secs_plainFile z o f).2.1, initTag_plain]
  rfl

theorem plain_plainInit (z : PoseZeo K) (o : Order) (sec : List (Fld K)) : ∀ f ∈ plainInit z o sec, f.key ≠ "frame" := by
  have hf : ∀ F : Frame K, ∀ f ∈ frameLines F, f.key ≠ "frame" := fun F f hf => (plain_frameLines F f hf).2.1
  have hb : ∀ f ∈ ([badLine] : List (Fld K)), f.key ≠ "frame" := by
    intro f hf
    simp only [List.mem_cons, List.not_mem_nil, or_false] at hf
    rw [hf]; simp [badLine]
  cases o with
  | file =>
    intro f h
    obtain ⟨g, _, hg⟩ := List.mem_flatMap.1 h
    rw [frameParts] at hg
    by_cases e : g.key = "frame"
    · rw [if_pos e] at hg
      cases hz : z.frame g.val with
      | none => rw [hz] at hg; exact hb f hg
      | some F => rw [hz] at hg; exact hf F f hg
    · rw [if_neg e] at hg
      simp only [List.mem_cons, List.not_mem_nil, or_false] at hg
      rw [hg]; exact e
  | table =>
    intro f h
    rw [plainInit] at h
    by_cases e : (sec.filter fun f => f.key == "frame") = []
    · rw [if_pos e] at h
      intro hk
      rw [List.filter_eq_nil_iff] at e
      exact e f h (by simpa using hk)
    · rw [if_neg e] at h
      rcases List.mem_append.1 h with h | h
      · have := (List.mem_filter.1 h).2
        simp only [decide_eq_true_eq] at this
        intro hk
        exact this (by rw [hk]; decide)
      · cases hz : placeAll z (baseLines .table sec) Frame.ident with
        | none => rw [hz] at h; exact hb f h
        | some F => rw [hz] at h; exact hf F f h

/-- A section that is plain already is read by both models alike. -/
theorem linkReadZ_of_plain (z : PoseZeo K) (o : Order) (noname : String) (names shapes : List String) (motors : List (NMotor K))
    {sec : List (Fld K)} (h : Plain sec) :
    linkReadZ z o noname names shapes motors sec = linkRead o noname names shapes motors sec := by
  have hn1 : ((linkTabZ z names shapes).map Row.key).Nodup := by
    have := linkTabZ_keys z names shapes
    rw [keys] at this
    rw [this]; decide
  have hn2 : ((linkTabAll (K := K) none names shapes).map Row.key).Nodup := by
    have := linkTabAll_keys (K := K) none names shapes
    rw [keys] at this
    rw [this]; decide
  have hsame : ∀ (L : List (Fld K)), Plain L → ∀ s : FLink K,
      evalList (linkTabZ z names shapes) L s = evalList (linkTabAll none names shapes) L s := by
    intro L
    induction L with
    | nil => intro _ s; rfl
    | cons f L ih =>
      intro hL s
      obtain ⟨h3, h4, h5⟩ := hL f (by simp)
      have a3 : ((rotRow z).key == f.key) = false := by simpa [rotRow] using Ne.symm h3
      have a4 : ((frameRow z).key == f.key) = false := by simpa [frameRow] using Ne.symm h4
      have a5 : ((dhRow z).key == f.key) = false := by simpa [dhRow] using Ne.symm h5
      have e : evalFld (linkTabZ z names shapes) s f = evalFld (linkTabAll none names shapes) s f := by
        simp only [evalFld, linkTabZ, linkTabAll, List.find?_append, List.find?_cons, a3, a4, a5]
      rw [evalList, evalList, e]
      congr 1
      funext t
      exact ih (fun g hg => hL g (List.mem_cons_of_mem _ hg)) t
  have hk : ∀ k, k = "rot" ∨ k = "frame" ∨ k = "DH" → (sec.filter fun f => f.key == k) = [] := by
    intro k hk
    rw [List.filter_eq_nil_iff]
    intro f hf
    obtain ⟨h3, h4, h5⟩ := h f hf
    rcases hk with rfl | rfl | rfl <;> simpa
  have harr : arr o (keys (linkTabZ z names shapes)) sec = arr o (keys (linkTabAll (K := K) none names shapes)) sec := by
    cases o with
    | file => rfl
    | table =>
      rw [linkTabZ_keys, linkTabAll_keys]
      simp only [arr, linkKeys, List.flatMap_cons, List.flatMap_nil, List.append_nil]
      rw [hk "rot" (by simp), hk "frame" (by simp), hk "DH" (by simp)]
      simp only [List.nil_append]
  have hp : Plain (arr o (keys (linkTabAll (K := K) none names shapes)) sec) := by
    cases o with
    | file => exact h
    | table =>
      intro f hf
      obtain ⟨k, _, hf⟩ := List.mem_flatMap.1 hf
      exact h f (List.mem_filter.1 hf).1
  rw [linkReadZ, linkRead, evalKeys_arr o hn1, evalKeys_arr o hn2, harr, hsame _ hp]

/-! ## The frame that the lines give -/

/-- The lines in the order of the table. -/
theorem poseLines_sorted (o : Order) {sec : List (Fld K)}
    (h : sec.filter (fun f => f.key ∈ poseKeys) = poseKeys.flatMap fun k => sec.filter fun f => f.key == k) (z : PoseZeo K) (F : Frame K) :
    placeAll z (poseLines o sec) F = placeAll z (sec.filter fun f => f.key ∈ poseKeys) F := by
  cases o with
  | file => exact (placeAll_noPose z sec F).symm
  | table => rw [h]; rfl

theorem placeAll_rots (z : PoseZeo K) : ∀ (as : List (Vec3 K × List (Tok K))), (∀ a ∈ as, z.aa a.2 = some a.1) → ∀ F : Frame K,
    placeAll z (as.map fun a => ⟨"rot", a.2⟩) F = some { F with att := as.foldl (fun m a => (Zm.fromAA a.1).mul m) F.att } := by
  intro as
  induction as with
  | nil => intro _ F; rfl
  | cons a as ih =>
    intro h F
    rw [List.map_cons, placeAll]
    have : place z F ⟨"rot", a.2⟩ = some { F with att := (Zm.fromAA a.1).mul F.att } := by simp [place, h a (by simp)]
    rw [this, Option.bind_some, ih (fun b hb => h b (List.mem_cons_of_mem _ hb))]
    rfl

end Roki.ZTK
