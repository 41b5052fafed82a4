import Verif.Lemmas.PoseKeys2
import Verif.Lemmas.ZmRat
set_option autoImplicit false

/-!
# C115: the keys that place a link
-/

namespace Roki
open Roki.ZTK Roki.Spec
variable {K : Type*} [Field K] [LinearOrder K] [Zm K]

/-- C115: a section of a link is read exactly when it can be read without the lines that place the link and these lines can be
read; the link is then placed where the lines, one after the other from the identity frame, put it, and these lines decide nothing
else. -/
theorem C115_link (z : PoseZeo K) (o : Order) (noname : String) (names shapes : List String) (motors : List (NMotor K))
    (sec : List (Fld K)) (l : FLink K) :
    linkReadZ z o noname names shapes motors sec = .ok l ↔
      ∃ l' G, linkRead o noname names shapes motors (noPose sec) = .ok l' ∧
        placeAll z (poseLines o sec) Frame.ident = some G ∧ l = setOrg l' G :=
  linkReadZ_ok z o noname names shapes motors sec l

/-- C115: when the lines that place the link come in the order position, attitude, rotations, frame, Denavit–Hartenberg parameters,
the order in which the library meets the lines does not matter. -/
theorem C115_orders (z : PoseZeo K) (o o' : Order) {sec : List (Fld K)}
    (h : sec.filter (fun f => f.key ∈ poseKeys) = poseKeys.flatMap fun k => sec.filter fun f => f.key == k) (F : Frame K) :
    placeAll z (poseLines o sec) F = placeAll z (poseLines o' sec) F := by
  rw [poseLines_sorted o h, poseLines_sorted o' h]

/-- C115: a position, an attitude and any number of rotations after it: the rotations turn the attitude one after the other, about
axes of the frame of the parent. -/
theorem C115_rot (z : PoseZeo K) (o : Order) (noname : String) (names shapes : List String) (motors : List (NMotor K))
    {sec : List (Fld K)} {l : FLink K} (v : Vec3 K) (m : Mat3 K) (as : List (Vec3 K × List (Tok K))) (ha : ∀ a ∈ as, z.aa a.2 = some a.1)
    (hs : sec.filter (fun f => f.key ∈ poseKeys) = ⟨"pos", tokVec v⟩ :: ⟨"att", tokMat m⟩ :: as.map fun a => ⟨"rot", a.2⟩)
    (h : linkReadZ z o noname names shapes motors sec = .ok l) :
    l.link.org.pos = v ∧ l.link.org.att = as.foldl (fun m a => (Zm.fromAA a.1).mul m) m := by
  obtain ⟨l', G, _, h2, rfl⟩ := (linkReadZ_ok z o noname names shapes motors sec l).1 h
  have hk : ∀ k ∈ poseKeys, (sec.filter fun f => f.key == k) = (sec.filter fun f => f.key ∈ poseKeys).filter fun f => f.key == k := by
    intro k hk
    rw [List.filter_filter]
    refine List.filter_congr fun f _ => ?_
    by_cases e : f.key = k
    · simp [e, hk]
    · simp [e]
  have hr : ∀ k : String, k ≠ "rot" → (as.map fun a => (⟨"rot", a.2⟩ : Fld K)).filter (fun f => f.key == k) = [] := by
    intro k hk
    rw [List.filter_eq_nil_iff]
    intro f hf
    obtain ⟨a, _, rfl⟩ := List.mem_map.1 hf
    simpa using Ne.symm hk
  have hr' : (as.map fun a => (⟨"rot", a.2⟩ : Fld K)).filter (fun f => f.key == "rot") = as.map fun a => ⟨"rot", a.2⟩ := by
    rw [List.filter_eq_self]
    intro f hf
    obtain ⟨a, _, rfl⟩ := List.mem_map.1 hf
    rfl
  have hsort : sec.filter (fun f => f.key ∈ poseKeys) = poseKeys.flatMap fun k => sec.filter fun f => f.key == k := by
    have hk1 := hk "pos" (by decide)
    have hk2 := hk "att" (by decide)
    have hk3 := hk "rot" (by decide)
    have hk4 := hk "frame" (by decide)
    have hk5 := hk "DH" (by decide)
    rw [hs] at hk1 hk2 hk3 hk4 hk5
    rw [hs]
    have : (poseKeys.flatMap fun k => sec.filter fun f => f.key == k) = (sec.filter fun f => f.key == "pos") ++
        ((sec.filter fun f => f.key == "att") ++ ((sec.filter fun f => f.key == "rot") ++ ((sec.filter fun f => f.key == "frame") ++
          sec.filter fun f => f.key == "DH"))) := by simp [poseKeys]
    rw [this, hk1, hk2, hk3, hk4, hk5]
    simp only [List.filter_cons]
    rw [hr "pos" (by decide), hr "att" (by decide), hr', hr "frame" (by decide), hr "DH" (by decide)]
    simp
  rw [poseLines_sorted o hsort, hs] at h2
  have e1 : place z Frame.ident ⟨"pos", tokVec v⟩ = some { (Frame.ident : Frame K) with pos := v } := by
    simp [place, tokVec, vecTok]
  have e2 : ∀ F : Frame K, place z F ⟨"att", tokMat m⟩ = some { F with att := m } := by
    intro F
    simp [place, tokMat, matTok]
  rw [placeAll, e1, Option.bind_some, placeAll, e2, Option.bind_some, placeAll_rots z as ha] at h2
  simp only [Option.some.injEq] at h2
  rw [← h2]
  exact ⟨rfl, rfl⟩

/-- C115: a section with one line `frame` or one line `DH`, and no other line for the place, puts the link there. -/
theorem C115_whole (z : PoseZeo K) (o : Order) (noname : String) (names shapes : List String) (motors : List (NMotor K))
    {sec : List (Fld K)} {l : FLink K} {k : String} {ts : List (Tok K)} (hk : k = "frame" ∨ k = "DH")
    (hs : sec.filter (fun f => f.key ∈ poseKeys) = [⟨k, ts⟩])
    (h : linkReadZ z o noname names shapes motors sec = .ok l) :
    (if k = "frame" then z.frame ts else z.dh ts) = some l.link.org := by
  obtain ⟨l', G, _, h2, rfl⟩ := (linkReadZ_ok z o noname names shapes motors sec l).1 h
  have hf : ∀ j ∈ poseKeys, (sec.filter fun f => f.key == j) = ([⟨k, ts⟩] : List (Fld K)).filter fun f => f.key == j := by
    intro j hj
    rw [← hs, List.filter_filter]
    refine List.filter_congr fun f _ => ?_
    by_cases e : f.key = j
    · simp [e, hj]
    · simp [e]
  have hsort : sec.filter (fun f => f.key ∈ poseKeys) = poseKeys.flatMap fun k => sec.filter fun f => f.key == k := by
    have : (poseKeys.flatMap fun k => sec.filter fun f => f.key == k) = (sec.filter fun f => f.key == "pos") ++
        ((sec.filter fun f => f.key == "att") ++ ((sec.filter fun f => f.key == "rot") ++ ((sec.filter fun f => f.key == "frame") ++
          sec.filter fun f => f.key == "DH"))) := by simp [poseKeys]
    rw [hs, this, hf "pos" (by decide), hf "att" (by decide), hf "rot" (by decide), hf "frame" (by decide), hf "DH" (by decide)]
    rcases hk with rfl | rfl <;> simp
  rw [poseLines_sorted o hsort, hs] at h2
  rcases hk with rfl | rfl
  · simpa [placeAll, place, setOrg] using h2
  · simpa [placeAll, place, setOrg] using h2

/-- C115: when the library goes through the keys, a line `DH` prevails over all others, wherever it stands. -/
theorem C115_prevails (z : PoseZeo K) {sec : List (Fld K)} {ts : List (Tok K)} (hd : (sec.filter fun f => f.key == "DH") = [⟨"DH", ts⟩])
    {F G : Frame K} (h : placeAll z (poseLines .table sec) F = some G) : z.dh ts = some G := by
  have : poseLines .table sec = (["pos", "att", "rot", "frame"].flatMap fun k => sec.filter fun f => f.key == k) ++ [⟨"DH", ts⟩] := by
    rw [← hd]
    simp [poseLines, poseKeys]
  rw [this, placeAll_append] at h
  cases hp : placeAll z (["pos", "att", "rot", "frame"].flatMap fun k => sec.filter fun f => f.key == k) F with
  | none => rw [hp] at h; simp at h
  | some H =>
    rw [hp] at h
    simpa [placeAll, place] using h

/-- C115: when the library goes through the file, the last line `frame` or `DH` makes all lines before it irrelevant. -/
theorem C115_reset (z : PoseZeo K) {a b : List (Fld K)} {f : Fld K} (hf : f.key = "frame" ∨ f.key = "DH") {F G : Frame K}
    (h : placeAll z (poseLines .file (a ++ f :: b)) F = some G) :
    ∃ H, (if f.key = "frame" then z.frame f.val else z.dh f.val) = some H ∧ placeAll z b H = some G := by
  rw [poseLines, placeAll_append] at h
  cases hp : placeAll z a F with
  | none => rw [hp] at h; simp at h
  | some H =>
    rw [hp, Option.bind_some, placeAll] at h
    rcases hf with e | e
    · rw [if_pos e]
      simp only [place, e] at h
      simpa [Option.bind_eq_some_iff] using h
    · rw [if_neg (by rw [e]; decide)]
      simp only [place, e] at h
      simpa [Option.bind_eq_some_iff] using h

/-- C115: a link is placed by a rotation if all the lines give rotations. -/
theorem C115_isRot [IsStrictOrderedRing K] [LawfulZm K] (z : PoseZeo K) (o : Order) (noname : String) (names shapes : List String) (motors : List (NMotor K))
    {sec : List (Fld K)} {l : FLink K} (ha : ∀ f ∈ sec, f.key = "att" → ∀ m, matTok f.val = some m → m.IsRot)
    (hf : ∀ f ∈ sec, f.key = "frame" → ∀ G, z.frame f.val = some G → G.att.IsRot)
    (hd : ∀ f ∈ sec, f.key = "DH" → ∀ G, z.dh f.val = some G → G.att.IsRot)
    (h : linkReadZ z o noname names shapes motors sec = .ok l) : l.link.org.att.IsRot := by
  obtain ⟨l', G, _, h2, rfl⟩ := (linkReadZ_ok z o noname names shapes motors sec l).1 h
  have gen : ∀ (L : List (Fld K)), (∀ f ∈ L, f ∈ sec) → ∀ F G : Frame K, F.att.IsRot → placeAll z L F = some G → G.att.IsRot := by
    intro L
    induction L with
    | nil =>
      intro _ F G hF h
      simp only [placeAll, Option.some.injEq] at h
      exact h ▸ hF
    | cons f L ih =>
      intro hL F G hF h
      rw [placeAll] at h
      obtain ⟨H, h1, h2⟩ := Option.bind_eq_some_iff.1 h
      refine ih (fun g hg => hL g (List.mem_cons_of_mem _ hg)) H G ?_ h2
      have hm := hL f (by simp)
      unfold place at h1
      split at h1
      · obtain ⟨v, _, rfl⟩ := Option.map_eq_some_iff.1 h1; exact hF
      · split at h1
        · next e =>
          obtain ⟨m, hm', rfl⟩ := Option.map_eq_some_iff.1 h1
          exact ha f hm e m hm'
        · split at h1
          · obtain ⟨a, _, rfl⟩ := Option.map_eq_some_iff.1 h1
            exact (LawfulZm.fromAA_isRot a).mul hF
          · split at h1
            · next e => exact hf f hm e H h1
            · split at h1
              · next e => exact hd f hm e H h1
              · simp only [Option.some.injEq] at h1
                exact h1 ▸ hF
  refine gen _ ?_ Frame.ident G Mat3.isRot_one h2
  cases o with
  | file => exact fun f hf => hf
  | table =>
    intro f hf
    obtain ⟨k, _, hf⟩ := List.mem_flatMap.1 hf
    exact (List.mem_filter.1 hf).1

/-- C115: the section of the pose puts the base where its lines, one after the other from the place of the base, put it. -/
theorem C115_base (z : PoseZeo K) (o : Order) (sec : List (Fld K)) {r r' : Robot K} {l : FLink K} (hl : r.link[0]? = some l)
    (h : evalKeys o (initTabZ z) sec r = .ok r') :
    ∃ l', r'.link[0]? = some l' ∧ placeAll z (baseLines o sec) l.link.org = some l'.link.org :=
  evalKeys_initTabZ_base z o sec hl h

/-- C115: for every file there is one with only the keys `pos` and `att`, the only ones the library writes, that is read as the
same chain, fails in the same way, and gives the same pose when it is read as a pose. -/
theorem C115_file (z : PoseZeo K) (o : Order) (f : File K) :
    ∃ f' : File K, (∀ s ∈ f', (s.1 = "link" → Plain s.2) ∧ (s.1 = "init" → ∀ x ∈ s.2, x.key ≠ "frame")) ∧
      f'.map Prod.fst = f.map Prod.fst ∧ (∀ noname g, readZ z o noname g f = read o noname g f') ∧
      ∀ g c, poseReadZ z o g f c = poseRead o g f' c := by
  refine ⟨plainFile z o f, fun s hs => ?_, by simp [plainFile], fun noname g => readZ_plain z o noname g f,
    fun g c => poseReadZ_plain z o g f c⟩
  obtain ⟨t, _, rfl⟩ := List.mem_map.1 hs
  refine ⟨fun e => ?_, fun e => ?_⟩
  · simp only at e
    simp only [e, if_true]
    exact plain_plainSec z o t.2
  · simp only at e
    have : ¬ ("init" = "link") := by decide
    simp only [e, this, if_true, if_false]
    exact plain_plainInit z o t.2

/-- C115: a section as the library writes it is read as without the other keys. -/
theorem C115_plain (z : PoseZeo K) (o : Order) (noname : String) (names shapes : List String) (motors : List (NMotor K))
    {sec : List (Fld K)} (h : Plain sec) :
    linkReadZ z o noname names shapes motors sec = linkRead o noname names shapes motors sec :=
  linkReadZ_of_plain z o noname names shapes motors h

/-! ## Examples -/

/-- A reader of the values: three numbers for an angle-axis vector, twelve for a frame. -/
def exZeo (K : Type*) : PoseZeo K where
  aa := vecTok
  frame := fun ts => (vecTok ts).bind fun v => (matTok (ts.drop 3)).map fun m => ⟨v, m⟩
  dh := fun _ => none

/-- The lines `rot` and `att` do not commute: a file with `rot` before `att` places the link differently in the two orders. -/
theorem C115_order_fails [IsStrictOrderedRing K] [LawfulZm K] {R : Mat3 K} (hR : R.IsRot) (h1 : R ≠ 1) :
    let sec : List (Fld K) := [⟨"rot", tokVec (Zm.toAA R)⟩, ⟨"att", tokMat 1⟩]
    (linkReadZ (exZeo K) .file "" [] [] [] sec).bind (fun _ => .ub) (fun l => .ok l.link.org.att) = .ok 1 ∧
      (linkReadZ (exZeo K) .table "" [] [] [] sec).bind (fun _ => .ub) (fun l => .ok l.link.org.att) = .ok R ∧ R ≠ 1 := by
  intro sec
  have hv : vecTok (tokVec (Zm.toAA R)) = some (Zm.toAA R) := rfl
  have hm : matTok (tokMat (1 : Mat3 K)) = some 1 := rfl
  have hno : ∀ o, ∃ l', linkRead o "" [] [] [] (noPose sec) = .ok l' := by
    intro o
    have : noPose sec = [] := by simp [noPose, sec, poseKeys]
    rw [this]
    cases o with
    | file => exact ⟨_, rfl⟩
    | table => exact ⟨_, rfl⟩
  have hRm : (Zm.fromAA (Zm.toAA R)).mul 1 = R := by
    rw [LawfulZm.fromAA_toAA R hR]
    exact Mat3.mul_one' R
  refine ⟨?_, ?_, h1⟩
  · obtain ⟨l', h'⟩ := hno .file
    have : placeAll (exZeo K) (poseLines .file sec) Frame.ident = some ⟨(Frame.ident : Frame K).pos, 1⟩ := by
      simp [sec, poseLines, placeAll, place, exZeo, hv, hm]
    rw [(linkReadZ_ok _ .file "" [] [] [] sec _).2 ⟨l', _, h', this, rfl⟩]
    rfl
  · obtain ⟨l', h'⟩ := hno .table
    have e : poseLines .table sec = [⟨"att", tokMat 1⟩, ⟨"rot", tokVec (Zm.toAA R)⟩] := by
      simp [sec, poseLines, poseKeys]
    have : placeAll (exZeo K) (poseLines .table sec) Frame.ident = some ⟨(Frame.ident : Frame K).pos, R⟩ := by
      rw [e]
      simp [placeAll, place, exZeo, hv, hm, hRm]
    rw [(linkReadZ_ok _ .table "" [] [] [] sec _).2 ⟨l', _, h', this, rfl⟩]
    rfl

/-- The half turn about the first axis is such a rotation. -/
example : (⟨⟨1, 0, 0⟩, ⟨0, -1, 0⟩, ⟨0, 0, -1⟩⟩ : Mat3 ℚ).IsRot ∧ (⟨⟨1, 0, 0⟩, ⟨0, -1, 0⟩, ⟨0, 0, -1⟩⟩ : Mat3 ℚ) ≠ 1 := by
  refine ⟨?_, by decide +kernel⟩
  constructor <;> decide +kernel

/-- A section with a name, a mass, a place and two rotations is read in both orders. -/
theorem C115_sample (o : Order) (a b : Vec3 K) : ∃ l, linkReadZ (exZeo K) o "" [] [] []
    [⟨"name", [.str "arm"]⟩, ⟨"pos", tokVec ⟨1, 2, 3⟩⟩, ⟨"mass", [.num 5]⟩, ⟨"att", tokMat 1⟩, ⟨"rot", tokVec a⟩, ⟨"rot", tokVec b⟩] = .ok l ∧
      l.link.name = "arm" ∧ l.link.body.mp.mass = 5 ∧ l.link.org.pos = ⟨1, 2, 3⟩ ∧
      l.link.org.att = (Zm.fromAA b).mul ((Zm.fromAA a).mul 1) := by
  have hv : ∀ v : Vec3 K, vecTok (tokVec v) = some v := fun _ => rfl
  have hm : matTok (tokMat (1 : Mat3 K)) = some 1 := rfl
  generalize hsec : ([⟨"name", [.str "arm"]⟩, ⟨"pos", tokVec ⟨1, 2, 3⟩⟩, ⟨"mass", [.num 5]⟩, ⟨"att", tokMat 1⟩, ⟨"rot", tokVec a⟩,
    ⟨"rot", tokVec b⟩] : List (Fld K)) = sec
  have hno : noPose sec = [⟨"name", [.str "arm"]⟩, ⟨"mass", [.num 5]⟩] := by rw [← hsec]; simp [noPose, poseKeys]
  have hl : ∃ l', linkRead o "" [] [] [] (noPose sec) = .ok l' ∧ l'.link.name = "arm" ∧ l'.link.body.mp.mass = 5 := by
    rw [hno]
    cases o with
    | file => exact ⟨_, rfl, rfl, rfl⟩
    | table => exact ⟨_, rfl, rfl, rfl⟩
  obtain ⟨l', h1, h2, h3⟩ := hl
  have hp : placeAll (exZeo K) (poseLines o sec) Frame.ident = some ⟨⟨1, 2, 3⟩, (Zm.fromAA b).mul ((Zm.fromAA a).mul 1)⟩ := by
    rw [← hsec]
    cases o with
    | file => simp [poseLines, placeAll, place, exZeo, hv, hm]
    | table => simp [poseLines, poseKeys, placeAll, place, exZeo, hv, hm]
  exact ⟨_, (linkReadZ_ok _ o "" [] [] [] sec _).2 ⟨l', _, h1, hp, rfl⟩, h2, h3, rfl, rfl⟩

end Roki
