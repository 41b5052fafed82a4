import Verif.Model.RoundedJacobi
import Verif.Spec.RoundingJacobi
import Verif.Lemmas.RoundingVel
set_option autoImplicit false

/-! # Rounding errors of the columns of Jacobian matrices -/

namespace Roki.Rounded
open Spec
variable {rnd : ℝ → ℝ} {v : ℝ}

theorem len_unit {e : Vec3 ℝ} (h : sqrNorm e = 1) : len e = 1 := by rw [len, h, Real.sqrt_one]

/-! ## Axes -/

/-- What is asked of a computed axis. -/
def AxisErr (G : ℝ) (a' a : Vec3 ℝ) : Prop := len a ≤ 1 ∧ len (a' - a) ≤ G - 1

section
variable {F' F R' R : Mat3 ℝ} {G : ℝ}

/-- An axis of the frame of the link. -/
theorem fixed_axis (hv : 0 ≤ v) (hG : 1 ≤ G) (hF : F.IsRot) (hA : AttError F' F (G - 1)) {e : Vec3 ℝ} (he : sqrNorm e = 1) :
    AxisErr (G * (1 + 13 * v)) (F'.mulVec e) (F.mulVec e) := by
  refine ⟨by rw [len_rot hF, len_unit he], (hA e).trans ?_⟩
  rw [len_unit he]
  nlinarith [mul_nonneg (show 0 ≤ G by linarith) hv]

theorem moved_axis {x' x y' : Vec3 ℝ} (hv : 0 ≤ v) (hv1 : v ≤ 1 / 100) (hG : 1 ≤ G) (hF : F.IsRot) (hA : AttError F' F (G - 1)) (hx : len x = 1)
    (hx' : len (x' - x) ≤ v) (hy : len (y' - F'.mulVec x') ≤ 11 * v * (G * len x')) : AxisErr (G * (1 + 13 * v)) y' (F.mulVec x) := by
  refine ⟨by rw [len_rot hF, hx], ?_⟩
  have lx' : len x' ≤ 1 + v := by
    have : x' = x + (x' - x) := by vec_ring
    rw [this]; exact (len_add _ _).trans (by linarith)
  have e1 := len_via y' (F'.mulVec x') (F.mulVec x)
  have e2 := len_via (F'.mulVec x') (F.mulVec x') (F.mulVec x)
  have e3 := (hA x').trans (mul_le_mul_of_nonneg_left lx' (show 0 ≤ G - 1 by linarith))
  have e4 : len (F.mulVec x' - F.mulVec x) ≤ v := by
    rw [← Mat3.mulVec_sub, len_rot hF]; exact hx'
  have e5 : 11 * v * (G * len x') ≤ 11 * v * (G * (1 + v)) :=
    mul_le_mul_of_nonneg_left (mul_le_mul_of_nonneg_left lx' (by linarith)) (by linarith)
  have p1 : 0 ≤ G * v := mul_nonneg (by linarith) hv
  nlinarith [mul_le_mul_of_nonneg_left hv1 p1]

/-- A row of the attitude of the joint, seen from the frame of the link. -/
theorem row_axis (hv : 0 ≤ v) (hv1 : v ≤ 1 / 100) (hr : RelError rnd v) (hG : 1 ≤ G) (hF : F.IsRot) (hA : AttError F' F (G - 1)) (hR : R.IsRot)
    (hn : AttError R' R v) {e : Vec3 ℝ} (he : sqrNorm e = 1) :
    AxisErr (G * (1 + 13 * v)) (mulVec rnd F' (R'.mulVecT e)) (F.mulVec (R.mulVecT e)) := by
  have hB : Bound F' G := by have := hA.bound (bound_rot hF); rwa [add_sub_cancel] at this
  have hx' := attT hn e
  rw [len_unit he, mul_one] at hx'
  refine moved_axis hv hv1 hG hF hA (by rw [len_rotT hR, len_unit he]) hx' ?_
  set x' := R'.mulVecT e
  have h := (va_len (pow_nonneg' hv 3) (va_mulVec hv hr F' x')).trans (mul_le_mul_of_nonneg_left (len_mag hB x') (pow_nonneg' hv 3))
  refine h.trans ?_
  have k0 : 0 ≤ G * len x' := mul_nonneg (by linarith) (len_nonneg _)
  have a1 := mul_le_mul_of_nonneg_left (mul_le_mul_of_nonneg_right sqrt3_le k0) (pow_nonneg' hv 3)
  have a2 : 2 * ((1 + v) ^ 3 - 1) ≤ 11 * v := by nlinarith [mul_nonneg hv hv, mul_nonneg hv (mul_nonneg hv hv)]
  have a3 := mul_le_mul_of_nonneg_right a2 k0
  linarith

/-- The first axis of a universal joint. -/
theorem hooke_axis (hv : 0 ≤ v) (hv1 : v ≤ 1 / 100) (hr : RelError rnd v) (hG : 1 ≤ G) (hF : F.IsRot) (hA : AttError F' F (G - 1)) {s c s' c' : ℝ}
    (hx : len (⟨-s, 0, c⟩ : Vec3 ℝ) = 1) (hx' : len ((⟨-s', 0, c'⟩ : Vec3 ℝ) - ⟨-s, 0, c⟩) ≤ v) :
    AxisErr (G * (1 + 13 * v)) (cat rnd (smul rnd (-s') F'.cx) c' F'.cz) (F.mulVec ⟨-s, 0, c⟩) := by
  have hB : Bound F' G := by have := hA.bound (bound_rot hF); rwa [add_sub_cancel] at this
  refine moved_axis hv hv1 hG hF hA hx hx' ?_
  have h := va_len (pow_nonneg' hv 2) (va_add hv hr (va_smul hr (-s') F'.cx) (va_smul hr c' F'.cz) (n := 1) le_rfl le_rfl)
  have e : F'.mulVec ⟨-s', 0, c'⟩ = (-s') • F'.cx + c' • F'.cz := by vec_ring
  rw [e]
  refine h.trans ?_
  have l1 : len (|-s'| • vabs F'.cx + |c'| • vabs F'.cz) ≤ 2 * (G * len (⟨-s', 0, c'⟩ : Vec3 ℝ)) := by
    refine (len_add _ _).trans ?_
    simp only [len_smul, abs_abs, len_vabs]
    obtain ⟨c1, -, c3⟩ := col_len hB
    have h3 := sum_abs_le ⟨-s', 0, c'⟩
    simp only [abs_zero, add_zero] at h3
    have h4 := mul_le_mul_of_nonneg_right sqrt3_le (len_nonneg (⟨-s', 0, c'⟩ : Vec3 ℝ))
    have h5 := mul_le_mul_of_nonneg_left (h3.trans h4) (show 0 ≤ G by linarith)
    have h6 := mul_le_mul_of_nonneg_left c1 (abs_nonneg (-s'))
    have h7 := mul_le_mul_of_nonneg_left c3 (abs_nonneg c')
    nlinarith
  have k0 : 0 ≤ G * len (⟨-s', 0, c'⟩ : Vec3 ℝ) := mul_nonneg (by linarith) (len_nonneg _)
  have a1 := mul_le_mul_of_nonneg_left l1 (pow_nonneg' hv 2)
  have a2 : 2 * ((1 + v) ^ 2 - 1) ≤ 11 * v := by nlinarith [mul_nonneg hv hv]
  have a3 := mul_le_mul_of_nonneg_right a2 k0
  refine a1.trans ?_
  linarith

end

theorem tr_cx (A : Mat3 ℝ) : A.tr.cx = A.mulVecT ⟨1, 0, 0⟩ := by simp only [Mat3.tr]; vec_ring
theorem tr_cy (A : Mat3 ℝ) : A.tr.cy = A.mulVecT ⟨0, 1, 0⟩ := by simp only [Mat3.tr]; vec_ring
theorem tr_cz (A : Mat3 ℝ) : A.tr.cz = A.mulVecT ⟨0, 0, 1⟩ := by simp only [Mat3.tr]; vec_ring

theorem hooke_row (s0 c0 s1 c1 : ℝ) : ((Rz s0 c0).mul (Ry s1 c1)).mulVecT ⟨0, 0, 1⟩ = ⟨-s1, 0, c1⟩ := by
  simp only [Rz, Ry]; vec_ring

/-- The axes of a joint. -/
theorem axes {p p' : Prp ℝ} {F' F : Frame ℝ} {G : ℝ} (hv : 0 ≤ v) (hv1 : v ≤ 1 / 100) (hr : RelError rnd v) (hG : 1 ≤ G) (hF : F.att.IsRot)
    (hA : AttError F'.att F.att (G - 1)) (hp : (jointFrame p).att.IsRot) (hn : NearJoint v p p') (hk : SameKind p p') (i : ℕ) :
    Option.Rel (AxisErr (G * (1 + 13 * v))) (angAxis rnd p' i F') (p.angAxis i F) ∧
    Option.Rel (AxisErr (G * (1 + 13 * v))) (linAxis rnd p' i F') (p.linAxis i F) := by
  have hz : AxisErr (G * (1 + 13 * v)) F'.att.cz F.att.cz := by
    have := fixed_axis hv hG hF hA (e := ⟨0, 0, 1⟩) (by simp [sqrNorm, dot])
    have e : ∀ A : Mat3 ℝ, A.mulVec ⟨0, 0, 1⟩ = A.cz := fun A => by vec_ring
    rwa [e, e] at this
  have hy : AxisErr (G * (1 + 13 * v)) F'.att.cy F.att.cy := by
    have := fixed_axis hv hG hF hA (e := ⟨0, 1, 0⟩) (by simp [sqrNorm, dot])
    have e : ∀ A : Mat3 ℝ, A.mulVec ⟨0, 1, 0⟩ = A.cy := fun A => by vec_ring
    rwa [e, e] at this
  have hrow : ∀ (R' R : Mat3 ℝ), R.IsRot → AttError R' R v → ∀ k, AxisErr (G * (1 + 13 * v)) (rowAxis rnd R' F' k) (Prp.rowAxis R F k) := by
    intro R' R hR hn k
    match k with
    | 0 => simp only [rowAxis, Prp.rowAxis, tr_cx]; exact row_axis hv hv1 hr hG hF hA hR hn (by simp [sqrNorm, dot])
    | 1 => simp only [rowAxis, Prp.rowAxis, tr_cy]; exact row_axis hv hv1 hr hG hF hA hR hn (by simp [sqrNorm, dot])
    | k + 2 => simp only [rowAxis, Prp.rowAxis, tr_cz]; exact row_axis hv hv1 hr hG hF hA hR hn (by simp [sqrNorm, dot])
  have hatt := hn.att
  cases p <;> cases p' <;> first | exact hk.elim | skip
  case fixed.fixed => exact ⟨.none, .none⟩
  case revol.revol p p' =>
    rcases i with _ | i
    · exact ⟨.some hz, .none⟩
    · exact ⟨.none, .none⟩
  case prism.prism p p' =>
    rcases i with _ | i
    · exact ⟨.none, .some hz⟩
    · exact ⟨.none, .none⟩
  case cylin.cylin p p' =>
    rcases i with _ | _ | i
    · exact ⟨.none, .some hz⟩
    · exact ⟨.some hz, .none⟩
    · exact ⟨.none, .none⟩
  case hooke.hooke p p' =>
    rcases i with _ | _ | i
    · refine ⟨.some ?_, .none⟩
      have h1 := len_rotT hp ⟨0, 0, 1⟩
      have h2 := attT hatt ⟨0, 0, 1⟩
      rw [len_unit (e := ⟨0, 0, 1⟩) (by simp [sqrNorm, dot])] at h1 h2
      simp only [jointFrame, hooke_row, mul_one] at h1 h2
      have := hooke_axis hv hv1 hr hG hF hA h1 h2
      have e : F.att.mulVec ⟨-p.s1, 0, p.c1⟩ = Roki.cat ((-p.s1) • F.att.cx) p.c1 F.att.cz := by simp only [Roki.cat]; vec_ring
      rwa [e] at this
    · exact ⟨.some hy, .none⟩
    · exact ⟨.none, .none⟩
  case spher.spher p p' =>
    rcases i with _ | _ | _ | i
    · exact ⟨.some (hrow _ _ hp hatt 0), .none⟩
    · exact ⟨.some (hrow _ _ hp hatt 1), .none⟩
    · exact ⟨.some (hrow _ _ hp hatt 2), .none⟩
    · exact ⟨.none, .none⟩
  case float.float p p' =>
    rcases i with _ | _ | _ | _ | _ | _ | i
    · exact ⟨.none, .some (hrow _ _ hp hatt 0)⟩
    · exact ⟨.none, .some (hrow _ _ hp hatt 1)⟩
    · exact ⟨.none, .some (hrow _ _ hp hatt 2)⟩
    · exact ⟨.some (hrow _ _ hp hatt 0), .none⟩
    · exact ⟨.some (hrow _ _ hp hatt 1), .none⟩
    · exact ⟨.some (hrow _ _ hp hatt 2), .none⟩
    · exact ⟨.none, .none⟩
  case brfloat.brfloat p p' =>
    rcases i with _ | _ | _ | _ | _ | _ | i
    · exact ⟨.none, .some (hrow _ _ hp hatt 0)⟩
    · exact ⟨.none, .some (hrow _ _ hp hatt 1)⟩
    · exact ⟨.none, .some (hrow _ _ hp hatt 2)⟩
    · exact ⟨.some (hrow _ _ hp hatt 0), .none⟩
    · exact ⟨.some (hrow _ _ hp hatt 1), .none⟩
    · exact ⟨.some (hrow _ _ hp hatt 2), .none⟩
    · exact ⟨.none, .none⟩

theorem SameKind.size {p p' : Prp ℝ} (h : SameKind p p') : p'.size = p.size := by
  cases p <;> cases p' <;> first | exact h.elim | rfl

/-! ## Columns -/

theorem va_sub (hv : 0 ≤ v) (hr : RelError rnd v) (a b : Vec3 ℝ) : len (sub rnd a b - (a - b)) ≤ v * len (a - b) := by
  have e : v * len (a - b) = len (vabs (v • (a - b))) := by rw [len_vabs, len_smul, abs_of_nonneg hv]
  rw [e]
  have one : ∀ x : ℝ, |rnd x - x| ≤ |v * x| := fun x => by rw [abs_mul, abs_of_nonneg hv]; exact hr x
  exact len_mono (one _) (one _) (one _)

/-- The column of a turning joint. -/
theorem turn_col (hv : 0 ≤ v) (hv1 : v ≤ 1 / 100) (hr : RelError rnd v) {G H W : ℝ} (hG : 1 ≤ G) (hH : 1 ≤ H) {a' a t' t q' q : Vec3 ℝ} (ha : AxisErr G a' a)
    (hw : len (t - q) ≤ W) (hw' : len ((t' - q') - (t - q)) ≤ (H - 1) * W) :
    len (outer rnd a' (sub rnd t' q') - cross a (t - q)) ≤ (G * H * (1 + 13 * v) - 1) * W := by
  obtain ⟨ha, ha'⟩ := ha
  have hW : 0 ≤ W := (len_nonneg _).trans hw
  set w := t - q
  set w1 := t' - q'
  set w' := sub rnd t' q' with hw'e
  have l1 : len w1 ≤ H * W := by
    have : w1 = w + (w1 - w) := by vec_ring
    rw [this]; exact (len_add _ _).trans (by linarith)
  have d1 : len (w' - w1) ≤ v * (H * W) := (va_sub hv hr t' q').trans (mul_le_mul_of_nonneg_left l1 hv)
  have l2 : len w' ≤ (1 + v) * (H * W) := by
    have : w' = w1 + (w' - w1) := by vec_ring
    rw [this]; exact (len_add _ _).trans (by linarith)
  have d2 : len (w' - w) ≤ (H * (1 + v) - 1) * W := (len_via w' w1 w).trans (by nlinarith)
  have la' : len a' ≤ G := by
    have : a' = a + (a' - a) := by vec_ring
    rw [this]; exact (len_add _ _).trans (by linarith)
  have k : 0 ≤ (1 + v) * (H * W) := mul_nonneg (by linarith) (mul_nonneg (by linarith) hW)
  have law : len a' * len w' ≤ G * ((1 + v) * (H * W)) := mul_le_mul la' l2 (len_nonneg _) (by linarith)
  have e1 := (va_len (pow_nonneg' hv 2) (va_outer hv hr a' w')).trans (mul_le_mul_of_nonneg_left (len_magC a' w') (pow_nonneg' hv 2))
  have e1' := e1.trans (mul_le_mul_of_nonneg_left (mul_le_mul_of_nonneg_left law (show (0 : ℝ) ≤ 2 by norm_num)) (pow_nonneg' hv 2))
  have e2 : len (cross a' w' - cross a w) ≤ (G - 1) * ((1 + v) * (H * W)) + (H * (1 + v) - 1) * W := by
    have : cross a' w' - cross a w = cross (a' - a) w' + cross a (w' - w) := by vec_ring
    rw [this]
    refine (len_add _ _).trans (add_le_add ?_ ?_)
    · exact (len_cross _ _).trans (mul_le_mul ha' l2 (len_nonneg _) (by linarith))
    · refine (len_cross _ _).trans ((mul_le_mul ha d2 (len_nonneg _) zero_le_one).trans (by rw [one_mul]))
  have e3 := len_via (outer rnd a' w') (cross a' w') (cross a w)
  have hGHW : 0 ≤ G * (H * W) := mul_nonneg (by linarith) (mul_nonneg (by linarith) hW)
  have a2 : 2 * ((1 + v) ^ 2 - 1) * (1 + v) + (1 + v) ≤ 1 + 13 * v := by
    nlinarith [mul_nonneg hv hv, mul_nonneg hv (mul_nonneg hv hv), mul_le_mul_of_nonneg_left hv1 hv]
  have a3 := mul_le_mul_of_nonneg_right a2 hGHW
  refine e3.trans ((add_le_add e1' e2).trans ?_)
  linarith

/-! ## The loops -/

theorem modify_near {B : ℝ} {a' a : Vec3 ℝ} (ha : len (a' - a) ≤ B) {m' m : List (Vec3 ℝ)} (h : ColError m' m B) :
    ∀ k : ℕ, ColError (m'.modify k fun _ => a') (m.modify k fun _ => a) B := by
  induction h with
  | nil => intro k; cases k <;> exact .nil
  | cons h1 h2 ih =>
    intro k
    cases k with
    | zero => exact .cons ha h2
    | succ k => exact .cons h1 (ih k)

theorem foldlM_near {α : Type*} {B : ℝ} {f' f : List (Vec3 ℝ) → α → Option (List (Vec3 ℝ))}
    (hf : ∀ x m' m, ColError m' m B → Option.Rel (fun m' m => ColError m' m B) (f' m' x) (f m x)) :
    ∀ (xs : List α) {m' m : List (Vec3 ℝ)}, ColError m' m B → Option.Rel (fun m' m => ColError m' m B) (xs.foldlM f' m') (xs.foldlM f m)
  | [], _, _, h => .some h
  | x :: xs, m', m, h => by
    simp only [List.foldlM_cons]
    have := hf x m' m h
    revert this
    cases f' m' x <;> cases f m x <;> intro h
    · exact .none
    · cases h
    · cases h
    · cases h with
      | some h => exact foldlM_near hf xs h

theorem colLoop_near {B : ℝ} {l' l : Link ℝ} (hs : l'.size = l.size) (ho : l'.offset = l.offset) {col' col : ℕ → Option (Vec3 ℝ)}
    (hc : ∀ i, Option.Rel (fun a' a => len (a' - a) ≤ B) (col' i) (col i)) {m' m : List (Vec3 ℝ)} (h : ColError m' m B) :
    Option.Rel (fun m' m => ColError m' m B) (Jacobi.colLoop Jacobi.opSet l' col' m') (Jacobi.colLoop Jacobi.opSet l col m) := by
  rw [Jacobi.colLoop, Jacobi.colLoop, hs, ho]
  refine foldlM_near (fun i m' m h => ?_) _ h
  have := hc i
  revert this
  cases col' i <;> cases col i <;> intro hi
  · exact .some h
  · cases hi
  · cases hi
  · cases hi with
    | some hi =>
      have hl := h.length_eq
      simp only [Jacobi.colAt, Jacobi.modCol, hl]
      split_ifs
      · exact .some (modify_near hi h _)
      · exact .none

theorem walk_near {B : ℝ} {f' f : Link ℝ → List (Vec3 ℝ) → Option (List (Vec3 ℝ))} {ls' ls : List (Link ℝ)} :
    ∀ (p : List ℕ) {m' m : List (Vec3 ℝ)},
      (∀ i ∈ p, ∃ l' l, ls'[i]? = some l' ∧ ls[i]? = some l ∧ ∀ m' m, ColError m' m B → Option.Rel (fun m' m => ColError m' m B) (f' l' m') (f l m)) →
      ColError m' m B → Option.Rel (fun m' m => ColError m' m B) (Jacobi.walk f' ls' p m') (Jacobi.walk f ls p m)
  | [], _, _, _, _ => .none
  | i :: p, m', m, hp, h => by
    obtain ⟨l', l, e', e, hf⟩ := hp i (by simp)
    simp only [Jacobi.walk, e', e, Option.bind_eq_bind, Option.bind_some]
    have := hf m' m h
    revert this
    cases f' l' m' <;> cases f l m <;> intro hi
    · exact .none
    · cases hi
    · cases hi
    · cases hi with
      | some hi =>
        simp only [Option.bind_some]
        split_ifs
        · exact .some hi
        · exact walk_near p (fun j hj => hp j (by simp [hj])) hi

theorem zero_near {B : ℝ} (hB : 0 ≤ B) (m : List (Vec3 ℝ)) : ColError (Jacobi.zero m) (Jacobi.zero m) B := by
  induction m with
  | nil => exact .nil
  | cons a m ih => exact .cons (by rw [sub_self, len_zero]; exact hB) ih

end Roki.Rounded
