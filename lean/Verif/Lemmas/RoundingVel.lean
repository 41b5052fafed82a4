import Verif.Lemmas.Rounding
import Verif.Spec.RoundingVel
import Verif.Props.Rounding
set_option autoImplicit false

/-! # Rounding errors of velocities -/

namespace Roki.Rounded
open Spec
variable {rnd : ℝ → ℝ} {v : ℝ}

/-! ## Transposed matrices -/

theorem boundT {A : Mat3 ℝ} {a : ℝ} (h : Bound A a) (p : Vec3 ℝ) : len (A.mulVecT p) ≤ a * len p := by
  have h1 : sqrNorm (A.mulVecT p) = dot (A.mulVec (A.mulVecT p)) p := by vec_ring
  have h2 := dot_le_len (A.mulVec (A.mulVecT p)) p
  have h3 := mul_le_mul_of_nonneg_right (h (A.mulVecT p)) (len_nonneg p)
  rw [← h1, ← len_sq] at h2
  have h4 := len_nonneg (A.mulVecT p)
  have ha : 0 ≤ a := (len_nonneg _).trans (col_len h).1
  rcases h4.eq_or_lt with h5 | h5
  · rw [← h5]; exact mul_nonneg ha (len_nonneg _)
  · have : len (A.mulVecT p) * len (A.mulVecT p) ≤ len (A.mulVecT p) * (a * len p) := by nlinarith
    exact le_of_mul_le_mul_left this h5

theorem attT {A B : Mat3 ℝ} {e : ℝ} (h : AttError A B e) (p : Vec3 ℝ) : len (A.mulVecT p - B.mulVecT p) ≤ e * len p := by
  have h1 : Bound ⟨A.cx - B.cx, A.cy - B.cy, A.cz - B.cz⟩ e := by
    intro q
    have : Mat3.mulVec ⟨A.cx - B.cx, A.cy - B.cy, A.cz - B.cz⟩ q = A.mulVec q - B.mulVec q := by vec_ring
    rw [this]; exact h q
  have : A.mulVecT p - B.mulVecT p = Mat3.mulVecT ⟨A.cx - B.cx, A.cy - B.cy, A.cz - B.cz⟩ p := by vec_ring
  rw [this]; exact boundT h1 p

theorem len_rotT {R : Mat3 ℝ} (h : R.IsRot) (p : Vec3 ℝ) : len (R.mulVecT p) = len p := by
  rw [← len_rot h, h.mulVec_mulVecT]

/-! ## Products -/

theorem inner_mag (a b : Vec3 ℝ) : |a.x * b.x| + |a.y * b.y| + |a.z * b.z| ≤ len a * len b := by
  have h := dot_le_len (vabs a) (vabs b)
  rw [len_vabs, len_vabs] at h
  simpa only [dot, vabs, abs_mul] using h

theorem ap_inner (hv : 0 ≤ v) (hr : RelError rnd v) (a b : Vec3 ℝ) :
    Approx ((1 + v) ^ 3 - 1) (len a * len b) (inner rnd a b) (dot a b) := by
  have h := ap_add hv hr (ap_add hv hr (ap_rnd hr (a.x * b.x)) (ap_rnd hr (a.y * b.y)) (n := 1) le_rfl le_rfl) (ap_rnd hr (a.z * b.z)) (n := 2) le_rfl (by norm_num)
  obtain ⟨h1, h2⟩ := h
  exact ⟨h1.trans (mul_le_mul_of_nonneg_left (inner_mag a b) (pow_nonneg' hv 3)), h2.trans (inner_mag a b)⟩

theorem len_const {k : ℝ} (hk : 0 ≤ k) : len ⟨k, k, k⟩ = Real.sqrt 3 * k := by
  have : (⟨k, k, k⟩ : Vec3 ℝ) = k • ⟨1, 1, 1⟩ := by vec_ring
  rw [this, len_smul, abs_of_nonneg hk, mul_comm]
  congr 1
  simp only [len, sqrNorm, dot]
  norm_num

theorem va_mulVecT (hv : 0 ≤ v) (hr : RelError rnd v) {A : Mat3 ℝ} {a : ℝ} (hA : Bound A a) (p : Vec3 ℝ) :
    VApprox ((1 + v) ^ 3 - 1) ⟨a * len p, a * len p, a * len p⟩ (mulVecT rnd A p) (A.mulVecT p) := by
  obtain ⟨c1, c2, c3⟩ := col_len hA
  have hp := len_nonneg p
  have up : ∀ c, len c ≤ a → Approx ((1 + v) ^ 3 - 1) (a * len p) (inner rnd c p) (dot c p) := by
    intro c hc
    obtain ⟨h1, h2⟩ := ap_inner hv hr c p
    have := mul_le_mul_of_nonneg_right hc hp
    exact ⟨h1.trans (mul_le_mul_of_nonneg_left this (pow_nonneg' hv 3)), h2.trans this⟩
  exact ⟨up _ c1, up _ c2, up _ c3⟩

theorem g3 (hv : 0 ≤ v) (hv1 : v ≤ 1 / 100) : 2 * ((1 + v) ^ 3 - 1) ≤ 13 * v := by
  nlinarith [mul_nonneg hv hv, mul_nonneg hv (mul_nonneg hv hv)]

/-- A vector `x'` that stands for `x` taken to the coordinates of the link. -/
theorem turn_error (hv : 0 ≤ v) (hv1 : v ≤ 1 / 100) (hr : RelError rnd v) {R' R : Mat3 ℝ} (hR : R.IsRot) (hA : AttError R' R (13 * v))
    {G X : ℝ} (hG : 1 ≤ G) {x' x : Vec3 ℝ} (hx : len x ≤ X) (hx' : len (x' - x) ≤ (G - 1) * X) :
    len (mulVecT rnd R' x' - R.mulVecT x) ≤ (G * (1 + 13 * v) ^ 2 - 1) * X := by
  have hu : 0 ≤ 13 * v := by linarith
  have hX : 0 ≤ X := (len_nonneg x).trans hx
  have lx' : len x' ≤ G * X := by
    have : x' = x + (x' - x) := by vec_ring
    rw [this]; exact (len_add _ _).trans (by linarith)
  have hB : Bound R' (1 + 13 * v) := hA.bound (bound_rot hR)
  have k0 : 0 ≤ (1 + 13 * v) * len x' := mul_nonneg (by linarith) (len_nonneg _)
  have e1 := va_len (pow_nonneg' hv 3) (va_mulVecT hv hr hB x')
  rw [len_const k0] at e1
  have e1' : len (mulVecT rnd R' x' - R'.mulVecT x') ≤ 13 * v * ((1 + 13 * v) * (G * X)) := by
    have a1 : Real.sqrt 3 * ((1 + 13 * v) * len x') ≤ 2 * ((1 + 13 * v) * len x') := mul_le_mul_of_nonneg_right sqrt3_le k0
    have a2 := mul_le_mul_of_nonneg_left a1 (pow_nonneg' hv 3)
    have a3 := mul_le_mul_of_nonneg_right (g3 hv hv1) k0
    have a4 := mul_le_mul_of_nonneg_left (mul_le_mul_of_nonneg_left lx' (show 0 ≤ 1 + 13 * v by linarith)) hu
    linarith
  have e2 := (attT hA x').trans (mul_le_mul_of_nonneg_left lx' hu)
  have e3 : len (R.mulVecT x' - R.mulVecT x) ≤ (G - 1) * X := by
    have : R.mulVecT x' - R.mulVecT x = R.mulVecT (x' - x) := by vec_ring
    rw [this, len_rotT hR]; exact hx'
  have e4 := len_via (mulVecT rnd R' x') (R'.mulVecT x') (R.mulVecT x)
  have e5 := len_via (R'.mulVecT x') (R.mulVecT x') (R.mulVecT x)
  have : (G * (1 + 13 * v) ^ 2 - 1) * X = 13 * v * ((1 + 13 * v) * (G * X)) + (13 * v * (G * X) + (G - 1) * X) := by ring
  rw [this]; linarith

theorem len_cross (a b : Vec3 ℝ) : len (cross a b) ≤ len a * len b := by
  refine len_le (mul_nonneg (len_nonneg _) (len_nonneg _)) ?_
  rw [mul_pow, len_sq, len_sq]
  simp only [sqrNorm, dot, cross]
  nlinarith [sq_nonneg (a.x * b.x + a.y * b.y + a.z * b.z)]

/-- The magnitude of the terms of a vector product. -/
def magC (a b : Vec3 ℝ) : Vec3 ℝ := ⟨|a.y * b.z| + |a.z * b.y|, |a.z * b.x| + |a.x * b.z|, |a.x * b.y| + |a.y * b.x|⟩

theorem len_magC (a b : Vec3 ℝ) : len (magC a b) ≤ 2 * (len a * len b) := by
  refine len_le (mul_nonneg (by norm_num) (mul_nonneg (len_nonneg _) (len_nonneg _))) ?_
  rw [mul_pow, mul_pow, len_sq, len_sq]
  simp only [sqrNorm, dot, magC, abs_mul]
  have hx := sq_abs a.x; have hy := sq_abs a.y; have hz := sq_abs a.z
  have kx := sq_abs b.x; have ky := sq_abs b.y; have kz := sq_abs b.z
  have e : (a.x * a.x + a.y * a.y + a.z * a.z) * (b.x * b.x + b.y * b.y + b.z * b.z) =
      (|a.x| ^ 2 + |a.y| ^ 2 + |a.z| ^ 2) * (|b.x| ^ 2 + |b.y| ^ 2 + |b.z| ^ 2) := by rw [hx, hy, hz, kx, ky, kz]; ring
  rw [e]
  generalize |a.x| = p; generalize |a.y| = q; generalize |a.z| = r; generalize |b.x| = s; generalize |b.y| = t; generalize |b.z| = w
  nlinarith [sq_nonneg (q * w - r * t), sq_nonneg (r * s - p * w), sq_nonneg (p * t - q * s), sq_nonneg (p * s), sq_nonneg (q * t), sq_nonneg (r * w),
    sq_nonneg (q * w), sq_nonneg (r * t), sq_nonneg (r * s), sq_nonneg (p * w), sq_nonneg (p * t), sq_nonneg (q * s)]

theorem ap_neg {e A a' a : ℝ} (h : Approx e A a' a) : Approx e A (-a') (-a) := by
  refine ⟨?_, by rw [abs_neg]; exact h.2⟩
  have : -a' - -a = -(a' - a) := by ring
  rw [this, abs_neg]; exact h.1

theorem va_outer (hv : 0 ≤ v) (hr : RelError rnd v) (a b : Vec3 ℝ) : VApprox ((1 + v) ^ 2 - 1) (magC a b) (outer rnd a b) (cross a b) := by
  have one : ∀ x y : ℝ, Approx ((1 + v) ^ 2 - 1) (|x| + |y|) (rnd (rnd x - rnd y)) (x - y) := by
    intro x y
    have := ap_add hv hr (ap_rnd hr x) (ap_neg (ap_rnd hr y)) (n := 1) le_rfl le_rfl
    simpa only [sub_eq_add_neg] using this
  exact ⟨one _ _, one _ _, one _ _⟩

/-- The velocity of a point `p'` that stands for `p`. -/
theorem sweep_error (hv : 0 ≤ v) (hv1 : v ≤ 1 / 100) (hr : RelError rnd v) {G L W s : ℝ} (hG : 1 ≤ G) {x' x w' w p' p : Vec3 ℝ} (hx : len x ≤ L)
    (hx' : len (x' - x) ≤ (G - 1) * L) (hw : len w ≤ W) (hw' : len (w' - w) ≤ (G - 1) * W) (hp : len p ≤ s) (hp' : len (p' - p) ≤ 13 * v * s) :
    len (x + cross w p) ≤ L + W * s ∧ len (add rnd x' (outer rnd w' p') - (x + cross w p)) ≤ (G * (1 + 13 * v) ^ 2 - 1) * (L + W * s) := by
  have hu : 0 ≤ 13 * v := by linarith
  have hL : 0 ≤ L := (len_nonneg x).trans hx
  have hW : 0 ≤ W := (len_nonneg w).trans hw
  have hs : 0 ≤ s := (len_nonneg p).trans hp
  have lx' : len x' ≤ G * L := by
    have : x' = x + (x' - x) := by vec_ring
    rw [this]; exact (len_add _ _).trans (by linarith)
  have lw' : len w' ≤ G * W := by
    have : w' = w + (w' - w) := by vec_ring
    rw [this]; exact (len_add _ _).trans (by linarith)
  have lp' : len p' ≤ (1 + 13 * v) * s := by
    have : p' = p + (p' - p) := by vec_ring
    rw [this]; exact (len_add _ _).trans (by linarith)
  have lwp : len w' * len p' ≤ G * W * ((1 + 13 * v) * s) := mul_le_mul lw' lp' (len_nonneg _) (mul_nonneg (by linarith) hW)
  constructor
  · exact (len_add _ _).trans (add_le_add hx ((len_cross w p).trans (mul_le_mul hw hp (len_nonneg _) hW)))
  have e1 := va_len (pow_nonneg' hv 3) (va_add hv hr (va_exact x') (va_outer hv hr w' p') (n := 2) (by norm_num) le_rfl)
  have m1 : len (vabs x' + magC w' p') ≤ 2 * (G * L + G * W * ((1 + 13 * v) * s)) := by
    have a1 := len_add (vabs x') (magC w' p')
    rw [len_vabs] at a1
    have a2 := len_magC w' p'
    have : 0 ≤ G * L := mul_nonneg (by linarith) hL
    linarith
  have e1' : len (add rnd x' (outer rnd w' p') - (x' + cross w' p')) ≤ 13 * v * (G * L + G * W * ((1 + 13 * v) * s)) := by
    have a2 := mul_le_mul_of_nonneg_left m1 (pow_nonneg' hv 3)
    have a3 := mul_le_mul_of_nonneg_right (g3 hv hv1) (show 0 ≤ G * L + G * W * ((1 + 13 * v) * s) by positivity)
    linarith
  have e2 : len ((x' + cross w' p') - (x + cross w p)) ≤ (G - 1) * L + ((G - 1) * W * ((1 + 13 * v) * s) + W * (13 * v * s)) := by
    have : (x' + cross w' p') - (x + cross w p) = (x' - x) + (cross (w' - w) p' + cross w (p' - p)) := by vec_ring
    rw [this]
    refine (len_add _ _).trans (add_le_add hx' ((len_add _ _).trans (add_le_add ?_ ?_)))
    · exact (len_cross _ _).trans (mul_le_mul hw' lp' (len_nonneg _) (mul_nonneg (by linarith) hW))
    · exact (len_cross _ _).trans (mul_le_mul hw hp' (len_nonneg _) hW)
  have e3 := len_via (add rnd x' (outer rnd w' p')) (x' + cross w' p') (x + cross w p)
  have key : 13 * v * (G * L + G * W * ((1 + 13 * v) * s)) + ((G - 1) * L + ((G - 1) * W * ((1 + 13 * v) * s) + W * (13 * v * s))) ≤
      (G * (1 + 13 * v) ^ 2 - 1) * (L + W * s) := by
    have p1 : 0 ≤ G * (13 * v) * L := mul_nonneg (mul_nonneg (by linarith) hu) hL
    have p2 : 0 ≤ G * (13 * v) * L * (13 * v) := mul_nonneg p1 hu
    nlinarith
  linarith

/-! ## Joints -/

theorem g4 (hv : 0 ≤ v) (hv1 : v ≤ 1 / 100) : (1 + v) ^ 4 - 1 ≤ 41 / 10 * v := by
  have : (1 + v) ^ 4 - 1 = v * (4 + 6 * v + 4 * (v * v) + v * (v * v)) := by ring
  rw [this]
  nlinarith [mul_nonneg hv hv, mul_nonneg hv (mul_nonneg hv hv), mul_le_mul_of_nonneg_left hv1 hv]

/-- Adding to `x` a computed vector that stands for `t`. -/
theorem inc_add (hv : 0 ≤ v) (hv1 : v ≤ 1 / 100) (hr : RelError rnd v) {k : ℕ} (hk : k ≤ 3) {M x y' y t : Vec3 ℝ} {τ : ℝ}
    (h : VApprox ((1 + v) ^ k - 1) M y' y) (hM : len M ≤ 21 / 10 * τ) (ht : len (y - t) ≤ v * τ) (hτ : 0 ≤ τ) :
    len (add rnd x y' - (x + t)) ≤ 13 * v * (len x + τ) := by
  have e1 := va_len (pow_nonneg' hv 4) (va_add hv hr (va_exact x) h (n := 3) (by norm_num) hk)
  have e2 := len_add (vabs x) M
  rw [len_vabs] at e2
  have e3 := mul_le_mul_of_nonneg_left (e2.trans (add_le_add le_rfl hM)) (pow_nonneg' hv 4)
  have e4 := mul_le_mul_of_nonneg_right (g4 hv hv1) (show 0 ≤ len x + 21 / 10 * τ by have := len_nonneg x; linarith)
  have e5 := len_via (add rnd x y') (x + y) (x + t)
  have e6 : (x + y) - (x + t) = y - t := by vec_ring
  rw [e6] at e5
  have := len_nonneg x
  nlinarith [mul_nonneg hv this, mul_nonneg hv hτ]

theorem inc_z (hv : 0 ≤ v) (hr : RelError rnd v) (x : Vec3 ℝ) (k : ℝ) :
    len ((⟨x.x, x.y, rnd (x.z + k)⟩ : Vec3 ℝ) - (x + ⟨0, 0, k⟩)) ≤ 13 * v * (len x + |k|) := by
  have : (⟨x.x, x.y, rnd (x.z + k)⟩ : Vec3 ℝ) - (x + ⟨0, 0, k⟩) = ⟨0, 0, rnd (x.z + k) - (x.z + k)⟩ := by vec_ring
  rw [this, len_axis]
  have h1 : |x.z| ≤ len x := by
    rw [← abs_of_nonneg (len_nonneg x)]
    refine sq_le_sq.1 ?_
    rw [len_sq]; simp only [sqrNorm, dot]; nlinarith [sq_nonneg x.x, sq_nonneg x.y]
  have h2 := hr (x.z + k)
  have h3 := mul_le_mul_of_nonneg_left ((abs_add_le x.z k).trans (add_le_add h1 le_rfl)) hv
  nlinarith [mul_nonneg hv (add_nonneg (len_nonneg x) (abs_nonneg k))]

theorem inc_same (hv : 0 ≤ v) (x : Vec3 ℝ) : len (x - (x + 0)) ≤ 13 * v * (len x + 0) := by
  rw [add_zero, sub_self, len_zero, add_zero]
  exact mul_nonneg (by linarith) (len_nonneg _)

/-- A velocity taken from stored velocities by the attitude of the joint. -/
theorem inc_rot (hv : 0 ≤ v) (hv1 : v ≤ 1 / 100) (hr : RelError rnd v) {A' A : Mat3 ℝ} (hA : A.IsRot) (h : AttError A' A v) (x u : Vec3 ℝ) :
    len (add rnd x (mulVecT rnd A' u) - (x + A.mulVecT u)) ≤ 13 * v * (len x + len u) := by
  have k0 : 0 ≤ (1 + v) * len u := mul_nonneg (by linarith) (len_nonneg _)
  refine inc_add hv hv1 hr le_rfl (va_mulVecT hv hr (h.bound (bound_rot hA)) u) ?_ (attT h u) (len_nonneg u)
  rw [len_const k0]
  have := mul_le_mul_of_nonneg_right sqrt3_le k0
  nlinarith [mul_nonneg hv (len_nonneg u), mul_le_mul_of_nonneg_right hv1 (len_nonneg u)]

theorem inc_error (hv : 0 ≤ v) (hv1 : v ≤ 1 / 100) (hr : RelError rnd v) {p p' : Prp ℝ} (hp : p.WF) (hn : NearJoint v p p') (hs : SameRates p p') (u : Vec6 ℝ) :
    (len (p.incVel 0).ang ≤ turning p ∧ len (p.incVel 0).lin ≤ sliding p) ∧
    len ((incVel rnd p' u).ang - (u.ang + (p.incVel 0).ang)) ≤ 13 * v * (len u.ang + turning p) ∧
    len ((incVel rnd p' u).lin - (u.lin + (p.incVel 0).lin)) ≤ 13 * v * (len u.lin + sliding p) := by
  obtain ⟨ha, -⟩ := hn
  have hj := isRot_jointFrame hp
  cases p with
  | fixed => cases p' with
    | fixed => exact ⟨⟨by rw [Prp.incVel]; exact len_zero.le, by rw [Prp.incVel]; exact len_zero.le⟩, inc_same hv _, inc_same hv _⟩
    | _ => exact hs.elim
  | revol p => cases p' with
    | revol q =>
      have hq : q.vel = p.vel := hs
      have e : (Prp.incVel (.revol p) 0 : Vec6 ℝ) = ⟨0, ⟨0, 0, p.vel⟩⟩ := by simp only [Prp.incVel]; vec_ring
      rw [e]
      simp only [incVel, turning, sliding, hq]
      exact ⟨⟨(len_axis _).le, len_zero.le⟩, inc_z hv hr _ _, inc_same hv _⟩
    | _ => exact hs.elim
  | prism p => cases p' with
    | prism q =>
      have hq : q.vel = p.vel := hs
      have e : (Prp.incVel (.prism p) 0 : Vec6 ℝ) = ⟨⟨0, 0, p.vel⟩, 0⟩ := by simp only [Prp.incVel]; vec_ring
      rw [e]
      simp only [incVel, turning, sliding, hq]
      exact ⟨⟨len_zero.le, (len_axis _).le⟩, inc_same hv _, inc_z hv hr _ _⟩
    | _ => exact hs.elim
  | cylin p => cases p' with
    | cylin q =>
      obtain ⟨h0, h1⟩ : q.vel0 = p.vel0 ∧ q.vel1 = p.vel1 := hs
      have e : (Prp.incVel (.cylin p) 0 : Vec6 ℝ) = ⟨⟨0, 0, p.vel0⟩, ⟨0, 0, p.vel1⟩⟩ := by simp only [Prp.incVel]; vec_ring
      rw [e]
      simp only [incVel, turning, sliding, h0, h1]
      exact ⟨⟨(len_axis _).le, (len_axis _).le⟩, inc_z hv hr _ _, inc_z hv hr _ _⟩
    | _ => exact hs.elim
  | hooke p => cases p' with
    | hooke q =>
      obtain ⟨h0, h1⟩ : q.vel0 = p.vel0 ∧ q.vel1 = p.vel1 := hs
      have e : (Prp.incVel (.hooke p) 0 : Vec6 ℝ) = ⟨0, ⟨-p.s1 * p.vel0, p.vel1, p.c1 * p.vel0⟩⟩ := by simp only [Prp.incVel]; vec_ring
      rw [e]
      simp only [incVel, turning, sliding, h0, h1]
      have hp1 : p.s1 * p.s1 + p.c1 * p.c1 = 1 := hp.2
      have len_t : len ⟨-p.s1 * p.vel0, p.vel1, p.c1 * p.vel0⟩ = Real.sqrt (p.vel0 ^ 2 + p.vel1 ^ 2) := by
        simp only [len, sqrNorm, dot]
        congr 1
        linear_combination (p.vel0 ^ 2) * hp1
      set τ := Real.sqrt (p.vel0 ^ 2 + p.vel1 ^ 2) with hτ
      have hτ0 : 0 ≤ τ := Real.sqrt_nonneg _
      have h0τ : |p.vel0| ≤ τ := by
        rw [← Real.sqrt_sq_eq_abs]
        exact Real.sqrt_le_sqrt (by nlinarith [sq_nonneg p.vel1])
      have hd : len ((⟨-q.s1 * p.vel0, p.vel1, q.c1 * p.vel0⟩ : Vec3 ℝ) - ⟨-p.s1 * p.vel0, p.vel1, p.c1 * p.vel0⟩) ≤ v * τ := by
        have h2 := attT ha ⟨0, 0, p.vel0⟩
        have e2 : (jointFrame (.hooke q)).att.mulVecT ⟨0, 0, p.vel0⟩ - (jointFrame (.hooke p)).att.mulVecT ⟨0, 0, p.vel0⟩ =
            (⟨-q.s1 * p.vel0, p.vel1, q.c1 * p.vel0⟩ : Vec3 ℝ) - ⟨-p.s1 * p.vel0, p.vel1, p.c1 * p.vel0⟩ := by
          simp only [jointFrame, Rz, Ry]; vec_ring
        rw [e2, len_axis] at h2
        exact h2.trans (mul_le_mul_of_nonneg_left h0τ hv)
      refine ⟨⟨len_t.le, len_zero.le⟩, ?_, inc_same hv _⟩
      have hva : VApprox ((1 + v) ^ 1 - 1) (vabs ⟨-q.s1 * p.vel0, p.vel1, q.c1 * p.vel0⟩) ⟨rnd (-q.s1 * p.vel0), p.vel1, rnd (q.c1 * p.vel0)⟩
          ⟨-q.s1 * p.vel0, p.vel1, q.c1 * p.vel0⟩ := by
        refine ⟨ap_rnd hr _, ⟨?_, le_rfl⟩, ap_rnd hr _⟩
        rw [sub_self, abs_zero]
        exact mul_nonneg (pow_nonneg' hv 1) (abs_nonneg _)
      refine inc_add hv hv1 hr (by norm_num) hva ?_ hd hτ0
      rw [len_vabs]
      have e3 : (⟨-q.s1 * p.vel0, p.vel1, q.c1 * p.vel0⟩ : Vec3 ℝ) = ⟨-p.s1 * p.vel0, p.vel1, p.c1 * p.vel0⟩ +
          ((⟨-q.s1 * p.vel0, p.vel1, q.c1 * p.vel0⟩ : Vec3 ℝ) - ⟨-p.s1 * p.vel0, p.vel1, p.c1 * p.vel0⟩) := by vec_ring
      rw [e3]
      refine (len_add _ _).trans ?_
      rw [len_t]
      nlinarith [mul_le_mul_of_nonneg_right hv1 hτ0]
    | _ => exact hs.elim
  | spher p => cases p' with
    | spher q =>
      have hq : q.vel = p.vel := hs
      have e : (Prp.incVel (.spher p) 0 : Vec6 ℝ) = ⟨0, p.att.mulVecT p.vel⟩ := by simp only [Prp.incVel]; vec_ring
      rw [e]
      simp only [incVel, turning, sliding, hq]
      exact ⟨⟨(len_rotT hj _).le, len_zero.le⟩, inc_rot hv hv1 hr hj ha _ _, inc_same hv _⟩
    | _ => exact hs.elim
  | float p => cases p' with
    | float q =>
      have hq : q.vel = p.vel := hs
      have e : (Prp.incVel (.float p) 0 : Vec6 ℝ) = ⟨p.att.mulVecT p.vel.lin, p.att.mulVecT p.vel.ang⟩ := by simp only [Prp.incVel]; vec_ring
      rw [e]
      simp only [incVel, turning, sliding, hq]
      exact ⟨⟨(len_rotT hj _).le, (len_rotT hj _).le⟩, inc_rot hv hv1 hr hj ha _ _, inc_rot hv hv1 hr hj ha _ _⟩
    | _ => exact hs.elim
  | brfloat p => cases p' with
    | brfloat q =>
      have hq : q.vel = p.vel := hs
      have e : (Prp.incVel (.brfloat p) 0 : Vec6 ℝ) = ⟨p.att.mulVecT p.vel.lin, p.att.mulVecT p.vel.ang⟩ := by simp only [Prp.incVel]; vec_ring
      rw [e]
      simp only [incVel, turning, sliding, hq]
      exact ⟨⟨(len_rotT hj _).le, (len_rotT hj _).le⟩, inc_rot hv hv1 hr hj ha _ _, inc_rot hv hv1 hr hj ha _ _⟩
    | _ => exact hs.elim

/-! ## Links -/

/-- The computed and the exact velocity of a link: their errors, and how large the exact one is. -/
structure VInv (u : ℝ) (m : ℕ) (W L : ℝ) (x' x : Vec6 ℝ) : Prop where
  ang : len x.ang ≤ W
  lin : len x.lin ≤ L
  angErr : len (x'.ang - x.ang) ≤ ((1 + u) ^ m - 1) * W
  linErr : len (x'.lin - x.lin) ≤ ((1 + u) ^ m - 1) * L

/-- The links of the exact and of the rounded chain after forward kinematics. -/
structure Placed (v : ℝ) (rnd : ℝ → ℝ) (l l' : Link ℝ) : Prop where
  near : NearLink v l l'
  rates : SameRates l.joint.prp l'.joint.prp
  rot : l.org.att.IsRot
  wf : l.joint.prp.WF
  adj : l.adj = linkFrame l
  adj' : l'.adj = jointXform rnd l'.joint.prp l'.org

theorem sum_error {u E X τ : ℝ} (hu : 0 ≤ u) (hE : 1 ≤ E) (hX : 0 ≤ X) (hτ : 0 ≤ τ) {y' y x' x t : Vec3 ℝ} (h : len (x' - x) ≤ (E - 1) * X) (hx : len x ≤ X)
    (ht : len t ≤ τ) (hy : y = x + t) (hy' : len (y' - (x' + t)) ≤ u * (len x' + τ)) : len y ≤ X + τ ∧ len (y' - y) ≤ (E * (1 + u) - 1) * (X + τ) := by
  subst hy
  refine ⟨(len_add _ _).trans (add_le_add hx ht), ?_⟩
  have lx' : len x' ≤ E * X := by
    have : x' = x + (x' - x) := by vec_ring
    rw [this]; exact (len_add _ _).trans (by linarith)
  have e1 := len_via y' (x' + t) (x + t)
  have e2 : (x' + t) - (x + t) = x' - x := by vec_ring
  rw [e2] at e1
  have e3 := mul_le_mul_of_nonneg_left (add_le_add lx' (le_refl τ)) hu
  have key : u * (E * X + τ) + (E - 1) * X ≤ (E * (1 + u) - 1) * (X + τ) := by nlinarith [mul_nonneg (mul_nonneg (sub_nonneg.2 hE) hu) hτ, mul_nonneg (sub_nonneg.2 hE) hτ]
  linarith

theorem vel_step (hv : 0 ≤ v) (hv1 : v ≤ 1 / 100) (hr : RelError rnd v) {m : ℕ} {W L : ℝ} {x' x : Vec6 ℝ} (h : VInv (13 * v) m W L x' x) {l l' : Link ℝ}
    (hl : Placed v rnd l l') : VInv (13 * v) (m + 5) (W + turning l.joint.prp) (L + (W * extent l + sliding l.joint.prp))
      (updateVel1 rnd l' x').body.vel (l.updateVel1 x).body.vel := by
  obtain ⟨hn, hs, ho, hw, ea, ea'⟩ := hl
  have hu : 0 ≤ 13 * v := by linarith
  have hj := isRot_jointFrame hw
  obtain ⟨ja, jp⟩ := joint_error hv hv1 hr ho hj hn
  rw [← ea, ← ea'] at ja jp
  have lrot : l.adj.att.IsRot := by rw [ea]; exact ho.mul hj
  have lx : len l.adj.pos ≤ extent l := by rw [ea]; exact linkFrame_pos ho
  obtain ⟨h1, h2, h3, h4⟩ := h
  set G := (1 + 13 * v) ^ m with hG
  have hG1 : 1 ≤ G := one_le_pow₀ (by linarith)
  have hW : 0 ≤ W := (len_nonneg _).trans h1
  have hL : 0 ≤ L := (len_nonneg _).trans h2
  have hs0 : 0 ≤ extent l := (len_nonneg _).trans lx
  obtain ⟨s1, s2⟩ := sweep_error hv hv1 hr hG1 h2 h4 h1 h3 lx jp
  have p2 : 1 ≤ (1 + 13 * v) ^ 2 := one_le_pow₀ (by linarith)
  have hG2 : 1 ≤ G * (1 + 13 * v) ^ 2 := by nlinarith
  have t1 := turn_error hv hv1 hr lrot ja hG1 h1 h3
  have t2 := turn_error hv hv1 hr lrot ja hG2 s1 s2
  obtain ⟨⟨i1, i2⟩, i3, i4⟩ := inc_error hv hv1 hr hw hn.joint hs (xform6Lin rnd l'.adj x')
  have hvel : (l.updateVel1 x).body.vel = l.adj.xform6Lin x + l.joint.prp.incVel 0 := by
    show l.joint.prp.incVel _ = _
    rw [incVel_twist]; rfl
  have hang : (l.updateVel1 x).body.vel.ang = l.adj.att.mulVecT x.ang + (l.joint.prp.incVel 0).ang := by rw [hvel]; rfl
  have hlin : (l.updateVel1 x).body.vel.lin = l.adj.att.mulVecT (x.lin + cross x.ang l.adj.pos) + (l.joint.prp.incVel 0).lin := by rw [hvel]; rfl
  have τ0 : 0 ≤ turning l.joint.prp := (len_nonneg _).trans i1
  have σ0 : 0 ≤ sliding l.joint.prp := (len_nonneg _).trans i2
  have r1 := sum_error hu hG2 hW τ0 t1 (by rw [len_rotT lrot]; exact h1) i1 hang i3
  have hG4 : 1 ≤ G * (1 + 13 * v) ^ 2 * (1 + 13 * v) ^ 2 := by nlinarith
  have r2 := sum_error hu hG4 (add_nonneg hL (mul_nonneg hW hs0)) σ0 t2 (by rw [len_rotT lrot]; exact s1) i2 hlin i4
  have e5 : (1 + 13 * v) ^ (m + 5) = G * (1 + 13 * v) ^ 2 * (1 + 13 * v) ^ 2 * (1 + 13 * v) := by rw [hG]; ring
  refine ⟨r1.1, by rw [← add_assoc]; exact r2.1, ?_, by rw [← add_assoc, e5]; exact r2.2⟩
  refine r1.2.trans (mul_le_mul_of_nonneg_right ?_ (add_nonneg hW τ0))
  rw [e5]
  have : G * (1 + 13 * v) ^ 2 * (1 + 13 * v) ≤ G * (1 + 13 * v) ^ 2 * (1 + 13 * v) ^ 2 * (1 + 13 * v) := by
    have q : 0 ≤ G * (1 + 13 * v) ^ 2 * (1 + 13 * v) := by positivity
    nlinarith
  linarith

end Roki.Rounded
