import Verif.Model.Rounded
import Verif.Spec.Rounding
import Verif.Props.Reach
set_option autoImplicit false

/-! # Rounding errors of forward kinematics -/

namespace Roki.Rounded
open Spec

/-! ## Numbers -/

/-- `a'` approximates `a`, whose modulus is at most `A`, up to `e * A`. -/
def Approx (e A a' a : ℝ) : Prop := |a' - a| ≤ e * A ∧ |a| ≤ A

variable {rnd : ℝ → ℝ} {v : ℝ}

theorem pow_mono {v : ℝ} (hv : 0 ≤ v) {j n : ℕ} (h : j ≤ n) : (1 + v) ^ j ≤ (1 + v) ^ n := pow_le_pow_right₀ (by linarith) h

theorem ap_exact (a : ℝ) : Approx ((1 + v) ^ 0 - 1) |a| a a := by simp [Approx]

theorem ap_rnd (hr : RelError rnd v) (a : ℝ) : Approx ((1 + v) ^ 1 - 1) |a| (rnd a) a := ⟨by simpa using hr a, le_rfl⟩

theorem ap_add (hv : 0 ≤ v) (hr : RelError rnd v) {j k n : ℕ} {A B a' a b' b : ℝ} (h1 : Approx ((1 + v) ^ j - 1) A a' a)
    (h2 : Approx ((1 + v) ^ k - 1) B b' b) (hj : j ≤ n) (hk : k ≤ n) : Approx ((1 + v) ^ (n + 1) - 1) (A + B) (rnd (a' + b')) (a + b) := by
  obtain ⟨h1, h1'⟩ := h1
  obtain ⟨h2, h2'⟩ := h2
  have hA : 0 ≤ A := (abs_nonneg _).trans h1'
  have hB : 0 ≤ B := (abs_nonneg _).trans h2'
  have pj := pow_mono hv hj
  have pk := pow_mono hv hk
  have e1 : |a' - a| ≤ ((1 + v) ^ n - 1) * A := h1.trans (mul_le_mul_of_nonneg_right (by linarith) hA)
  have e2 : |b' - b| ≤ ((1 + v) ^ n - 1) * B := h2.trans (mul_le_mul_of_nonneg_right (by linarith) hB)
  have e3 : |(a' + b') - (a + b)| ≤ ((1 + v) ^ n - 1) * (A + B) := by
    have : (a' + b') - (a + b) = (a' - a) + (b' - b) := by ring
    rw [this]; exact (abs_add_le _ _).trans (by linarith)
  have e4 : |a + b| ≤ A + B := (abs_add_le _ _).trans (by linarith)
  have e5 : |a' + b'| ≤ (1 + v) ^ n * (A + B) := by
    have : a' + b' = ((a' + b') - (a + b)) + (a + b) := by ring
    rw [this]; exact (abs_add_le _ _).trans (by linarith)
  refine ⟨?_, e4⟩
  have : rnd (a' + b') - (a + b) = (rnd (a' + b') - (a' + b')) + ((a' + b') - (a + b)) := by ring
  rw [this]
  refine (abs_add_le _ _).trans ?_
  have := (hr (a' + b')).trans (mul_le_mul_of_nonneg_left e5 hv)
  rw [pow_succ]; linarith

/-! ## Vectors -/

/-- Componentwise. -/
def VApprox (e : ℝ) (M w' w : Vec3 ℝ) : Prop := Approx e M.x w'.x w.x ∧ Approx e M.y w'.y w.y ∧ Approx e M.z w'.z w.z

/-- The vector of the moduli. -/
def vabs (w : Vec3 ℝ) : Vec3 ℝ := ⟨|w.x|, |w.y|, |w.z|⟩

theorem len_vabs (w : Vec3 ℝ) : len (vabs w) = len w := by
  simp only [len, sqrNorm, dot, vabs, abs_mul_abs_self]

theorem len_smul (k : ℝ) (w : Vec3 ℝ) : len (k • w) = |k| * len w := by
  have : sqrNorm (k • w) = k ^ 2 * sqrNorm w := by simp only [sqrNorm, dot, Vec3.smul_x, Vec3.smul_y, Vec3.smul_z]; ring
  rw [len, len, this, Real.sqrt_mul (sq_nonneg k), Real.sqrt_sq_eq_abs]

theorem len_mono {w M : Vec3 ℝ} (hx : |w.x| ≤ M.x) (hy : |w.y| ≤ M.y) (hz : |w.z| ≤ M.z) : len w ≤ len M := by
  refine Real.sqrt_le_sqrt ?_
  simp only [sqrNorm, dot]
  have h := fun (a b : ℝ) (h : |a| ≤ b) => show a * a ≤ b * b by
    rw [← abs_mul_abs_self a]; exact mul_self_le_mul_self (abs_nonneg a) h
  linarith [h _ _ hx, h _ _ hy, h _ _ hz]

theorem va_len {e : ℝ} (he : 0 ≤ e) {M w' w : Vec3 ℝ} (h : VApprox e M w' w) : len (w' - w) ≤ e * len M := by
  rw [← abs_of_nonneg he, ← len_smul]
  refine len_mono ?_ ?_ ?_
  · exact h.1.1
  · exact h.2.1.1
  · exact h.2.2.1

theorem va_exact (w : Vec3 ℝ) : VApprox ((1 + v) ^ 0 - 1) (vabs w) w w := ⟨ap_exact _, ap_exact _, ap_exact _⟩

theorem va_smul (hr : RelError rnd v) (k : ℝ) (w : Vec3 ℝ) : VApprox ((1 + v) ^ 1 - 1) (|k| • vabs w) (smul rnd k w) (k • w) := by
  refine ⟨?_, ?_, ?_⟩
  · have := ap_rnd hr (k * w.x); rwa [abs_mul] at this
  · have := ap_rnd hr (k * w.y); rwa [abs_mul] at this
  · have := ap_rnd hr (k * w.z); rwa [abs_mul] at this

theorem va_add (hv : 0 ≤ v) (hr : RelError rnd v) {j k n : ℕ} {A B a' a b' b : Vec3 ℝ} (h1 : VApprox ((1 + v) ^ j - 1) A a' a)
    (h2 : VApprox ((1 + v) ^ k - 1) B b' b) (hj : j ≤ n) (hk : k ≤ n) : VApprox ((1 + v) ^ (n + 1) - 1) (A + B) (add rnd a' b') (a + b) :=
  ⟨ap_add hv hr h1.1 h2.1 hj hk, ap_add hv hr h1.2.1 h2.2.1 hj hk, ap_add hv hr h1.2.2 h2.2.2 hj hk⟩

/-! ## Matrices -/

/-- The matrix lengthens vectors by a factor of at most `a`. -/
def Bound (A : Mat3 ℝ) (a : ℝ) : Prop := ∀ p, len (A.mulVec p) ≤ a * len p

theorem bound_rot {A : Mat3 ℝ} (h : A.IsRot) : Bound A 1 := fun p => by rw [len_rot h, one_mul]

/-- The magnitude of the terms of a product. -/
def mag (A : Mat3 ℝ) (p : Vec3 ℝ) : Vec3 ℝ := |p.x| • vabs A.cx + |p.y| • vabs A.cy + |p.z| • vabs A.cz

theorem col_len {A : Mat3 ℝ} {a : ℝ} (h : Bound A a) : len A.cx ≤ a ∧ len A.cy ≤ a ∧ len A.cz ≤ a := by
  have e : ∀ w : Vec3 ℝ, sqrNorm w = 1 → len w = 1 := fun w hw => by rw [len, hw, Real.sqrt_one]
  refine ⟨?_, ?_, ?_⟩
  · have := h ⟨1, 0, 0⟩
    rw [e ⟨1, 0, 0⟩ (by simp [sqrNorm, dot]), mul_one] at this
    convert this using 2; vec_ring
  · have := h ⟨0, 1, 0⟩
    rw [e ⟨0, 1, 0⟩ (by simp [sqrNorm, dot]), mul_one] at this
    convert this using 2; vec_ring
  · have := h ⟨0, 0, 1⟩
    rw [e ⟨0, 0, 1⟩ (by simp [sqrNorm, dot]), mul_one] at this
    convert this using 2; vec_ring

theorem sum_abs_le (p : Vec3 ℝ) : |p.x| + |p.y| + |p.z| ≤ Real.sqrt 3 * len p := by
  rw [len, ← Real.sqrt_mul (by norm_num)]
  refine Real.le_sqrt_of_sq_le ?_
  simp only [sqrNorm, dot]
  have hx := abs_mul_abs_self p.x; have hy := abs_mul_abs_self p.y; have hz := abs_mul_abs_self p.z
  nlinarith [sq_nonneg (|p.x| - |p.y|), sq_nonneg (|p.y| - |p.z|), sq_nonneg (|p.x| - |p.z|)]

theorem len_mag {A : Mat3 ℝ} {a : ℝ} (h : Bound A a) (p : Vec3 ℝ) : len (mag A p) ≤ Real.sqrt 3 * (a * len p) := by
  obtain ⟨h1, h2, h3⟩ := col_len h
  have ha : 0 ≤ a := (len_nonneg _).trans h1
  refine (len_add _ _).trans ((add_le_add (len_add _ _) le_rfl).trans ?_)
  simp only [len_smul, abs_abs, len_vabs]
  have := mul_le_mul_of_nonneg_left (sum_abs_le p) ha
  nlinarith [mul_le_mul_of_nonneg_left h1 (abs_nonneg p.x), mul_le_mul_of_nonneg_left h2 (abs_nonneg p.y), mul_le_mul_of_nonneg_left h3 (abs_nonneg p.z)]

/-- Errors of the columns give an error of the matrix. -/
theorem att_cols {A B : Mat3 ℝ} {e : ℝ} (h1 : len (A.cx - B.cx) ≤ e) (h2 : len (A.cy - B.cy) ≤ e) (h3 : len (A.cz - B.cz) ≤ e) :
    AttError A B (Real.sqrt 3 * e) := by
  intro p
  have he : 0 ≤ e := (len_nonneg _).trans h1
  have : A.mulVec p - B.mulVec p = p.x • (A.cx - B.cx) + p.y • (A.cy - B.cy) + p.z • (A.cz - B.cz) := by vec_ring
  rw [this]
  refine (len_add _ _).trans ((add_le_add (len_add _ _) le_rfl).trans ?_)
  simp only [len_smul]
  have := mul_le_mul_of_nonneg_left (sum_abs_le p) he
  nlinarith [mul_le_mul_of_nonneg_left h1 (abs_nonneg p.x), mul_le_mul_of_nonneg_left h2 (abs_nonneg p.y), mul_le_mul_of_nonneg_left h3 (abs_nonneg p.z)]

theorem va_mulVec (hv : 0 ≤ v) (hr : RelError rnd v) (A : Mat3 ℝ) (p : Vec3 ℝ) :
    VApprox ((1 + v) ^ 3 - 1) (mag A p) (mulVec rnd A p) (A.mulVec p) :=
  va_add hv hr (va_add hv hr (va_smul hr p.x A.cx) (va_smul hr p.y A.cy) le_rfl le_rfl) (va_smul hr p.z A.cz) le_rfl (by norm_num)

theorem pow_nonneg' (hv : 0 ≤ v) (n : ℕ) : 0 ≤ (1 + v) ^ n - 1 := by linarith [one_le_pow₀ (n := n) (show 1 ≤ 1 + v by linarith)]

theorem sqrt3_nonneg : 0 ≤ Real.sqrt 3 := Real.sqrt_nonneg _
theorem sqrt3_mul : Real.sqrt 3 * Real.sqrt 3 = 3 := Real.mul_self_sqrt (by norm_num)
theorem sqrt3_le : Real.sqrt 3 ≤ 2 := by rw [Real.sqrt_le_left (by norm_num)]; norm_num

/-- A rounded product of matrices. -/
theorem mul_error (hv : 0 ≤ v) (hr : RelError rnd v) {A B : Mat3 ℝ} {a b : ℝ} (hA : Bound A a) (hB : Bound B b) :
    AttError (mul rnd A B) (A.mul B) (3 * ((1 + v) ^ 3 - 1) * (a * b)) := by
  obtain ⟨b1, b2, b3⟩ := col_len hB
  have ha : 0 ≤ a := (len_nonneg _).trans (col_len hA).1
  have hp := pow_nonneg' hv 3
  have one : ∀ w, len w ≤ b → len (mulVec rnd A w - A.mulVec w) ≤ Real.sqrt 3 * (((1 + v) ^ 3 - 1) * (a * b)) := by
    intro w hw
    refine (va_len hp (va_mulVec hv hr A w)).trans ?_
    have h1 := mul_le_mul_of_nonneg_left (len_mag hA w) hp
    have h2 : a * len w ≤ a * b := mul_le_mul_of_nonneg_left hw ha
    have h3 := mul_le_mul_of_nonneg_left (mul_le_mul_of_nonneg_left h2 sqrt3_nonneg) hp
    linarith
  have := att_cols (A := mul rnd A B) (B := A.mul B) (one _ b1) (one _ b2) (one _ b3)
  rw [← mul_assoc, sqrt3_mul, ← mul_assoc] at this
  exact this

/-- A rounded transformation of a point. -/
theorem xform_error (hv : 0 ≤ v) (hr : RelError rnd v) {F : Frame ℝ} {a : ℝ} (hA : Bound F.att a) (p : Vec3 ℝ) :
    len (xform rnd F p - F.xform p) ≤ 2 * ((1 + v) ^ 4 - 1) * (a * len p + len F.pos) := by
  have ha : 0 ≤ a := (len_nonneg _).trans (col_len hA).1
  have hp := pow_nonneg' hv 4
  have h := va_len hp (va_add hv hr (va_mulVec hv hr F.att p) (va_exact F.pos) (n := 3) le_rfl (by norm_num))
  refine h.trans ?_
  have h1 := len_add (mag F.att p) (vabs F.pos)
  rw [len_vabs] at h1
  have h2 := len_mag hA p
  have h3 : 0 ≤ a * len p := mul_nonneg ha (len_nonneg _)
  have h4 := mul_le_mul_of_nonneg_right sqrt3_le h3
  have h5 := len_nonneg F.pos
  have := mul_le_mul_of_nonneg_left (show len (mag F.att p + vabs F.pos) ≤ 2 * (a * len p + len F.pos) by linarith) hp
  linarith

/-! ## Joints -/

theorem _root_.Roki.Spec.AttError.bound {A B : Mat3 ℝ} {e b : ℝ} (h : AttError A B e) (hB : Bound B b) : Bound A (b + e) := by
  intro p
  have : A.mulVec p = B.mulVec p + (A.mulVec p - B.mulVec p) := by vec_ring
  rw [this, add_mul]
  exact (len_add _ _).trans (add_le_add (hB p) (h p))

theorem _root_.Roki.Spec.AttError.trans {A B C : Mat3 ℝ} {e f : ℝ} (h : AttError A B e) (h' : AttError B C f) : AttError A C (e + f) := by
  intro p
  have : A.mulVec p - C.mulVec p = (A.mulVec p - B.mulVec p) + (B.mulVec p - C.mulVec p) := by vec_ring
  rw [this, add_mul]
  exact (len_add _ _).trans (add_le_add (h p) (h' p))

theorem _root_.Roki.Spec.AttError.mono {A B : Mat3 ℝ} {e f : ℝ} (h : AttError A B e) (hf : e ≤ f) : AttError A B f :=
  fun p => (h p).trans (mul_le_mul_of_nonneg_right hf (len_nonneg p))

theorem _root_.Roki.Spec.AttError.refl (A : Mat3 ℝ) : AttError A A 0 := fun p => by rw [sub_self, len_zero, zero_mul]

theorem mul_mulVec' (A B : Mat3 ℝ) (p : Vec3 ℝ) : (A.mul B).mulVec p = A.mulVec (B.mulVec p) := by vec_ring

/-- A rotation in front does not change the error. -/
theorem _root_.Roki.Spec.AttError.rot {A B R : Mat3 ℝ} {e : ℝ} (hR : R.IsRot) (h : AttError A B e) : AttError (R.mul A) (R.mul B) e := by
  intro p
  rw [mul_mulVec', mul_mulVec', ← Mat3.mulVec_sub, len_rot hR]
  exact h p

theorem vabs_zero_smul (w : Vec3 ℝ) : (|(0 : ℝ)|) • vabs w = 0 := by rw [abs_zero, zero_smul]

theorem rotZ_error (hv : 0 ≤ v) (hr : RelError rnd v) {s c b : ℝ} {A : Mat3 ℝ} (hA : A.IsRot) (hB : Bound (Rz s c) b) :
    AttError (rotZ rnd s c A) (A.mul (Rz s c)) (3 * ((1 + v) ^ 3 - 1) * b) := by
  have hb := bound_rot hA
  obtain ⟨b1, b2, b3⟩ := col_len hB
  have hp := pow_nonneg' hv 2
  have hq := pow_nonneg' hv 3
  have hpq : (1 + v) ^ 2 ≤ (1 + v) ^ 3 := pow_mono hv (by norm_num)
  have one : ∀ (x y : ℝ) (k l : Vec3 ℝ), k = smul rnd x A.cx → l = smul rnd y A.cy → len ⟨x, y, 0⟩ ≤ b →
      len (add rnd k l - A.mulVec ⟨x, y, 0⟩) ≤ Real.sqrt 3 * (((1 + v) ^ 3 - 1) * b) := by
    rintro x y _ _ rfl rfl hw
    have h := va_len hp (va_add hv hr (va_smul hr x A.cx) (va_smul hr y A.cy) (n := 1) le_rfl le_rfl)
    have e1 : x • A.cx + y • A.cy = A.mulVec ⟨x, y, 0⟩ := by vec_ring
    have e2 : |x| • vabs A.cx + |y| • vabs A.cy = mag A ⟨x, y, 0⟩ := by
      simp only [mag, vabs_zero_smul, add_zero]
    rw [e1, e2] at h
    refine h.trans ?_
    have h1 := len_mag hb ⟨x, y, 0⟩
    rw [one_mul] at h1
    have h2 := mul_le_mul_of_nonneg_left hw sqrt3_nonneg
    have h3 := mul_le_mul (show (1 + v) ^ 2 - 1 ≤ (1 + v) ^ 3 - 1 by linarith) (h1.trans h2) (len_nonneg _) hq
    linarith
  have hb0 : 0 ≤ b := (len_nonneg _).trans b1
  have := att_cols (A := rotZ rnd s c A) (B := A.mul (Rz s c)) (e := Real.sqrt 3 * (((1 + v) ^ 3 - 1) * b)) (one c s _ _ rfl rfl b1)
    (one (-s) c _ _ rfl rfl b2) (by
      have : (rotZ rnd s c A).cz - (A.mul (Rz s c)).cz = 0 := by simp only [rotZ, Rz]; vec_ring
      rw [this, len_zero]
      exact mul_nonneg sqrt3_nonneg (mul_nonneg hq hb0))
  rw [← mul_assoc, sqrt3_mul, ← mul_assoc] at this
  exact this

theorem zyMat_error (hv : 0 ≤ v) (hr : RelError rnd v) {s0 c0 s1 c1 b : ℝ} (hB : Bound ((Rz s0 c0).mul (Ry s1 c1)) b) :
    AttError (zyMat rnd s0 c0 s1 c1) ((Rz s0 c0).mul (Ry s1 c1)) (2 * (v * b)) := by
  have e : (Rz s0 c0).mul (Ry s1 c1) = Prp.zyMat s0 c0 s1 c1 := by simp only [Rz, Ry, Prp.zyMat]; vec_ring
  rw [e] at hB ⊢
  obtain ⟨b1, b2, b3⟩ := col_len hB
  have hx : ∀ a : ℝ, Approx v |a| a a := fun a => ⟨by rw [sub_self, abs_zero]; exact mul_nonneg hv (abs_nonneg a), le_rfl⟩
  have hy : ∀ a : ℝ, Approx v |a| (rnd a) a := fun a => ⟨hr a, le_rfl⟩
  have one : ∀ w' w : Vec3 ℝ, VApprox v (vabs w) w' w → len w ≤ b → len (w' - w) ≤ v * b := by
    intro w' w h hw
    have := va_len hv h
    rw [len_vabs] at this
    exact this.trans (mul_le_mul_of_nonneg_left hw hv)
  have := att_cols (A := zyMat rnd s0 c0 s1 c1) (B := Prp.zyMat s0 c0 s1 c1) (e := v * b) (one _ _ ⟨hy _, hy _, hx _⟩ b1)
    (one _ _ ⟨hx _, hx _, hx _⟩ b2) (one _ _ ⟨hy _, hy _, hx _⟩ b3)
  refine this.mono ?_
  exact mul_le_mul_of_nonneg_right sqrt3_le (mul_nonneg hv ((len_nonneg _).trans b1))

theorem cat_error (hv : 0 ≤ v) (hr : RelError rnd v) {A : Mat3 ℝ} (hA : A.IsRot) (a : Vec3 ℝ) (k : ℝ) :
    len (cat rnd a k A.cz - (a + A.mulVec ⟨0, 0, k⟩)) ≤ ((1 + v) ^ 2 - 1) * (len a + len ⟨0, 0, k⟩) := by
  have hp := pow_nonneg' hv 2
  have h := va_len hp (va_add hv hr (va_exact a) (va_smul hr k A.cz) (n := 1) (by norm_num) le_rfl)
  have e : a + k • A.cz = a + A.mulVec ⟨0, 0, k⟩ := by vec_ring
  rw [e] at h
  refine h.trans (mul_le_mul_of_nonneg_left ?_ hp)
  refine (len_add _ _).trans ?_
  rw [len_vabs, len_smul, abs_abs, len_vabs, len_axis]
  have := mul_le_mul_of_nonneg_left (col_len (bound_rot hA)).2.2 (abs_nonneg k)
  linarith

/-- The rounded `rkJointXform` of a joint with stored values that are rounded. -/
theorem joint_error (hv : 0 ≤ v) (hv1 : v ≤ 1 / 100) (hr : RelError rnd v) {l l' : Link ℝ} (ho : l.org.att.IsRot)
    (hj : (jointFrame l.joint.prp).att.IsRot) (hn : NearLink v l l') :
    AttError (jointXform rnd l'.joint.prp l'.org).att (linkFrame l).att (13 * v) ∧
      len ((jointXform rnd l'.joint.prp l'.org).pos - (linkFrame l).pos) ≤ 13 * v * extent l := by
  obtain ⟨h1, -, h2, h3⟩ := hn
  rw [h1]
  have hb : Bound (jointFrame l'.joint.prp).att (1 + v) := h2.bound (bound_rot hj)
  have hbo := bound_rot ho
  have g3 : (1 + v) ^ 3 - 1 ≤ 31 / 10 * v := by nlinarith [mul_nonneg hv hv, mul_nonneg hv (mul_nonneg hv hv)]
  have g4 : (1 + v) ^ 4 - 1 ≤ 41 / 10 * v := by
    have : (1 + v) ^ 4 - 1 = v * (4 + 6 * v + 4 * (v * v) + v * (v * v)) := by ring
    rw [this]
    nlinarith [mul_nonneg hv hv, mul_nonneg hv (mul_nonneg hv hv), mul_le_mul_of_nonneg_left hv1 hv]
  have g2 : (1 + v) ^ 2 - 1 ≤ 21 / 10 * v := by nlinarith
  have p3 := pow_nonneg' hv 3
  have near : AttError (l.org.att.mul (jointFrame l'.joint.prp).att) (linkFrame l).att v := h2.rot ho
  have npos : len ((l.org.pos + l.org.att.mulVec (jointFrame l'.joint.prp).pos) - (linkFrame l).pos) ≤ v * len (jointFrame l.joint.prp).pos := by
    have : (l.org.pos + l.org.att.mulVec (jointFrame l'.joint.prp).pos) - (linkFrame l).pos =
        l.org.att.mulVec ((jointFrame l'.joint.prp).pos - (jointFrame l.joint.prp).pos) := by
      simp only [linkFrame, Frame.cascade]; vec_ring
    rw [this, len_rot ho]
    exact h3
  have tpos : len (jointFrame l'.joint.prp).pos ≤ (1 + v) * len (jointFrame l.joint.prp).pos := by
    have : (jointFrame l'.joint.prp).pos = (jointFrame l.joint.prp).pos + ((jointFrame l'.joint.prp).pos - (jointFrame l.joint.prp).pos) := by vec_ring
    rw [this, add_mul, one_mul]
    exact (len_add _ _).trans (add_le_add le_rfl h3)
  have k3 : 3 * ((1 + v) ^ 3 - 1) * (1 + v) ≤ 10 * v := by nlinarith
  -- attitude
  have hatt : AttError (jointXform rnd l'.joint.prp l.org).att (l.org.att.mul (jointFrame l'.joint.prp).att) (12 * v) := by
    have triv : ∀ A : Mat3 ℝ, A = l.org.att.mul (jointFrame l'.joint.prp).att → AttError A (l.org.att.mul (jointFrame l'.joint.prp).att) (12 * v) := by
      rintro A rfl
      exact (AttError.refl _).mono (by linarith)
    have whole : AttError (mul rnd l.org.att (jointFrame l'.joint.prp).att) (l.org.att.mul (jointFrame l'.joint.prp).att) (12 * v) := by
      refine (mul_error hv hr hbo hb).mono ?_
      rw [one_mul]; linarith
    revert hb triv whole
    cases l'.joint.prp with
    | fixed => intro _ triv _; exact triv _ (by simp only [jointXform, jointFrame]; vec_ring)
    | prism d => intro _ triv _; exact triv _ (by simp only [jointXform, jointFrame]; vec_ring)
    | revol d => intro hb _ _; exact (rotZ_error hv hr ho hb).mono (by linarith)
    | cylin d => intro hb _ _; exact (rotZ_error hv hr ho hb).mono (by linarith)
    | spher d => intro _ _ whole; exact whole
    | float d => intro _ _ whole; exact whole
    | brfloat d => intro _ _ whole; exact whole
    | hooke d =>
      intro hb _ _
      have hz := zyMat_error hv hr hb
      have hm := mul_error hv hr hbo (hz.bound hb)
      refine (hm.trans (hz.rot ho)).mono ?_
      nlinarith [mul_nonneg hv hv, mul_nonneg p3 hv, mul_le_mul_of_nonneg_left hv1 hv]
  have hpos : len ((jointXform rnd l'.joint.prp l.org).pos - (l.org.pos + l.org.att.mulVec (jointFrame l'.joint.prp).pos)) ≤
      82 / 10 * v * (len l.org.pos + len (jointFrame l'.joint.prp).pos) := by
    have n1 := len_nonneg l.org.pos
    have triv : ∀ x : Vec3 ℝ, x = l.org.pos + l.org.att.mulVec (jointFrame l'.joint.prp).pos →
        len (x - (l.org.pos + l.org.att.mulVec (jointFrame l'.joint.prp).pos)) ≤ 82 / 10 * v * (len l.org.pos + len (jointFrame l'.joint.prp).pos) := by
      rintro x rfl
      rw [sub_self, len_zero]
      exact mul_nonneg (by linarith) (add_nonneg n1 (len_nonneg _))
    have slide : ∀ k : ℝ, len (cat rnd l.org.pos k l.org.att.cz - (l.org.pos + l.org.att.mulVec ⟨0, 0, k⟩)) ≤
        82 / 10 * v * (len l.org.pos + len ⟨0, 0, k⟩) := fun k =>
      (cat_error hv hr ho _ k).trans (mul_le_mul_of_nonneg_right (by linarith) (add_nonneg n1 (len_nonneg _)))
    have move : ∀ x : Vec3 ℝ, len (xform rnd l.org x - (l.org.pos + l.org.att.mulVec x)) ≤ 82 / 10 * v * (len l.org.pos + len x) := by
      intro x
      have h := xform_error hv hr hbo x
      rw [one_mul, add_comm (len x), Frame.xform, add_comm (l.org.att.mulVec x)] at h
      exact h.trans (mul_le_mul_of_nonneg_right (by linarith) (add_nonneg n1 (len_nonneg _)))
    revert triv
    cases l'.joint.prp with
    | fixed => intro triv; exact triv _ (by simp only [jointXform, jointFrame]; vec_ring)
    | prism d => intro _; exact slide _
    | revol d => intro triv; exact triv _ (by simp only [jointXform, jointFrame]; vec_ring)
    | cylin d => intro _; exact slide _
    | spher d => intro triv; exact triv _ (by simp only [jointXform, jointFrame]; vec_ring)
    | float d => intro _; exact move _
    | brfloat d => intro _; exact move _
    | hooke d => intro triv; exact triv _ (by simp only [jointXform, jointFrame]; vec_ring)
  refine ⟨(hatt.trans near).mono (by linarith), ?_⟩
  have : (jointXform rnd l'.joint.prp l.org).pos - (linkFrame l).pos =
      ((jointXform rnd l'.joint.prp l.org).pos - (l.org.pos + l.org.att.mulVec (jointFrame l'.joint.prp).pos)) +
      ((l.org.pos + l.org.att.mulVec (jointFrame l'.joint.prp).pos) - (linkFrame l).pos) := by vec_ring
  rw [this]
  refine (len_add _ _).trans ((add_le_add hpos npos).trans ?_)
  have n1 := len_nonneg l.org.pos
  have n2 := len_nonneg (jointFrame l.joint.prp).pos
  rw [extent]
  have t1 := mul_le_mul_of_nonneg_left tpos (show 0 ≤ 82 / 10 * v by linarith)
  have t2 : (1 + v) * len (jointFrame l.joint.prp).pos ≤ 101 / 100 * len (jointFrame l.joint.prp).pos := mul_le_mul_of_nonneg_right (by linarith) n2
  have t3 := mul_le_mul_of_nonneg_left t2 (show 0 ≤ 82 / 10 * v by linarith)
  nlinarith [mul_nonneg hv n1, mul_nonneg hv n2]

end Roki.Rounded
