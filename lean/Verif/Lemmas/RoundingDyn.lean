import Verif.Spec.RoundingDyn
import Verif.Lemmas.VirtualWork3
import Mathlib.Tactic.Linarith
import Mathlib.Tactic.Positivity
set_option autoImplicit false

/-! # Rounding errors of inverse dynamics -/

namespace Roki.Arith
open Spec

/-- `x'` differs from `x` by rounding errors of depth `k`, measured against `X`. -/
def Err (v : ℝ) (k : ℕ) (x' x X : ℝ) : Prop := |x| ≤ X ∧ |x' - x| ≤ ((1 + v) ^ k - 1) * X

variable {v : ℝ} {rnd : ℝ → ℝ}

theorem one_le_pow (hv : 0 ≤ v) (k : ℕ) : 1 ≤ (1 + v) ^ k := one_le_pow₀ (by linarith)

theorem Err.nonneg {k : ℕ} {x' x X : ℝ} (h : Err v k x' x X) : 0 ≤ X := (abs_nonneg x).trans h.1

theorem Err.mono (hv : 0 ≤ v) {a k : ℕ} {x' x X : ℝ} (h : Err v a x' x X) (hk : a ≤ k) : Err v k x' x X := by
  refine ⟨h.1, h.2.trans ?_⟩
  have : (1 + v) ^ a ≤ (1 + v) ^ k := pow_le_pow_right₀ (by linarith) hk
  exact mul_le_mul_of_nonneg_right (by linarith) h.nonneg

theorem Err.self (hv : 0 ≤ v) (k : ℕ) (x : ℝ) : Err v k x x |x| := by
  refine ⟨le_rfl, ?_⟩
  rw [sub_self, abs_zero]
  exact mul_nonneg (by linarith [one_le_pow hv k]) (abs_nonneg x)

theorem Err.zero (k : ℕ) : Err v k 0 0 0 := by constructor <;> simp

theorem Err.const (hv : 0 ≤ v) (k : ℕ) {x : ℝ} (hx : 0 ≤ x) : Err v k x x x := by
  simpa [abs_of_nonneg hx] using Err.self hv k x

theorem Err.neg {k : ℕ} {x' x X : ℝ} (h : Err v k x' x X) : Err v k (-x') (-x) X := by
  refine ⟨by rw [abs_neg]; exact h.1, ?_⟩
  rw [neg_sub_neg, abs_sub_comm]; exact h.2

theorem Err.size {k : ℕ} {x' x X : ℝ} (h : Err v k x' x X) : |x'| ≤ (1 + v) ^ k * X := by
  have : |x'| ≤ |x' - x| + |x| := by simpa using abs_add_le (x' - x) x
  nlinarith [h.1, h.2]

/-- One rounding. -/
theorem Err.rounding (hr : RelError rnd v) (hv : 0 ≤ v) {k n : ℕ} {x' x X : ℝ} (h : Err v k x' x X) (hn : k + 1 ≤ n) : Err v n (rnd x') x X := by
  refine Err.mono hv ⟨h.1, ?_⟩ hn
  have h1 := hr x'
  have h2 := mul_le_mul_of_nonneg_left h.size hv
  have : |rnd x' - x| ≤ |rnd x' - x'| + |x' - x| := by simpa using abs_add_le (rnd x' - x') (x' - x)
  have e : ((1 + v) ^ (k + 1) - 1) * X = v * ((1 + v) ^ k * X) + ((1 + v) ^ k - 1) * X := by ring
  rw [e]
  linarith [h.2]

theorem Err.add_exact {k : ℕ} {x' x X y' y Y : ℝ} (h : Err v k x' x X) (g : Err v k y' y Y) : Err v k (x' + y') (x + y) (X + Y) := by
  refine ⟨(abs_add_le _ _).trans (add_le_add h.1 g.1), ?_⟩
  rw [show x' + y' - (x + y) = (x' - x) + (y' - y) by ring, mul_add]
  exact (abs_add_le _ _).trans (add_le_add h.2 g.2)

theorem Err.mul_exact (hv : 0 ≤ v) {a b : ℕ} {x' x X y' y Y : ℝ} (h : Err v a x' x X) (g : Err v b y' y Y) : Err v (a + b) (x' * y') (x * y) (X * Y) := by
  refine ⟨by rw [abs_mul]; exact mul_le_mul h.1 g.1 (abs_nonneg _) h.nonneg, ?_⟩
  rw [show x' * y' - x * y = (x' - x) * y' + x * (y' - y) by ring]
  refine (abs_add_le _ _).trans ?_
  rw [abs_mul, abs_mul]
  have h1 : |x' - x| * |y'| ≤ (((1 + v) ^ a - 1) * X) * ((1 + v) ^ b * Y) := mul_le_mul h.2 g.size (abs_nonneg _)
    (mul_nonneg (by linarith [one_le_pow hv a]) h.nonneg)
  have h2 : |x| * |y' - y| ≤ X * (((1 + v) ^ b - 1) * Y) := mul_le_mul h.1 g.2 (abs_nonneg _) h.nonneg
  have e : ((1 + v) ^ (a + b) - 1) * (X * Y) = (((1 + v) ^ a - 1) * X) * ((1 + v) ^ b * Y) + X * (((1 + v) ^ b - 1) * Y) := by rw [pow_add]; ring
  linarith

section ops
variable (hr : RelError rnd v) (hv : 0 ≤ v)
include hr hv

theorem Err.add {a b n : ℕ} {x' x X y' y Y : ℝ} (h : Err v a x' x X) (g : Err v b y' y Y) (ha : a + 1 ≤ n) (hb : b + 1 ≤ n) :
    Err v n ((rounded rnd).add x' y') (exact.add x y) (uncancelled.add X Y) :=
  Err.rounding hr hv (Err.add_exact (h.mono hv (k := n - 1) (by omega)) (g.mono hv (by omega))) (by omega)

theorem Err.sub {a b n : ℕ} {x' x X y' y Y : ℝ} (h : Err v a x' x X) (g : Err v b y' y Y) (ha : a + 1 ≤ n) (hb : b + 1 ≤ n) :
    Err v n ((rounded rnd).sub x' y') (exact.sub x y) (uncancelled.sub X Y) := by
  have := Err.add hr hv h g.neg ha hb
  simpa only [rounded, exact, uncancelled, sub_eq_add_neg] using this

theorem Err.mul {a b n : ℕ} {x' x X y' y Y : ℝ} (h : Err v a x' x X) (g : Err v b y' y Y) (hn : a + b + 1 ≤ n) :
    Err v n ((rounded rnd).mul x' y') (exact.mul x y) (uncancelled.mul X Y) := Err.rounding hr hv (Err.mul_exact hv h g) hn

theorem Err.div {a n : ℕ} {x' x X : ℝ} (m : ℝ) (h : Err v a x' x X) (hn : a + 1 ≤ n) :
    Err v n ((rounded rnd).div x' m) (exact.div x m) (uncancelled.div X |m|) := by
  have g : Err v 0 m⁻¹ m⁻¹ |m|⁻¹ := by rw [← abs_inv]; exact .self hv 0 _
  have := Err.rounding (n := n) hr hv (Err.mul_exact hv h g) hn
  simpa only [rounded, exact, uncancelled, div_eq_mul_inv] using this

end ops

/-! ## Vectors -/

/-- `Err` for the components of vectors. -/
structure Err3 (v : ℝ) (k : ℕ) (a' a A : Vec3 ℝ) : Prop where
  x : Err v k a'.x a.x A.x
  y : Err v k a'.y a.y A.y
  z : Err v k a'.z a.z A.z

/-- `Err` for the components of matrices. -/
structure ErrM (v : ℝ) (k : ℕ) (a' a A : Mat3 ℝ) : Prop where
  cx : Err3 v k a'.cx a.cx A.cx
  cy : Err3 v k a'.cy a.cy A.cy
  cz : Err3 v k a'.cz a.cz A.cz

/-- `Err` for the components of vectors. -/
structure Err6 (v : ℝ) (k : ℕ) (a' a A : Vec6 ℝ) : Prop where
  lin : Err3 v k a'.lin a.lin A.lin
  ang : Err3 v k a'.ang a.ang A.ang

/-- `Err` for the components of frames. -/
structure ErrF (v : ℝ) (k : ℕ) (a' a A : Frame ℝ) : Prop where
  pos : Err3 v k a'.pos a.pos A.pos
  att : ErrM v k a'.att a.att A.att

theorem Err3.mono (hv : 0 ≤ v) {a k : ℕ} {x' x X : Vec3 ℝ} (h : Err3 v a x' x X) (hk : a ≤ k) : Err3 v k x' x X :=
  ⟨h.x.mono hv hk, h.y.mono hv hk, h.z.mono hv hk⟩
theorem ErrM.mono (hv : 0 ≤ v) {a k : ℕ} {x' x X : Mat3 ℝ} (h : ErrM v a x' x X) (hk : a ≤ k) : ErrM v k x' x X :=
  ⟨h.cx.mono hv hk, h.cy.mono hv hk, h.cz.mono hv hk⟩
theorem Err6.mono (hv : 0 ≤ v) {a k : ℕ} {x' x X : Vec6 ℝ} (h : Err6 v a x' x X) (hk : a ≤ k) : Err6 v k x' x X :=
  ⟨h.lin.mono hv hk, h.ang.mono hv hk⟩

theorem ErrF.mono (hv : 0 ≤ v) {a k : ℕ} {x' x X : Frame ℝ} (h : ErrF v a x' x X) (hk : a ≤ k) : ErrF v k x' x X :=
  ⟨h.pos.mono hv hk, h.att.mono hv hk⟩

theorem Err3.self (hv : 0 ≤ v) (k : ℕ) (a : Vec3 ℝ) : Err3 v k a a (abs3 a) := ⟨.self hv k _, .self hv k _, .self hv k _⟩
theorem ErrM.self (hv : 0 ≤ v) (k : ℕ) (a : Mat3 ℝ) : ErrM v k a a (absM a) := ⟨.self hv k _, .self hv k _, .self hv k _⟩
theorem Err6.self (hv : 0 ≤ v) (k : ℕ) (a : Vec6 ℝ) : Err6 v k a a (abs6 a) := ⟨.self hv k _, .self hv k _⟩
theorem Err3.zero (k : ℕ) : Err3 v k 0 0 0 := ⟨.zero k, .zero k, .zero k⟩
theorem ErrF.ident (hv : 0 ≤ v) (k : ℕ) : ErrF v k Frame.ident Frame.ident Frame.ident :=
  ⟨.zero k, ⟨⟨.const hv k zero_le_one, .zero k, .zero k⟩, ⟨.zero k, .const hv k zero_le_one, .zero k⟩, ⟨.zero k, .zero k, .const hv k zero_le_one⟩⟩⟩
theorem Err6.zero (k : ℕ) : Err6 v k 0 0 0 := ⟨⟨.zero k, .zero k, .zero k⟩, ⟨.zero k, .zero k, .zero k⟩⟩

section vec
variable (hr : RelError rnd v) (hv : 0 ≤ v)
include hr hv

theorem Err3.vadd {a b n : ℕ} {x' x X y' y Y : Vec3 ℝ} (h : Err3 v a x' x X) (g : Err3 v b y' y Y) (ha : a + 1 ≤ n) (hb : b + 1 ≤ n) :
    Err3 v n ((rounded rnd).vadd x' y') (exact.vadd x y) (uncancelled.vadd X Y) :=
  ⟨.add hr hv h.x g.x ha hb, .add hr hv h.y g.y ha hb, .add hr hv h.z g.z ha hb⟩

theorem Err3.vsub {a b n : ℕ} {x' x X y' y Y : Vec3 ℝ} (h : Err3 v a x' x X) (g : Err3 v b y' y Y) (ha : a + 1 ≤ n) (hb : b + 1 ≤ n) :
    Err3 v n ((rounded rnd).vsub x' y') (exact.vsub x y) (uncancelled.vsub X Y) :=
  ⟨.sub hr hv h.x g.x ha hb, .sub hr hv h.y g.y ha hb, .sub hr hv h.z g.z ha hb⟩

theorem Err3.smul {a b n : ℕ} {x' x X : ℝ} {y' y Y : Vec3 ℝ} (h : Err v a x' x X) (g : Err3 v b y' y Y) (hn : a + b + 1 ≤ n) :
    Err3 v n ((rounded rnd).smul x' y') (exact.smul x y) (uncancelled.smul X Y) :=
  ⟨.mul hr hv h g.x hn, .mul hr hv h g.y hn, .mul hr hv h g.z hn⟩

theorem Err.dot {a b n : ℕ} {x' x X y' y Y : Vec3 ℝ} (h : Err3 v a x' x X) (g : Err3 v b y' y Y) (hn : a + b + 3 ≤ n) :
    Err v n ((rounded rnd).dot x' y') (exact.dot x y) (uncancelled.dot X Y) :=
  .add hr hv (.add hr hv (.mul hr hv h.x g.x le_rfl) (.mul hr hv h.y g.y le_rfl) le_rfl le_rfl) (.mul hr hv h.z g.z le_rfl) (by omega) (by omega)

theorem Err3.cross {a b n : ℕ} {x' x X y' y Y : Vec3 ℝ} (h : Err3 v a x' x X) (g : Err3 v b y' y Y) (hn : a + b + 2 ≤ n) :
    Err3 v n ((rounded rnd).cross x' y') (exact.cross x y) (uncancelled.cross X Y) :=
  ⟨.sub hr hv (.mul hr hv h.y g.z le_rfl) (.mul hr hv h.z g.y le_rfl) hn hn, .sub hr hv (.mul hr hv h.z g.x le_rfl) (.mul hr hv h.x g.z le_rfl) hn hn,
   .sub hr hv (.mul hr hv h.x g.y le_rfl) (.mul hr hv h.y g.x le_rfl) hn hn⟩

theorem Err3.mulVec {a b n : ℕ} {m' m M : Mat3 ℝ} {y' y Y : Vec3 ℝ} (h : ErrM v a m' m M) (g : Err3 v b y' y Y) (hn : a + b + 3 ≤ n) :
    Err3 v n ((rounded rnd).mulVec m' y') (exact.mulVec m y) (uncancelled.mulVec M Y) :=
  .vadd hr hv (.vadd hr hv (.smul hr hv g.x h.cx le_rfl) (.smul hr hv g.y h.cy le_rfl) le_rfl le_rfl) (.smul hr hv g.z h.cz le_rfl) (by omega) (by omega)

theorem Err3.mulVecT {a b n : ℕ} {m' m M : Mat3 ℝ} {y' y Y : Vec3 ℝ} (h : ErrM v a m' m M) (g : Err3 v b y' y Y) (hn : a + b + 3 ≤ n) :
    Err3 v n ((rounded rnd).mulVecT m' y') (exact.mulVecT m y) (uncancelled.mulVecT M Y) :=
  ⟨.dot hr hv h.cx g hn, .dot hr hv h.cy g hn, .dot hr hv h.cz g hn⟩

theorem ErrM.mmul {a b n : ℕ} {m' m M y' y Y : Mat3 ℝ} (h : ErrM v a m' m M) (g : ErrM v b y' y Y) (hn : a + b + 3 ≤ n) :
    ErrM v n ((rounded rnd).mmul m' y') (exact.mmul m y) (uncancelled.mmul M Y) :=
  ⟨.mulVec hr hv h g.cx hn, .mulVec hr hv h g.cy hn, .mulVec hr hv h g.cz hn⟩

theorem Err6.add6 {a b n : ℕ} {x' x X y' y Y : Vec6 ℝ} (h : Err6 v a x' x X) (g : Err6 v b y' y Y) (ha : a + 1 ≤ n) (hb : b + 1 ≤ n) :
    Err6 v n ((rounded rnd).add6 x' y') (exact.add6 x y) (uncancelled.add6 X Y) := ⟨.vadd hr hv h.lin g.lin ha hb, .vadd hr hv h.ang g.ang ha hb⟩

theorem Err6.sub6 {a b n : ℕ} {x' x X y' y Y : Vec6 ℝ} (h : Err6 v a x' x X) (g : Err6 v b y' y Y) (ha : a + 1 ≤ n) (hb : b + 1 ≤ n) :
    Err6 v n ((rounded rnd).sub6 x' y') (exact.sub6 x y) (uncancelled.sub6 X Y) := ⟨.vsub hr hv h.lin g.lin ha hb, .vsub hr hv h.ang g.ang ha hb⟩

theorem Err6.mulVec6 {a b n : ℕ} {m' m M : Mat3 ℝ} {y' y Y : Vec6 ℝ} (h : ErrM v a m' m M) (g : Err6 v b y' y Y) (hn : a + b + 3 ≤ n) :
    Err6 v n ((rounded rnd).mulVec6 m' y') (exact.mulVec6 m y) (uncancelled.mulVec6 M Y) := ⟨.mulVec hr hv h g.lin hn, .mulVec hr hv h g.ang hn⟩

theorem Err6.mulVecT6 {a b n : ℕ} {m' m M : Mat3 ℝ} {y' y Y : Vec6 ℝ} (h : ErrM v a m' m M) (g : Err6 v b y' y Y) (hn : a + b + 3 ≤ n) :
    Err6 v n ((rounded rnd).mulVecT6 m' y') (exact.mulVecT6 m y) (uncancelled.mulVecT6 M Y) := ⟨.mulVecT hr hv h g.lin hn, .mulVecT hr hv h g.ang hn⟩

theorem Err6.linShift {a b n : ℕ} {x' x X : Vec6 ℝ} {y' y Y : Vec3 ℝ} (h : Err6 v a x' x X) (g : Err3 v b y' y Y) (hn : a + b + 3 ≤ n) :
    Err6 v n ((rounded rnd).linShift x' y') (exact.linShift x y) (uncancelled.linShift X Y) :=
  ⟨.vadd hr hv h.lin (.cross hr hv h.ang g le_rfl) (by omega) (by omega), h.ang.mono hv (by omega)⟩

theorem Err6.angShift {a b n : ℕ} {x' x X : Vec6 ℝ} {y' y Y : Vec3 ℝ} (h : Err6 v a x' x X) (g : Err3 v b y' y Y) (hn : a + b + 3 ≤ n) :
    Err6 v n ((rounded rnd).angShift x' y') (exact.angShift x y) (uncancelled.angShift X Y) :=
  ⟨h.lin.mono hv (by omega), .vadd hr hv h.ang (.cross hr hv g h.lin le_rfl) (by omega) (by omega)⟩

theorem Err3.xform {a b n : ℕ} {f' f F : Frame ℝ} {x' x X : Vec3 ℝ} (g : ErrF v b f' f F) (h : Err3 v a x' x X) (hn : a + b + 4 ≤ n) :
    Err3 v n ((rounded rnd).xform f' x') (exact.xform f x) (uncancelled.xform F X) :=
  .vadd hr hv (.mulVec hr hv g.att h le_rfl) g.pos (by omega) (by omega)

theorem Err3.xformInv {a b n : ℕ} {f' f F : Frame ℝ} {x' x X : Vec3 ℝ} (g : ErrF v b f' f F) (h : Err3 v a x' x X) (hn : a + b + b + 4 ≤ n) :
    Err3 v n ((rounded rnd).xformInv f' x') (exact.xformInv f x) (uncancelled.xformInv F X) :=
  .mulVecT hr hv g.att (.vsub (n := a + b + 1) hr hv h g.pos (by omega) (by omega)) (by omega)

theorem ErrF.cascade {a b n : ℕ} {f' f F g' g G : Frame ℝ} (h : ErrF v a f' f F) (k : ErrF v b g' g G) (hn : a + b + 4 ≤ n) :
    ErrF v n ((rounded rnd).cascade f' g') (exact.cascade f g) (uncancelled.cascade F G) :=
  ⟨.vadd hr hv h.pos (.mulVec hr hv h.att k.pos le_rfl) (by omega) (by omega), .mmul hr hv h.att k.att (by omega)⟩

theorem Err6.xform6Lin {a b n : ℕ} {f' f F : Frame ℝ} {x' x X : Vec6 ℝ} (g : ErrF v b f' f F) (h : Err6 v a x' x X) (hn : a + 2 * b + 6 ≤ n) :
    Err6 v n ((rounded rnd).xform6Lin f' x') (exact.xform6Lin f x) (uncancelled.xform6Lin F X) :=
  .mulVecT6 hr hv g.att (.linShift hr hv h g.pos le_rfl) (by omega)

theorem Err6.xform6Ang {a b n : ℕ} {f' f F : Frame ℝ} {x' x X : Vec6 ℝ} (g : ErrF v b f' f F) (h : Err6 v a x' x X) (hn : a + 2 * b + 6 ≤ n) :
    Err6 v n ((rounded rnd).xform6Ang f' x') (exact.xform6Ang f x) (uncancelled.xform6Ang F X) :=
  .angShift hr hv (.mulVec6 hr hv g.att h le_rfl) g.pos (by omega)

/-! ## Joints -/

theorem ErrM.rotZ {n : ℕ} (s c : ℝ) (m : Mat3 ℝ) (hn : 2 ≤ n) :
    ErrM v n ((rounded rnd).rotZ s c m) (exact.rotZ s c m) (uncancelled.rotZ |s| |c| (absM m)) := by
  have S := Err.self hv 0 s
  have C := Err.self hv 0 c
  have M := ErrM.self hv 0 m
  exact ⟨.vadd hr hv (.smul hr hv C M.cx le_rfl) (.smul hr hv S M.cy le_rfl) hn hn,
    .vadd hr hv (.smul hr hv S.neg M.cx le_rfl) (.smul hr hv C M.cy le_rfl) hn hn, M.cz.mono hv (by omega)⟩

theorem ErrM.zyMat (s0 c0 s1 c1 : ℝ) :
    ErrM v 1 ((rounded rnd).zyMat s0 c0 s1 c1) (exact.zyMat s0 c0 s1 c1) (uncancelled.zyMat |s0| |c0| |s1| |c1|) := by
  have S0 := Err.self hv 0 s0
  have C0 := Err.self hv 0 c0
  have S1 := Err.self hv 0 s1
  have C1 := Err.self hv 0 c1
  exact ⟨⟨.mul hr hv C0 C1 le_rfl, .mul hr hv S0 C1 le_rfl, S1.neg.mono hv (by omega)⟩, ⟨S0.neg.mono hv (by omega), C0.mono hv (by omega), .zero 1⟩,
    ⟨.mul hr hv C0 S1 le_rfl, .mul hr hv S0 S1 le_rfl, C1.mono hv (by omega)⟩⟩

theorem ErrF.jointXform (p : Prp ℝ) (f : Frame ℝ) :
    ErrF v 4 ((rounded rnd).jointXform p f) (exact.jointXform p f) (uncancelled.jointXform (absJoint p) (absF f)) := by
  have F : ErrM v 0 f.att f.att (absF f).att := ErrM.self hv 0 f.att
  have P : Err3 v 0 f.pos f.pos (absF f).pos := Err3.self hv 0 f.pos
  have P4 := P.mono hv (k := 4) (by omega)
  have F4 := F.mono hv (k := 4) (by omega)
  cases p with
  | fixed => exact ⟨P4, F4⟩
  | revol p => exact ⟨P4, .rotZ hr hv _ _ _ (by omega)⟩
  | prism p => exact ⟨.vadd hr hv P (.smul hr hv (.self hv 0 _) F.cz le_rfl) (by omega) (by omega), F4⟩
  | cylin p => exact ⟨.vadd hr hv P (.smul hr hv (.self hv 0 _) F.cz le_rfl) (by omega) (by omega), .rotZ hr hv _ _ _ (by omega)⟩
  | hooke p => exact ⟨P4, .mmul hr hv F (.zyMat hr hv _ _ _ _) (by omega)⟩
  | spher p => exact ⟨P4, .mmul hr hv F (.self hv 0 _) (by omega)⟩
  | float p => exact ⟨.vadd hr hv (.mulVec hr hv F (.self hv 0 _) le_rfl) P (by omega) (by omega), .mmul hr hv F (.self hv 0 _) (by omega)⟩
  | brfloat p => exact ⟨.vadd hr hv (.mulVec hr hv F (.self hv 0 _) le_rfl) P (by omega) (by omega), .mmul hr hv F (.self hv 0 _) (by omega)⟩

theorem Err6.incVel {a n : ℕ} {u' u U : Vec6 ℝ} (p : Prp ℝ) (h : Err6 v a u' u U) (ha : a + 1 ≤ n) (hn : 4 ≤ n) :
    Err6 v n ((rounded rnd).incVel p u') (exact.incVel p u) (uncancelled.incVel (absJoint p) U) := by
  have L := h.lin.mono hv (k := n) (by omega)
  have W := h.ang.mono hv (k := n) (by omega)
  have S := fun x : ℝ => Err.self hv 0 x
  cases p with
  | fixed => exact ⟨L, W⟩
  | revol p => exact ⟨L, ⟨W.x, W.y, .add hr hv h.ang.z (S _) ha (by omega)⟩⟩
  | prism p => exact ⟨⟨L.x, L.y, .add hr hv h.lin.z (S _) ha (by omega)⟩, W⟩
  | cylin p => exact ⟨⟨L.x, L.y, .add hr hv h.lin.z (S _) ha (by omega)⟩, ⟨W.x, W.y, .add hr hv h.ang.z (S _) ha (by omega)⟩⟩
  | hooke p =>
    exact ⟨L, .vadd (b := 1) hr hv h.ang ⟨.mul hr hv (S _).neg (S _) le_rfl, (S _).mono hv (by omega), .mul hr hv (S _) (S _) le_rfl⟩ ha (by omega)⟩
  | spher p => exact ⟨L, .vadd hr hv h.ang (.mulVecT hr hv (.self hv 0 _) (.self hv 0 _) le_rfl) ha (by omega)⟩
  | float p => exact .add6 hr hv h (.mulVecT6 hr hv (.self hv 0 _) (.self hv 0 _) le_rfl) ha (by omega)
  | brfloat p => exact .add6 hr hv h (.mulVecT6 hr hv (.self hv 0 _) (.self hv 0 _) le_rfl) ha (by omega)

theorem Err6.incAcc {a n : ℕ} {u' u U : Vec6 ℝ} (p : Prp ℝ) (h : Err6 v a u' u U) (ha : a + 1 ≤ n) (hn : 4 ≤ n) :
    Err6 v n ((rounded rnd).incAcc p u') (exact.incAcc p u) (uncancelled.incAcc (absJoint p) U) := by
  have L := h.lin.mono hv (k := n) (by omega)
  have W := h.ang.mono hv (k := n) (by omega)
  have S := fun x : ℝ => Err.self hv 0 x
  cases p with
  | fixed => exact ⟨L, W⟩
  | revol p => exact ⟨L, ⟨W.x, W.y, .add hr hv h.ang.z (S _) ha (by omega)⟩⟩
  | prism p => exact ⟨⟨L.x, L.y, .add hr hv h.lin.z (S _) ha (by omega)⟩, W⟩
  | cylin p => exact ⟨⟨L.x, L.y, .add hr hv h.lin.z (S _) ha (by omega)⟩, ⟨W.x, W.y, .add hr hv h.ang.z (S _) ha (by omega)⟩⟩
  | hooke p =>
    exact ⟨L, .vadd (b := 1) hr hv h.ang ⟨.mul hr hv (S _).neg (S _) le_rfl, (S _).mono hv (by omega), .mul hr hv (S _) (S _) le_rfl⟩ ha (by omega)⟩
  | spher p => exact ⟨L, .vadd hr hv h.ang (.mulVecT hr hv (.self hv 0 _) (.self hv 0 _) le_rfl) ha (by omega)⟩
  | float p => exact .add6 hr hv h (.mulVecT6 hr hv (.self hv 0 _) (.self hv 0 _) le_rfl) ha (by omega)
  | brfloat p => exact .add6 hr hv h (.mulVecT6 hr hv (.self hv 0 _) (.self hv 0 _) le_rfl) ha (by omega)

theorem Err6.incAccOnVel {a b n : ℕ} {w' w W : Vec3 ℝ} {u' u U : Vec6 ℝ} (p : Prp ℝ) (g : Err3 v b w' w W) (h : Err6 v a u' u U) (ha : a + 2 ≤ n) (hn : b + 7 ≤ n) :
    Err6 v n ((rounded rnd).incAccOnVel p w' u') (exact.incAccOnVel p w u) (uncancelled.incAccOnVel (absJoint p) W U) := by
  have L := h.lin.mono hv (k := n) (by omega)
  have V := h.ang.mono hv (k := n) (by omega)
  have S := fun x : ℝ => Err.self hv 0 x
  have two : Err v 0 2 2 2 := Err.const hv 0 (by norm_num)
  cases p with
  | fixed => exact ⟨L, V⟩
  | revol p =>
    exact ⟨L, ⟨.add hr hv h.ang.x (.mul hr hv (S _) g.y le_rfl) (by omega) (by omega), .sub hr hv h.ang.y (.mul hr hv (S _) g.x le_rfl) (by omega) (by omega), V.z⟩⟩
  | prism p =>
    exact ⟨⟨.add hr hv h.lin.x (.mul hr hv (.mul hr hv two (S _) le_rfl) g.y le_rfl) (by omega) (by omega),
      .sub hr hv h.lin.y (.mul hr hv (.mul hr hv two (S _) le_rfl) g.x le_rfl) (by omega) (by omega), L.z⟩, V⟩
  | cylin p =>
    exact ⟨⟨.add hr hv h.lin.x (.mul hr hv (.mul hr hv two (S _) le_rfl) g.y le_rfl) (by omega) (by omega),
      .sub hr hv h.lin.y (.mul hr hv (.mul hr hv two (S _) le_rfl) g.x le_rfl) (by omega) (by omega), L.z⟩,
      ⟨.add hr hv h.ang.x (.mul hr hv (S _) g.y le_rfl) (by omega) (by omega), .sub hr hv h.ang.y (.mul hr hv (S _) g.x le_rfl) (by omega) (by omega), V.z⟩⟩
  | hooke p =>
    refine ⟨L, .vadd (a := n - 1) (b := 2) hr hv (.vadd (b := b + 3) hr hv h.ang (.cross (b := 1) hr hv g
      ⟨.mul hr hv (S _).neg (S _) le_rfl, (S _).mono hv (by omega), .mul hr hv (S _) (S _) le_rfl⟩ (by omega)) (by omega) (by omega))
      ⟨.mul hr hv (S _).neg (.mul hr hv (S _) (S _) le_rfl) le_rfl, .zero 2, .mul hr hv (S _).neg (.mul hr hv (S _) (S _) le_rfl) le_rfl⟩ (by omega) (by omega)⟩
  | spher p => exact ⟨L, .vadd hr hv h.ang (.cross hr hv g (.mulVecT hr hv (.self hv 0 _) (.self hv 0 _) le_rfl) le_rfl) (by omega) (by omega)⟩
  | float p =>
    exact ⟨.vadd hr hv h.lin (.smul hr hv two (.cross hr hv g (.mulVecT hr hv (.self hv 0 _) (.self hv 0 _) le_rfl) le_rfl) le_rfl) (by omega) (by omega),
      .vadd hr hv h.ang (.cross hr hv g (.mulVecT hr hv (.self hv 0 _) (.self hv 0 _) le_rfl) le_rfl) (by omega) (by omega)⟩
  | brfloat p =>
    exact ⟨.vadd hr hv h.lin (.smul hr hv two (.cross hr hv g (.mulVecT hr hv (.self hv 0 _) (.self hv 0 _) le_rfl) le_rfl) le_rfl) (by omega) (by omega),
      .vadd hr hv h.ang (.cross hr hv g (.mulVecT hr hv (.self hv 0 _) (.self hv 0 _) le_rfl) le_rfl) (by omega) (by omega)⟩

/-- The torques of a joint. -/
theorem calcTrq_err {a n : ℕ} {f' f F : Vec6 ℝ} (p : Prp ℝ) (h : Err6 v a f' f F) (hn : a + 3 ≤ n) {j : ℕ} {x' x X : ℝ}
    (h1 : ((rounded rnd).calcTrq p f').getTrq[j]? = some x') (h2 : (exact.calcTrq p f).getTrq[j]? = some x)
    (h3 : (uncancelled.calcTrq (absJoint p) F).getTrq[j]? = some X) : Err v n x' x X := by
  have key : ∀ ls : List (ℝ × ℝ × ℝ), (∀ t ∈ ls, Err v n t.1 t.2.1 t.2.2) → ((rounded rnd).calcTrq p f').getTrq = ls.map (fun t => t.1) →
      (exact.calcTrq p f).getTrq = ls.map (fun t => t.2.1) → (uncancelled.calcTrq (absJoint p) F).getTrq = ls.map (fun t => t.2.2) → Err v n x' x X := by
    intro ls hl e1 e2 e3
    rw [e1, List.getElem?_map] at h1
    rw [e2, List.getElem?_map] at h2
    rw [e3, List.getElem?_map] at h3
    cases hj : ls[j]? with
    | none => rw [hj] at h1; simp at h1
    | some t =>
      rw [hj] at h1 h2 h3
      simp only [Option.map_some, Option.some.injEq] at h1 h2 h3
      subst h1 h2 h3
      exact hl t (List.mem_of_getElem? hj)
  have L := h.lin.mono hv (k := n) (by omega)
  have W := h.ang.mono hv (k := n) (by omega)
  have S := fun x : ℝ => Err.self hv 0 x
  cases p with
  | fixed => exact key [] (by simp) rfl rfl rfl
  | revol p => exact key [(_, _, _)] (by simpa using W.z) rfl rfl rfl
  | prism p => exact key [(_, _, _)] (by simpa using L.z) rfl rfl rfl
  | cylin p => exact key [(_, _, _), (_, _, _)] (by simpa using ⟨L.z, W.z⟩) rfl rfl rfl
  | hooke p =>
    have t := Err.add (n := n) hr hv (.mul hr hv (S p.s1).neg h.ang.x le_rfl) (.mul hr hv (S p.c1) h.ang.z le_rfl) (by omega) (by omega)
    exact key [(_, _, _), (_, _, _)] (by simpa using ⟨t, W.y⟩) rfl rfl rfl
  | spher p =>
    have t := Err3.mulVec (n := n) hr hv (.self hv 0 p.att) h.ang (by omega)
    exact key [(_, _, _), (_, _, _), (_, _, _)] (by simpa using ⟨t.x, t.y, t.z⟩) rfl rfl rfl
  | float p =>
    have t := Err6.mulVec6 (n := n) hr hv (.self hv 0 p.att) h (by omega)
    exact key [(_, _, _), (_, _, _), (_, _, _), (_, _, _), (_, _, _), (_, _, _)]
      (by simpa using ⟨t.lin.x, t.lin.y, t.lin.z, t.ang.x, t.ang.y, t.ang.z⟩) rfl rfl rfl
  | brfloat p =>
    have t := Err6.mulVec6 (n := n) hr hv (.self hv 0 p.att) h (by omega)
    exact key [(_, _, _), (_, _, _), (_, _, _), (_, _, _), (_, _, _), (_, _, _)]
      (by simpa using ⟨t.lin.x, t.lin.y, t.lin.z, t.ang.x, t.ang.y, t.ang.z⟩) rfl rfl rfl

end vec
end Roki.Arith
