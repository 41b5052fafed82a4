import Verif.Lemmas.Vec
import Mathlib.Algebra.BigOperators.Group.List.Basic

/-! # Sums over lists -/

namespace Roki
variable {α K : Type*}

theorem foldl_add_eq {M : Type*} [AddCommMonoid M] (f : α → M) (a : M) (l : List α) :
    l.foldl (fun w x => w + f x) a = a + (l.map f).sum := by
  induction l generalizing a with
  | nil => simp
  | cons x l ih => simp [ih, add_assoc]

theorem sum_map_add' {M : Type*} [AddCommMonoid M] (f g : α → M) (l : List α) :
    (l.map fun x => f x + g x).sum = (l.map f).sum + (l.map g).sum := by
  induction l with
  | nil => simp
  | cons x l ih => simp only [List.map_cons, List.sum_cons, ih]; abel

theorem sum_map_sub' {M : Type*} [AddCommGroup M] (f g : α → M) (l : List α) :
    (l.map fun x => f x - g x).sum = (l.map f).sum - (l.map g).sum := by
  induction l with
  | nil => simp
  | cons x l ih => simp only [List.map_cons, List.sum_cons, ih]; abel

/-- An additive map commutes with sums. -/
theorem map_list_sum' {M N : Type*} [AddCommMonoid M] [AddCommMonoid N] (φ : M → N) (h0 : φ 0 = 0)
    (h : ∀ a b, φ (a + b) = φ a + φ b) (l : List M) : φ l.sum = (l.map φ).sum := by
  induction l with
  | nil => simpa using h0
  | cons x l ih => simp [h, ih]

theorem map_map_sum' {M N : Type*} [AddCommMonoid M] [AddCommMonoid N] (φ : M → N) (h0 : φ 0 = 0)
    (h : ∀ a b, φ (a + b) = φ a + φ b) (f : α → M) (l : List α) :
    φ (l.map f).sum = (l.map fun x => φ (f x)).sum := by
  rw [map_list_sum' φ h0 h, List.map_map]; rfl

variable [Field K]

theorem smul_sum' {M : Type*} [AddCommGroup M] [Module K M] (k : K) (f : α → M) (l : List α) :
    k • (l.map f).sum = (l.map fun x => k • f x).sum :=
  map_map_sum' (fun v => k • v) (smul_zero k) (smul_add k) f l

theorem sum_smul' {M : Type*} [AddCommGroup M] [Module K M] (v : M) (f : α → K) (l : List α) :
    (l.map f).sum • v = (l.map fun x => f x • v).sum :=
  map_map_sum' (fun k : K => k • v) (zero_smul K v) (fun a b => add_smul a b v) f l

theorem dot_sum_right (n : Vec3 K) (f : α → Vec3 K) (l : List α) :
    dot n (l.map f).sum = (l.map fun x => dot n (f x)).sum :=
  map_map_sum' (dot n) (dot_zero_right n) (dot_add_right n) f l

theorem cross_sum_right (n : Vec3 K) (f : α → Vec3 K) (l : List α) :
    cross n (l.map f).sum = (l.map fun x => cross n (f x)).sum :=
  map_map_sum' (cross n) (cross_zero_right n) (cross_add_right n) f l

theorem mulVec_sum (m : Mat3 K) (f : α → Vec3 K) (l : List α) :
    m.mulVec (l.map f).sum = (l.map fun x => m.mulVec (f x)).sum :=
  map_map_sum' m.mulVec (Mat3.mulVec_zero m) (Mat3.mulVec_add m) f l

theorem xform6Ang_sum (F : Frame K) (f : α → Vec6 K) (l : List α) :
    F.xform6Ang (l.map f).sum = (l.map fun x => F.xform6Ang (f x)).sum :=
  map_map_sum' F.xform6Ang (Frame.xform6Ang_zero F) (Frame.xform6Ang_add F) f l

theorem lin_sum (f : α → Vec6 K) (l : List α) : (l.map f).sum.lin = (l.map fun x => (f x).lin).sum :=
  map_map_sum' Vec6.lin rfl (fun _ _ => rfl) f l

theorem ang_sum (f : α → Vec6 K) (l : List α) : (l.map f).sum.ang = (l.map fun x => (f x).ang).sum :=
  map_map_sum' Vec6.ang rfl (fun _ _ => rfl) f l

end Roki
