import Verif.Model.Vec

/-! # Algebra of vectors, rotations and frames (helper lemmas) -/

set_option linter.unusedSectionVars false

namespace Roki
variable {K : Type*} [Field K]

/-- Unfold every vector operation to components. -/
macro "vec_unfold" : tactic => `(tactic|
  simp only [Vec3.ext_iff, Mat3.ext_iff, Vec6.ext_iff, Frame.ext_iff, Mat6.ext_iff, dot, cross, triple, sqrNorm, cat,
    Mat3.mulVec, Mat3.tr, Mat3.mulVecT, Mat3.mul, Mat3.mulT, Mat3.rot, Mat3.rotInv, Mat3.skew,
    Mat3.dyad, Mat3.det, Mat3.Symm, Vec6.dot6, Vec6.linShift, Vec6.angShift, Mat3.mulVec6, Mat3.mulVecT6,
    Frame.ident, Frame.cascade, Frame.xformF, Frame.xform, Frame.xformInv, Frame.xform6Lin,
    Frame.xform6Ang, Mat6.mulVec, Mat6.tr, Mat6.Symm, Mat6.dyad, Mat6.colZ, Mat6.colZA, Mat6.rowZ,
    Mat6.rowZA,
    Vec3.zero_x, Vec3.zero_y, Vec3.zero_z, Vec3.add_x, Vec3.add_y, Vec3.add_z, Vec3.sub_x,
    Vec3.sub_y, Vec3.sub_z, Vec3.neg_x, Vec3.neg_y, Vec3.neg_z, Vec3.smul_x, Vec3.smul_y,
    Vec3.smul_z, Mat3.zero_cx, Mat3.zero_cy, Mat3.zero_cz, Mat3.one_cx, Mat3.one_cy, Mat3.one_cz,
    Mat3.add_cx, Mat3.add_cy, Mat3.add_cz, Mat3.sub_cx, Mat3.sub_cy, Mat3.sub_cz, Mat3.neg_cx,
    Mat3.neg_cy, Mat3.neg_cz, Mat3.smul_cx, Mat3.smul_cy, Mat3.smul_cz, Vec6.zero_lin,
    Vec6.zero_ang, Vec6.add_lin, Vec6.add_ang, Vec6.sub_lin, Vec6.sub_ang, Vec6.neg_lin,
    Vec6.neg_ang, Vec6.smul_lin, Vec6.smul_ang, Mat6.zero_ll, Mat6.zero_la, Mat6.zero_al,
    Mat6.zero_aa, Mat6.add_ll, Mat6.add_la, Mat6.add_al, Mat6.add_aa, Mat6.sub_ll, Mat6.sub_la,
    Mat6.sub_al, Mat6.sub_aa, Mat6.neg_ll, Mat6.neg_la, Mat6.neg_al, Mat6.neg_aa, Mat6.smul_ll,
    Mat6.smul_la, Mat6.smul_al, Mat6.smul_aa])

/-- Prove a polynomial vector identity componentwise. -/
macro "vec_ring" : tactic => `(tactic| (vec_unfold; repeat' (first | trivial | refine ⟨?_, ?_⟩ | ring)))

/-! ## dot and cross -/

theorem dot_comm (a b : Vec3 K) : dot a b = dot b a := by vec_ring
theorem dot_add_left (a b c : Vec3 K) : dot (a + b) c = dot a c + dot b c := by vec_ring
theorem dot_add_right (a b c : Vec3 K) : dot a (b + c) = dot a b + dot a c := by vec_ring
theorem dot_sub_left (a b c : Vec3 K) : dot (a - b) c = dot a c - dot b c := by vec_ring
theorem dot_sub_right (a b c : Vec3 K) : dot a (b - c) = dot a b - dot a c := by vec_ring
theorem dot_smul_left (k : K) (a b : Vec3 K) : dot (k • a) b = k * dot a b := by vec_ring
theorem dot_smul_right (k : K) (a b : Vec3 K) : dot a (k • b) = k * dot a b := by vec_ring
theorem dot_neg_left (a b : Vec3 K) : dot (-a) b = -dot a b := by vec_ring
theorem dot_neg_right (a b : Vec3 K) : dot a (-b) = -dot a b := by vec_ring
@[simp] theorem dot_zero_left (a : Vec3 K) : dot 0 a = 0 := by vec_ring
@[simp] theorem dot_zero_right (a : Vec3 K) : dot a 0 = 0 := by vec_ring
theorem cross_add_left (a b c : Vec3 K) : cross (a + b) c = cross a c + cross b c := by vec_ring
theorem cross_add_right (a b c : Vec3 K) : cross a (b + c) = cross a b + cross a c := by vec_ring
theorem cross_sub_left (a b c : Vec3 K) : cross (a - b) c = cross a c - cross b c := by vec_ring
theorem cross_sub_right (a b c : Vec3 K) : cross a (b - c) = cross a b - cross a c := by vec_ring
theorem cross_smul_left (k : K) (a b : Vec3 K) : cross (k • a) b = k • cross a b := by vec_ring
theorem cross_smul_right (k : K) (a b : Vec3 K) : cross a (k • b) = k • cross a b := by vec_ring
theorem cross_neg_left (a b : Vec3 K) : cross (-a) b = -cross a b := by vec_ring
theorem cross_neg_right (a b : Vec3 K) : cross a (-b) = -cross a b := by vec_ring
@[simp] theorem cross_zero_left (a : Vec3 K) : cross 0 a = 0 := by vec_ring
@[simp] theorem cross_zero_right (a : Vec3 K) : cross a 0 = 0 := by vec_ring
@[simp] theorem cross_self (a : Vec3 K) : cross a a = 0 := by vec_ring
theorem cross_anticomm (a b : Vec3 K) : cross a b = -cross b a := by vec_ring
theorem dot_cross_self_left (a b : Vec3 K) : dot a (cross a b) = 0 := by vec_ring
theorem dot_cross_self_right (a b : Vec3 K) : dot b (cross a b) = 0 := by vec_ring
theorem dot_cross_cyc (a b c : Vec3 K) : dot a (cross b c) = dot b (cross c a) := by vec_ring
theorem dot_cross_left (a b c : Vec3 K) : dot (cross a b) c = dot a (cross b c) := by vec_ring
theorem jacobi_cross (a b c : Vec3 K) :
    cross a (cross b c) + cross b (cross c a) + cross c (cross a b) = 0 := by vec_ring

/-! ## matrices -/
namespace Mat3
theorem mulVec_add (m : Mat3 K) (a b : Vec3 K) : m.mulVec (a + b) = m.mulVec a + m.mulVec b := by
  vec_ring
theorem mulVec_sub (m : Mat3 K) (a b : Vec3 K) : m.mulVec (a - b) = m.mulVec a - m.mulVec b := by
  vec_ring
theorem mulVec_neg (m : Mat3 K) (a : Vec3 K) : m.mulVec (-a) = -m.mulVec a := by vec_ring
theorem mulVec_smul (m : Mat3 K) (k : K) (a : Vec3 K) : m.mulVec (k • a) = k • m.mulVec a := by
  vec_ring
@[simp] theorem mulVec_zero (m : Mat3 K) : m.mulVec 0 = 0 := by vec_ring
theorem add_mulVec (m n : Mat3 K) (a : Vec3 K) : (m + n).mulVec a = m.mulVec a + n.mulVec a := by
  vec_ring
theorem sub_mulVec (m n : Mat3 K) (a : Vec3 K) : (m - n).mulVec a = m.mulVec a - n.mulVec a := by
  vec_ring
theorem neg_mulVec (m : Mat3 K) (a : Vec3 K) : (-m).mulVec a = -m.mulVec a := by vec_ring
theorem smul_mulVec (k : K) (m : Mat3 K) (a : Vec3 K) : (k • m).mulVec a = k • m.mulVec a := by
  vec_ring
@[simp] theorem zero_mulVec (a : Vec3 K) : (0 : Mat3 K).mulVec a = 0 := by vec_ring
@[simp] theorem one_mulVec (a : Vec3 K) : (1 : Mat3 K).mulVec a = a := by vec_ring
theorem mulVecT_eq (m : Mat3 K) (a : Vec3 K) : m.mulVecT a = m.tr.mulVec a := by vec_ring
theorem mulVecT_add (m : Mat3 K) (a b : Vec3 K) :
    m.mulVecT (a + b) = m.mulVecT a + m.mulVecT b := by vec_ring
theorem mulVecT_sub (m : Mat3 K) (a b : Vec3 K) :
    m.mulVecT (a - b) = m.mulVecT a - m.mulVecT b := by vec_ring
theorem mulVecT_neg (m : Mat3 K) (a : Vec3 K) : m.mulVecT (-a) = -m.mulVecT a := by vec_ring
theorem mulVecT_smul (m : Mat3 K) (k : K) (a : Vec3 K) :
    m.mulVecT (k • a) = k • m.mulVecT a := by vec_ring
@[simp] theorem mulVecT_zero (m : Mat3 K) : m.mulVecT 0 = 0 := by vec_ring
@[simp] theorem one_mulVecT (a : Vec3 K) : (1 : Mat3 K).mulVecT a = a := by vec_ring
theorem mul_mulVec (m n : Mat3 K) (a : Vec3 K) : (m.mul n).mulVec a = m.mulVec (n.mulVec a) := by
  vec_ring
theorem mul_mulVecT (m n : Mat3 K) (a : Vec3 K) :
    (m.mul n).mulVecT a = n.mulVecT (m.mulVecT a) := by vec_ring
theorem mul_assoc' (a b c : Mat3 K) : (a.mul b).mul c = a.mul (b.mul c) := by vec_ring
theorem tr_mul (a b : Mat3 K) : (a.mul b).tr = b.tr.mul a.tr := by vec_ring
@[simp] theorem tr_tr (a : Mat3 K) : a.tr.tr = a := by vec_ring
theorem mulT_eq (a b : Mat3 K) : a.mulT b = a.tr.mul b := by vec_ring
@[simp] theorem one_mul' (a : Mat3 K) : (1 : Mat3 K).mul a = a := by vec_ring
@[simp] theorem mul_one' (a : Mat3 K) : a.mul 1 = a := by vec_ring
@[simp] theorem tr_one : (1 : Mat3 K).tr = 1 := by vec_ring
theorem dot_mulVec (m : Mat3 K) (a b : Vec3 K) : dot a (m.mulVec b) = dot (m.mulVecT a) b := by
  vec_ring
theorem dot_mulVecT (m : Mat3 K) (a b : Vec3 K) : dot a (m.mulVecT b) = dot (m.mulVec a) b := by
  vec_ring
theorem skew_mulVec (a b : Vec3 K) : (skew a).mulVec b = cross a b := by vec_ring
theorem dyad_mulVec (a b c : Vec3 K) : (dyad a b).mulVec c = dot b c • a := by vec_ring
theorem tr_add (a b : Mat3 K) : (a + b).tr = a.tr + b.tr := by vec_ring
theorem tr_sub (a b : Mat3 K) : (a - b).tr = a.tr - b.tr := by vec_ring
theorem tr_neg (a : Mat3 K) : (-a).tr = -a.tr := by vec_ring
theorem tr_skew (a : Vec3 K) : (skew a).tr = -skew a := by vec_ring
theorem mul_add' (a b c : Mat3 K) : a.mul (b + c) = a.mul b + a.mul c := by vec_ring
theorem add_mul' (a b c : Mat3 K) : (a + b).mul c = a.mul c + b.mul c := by vec_ring

/-- Two matrices that act the same on every vector are equal. -/
theorem ext_mulVec {a b : Mat3 K} (h : ∀ v, a.mulVec v = b.mulVec v) : a = b := by
  have h1 := h ⟨1, 0, 0⟩
  have h2 := h ⟨0, 1, 0⟩
  have h3 := h ⟨0, 0, 1⟩
  revert h1 h2 h3
  vec_unfold
  simp
  intros
  simp_all

theorem dot_self_basis_ext {a b : Vec3 K} (h : ∀ v, dot a v = dot b v) : a = b := by
  have h1 := h ⟨1, 0, 0⟩
  have h2 := h ⟨0, 1, 0⟩
  have h3 := h ⟨0, 0, 1⟩
  simp [dot] at h1 h2 h3
  exact Vec3.ext h1 h2 h3

theorem isRot_one : (1 : Mat3 K).IsRot := by
  constructor <;> simp [dot, cross]

namespace IsRot
variable {r : Mat3 K} (h : r.IsRot)
include h
theorem mulVecT_mulVec (a : Vec3 K) : r.mulVecT (r.mulVec a) = a := by
  obtain ⟨h1, h2, h3, h4, h5, h6, h7⟩ := h
  revert h1 h2 h3 h4 h5 h6 h7
  vec_unfold
  intros
  refine ⟨?_, ?_, ?_⟩ <;> grind

theorem tr_mul_self : r.tr.mul r = 1 := by
  apply ext_mulVec
  intro v
  rw [mul_mulVec, ← mulVecT_eq, h.mulVecT_mulVec, one_mulVec]

theorem mul_tr_self : r.mul r.tr = 1 := by
  obtain ⟨h1, h2, h3, h4, h5, h6, h7⟩ := h
  revert h1 h2 h3 h4 h5 h6 h7
  vec_unfold
  intros
  refine ⟨⟨?_, ?_, ?_⟩, ⟨?_, ?_, ?_⟩, ?_, ?_, ?_⟩ <;> grind

theorem mulVec_mulVecT (a : Vec3 K) : r.mulVec (r.mulVecT a) = a := by
  rw [mulVecT_eq, ← mul_mulVec, h.mul_tr_self, one_mulVec]

theorem rh_yz : cross r.cy r.cz = r.cx := by
  obtain ⟨h1, h2, h3, h4, h5, h6, h7⟩ := h
  revert h1 h2 h3 h4 h5 h6 h7
  vec_unfold
  intros
  refine ⟨?_, ?_, ?_⟩ <;> grind

theorem rh_zx : cross r.cz r.cx = r.cy := by
  obtain ⟨h1, h2, h3, h4, h5, h6, h7⟩ := h
  revert h1 h2 h3 h4 h5 h6 h7
  vec_unfold
  intros
  refine ⟨?_, ?_, ?_⟩ <;> grind

theorem dot_mulVec_mulVec (a b : Vec3 K) : dot (r.mulVec a) (r.mulVec b) = dot a b := by
  rw [dot_mulVec, h.mulVecT_mulVec]

theorem dot_mulVecT_mulVecT (a b : Vec3 K) : dot (r.mulVecT a) (r.mulVecT b) = dot a b := by
  rw [← dot_mulVec, h.mulVec_mulVecT]

theorem mulVec_cross (a b : Vec3 K) :
    r.mulVec (cross a b) = cross (r.mulVec a) (r.mulVec b) := by
  have e : cross (r.mulVec a) (r.mulVec b)
      = (a.x * b.y - a.y * b.x) • cross r.cx r.cy + (a.y * b.z - a.z * b.y) • cross r.cy r.cz
        + (a.z * b.x - a.x * b.z) • cross r.cz r.cx := by vec_ring
  rw [e, h.rh, h.rh_yz, h.rh_zx]
  vec_ring

theorem tr : r.tr.IsRot := by
  have hm := h.mul_tr_self
  have h' := h
  obtain ⟨h1, h2, h3, h4, h5, h6, h7⟩ := h'
  have a1 := h.rh_yz
  have a2 := h.rh_zx
  revert hm h1 h2 h3 h4 h5 h6 h7 a1 a2
  vec_unfold
  intro hm h1 h2 h3 h4 h5 h6 h7 a1 a2
  constructor <;> vec_unfold <;> (try refine ⟨?_, ?_, ?_⟩) <;> grind

theorem mulVecT_cross (a b : Vec3 K) :
    r.mulVecT (cross a b) = cross (r.mulVecT a) (r.mulVecT b) := by
  simp only [mulVecT_eq]
  exact mulVec_cross h.tr a b

theorem mul {s : Mat3 K} (hs : s.IsRot) : (r.mul s).IsRot where
  xx := by simpa [Mat3.mul, h.dot_mulVec_mulVec] using hs.xx
  yy := by simpa [Mat3.mul, h.dot_mulVec_mulVec] using hs.yy
  zz := by simpa [Mat3.mul, h.dot_mulVec_mulVec] using hs.zz
  xy := by simpa [Mat3.mul, h.dot_mulVec_mulVec] using hs.xy
  yz := by simpa [Mat3.mul, h.dot_mulVec_mulVec] using hs.yz
  zx := by simpa [Mat3.mul, h.dot_mulVec_mulVec] using hs.zx
  rh := by simp [Mat3.mul, ← h.mulVec_cross, hs.rh]

theorem mulT {s : Mat3 K} (hs : s.IsRot) : (r.mulT s).IsRot := by
  rw [mulT_eq]; exact h.tr.mul hs

theorem det_eq_one : r.det = 1 := by
  rw [Mat3.det, h.rh_yz, h.xx]
end IsRot

theorem rot_mulVec (r m : Mat3 K) (v : Vec3 K) :
    (rot r m).mulVec v = r.mulVec (m.mulVec (r.mulVecT v)) := by
  rw [rot, mul_mulVec, mul_mulVec, mulVecT_eq]

theorem rotInv_mulVec (r m : Mat3 K) (v : Vec3 K) :
    (rotInv r m).mulVec v = r.mulVecT (m.mulVec (r.mulVec v)) := by
  rw [rotInv, mul_mulVec, mul_mulVec, mulVecT_eq]

theorem rotInv_rot {r : Mat3 K} (h : r.IsRot) (m : Mat3 K) : rotInv r (rot r m) = m := by
  apply ext_mulVec; intro v
  rw [rotInv_mulVec, rot_mulVec, h.mulVecT_mulVec, h.mulVecT_mulVec]

theorem rot_rotInv {r : Mat3 K} (h : r.IsRot) (m : Mat3 K) : rot r (rotInv r m) = m := by
  apply ext_mulVec; intro v
  rw [rot_mulVec, rotInv_mulVec, h.mulVec_mulVecT, h.mulVec_mulVecT]

theorem rot_mul (r s m : Mat3 K) : rot (r.mul s) m = rot r (rot s m) := by
  apply ext_mulVec; intro v
  simp only [rot_mulVec, mul_mulVec, mul_mulVecT]

theorem tr_rot (r m : Mat3 K) : (rot r m).tr = rot r m.tr := by
  simp only [rot, tr_mul, tr_tr, mul_assoc']

theorem tr_rotInv (r m : Mat3 K) : (rotInv r m).tr = rotInv r m.tr := by
  simp only [rotInv, tr_mul, tr_tr, mul_assoc']
end Mat3

/-! ## frames -/
namespace Frame
@[simp] theorem ident_pos : (ident : Frame K).pos = 0 := rfl
@[simp] theorem ident_att : (ident : Frame K).att = 1 := rfl
@[simp] theorem cascade_pos (f g : Frame K) : (cascade f g).pos = f.pos + f.att.mulVec g.pos := rfl
@[simp] theorem cascade_att (f g : Frame K) : (cascade f g).att = f.att.mul g.att := rfl
@[simp] theorem ident_cascade (f : Frame K) : cascade ident f = f := by
  ext1 <;> simp
@[simp] theorem cascade_ident (f : Frame K) : cascade f ident = f := by
  ext1 <;> simp
theorem cascade_assoc (f g h : Frame K) : cascade (cascade f g) h = cascade f (cascade g h) := by
  vec_ring
theorem cascade_xform (f g : Frame K) (p : Vec3 K) :
    (cascade f g).xform p = f.xform (g.xform p) := by vec_ring
theorem xform_xformInv {f : Frame K} (h : f.att.IsRot) (p : Vec3 K) :
    f.xform (f.xformInv p) = p := by
  simp [xform, xformInv, h.mulVec_mulVecT]
theorem xformInv_xform {f : Frame K} (h : f.att.IsRot) (p : Vec3 K) :
    f.xformInv (f.xform p) = p := by
  simp [xform, xformInv, h.mulVecT_mulVec]
theorem cascade_xformF {f : Frame K} (h : f.att.IsRot) (g : Frame K) :
    cascade f (xformF f g) = g := by
  ext1
  · simp [cascade, xformF, h.mulVec_mulVecT]
  · simp only [cascade, xformF, Mat3.mulT_eq, ← Mat3.mul_assoc', h.mul_tr_self, Mat3.one_mul']
theorem xformF_cascade {f : Frame K} (h : f.att.IsRot) (g : Frame K) :
    xformF f (cascade f g) = g := by
  ext1
  · simp [cascade, xformF, h.mulVecT_mulVec]
  · simp only [cascade, xformF, Mat3.mulT_eq, ← Mat3.mul_assoc', h.tr_mul_self, Mat3.one_mul']

/-- Twist and wrench transformations are dual. -/
theorem dot6_xform6Lin (f : Frame K) (v w : Vec6 K) :
    (f.xform6Lin v).dot6 w = v.dot6 (f.xform6Ang w) := by vec_ring
theorem xform6Lin_add (f : Frame K) (v w : Vec6 K) :
    f.xform6Lin (v + w) = f.xform6Lin v + f.xform6Lin w := by vec_ring
theorem xform6Ang_add (f : Frame K) (v w : Vec6 K) :
    f.xform6Ang (v + w) = f.xform6Ang v + f.xform6Ang w := by vec_ring
theorem xform6Ang_sub (f : Frame K) (v w : Vec6 K) :
    f.xform6Ang (v - w) = f.xform6Ang v - f.xform6Ang w := by vec_ring
@[simp] theorem xform6Ang_zero (f : Frame K) : f.xform6Ang 0 = 0 := by vec_ring
@[simp] theorem xform6Lin_zero (f : Frame K) : f.xform6Lin 0 = 0 := by vec_ring
@[simp] theorem ident_xform6Ang (w : Vec6 K) : (ident : Frame K).xform6Ang w = w := by vec_ring
@[simp] theorem ident_xform6Lin (w : Vec6 K) : (ident : Frame K).xform6Lin w = w := by vec_ring
theorem cascade_xform6Ang {f : Frame K} (h : f.att.IsRot) (g : Frame K) (w : Vec6 K) :
    (cascade f g).xform6Ang w = f.xform6Ang (g.xform6Ang w) := by
  ext1
  · simp [xform6Ang, Mat3.mulVec6, Vec6.angShift, Mat3.mul_mulVec]
  · simp only [xform6Ang, Mat3.mulVec6, Vec6.angShift, cascade, Mat3.mul_mulVec, Mat3.mulVec_add,
      h.mulVec_cross, cross_add_left]
    abel
end Frame

theorem Vec6.dot6_comm (a b : Vec6 K) : a.dot6 b = b.dot6 a := by vec_ring
theorem Vec6.dot6_add_left (a b c : Vec6 K) : (a + b).dot6 c = a.dot6 c + b.dot6 c := by vec_ring
theorem Vec6.dot6_add_right (a b c : Vec6 K) : a.dot6 (b + c) = a.dot6 b + a.dot6 c := by vec_ring
theorem Vec6.dot6_sub_left (a b c : Vec6 K) : (a - b).dot6 c = a.dot6 c - b.dot6 c := by vec_ring
theorem Vec6.dot6_sub_right (a b c : Vec6 K) : a.dot6 (b - c) = a.dot6 b - a.dot6 c := by vec_ring
theorem Vec6.dot6_smul_left (k : K) (a b : Vec6 K) : (k • a).dot6 b = k * a.dot6 b := by vec_ring
theorem Vec6.dot6_smul_right (k : K) (a b : Vec6 K) : a.dot6 (k • b) = k * a.dot6 b := by vec_ring
@[simp] theorem Vec6.zero_dot6 (a : Vec6 K) : (0 : Vec6 K).dot6 a = 0 := by vec_ring
@[simp] theorem Vec6.dot6_zero (a : Vec6 K) : a.dot6 0 = 0 := by vec_ring

end Roki
