import Verif.Lemmas.Sum
import Verif.Lemmas.ID
import Verif.Spec.Mechanics
import Verif.Spec.Samples
import Mathlib.Data.Rat.Defs
import Mathlib.Tactic.FieldSimp
import Mathlib.Algebra.Order.Ring.Rat
import Mathlib.Algebra.Order.BigOperators.Group.List

/-!
# C15, C16, C17, C22, C23, C24, C25: mass properties, momentum, energy, external wrenches
-/

namespace Roki
open Spec
set_option linter.unusedSectionVars false
variable {K : Type*} [Field K]

/-! ## C15 -/

/-- **C15** `rkChainCalcMass` is the sum of the masses, and the center of mass computed by
`rkChainCalcCOM` and its velocity and acceleration are the mass-weighted means over all links. -/
theorem C15_weighted_mean (c : Chain K) (hm : (c.link.map mass).sum ≠ 0) :
    c.calcMass.mass = (c.link.map mass).sum ∧
    (c.link.map mass).sum • c.calcMass.calcCOM.wldCOM =
      (c.link.map fun l => mass l • l.body.wldCOM).sum ∧
    (c.link.map mass).sum • c.calcMass.calcCOMVel.comVel =
      (c.link.map fun l => mass l • l.body.frame.att.mulVec l.body.comVel).sum ∧
    (c.link.map mass).sum • c.calcMass.calcCOMAcc.comAcc =
      (c.link.map fun l => mass l • l.body.frame.att.mulVec l.body.comAcc).sum := by
  have h0 : c.calcMass.mass = (c.link.map mass).sum := by
    simp only [Chain.calcMass, LinkArray.calcMass]
    rw [foldl_add_eq, zero_add]; rfl
  refine ⟨h0, ?_, ?_, ?_⟩
  · simp only [Chain.calcCOM, LinkArray.calcCOM, h0, cat]
    rw [foldl_add_eq, zero_add, smul_smul, mul_inv_cancel₀ hm, one_smul]; rfl
  · simp only [Chain.calcCOMVel, LinkArray.calcCOMVel, h0, cat]
    rw [foldl_add_eq, zero_add, smul_sum']
    congr 1
    apply List.map_congr_left
    intro l _
    rw [smul_smul, mul_div_cancel₀ _ hm]; rfl
  · simp only [Chain.calcCOMAcc, LinkArray.calcCOMAcc, h0, cat]
    rw [foldl_add_eq, zero_add, smul_sum']
    congr 1
    apply List.map_congr_left
    intro l _
    rw [smul_smul, mul_div_cancel₀ _ hm]; rfl

/-- **C15** After forward kinematics the total center of mass is the mass-weighted mean of the world
positions of the centers of mass, computed from the link frames. -/
theorem C15_fk_com (c c' : Chain K) (h : c.WF) (hc : c.updateFK = some c')
    (h0 : c.mass ≠ 0) :
    c'.mass • c'.wldCOM = (c'.link.map fun l => mass l • comPos l).sum ∧ c'.mass = c.mass := by
  obtain ⟨ls', T, hT, e, g', n⟩ := h.downAt (fun pwf (l : Link K) => l.updateFrame1 pwf)
    (fun l => l.body.frame) Frame.ident
  simp only [Chain.updateFK, Chain.updateFrame, Chain.updateFrameAt, e, Option.map_some,
    Option.some.injEq] at hc
  subst hc
  refine ⟨?_, rfl⟩
  simp only [Chain.calcCOM, LinkArray.calcCOM, cat]
  rw [foldl_add_eq, zero_add, smul_smul, mul_inv_cancel₀ h0, one_smul]
  congr 1
  apply List.map_congr_left
  intro l hl
  obtain ⟨i, hi⟩ := List.mem_iff_getElem?.1 hl
  rw [← LTree.updateFrame_eq] at g'
  have hil : i < ls'.length := (List.getElem?_eq_some_iff.1 hi).1
  have := Chain.mem_of_gather g' (h.mem.2 (by omega)) hi
  rw [(mem_down_updateFrame this).2]; rfl

/-- **C15** With nonnegative masses that are not all zero the center of mass is a convex combination
of the centers of mass of the links. -/
theorem C15_convex [LinearOrder K] [IsStrictOrderedRing K] (c : Chain K)
    (hn : ∀ l ∈ c.link, 0 ≤ mass l) (hm : (c.link.map mass).sum ≠ 0) :
    ∃ w : Link K → K, (∀ l ∈ c.link, 0 ≤ w l) ∧ (c.link.map w).sum = 1 ∧
      c.calcMass.calcCOM.wldCOM = (c.link.map fun l => w l • l.body.wldCOM).sum := by
  have hpos : 0 < (c.link.map mass).sum :=
    lt_of_le_of_ne (List.sum_nonneg fun x hx => by
      obtain ⟨l, hl, rfl⟩ := List.mem_map.1 hx; exact hn l hl) (Ne.symm hm)
  refine ⟨fun l => (c.link.map mass).sum⁻¹ * mass l, ?_, ?_, ?_⟩
  · intro l hl; exact mul_nonneg (inv_nonneg.2 hpos.le) (hn l hl)
  · have := smul_sum' (K := K) (c.link.map mass).sum⁻¹ (fun l => mass l) c.link
    simp only [smul_eq_mul] at this
    rw [← this]; exact inv_mul_cancel₀ hm
  · have h := (C15_weighted_mean c hm).2.1
    have : c.calcMass.calcCOM.wldCOM = (c.link.map mass).sum⁻¹ •
        (c.link.map fun l => mass l • l.body.wldCOM).sum := by
      rw [← h, smul_smul, inv_mul_cancel₀ hm, one_smul]
    rw [this, smul_sum']
    congr 1
    apply List.map_congr_left
    intro l _
    rw [smul_smul]

example : ((Sample.chain (K := ℚ)).link.map mass).sum = 4 ∧
    (∀ l ∈ (Sample.chain (K := ℚ)).link, 0 ≤ mass l) := by
  have h1 : (Sample.chain (K := ℚ)).link.map mass = [1, 1, 1, 1] := rfl
  refine ⟨by rw [h1]; norm_num, ?_⟩
  intro l hl
  have h2 : mass l ∈ (Sample.chain (K := ℚ)).link.map mass := List.mem_map.2 ⟨l, hl, rfl⟩
  rw [h1] at h2
  simp only [List.mem_cons, List.not_mem_nil, or_false, or_self] at h2
  rw [h2]; norm_num

/-! ## C16 -/

theorem shiftInertia_eq (I : Mat3 K) (m : K) (s : Vec3 K) :
    MP.shiftInertia I m s = I + m • (dot s s • (1 : Mat3 K) - Mat3.dyad s s) := by
  simp only [MP.shiftInertia, Mat3.dyad]; vec_ring

/-- **C16** Combining two bodies with nonzero total mass: the masses and the first moments add, and
the inertia about any point is the sum of the inertias about that point. -/
theorem C16_combine_moments (a b : MP K) (h : a.mass + b.mass ≠ 0) (q : Vec3 K) :
    (MP.combine a b).mass = a.mass + b.mass ∧
    (MP.combine a b).mass • (MP.combine a b).com = a.mass • a.com + b.mass • b.com ∧
    inertiaAbout (MP.combine a b) q = inertiaAbout a q + inertiaAbout b q := by
  have hx : ∀ x y : K, (a.mass + b.mass) * (a.mass / (a.mass + b.mass) * x + b.mass / (a.mass + b.mass) * y)
      = a.mass * x + b.mass * y := by intro x y; field_simp
  have hcom : (a.mass + b.mass) • (MP.combine a b).com = a.mass • a.com + b.mass • b.com := by
    simp only [MP.combine]
    ext <;> simp only [Vec3.smul_x, Vec3.smul_y, Vec3.smul_z, Vec3.add_x, Vec3.add_y, Vec3.add_z, hx]
  refine ⟨rfl, hcom, ?_⟩
  -- express everything through the center of mass
  have hm : (MP.combine a b).mass = a.mass + b.mass := rfl
  have hI : (MP.combine a b).inertia =
      MP.shiftInertia a.inertia a.mass (a.com - (MP.combine a b).com) +
      MP.shiftInertia b.inertia b.mass (b.com - (MP.combine a b).com) := rfl
  simp only [inertiaAbout, hI, hm, shiftInertia_eq]
  generalize (MP.combine a b).com = g at hcom
  have e1 := congrArg Vec3.x hcom
  have e2 := congrArg Vec3.y hcom
  have e3 := congrArg Vec3.z hcom
  obtain ⟨ma, ⟨ax, ay, az⟩, Ia⟩ := a
  obtain ⟨mb, ⟨bx, by', bz⟩, Ib⟩ := b
  obtain ⟨gx, gy, gz⟩ := g
  obtain ⟨qx, qy, qz⟩ := q
  simp only [Vec3.smul_x, Vec3.smul_y, Vec3.smul_z, Vec3.add_x, Vec3.add_y, Vec3.add_z] at e1 e2 e3
  clear hx hcom hm hI h
  ext <;>
    simp only [Mat3.dyad, dot, Mat3.add_cx, Mat3.add_cy, Mat3.add_cz, Mat3.smul_cx, Mat3.smul_cy,
      Mat3.smul_cz, Mat3.sub_cx, Mat3.sub_cy, Mat3.sub_cz, Mat3.one_cx, Mat3.one_cy, Mat3.one_cz,
      Vec3.add_x, Vec3.add_y, Vec3.add_z, Vec3.sub_x, Vec3.sub_y, Vec3.sub_z, Vec3.smul_x,
      Vec3.smul_y, Vec3.smul_z] <;> grind

/-- A set of mass properties is determined by the mass, the first moment and the inertia about one
point, when the mass is not zero. -/
theorem mp_ext {a b : MP K} (h0 : a.mass ≠ 0) (h1 : a.mass = b.mass)
    (h2 : a.mass • a.com = b.mass • b.com) (h3 : inertiaAbout a 0 = inertiaAbout b 0) : a = b := by
  have hc : a.com = b.com := by
    rw [← h1] at h2
    have := congrArg (fun v => a.mass⁻¹ • v) h2
    simpa [smul_smul, inv_mul_cancel₀ h0] using this
  have hi : a.inertia = b.inertia := by
    simp only [inertiaAbout, h1, hc] at h3
    exact add_right_cancel h3
  exact MP.ext h1 hc hi

/-- **C16** Combination is commutative and associative. -/
theorem C16_combine_comm_assoc (a b c : MP K) (hab : a.mass + b.mass ≠ 0) (hbc : b.mass + c.mass ≠ 0)
    (habc : a.mass + b.mass + c.mass ≠ 0) :
    MP.combine a b = MP.combine b a ∧
    MP.combine (MP.combine a b) c = MP.combine a (MP.combine b c) := by
  have hba : b.mass + a.mass ≠ 0 := by rwa [add_comm]
  constructor
  · have h1 := C16_combine_moments a b hab 0
    have h2 := C16_combine_moments b a hba 0
    refine mp_ext (by rw [h1.1]; exact hab) (by rw [h1.1, h2.1, add_comm]) ?_ ?_
    · rw [h1.2.1, h2.2.1, add_comm]
    · rw [h1.2.2, h2.2.2, add_comm]
  · have h1 := C16_combine_moments a b hab 0
    have h2 := C16_combine_moments b c hbc 0
    have hx : (MP.combine a b).mass + c.mass ≠ 0 := by rw [h1.1]; exact habc
    have hy : a.mass + (MP.combine b c).mass ≠ 0 := by rw [h2.1, ← add_assoc]; exact habc
    have h3 := C16_combine_moments (MP.combine a b) c hx 0
    have h4 := C16_combine_moments a (MP.combine b c) hy 0
    refine mp_ext (by rw [h3.1]; exact hx) (by rw [h3.1, h4.1, h1.1, h2.1, add_assoc]) ?_ ?_
    · rw [h3.2.1, h4.2.1, h1.2.1, h2.2.1, add_assoc]
    · rw [h3.2.2, h4.2.2, h1.2.2, h2.2.2, add_assoc]

/-- **C16** `rkBodyCombine`: the mass properties of two bodies united and expressed in the frame
`f`: for every point of the world the inertia about it, in world coordinates, is the sum. -/
theorem C16_body_combine (b1 b2 b : Body K) (f : Frame K) (hf : f.att.IsRot)
    (h : b1.mp.mass + b2.mp.mass ≠ 0) (q : Vec3 K) :
    (Body.combine b1 b2 f b).frame = f ∧
    (Body.combine b1 b2 f b).mp.mass = b1.mp.mass + b2.mp.mass ∧
    inertiaAbout ((Body.combine b1 b2 f b).mp.xform f) q =
      inertiaAbout (b1.mp.xform b1.frame) q + inertiaAbout (b2.mp.xform b2.frame) q := by
  have key : ∀ m : MP K, ∀ g : Frame K, (m.xform (f.xformF g)).xform f = m.xform g := by
    intro m g
    have e := Frame.cascade_xformF hf g
    simp only [MP.xform]
    congr 1
    · rw [← Frame.cascade_xform, e]
    · rw [← Mat3.rot_mul]
      have : f.att.mul (f.xformF g).att = g.att := congrArg Frame.att e
      rw [this]
  have hx : ∀ m : MP K, inertiaAbout (m.xform f) q = Mat3.rot f.att (inertiaAbout m (f.xformInv q)) := by
    intro m
    have hq : f.xform (f.xformInv q) = q := Frame.xform_xformInv hf q
    generalize f.xformInv q = r at hq
    subst hq
    apply Mat3.ext_mulVec
    intro v
    have hd : f.xform m.com - f.xform r = f.att.mulVec (m.com - r) := by
      rw [Mat3.mulVec_sub]; simp only [Frame.xform]; abel
    simp only [inertiaAbout, MP.xform, hd, Mat3.rot_mulVec, Mat3.add_mulVec, Mat3.smul_mulVec,
      Mat3.sub_mulVec, Mat3.one_mulVec, Mat3.dyad_mulVec, Mat3.mulVec_add, Mat3.mulVec_smul,
      Mat3.mulVec_sub, hf.mulVec_mulVecT, Mat3.dot_mulVecT]
    rw [← Mat3.mulVec_sub, hf.dot_mulVec_mulVec]
  have hc := C16_combine_moments (b1.mp.xform (f.xformF b1.frame)) (b2.mp.xform (f.xformF b2.frame))
    h (f.xformInv q)
  refine ⟨rfl, hc.1, ?_⟩
  simp only [Body.combine]
  rw [hx, hc.2.2]
  have : ∀ A B : Mat3 K, Mat3.rot f.att (A + B) = Mat3.rot f.att A + Mat3.rot f.att B := by
    intro A B; simp only [Mat3.rot, Mat3.mul_add', Mat3.add_mul']
  rw [this, ← hx, ← hx, key, key]

example : (⟨1, ⟨0, 0, 0⟩, 1⟩ : MP ℚ).mass + (⟨3, ⟨4, 0, 0⟩, 1⟩ : MP ℚ).mass ≠ 0 ∧
    (MP.combine ⟨1, ⟨0, 0, 0⟩, 1⟩ ⟨3, ⟨4, 0, 0⟩, 1⟩ : MP ℚ).com = ⟨3, 0, 0⟩ := by
  constructor <;> norm_num [MP.combine]
  ext <;> norm_num

/-- **C16** `rkMPOrgInertia`: the inertia about the origin of the frame. -/
theorem C16_org_inertia (m : MP K) : m.orgInertia = inertiaAbout m 0 := by
  simp only [MP.orgInertia, shiftInertia_eq, inertiaAbout, sub_zero]

/-- **C16** `rkBodyCombineDRC`: a body to which another one is joined keeps its frame; its mass becomes the sum, and for every
point of the world the inertia about it, in world coordinates, is the sum of the inertias of the two bodies. -/
theorem C16_body_combine_inplace (b sb : Body K) (hf : b.frame.att.IsRot) (h : b.mp.mass + sb.mp.mass ≠ 0) (q : Vec3 K) :
    (Body.combineDRC b sb).frame = b.frame ∧
    (Body.combineDRC b sb).mp.mass = b.mp.mass + sb.mp.mass ∧
    inertiaAbout ((Body.combineDRC b sb).mp.xform b.frame) q =
      inertiaAbout (b.mp.xform b.frame) q + inertiaAbout (sb.mp.xform sb.frame) q := by
  have e : (Body.combineDRC b sb).mp = (Body.combine b sb b.frame b).mp := by
    have hi : b.frame.xformF b.frame = Frame.ident := by
      have h1 := Frame.xformF_cascade hf Frame.ident
      rwa [show b.frame.cascade Frame.ident = b.frame by
        simp only [Frame.cascade, Frame.ident]; ext <;> vec_unfold <;> ring] at h1
    have hm : ∀ m : MP K, m.xform Frame.ident = m := by
      intro m
      simp only [MP.xform, Frame.ident, Frame.xform, Mat3.rot]; ext <;> vec_unfold <;> ring
    simp only [Body.combineDRC, Body.combine, hi, hm]
  have := C16_body_combine b sb b b.frame hf h q
  exact ⟨rfl, rfl, by rw [e]; exact this.2.2⟩

/-! ## C17 -/

/-- **C17** Transforming mass properties by a frame and back is the identity, both ways; the mass is
unchanged; a symmetric inertia stays symmetric; transforming by a product of frames is transforming
twice; and the inertia about a transformed point is the transformed inertia. -/
theorem C17_xform (m : MP K) (f g : Frame K) (hf : f.att.IsRot) :
    (m.xform f).xformInv f = m ∧ (m.xformInv f).xform f = m ∧
    (m.xform f).mass = m.mass ∧
    (m.inertia.Symm → (m.xform f).inertia.Symm ∧ (m.xformInv f).inertia.Symm) ∧
    m.xform (f.cascade g) = (m.xform g).xform f ∧
    ∀ q v, (inertiaAbout (m.xform f) (f.xform q)).mulVec (f.att.mulVec v) =
      f.att.mulVec ((inertiaAbout m q).mulVec v) := by
  refine ⟨?_, ?_, rfl, ?_, ?_, ?_⟩
  · simp only [MP.xform, MP.xformInv, Frame.xformInv_xform hf, Mat3.rotInv_rot hf]
  · simp only [MP.xform, MP.xformInv, Frame.xform_xformInv hf, Mat3.rot_rotInv hf]
  · intro hs
    unfold Mat3.Symm at *
    simp only [MP.xform, MP.xformInv, Mat3.tr_rot, Mat3.tr_rotInv, hs, and_self]
  · simp only [MP.xform, Frame.cascade_xform, Frame.cascade_att, Mat3.rot_mul]
  · intro q v
    have hd : f.xform m.com - f.xform q = f.att.mulVec (m.com - q) := by
      rw [Mat3.mulVec_sub]; simp only [Frame.xform]; abel
    simp only [inertiaAbout, MP.xform, hd, Mat3.add_mulVec, Mat3.smul_mulVec, Mat3.sub_mulVec,
      Mat3.one_mulVec, Mat3.dyad_mulVec, Mat3.rot_mulVec, hf.mulVecT_mulVec,
      Mat3.mulVec_add, Mat3.mulVec_smul, Mat3.mulVec_sub]
    rw [← Mat3.mulVec_sub, hf.dot_mulVec_mulVec, hf.dot_mulVec_mulVec]

example : (Rz (3 / 5 : ℚ) (4 / 5)).IsRot := isRot_Rz (by norm_num)

/-! ## C22 -/

/-- **C22** The kinetic energy is the sum over the links of `m |v|^2 / 2 + w . I w / 2`, and the
same in world coordinates. -/
theorem C22_energy (c : Chain K) (hr : ∀ l ∈ c.link, l.body.frame.att.IsRot)
    (hv : ∀ l ∈ c.link, COMVelCurrent l) :
    LinkArray.ke c.link =
      (c.link.map fun l => (mass l * dot (comVel l) (comVel l) +
        dot (angVel l) ((worldInertia l).mulVec (angVel l))) / 2).sum := by
  simp only [LinkArray.ke]
  rw [foldl_add_eq, zero_add]
  congr 1
  apply List.map_congr_left
  intro l hl
  have h := hr l hl
  have hc : l.body.comVel = _ := hv l hl
  simp only [Body.ke, sqrNorm, mass, comVel, angVel, worldInertia, Mat3.mul_mulVec, hc,
    h.dot_mulVec_mulVec, ← Mat3.mulVecT_eq, h.mulVecT_mulVec]
  ring

/-- **C22** The kinetic energy is nonnegative when the masses are nonnegative and the inertia
tensors positive semidefinite. -/
theorem C22_nonneg [LinearOrder K] [IsStrictOrderedRing K] (c : Chain K)
    (hm : ∀ l ∈ c.link, 0 ≤ mass l)
    (hI : ∀ l ∈ c.link, ∀ w : Vec3 K, 0 ≤ dot w (l.body.mp.inertia.mulVec w)) :
    0 ≤ LinkArray.ke c.link := by
  simp only [LinkArray.ke]
  rw [foldl_add_eq, zero_add]
  refine List.sum_nonneg fun x hx => ?_
  obtain ⟨l, hl, rfl⟩ := List.mem_map.1 hx
  simp only [Body.ke, sqrNorm]
  refine mul_nonneg (add_nonneg (hI l hl _) (mul_nonneg (hm l hl) ?_)) (by norm_num)
  simp only [dot]
  have := mul_self_nonneg l.body.comVel.x
  have := mul_self_nonneg l.body.comVel.y
  have := mul_self_nonneg l.body.comVel.z
  linarith

example (w : Vec3 ℚ) : 0 ≤ dot w ((Sample.mp1 (K := ℚ)).inertia.mulVec w) := by
  simp only [Sample.mp1, Mat3.one_mulVec, dot]
  have := mul_self_nonneg w.x
  have := mul_self_nonneg w.y
  have := mul_self_nonneg w.z
  linarith

/-! ## C23 -/

/-- **C23** The angular momentum about a point is the sum over the links of
`(c - p) x m v + I w` in world coordinates. -/
theorem C23_angular_momentum (c : Chain K) (p : Vec3 K)
    (hr : ∀ l ∈ c.link, l.body.frame.att.IsRot) (hv : ∀ l ∈ c.link, COMVelCurrent l) :
    LinkArray.am c.link p =
      (c.link.map fun l => cross (comPos l - p) (mass l • comVel l) +
        (worldInertia l).mulVec (angVel l)).sum := by
  simp only [LinkArray.am]
  rw [foldl_add_eq, zero_add]
  congr 1
  apply List.map_congr_left
  intro l hl
  have h := hr l hl
  have hc : l.body.comVel = _ := hv l hl
  have hp : p = l.body.frame.xform (l.body.frame.xformInv p) := (Frame.xform_xformInv h p).symm
  have hd : comPos l - p = l.body.frame.att.mulVec (l.body.mp.com - l.body.frame.xformInv p) := by
    conv_lhs => rw [hp]
    rw [Mat3.mulVec_sub]; simp only [comPos, Frame.xform]; abel
  rw [hd]
  simp only [Body.am, mass, comVel, angVel, worldInertia, Mat3.mul_mulVec, hc,
    ← Mat3.mulVecT_eq, h.mulVecT_mulVec, Mat3.mulVec_add, Mat3.mulVec_smul, cross_smul_right,
    h.mulVec_cross]

/-- **C23** Transfer between reference points. -/
theorem C23_transfer (c : Chain K) (p q : Vec3 K)
    (hr : ∀ l ∈ c.link, l.body.frame.att.IsRot) (hv : ∀ l ∈ c.link, COMVelCurrent l) :
    LinkArray.am c.link p =
      LinkArray.am c.link q + cross (q - p) (c.link.map fun l => mass l • comVel l).sum := by
  rw [C23_angular_momentum c p hr hv, C23_angular_momentum c q hr hv, cross_sum_right,
    ← sum_map_add']
  congr 1
  apply List.map_congr_left
  intro l _
  simp only [cross_sub_left]
  abel

/-! ## C24 -/

/-- **C24** The summary computed by `rkChainCalcExtWrench` together with the wrenches of the links
it skips, all of whose components are negligible, is the sum over the links of all wrenches pushed,
in world coordinates about the world origin. -/
theorem C24_ext_wrench [Zm K] (c : Chain K) (hr : ∀ l ∈ c.link, l.body.frame.att.IsRot) :
    LinkArray.calcExtWrench c.link +
      ((c.link.filter fun l => LinkArray.tiny6 l.body.calcExtWrench).map extWrench).sum =
    (c.link.map extWrench).sum := by
  simp only [LinkArray.calcExtWrench]
  have h1 : ∀ (ls : List (Link K)) (w : Vec6 K), (∀ l ∈ ls, l.body.frame.att.IsRot) →
      ls.foldl (fun w l => if LinkArray.tiny6 l.body.calcExtWrench then w
        else w + (l.body.frame.att.mulVec6 l.body.calcExtWrench).angShift l.body.frame.pos) w +
      ((ls.filter fun l => LinkArray.tiny6 l.body.calcExtWrench).map extWrench).sum =
      w + (ls.map extWrench).sum := by
    intro ls
    induction ls with
    | nil => intro w _; simp
    | cons l ls ih =>
      intro w hr
      by_cases ht : LinkArray.tiny6 l.body.calcExtWrench
      · simp only [List.foldl_cons, ht, if_true, List.filter_cons_of_pos, List.map_cons,
          List.sum_cons]
        have := ih w fun m hm => hr m (by simp [hm])
        rw [add_left_comm, this]; abel
      · simp only [List.foldl_cons, ht, Bool.false_eq_true, if_false, List.map_cons,
          List.sum_cons]
        rw [List.filter_cons_of_neg (by simpa using ht),
          ih _ fun m hm => hr m (by simp [hm]), extWrench_eq l (hr l (by simp))]
        abel
  have := h1 c.link 0 hr
  rw [zero_add] at this
  exact this

/-- **C24** If only the zero wrench is negligible, the summary is the exact sum. -/
theorem C24_ext_wrench_exact [Zm K] (c : Chain K) (hr : ∀ l ∈ c.link, l.body.frame.att.IsRot)
    (ht : ∀ x : K, Zm.tiny x = true → x = 0) :
    LinkArray.calcExtWrench c.link = (c.link.map extWrench).sum := by
  have h := C24_ext_wrench c hr
  have h0 : ((c.link.filter fun l => LinkArray.tiny6 l.body.calcExtWrench).map extWrench).sum = 0 := by
    refine List.sum_eq_zero fun x hx => ?_
    obtain ⟨l, hl, rfl⟩ := List.mem_map.1 hx
    obtain ⟨hl, htiny⟩ := List.mem_filter.1 hl
    have hz : l.body.calcExtWrench = 0 := by
      simp only [LinkArray.tiny6, Bool.and_eq_true] at htiny
      obtain ⟨⟨⟨⟨⟨a, b⟩, c⟩, d⟩, e⟩, f⟩ := htiny
      ext
      exacts [ht _ a, ht _ b, ht _ c, ht _ d, ht _ e, ht _ f]
    rw [← extWrench_eq l (hr l hl), hz]
    vec_ring
  rw [h0, add_zero] at h
  exact h

/-- **C24** Destroying the external wrenches makes the summary zero. -/
theorem C24_destroy [Zm K] (c : Chain K) :
    LinkArray.calcExtWrench (LinkArray.extWrenchDestroy c.link) = 0 := by
  simp only [LinkArray.calcExtWrench, LinkArray.extWrenchDestroy]
  induction c.link with
  | nil => rfl
  | cons l ls ih =>
    simp only [List.map_cons, List.foldl_cons]
    split_ifs with h
    · exact ih
    · have : (0 : Vec6 K) + (l.body.frame.att.mulVec6 (Body.calcExtWrench { l.body with extw := [] })).angShift
          l.body.frame.pos = 0 := by
        rw [show Body.calcExtWrench { l.body with extw := [] } = (0 : Vec6 K) from rfl]; vec_ring
      rw [this]; exact ih

/-! ## C25 -/

/-- **C25** A wrench list is a stack: popping after pushing returns the pushed wrench and restores
the list, an empty list gives nothing; the net wrench is the sum of forces, and of torques plus
moments of the forces, and does not depend on the order. -/
theorem C25_stack (l : WrenchList K) (w : Wrench K) :
    (l.push w).pop = (some w, l) ∧ WrenchList.pop ([] : WrenchList K) = (none, []) ∧
    l.net.lin = (l.map fun c => c.w.lin).sum ∧
    l.net.ang = (l.map fun c => c.w.ang + cross c.p c.w.lin).sum ∧
    (l.push w).net = w.shift + l.net ∧
    ∀ l', l.Perm l' → l.net = WrenchList.net l' := by
  refine ⟨rfl, rfl, ?_, ?_, ?_, ?_⟩
  · rw [net_eq, lin_sum]; rfl
  · rw [net_eq, ang_sum]; rfl
  · rw [net_eq, net_eq]; rfl
  · intro l' h
    rw [net_eq, net_eq]
    exact (h.map _).sum_eq

/-- **C25** After any sequence of pushes, as many pops return the pushed wrenches, last first, and
the original list. -/
theorem C25_lifo (l : WrenchList K) (ws : List (Wrench K)) :
    ws.foldl (fun st _ => (st.1 ++ [(WrenchList.pop st.2).1], (WrenchList.pop st.2).2))
      (([] : List (Option (Wrench K))), ws.foldl WrenchList.push l) = (ws.reverse.map some, l) := by
  have hpush : ∀ (ws : List (Wrench K)) (l : WrenchList K),
      ws.foldl WrenchList.push l = ws.reverse ++ l := by
    intro ws
    induction ws with
    | nil => intro l; rfl
    | cons w ws ih => intro l; simp [ih, WrenchList.push]
  have hpop : ∀ (n : List (Wrench K)) (r : List (Wrench K)) (acc : List (Option (Wrench K))),
      n.length = r.length →
      n.foldl (fun st _ => (st.1 ++ [(WrenchList.pop st.2).1], (WrenchList.pop st.2).2))
        (acc, r ++ l) = (acc ++ r.map some, l) := by
    intro n
    induction n with
    | nil => intro r acc h; cases r <;> simp_all
    | cons w n ih =>
      intro r acc h
      rcases r with _ | ⟨x, r⟩
      · simp at h
      · rw [List.foldl_cons]
        change n.foldl _ (acc ++ [some x], r ++ l) = _
        rw [ih r _ (by simpa using h)]; simp
  rw [hpush, hpop ws ws.reverse [] (by simp)]; simp

example : WrenchList.net ([⟨⟨⟨1, 0, 0⟩, 0⟩, ⟨0, 1, 0⟩⟩, ⟨⟨0, ⟨0, 0, 2⟩⟩, 0⟩] : WrenchList ℚ) =
    ⟨⟨1, 0, 0⟩, ⟨0, 0, 1⟩⟩ := by
  norm_num [WrenchList.net, Wrench.shift, Vec6.angShift, cross]
  ext <;> norm_num

end Roki
