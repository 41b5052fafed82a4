import Verif.Lemmas.Machine
set_option autoImplicit false

/-! # One mechanism described by different links and joints: sums over the links -/

namespace Roki.Machine
set_option linter.unusedSectionVars false
open Spec
variable {K : Type*} [Field K]

/-- A quantity of a load and its motion that adds up and does not depend on the frame of the load. -/
structure Sums {N : Type*} [AddCommGroup N] (φ : Load K → Frame K → Vec6 K → Vec6 K → N) : Prop where
  totals : ∀ {x L}, Totals x L → ∀ X v a, φ x X v a = (L.map fun y => φ y X v a).sum
  placed : ∀ {D X : Frame K}, D.att.IsRot → X.att.IsRot → ∀ x v a, φ (x.placed D) X v a = φ x (X.cascade D) (mvel D v) (macc D v a)

variable {N : Type*} [AddCommGroup N]

/-- The sum of a quantity over the links of a tree. -/
def over (φ : Load K → Frame K → Vec6 K → Vec6 K → N) (T : LTree (Link K)) : N :=
  (T.toList.map fun l => φ (loadOf l) l.body.frame l.body.vel l.body.acc).sum

theorem over_node (φ : Load K → Frame K → Vec6 K → Vec6 K → N) (l : Link K) (c s : LTree (Link K)) :
    over φ (.node l c s) = φ (loadOf l) l.body.frame l.body.vel l.body.acc + (over φ c + over φ s) := by
  simp [over, LTree.toList]

theorem over_nil (φ : Load K → Frame K → Vec6 K → Vec6 K → N) : over φ .nil = 0 := by simp [over, LTree.toList]

theorem over_beside (φ : Load K → Frame K → Vec6 K → Vec6 K → N) (t u : LTree (Link K)) : over φ (beside t u) = over φ t + over φ u := by
  simp [over, toList_beside]

theorem totals_bare {l : Link K} (h : Bare l) : Totals (loadOf l) [] := by
  obtain ⟨h1, h2, h3⟩ := h
  constructor <;> simp only [loadOf, h1, h3, List.map_nil, List.sum_nil, inertiaAbout, h2, resultant]
  · vec_ring
  · vec_ring

theorem Done.phi (φ : Load K → Frame K → Vec6 K → Vec6 K → N) {l z : Link K} {X : Frame K} {v a w : Vec6 K} (h : Done l z X v a w) :
    φ (loadOf z) z.body.frame z.body.vel z.body.acc = φ (loadOf l) (X.cascade (linkFrame l)) (V l v) (A l v a) := by
  rw [h.load, h.frame, h.vel, h.acc]

theorem sums {φ : Load K → Frame K → Vec6 K → Vec6 K → N} (hφ : Sums φ)
    {R : Frame K → Link K → Link K → Prop} {F : Frame K} {L : List (Load K)} {t u : LTree (Link K)} (h : Same R F L t u) :
    ∀ (X : Frame K) (v a : Vec6 K), X.att.IsRot → F.att.IsRot → (∀ m ∈ u.toList, m.org.att.IsRot ∧ m.joint.prp.WF) →
      over φ (run X v a t) + (L.map fun y => φ y X v a).sum = over φ (run (X.cascade F) (mvel F v) (macc F v a) u) := by
  have hn : ∀ (X : Frame K) (v a : Vec6 K), run X v a .nil = .nil := fun _ _ _ => rfl
  induction h with
  | nil F =>
    intro X v a _ _ _
    rw [hn, hn, over_nil]; simp
  | @link F L M l m c s c' s' ho hp ht _ _ _ ihc ihs =>
    intro X v a hX hF hw
    have hm := hw m (by simp [LTree.toList])
    have hlf : linkFrame l = F.cascade (linkFrame m) := by simp only [linkFrame, ho, hp, Frame.cascade_assoc]
    have hV : V l v = V m (mvel F v) := by simp only [V, hlf, hp, mvel_cascade hF]
    have hA : A l v a = A m (mvel F v) (macc F v a) := by simp only [A, hV, hlf, hp, macc_cascade hF]
    have hrl : (linkFrame l).att.IsRot := by rw [hlf]; exact hF.mul (isRot_linkFrame hm.1 hm.2)
    obtain ⟨z, ez, dz⟩ := run_node l c s X v a
    obtain ⟨y, ey, dy⟩ := run_node m c' s' (X.cascade F) (mvel F v) (macc F v a)
    have ic := ihc (X.cascade (linkFrame l)) (V l v) (A l v a) (hX.mul hrl) Mat3.isRot_one (fun m hm => hw m (by simp [LTree.toList, hm]))
    have is := ihs X v a hX hF (fun m hm => hw m (by simp [LTree.toList, hm]))
    rw [Frame.cascade_ident, mvel_ident, macc_ident] at ic
    rw [ez, ey, over_node, over_node, dz.phi φ, dy.phi φ, ← is, Frame.cascade_assoc, ← hlf, ← hV, ← hA, ← ic, hφ.totals ht]
    simp only [List.map_cons, List.sum_cons]
    abel
  | @cylin F L M l q m c s c' s' ho hmo hp hb ht _ _ _ ihc ihs =>
    intro X v a hX hF hw
    have hm := hw m (by simp [LTree.toList])
    have hq := hw q (by simp [LTree.toList])
    have hlm : linkFrame m = jointFrame m.joint.prp := by simp only [linkFrame, hmo, Frame.ident_cascade]
    have hlf : linkFrame l = (F.cascade (linkFrame q)).cascade (linkFrame m) := by
      rw [hlm]; simp only [linkFrame, ho, cylin_frame hp, Frame.cascade_assoc]
    have hro : (F.cascade q.org).att.IsRot := hF.mul hq.1
    have hrl : (linkFrame l).att.IsRot := by
      rw [hlf]; exact (hF.mul (isRot_linkFrame hq.1 hq.2)).mul (isRot_linkFrame hm.1 hm.2)
    have hV : V l v = V m (V q (mvel F v)) := by
      simp only [V, hlm]
      rw [linkFrame, ho, mvel_cascade hro, cylin_vel hp, mvel_cascade hF, linkFrame, mvel_cascade hq.1]
    have hA : A l v a = A m (V q (mvel F v)) (A q (mvel F v) (macc F v a)) := by
      simp only [A, V, hlm]
      rw [linkFrame, ho, mvel_cascade hro, macc_cascade hro, cylin_acc hp, mvel_cascade hF, macc_cascade hF, linkFrame, mvel_cascade hq.1,
        macc_cascade hq.1]
    obtain ⟨z, ez, dz⟩ := run_node l c s X v a
    obtain ⟨x, ex, dx⟩ := run_node q (.node m c' .nil) s' (X.cascade F) (mvel F v) (macc F v a)
    obtain ⟨y, ey, dy⟩ := run_node m c' .nil ((X.cascade F).cascade (linkFrame q)) (V q (mvel F v)) (A q (mvel F v) (macc F v a))
    have ic := ihc (X.cascade (linkFrame l)) (V l v) (A l v a) (hX.mul hrl) Mat3.isRot_one (fun m hm => hw m (by simp [LTree.toList, hm]))
    have is := ihs X v a hX hF (fun m hm => hw m (by simp [LTree.toList, hm]))
    rw [Frame.cascade_ident, mvel_ident, macc_ident] at ic
    have hXX : ((X.cascade F).cascade (linkFrame q)).cascade (linkFrame m) = X.cascade (linkFrame l) := by
      rw [hlf]; simp only [Frame.cascade_assoc]
    rw [ez, ex, ey, over_node, over_node, over_node, dz.phi φ, dx.phi φ, dy.phi φ, hn, over_nil, ← is, hXX, ← hV, ← hA, ← ic, hφ.totals ht,
      hφ.totals (totals_bare hb)]
    simp only [List.map_cons, List.sum_cons, List.map_nil, List.sum_nil]
    abel
  | @hooke F L M l q m c s c' s' ho hmo hp hb ht _ _ _ ihc ihs =>
    intro X v a hX hF hw
    have hm := hw m (by simp [LTree.toList])
    have hq := hw q (by simp [LTree.toList])
    have hlw : l.joint.prp.WF := by
      have h1 := hm.2
      have h2 := hq.2
      obtain ⟨_, _, _, e1, e2, e3, k1, k2, -, -, k3, k4, -⟩ := hp
      rw [e2] at h2; rw [e3] at h1; rw [e1]
      simp only [Prp.WF, k1, k2, k3, k4] at h1 h2 ⊢
      exact ⟨h2, h1⟩
    have hlm : linkFrame m = turnX.cascade (jointFrame m.joint.prp) := by simp only [linkFrame, hmo]
    have hlf : (linkFrame l).cascade turnX = (F.cascade (linkFrame q)).cascade (linkFrame m) := by
      rw [hlm]
      have := hooke_frame hp
      simp only [linkFrame, ho, Frame.cascade_assoc] at this ⊢
      rw [this]
    have hro : (F.cascade q.org).att.IsRot := hF.mul hq.1
    have hrl : (linkFrame l).att.IsRot := isRot_linkFrame (by rw [ho]; exact hro) hlw
    have hV : mvel turnX (V l v) = V m (V q (mvel F v)) := by
      simp only [V, hlm]
      rw [linkFrame, ho, mvel_cascade hro, hooke_vel hp, mvel_cascade hF, linkFrame, mvel_cascade hq.1]
    have hA : macc turnX (V l v) (A l v a) = A m (V q (mvel F v)) (A q (mvel F v) (macc F v a)) := by
      simp only [A, V, hlm]
      rw [linkFrame, ho, mvel_cascade hro, macc_cascade hro, hooke_acc hp hlw, mvel_cascade hF, macc_cascade hF, linkFrame, mvel_cascade hq.1,
        macc_cascade hq.1]
    obtain ⟨z, ez, dz⟩ := run_node l c s X v a
    obtain ⟨x, ex, dx⟩ := run_node q (.node m c' .nil) s' (X.cascade F) (mvel F v) (macc F v a)
    obtain ⟨y, ey, dy⟩ := run_node m c' .nil ((X.cascade F).cascade (linkFrame q)) (V q (mvel F v)) (A q (mvel F v) (macc F v a))
    have ic := ihc (X.cascade (linkFrame l)) (V l v) (A l v a) (hX.mul hrl) isRot_turnX (fun m hm => hw m (by simp [LTree.toList, hm]))
    have is := ihs X v a hX hF (fun m hm => hw m (by simp [LTree.toList, hm]))
    have hXX : ((X.cascade F).cascade (linkFrame q)).cascade (linkFrame m) = (X.cascade (linkFrame l)).cascade turnX := by
      rw [Frame.cascade_assoc X (linkFrame l), hlf]; simp only [Frame.cascade_assoc]
    rw [ez, ex, ey, over_node, over_node, over_node, dz.phi φ, dx.phi φ, dy.phi φ, hn, over_nil, ← is, hXX, ← hV, ← hA, ← ic, hφ.totals ht,
      hφ.totals (totals_bare hb)]
    simp only [List.map_cons, List.sum_cons, List.map_nil, List.sum_nil]
    rw [hφ.placed isRot_turnX (show (X.cascade (linkFrame l)).att.IsRot from hX.mul hrl)]
    abel
  | @fixed F L M m t u c' s' hp _ _ iht ihu =>
    intro X v a hX hF hw
    have hm := hw m (by simp [LTree.toList])
    have hlm : linkFrame m = m.org := by simp only [linkFrame, hp]; exact Frame.cascade_ident _
    have hro : (F.cascade m.org).att.IsRot := hF.mul hm.1
    have hV : V m (mvel F v) = mvel (F.cascade m.org) v := by simp only [V, hlm, hp, Prp.incVel, mvel_cascade hF]
    have hA : A m (mvel F v) (macc F v a) = macc (F.cascade m.org) v a := by
      simp only [A, hlm, hp, Prp.incAcc, Prp.incAccOnVel, macc_cascade hF]
    obtain ⟨y, ey, dy⟩ := run_node m c' s' (X.cascade F) (mvel F v) (macc F v a)
    have it := iht X v a hX hro (fun m hm => hw m (by simp [LTree.toList, hm]))
    have iu := ihu X v a hX hF (fun m hm => hw m (by simp [LTree.toList, hm]))
    rw [ey, run_beside, over_beside, over_node, dy.phi φ, hV, hA, hlm, Frame.cascade_assoc, ← iu, ← it]
    simp only [List.map_cons, List.sum_cons, List.map_append, List.sum_append]
    rw [hφ.placed hro hX]
    abel

/-! ## The quantities -/

def comV (x : Load K) (v : Vec6 K) : Vec3 K := v.lin + cross v.ang x.1.com
def comA (x : Load K) (v a : Vec6 K) : Vec3 K := triple v.ang v.ang x.1.com + cross a.ang x.1.com + a.lin
def phiMass (x : Load K) (_ : Frame K) (_ _ : Vec6 K) : K := x.1.mass
def phiFirst (x : Load K) (X : Frame K) (_ _ : Vec6 K) : Vec3 K := x.1.mass • X.xform x.1.com
def phiMom (x : Load K) (X : Frame K) (v _ : Vec6 K) : Vec3 K := x.1.mass • X.att.mulVec (comV x v)
def phiAcc (x : Load K) (X : Frame K) (v a : Vec6 K) : Vec3 K := x.1.mass • X.att.mulVec (comA x v a)
def phiKE (x : Load K) (_ : Frame K) (v _ : Vec6 K) : K := (dot v.ang (x.1.inertia.mulVec v.ang) + x.1.mass * sqrNorm (comV x v)) * (1 / 2)
def phiAM (p : Vec3 K) (x : Load K) (X : Frame K) (v _ : Vec6 K) : Vec3 K :=
  X.att.mulVec (x.1.mass • cross (x.1.com - X.xformInv p) (comV x v) + x.1.inertia.mulVec v.ang)

section
variable {x : Load K} {L : List (Load K)} (h : Totals x L)
include h

/-- A quantity that is linear in mass, first and second moment adds up. -/
theorem totals_linear (φ : Load K → N) (ψ : K → Vec3 K → Mat3 K → N) (e : ∀ y, φ y = ψ y.1.mass (y.1.mass • y.1.com) (inertiaAbout y.1 0))
    (h0 : ψ 0 0 0 = 0) (ha : ∀ m n f g I J, ψ (m + n) (f + g) (I + J) = ψ m f I + ψ n g J) : φ x = (L.map φ).sum := by
  obtain ⟨h1, h2, h3, -, -⟩ := h
  rw [e, h2, h3, h1]
  clear h1 h2 h3
  induction L with
  | nil => simpa using h0
  | cons y L ih => simp only [List.map_cons, List.sum_cons]; rw [ha, ih, e y]
end

theorem sums_mass : Sums (K := K) phiMass where
  totals h _ _ _ := h.mass
  placed _ _ _ _ _ := rfl

theorem sums_first : Sums (K := K) phiFirst where
  totals h X v a := by
    refine totals_linear h (fun y => phiFirst y X v a) (fun m f _ => X.att.mulVec f + m • X.pos) ?_ ?_ ?_
    · intro y; simp only [phiFirst]; vec_ring
    · vec_ring
    · intros; vec_ring
  placed {D X} _ _ x v a := by
    show _ • X.xform (D.att.mulVec x.1.com + D.pos) = _ • (X.cascade D).xform x.1.com
    rw [Frame.cascade_xform]
    have : D.att.mulVec x.1.com + D.pos = D.xform x.1.com := by vec_ring
    rw [this]
    rfl

theorem comV_placed {D : Frame K} (h : D.att.IsRot) (x : Load K) (v : Vec6 K) : comV (x.placed D) v = D.att.mulVec (comV x (mvel D v)) := by
  simp only [comV, Load.placed, mvel, Frame.xform6Lin, Mat3.mulVecT6, Vec6.linShift, Mat3.mulVec_add, h.mulVec_cross, h.mulVec_mulVecT]
  rw [cross_add_right]; abel

theorem comA_placed {D : Frame K} (h : D.att.IsRot) (x : Load K) (v a : Vec6 K) :
    comA (x.placed D) v a = D.att.mulVec (comA x (mvel D v) (macc D v a)) := by
  simp only [comA, triple, Load.placed, mvel, macc, Frame.xform6Lin, Mat3.mulVecT6, Vec6.linShift, Mat3.mulVec_add, h.mulVec_cross, h.mulVec_mulVecT]
  simp only [cross_add_right]; abel

theorem sums_mom : Sums (K := K) phiMom where
  totals h X v a := by
    refine totals_linear h (fun y => phiMom y X v a) (fun m f _ => X.att.mulVec (m • v.lin + cross v.ang f)) ?_ ?_ ?_
    · intro y; simp only [phiMom, comV]; vec_ring
    · vec_ring
    · intros; vec_ring
  placed {D X} hD _ x v a := by
    simp only [phiMom, comV_placed hD, Frame.cascade_att, Mat3.mul_mulVec]
    rfl

theorem sums_acc : Sums (K := K) phiAcc where
  totals h X v a := by
    refine totals_linear h (fun y => phiAcc y X v a) (fun m f _ => X.att.mulVec (cross v.ang (cross v.ang f) + cross a.ang f + m • a.lin)) ?_ ?_ ?_
    · intro y; simp only [phiAcc, comA]; vec_ring
    · vec_ring
    · intros; vec_ring
  placed {D X} hD _ x v a := by
    simp only [phiAcc, comA_placed hD, Frame.cascade_att, Mat3.mul_mulVec]
    rfl

theorem placed_inertia (D : Frame K) (x : Load K) (u : Vec3 K) :
    (x.placed D).1.inertia.mulVec u = D.att.mulVec (x.1.inertia.mulVec (D.att.mulVecT u)) := by
  show ((D.att.mul x.1.inertia).mul D.att.tr).mulVec u = _
  rw [Mat3.mul_mulVec, Mat3.mul_mulVec, Mat3.mulVecT_eq]

theorem sums_ke : Sums (K := K) phiKE where
  totals h X v a := by
    refine totals_linear h (fun y => phiKE y X v a)
      (fun m f I => (dot v.ang (I.mulVec v.ang) + m * sqrNorm v.lin + 2 * dot v.lin (cross v.ang f)) * (1 / 2)) ?_ ?_ ?_
    · intro y; simp only [phiKE, comV, inertiaAbout]; vec_ring
    · vec_ring
    · intros; vec_ring
  placed {D X} hD _ x v a := by
    simp only [phiKE, comV_placed hD, placed_inertia, sqrNorm, hD.dot_mulVec_mulVec, Mat3.dot_mulVec]
    rfl

theorem xformInv_cascade {X : Frame K} (hX : X.att.IsRot) (D : Frame K) (p : Vec3 K) :
    (X.cascade D).xformInv p = D.xformInv (X.xformInv p) := by
  simp only [Frame.xformInv, Frame.cascade_pos, Frame.cascade_att, Mat3.mul_mulVecT, Mat3.mulVecT_sub, Mat3.mulVecT_add, hX.mulVecT_mulVec]
  abel

theorem sums_am (p : Vec3 K) : Sums (K := K) (phiAM p) where
  totals h X v a := by
    refine totals_linear h (fun y => phiAM p y X v a)
      (fun m f I => X.att.mulVec (cross f v.lin + I.mulVec v.ang - cross (X.xformInv p) (m • v.lin + cross v.ang f))) ?_ ?_ ?_
    · intro y
      simp only [phiAM, comV, inertiaAbout]
      generalize X.xformInv p = q
      congr 1
      vec_ring
    · generalize X.xformInv p = q
      vec_ring
    · intros
      generalize X.xformInv p = q
      vec_ring
  placed {D X} hD hX x v a := by
    simp only [phiAM, comV_placed hD, placed_inertia, xformInv_cascade hX, Frame.cascade_att, Mat3.mul_mulVec]
    generalize X.xformInv p = q
    have e : (x.placed D).1.com - q = D.att.mulVec (x.1.com - D.xformInv q) := by
      show D.att.mulVec x.1.com + D.pos - q = _
      simp only [Frame.xformInv, Mat3.mulVec_sub, hD.mulVec_mulVecT]
      abel
    rw [e, ← hD.mulVec_cross]
    congr 1
    show x.1.mass • _ + _ = _
    rw [← Mat3.mulVec_smul, ← Mat3.mulVec_add]
    rfl

end Roki.Machine
