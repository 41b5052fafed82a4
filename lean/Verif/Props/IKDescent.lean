import Verif.Lemmas.IKDescent
import Verif.Props.IKError
import Verif.Lemmas.JacobiSize
import Verif.Lemmas.Torsion
set_option autoImplicit false

/-!
# C103: the default method for the joint velocities goes downhill

The velocities that `rkIKSolveRate` finds reduce the weighted squared error of the constraints, both that of the equation
and, along every motion of the chain with these velocities, the error itself; they are zero only where no motion of the
registered joints reduces it.
-/

namespace Roki
open LinkArray
open Finset (range)

/-! ## The equation -/

section
variable {K : Type*} [Field K] [LinearOrder K] [IsStrictOrderedRing K]

theorem ikMiss_scale (M : List (List K)) (s w : List K) (n : ℕ) (x : ℕ → K) (r : K) :
    Spec.ikMiss M s w n (fun i => r * x i) = Spec.ikMiss M s w n (fun _ => 0) -
      2 * r * ∑ k ∈ range M.length, w.getD k 0 * (s.getD k 0 * ∑ j ∈ range n, Spec.ikCoef M k j * x j) +
      r ^ 2 * ∑ k ∈ range M.length, w.getD k 0 * (∑ j ∈ range n, Spec.ikCoef M k j * x j) ^ 2 := by
  simp only [Spec.ikMiss]
  rw [Finset.mul_sum, Finset.mul_sum, ← Finset.sum_sub_distrib, ← Finset.sum_add_distrib]
  refine Finset.sum_congr rfl fun k _ => ?_
  have : ∑ j ∈ range n, Spec.ikCoef M k j * (r * x j) = r * ∑ j ∈ range n, Spec.ikCoef M k j * x j := by
    rw [Finset.mul_sum]; exact Finset.sum_congr rfl fun j _ => by ring
  rw [this]
  simp only [mul_zero, Finset.sum_const_zero]
  ring

theorem damped_pos {M : List (List K)} {s w wn : List K} {n : ℕ} (hs : s.length = M.length) (hw : ∀ k < M.length, 0 ≤ w.getD k 0)
    (hn : ∀ i < n, 0 < wn.getD i 0) (x : ℕ → K) : 0 ≤ ∑ i ∈ range n, Spec.ikDamp s w wn i * x i ^ 2 ∧
      (∑ i ∈ range n, Spec.ikDamp s w wn i * x i ^ 2 = 0 → ∀ i < n, x i = 0) := by
  have hd : ∀ i ∈ range n, 0 ≤ Spec.ikDamp s w wn i * x i ^ 2 := fun i hi =>
    mul_nonneg (damp_pos s w wn (by rw [hs]; exact hw) (hn i (Finset.mem_range.1 hi))).le (sq_nonneg _)
  refine ⟨Finset.sum_nonneg hd, fun h i hi => ?_⟩
  have := (Finset.sum_eq_zero_iff_of_nonneg hd).1 h i (Finset.mem_range.2 hi)
  rcases mul_eq_zero.1 this with h1 | h1
  · exact absurd h1 (damp_pos s w wn (by rw [hs]; exact hw) (hn i hi)).ne'
  · exact pow_eq_zero_iff (two_ne_zero) |>.1 h1

/-- A method for the joint velocities that goes downhill: a full step reduces the error by at least the squared weighted motion
of the constraints, and the velocities are zero only where the error is stationary. -/
def Downhill (jv : List (List K) → List K → List K → List K → List K → ℕ → K) : Prop :=
  ∀ (M : List (List K)) (s w wn v0 : List K), s.length = M.length → w.length = M.length → (∀ k < M.length, 0 ≤ w.getD k 0) →
    (∀ i < v0.length, 0 < wn.getD i 0) →
    ∑ k ∈ range M.length, w.getD k 0 * (∑ j ∈ range v0.length, Spec.ikCoef M k j * jv M s wn w v0 j) ^ 2 ≤
      ∑ k ∈ range M.length, w.getD k 0 * (s.getD k 0 * ∑ j ∈ range v0.length, Spec.ikCoef M k j * jv M s wn w v0 j) ∧
    (∑ k ∈ range M.length, w.getD k 0 * (s.getD k 0 * ∑ j ∈ range v0.length, Spec.ikCoef M k j * jv M s wn w v0 j) = 0 →
      ∀ i < v0.length, jv M s wn w v0 i = 0) ∧
    ((∀ i < v0.length, jv M s wn w v0 i = 0) → ∀ i < v0.length, normalVec M s w i = 0)

theorem jointVelAD_downhill {gauss : ℕ → (ℕ → ℕ → K) → (ℕ → K) → Option (ℕ → K)} (hg : Spec.Gauss gauss) : Downhill (IK.jointVelAD gauss) := by
  intro M s w wn v0 hs hlw hw hn
  have hx := jointVelAD_normal M s w wn v0 hg hs hlw hw hn
  have e := descent_identity M s w wn v0.length _ two_ne_zero hx
  obtain ⟨d0, d1⟩ := damped_pos hs hw hn (IK.jointVelAD gauss M s wn w v0)
  have h1 : 0 ≤ ∑ k ∈ range M.length, w.getD k 0 *
      (∑ j ∈ range v0.length, Spec.ikCoef M k j * IK.jointVelAD gauss M s wn w v0 j) ^ 2 :=
    Finset.sum_nonneg fun k hk => mul_nonneg (hw k (Finset.mem_range.1 hk)) (sq_nonneg _)
  refine ⟨by linarith, fun hz => d1 (by linarith), fun h i hi => ?_⟩
  rw [← hx i hi]
  exact Finset.sum_eq_zero fun j hj => by rw [h j (Finset.mem_range.1 hj), mul_zero]

/-- **C103** A step along the velocities of the default method, up to twice their length, does not increase the weighted
squared error of the equation; it reduces it unless the velocities are zero. -/
theorem C103_equation {gauss : ℕ → (ℕ → ℕ → K) → (ℕ → K) → Option (ℕ → K)} (hg : Spec.Gauss gauss)
    (M : List (List K)) (s w wn v0 : List K) (hs : s.length = M.length) (hlw : w.length = M.length)
    (hw : ∀ k < M.length, 0 ≤ w.getD k 0) (hn : ∀ i < v0.length, 0 < wn.getD i 0) (r : K) (h0 : 0 < r) (h2 : r ≤ 2) :
    Spec.ikMiss M s w v0.length (fun i => r * IK.jointVelAD gauss M s wn w v0 i) ≤ Spec.ikMiss M s w v0.length (fun _ => 0) ∧
    ((∃ i < v0.length, IK.jointVelAD gauss M s wn w v0 i ≠ 0) →
      Spec.ikMiss M s w v0.length (fun i => r * IK.jointVelAD gauss M s wn w v0 i) < Spec.ikMiss M s w v0.length (fun _ => 0)) := by
  have hx := jointVelAD_normal M s w wn v0 hg hs hlw hw hn
  have e := descent_identity M s w wn v0.length _ two_ne_zero hx
  obtain ⟨d0, d1⟩ := damped_pos hs hw hn (IK.jointVelAD gauss M s wn w v0)
  have h1 : 0 ≤ ∑ k ∈ range M.length, w.getD k 0 *
      (∑ j ∈ range v0.length, Spec.ikCoef M k j * IK.jointVelAD gauss M s wn w v0 j) ^ 2 :=
    Finset.sum_nonneg fun k hk => mul_nonneg (hw k (Finset.mem_range.1 hk)) (sq_nonneg _)
  have key := ikMiss_scale M s w v0.length (IK.jointVelAD gauss M s wn w v0) r
  rw [e] at key
  have a1 : 0 ≤ r * (2 - r) * ∑ k ∈ range M.length, w.getD k 0 *
      (∑ j ∈ range v0.length, Spec.ikCoef M k j * IK.jointVelAD gauss M s wn w v0 j) ^ 2 :=
    mul_nonneg (mul_nonneg h0.le (by linarith)) h1
  have a2 : 0 ≤ 2 * r * ∑ i ∈ range v0.length, Spec.ikDamp s w wn i * IK.jointVelAD gauss M s wn w v0 i ^ 2 :=
    mul_nonneg (by linarith) d0
  refine ⟨by nlinarith [key], fun ⟨i, hi, hne⟩ => ?_⟩
  have d2 := lt_of_le_of_ne d0 (fun h => hne (d1 h.symm i hi))
  have a3 : 0 < 2 * r * ∑ i ∈ range v0.length, Spec.ikDamp s w wn i * IK.jointVelAD gauss M s wn w v0 i ^ 2 :=
    mul_pos (by linarith) d2
  nlinarith [key]

/-- **C103** The velocities of the default method are zero only where the weighted squared error of the equation cannot be
reduced at all: then zero velocities are its minimum. -/
theorem C103_equation_stop {gauss : ℕ → (ℕ → ℕ → K) → (ℕ → K) → Option (ℕ → K)} (hg : Spec.Gauss gauss)
    (M : List (List K)) (s w wn v0 : List K) (hs : s.length = M.length) (hlw : w.length = M.length)
    (hw : ∀ k < M.length, 0 ≤ w.getD k 0) (hn : ∀ i < v0.length, 0 < wn.getD i 0) :
    (∀ i < v0.length, IK.jointVelAD gauss M s wn w v0 i = 0) ↔
      ∀ y : ℕ → K, Spec.ikMiss M s w v0.length (fun _ => 0) ≤ Spec.ikMiss M s w v0.length y := by
  have hx := jointVelAD_normal M s w wn v0 hg hs hlw hw hn
  constructor
  · intro h y
    have hv : ∀ i < v0.length, normalVec M s w i = 0 := fun i hi => by
      rw [← hx i hi]
      exact Finset.sum_eq_zero fun j hj => by rw [h j (Finset.mem_range.1 hj), mul_zero]
    have key := ikMiss_scale M s w v0.length y 1
    have e : ∑ k ∈ range M.length, w.getD k 0 * (s.getD k 0 * ∑ j ∈ range v0.length, Spec.ikCoef M k j * y j) =
        ∑ j ∈ range v0.length, y j * normalVec M s w j := by
      simp only [normalVec, Finset.mul_sum]
      rw [Finset.sum_comm]
      exact Finset.sum_congr rfl fun j _ => Finset.sum_congr rfl fun k _ => by ring
    rw [e, Finset.sum_eq_zero (fun j hj => by rw [hv j (Finset.mem_range.1 hj), mul_zero])] at key
    simp only [one_mul] at key
    have h1 : 0 ≤ ∑ k ∈ range M.length, w.getD k 0 * (∑ j ∈ range v0.length, Spec.ikCoef M k j * y j) ^ 2 :=
      Finset.sum_nonneg fun k hk => mul_nonneg (hw k (Finset.mem_range.1 hk)) (sq_nonneg _)
    rw [show Spec.ikMiss M s w v0.length y = Spec.ikMiss M s w v0.length (fun i => y i) from rfl, key]
    linarith
  · intro h i hi
    by_contra hne
    have := (C103_equation hg M s w wn v0 hs hlw hw hn 1 one_pos one_le_two).2 ⟨i, hi, hne⟩
    exact absurd (h _) (not_le.2 this)
end

/-! ## Along the motion of the chain -/

namespace Spec
/-- The weighted squared error of the constraints at the chain `c`. -/
noncomputable def ikMismatch (c : Chain ℝ) (cs : List (IKCell ℝ)) : ℝ :=
  (cs.map fun x => ((ikAxes x.attr).map fun s => x.attr.w.get s * ((x.fns.srv c x.attr x.ref).getD 0).get s ^ 2).sum).sum

/-- A constraint on the position of a point of a link of the chain, or on that of the center of mass, without accumulation. -/
def IkPos (c : Chain ℝ) (x : IKCell ℝ) : Prop :=
  x.attr.force = false ∧ (x.fns = IKFns.wldPos ∧ x.attr.id < c.link.length ∨ x.fns = IKFns.com)

/-- The motion `d` passes, at time `t`, through the pose of the chain `c` with the joint velocities `vel`, the links placed
by forward kinematics in `d1`. -/
structure Passes (c : Chain ℝ) (d d1 : ℝ → Chain ℝ) (t : ℝ) (vel : List ℝ) : Prop where
  motion : Motion d
  mass : ∀ s s', (d s).mass = (d s').mass
  mass0 : (d t).mass ≠ 0
  fk : ∀ s, (d s).updateFK = some (d1 s)
  read : ReadVel (d t) vel
  pose : ∃ acc ls, setJointRateAll vel acc c.link = some ls ∧ d1 t = { c with link := ls }
end Spec

open Spec Jacobi

theorem VecDeriv.get {e : ℝ → Vec3 ℝ} {v : Vec3 ℝ} {t : ℝ} (h : VecDeriv e v t) (s : ℕ) :
    HasDerivAt (fun u => (e u).get s) (v.get s) t := by
  rcases s with _ | _ | s
  · exact h.1
  · exact h.2.1
  · exact h.2.2

theorem Spec.Passes.cell {c : Chain ℝ} {d d1 : ℝ → Chain ℝ} {t : ℝ} {vel : List ℝ} (P : Passes c d d1 t vel) {x : IKCell ℝ}
    (hx : IkPos c x) {m J : Mat ℝ} {e0 : Vec3 ℝ} (hm : m.length = jointSize (d t).link) (hJ : x.fns.cmat c x.attr m = some J)
    (he : x.fns.srv c x.attr x.ref = some e0) :
    ∃ e : ℝ → Vec3 ℝ, (∀ s, x.fns.srv (d1 s) x.attr x.ref = some (e s)) ∧ e t = e0 ∧ VecDeriv e (-jacMul J vel) t := by
  obtain ⟨acc, ls, hls, hd⟩ := P.pose
  have hv : (d1 t).link.map Jacobi.view = c.link.map Jacobi.view := by rw [hd]; exact Jacobi.view_rate hls
  have hs : (d1 t).shape = c.shape := by rw [hd]
  have hM : (d1 t).mass = c.mass := by rw [hd]
  have hW : (d1 t).wldCOM = c.wldCOM := by rw [hd]
  have hlen : c.link.length = (d 0).link.length := by
    have h1 : (d1 t).link.length = c.link.length := by simpa using congrArg List.length hv
    obtain ⟨-, -, -, -, -, hn, -⟩ := (P.motion.wf t).updateFK (P.fk t)
    rw [← h1, hn, P.motion.length t 0]
  rcases hx.2 with ⟨hf, hi⟩ | hf
  · rw [hf] at hJ he ⊢
    obtain ⟨e, J', h1, h2, h3⟩ := C78_world_position d d1 P.motion P.fk t vel P.read x.attr x.ref m hm (by rw [← hlen]; exact hi)
    have e1 : J' = J := by
      have : (IKFns.wldPos : IKFns ℝ).cmat (d1 t) x.attr m = (IKFns.wldPos : IKFns ℝ).cmat c x.attr m := Jacobi.wldLin_view hv hs _ _ _
      rw [this, hJ] at h2
      exact (Option.some.inj h2).symm
    subst e1
    refine ⟨e, h1, ?_, h3⟩
    have h4 := h1 t
    rcases Jacobi.view_get hv x.attr.id with ⟨g1, g2⟩ | ⟨l, l', g1, g2, g3⟩
    · simp only [IKFns.wldPos, g1, Option.map_none, reduceCtorEq] at h4
    · have hb : l'.body = l.body := by simp only [Jacobi.view, Prod.mk.injEq] at g3; exact g3.2.2.2.2
      simp only [IKFns.wldPos, g1, g2, Option.map_some, Option.some.injEq, hb] at h4 he
      rw [← h4, ← he]
  · rw [hf] at hJ he ⊢
    obtain ⟨e, J', h1, h2, h3⟩ := C78_com d d1 P.motion P.fk t vel P.read x.attr x.ref m hm P.mass P.mass0
    have e1 : J' = J := by
      have : (IKFns.com : IKFns ℝ).cmat (d1 t) x.attr m = (IKFns.com : IKFns ℝ).cmat c x.attr m := Jacobi.com_view hv hs hM _
      rw [this, hJ] at h2
      exact (Option.some.inj h2).symm
    subst e1
    refine ⟨e, h1, ?_, h3⟩
    have h4 := h1 t
    simp only [IKFns.com, Option.some.injEq, hW] at h4 he
    rw [← h4, ← he]

theorem Spec.Passes.size {c : Chain ℝ} {d d1 : ℝ → Chain ℝ} {t : ℝ} {vel : List ℝ} (P : Passes c d d1 t vel) :
    jointSize (d t).link = jointSize c.link ∧ vel.length = jointSize c.link := by
  obtain ⟨acc, ls, hls, hd⟩ := P.pose
  obtain ⟨T0, hT0, hg1, hw1, hs1, hn1, hm1⟩ := (P.motion.wf t).updateFK (P.fk t)
  have e1 : (d1 t).link.map (fun l : Link ℝ => l.size) = (d t).link.map fun l => l.size := by
    refine Chain.map_eq_of_gather hg1 (hs1 ▸ hT0) hn1 (fun i hi => hw1.mem.2 hi) _ ?_
    rw [LTree.updateFrame_eq]
    refine LTree.down_map_inv _ ?_ _ _
    intro _ _; rfl
  have e2 : (d1 t).link.map (fun l : Link ℝ => l.size) = c.link.map fun l => l.size := by
    have := congrArg (List.map fun v => v.2.1) (Jacobi.view_rate hls)
    rw [List.map_map, List.map_map] at this
    rw [hd]
    exact this
  have e : jointSize (d t).link = jointSize c.link := by
    rw [jointSize_eq, jointSize_eq, sizes, sizes, ← e1, e2]
  obtain ⟨c2, hid⟩ := P.motion.exists_id P.fk 0
  obtain ⟨-, -, hl⟩ := P.motion.invDyn P.fk hid t P.read
  exact ⟨e, hl.trans e⟩

/-- The chains `d1` pass, at time `t`, through the pose of the chain `c` with the joint velocities `vel`, as far as the
positions of points of links and of the center of mass tell. -/
structure Spec.Follows (c : Chain ℝ) (d1 : ℝ → Chain ℝ) (t : ℝ) (vel : List ℝ) : Prop where
  cell : ∀ {x : IKCell ℝ}, IkPos c x → ∀ {m J : Mat ℝ} {e0 : Vec3 ℝ}, m.length = jointSize c.link →
    x.fns.cmat c x.attr m = some J → x.fns.srv c x.attr x.ref = some e0 →
    ∃ e : ℝ → Vec3 ℝ, (∀ s, x.fns.srv (d1 s) x.attr x.ref = some (e s)) ∧ e t = e0 ∧ VecDeriv e (-jacMul J vel) t
  size : vel.length = jointSize c.link

theorem Spec.Passes.follows {c : Chain ℝ} {d d1 : ℝ → Chain ℝ} {t : ℝ} {vel : List ℝ} (P : Passes c d d1 t vel) : Follows c d1 t vel :=
  ⟨fun hx _ _ _ hm hJ he => P.cell hx (hm.trans P.size.1.symm) hJ he, P.size.2⟩

theorem hasDerivAt_listSum {α : Type*} {f : α → ℝ → ℝ} {f' : α → ℝ} {t : ℝ} : ∀ l : List α, (∀ a ∈ l, HasDerivAt (f a) (f' a) t) →
    HasDerivAt (fun u => (l.map fun a => f a u).sum) ((l.map f').sum) t
  | [], _ => by simpa using hasDerivAt_const t (0 : ℝ)
  | a :: l, h => by
    simp only [List.map_cons, List.sum_cons]
    exact (h a (by simp)).add (hasDerivAt_listSum l fun b hb => h b (by simp [hb]))

theorem list_sum_range {α : Type*} {f : α → ℝ} : ∀ {l : List α} {F : ℕ → ℝ}, (∀ k a, l[k]? = some a → f a = F k) →
    (l.map f).sum = ∑ k ∈ range l.length, F k
  | [], _, _ => by simp
  | a :: l, F, h => by
    rw [List.map_cons, List.sum_cons, List.length_cons, Finset.sum_range_succ', h 0 a rfl,
      list_sum_range (F := fun k => F (k + 1)) fun k b hb => h (k + 1) b (by simpa using hb), add_comm]

theorem list_sum_mul {α : Type*} (k : ℝ) (f : α → ℝ) : ∀ l : List α, (l.map fun a => k * f a).sum = k * (l.map f).sum
  | [] => by simp
  | a :: l => by simp [list_sum_mul k f l, mul_add]

/-- The rate of the weighted squared error. -/
theorem Spec.Follows.rate [ZSqrt ℝ] {c : Chain ℝ} {d1 : ℝ → Chain ℝ} {t : ℝ} {vel : List ℝ} (P : Follows c d1 t vel)
    {m : Mat ℝ} {cs ys : List (IKCell ℝ)} {bs : List (IkBlock ℝ)} (hb : IkBlocks c m cs bs ys)
    (hx : ∀ x ∈ cs, x.attr.isDisabled = false → IkPos c x) (hk : ∀ x ∈ cs, IK.KeepsSize x.fns)
    (hm : m.length = jointSize c.link) :
    HasDerivAt (fun s => ikMismatch (d1 s) cs)
      (-2 * ((ikRows bs).map fun q => q.1.cell.attr.w.get q.2 * (q.1.ref.get q.2 * (jacMul q.1.jac vel).get q.2)).sum) t ∧
      ∀ b ∈ bs, b.jac.length = jointSize c.link := by
  induction hb with
  | nil m => simpa [ikMismatch, ikRows] using hasDerivAt_const t (0 : ℝ)
  | @off m x xs bs ys hd _ ih =>
    obtain ⟨h1, h2⟩ := ih (fun y hy => hx y (by simp [hy])) (fun y hy => hk y (by simp [hy])) hm
    refine ⟨?_, h2⟩
    have : ∀ s, ikMismatch (d1 s) (x :: xs) = ikMismatch (d1 s) xs := by
      intro s
      have : ikAxes x.attr = [] := by
        simp only [IKAttr.isDisabled, Bool.not_eq_true', Bool.or_eq_false_iff] at hd
        simp [ikAxes, hd]
      simp [ikMismatch, this]
    simpa only [this] using h1
  | @on m x xs bs ys J e0 hd hJ he _ ih =>
    have hl : J.length = jointSize c.link := (hk x (by simp) _ _ _ _ hJ).trans hm
    obtain ⟨h1, h2⟩ := ih (fun y hy => hx y (by simp [hy])) (fun y hy => hk y (by simp [hy])) hl
    have hp := hx x (by simp) hd
    obtain ⟨e, g1, g2, g3⟩ := P.cell hp hm hJ he
    refine ⟨?_, ?_⟩
    · have hc : ∀ s, ikMismatch (d1 s) (x :: xs) =
          ((ikAxes x.attr).map fun a => x.attr.w.get a * (e s).get a ^ 2).sum + ikMismatch (d1 s) xs := by
        intro s
        simp only [ikMismatch, List.map_cons, List.sum_cons, g1 s, Option.getD_some]
      have hsum := hasDerivAt_listSum (f := fun a u => x.attr.w.get a * (e u).get a ^ 2)
        (f' := fun a => -2 * (x.attr.w.get a * (e0.get a * (jacMul J vel).get a))) (t := t) (ikAxes x.attr) (fun a _ => by
          have := ((VecDeriv.get g3 a).pow 2).const_mul (x.attr.w.get a)
          refine this.congr_deriv ?_
          have : (-jacMul J vel).get a = -(jacMul J vel).get a := by
            rcases a with _ | _ | a <;> rfl
          rw [this, g2]
          simp only [Nat.cast_ofNat, Nat.add_one_sub_one, pow_one]
          ring)
      simp only [hc]
      refine (hsum.add h1).congr_deriv ?_
      rw [list_sum_mul]
      simp only [ikRows, List.flatMap_cons, List.map_append, List.sum_append, List.map_map, Function.comp_def, hp.1,
        Bool.false_eq_true, if_false]
      ring
    · intro b hb
      rcases List.mem_cons.1 hb with rfl | hb
      · exact hl
      · exact h2 b hb

section
variable [Zm ℝ] [ZSqrt ℝ] {c : Chain ℝ} {jv : List (List ℝ) → List ℝ → List ℝ → List ℝ → List ℝ → ℕ → ℝ}
  {ops : List (IK.Op ℝ)} {ik : IK ℝ}

/-- The rate of the weighted squared error in terms of the equation that `rkIKEq` sets up. -/
theorem solver_rate (ho : setOffset c.link = c.link) (hs : ∀ o ∈ ops, o.Sized) (h : (IK.create c jv).runAll ops = some ik)
    (hne : ik.clist ≠ []) (hpos : ∀ x ∈ ik.clist, x.attr.isDisabled = false → IkPos ik.chain x)
    (hrest : ∀ i p, ikJoints c.link ops i = none → Owns ik.chain.link i p → ik.vel[p]? = some 0)
    {q : IK ℝ} (he : ik.eq = some q) {M : List (List ℝ)} (hM : q.cmat = some M) {d1 : ℝ → Chain ℝ} {t : ℝ} {v : List ℝ}
    (P : Follows ik.chain d1 t v) (hv : ∀ i p, ikJoints c.link ops i = none → Owns ik.chain.link i p → v[p]? = some 0) :
    HasDerivAt (fun s => ikMismatch (d1 s) ik.clist)
      (-2 * ∑ k ∈ range (M.take q.rows).length, (q.cwe.take q.rows).getD k 0 * ((q.csrv.take q.rows).getD k 0 *
        ∑ i ∈ range ik.chain.link.length, if (ikJoints c.link ops i).isSome then
          (match ik.chain.link[i]? with
          | some l => ∑ j ∈ range l.joint.prp.size,
              ikCoef (M.take q.rows) k (ikOfs ik.chain.link (ikJoints c.link ops) i + j) * v.getD (l.offset.toNat + j) 0
          | none => 0) else 0)) t := by
  have hj := IK.runAll_joints ops (IK.Joints.create c jv) h
  change IK.Joints c.link (ikJoints c.link ops) ik at hj
  have hb := IK.runAll_bufs ho ops (IK.Joints.create c jv) (IK.Bufs.create c jv) hs h
  have henv := hj.env ho
  obtain ⟨bs, hbs, hrows, -, M', hM', hk⟩ := C40_equation c jv ho ops hs ik q h hne he
  rw [hM] at hM'
  cases hM'
  have z2 := P.size
  have hm : ik.matCell.length = jointSize ik.chain.link := by
    rw [hb.lmat]
    have := henv.lvel
    rw [hj.lvel] at this
    exact this
  obtain ⟨hd, hjl⟩ := P.rate hbs hpos hb.fns hm
  have own : ∀ {i : ℕ} {l : Link ℝ}, ik.chain.link[i]? = some l → ∀ j < l.joint.prp.size, Owns ik.chain.link i (l.offset.toNat + j) := by
    intro i l hl j hj'
    have h0 : 0 ≤ l.offset := by
      have := setOffsetFrom_getElem? 0 ik.chain.link i
      rw [show setOffsetFrom 0 ik.chain.link = ik.chain.link from henv.ofs, hl, Option.map_some, Option.some.injEq] at this
      have := congrArg (fun l : Link ℝ => l.offset) this
      have h2 : 0 < l.size := by show 0 < l.joint.prp.size; omega
      simp only [offsetAt, h2, if_true] at this
      omega
    exact ⟨l, hl, by omega, by omega, by omega⟩
  have hlen : (M.take q.rows).length = (ikRows bs).length := by
    rw [List.length_take, hrows]
    refine min_eq_left ?_
    by_contra hlt
    push Not at hlt
    have hlast : (ikRows bs)[M.length]? = some ((ikRows bs)[M.length]) := List.getElem?_eq_getElem hlt
    obtain ⟨row, e, r1, -⟩ := hk M.length _ _ hlast
    simp at r1
  refine hd.congr_deriv ?_
  rw [hlen]
  congr 1
  refine list_sum_range fun k a ha => ?_
  obtain ⟨b, s⟩ := a
  obtain ⟨row, e, r1, r2, r3, r4, r5⟩ := hk k b s ha
  have hkl : k < q.rows := by
    rw [hrows]
    exact (List.getElem?_eq_some_iff.1 ha).1
  have hbm : b ∈ bs := by
    have := List.mem_of_getElem? ha
    simp only [ikRows, List.mem_flatMap, List.mem_map, Prod.mk.injEq] at this
    obtain ⟨b', hb', -, -, rfl, -⟩ := this
    exact hb'
  have hfree : ikFree ik.chain.link (ikJoints c.link ops) ik.vel b.jac s = 0 := by
    refine Finset.sum_eq_zero fun i _ => ?_
    split_ifs with hr
    · rfl
    · cases hl : ik.chain.link[i]? with
      | none => rfl
      | some l =>
        refine Finset.sum_eq_zero fun j hj' => ?_
        rw [List.getD_eq_getElem?_getD (l := ik.vel), hrest i _ (by simpa using hr) (own hl j (Finset.mem_range.1 hj')),
          Option.getD_some, mul_zero]
  have hrm := row_motion henv.ofs r4 (hjl b hbm) z2 (fun i l hl hr j hj' => by
    rw [List.getD_eq_getElem?_getD, hv i _ hr (own hl j hj'), Option.getD_some])
  have c1 : (q.cwe.take q.rows).getD k 0 = b.cell.attr.w.get s := by
    rw [List.getD_eq_getElem?_getD, List.getElem?_take_of_lt hkl, r5]; rfl
  have c2 : (q.csrv.take q.rows).getD k 0 = b.ref.get s := by
    rw [List.getD_eq_getElem?_getD, List.getElem?_take_of_lt hkl, r3, r4.rhs, hfree, sub_zero]; rfl
  have c3 : ∀ p, ikCoef (M.take q.rows) k p = row.getD p 0 := by
    intro p
    rw [ikCoef, List.getD_eq_getElem?_getD (l := M.take q.rows), List.getElem?_take_of_lt hkl, r1]; rfl
  show b.cell.attr.w.get s * (b.ref.get s * (jacMul b.jac v).get s) = _
  rw [c1, c2, hrm]
  congr 2
  refine Finset.sum_congr rfl fun i _ => ?_
  split_ifs
  · cases ik.chain.link[i]? with
    | none => rfl
    | some l => exact Finset.sum_congr rfl fun j _ => by rw [c3]
  · rfl

/-- Downhill, for any method that is.  After any history of calls, with constraints on the positions of points of links and of the center of
mass that do not accumulate their errors, and with the joints that are not registered at rest: along every motion of the chain
with the joint velocities that `rkIKSolveRate` finds, the weighted squared error of the constraints does not increase; it
decreases unless these velocities are all zero. -/
theorem descent_of
    (ho : setOffset c.link = c.link) (hs : ∀ o ∈ ops, o.Sized) (h : (IK.create c jv).runAll ops = some ik)
    (hne : ik.clist ≠ []) (hjv : Downhill ik.jv) (hreg : ∃ i, (ikJoints c.link ops i).isSome)
    (hcw : ∀ x ∈ ik.clist, 0 ≤ x.attr.w.x ∧ 0 ≤ x.attr.w.y ∧ 0 ≤ x.attr.w.z) (hjw : ∀ i x, ikJoints c.link ops i = some x → 0 < x)
    (hpos : ∀ x ∈ ik.clist, x.attr.isDisabled = false → IkPos ik.chain x)
    (hrest : ∀ i p, ikJoints c.link ops i = none → Owns ik.chain.link i p → ik.vel[p]? = some 0)
    {ik' : IK ℝ} (he : ik.solveRate = some ik') {d1 : ℝ → Chain ℝ} {t : ℝ} (P : Follows ik.chain d1 t ik'.vel) :
    ∃ r, HasDerivAt (fun s => ikMismatch (d1 s) ik.clist) r t ∧ r ≤ 0 ∧ (r = 0 ↔ ∀ x ∈ ik'.vel, x = 0) := by
  obtain ⟨q, M, h1, hM, hl, hl', l1, l2, p1, p2, hv⟩ := solveRate_data c jv ho ops hs ik ik' h hne hreg he hcw hjw
  obtain ⟨-, hvr, hvf⟩ := C40_velocity c jv ho ops ik ik' h hreg he
  have hj := IK.runAll_joints ops (IK.Joints.create c jv) h
  change IK.Joints c.link (ikJoints c.link ops) ik at hj
  have henv := hj.env ho
  have hr0 : ∀ i p, ikJoints c.link ops i = none → Owns ik.chain.link i p → ik'.vel[p]? = some 0 :=
    fun i p hi hp => (hvf i p hi hp).trans (hrest i p hi hp)
  have hd := solver_rate ho hs h hne hpos hrest h1 hM P hr0
  have hN : ikOfs ik.chain.link (ikJoints c.link ops) ik.chain.link.length = q.jvel.length := by
    obtain ⟨i, hi⟩ := hreg
    rw [hl', hl]
    exact (henv.fit ⟨i, (henv.sw i).1 hi⟩).symm
  have hX : ∀ k, (∑ i ∈ range ik.chain.link.length, if (ikJoints c.link ops i).isSome then
          (match ik.chain.link[i]? with
          | some l => ∑ j ∈ range l.joint.prp.size,
              ikCoef (M.take q.rows) k (ikOfs ik.chain.link (ikJoints c.link ops) i + j) * ik'.vel.getD (l.offset.toNat + j) 0
          | none => 0) else 0) = ∑ p ∈ range q.jvel.length, ikCoef (M.take q.rows) k p *
            ik.jv (M.take q.rows) (q.csrv.take q.rows) q.jwn (q.cwe.take q.rows) q.jvel p := by
    intro k
    have ev : ∑ p ∈ range q.jvel.length, ikCoef (M.take q.rows) k p *
        ik.jv (M.take q.rows) (q.csrv.take q.rows) q.jwn (q.cwe.take q.rows) q.jvel p =
        ∑ p ∈ range q.jvel.length, ikCoef (M.take q.rows) k p * ik'.jvel.getD p 0 :=
      Finset.sum_congr rfl fun p hp => by rw [← hv p hp]
    rw [ev, ← hN, sum_registered]
    refine Finset.sum_congr rfl fun i _ => ?_
    split_ifs with hi
    · cases hli : ik.chain.link[i]? with
      | none => rfl
      | some l =>
        refine Finset.sum_congr rfl fun j hj' => ?_
        rw [List.getD_eq_getElem?_getD (l := ik'.vel), hvr i l hli hi j (Finset.mem_range.1 hj'), ← List.getD_eq_getElem?_getD]
    · rfl
  simp only [hX] at hd
  obtain ⟨e1, dz, -⟩ := hjv (M.take q.rows) (q.csrv.take q.rows) (q.cwe.take q.rows) q.jwn q.jvel l1 l2 p1 p2
  have w0 : 0 ≤ ∑ k ∈ range (M.take q.rows).length, (q.cwe.take q.rows).getD k 0 * (∑ j ∈ range q.jvel.length,
      ikCoef (M.take q.rows) k j * ik.jv (M.take q.rows) (q.csrv.take q.rows) q.jwn (q.cwe.take q.rows) q.jvel j) ^ 2 :=
    Finset.sum_nonneg fun k hk => mul_nonneg (p1 k (Finset.mem_range.1 hk)) (sq_nonneg _)
  refine ⟨_, hd, by linarith, ?_⟩
  constructor
  · intro hz
    have hz1 := dz (by linarith)
    have hjz : ∀ p, ik'.jvel.getD p 0 = 0 := by
      intro p
      by_cases hp : p < q.jvel.length
      · rw [hv p (Finset.mem_range.2 hp)]; exact hz1 p hp
      · rw [List.getD_eq_getElem?_getD, List.getElem?_eq_none (by omega)]; rfl
    intro x hx'
    obtain ⟨p, hp, rfl⟩ := List.mem_iff_getElem.1 hx'
    obtain ⟨i, ho', -⟩ := (C01_offsets_tile ik.chain.link).2.2.2.2.2.2 p (by rw [← P.size]; exact hp)
    rw [henv.ofs] at ho'
    cases hr : ikJoints c.link ops i with
    | none =>
      have := hr0 i p hr ho'
      rw [List.getElem?_eq_getElem hp] at this
      exact Option.some.inj this
    | some w =>
      obtain ⟨l, hli, o1, o2, o3⟩ := ho'
      have := hvr i l hli (by rw [hr]; rfl) (p - l.offset.toNat) (by omega)
      rw [show l.offset.toNat + (p - l.offset.toNat) = p by omega, List.getElem?_eq_getElem hp] at this
      have h3 := hjz (ikOfs ik.chain.link (ikJoints c.link ops) i + (p - l.offset.toNat))
      rw [List.getD_eq_getElem?_getD, ← this] at h3
      exact h3
  · intro hz
    have hg0 : ∀ p, ik'.vel.getD p 0 = 0 := by
      intro p
      rw [List.getD_eq_getElem?_getD]
      cases hp : ik'.vel[p]? with
      | none => rfl
      | some x => exact hz x (List.mem_of_getElem? hp)
    have hX0 : ∀ k, ∑ p ∈ range q.jvel.length, ikCoef (M.take q.rows) k p *
        ik.jv (M.take q.rows) (q.csrv.take q.rows) q.jwn (q.cwe.take q.rows) q.jvel p = 0 := by
      intro k
      rw [← hX k]
      refine Finset.sum_eq_zero fun i _ => ?_
      split_ifs
      · cases ik.chain.link[i]? with
        | none => rfl
        | some l => exact Finset.sum_eq_zero fun j _ => by rw [hg0, mul_zero]
      · rfl
    simp only [hX0, mul_zero, Finset.sum_const_zero]

/-- **C103** Downhill.  After any history of calls, with constraints on the positions of points of links and of the center of
mass that do not accumulate their errors, and with the joints that are not registered at rest: along every motion of the chain
with the joint velocities that `rkIKSolveRate` finds, the weighted squared error of the constraints does not increase; it
decreases unless these velocities are all zero. -/
theorem C103_descent {gauss : ℕ → (ℕ → ℕ → ℝ) → (ℕ → ℝ) → Option (ℕ → ℝ)} (hg : Gauss gauss)
    (ho : setOffset c.link = c.link) (hs : ∀ o ∈ ops, o.Sized) (h : (IK.create c jv).runAll ops = some ik)
    (hne : ik.clist ≠ []) (hjv : ik.jv = IK.jointVelAD gauss) (hreg : ∃ i, (ikJoints c.link ops i).isSome)
    (hcw : ∀ x ∈ ik.clist, 0 ≤ x.attr.w.x ∧ 0 ≤ x.attr.w.y ∧ 0 ≤ x.attr.w.z) (hjw : ∀ i x, ikJoints c.link ops i = some x → 0 < x)
    (hpos : ∀ x ∈ ik.clist, x.attr.isDisabled = false → IkPos ik.chain x)
    (hrest : ∀ i p, ikJoints c.link ops i = none → Owns ik.chain.link i p → ik.vel[p]? = some 0)
    {ik' : IK ℝ} (he : ik.solveRate = some ik') {d d1 : ℝ → Chain ℝ} {t : ℝ} (P : Passes ik.chain d d1 t ik'.vel) :
    ∃ r, HasDerivAt (fun s => ikMismatch (d1 s) ik.clist) r t ∧ r ≤ 0 ∧ (r = 0 ↔ ∀ x ∈ ik'.vel, x = 0) :=
  descent_of ho hs h hne (hjv ▸ jointVelAD_downhill hg) hreg hcw hjw hpos hrest he P.follows

/-- Where the solver stops, for any method that goes downhill.  Under the same conditions, if the velocities that `rkIKSolveRate` finds are all zero, then
along every motion that moves only registered joints the weighted squared error of the constraints is stationary. -/
theorem stationary_of
    (ho : setOffset c.link = c.link) (hs : ∀ o ∈ ops, o.Sized) (h : (IK.create c jv).runAll ops = some ik)
    (hne : ik.clist ≠ []) (hjv : Downhill ik.jv) (hreg : ∃ i, (ikJoints c.link ops i).isSome)
    (hcw : ∀ x ∈ ik.clist, 0 ≤ x.attr.w.x ∧ 0 ≤ x.attr.w.y ∧ 0 ≤ x.attr.w.z) (hjw : ∀ i x, ikJoints c.link ops i = some x → 0 < x)
    (hpos : ∀ x ∈ ik.clist, x.attr.isDisabled = false → IkPos ik.chain x)
    (hrest : ∀ i p, ikJoints c.link ops i = none → Owns ik.chain.link i p → ik.vel[p]? = some 0)
    {ik' : IK ℝ} (he : ik.solveRate = some ik') (hz : ∀ x ∈ ik'.jvel, x = 0) {d1 : ℝ → Chain ℝ} {t : ℝ} {v : List ℝ}
    (P : Follows ik.chain d1 t v) (hv0 : ∀ i p, ikJoints c.link ops i = none → Owns ik.chain.link i p → v[p]? = some 0) :
    HasDerivAt (fun s => ikMismatch (d1 s) ik.clist) 0 t := by
  obtain ⟨q, M, h1, hM, hl, hl', l1, l2, p1, p2, hv⟩ := solveRate_data c jv ho ops hs ik ik' h hne hreg he hcw hjw
  have hj := IK.runAll_joints ops (IK.Joints.create c jv) h
  change IK.Joints c.link (ikJoints c.link ops) ik at hj
  have henv := hj.env ho
  have hd := solver_rate ho hs h hne hpos hrest h1 hM P hv0
  have hN : ikOfs ik.chain.link (ikJoints c.link ops) ik.chain.link.length = q.jvel.length := by
    obtain ⟨i, hi⟩ := hreg
    rw [hl', hl]
    exact (henv.fit ⟨i, (henv.sw i).1 hi⟩).symm
  have hn := (hjv (M.take q.rows) (q.csrv.take q.rows) (q.cwe.take q.rows) q.jwn q.jvel l1 l2 p1 p2).2.2 (by
    intro j hj'
    rw [← hv j (Finset.mem_range.2 hj'), List.getD_eq_getElem?_getD]
    rw [hl'] at hj'
    rw [List.getElem?_eq_getElem hj', Option.getD_some, hz _ (List.getElem_mem hj')])
  refine hd.congr_deriv ?_
  rw [mul_eq_zero]
  right
  have sw : ∀ k, (q.cwe.take q.rows).getD k 0 * ((q.csrv.take q.rows).getD k 0 *
        ∑ i ∈ range ik.chain.link.length, if (ikJoints c.link ops i).isSome then
          (match ik.chain.link[i]? with
          | some l => ∑ j ∈ range l.joint.prp.size,
              ikCoef (M.take q.rows) k (ikOfs ik.chain.link (ikJoints c.link ops) i + j) * v.getD (l.offset.toNat + j) 0
          | none => 0) else 0) =
      ∑ i ∈ range ik.chain.link.length, if (ikJoints c.link ops i).isSome then
          (match ik.chain.link[i]? with
          | some l => ∑ j ∈ range l.joint.prp.size, v.getD (l.offset.toNat + j) 0 * ((q.cwe.take q.rows).getD k 0 *
              (ikCoef (M.take q.rows) k (ikOfs ik.chain.link (ikJoints c.link ops) i + j) * (q.csrv.take q.rows).getD k 0))
          | none => 0) else 0 := by
    intro k
    rw [Finset.mul_sum, Finset.mul_sum]
    refine Finset.sum_congr rfl fun i _ => ?_
    split_ifs
    · cases ik.chain.link[i]? with
      | none => simp
      | some l =>
        simp only [Finset.mul_sum]
        exact Finset.sum_congr rfl fun j _ => by ring
    · simp
  rw [Finset.sum_congr rfl fun k _ => sw k, Finset.sum_comm]
  refine Finset.sum_eq_zero fun i hi => ?_
  split_ifs with hr
  · cases hli : ik.chain.link[i]? with
    | none => simp
    | some l =>
      simp only
      rw [Finset.sum_comm]
      refine Finset.sum_eq_zero fun j hj' => ?_
      have hlt : ikOfs ik.chain.link (ikJoints c.link ops) i + j < q.jvel.length := by
        have h5 : ikOfs ik.chain.link (ikJoints c.link ops) (i + 1) ≤ ikOfs ik.chain.link (ikJoints c.link ops) ik.chain.link.length :=
          ikOfs_mono _ _ (Finset.mem_range.1 hi)
        rw [ikOfs_step, if_pos hr, hli, Option.map_some, Option.getD_some] at h5
        have := Finset.mem_range.1 hj'
        omega
      have := hn _ hlt
      rw [← Finset.mul_sum]
      rw [normalVec] at this
      rw [this, mul_zero]
  · exact Finset.sum_const_zero

/-- **C103** Where the solver stops.  Under the same conditions, if the velocities that `rkIKSolveRate` finds are all zero, then
along every motion that moves only registered joints the weighted squared error of the constraints is stationary. -/
theorem C103_stationary {gauss : ℕ → (ℕ → ℕ → ℝ) → (ℕ → ℝ) → Option (ℕ → ℝ)} (hg : Gauss gauss)
    (ho : setOffset c.link = c.link) (hs : ∀ o ∈ ops, o.Sized) (h : (IK.create c jv).runAll ops = some ik)
    (hne : ik.clist ≠ []) (hjv : ik.jv = IK.jointVelAD gauss) (hreg : ∃ i, (ikJoints c.link ops i).isSome)
    (hcw : ∀ x ∈ ik.clist, 0 ≤ x.attr.w.x ∧ 0 ≤ x.attr.w.y ∧ 0 ≤ x.attr.w.z) (hjw : ∀ i x, ikJoints c.link ops i = some x → 0 < x)
    (hpos : ∀ x ∈ ik.clist, x.attr.isDisabled = false → IkPos ik.chain x)
    (hrest : ∀ i p, ikJoints c.link ops i = none → Owns ik.chain.link i p → ik.vel[p]? = some 0)
    {ik' : IK ℝ} (he : ik.solveRate = some ik') (hz : ∀ x ∈ ik'.jvel, x = 0) {d d1 : ℝ → Chain ℝ} {t : ℝ} {v : List ℝ}
    (P : Passes ik.chain d d1 t v) (hv0 : ∀ i p, ikJoints c.link ops i = none → Owns ik.chain.link i p → v[p]? = some 0) :
    HasDerivAt (fun s => ikMismatch (d1 s) ik.clist) 0 t :=
  stationary_of ho hs h hne (hjv ▸ jointVelAD_downhill hg) hreg hcw hjw hpos hrest he hz P.follows hv0

end


/-! ### A slider -/

/-- A slider on a vertical rail, at height `x`, moving with velocity `v`. -/
noncomputable def Sample.railAt (x v : ℝ) : Chain ℝ :=
  { link := [{ Sample.link "slider" (.prism (Sample.dof1 x v 0 0 1 none none)) Sample.mp1 Frame.ident with offset := 0 }],
    shape := .node 0 .nil .nil, mass := 1, wldCOM := 0, comVel := 0, comAcc := 0 }

theorem Sample.slide_fk (x v : ℝ) : ∃ c, (Sample.railAt x v).updateFK = some c := ⟨_, rfl⟩

noncomputable def Sample.railed (x v : ℝ) : Chain ℝ := (Sample.slide_fk x v).choose

theorem Sample.slid_eq (x v : ℝ) : (Sample.railAt x v).updateFK = some (Sample.railed x v) := (Sample.slide_fk x v).choose_spec

theorem Sample.slide_motion (v : ℝ) : Motion fun s => Sample.railAt (v * s) v := by
  have hl : ∀ {i : ℕ} {l : ℝ → Link ℝ}, (∀ s, (Sample.railAt (v * s) v).link[i]? = some (l s)) →
      l = fun s => { Sample.link "slider" (.prism (Sample.dof1 (v * s) v 0 0 1 none none)) Sample.mp1 Frame.ident with offset := 0 } := by
    intro i l h
    rcases i with _ | i
    · funext s; simpa [Sample.railAt] using (h s).symm
    · simpa [Sample.railAt] using h 0
  refine ⟨fun s => ⟨⟨_, rfl⟩, .refl _⟩, fun _ _ => rfl, fun _ _ => rfl, ?_, ?_, ?_⟩
  · intro i l h s s'
    rw [hl h]
    exact ⟨rfl, rfl⟩
  · intro s l h
    simp only [Sample.railAt, List.mem_cons, List.not_mem_nil, or_false] at h
    rw [h]
    exact Mat3.isRot_one
  · intro i l h
    rw [hl h]
    exact JointMotion.prism _ fun t => by simpa [Sample.dof1] using (hasDerivAt_id t).const_mul v

theorem Sample.slide_passes (v : ℝ) : Passes (Sample.railed 0 0) (fun s => Sample.railAt (v * s) v) (fun s => Sample.railed (v * s) v) 0 [v] := by
  refine ⟨Sample.slide_motion v, fun _ _ => rfl, one_ne_zero, fun s => Sample.slid_eq _ _, ⟨rfl, [0], rfl, rfl⟩, [0], ?_⟩
  have h0 := Sample.slid_eq 0 0
  have h1 := Sample.slid_eq 0 v
  rw [mul_zero]
  generalize Sample.railed 0 0 = a at *
  generalize Sample.railed 0 v = b at *
  cases h0
  cases h1
  exact ⟨_, rfl, rfl⟩


/-- Registration of the slider and of a constraint on its position, one unit above it. -/
noncomputable def Sample.slideOps : List (IK.Op ℝ) :=
  [.jointReg 0 1, .cellReg 5 (some ⟨0, 0, 0, false, false, false, false, ⟨1, 1, 1⟩⟩) ⟨true, false, false, false, false⟩ IKFns.wldPos,
    .setRef 5 0 0 1]

theorem Sample.slide_run : ∃ ik ik' v x, (IK.create (Sample.railed 0 0) (IK.jointVelAD gaussOf)).runAll Sample.slideOps = some ik ∧
    ik.solveRate = some ik' ∧ ik'.vel = [v] ∧ ik'.jvel = [v] ∧ ik.clist = [x] ∧ ik.jv = IK.jointVelAD gaussOf ∧ ik.chain = Sample.railed 0 0 ∧
    x.attr = ⟨0, 0, 0, true, true, true, false, ⟨1, 1, 1⟩⟩ ∧ x.fns = IKFns.wldPos ∧ x.ref.cx = ⟨0, 0, 1⟩ := by
  have h0 := Sample.slid_eq 0 0
  generalize Sample.railed 0 0 = a at *
  cases h0
  exact ⟨_, _, _, _, rfl, rfl, rfl, rfl, rfl, rfl, rfl, rfl, rfl, rfl⟩

theorem Sample.slid_link (x v : ℝ) : ∃ l, (Sample.railed x v).link = [l] ∧ l.body.frame = ⟨⟨0, 0, x⟩, 1⟩ ∧ l.joint.prp.size = 1 ∧ l.offset = 0 := by
  have h0 := Sample.slid_eq x v
  generalize Sample.railed x v = a at *
  cases h0
  refine ⟨_, rfl, ?_, rfl, rfl⟩
  show Frame.ident.cascade ((Prp.prism (Sample.dof1 x v 0 0 1 none none)).xform Frame.ident) = _
  simp only [Sample.dof1, Frame.ident, Prp.xform, Frame.cascade, Frame.ext_iff]
  vec_unfold
  simp

theorem Sample.slide_joints (i : ℕ) : ikJoints (Sample.railed 0 0).link Sample.slideOps i = if i = 0 then some 1 else none := by
  obtain ⟨l, hl, -, hs, -⟩ := Sample.slid_link 0 0
  simp only [Spec.ikJoints, Sample.slideOps, List.foldl, Spec.ikJointsStep, hl]
  by_cases hi : i = 0
  · subst hi
    rw [if_pos ⟨rfl, l, rfl, by show 0 < l.joint.prp.size; omega⟩, if_pos rfl]
  · rw [if_neg (fun h => hi (by exact_mod_cast h.1)), if_neg hi]

/-- The slider meets the hypotheses of `C103_descent`, with a velocity that is not zero: the error decreases. -/
example : ∃ (ik ik' : IK ℝ) (v r : ℝ), (IK.create (Sample.railed 0 0) (IK.jointVelAD gaussOf)).runAll Sample.slideOps = some ik ∧
    ik.solveRate = some ik' ∧ ik'.vel = [v] ∧ v ≠ 0 ∧ HasDerivAt (fun s => ikMismatch (Sample.railed (v * s) v) ik.clist) r 0 ∧ r < 0 := by
  obtain ⟨ik, ik', v, x, h1, h2, h3, h3', h4, h5, h6, h7, h8, h9⟩ := Sample.slide_run
  obtain ⟨l, hl, hf, hs, ho⟩ := Sample.slid_link 0 0
  have hofs : setOffset (Sample.railed 0 0).link = (Sample.railed 0 0).link := by
    rw [hl]
    simp [setOffset, setOffsetFrom, Link.size, hs, ← ho]
  have hsz : ∀ o ∈ Sample.slideOps, o.Sized := by
    simp [Sample.slideOps, IK.Op.Sized, Jacobi.wldPos_sized]
  have hjw : ∀ i x, ikJoints (Sample.railed 0 0).link Sample.slideOps i = some x → 0 < x := by
    intro i x hx
    rw [Sample.slide_joints] at hx
    split_ifs at hx
    simp only [Option.some.injEq] at hx
    rw [← hx]; exact one_pos
  have hcw : ∀ y ∈ ik.clist, 0 ≤ y.attr.w.x ∧ 0 ≤ y.attr.w.y ∧ 0 ≤ y.attr.w.z := by
    intro y hy
    rw [h4, List.mem_singleton] at hy
    rw [hy, h7]; norm_num
  have hpos : ∀ y ∈ ik.clist, y.attr.isDisabled = false → IkPos ik.chain y := by
    intro y hy _
    rw [h4, List.mem_singleton] at hy
    rw [hy, h6, IkPos, h7, h8, hl]
    exact ⟨rfl, .inl ⟨rfl, by simp⟩⟩
  have hno : ∀ i p, ikJoints (Sample.railed 0 0).link Sample.slideOps i = none → Owns ik.chain.link i p → ∀ u : List ℝ, u[p]? = some 0 := by
    intro i p hi ⟨l', hl', _⟩
    rw [Sample.slide_joints] at hi
    rw [h6, hl] at hl'
    rcases i with _ | i
    · simp at hi
    · simp at hl'
  have hreg : ∃ i, (ikJoints (Sample.railed 0 0).link Sample.slideOps i).isSome := ⟨0, by rw [Sample.slide_joints]; rfl⟩
  have P := Sample.slide_passes v
  rw [← h6, ← h3] at P
  obtain ⟨r, hr, hle, hz⟩ := C103_descent gaussOf_lawful hofs hsz h1 (by rw [h4]; simp) h5 hreg hcw hjw hpos
    (fun i p hi hp => hno i p hi hp _) h2 P
  have hv : v ≠ 0 := by
    intro hv
    have P1 := Sample.slide_passes 1
    rw [← h6] at P1
    have hd := C103_stationary gaussOf_lawful hofs hsz h1 (by rw [h4]; simp) h5 hreg hcw hjw hpos
      (fun i p hi hp => hno i p hi hp _) h2 (by rw [h3', hv]; simp) P1 (fun i p hi hp => hno i p hi hp _)
    have hm : ∀ s : ℝ, ikMismatch (Sample.railed (1 * s) 1) ik.clist = (1 - s) ^ 2 := by
      intro s
      rw [one_mul]
      obtain ⟨l, hl, hf, -⟩ := Sample.slid_link s 1
      rw [h4]
      simp [ikMismatch, h7, h8, h9, ikAxes, IKFns.wldPos, hl, hf, Frame.xform, Mat3.mulVec, Vec3.get]
    simp only [hm] at hd
    have hd' : HasDerivAt (fun s : ℝ => (1 - s) ^ 2) (-2) 0 := by
      have := ((hasDerivAt_id (0 : ℝ)).const_sub 1).pow 2
      refine this.congr_deriv ?_
      simp
    have := hd.unique hd'
    norm_num at this
  refine ⟨ik, ik', v, r, h1, h2, h3, hv, hr, lt_of_le_of_ne hle fun h0 => hv (hz.1 h0 v (by rw [h3]; simp))⟩

end Roki
