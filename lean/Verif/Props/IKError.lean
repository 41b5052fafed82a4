import Verif.Props.Laws
import Verif.Props.Point
import Verif.Props.Jacobi
import Verif.Props.ABIDyn
import Verif.Props.IKBind
import Verif.Lemmas.ZmReal
set_option autoImplicit false

/-!
# C78: the constraint matrix of an inverse kinematics cell is the derivative of its error
-/

namespace Roki
open Spec Jacobi

theorem LTree.updateRate_frame {K : Type*} [Field K] (pv pa : Vec6 K) (T : LTree (Link K)) :
    (T.updateRate pv pa).map (fun l => l.body.frame) = T.map fun l => l.body.frame := by
  induction T generalizing pv pa with
  | nil => rfl
  | node l c s ihc ihs => simp only [LTree.updateRate, LTree.map, ihc, ihs]; rfl

theorem Chain.WF.updateID_frame {K : Type*} [Field K] {c c2 cr : Chain K} (h : c.WF) {g : Vec6 K}
    (e : c.updateID g = some c2) (er : c.updateRate g = some cr) :
    c2.link.map (fun l => l.body.frame) = c.link.map (fun l => l.body.frame) := by
  have hb := congrArg (List.map fun b : Body K => b.frame) (h.updateID_body e er)
  simp only [List.map_map] at hb
  refine hb.trans ?_
  obtain ⟨T', hT', h3, w3, s3, n3, -⟩ := h.updateRate er
  exact Chain.map_eq_of_gather h3 hT' n3 (fun i hi => h.mem.2 (n3 ▸ hi)) _ (LTree.updateRate_frame _ _ _)

/-- A moving chain whose frames are up to date: the link `i` after forward kinematics (`l`) and after the rates are updated
as well (`m`). -/
theorem Spec.Motion.link {c c1 c2 : ℝ → Chain ℝ} {g : Vec3 ℝ} (h : Motion c) (hfk : ∀ s, (c s).updateFK = some (c1 s))
    (hid : ∀ s, (c1 s).updateID ⟨g, 0⟩ = some (c2 s)) {i : ℕ} (hi : i < (c 0).link.length) :
    ∃ l m : ℝ → Link ℝ, (∀ s, (c1 s).link[i]? = some (l s)) ∧ (∀ s, (c2 s).link[i]? = some (m s)) ∧
      (∀ s, (l s).body.frame = (m s).body.frame) ∧ (∀ s, (m s).body.frame.att.IsRot) ∧
      (∀ p t, VecDeriv (fun s => (m s).body.frame.xform p) (pointVelocity (m t) p) t) ∧
      (∀ t, VecDeriv (fun s => (m s).body.frame.pos) (pointVelocity (m t) 0) t) ∧
      ∀ t, RotMotion (fun s => (m s).body.frame.att) (angVel (m t)) t := by
  have w1 : ∀ s, (c1 s).WF ∧ (c1 s).link.length = (c 0).link.length := fun s => by
    obtain ⟨-, -, -, hw, -, n1, -⟩ := (h.wf s).updateFK (hfk s); exact ⟨hw, n1.trans (h.length s 0)⟩
  have ex : ∀ s, ∃ cr, (c1 s).updateRate ⟨g, 0⟩ = some cr := fun s => by
    obtain ⟨ls1, T, hT, e1, g1, n1⟩ := (w1 s).1.downAt (fun st (l : Link ℝ) => l.updateRate1 st.1 st.2)
      (fun l => (l.body.vel, l.body.acc)) (0, ⟨g, 0⟩)
    exact ⟨{ c1 s with link := ls1 }, by simp only [Chain.updateRate, Chain.updateRateAt, e1, Option.map_some]⟩
  choose cr er using ex
  have hn2 : ∀ s, i < (c2 s).link.length := fun s => by
    obtain ⟨-, -, -, -, -, n2, -⟩ := (w1 s).1.updateID (hid s)
    rw [n2, (w1 s).2]; exact hi
  have hnr : ∀ s, i < (cr s).link.length := fun s => by
    obtain ⟨-, -, -, -, -, n2, -⟩ := (w1 s).1.updateRate (er s)
    rw [n2, (w1 s).2]; exact hi
  have hn1 : ∀ s, i < (c1 s).link.length := fun s => by rw [(w1 s).2]; exact hi
  have hb : ∀ s, ((c2 s).link[i]'(hn2 s)).body = ((cr s).link[i]'(hnr s)).body := fun s => by
    have := congrArg (fun L : List (Body ℝ) => L[i]?) ((w1 s).1.updateID_body (hid s) (er s))
    simpa only [List.getElem?_map, List.getElem?_eq_getElem (hn2 s), List.getElem?_eq_getElem (hnr s), Option.map_some,
      Option.some.injEq] using this
  have hf : ∀ s, ((c2 s).link[i]'(hn2 s)).body.frame = ((c1 s).link[i]'(hn1 s)).body.frame := fun s => by
    have := congrArg (fun L : List (Frame ℝ) => L[i]?) ((w1 s).1.updateID_frame (hid s) (er s))
    simpa only [List.getElem?_map, List.getElem?_eq_getElem (hn2 s), List.getElem?_eq_getElem (hn1 s), Option.map_some,
      Option.some.injEq] using this
  have hl : ∀ s, (cr s).link[i]? = some ((cr s).link[i]'(hnr s)) := fun s => List.getElem?_eq_getElem _
  have hV := C08_link_velocity c c1 cr ⟨g, 0⟩ h hfk er i _ hl
  have hP := C66_point_velocity c c1 cr ⟨g, 0⟩ h hfk er i _ hl
  obtain ⟨ms, h1, -, hfr, -⟩ := h.rate hfk er hl
  refine ⟨fun s => (c1 s).link[i]'(hn1 s), fun s => (c2 s).link[i]'(hn2 s), fun s => List.getElem?_eq_getElem _,
    fun s => List.getElem?_eq_getElem _, fun s => (hf s).symm, ?_, ?_, ?_, ?_⟩
  · intro s
    simp only [hb]
    rw [hfr s]
    refine isRot_product fun f hf => ?_
    obtain ⟨m, hm, rfl⟩ := List.mem_map.1 hf
    exact (h1 m hm).linkFrame_rot s
  · intro p t
    refine vecDeriv_congr (hP p t) (fun s => by simp only [hb]) ?_
    simp only [pointVelocity, Link.pointVel, hb]
    rw [add_comm]
  · intro t
    refine vecDeriv_congr (hV t).1 (fun s => by simp only [hb]) ?_
    simp only [pointVelocity, hb, cross_zero_right, add_zero]
  · intro t; simp only [angVel, hb]; exact (hV t).2

/-- `vel` is the vector of joint velocities that `rkChainGetJointVelAll` reads from the chain `c`, whose offsets are set. -/
def Spec.ReadVel (c : Chain ℝ) (vel : List ℝ) : Prop :=
  LinkArray.setOffset c.link = c.link ∧
  ∃ buf : List ℝ, buf.length = LinkArray.jointSize c.link ∧ LinkArray.getJointAll Prp.getVel c.link buf = some vel

theorem Spec.Motion.rot' {c : ℝ → Chain ℝ} (h : Motion c) (s : ℝ) :
    ∀ l ∈ (c s).link, l.org.att.IsRot ∧ l.joint.prp.WF := by
  intro l hl
  refine ⟨h.rot s l hl, ?_⟩
  obtain ⟨i, hi, rfl⟩ := List.mem_iff_getElem.1 hl
  have hj := h.joint i (fun u => (c u).link[i]'(by rw [h.length u s]; exact hi))
    (fun u => List.getElem?_eq_getElem _)
  exact jointMotion_WF hj s

theorem Spec.Motion.invDyn {c c1 c2 : ℝ → Chain ℝ} {g : Vec3 ℝ} (h : Motion c) (hfk : ∀ s, (c s).updateFK = some (c1 s))
    (hid : ∀ s, (c1 s).updateID ⟨g, 0⟩ = some (c2 s)) (t : ℝ) {vel : List ℝ} (hv : ReadVel (c t) vel) :
    ∃ acc, (c1 t).invDyn ⟨g, 0⟩ vel acc = some (c2 t) ∧ vel.length = LinkArray.jointSize (c t).link := by
  obtain ⟨ho, buf, hb, hg⟩ := hv
  obtain ⟨T0, hT0, hg1, hw1, hs1, hn1, hm1⟩ := (h.wf t).updateFK (hfk t)
  have e1 : (c1 t).link.map (fun l : Link ℝ => (l.offset, l.joint.prp)) = (c t).link.map fun l => (l.offset, l.joint.prp) := by
    refine Chain.map_eq_of_gather hg1 (hs1 ▸ hT0) hn1 (fun i hi => hw1.mem.2 hi) _ ?_
    rw [LTree.updateFrame_eq]
    refine LTree.down_map_inv _ ?_ _ _
    intro _ _; rfl
  have e2 := congrArg (List.map fun q : ℤ × Prp ℝ => (q.1, q.2.size)) e1
  have e3 := congrArg (List.map fun q : ℤ × Prp ℝ => q.2.getVel) e1
  simp only [List.map_map, Function.comp_def] at e2 e3
  have ho1 : LinkArray.setOffset (c1 t).link = (c1 t).link := offsetsFrom_congr e2 ho
  rw [LinkArray.getJointAll_eq _ LinkArray.getVel_length _ ho _ hb, Option.some.injEq] at hg
  refine ⟨((c1 t).link.map fun l => l.joint.prp.getAcc).flatten, ?_, ?_⟩
  · rw [← e3] at hg
    rw [Chain.invDyn, ← hg, setJointRateAll_self ho1]
    exact hid t
  · rw [← hg, LinkArray.jointSize_eq, LinkArray.sizes, List.length_flatten, List.map_map]
    congr 1
    exact List.map_congr_left fun l _ => LinkArray.getVel_length _

theorem Spec.Motion.exists_id {c c1 : ℝ → Chain ℝ} (h : Motion c) (hfk : ∀ s, (c s).updateFK = some (c1 s)) (g : Vec3 ℝ) :
    ∃ c2 : ℝ → Chain ℝ, ∀ s, (c1 s).updateID ⟨g, 0⟩ = some (c2 s) := by
  suffices ∀ s, ∃ c2, (c1 s).updateID ⟨g, 0⟩ = some c2 by choose c2 h2 using this; exact ⟨c2, h2⟩
  intro s
  obtain ⟨-, -, -, hw, -⟩ := (h.wf s).updateFK (hfk s)
  obtain ⟨ls1, T, hT, e1, g1, n1⟩ := hw.downAt (fun st (l : Link ℝ) => l.updateRate1 st.1 st.2)
    (fun l => (l.body.vel, l.body.acc)) (0, ⟨g, 0⟩)
  obtain ⟨ls2, T2, hT2, e2, g2, n2⟩ := (hw.with_link n1).updateWrenchAt
  have e2' : Chain.updateWrenchAt (c1 s).shape ls1 = some ls2 := e2
  exact ⟨_, by
    simp only [Chain.updateID, Chain.updateRate, Chain.updateRateAt, e1, Option.map_some, Option.bind_eq_bind,
      Option.bind_some, Chain.updateWrench, e2']; rfl⟩

/-! ## The derivative of the errors -/

section
variable (c c1 : ℝ → Chain ℝ) (h : Motion c) (hfk : ∀ s, (c s).updateFK = some (c1 s)) (t : ℝ) (vel : List ℝ)
  (hv : ReadVel (c t) vel) (a : IKAttr ℝ) (r : Mat3 ℝ) (m : List (Vec3 ℝ)) (hm : m.length = LinkArray.jointSize (c t).link)
include h hfk hv hm

/-- **C78** Position of a point of a link: along every motion the error of the cell changes at the rate `- J q'`, with `J` the
constraint matrix of the cell and `q'` the joint velocities of the motion. -/
theorem C78_world_position (hi : a.id < (c 0).link.length) :
    ∃ (e : ℝ → Vec3 ℝ) (J : Mat ℝ), (∀ s, (IKFns.wldPos : IKFns ℝ).srv (c1 s) a r = some (e s)) ∧
      (IKFns.wldPos : IKFns ℝ).cmat (c1 t) a m = some J ∧ VecDeriv e (-jacMul J vel) t := by
  obtain ⟨c2, hid⟩ := h.exists_id hfk 0
  obtain ⟨acc, hd, hl⟩ := h.invDyn hfk hid t hv
  obtain ⟨l, k, h1, h2, hf, -, hP, -, -⟩ := h.link hfk hid hi
  obtain ⟨J, eJ, -, hJ⟩ := C11_linear_jacobian (c t) (c1 t) (c2 t) _ vel acc (h.wf t) (h.rot' t) hv.1 hl (hfk t) hd m hm a.id
    (k t) (h2 t) a.ap
  refine ⟨fun s => r.cx - (k s).body.frame.xform a.ap, J, fun s => ?_, eJ, ?_⟩
  · simp only [IKFns.wldPos, h1 s, Option.map_some, hf s]
  · refine vecDeriv_congr ((vecDeriv_const r.cx t).sub (hP a.ap t)) (fun s => rfl) ?_
    rw [hJ, zero_sub]

/-- **C78** Attitude of a link.  The rotation `E` from the attitude of the link to the reference, of which the error is the
angle-axis vector, changes as `E' = E [- J q']`, with `[ ]` the matrix of the cross product: seen from the link, the reference
turns with the angular velocity `- J q'`. -/
theorem C78_world_attitude (acm : IKAcm ℝ → Vec3 ℝ → IKAcm ℝ × Vec3 ℝ) (hr : r.IsRot) (hi : a.id < (c 0).link.length) :
    ∃ (e : ℝ → Vec3 ℝ) (J : Mat ℝ), (∀ s, (IKFns.wldAtt acm).srv (c1 s) a r = some (e s)) ∧
      (IKFns.wldAtt acm).cmat (c1 t) a m = some J ∧
      MatDeriv (fun s => Zm.fromAA (e s)) ((Zm.fromAA (e t)).mul (Mat3.skew (-jacMul J vel))) t := by
  obtain ⟨c2, hid⟩ := h.exists_id hfk 0
  obtain ⟨acc, hd, hl⟩ := h.invDyn hfk hid t hv
  obtain ⟨l, k, h1, h2, hf, hR, -, -, hA⟩ := h.link hfk hid hi
  obtain ⟨J, eJ, -, hJ⟩ := C10_angular_jacobian (c t) (c1 t) (c2 t) _ vel acc (h.wf t) (h.rot' t) hv.1 hl (hfk t) hd m hm a.id
    (k t) (h2 t)
  have hE : ∀ s, Zm.fromAA (mat3Error r (k s).body.frame.att) = r.mul (k s).body.frame.att.tr := fun s =>
    LawfulZm.fromAA_toAA _ (hr.mul (hR s).tr)
  refine ⟨fun s => mat3Error r (k s).body.frame.att, J, fun s => ?_, eJ, ?_⟩
  · simp only [IKFns.wldAtt, h1 s, Option.map_some, hf s]
  · simp only [hE]
    have hd := (matDeriv_const r t).mul (Spec.MatDeriv.tr (hA t))
    rw [hJ]
    have e : r.mul (((k t).body.frame.att).tr.mul (Mat3.skew (-angVel (k t)))) =
        (0 : Mat3 ℝ).mul (k t).body.frame.att.tr + r.mul ((Mat3.skew (angVel (k t))).mul (k t).body.frame.att).tr := by
      generalize (k t).body.frame.att = R
      generalize angVel (k t) = w
      vec_ring
    rw [Mat3.mul_assoc', e]; exact hd

/-- **C78** Attitude of a link with respect to another: with `e` the error turned into the frame of the other link and `E` its
rotation, `E' = E [- R^T J q']`, `R` the attitude of the other link. -/
theorem C78_l2l_attitude (acm : IKAcm ℝ → Vec3 ℝ → IKAcm ℝ × Vec3 ℝ) (hr : r.IsRot) (hi : a.id < (c 0).link.length)
    (hj : a.idSub < (c 0).link.length) :
    ∃ (e : ℝ → Vec3 ℝ) (J : Mat ℝ) (l : ℝ → Link ℝ), (∀ s, (c1 s).link[a.id]? = some (l s)) ∧
      (∀ s, (IKFns.l2lAtt acm).srv (c1 s) a r = some (e s)) ∧ (IKFns.l2lAtt acm).cmat (c1 t) a m = some J ∧
      MatDeriv (fun s => Zm.fromAA ((l s).body.frame.att.mulVecT (e s)))
        ((Zm.fromAA ((l t).body.frame.att.mulVecT (e t))).mul
          (Mat3.skew (-(l t).body.frame.att.mulVecT (jacMul J vel)))) t := by
  obtain ⟨c2, hid⟩ := h.exists_id hfk 0
  obtain ⟨acc, hd, hl⟩ := h.invDyn hfk hid t hv
  obtain ⟨l, k, h1, h2, hf, hR, -, -, hA⟩ := h.link hfk hid hi
  obtain ⟨l', k', h1', h2', hf', hR', -, -, hA'⟩ := h.link hfk hid hj
  obtain ⟨J, eJ, -, hJ⟩ := C12_link_to_link_angular (c t) (c1 t) (c2 t) _ vel acc (h.wf t) (h.rot' t) hv.1 hl (hfk t) hd m hm
    a.id a.idSub (k t) (k' t) (h2 t) (h2' t)
  have hE : ∀ s, Zm.fromAA ((k s).body.frame.att.mulVecT ((k s).body.frame.att.mulVec
      (mat3Error r ((k s).body.frame.att.mulT (k' s).body.frame.att)))) =
      (r.mul (k' s).body.frame.att.tr).mul (k s).body.frame.att := fun s => by
    rw [(hR s).mulVecT_mulVec, mat3Error, LawfulZm.fromAA_toAA _ (hr.mul ((hR s).mulT (hR' s)).tr)]
    generalize (k s).body.frame.att = R
    generalize (k' s).body.frame.att = R'
    vec_ring
  refine ⟨fun s => (k s).body.frame.att.mulVec (mat3Error r ((k s).body.frame.att.mulT (k' s).body.frame.att)), J, l, h1,
    fun s => ?_, eJ, ?_⟩
  · simp only [IKFns.l2lAtt, h1 s, h1' s, Option.bind_eq_bind, Option.bind_some, Option.pure_def, hf s, hf' s]
  · simp only [hf, hE]
    have hd := ((matDeriv_const r t).mul (Spec.MatDeriv.tr (hA' t))).mul (hA t)
    rw [hJ]
    have e : ((r.mul (k' t).body.frame.att.tr).mul (k t).body.frame.att).mul
        (Mat3.skew (-(k t).body.frame.att.mulVecT (angVel (k' t) - angVel (k t)))) =
        ((0 : Mat3 ℝ).mul (k' t).body.frame.att.tr +
          r.mul ((Mat3.skew (angVel (k' t))).mul (k' t).body.frame.att).tr).mul (k t).body.frame.att +
        (r.mul (k' t).body.frame.att.tr).mul ((Mat3.skew (angVel (k t))).mul (k t).body.frame.att) := by
      have hs := skew_mul_eq (hR t) (-(angVel (k' t) - angVel (k t)))
      have hn : -(k t).body.frame.att.mulVecT (angVel (k' t) - angVel (k t)) =
          (k t).body.frame.att.mulVecT (-(angVel (k' t) - angVel (k t))) := by
        generalize angVel (k' t) - angVel (k t) = w
        generalize (k t).body.frame.att = R
        vec_ring
      rw [hn, Mat3.mul_assoc', ← hs]
      generalize (k t).body.frame.att = R
      generalize (k' t).body.frame.att = R'
      generalize angVel (k t) = w
      generalize angVel (k' t) = w'
      vec_ring
    rw [e]; exact hd

/-- The rate of change of the error of the relative position. -/
theorem l2lPos_rate (hi : a.id < (c 0).link.length) (hj : a.idSub < (c 0).link.length) :
    ∃ (e : ℝ → Vec3 ℝ) (J : Mat ℝ) (l l' : ℝ → Link ℝ) (w : Vec3 ℝ), (∀ s, (c1 s).link[a.id]? = some (l s)) ∧
      (∀ s, (c1 s).link[a.idSub]? = some (l' s)) ∧ (∀ s, (l s).body.frame.att.IsRot) ∧
      RotMotion (fun s => (l s).body.frame.att) w t ∧
      (∀ s, (IKFns.l2lPos : IKFns ℝ).srv (c1 s) a r = some (e s)) ∧ (IKFns.l2lPos : IKFns ℝ).cmat (c1 t) a m = some J ∧
      VecDeriv e (-jacMul J vel - cross w ((l' t).body.frame.xform a.ap - (l t).body.frame.pos)) t := by
  obtain ⟨c2, hid⟩ := h.exists_id hfk 0
  obtain ⟨acc, hd, hl⟩ := h.invDyn hfk hid t hv
  obtain ⟨l, k, h1, h2, hf, hR, -, hP, hA⟩ := h.link hfk hid hi
  obtain ⟨l', k', h1', h2', hf', hR', hP', -, hA'⟩ := h.link hfk hid hj
  obtain ⟨J, eJ, -, hJ⟩ := C12_link_to_link_linear (c t) (c1 t) (c2 t) _ vel acc (h.wf t) (h.rot' t) hv.1 hl (hfk t) hd m hm
    a.id a.idSub (k t) (k' t) (h2 t) (h2' t) a.ap
  refine ⟨fun s => r.cx - ((k' s).body.frame.xform a.ap - (k s).body.frame.pos), J, l, l', angVel (k t), h1, h1', ?_, ?_,
    fun s => ?_, eJ, ?_⟩
  · intro s; rw [hf s]; exact hR s
  · simp only [hf]; exact hA t
  · simp only [IKFns.l2lPos, h1 s, h1' s, Option.bind_eq_bind, Option.bind_some, Option.pure_def, hf s, hf' s]
  · refine vecDeriv_congr ((vecDeriv_const r.cx t).sub ((hP' a.ap t).sub (hP t))) (fun s => rfl) ?_
    have hx : (k t).body.frame.xform ((k t).body.frame.xformInv ((k' t).body.frame.xform a.ap)) =
        (k' t).body.frame.xform a.ap := Frame.xform_xformInv (hR t) _
    rw [hJ, hf t, hf' t]
    have hv : pointVelocity (k t) ((k t).body.frame.xformInv ((k' t).body.frame.xform a.ap)) =
        pointVelocity (k t) 0 + cross (angVel (k t)) ((k' t).body.frame.xform a.ap - (k t).body.frame.pos) := by
      have hy : (k' t).body.frame.xform a.ap - (k t).body.frame.pos =
          (k t).body.frame.att.mulVec ((k t).body.frame.xformInv ((k' t).body.frame.xform a.ap)) := by
        conv_lhs => rw [← hx]
        generalize (k t).body.frame.xformInv ((k' t).body.frame.xform a.ap) = y
        rw [Frame.xform, add_sub_cancel_right]
      rw [hy]
      generalize (k t).body.frame.xformInv ((k' t).body.frame.xform a.ap) = y
      simp only [pointVelocity, angVel, Mat3.mulVec_add, (hR t).mulVec_cross, cross_zero_right, add_zero]
    rw [hv]
    abel

/-- **C78** The position of a link with respect to another, when the other link does not turn at that time.

Missing: a link that turns, for which the constraint matrix is that of the velocity seen from the turning link, while the
error is a difference of world coordinates (`C78_l2l_position_fails`). -/
theorem C78_l2l_position_partial (hi : a.id < (c 0).link.length) (hj : a.idSub < (c 0).link.length) :
    ∃ (e : ℝ → Vec3 ℝ) (J : Mat ℝ) (l : ℝ → Link ℝ), (∀ s, (c1 s).link[a.id]? = some (l s)) ∧
      (∀ s, (IKFns.l2lPos : IKFns ℝ).srv (c1 s) a r = some (e s)) ∧ (IKFns.l2lPos : IKFns ℝ).cmat (c1 t) a m = some J ∧
      (MatDeriv (fun s => (l s).body.frame.att) 0 t → VecDeriv e (-jacMul J vel) t) := by
  obtain ⟨e, J, l, l', w, h1, -, hR, hA, he, hJ, hd⟩ := l2lPos_rate c c1 h hfk t vel hv a r m hm hi hj
  refine ⟨e, J, l, h1, he, hJ, fun h0 => ?_⟩
  have hw : w = 0 := by
    have e1 : (Mat3.skew w).mul (l t).body.frame.att = 0 := by
      obtain ⟨⟨a1, a2, a3⟩, ⟨b1, b2, b3⟩, ⟨c1, c2, c3⟩⟩ := hA
      obtain ⟨⟨x1, x2, x3⟩, ⟨y1, y2, y3⟩, ⟨z1, z2, z3⟩⟩ := h0
      exact Mat3.ext (Vec3.ext (a1.unique x1) (a2.unique x2) (a3.unique x3))
        (Vec3.ext (b1.unique y1) (b2.unique y2) (b3.unique y3)) (Vec3.ext (c1.unique z1) (c2.unique z2) (c3.unique z3))
    have e2 : Mat3.skew w = 0 := by
      have := congrArg (fun M : Mat3 ℝ => M.mul (l t).body.frame.att.tr) e1
      simp only [Mat3.mul_assoc', (hR t).mul_tr_self, Mat3.mul_one'] at this
      rw [this]; vec_ring
    have := congrArg (fun M : Mat3 ℝ => (⟨M.cy.z, M.cz.x, M.cx.y⟩ : Vec3 ℝ)) e2
    simpa [Mat3.skew, Vec3.ext_iff] using this
  rw [hw] at hd
  refine vecDeriv_congr hd (fun s => rfl) ?_
  rw [cross_zero_left, sub_zero]

/-- **C78** Center of mass of the chain. -/
theorem C78_com (hM : ∀ s s', (c s).mass = (c s').mass) (hM0 : (c t).mass ≠ 0) :
    ∃ (e : ℝ → Vec3 ℝ) (J : Mat ℝ), (∀ s, (IKFns.com : IKFns ℝ).srv (c1 s) a r = some (e s)) ∧
      (IKFns.com : IKFns ℝ).cmat (c1 t) a m = some J ∧ VecDeriv e (-jacMul J vel) t := by
  obtain ⟨c2, hid⟩ := h.exists_id hfk 0
  obtain ⟨acc, hd, hl⟩ := h.invDyn hfk hid t hv
  obtain ⟨J, eJ, -, hJ, -⟩ := C13_com_jacobian (c t) (c1 t) (c2 t) _ vel acc (h.wf t) (h.rot' t) hv.1 hl (hfk t) hd m hm hM0
  have hC := C08_chain_com_velocity c c1 c2 _ h hM hfk hid t
  have hw : ∀ s, (c2 s).wldCOM = (c1 s).wldCOM := fun s => by
    have e := hid s
    simp only [Chain.updateID, Option.bind_eq_bind, Option.bind_eq_some_iff, Option.pure_def, Option.some.injEq] at e
    obtain ⟨x, hx, y, hy, e⟩ := e
    simp only [Chain.updateRate, Option.map_eq_some_iff] at hx
    simp only [Chain.updateWrench, Option.map_eq_some_iff] at hy
    obtain ⟨_, _, rfl⟩ := hx
    obtain ⟨_, _, rfl⟩ := hy
    rw [← e]; rfl
  refine ⟨fun s => r.cx - (c1 s).wldCOM, J, fun s => rfl, eJ, ?_⟩
  refine vecDeriv_congr ((vecDeriv_const r.cx t).sub hC) (fun s => by rw [hw]) ?_
  rw [hJ, zero_sub]

/-- **C78** Angular momentum about a fixed point, and about the center of mass: after the rates are updated the error of the
cell is `- J q'`, so that joint velocities added to the present ones that cancel it make the momentum zero. -/
theorem C78_momentum (c2 : ℝ → Chain ℝ) (g : Vec3 ℝ) (hid : ∀ s, (c1 s).updateID ⟨g, 0⟩ = some (c2 s))
    (acm : IKAcm ℝ → Vec3 ℝ → IKAcm ℝ × Vec3 ℝ) :
    (∃ J, (IKFns.am acm).cmat (c1 t) a m = some J ∧ (IKFns.am acm).srv (c2 t) a r = some (-jacMul J vel)) ∧
    ∃ J, (IKFns.amCOM acm).cmat (c1 t) a m = some J ∧ (IKFns.amCOM acm).srv (c2 t) a r = some (-jacMul J vel) := by
  obtain ⟨acc, hd, hl⟩ := h.invDyn hfk hid t hv
  have hw : (c2 t).wldCOM = (c1 t).wldCOM := by
    have e := hid t
    simp only [Chain.updateID, Option.bind_eq_bind, Option.bind_eq_some_iff, Option.pure_def, Option.some.injEq] at e
    obtain ⟨x, hx, y, hy, e⟩ := e
    simp only [Chain.updateRate, Option.map_eq_some_iff] at hx
    simp only [Chain.updateWrench, Option.map_eq_some_iff] at hy
    obtain ⟨_, _, rfl⟩ := hx
    obtain ⟨_, _, rfl⟩ := hy
    rw [← e]; rfl
  obtain ⟨J, eJ, -, hJ, -⟩ := C14_momentum_jacobian (c t) (c1 t) (c2 t) _ vel acc (h.wf t) (h.rot' t) hv.1 hl (hfk t) hd m hm
    a.ap
  obtain ⟨J', eJ', -, hJ'⟩ := C14_com_momentum_jacobian (c t) (c1 t) (c2 t) _ vel acc (h.wf t) (h.rot' t) hv.1 hl (hfk t) hd m
    hm
  exact ⟨⟨J, eJ, by simp only [IKFns.am, hJ]⟩, J', eJ', by simp only [IKFns.amCOM, hJ', hw]⟩

end

/-! ### A link that turns -/

/-- An arm turning with unit speed about the vertical axis, with a tip fixed to it at distance one. -/
noncomputable def Sample.tipArm (s : ℝ) : Chain ℝ :=
  { link := [{ Sample.link "arm" (.revol (Sample.dof1 s 1 0 (Real.sin s) (Real.cos s) none none)) Sample.mp1 Frame.ident with
        offset := 0 },
      { Sample.link "tip" .fixed Sample.mp1 ⟨⟨1, 0, 0⟩, 1⟩ with offset := -1 }],
    shape := .node 0 (.node 1 .nil .nil) .nil, mass := 2, wldCOM := 0, comVel := 0, comAcc := 0 }

theorem Sample.tipArm_link {i : ℕ} {l : ℝ → Link ℝ} (h : ∀ s, (Sample.tipArm s).link[i]? = some (l s)) :
    l = (fun s => { Sample.link "arm" (.revol (Sample.dof1 s 1 0 (Real.sin s) (Real.cos s) none none)) Sample.mp1
        Frame.ident with offset := 0 }) ∨
    l = fun _ => { Sample.link "tip" .fixed Sample.mp1 ⟨⟨1, 0, 0⟩, 1⟩ with offset := -1 } := by
  rcases i with _ | _ | i
  · left; funext s; simpa [Sample.tipArm] using (h s).symm
  · right; funext s; simpa [Sample.tipArm] using (h s).symm
  · simpa [Sample.tipArm] using h 0

theorem Sample.tipArm_motion : Motion Sample.tipArm := by
  refine ⟨fun s => ⟨⟨_, rfl⟩, .refl _⟩, fun _ _ => rfl, fun _ _ => rfl, ?_, ?_, ?_⟩
  · intro i l hl s s'
    rcases Sample.tipArm_link hl with rfl | rfl <;> exact ⟨rfl, rfl⟩
  · intro s l hl
    simp only [Sample.tipArm, List.mem_cons, List.not_mem_nil, or_false] at hl
    rcases hl with rfl | rfl <;> exact Mat3.isRot_one
  · intro i l hl
    rcases Sample.tipArm_link hl with rfl | rfl
    · exact JointMotion.revol _ fun t => ⟨rfl, rfl, hasDerivAt_id t⟩
    · exact JointMotion.fixed

theorem Sample.tipArm_vel (t : ℝ) : ReadVel (Sample.tipArm t) [1] := ⟨rfl, [0], rfl, rfl⟩

theorem Sample.tipArm_fk : ∃ c1 : ℝ → Chain ℝ, (∀ s, (Sample.tipArm s).updateFK = some (c1 s)) ∧
    (∀ s l, (c1 s).link[0]? = some l → l.body.frame = ⟨0, ⟨⟨Real.cos s, Real.sin s, 0⟩, ⟨-Real.sin s, Real.cos s, 0⟩, ⟨0, 0, 1⟩⟩⟩) ∧
    ∀ s l, (c1 s).link[1]? = some l → l.body.frame =
      ⟨⟨Real.cos s, Real.sin s, 0⟩, ⟨⟨Real.cos s, Real.sin s, 0⟩, ⟨-Real.sin s, Real.cos s, 0⟩, ⟨0, 0, 1⟩⟩⟩ := by
  refine ⟨_, fun s => rfl, ?_, ?_⟩
  · intro s l hl
    injection hl with hl
    rw [← hl]
    show Frame.ident.cascade ((Prp.revol (Sample.dof1 s 1 0 (Real.sin s) (Real.cos s) none none)).xform Frame.ident) = _
    simp only [Sample.dof1, Frame.ident, Prp.xform, Prp.rotZ, Frame.cascade, Frame.ext_iff]
    vec_unfold
    simp
  · intro s l hl
    injection hl with hl
    rw [← hl]
    show (Frame.ident.cascade ((Prp.revol (Sample.dof1 s 1 0 (Real.sin s) (Real.cos s) none none)).xform Frame.ident)).cascade
      (Prp.fixed.xform ⟨⟨1, 0, 0⟩, 1⟩) = _
    simp only [Sample.dof1, Frame.ident, Prp.xform, Prp.rotZ, Frame.cascade, Frame.ext_iff]
    vec_unfold
    simp

/-- **C78 fails for the position of a link with respect to another.**  For an arm that turns with a tip fixed to it the error
of the position of the tip with respect to the arm changes, although the constraint matrix, the velocity of the tip seen from
the arm, says that it does not. -/
theorem C78_l2l_position_fails : ¬ ∀ (c c1 : ℝ → Chain ℝ), Motion c → (∀ s, (c s).updateFK = some (c1 s)) →
    ∀ (t : ℝ) (vel : List ℝ), ReadVel (c t) vel → ∀ (a : IKAttr ℝ) (r : Mat3 ℝ) (m : List (Vec3 ℝ)),
    m.length = LinkArray.jointSize (c t).link → ∀ (e : ℝ → Vec3 ℝ) (J : Mat ℝ),
    (∀ s, (IKFns.l2lPos : IKFns ℝ).srv (c1 s) a r = some (e s)) → (IKFns.l2lPos : IKFns ℝ).cmat (c1 t) a m = some J →
    VecDeriv e (-jacMul J vel) t := by
  intro H
  obtain ⟨c1, hfk, h0, h1⟩ := Sample.tipArm_fk
  obtain ⟨e, J, l, l', w, hl, hl', hR, hA, he, hJ, hd⟩ := l2lPos_rate Sample.tipArm c1 Sample.tipArm_motion hfk 0 [1]
    (Sample.tipArm_vel 0) ⟨0, 1, 0, true, true, true, false, 0⟩ 0 [0] rfl (by decide) (by decide)
  have hd' := H Sample.tipArm c1 Sample.tipArm_motion hfk 0 [1] (Sample.tipArm_vel 0) ⟨0, 1, 0, true, true, true, false, 0⟩ 0 [0] rfl e J
    he hJ
  have f0 := fun s => h0 s _ (hl s)
  have f1 := fun s => h1 s _ (hl' s)
  have u := hd.2.1.unique hd'.2.1
  have hw := hA.1.2.1
  simp only [f0] at hw
  have hs := hw.unique (by simpa using Real.hasDerivAt_sin 0)
  simp [f0, f1, Frame.xform, Mat3.mulVec, cross, Mat3.skew, Mat3.mul] at u hs
  simp [u] at hs

/-! ## The error is zero exactly at the reference -/

section
variable {K : Type*} [Field K] [LinearOrder K] [IsStrictOrderedRing K] [Zm K] [LawfulZm K]

theorem mat3Error_eq_zero {a b : Mat3 K} (ha : a.IsRot) (hb : b.IsRot) : mat3Error a b = 0 ↔ a = b := by
  constructor
  · intro h
    have h1 : a.mul b.tr = 1 := by
      rw [← LawfulZm.fromAA_toAA _ (ha.mul hb.tr)]
      have : Zm.toAA (a.mul b.tr) = 0 := h
      rw [this, LawfulZm.fromAA_zero]
    have h2 := congrArg (fun m : Mat3 K => m.mul b) h1
    simpa only [Mat3.mul_assoc', hb.tr_mul_self, Mat3.mul_one', Mat3.one_mul'] using h2
  · rintro rfl
    rw [mat3Error, ha.mul_tr_self, LawfulZm.toAA_one]

/-- **C78** The error of a constraint on a position, an attitude or the centre of mass is zero exactly if the constrained
quantity is at its reference. -/
theorem C78_zero_error (c : Chain K) (hc : ∀ l ∈ c.link, l.body.frame.att.IsRot) (a : IKAttr K) (f : IKFns K)
    (hf : Spec.Geometric f) (r : Mat3 K) (hr : ∀ acm, f = IKFns.wldAtt acm ∨ f = IKFns.l2lAtt acm → r.IsRot) :
    f.srv c a r = some 0 ↔ Spec.IkNow c a f r := by
  constructor
  · intro h
    rcases hf with rfl | ⟨acm, rfl⟩ | rfl | ⟨acm, rfl⟩ | rfl
    · simp only [IKFns.wldPos, Option.map_eq_some_iff] at h
      obtain ⟨l, hl, e⟩ := h
      exact .wldPos hl (sub_eq_zero.1 e)
    · simp only [IKFns.wldAtt, Option.map_eq_some_iff] at h
      obtain ⟨l, hl, e⟩ := h
      rw [(mat3Error_eq_zero (hr acm (.inl rfl)) (hc l (List.mem_of_getElem? hl))).1 e]
      exact .wldAtt hl
    · simp only [IKFns.l2lPos, Option.bind_eq_bind, Option.bind_eq_some_iff, Option.pure_def, Option.some.injEq] at h
      obtain ⟨ls, hls, l, hl, e⟩ := h
      exact .l2lPos hl hls (sub_eq_zero.1 e)
    · simp only [IKFns.l2lAtt, Option.bind_eq_bind, Option.bind_eq_some_iff, Option.pure_def, Option.some.injEq] at h
      obtain ⟨l, hl, ls, hls, e⟩ := h
      have h1 := hc l (List.mem_of_getElem? hl)
      have h2 := hc ls (List.mem_of_getElem? hls)
      have e' : mat3Error r (l.body.frame.att.mulT ls.body.frame.att) = 0 := by
        have := congrArg l.body.frame.att.mulVecT e
        rw [h1.mulVecT_mulVec] at this
        rw [this]; vec_ring
      rw [(mat3Error_eq_zero (hr acm (.inr rfl)) (h1.mulT h2)).1 e', Mat3.mulT_eq]
      exact .l2lAtt hl hls
    · simp only [IKFns.com, Option.some.injEq] at h
      exact .com (sub_eq_zero.1 h)
  · intro h
    have herr : ∀ m : Mat3 K, m.IsRot → mat3Error m m = 0 := fun m hm => (mat3Error_eq_zero hm hm).2 rfl
    cases h with
    | wldPos hl e => simp only [IKFns.wldPos, hl, Option.map_some, e, Frame.xform, sub_self]
    | wldAtt hl => simp only [IKFns.wldAtt, hl, Option.map_some, herr _ (hc _ (List.mem_of_getElem? hl))]
    | l2lPos hl hls e =>
      simp only [IKFns.l2lPos, hl, hls, Option.bind_eq_bind, Option.bind_some, Option.pure_def, e, Frame.xform, sub_self]
    | l2lAtt hl hls =>
      have h1 := hc _ (List.mem_of_getElem? hl)
      have h2 := hc _ (List.mem_of_getElem? hls)
      simp only [IKFns.l2lAtt, hl, hls, Option.bind_eq_bind, Option.bind_some, Option.pure_def, Mat3.mulT_eq,
        herr _ (h1.tr.mul h2), Option.some.injEq]
      vec_ring
    | com e => simp only [IKFns.com, e, sub_self]

/-- **C78** The references that are set by angles are rotations: about the axes `z`, `y`, `x` or `z`, `y`, `z` in this order, or of an
angle-axis vector. -/
theorem C78_reference (m : Mat3 K) (x y z : K) :
    (IKFns.refZYX m x y z).IsRot ∧ (IKFns.refZYZ m x y z).IsRot ∧ (IKFns.refAA m x y z).IsRot ∧ IKFns.refAA m x y z = Zm.fromAA ⟨x, y, z⟩ ∧
    (∀ v, (IKFns.refZYX m x y z).mulVec v = (Rz (Zm.sin x) (Zm.cos x)).mulVec ((Ry (Zm.sin y) (Zm.cos y)).mulVec
      ⟨v.x, Zm.cos z * v.y - Zm.sin z * v.z, Zm.sin z * v.y + Zm.cos z * v.z⟩)) ∧
    (∀ v, (IKFns.refZYZ m x y z).mulVec v = (Rz (Zm.sin x) (Zm.cos x)).mulVec ((Ry (Zm.sin y) (Zm.cos y)).mulVec
      ((Rz (Zm.sin z) (Zm.cos z)).mulVec v))) ∧
    (IKFns.refPos m x y z).cx = ⟨x, y, z⟩ := by
  have hX : ∀ q : K, (IKFns.rotX (Zm.sin q) (Zm.cos q)).IsRot := fun q => by
    have := LawfulZm.sin_sq_add_cos_sq q
    constructor <;> simp [IKFns.rotX, dot, cross] <;> first | (linear_combination this) | ring
  have hY : ∀ q : K, (IKFns.rotY (Zm.sin q) (Zm.cos q)).IsRot := fun q => by
    have := LawfulZm.sin_sq_add_cos_sq q
    constructor <;> simp [IKFns.rotY, dot, cross] <;> first | (linear_combination this) | ring
  have hZ : ∀ q : K, (IKFns.rotZ (Zm.sin q) (Zm.cos q)).IsRot := fun q => by
    have := LawfulZm.sin_sq_add_cos_sq q
    constructor <;> simp [IKFns.rotZ, dot, cross] <;> first | (linear_combination this) | ring
  refine ⟨((hZ x).mul (hY y)).mul (hX z), ((hZ x).mul (hY y)).mul (hZ z), LawfulZm.fromAA_isRot _, rfl, fun v => ?_, fun v => ?_, rfl⟩
  · rw [IKFns.refZYX, Mat3.mul_mulVec, Mat3.mul_mulVec]
    simp only [IKFns.rotX, IKFns.rotY, IKFns.rotZ, Rz, Ry]
    congr 2; vec_ring
  · rw [IKFns.refZYZ, Mat3.mul_mulVec, Mat3.mul_mulVec]
    rfl
end

/-- The hypotheses of C78 are met by the turning arm: it moves, its joint velocities are read as `[1]`, its mass is two, the
tip is a link, and the reference turned by one about the vertical axis is a rotation. -/
example : ∃ c1 : ℝ → Chain ℝ, Motion Sample.tipArm ∧ (∀ s, (Sample.tipArm s).updateFK = some (c1 s)) ∧ (∀ t, ReadVel (Sample.tipArm t) [1]) ∧
    (∀ t, ([0] : List (Vec3 ℝ)).length = LinkArray.jointSize (Sample.tipArm t).link) ∧ 1 < (Sample.tipArm 0).link.length ∧
    (∀ s s', (Sample.tipArm s).mass = (Sample.tipArm s').mass) ∧ (Sample.tipArm 0).mass ≠ 0 ∧
    (IKFns.refZYX (0 : Mat3 ℝ) 1 0 0).IsRot := by
  obtain ⟨c1, h, -⟩ := Sample.tipArm_fk
  exact ⟨c1, Sample.tipArm_motion, h, Sample.tipArm_vel, fun _ => rfl, by decide, fun _ _ => rfl, by simp [Sample.tipArm],
    (C78_reference 0 1 0 0).1⟩

end Roki
