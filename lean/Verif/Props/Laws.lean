import Verif.Props.Motion
import Verif.Props.Mass
import Mathlib.Analysis.Calculus.MeanValue
set_option autoImplicit false

/-!
# C76, C75, C78: the laws of motion

A chain moves; at every time forward kinematics is computed and then the quantities of inverse dynamics.  What the library
reports obeys the laws of mechanics as statements about derivatives with respect to time: the motion of the total center of
mass, Newton's and Euler's laws for the whole chain, and the conservation of energy and momentum.
-/

namespace Roki
open Spec

/-- A chain is moved, and at every time forward kinematics and then the update of inverse dynamics under the gravity `g`
(a linear acceleration of the root) are called: `c s` is the chain at time `s` before the calls, `c1 s` after the first and
`c2 s` after the second.  The joint accelerations are the rates of change of the joint velocities. -/
structure Spec.Driven (c c1 c2 : ℝ → Chain ℝ) (g : Vec3 ℝ) : Prop where
  motion : Motion c
  acc : ∀ (i : ℕ) (l : ℝ → Link ℝ), (∀ s, (c s).link[i]? = some (l s)) → AccMotion fun s => (l s).joint.prp
  fk : ∀ s, (c s).updateFK = some (c1 s)
  id : ∀ s, (c1 s).updateID ⟨g, 0⟩ = some (c2 s)

/-! ### Lists of functions -/

theorem vecDeriv_list_sum {α : Type*} (f : α → ℝ → Vec3 ℝ) (f' : α → Vec3 ℝ) (t : ℝ) (L : List α)
    (h : ∀ a ∈ L, VecDeriv (f a) (f' a) t) : VecDeriv (fun s => (L.map fun a => f a s).sum) (L.map f').sum t := by
  induction L with
  | nil => exact vecDeriv_const 0 t
  | cons a L ih =>
    simp only [List.map_cons, List.sum_cons]
    exact (h a (by simp)).add (ih fun b hb => h b (by simp [hb]))

theorem hasDerivAt_list_sum {α : Type*} (f : α → ℝ → ℝ) (f' : α → ℝ) (t : ℝ) (L : List α)
    (h : ∀ a ∈ L, HasDerivAt (f a) (f' a) t) : HasDerivAt (fun s => (L.map fun a => f a s).sum) (L.map f').sum t := by
  induction L with
  | nil => exact hasDerivAt_const t 0
  | cons a L ih =>
    simp only [List.map_cons, List.sum_cons]
    exact (h a (by simp)).add (ih fun b hb => h b (by simp [hb]))

/-! ### The rate pass and the wrench pass leave the rest of the bodies alone -/

theorem LTree.updateRate_kept {K : Type*} [Field K] (pv pa : Vec6 K) (T : LTree (Link K)) :
    (T.updateRate pv pa).map (fun l => (l.body.mp, l.body.wldCOM)) = T.map fun l => (l.body.mp, l.body.wldCOM) := by
  induction T generalizing pv pa with
  | nil => rfl
  | node l c s ihc ihs => simp only [LTree.updateRate, LTree.map, ihc, ihs]; rfl

theorem Chain.WF.updateID_body {K : Type*} [Field K] {c c2 cr : Chain K} (h : c.WF) {g : Vec6 K}
    (e : c.updateID g = some c2) (er : c.updateRate g = some cr) :
    c2.link.map (fun l => l.body) = cr.link.map (fun l => l.body) := by
  obtain ⟨T, hT, h2, w2, s2, n2, -⟩ := h.updateID e
  obtain ⟨T', hT', h3, w3, s3, n3, -⟩ := h.updateRate er
  obtain rfl : T' = T := Option.some.inj (hT'.symm.trans hT)
  rw [s2] at h2
  exact Chain.map_eq_of_gather h2 h3 (n2.trans n3.symm) (fun i hi => h.mem.2 (n2 ▸ hi)) _ (LTree.updateWrench_body _)

theorem Chain.WF.updateID_kept {K : Type*} [Field K] {c c2 cr : Chain K} (h : c.WF) {g : Vec6 K}
    (e : c.updateID g = some c2) (er : c.updateRate g = some cr) :
    c2.link.map (fun l => (l.body.mp, l.body.wldCOM)) = c.link.map (fun l => (l.body.mp, l.body.wldCOM)) := by
  have hb := congrArg (List.map fun b : Body K => (b.mp, b.wldCOM)) (h.updateID_body e er)
  simp only [List.map_map] at hb
  refine hb.trans ?_
  obtain ⟨T', hT', h3, w3, s3, n3, -⟩ := h.updateRate er
  exact Chain.map_eq_of_gather h3 hT' n3 (fun i hi => h.mem.2 (n3 ▸ hi)) _ (LTree.updateRate_kept _ _ _)

/-! ### One link over time -/

/-- What is known about a link of a driven chain over time. -/
structure LawLink (m : ℝ → Link ℝ) : Prop where
  mp : ∀ s s', (m s).body.mp = (m s').body.mp
  rot : ∀ s, (m s).body.frame.att.IsRot
  cv : ∀ s, COMVelCurrent (m s)
  ca : ∀ s, COMAccCurrent (m s)
  com : ∀ s, (m s).body.wldCOM = comPos (m s)
  pos : ∀ t, VecDeriv (fun s => comPos (m s)) (comVel (m t)) t
  att : ∀ t, RotMotion (fun s => (m s).body.frame.att) (angVel (m t)) t

/-- Accelerations of a link of a driven chain at the time `t`. -/
structure LawAcc (g : Vec3 ℝ) (t : ℝ) (m : ℝ → Link ℝ) : Prop where
  vel : VecDeriv (fun s => comVel (m s)) (comAcc (m t) - g) t
  ang : VecDeriv (fun s => (m s).body.vel.ang) (m t).body.acc.ang t

theorem comVel_body {l : Link ℝ} (h : COMVelCurrent l) : l.body.frame.att.mulVec l.body.comVel = comVel l := by
  rw [show l.body.comVel = _ from h]; rfl

theorem comAcc_body {l : Link ℝ} (h : COMAccCurrent l) : l.body.frame.att.mulVec l.body.comAcc = comAcc l := by
  rw [show l.body.comAcc = _ from h, comAcc, triple_eq]
  congr 1; abel

/-- The links of a driven chain as functions of time. -/
theorem Spec.Driven.links {c c1 c2 : ℝ → Chain ℝ} {g : Vec3 ℝ} (h : Driven c c1 c2 g) :
    ∃ ms : List (ℝ → Link ℝ), (∀ s, (c2 s).link = ms.map fun m => m s) ∧ (∀ m ∈ ms, LawLink m) ∧
      ∀ t, (∀ m ∈ (c t).link, FloatScrew m.joint.prp) → ∀ m ∈ ms, LawAcc g t m := by
  have w1 : ∀ s, (c1 s).WF ∧ (c1 s).link.length = (c s).link.length := fun s => by
    obtain ⟨-, -, -, hw, -, n1, -⟩ := (h.motion.wf s).updateFK (h.fk s); exact ⟨hw, n1⟩
  have ex : ∀ s, ∃ cr, (c1 s).updateRate ⟨g, 0⟩ = some cr := fun s => by
    obtain ⟨ls1, T, hT, e1, g1, n1⟩ := (w1 s).1.downAt (fun st (l : Link ℝ) => l.updateRate1 st.1 st.2)
      (fun l => (l.body.vel, l.body.acc)) (0, ⟨g, 0⟩)
    exact ⟨{ c1 s with link := ls1 }, by simp only [Chain.updateRate, Chain.updateRateAt, e1, Option.map_some]⟩
  choose cr er using ex
  have hn2 : ∀ s, (c2 s).link.length = (c 0).link.length := fun s => by
    obtain ⟨-, -, -, -, -, n2, -⟩ := (w1 s).1.updateID (h.id s)
    rw [n2, (w1 s).2, h.motion.length s 0]
  have hnr : ∀ s, (cr s).link.length = (c 0).link.length := fun s => by
    obtain ⟨-, -, -, -, -, n2, -⟩ := (w1 s).1.updateRate (er s)
    rw [n2, (w1 s).2, h.motion.length s 0]
  have hb := fun s => (w1 s).1.updateID_body (h.id s) (er s)
  have hbi : ∀ (i : ℕ) (hi : i < (c 0).link.length) (s : ℝ),
      ((c2 s).link[i]'(by rw [hn2]; exact hi)).body = ((cr s).link[i]'(by rw [hnr]; exact hi)).body := by
    intro i hi s
    have := congrArg (fun L : List (Body ℝ) => L[i]?) (hb s)
    simp only [List.getElem?_map, List.getElem?_eq_getElem (show i < (c2 s).link.length by rw [hn2]; exact hi),
      List.getElem?_eq_getElem (show i < (cr s).link.length by rw [hnr]; exact hi), Option.map_some,
      Option.some.injEq] at this
    exact this
  refine ⟨List.ofFn fun i : Fin (c 0).link.length => fun s => (c2 s).link[i.1]'(by rw [hn2]; exact i.2), ?_, ?_, ?_⟩
  · intro s
    rw [List.map_ofFn]
    refine List.ext_getElem (by simp [hn2]) fun i h1 h2 => ?_
    simp
  · intro m hm
    obtain ⟨⟨i, hi⟩, rfl⟩ := List.mem_ofFn.1 hm
    have hl : ∀ s, (cr s).link[i]? = some ((cr s).link[i]'(by rw [hnr]; exact hi)) := fun s => List.getElem?_eq_getElem _
    obtain ⟨ms, h1, -, hf, hv, hcv, hca, hmp, hcom⟩ := h.motion.rate h.fk er hl
    have hrot : ∀ t, ((cr t).link[i]'(by rw [hnr]; exact hi)).body.frame.att.IsRot := by
      intro t
      rw [hf t]
      refine isRot_product fun f hf => ?_
      obtain ⟨m, hm, rfl⟩ := List.mem_map.1 hf
      exact (h1 m hm).linkFrame_rot t
    have hV := C08_link_velocity c c1 cr ⟨g, 0⟩ h.motion h.fk er i _ hl
    have hC := C08_com_velocity c c1 cr ⟨g, 0⟩ h.motion h.fk er i _ hl
    refine ⟨?_, ?_, ?_, ?_, ?_, ?_, ?_⟩
    · intro s s'; simp only [hbi i hi]; exact hmp s s'
    · intro s; simp only [hbi i hi]; exact hrot s
    · intro s; simp only [COMVelCurrent, hbi i hi]; exact hcv s
    · intro s; simp only [COMAccCurrent, hbi i hi]; exact hca s
    · intro s; simp only [comPos, hbi i hi]; exact hcom s
    · intro t
      refine vecDeriv_congr (hC t) (fun s => ?_) ?_
      · simp only [comPos, hbi i hi]; exact (hcom s).symm
      · rw [comVel_body (hcv t)]; simp only [comVel, hbi i hi]
    · intro t; simp only [angVel, hbi i hi]; exact (hV t).2
  · intro t hfs m hm
    obtain ⟨⟨i, hi⟩, rfl⟩ := List.mem_ofFn.1 hm
    have hl : ∀ s, (cr s).link[i]? = some ((cr s).link[i]'(by rw [hnr]; exact hi)) := fun s => List.getElem?_eq_getElem _
    obtain ⟨ms, h1, -, hf, hv, hcv, hca, hmp, hcom⟩ := h.motion.rate h.fk er hl
    obtain ⟨hA, hR⟩ := h.motion.accDeriv h.acc rfl h.fk er hl hfs
    have hC := h.motion.comDeriv h.acc rfl h.fk er hl hfs
    have hV := C08_link_velocity c c1 cr ⟨g, 0⟩ h.motion h.fk er i _ hl
    refine ⟨?_, ?_⟩
    · refine vecDeriv_congr (Spec.MatDeriv.mulVec (hV t).2 hC) (fun s => ?_) ?_
      · rw [comVel_body (hcv s)]; simp only [comVel, hbi i hi]
      · simp only [Mat3.mulVec_sub, hR.mulVec_cross, hR.mulVec_mulVecT, Mat3.mul_mulVec, Mat3.skew_mulVec,
          comAcc_body (hca t), comVel_body (hcv t)]
        simp only [comAcc, hbi i hi]
        abel
    · simp only [hbi i hi]; exact hA.1

theorem LawLink.spin {m : ℝ → Link ℝ} (h : LawLink m) {g : Vec3 ℝ} {t : ℝ} (ha : LawAcc g t m) :
    VecDeriv (fun s => (worldInertia (m s)).mulVec (angVel (m s)))
      ((worldInertia (m t)).mulVec (angAcc (m t)) + cross (angVel (m t)) ((worldInertia (m t)).mulVec (angVel (m t)))) t := by
  have h1 := Spec.MatDeriv.mulVec (h.att t) ((matDeriv_const (m t).body.mp.inertia t).mulVec ha.ang)
  have e : ∀ s, ∀ v : Vec3 ℝ, (worldInertia (m s)).mulVec ((m s).body.frame.att.mulVec v) =
      (m s).body.frame.att.mulVec ((m t).body.mp.inertia.mulVec v) := by
    intro s v
    rw [worldInertia, Mat3.mul_mulVec, Mat3.mul_mulVec, ← Mat3.mulVecT_eq, (h.rot s).mulVecT_mulVec, h.mp s t]
  refine vecDeriv_congr h1 (fun s => ?_) ?_
  · rw [angVel, e]
  · have e0 : (0 : Mat3 ℝ).mulVec (m t).body.vel.ang = 0 := by vec_ring
    rw [angAcc, e, Mat3.mul_mulVec, Mat3.skew_mulVec, e0, zero_add, add_comm]
    congr 2
    rw [angVel, e]

theorem sum_const_smul (L : List (ℝ → Link ℝ)) (s : ℝ) (g : Vec3 ℝ) :
    (L.map fun m => mass (m s) • g).sum = (L.map fun m => mass (m s)).sum • g := by
  induction L with
  | nil => simp
  | cons a L ih => simp only [List.map_cons, List.sum_cons, ih, add_smul]

theorem Spec.Driven.rot {c c1 c2 : ℝ → Chain ℝ} {g : Vec3 ℝ} (h : Driven c c1 c2 g) (s : ℝ) :
    ∀ l ∈ (c s).link, l.org.att.IsRot ∧ l.joint.prp.WF := by
  intro l hl
  refine ⟨h.motion.rot s l hl, ?_⟩
  obtain ⟨i, hi, rfl⟩ := List.mem_iff_getElem.1 hl
  have hj := h.motion.joint i (fun u => (c u).link[i]'(by rw [h.motion.length u s]; exact hi))
    (fun u => List.getElem?_eq_getElem _)
  exact jointMotion_WF hj s

theorem Spec.Driven.kept {c c1 c2 : ℝ → Chain ℝ} {g : Vec3 ℝ} (h : Driven c c1 c2 g) (s : ℝ) :
    (c2 s).link.map (fun l => (l.body.mp, l.body.wldCOM)) = (c1 s).link.map (fun l => (l.body.mp, l.body.wldCOM)) ∧
    (c1 s).mass = (c s).mass ∧ (c2 s).mass = (c s).mass ∧
    (c1 s).wldCOM = LinkArray.calcCOM (c1 s).mass (c1 s).link ∧
    (c2 s).comVel = LinkArray.calcCOMVel (c2 s).mass (c2 s).link ∧
    (c2 s).comAcc = LinkArray.calcCOMAcc (c2 s).mass (c2 s).link := by
  obtain ⟨-, -, -, w1, -, -, m1⟩ := (h.motion.wf s).updateFK (h.fk s)
  obtain ⟨-, -, -, -, -, -, m2⟩ := w1.updateID (h.id s)
  have hex : ∃ cr, (c1 s).updateRate ⟨g, 0⟩ = some cr := by
    obtain ⟨ls1, T, hT, e1, g1, n1⟩ := w1.downAt (fun st (l : Link ℝ) => l.updateRate1 st.1 st.2)
      (fun l => (l.body.vel, l.body.acc)) (0, ⟨g, 0⟩)
    exact ⟨{ c1 s with link := ls1 }, by simp only [Chain.updateRate, Chain.updateRateAt, e1, Option.map_some]⟩
  obtain ⟨cr, er⟩ := hex
  refine ⟨w1.updateID_kept (h.id s) er, m1, m2.trans m1, ?_, ?_⟩
  · have e := h.fk s
    simp only [Chain.updateFK, Option.map_eq_some_iff] at e
    obtain ⟨d, -, e⟩ := e
    rw [← e]; rfl
  · have e := h.id s
    simp only [Chain.updateID, Option.bind_eq_bind, Option.bind_eq_some_iff, Option.pure_def, Option.some.injEq] at e
    obtain ⟨_, _, _, _, e⟩ := e
    rw [← e]; exact ⟨rfl, rfl⟩

/-! ## C75 -/

/-- **C75** The acceleration of the center of mass.  If the stored total mass is the sum of the masses of the links and not
zero, the derivative of the velocity of the total center of mass is the reported acceleration less gravity.

Missing: floating joints whose linear and angular velocities are not parallel, for which the accelerations of the links are
wrong (`C09_link_acceleration_fails`). -/
theorem C75_com_acceleration_partial (c c1 c2 : ℝ → Chain ℝ) (g : Vec3 ℝ) (h : Driven c c1 c2 g) (t : ℝ)
    (hm : ∀ s, (c s).mass = (c t).mass) (hM : (c t).mass = ((c2 t).link.map mass).sum) (hM0 : (c t).mass ≠ 0)
    (hf : ∀ m ∈ (c t).link, FloatScrew m.joint.prp) :
    VecDeriv (fun s => (c2 s).comVel) ((c2 t).comAcc - g) t := by
  obtain ⟨ms, hms, hL, hA⟩ := h.links
  have hA := hA t hf
  have hd := vecDeriv_list_sum (fun m s => (mass (m t) / (c t).mass) • comVel (m s))
    (fun m => (mass (m t) / (c t).mass) • (comAcc (m t) - g)) t ms (fun m hm => by
      have := Spec.VecDeriv.smul (hasDerivAt_const t (mass (m t) / (c t).mass)) (hA m hm).vel
      simpa using this)
  refine vecDeriv_congr hd (fun s => ?_) ?_
  · obtain ⟨-, -, k2, -, k3, -⟩ := h.kept s
    rw [k3, LinkArray.calcCOMVel]
    simp only [cat]
    rw [foldl_add_eq, zero_add, hms s, List.map_map]
    congr 1
    refine List.map_congr_left fun m hm' => ?_
    simp only [Function.comp_def]
    rw [comVel_body ((hL m hm').cv s), mass, k2, hm s, (hL m hm').mp s t]
  · obtain ⟨-, -, k2, -, -, k3⟩ := h.kept t
    rw [k3, LinkArray.calcCOMAcc]
    simp only [cat, smul_sub]
    rw [foldl_add_eq, zero_add, sum_map_sub', hms t, List.map_map]
    congr 1
    · congr 1
      refine List.map_congr_left fun m hm' => ?_
      simp only [Function.comp_def]
      rw [comAcc_body ((hL m hm').ca t), mass, k2]
    · have e : (ms.map fun m => (mass (m t) / (c t).mass) • g) = ms.map fun m => mass (m t) • ((c t).mass⁻¹ • g) := by
        refine List.map_congr_left fun m _ => ?_
        rw [smul_smul, div_eq_mul_inv]
      have hM' : (c t).mass = (ms.map fun m => mass (m t)).sum := by rw [hM, hms t, List.map_map]; rfl
      rw [e, sum_const_smul, ← hM', smul_smul, mul_inv_cancel₀ hM0, one_smul]

/-- **C75** Newton's law for the chain.  The derivative of the total linear momentum is the force the root joint transmits,
plus the external forces, plus the weight (`g` is the acceleration given to the root, the opposite of gravity).

Missing: floating joints whose linear and angular velocities are not parallel, as in C09. -/
theorem C75_newton_partial (c c1 c2 : ℝ → Chain ℝ) (g : Vec3 ℝ) (h : Driven c c1 c2 g) (t : ℝ)
    (hf : ∀ m ∈ (c t).link, FloatScrew m.joint.prp) (root : Link ℝ) (h0 : (c2 t).link[0]? = some root) :
    VecDeriv (fun s => ((c2 s).link.map fun l => mass l • comVel l).sum)
      (rootForce root + ((c2 t).link.map fun l => (extWrench l).lin).sum +
        ((c2 t).link.map fun l => mass l • (-g)).sum) t := by
  obtain ⟨ms, hms, hL, hA⟩ := h.links
  have hA := hA t hf
  have hw := congrArg Vec6.lin (C18_root_wrench_update (c t) (c1 t) (c2 t) ⟨g, 0⟩ (h.motion.wf t) (h.rot t) (h.fk t)
    (h.id t) root h0)
  have hd := vecDeriv_list_sum (fun m s => mass (m t) • comVel (m s))
    (fun m => mass (m t) • (comAcc (m t) - g)) t ms (fun m hm => by
      have := Spec.VecDeriv.smul (hasDerivAt_const t (mass (m t))) (hA m hm).vel
      simpa using this)
  refine vecDeriv_congr hd (fun s => ?_) ?_
  · rw [hms s, List.map_map]
    congr 1
    refine List.map_congr_left fun m hm' => ?_
    simp only [Function.comp_def, mass]
    rw [(hL m hm').mp s t]
  · have e : rootForce root = (root.body.frame.xform6Ang root.wrench).lin := rfl
    rw [e, hw, lin_sum, ← sum_map_add', ← sum_map_add', hms t, List.map_map]
    congr 1
    refine List.map_congr_left fun m hm' => ?_
    simp only [Function.comp_def, Vec6.sub_lin, inertialWrench, aboutOrigin, smul_sub, smul_neg]
    abel

/-- **C75** Euler's law for the chain.  The derivative of the angular momentum `rkChainAM` computes about a fixed point is the
moment the root joint transmits about that point, plus the moments of the external wrenches, plus the moments of the weights
of the links acting at their centers of mass.

Missing: floating joints whose linear and angular velocities are not parallel, as in C09. -/
theorem C75_euler_partial (c c1 c2 : ℝ → Chain ℝ) (g : Vec3 ℝ) (h : Driven c c1 c2 g) (t : ℝ)
    (hf : ∀ m ∈ (c t).link, FloatScrew m.joint.prp) (root : Link ℝ) (h0 : (c2 t).link[0]? = some root) (p : Vec3 ℝ) :
    VecDeriv (fun s => LinkArray.am (c2 s).link p)
      (rootMoment root p + ((c2 t).link.map fun l => (extWrench l).ang - cross p (extWrench l).lin).sum +
        ((c2 t).link.map fun l => cross (comPos l - p) (mass l • (-g))).sum) t := by
  obtain ⟨ms, hms, hL, hA⟩ := h.links
  have hA := hA t hf
  have hw := C18_root_wrench_update (c t) (c1 t) (c2 t) ⟨g, 0⟩ (h.motion.wf t) (h.rot t) (h.fk t)
    (h.id t) root h0
  have hd := vecDeriv_list_sum (fun m s => cross (comPos (m s) - p) (mass (m t) • comVel (m s)) +
      (worldInertia (m s)).mulVec (angVel (m s)))
    (fun m => cross (comPos (m t) - p) (mass (m t) • (comAcc (m t) - g)) +
      ((worldInertia (m t)).mulVec (angAcc (m t)) + cross (angVel (m t)) ((worldInertia (m t)).mulVec (angVel (m t)))))
    t ms (fun m hm => by
      have h1 := Spec.VecDeriv.smul (hasDerivAt_const t (mass (m t))) (hA m hm).vel
      have h2 := (((hL m hm).pos t).sub (vecDeriv_const p t)).cross h1
      refine vecDeriv_congr (h2.add ((hL m hm).spin (hA m hm))) (fun s => rfl) ?_
      congr 1
      simp only [sub_zero, zero_smul, zero_add, cross_smul_right, cross_self, smul_zero])
  refine vecDeriv_congr hd (fun s => ?_) ?_
  · rw [C23_angular_momentum (c2 s) p (fun l hl => ?_) (fun l hl => ?_), hms s, List.map_map]
    · congr 1
      refine List.map_congr_left fun m hm' => ?_
      simp only [Function.comp_def]
      rw [mass, mass, (hL m hm').mp s t]
    all_goals
      rw [hms s] at hl
      obtain ⟨m, hm, rfl⟩ := List.mem_map.1 hl
    · exact (hL m hm).rot s
    · exact (hL m hm).cv s
  · have e : rootMoment root p = (root.body.frame.xform6Ang root.wrench).ang -
        cross p (root.body.frame.xform6Ang root.wrench).lin := by
      simp only [rootMoment, rootForce, Frame.xform6Ang, Vec6.angShift, Mat3.mulVec6, cross_sub_left]
      abel
    rw [e, hw, lin_sum, ang_sum, cross_sum_right, ← sum_map_sub', ← sum_map_add', ← sum_map_add', hms t, List.map_map]
    congr 1
    refine List.map_congr_left fun m hm' => ?_
    simp only [Function.comp_def, Vec6.sub_lin, Vec6.sub_ang, inertialWrench, aboutOrigin, smul_sub, smul_neg,
      cross_sub_right, cross_sub_left]
    have hneg : ∀ a b : Vec3 ℝ, cross a (-b) = -cross a b := fun a b => by vec_ring
    rw [hneg, hneg]
    abel

/-! ## C76 -/

/-- **C76** Conservation of energy.  If at every time inverse dynamics reports joint forces that do no work and the external
wrenches do no work (in particular for a free motion, with no torque at any joint and no external wrench), the mechanical
energy is the same at all times.

Missing: floating joints whose linear and angular velocities are not parallel, as in C09. -/
theorem C76_energy_partial (c c1 c2 : ℝ → Chain ℝ) (g : Vec3 ℝ) (h : Driven c c1 c2 g)
    (hf : ∀ s, ∀ m ∈ (c s).link, FloatScrew m.joint.prp) (hI : ∀ s, ∀ l ∈ (c s).link, l.body.mp.inertia.Symm)
    (hj : ∀ s, ((c2 s).link.map jointPower).sum = 0) (he : ∀ s, ((c2 s).link.map extPower).sum = 0) (s s' : ℝ) :
    energy g (c2 s).link = energy g (c2 s').link := by
  have hd : ∀ t, HasDerivAt (fun s => energy g (c2 s).link) 0 t := by
    intro t
    have h1 := C09_work_energy_partial c c1 c2 ⟨g, 0⟩ h.motion h.acc rfl hI h.fk h.id t (hf t)
    rwa [hj, he, add_zero] at h1
  exact is_const_of_deriv_eq_zero (fun t => (hd t).differentiableAt) (fun t => (hd t).deriv) s s'

theorem vec_const {v : ℝ → Vec3 ℝ} (h : ∀ t, VecDeriv v 0 t) (s s' : ℝ) : v s = v s' := by
  have e : ∀ f : ℝ → ℝ, (∀ t, HasDerivAt f 0 t) → f s = f s' := fun f hf =>
    is_const_of_deriv_eq_zero (fun t => (hf t).differentiableAt) (fun t => (hf t).deriv) s s'
  exact Vec3.ext (e _ fun t => (h t).1) (e _ fun t => (h t).2.1) (e _ fun t => (h t).2.2)

/-- **C76** Conservation of momentum.  Without gravity and external wrenches, if the root joint transmits no force and no
moment at any time (a free-floating chain), the linear momentum and the angular momentum about every fixed point, as
`rkChainAM` computes it, are the same at all times.

Missing: floating joints whose linear and angular velocities are not parallel, as in C09. -/
theorem C76_momentum_partial (c c1 c2 : ℝ → Chain ℝ) (h : Driven c c1 c2 0)
    (hf : ∀ s, ∀ m ∈ (c s).link, FloatScrew m.joint.prp)
    (he : ∀ s, ∀ l ∈ (c2 s).link, l.body.extw = [])
    (hr : ∀ s root, (c2 s).link[0]? = some root → root.wrench = 0) (p : Vec3 ℝ) (s s' : ℝ) :
    ((c2 s).link.map fun l => mass l • comVel l).sum = ((c2 s').link.map fun l => mass l • comVel l).sum ∧
    LinkArray.am (c2 s).link p = LinkArray.am (c2 s').link p := by
  have h0 : ∀ t, ∃ root, (c2 t).link[0]? = some root := by
    intro t
    obtain ⟨-, -, -, w1, -⟩ := (h.motion.wf t).updateFK (h.fk t)
    obtain ⟨T, -, hT, w2, -⟩ := w1.updateID (h.id t)
    obtain ⟨b, hb⟩ := w2.root
    rw [hb] at hT
    obtain ⟨r, _, _, e, -⟩ := Chain.gather_node.1 hT
    exact ⟨r, e⟩
  have hx : ∀ t, ∀ l ∈ (c2 t).link, extWrench l = 0 := fun t l hl => by
    simp only [extWrench, he t l hl, List.map_nil, List.sum_nil]
  have hz : ∀ v : Vec3 ℝ, cross v 0 = 0 := cross_zero_right
  constructor
  · refine vec_const (v := fun s => ((c2 s).link.map fun l => mass l • comVel l).sum) (fun t => ?_) s s'
    obtain ⟨root, hr0⟩ := h0 t
    refine vecDeriv_congr (C75_newton_partial c c1 c2 0 h t (hf t) root hr0) (fun _ => rfl) ?_
    rw [List.sum_eq_zero (l := (c2 t).link.map fun l => (extWrench l).lin), List.sum_eq_zero, rootForce, hr t root hr0]
    · show (0 : Vec3 ℝ) = root.body.frame.att.mulVec 0 + 0 + 0
      rw [Mat3.mulVec_zero]; simp
    · intro x hx'
      obtain ⟨l, hl, rfl⟩ := List.mem_map.1 hx'
      rw [neg_zero, smul_zero]
    · intro x hx'
      obtain ⟨l, hl, rfl⟩ := List.mem_map.1 hx'
      rw [hx t l hl]; rfl
  · refine vec_const (v := fun s => LinkArray.am (c2 s).link p) (fun t => ?_) s s'
    obtain ⟨root, hr0⟩ := h0 t
    refine vecDeriv_congr (C75_euler_partial c c1 c2 0 h t (hf t) root hr0 p) (fun _ => rfl) ?_
    rw [List.sum_eq_zero (l := (c2 t).link.map fun l => (extWrench l).ang - cross p (extWrench l).lin),
      List.sum_eq_zero, rootMoment, rootForce, hr t root hr0]
    · show (0 : Vec3 ℝ) = root.body.frame.att.mulVec 0 + cross _ (root.body.frame.att.mulVec 0) + 0 + 0
      rw [Mat3.mulVec_zero, hz]; simp
    · intro x hx'
      obtain ⟨l, hl, rfl⟩ := List.mem_map.1 hx'
      rw [neg_zero, smul_zero, hz]
    · intro x hx'
      obtain ⟨l, hl, rfl⟩ := List.mem_map.1 hx'
      rw [hx t l hl]
      show (0 : Vec3 ℝ) - cross p 0 = 0
      rw [hz, sub_zero]

/-! ### Cases that meet the hypotheses -/

theorem Spec.Motion.driven {c : ℝ → Chain ℝ} (h : Motion c)
    (ha : ∀ (i : ℕ) (l : ℝ → Link ℝ), (∀ s, (c s).link[i]? = some (l s)) → AccMotion fun s => (l s).joint.prp) (g : Vec3 ℝ) :
    ∃ c1 c2, Driven c c1 c2 g := by
  have ex1 : ∀ s, ∃ c1, (c s).updateFK = some c1 := fun s => by
    obtain ⟨c1, e, -⟩ := C06_fk_composition _ (h.wf s); exact ⟨c1, e⟩
  choose c1 e1 using ex1
  have ex2 : ∀ s, ∃ c2, (c1 s).updateID ⟨g, 0⟩ = some c2 := fun s => by
    obtain ⟨-, -, -, hw, -⟩ := (h.wf s).updateFK (e1 s)
    obtain ⟨ls1, T, hT, e1, g1, n1⟩ := hw.downAt (fun st (l : Link ℝ) => l.updateRate1 st.1 st.2)
      (fun l => (l.body.vel, l.body.acc)) (0, ⟨g, 0⟩)
    obtain ⟨ls2, T2, hT2, e2, g2, n2⟩ := (hw.with_link n1).updateWrenchAt
    have e2' : Chain.updateWrenchAt (c1 s).shape ls1 = some ls2 := e2
    exact ⟨_, by
      simp only [Chain.updateID, Chain.updateRate, Chain.updateRateAt, e1, Option.map_some, Option.bind_eq_bind,
        Option.bind_some, Chain.updateWrench, e2']; rfl⟩
  choose c2 e2 using ex2
  exact ⟨c1, c2, h, ha, e1, e2⟩

/-- The swinging chain of two links is driven under gravity; its mass is two. -/
example : (∃ c1 c2, Driven Sample.swing c1 c2 ⟨0, 0, 10⟩) ∧ (∀ s, (Sample.swing s).mass = 2) ∧
    (∀ s, ∀ m ∈ (Sample.swing s).link, FloatScrew m.joint.prp ∧ m.body.mp.inertia.Symm) := by
  refine ⟨Sample.swing_motion.driven Sample.swing_acc _, fun _ => rfl, ?_⟩
  intro s m hm
  simp only [Sample.swing, List.mem_cons, List.not_mem_nil, or_false] at hm
  rcases hm with rfl | rfl
  all_goals
    refine ⟨fun d hd => by simp [Sample.link] at hd, ?_⟩
    exact rfl

/-- A body that falls freely along a vertical slide. -/
noncomputable def Sample.falling (s : ℝ) : Chain ℝ :=
  { link := [Sample.link "body" (.prism (Sample.dof1 (-5 * (s * s)) (-10 * s) (-10) 0 1 none none)) Sample.mp1 Frame.ident],
    shape := .node 0 .nil .nil, mass := 1, wldCOM := 0, comVel := 0, comAcc := 0 }

theorem Sample.falling_link {i : ℕ} {l : ℝ → Link ℝ} (h : ∀ s, (Sample.falling s).link[i]? = some (l s)) :
    l = fun s => Sample.link "body" (.prism (Sample.dof1 (-5 * (s * s)) (-10 * s) (-10) 0 1 none none)) Sample.mp1
      Frame.ident := by
  funext s
  rcases i with _ | i
  · simpa [Sample.falling] using (h s).symm
  · simpa [Sample.falling] using h s

/-- A body in free fall meets the hypotheses of the conservation of energy: it moves, and inverse dynamics finds no torque. -/
example : ∃ c1 c2, Driven Sample.falling c1 c2 ⟨0, 0, 10⟩ ∧
    (∀ s, ∀ m ∈ (Sample.falling s).link, FloatScrew m.joint.prp ∧ m.body.mp.inertia.Symm) ∧
    (∀ s, ((c2 s).link.map jointPower).sum = 0) ∧ ∀ s, ((c2 s).link.map extPower).sum = 0 := by
  have hm : Motion Sample.falling := by
    refine ⟨fun s => ⟨⟨_, rfl⟩, .refl _⟩, fun _ _ => rfl, fun _ _ => rfl, ?_, ?_, ?_⟩
    · intro i l hl s s'
      rw [Sample.falling_link hl]; exact ⟨rfl, rfl⟩
    · intro s l hl
      simp only [Sample.falling, List.mem_singleton] at hl
      subst hl; exact Mat3.isRot_one
    · intro i l hl
      rw [Sample.falling_link hl]
      refine JointMotion.prism _ fun t => ?_
      have := ((hasDerivAt_id t).mul (hasDerivAt_id t)).const_mul (-5)
      exact this.congr_deriv (by simp [Sample.dof1]; ring)
  have ha : ∀ (i : ℕ) (l : ℝ → Link ℝ), (∀ s, (Sample.falling s).link[i]? = some (l s)) →
      AccMotion fun s => (l s).joint.prp := by
    intro i l hl
    rw [Sample.falling_link hl]
    intro t k hk
    have : k < 1 := hk
    have : k = 0 := by omega
    subst this
    have := (hasDerivAt_id t).const_mul (-10)
    exact this.congr_deriv (by simp [Sample.link, Sample.dof1, Prp.getAcc])
  refine ⟨_, _, ⟨hm, ha, fun s => rfl, fun s => rfl⟩, ?_, ?_, ?_⟩
  · intro s m hm
    simp only [Sample.falling, List.mem_singleton] at hm
    subst hm
    exact ⟨fun d hd => by simp [Sample.link] at hd, rfl⟩
  · intro s
    show (_ * _ + 0) + 0 = (0 : ℝ)
    simp [Link.updateRate1, Link.updateAcc1, Link.updateVel1, Link.updateFrame1, Body.netWrench, Body.updateCOMVel,
      Body.updateCOMAcc, Vec6.angShift, Sample.link, Sample.dof1, Sample.mp1, Frame.ident, Prp.incVel, Prp.incAcc,
      Prp.incAccOnVel, Frame.xform6Lin, Prp.xform, Body.updateCOM, Mat3.mulVecT6, Vec6.linShift, triple, cross, Mat3.mulVecT,
      dot]
    exact Or.inl rfl
  · intro s
    show (0 : ℝ) + 0 = 0
    simp

end Roki
