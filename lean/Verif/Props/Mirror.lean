import Verif.Lemmas.MirrorJacobi
import Verif.Lemmas.MirrorAct
import Verif.Props.History
import Verif.Lemmas.ZmReal
set_option autoImplicit false

/-! # C140: the mirror image of a robot does the mirror image of its motion -/

namespace Roki
set_option linter.unusedSectionVars false
open Spec LinkArray
variable {K : Type*} [Field K]

/-- Exact real arithmetic meets the assumptions of C140. -/
instance : Mirror.Fair ℝ where
  sin := Real.sin_neg
  cos := Real.cos_neg
  phase q hq := by
    simp only [Zm.phaseNormalize, Zm.pi] at *
    have hp : (0 : ℝ) < 2 * Real.pi := mul_pos two_pos Real.pi_pos
    obtain ⟨h1, h2⟩ := toIocMod_mem_Ioc hp (-Real.pi) q
    have e := toIocMod_add_toIocDiv_zsmul hp (-Real.pi) q
    rw [toIocMod_eq_iff]
    have h3 : toIocMod hp (-Real.pi) q < Real.pi := lt_of_le_of_ne (by linarith) hq
    refine ⟨⟨by linarith, by linarith⟩, -toIocDiv hp (-Real.pi) q, ?_⟩
    rw [neg_zsmul, ← neg_add, e]
  fromAA a := by
    have e : dot (Mirror.axi a) (Mirror.axi a) = dot a a := by simp only [Mirror.axi, dot]; ring
    show ZmReal.fromAA (Mirror.axi a) = Mirror.mat (ZmReal.fromAA a)
    simp only [ZmReal.fromAA, e, ZmReal.rod]
    generalize Real.sin (Real.sqrt (dot a a)) / Real.sqrt (dot a a) = A
    generalize (1 - Real.cos (Real.sqrt (dot a a))) / (Real.sqrt (dot a a) * Real.sqrt (dot a a)) = B
    simp only [Mirror.axi, Mirror.mat, Mirror.pol]
    vec_ring
  tiny x := by simp only [Zm.tiny, abs_neg]
  matInv n s h hs := by
    have key : (Matrix.of fun a b : Fin n => s a * s b * h a b)⁻¹ = Matrix.of fun a b : Fin n =>
        s a * s b * (Matrix.of fun a b : Fin n => h a b)⁻¹ a b := by
      have hd : Matrix.diagonal (fun a : Fin n => s a) * Matrix.diagonal (fun a : Fin n => s a) = 1 := by
        rw [Matrix.diagonal_mul_diagonal, ← Matrix.diagonal_one]
        congr 1
        funext a
        rcases hs a with e | e <;> rw [e] <;> norm_num
      have e : (Matrix.of fun a b : Fin n => s a * s b * h a b) =
          Matrix.diagonal (fun a : Fin n => s a) * (Matrix.of fun a b : Fin n => h a b) * Matrix.diagonal (fun a : Fin n => s a) := by
        ext a b
        rw [Matrix.mul_diagonal, Matrix.diagonal_mul]
        simp only [Matrix.of_apply]
        ring
      rw [e, Matrix.mul_inv_rev, Matrix.mul_inv_rev, Matrix.inv_eq_right_inv hd]
      ext a b
      rw [← Matrix.mul_assoc, Matrix.mul_diagonal, Matrix.diagonal_mul]
      simp only [Matrix.of_apply]
      ring
    funext i j
    simp only [Zm.matInv]
    by_cases H : i < n ∧ j < n
    · rw [dif_pos H, dif_pos H, key]
      rfl
    · rw [dif_neg H, dif_neg H, mul_zero]

namespace Mirror140

theorem get_values [LinearOrder K] [Zm K] {get : Prp K → List K}
    (hg : ∀ p : Prp K, get (Mirror.prp p) = List.zipWith (· * ·) (Mirror.signs p) (get p)) (c : Chain K)
    {v w : List K} (hv : ∀ l ∈ c.link, 0 < l.joint.prp.size → slice v l = get l.joint.prp)
    (hw : ∀ l ∈ (Mirror.chain c).link, 0 < l.joint.prp.size → slice w l = get l.joint.prp) : Mirror.Values c v w := by
  intro l hl
  have hs : (Mirror.prp l.joint.prp).size = l.joint.prp.size := by cases l.joint.prp <;> rfl
  by_cases h0 : 0 < l.joint.prp.size
  · have e : slice w l = slice w (Mirror.link l) := by
      simp only [slice]
      rw [show (Mirror.link l).offset = l.offset from rfl, show (Mirror.link l).joint.prp = Mirror.prp l.joint.prp from rfl, hs]
    rw [hv l hl h0, e, hw (Mirror.link l) (List.mem_map_of_mem hl)
      (by rw [show (Mirror.link l).joint.prp = Mirror.prp l.joint.prp from rfl, hs]; exact h0)]
    exact hg _
  · have e : l.joint.prp.size = 0 := by omega
    simp [slice, e]

theorem size_link (l : Link K) : (Mirror.link l).joint.prp.size = l.joint.prp.size := by
  simp only [Mirror.link]; cases l.joint.prp <;> rfl

theorem setOffset_link (ls : List (Link K)) : setOffset (ls.map Mirror.link) = (setOffset ls).map Mirror.link := by
  have hs : ∀ l : Link K, (Mirror.link l).size = l.size := fun l => size_link l
  have : ∀ n, setOffsetFrom n (ls.map Mirror.link) = (setOffsetFrom n ls).map Mirror.link := by
    induction ls with
    | nil => intro n; rfl
    | cons l ls ih =>
      intro n
      simp only [List.map_cons, setOffsetFrom, hs]
      split_ifs
      · simp only [List.map_cons, ih]; rfl
      · simp only [List.map_cons, ih]; rfl
  exact this 0

theorem jointSize_link (ls : List (Link K)) : jointSize (ls.map Mirror.link) = jointSize ls := by
  rw [jointSize_eq, jointSize_eq]
  simp only [sizes, List.map_map, Function.comp_def, Link.size, size_link]

theorem wf {c : Chain K} (h : c.WF) : (Mirror.chain c).WF :=
  ⟨h.root, by rw [show (Mirror.chain c).link.length = c.link.length from List.length_map ..]; exact h.perm⟩

theorem sum_axi {α : Type*} (f g : α → Vec3 K) (ls : List α) (h : ∀ l ∈ ls, g l = Mirror.axi (f l)) :
    (ls.map g).sum = Mirror.axi (ls.map f).sum := by
  induction ls with
  | nil => simp only [List.map_nil, List.sum_nil, Mirror.axi]; vec_ring
  | cons l ls ih =>
    simp only [List.map_cons, List.sum_cons]
    rw [h l (by simp), ih fun l hl => h l (by simp [hl])]
    simp only [Mirror.axi]
    vec_ring

end Mirror140

/-- **C140** The mirror image of a robot does the mirror image of its motion: whatever sequence of settings of the joints, external wrenches, updates
of kinematics, velocities, inverse dynamics and forward dynamics, with motors and additional forces, it goes through, with the arguments seen in the
mirror, its state after it is the state of the original robot seen in the mirror; and where one of them runs into undefined behaviour, so does the
other. -/
theorem C140_history [LinearOrder K] [IsStrictOrderedRing K] [Zm K] [Mirror.Fair K] (c : Chain K) (hc : ∀ l ∈ c.link, Mirror.InOrder l.joint.prp)
    (as bs : List (Act K)) (h : List.Forall₂ (Mirror.SameAct c) as bs) : runActs bs (Mirror.chain c) = (runActs as c).map Mirror.chain :=
  (Mirror.acts hc h c rfl).1

/-- **C140** What the mirror image of a robot reports is the mirror image of what the robot reports: joint displacements, velocities, accelerations and
torques, kinetic energy, angular momentum, the external wrench, velocity and acceleration of a point of a link, the zero moment point. -/
theorem C140_values [LinearOrder K] [Zm K] [Mirror.Fair K] (c : Chain K) (ho : setOffset c.link = c.link) :
    (∀ get ∈ [Prp.getDis, Prp.getVel, Prp.getAcc, Prp.getTrq], ∀ buf buf' : List K, buf.length = jointSize c.link →
      buf'.length = jointSize c.link →
      ∃ v w, getJointAll get c.link buf = some v ∧ getJointAll get (Mirror.chain c).link buf' = some w ∧ v.length = jointSize c.link ∧
        w.length = jointSize c.link ∧ Mirror.Values c v w) ∧
    LinkArray.ke (Mirror.chain c).link = LinkArray.ke c.link ∧
    (∀ p, LinkArray.am (Mirror.chain c).link (Mirror.pol p) = Mirror.axi (LinkArray.am c.link p)) ∧
    LinkArray.calcExtWrench (Mirror.chain c).link = Mirror.vec6 (LinkArray.calcExtWrench c.link) ∧
    (∀ (l : Link K) p, (Mirror.link l).pointVel (Mirror.pol p) = Mirror.pol (l.pointVel p) ∧
      (Mirror.link l).pointAcc (Mirror.pol p) = Mirror.pol (l.pointAcc p)) ∧
    (∀ (r : Link K) z, LinkArray.zmp (Mirror.link r) z = (LinkArray.zmp r z).map Mirror.pol) := by
  have hl : (Mirror.chain c).link = c.link.map Mirror.link := rfl
  refine ⟨?_, ?_, ?_, ?_, ?_, ?_⟩
  · intro get hm buf buf' hb hb'
    have ho' : setOffset (Mirror.chain c).link = (Mirror.chain c).link := by rw [hl, Mirror140.setOffset_link, ho]
    have hj : jointSize (Mirror.chain c).link = jointSize c.link := Mirror140.jointSize_link _
    obtain ⟨v, e, n, hv⟩ := C02_get_slices c.link buf ho hb _ hm
    obtain ⟨w, e', n', hw⟩ := C02_get_slices (Mirror.chain c).link buf' ho' (hb'.trans hj.symm) _ hm
    refine ⟨v, w, e, e', n, n'.trans hj, ?_⟩
    simp only [List.mem_cons, List.not_mem_nil, or_false] at hm
    rcases hm with rfl | rfl | rfl | rfl
    · refine Mirror140.get_values (fun p => ?_) c hv hw
      cases p <;> simp [Mirror.prp, Prp.getDis, Mirror.signs, Vec6.toBuf, Vec3.toBuf, Mirror.vec6, Mirror.pol, Mirror.axi]
    · refine Mirror140.get_values (fun p => ?_) c hv hw
      cases p <;> simp [Mirror.prp, Prp.getVel, Mirror.signs, Vec6.toBuf, Vec3.toBuf, Mirror.vec6, Mirror.pol, Mirror.axi]
    · refine Mirror140.get_values (fun p => ?_) c hv hw
      cases p <;> simp [Mirror.prp, Prp.getAcc, Mirror.signs, Vec6.toBuf, Vec3.toBuf, Mirror.vec6, Mirror.pol, Mirror.axi]
    · refine Mirror140.get_values (fun p => ?_) c hv hw
      cases p <;> simp [Mirror.prp, Prp.getTrq, Mirror.signs, Vec6.toBuf, Vec3.toBuf, Mirror.vec6, Mirror.pol, Mirror.axi]
  · rw [hl]
    simp only [LinkArray.ke, List.foldl_map]
    congr 1
    funext e l
    congr 1
    simp only [Body.ke, Mirror.link, Mirror.body, Mirror.mp, Mirror.vec6, Mirror.pol, Mirror.axi, Mirror.mat]
    vec_unfold
    ring
  · intro p
    simp only [hl, LinkArray.am, foldl_add_eq, zero_add, List.map_map]
    refine Mirror140.sum_axi _ _ _ fun l _ => ?_
    simp only [Function.comp, Body.am, Mirror.link, Mirror.body, Mirror.mp, Mirror.vec6, Mirror.frame, Mirror.pol, Mirror.axi, Mirror.mat]
    vec_ring
  · have key : ∀ (ls : List (Link K)) (w : Vec6 K), (ls.map Mirror.link).foldl (fun w l => if tiny6 l.body.calcExtWrench then w
        else w + (l.body.frame.att.mulVec6 l.body.calcExtWrench).angShift l.body.frame.pos) (Mirror.vec6 w) =
        Mirror.vec6 (ls.foldl (fun w l => if tiny6 l.body.calcExtWrench then w
          else w + (l.body.frame.att.mulVec6 l.body.calcExtWrench).angShift l.body.frame.pos) w) := by
      intro ls
      induction ls with
      | nil => intro w; rfl
      | cons l ls ih =>
        intro w
        simp only [List.map_cons, List.foldl_cons]
        rw [← ih]
        congr 1
        have e : (Mirror.link l).body.calcExtWrench = Mirror.vec6 l.body.calcExtWrench := Mirror.net _
        have t : tiny6 (Mirror.vec6 l.body.calcExtWrench) = tiny6 l.body.calcExtWrench := by
          simp only [tiny6, Mirror.vec6, Mirror.pol, Mirror.axi, Mirror.Fair.tiny]
        rw [e, t]
        split_ifs
        · rfl
        · rw [Mirror.wrench_add]
          congr 1
          generalize l.body.calcExtWrench = w
          simp only [Mirror.link, Mirror.body, Mirror.frame, Mirror.vec6, Mirror.pol, Mirror.axi, Mirror.mat]
          vec_ring
    have h := key c.link 0
    rw [show Mirror.vec6 (0 : Vec6 K) = 0 by simp only [Mirror.vec6, Mirror.pol, Mirror.axi]; vec_ring] at h
    exact h
  · intro l p
    simp only [Link.pointVel, Link.pointAcc, Mirror.link, Mirror.body, Mirror.vec6, Mirror.pol, Mirror.axi]
    constructor <;> vec_ring
  · intro r z
    have ed : gravityDir (Mirror.link r) = Mirror.pol (gravityDir r) := by
      simp only [gravityDir, Mirror.link, Mirror.body, Mirror.frame, Mirror.pol, Mirror.mat]; vec_ring
    have ef : dot (gravityDir (Mirror.link r)) (Mirror.link r).joint.wrench.lin = dot (gravityDir r) r.joint.wrench.lin := by
      rw [ed]; simp only [Mirror.link, Mirror.vec6, Mirror.pol]; vec_unfold; ring
    simp only [zmp]
    rw [ef]
    split_ifs
    · rfl
    · rw [Option.map_some, ed]
      generalize (dot (gravityDir r) r.joint.wrench.lin)⁻¹ = k
      generalize gravityDir r = g
      congr 1
      simp only [Mirror.link, Mirror.body, Mirror.frame, Mirror.vec6, Mirror.pol, Mirror.axi, Mirror.mat]
      vec_ring

/-- **C140** The Jacobian matrices of the mirror image of a robot are the mirror images of its Jacobian matrices: the column of each component of the
joint vector is seen in the mirror, in reverse if the component is.  Where one of them runs into undefined behaviour, so does the other. -/
theorem C140_jacobians [LinearOrder K] (c : Chain K) (ho : setOffset c.link = c.link)
    (m m' : Jacobi.Mat K) (hm : m.length = jointSize c.link) (hm' : m'.length = jointSize c.link) (i j : ℕ) (p : Vec3 K) :
    let pol := Mirror.see Mirror.pol (Mirror.cols c.link)
    let axi := Mirror.see Mirror.axi (Mirror.cols c.link)
    Jacobi.wldAng (Mirror.chain c) i m' = (Jacobi.wldAng c i m).map axi ∧
    Jacobi.linkToLinkAng (Mirror.chain c) i j m' = (Jacobi.linkToLinkAng c i j m).map axi ∧
    Jacobi.wldLin (Mirror.chain c) i (Mirror.pol p) m' = (Jacobi.wldLin c i p m).map pol ∧
    Jacobi.linkToLinkLin (Mirror.chain c) i j (Mirror.pol p) m' = (Jacobi.linkToLinkLin c i j p m).map pol ∧
    Jacobi.com (Mirror.chain c) m' = (Jacobi.com c m).map pol ∧
    Jacobi.linkAM (Mirror.chain c) i (Mirror.pol p) m' = (Jacobi.linkAM c i p m).map axi ∧
    Jacobi.am (Mirror.chain c) (Mirror.pol p) m' = (Jacobi.am c p m).map axi ∧
    Jacobi.amCOM (Mirror.chain c) m' = (Jacobi.amCOM c m).map axi := by
  have hl : (Mirror.chain c).link = c.link.map Mirror.link := rfl
  have hsh : (Mirror.chain c).shape = c.shape := rfl
  have len : m.length = (Mirror.cols c.link).length := hm.trans (Mirror.cols_length _).symm
  have len0 : (Jacobi.zero m).length = (Mirror.cols c.link).length := by rw [Jacobi.zero, List.length_map]; exact len
  have zp : Jacobi.zero m' = Mirror.see Mirror.pol (Mirror.cols c.link) (Jacobi.zero m) :=
    Mirror.see_zero (by simp only [Mirror.pol]; vec_ring) _ _ _ len (hm'.trans (Mirror.cols_length _).symm)
  have za : Jacobi.zero m' = Mirror.see Mirror.axi (Mirror.cols c.link) (Jacobi.zero m) :=
    Mirror.see_zero (by simp only [Mirror.axi]; vec_ring) _ _ _ len (hm'.trans (Mirror.cols_length _).symm)
  have angSet : ∀ l ∈ c.link, Mirror.Step Mirror.axi (Mirror.cols c.link) (fun m => Jacobi.colLoop Jacobi.opSet l (Jacobi.angCol l) m)
      (fun m => Jacobi.colLoop Jacobi.opSet (Mirror.link l) (Jacobi.angCol (Mirror.link l)) m) := fun l h =>
    Mirror.step_ang ho (fun _ _ _ => rfl) h
  have angSub : ∀ l ∈ c.link, Mirror.Step Mirror.axi (Mirror.cols c.link) (fun m => Jacobi.colLoop Jacobi.opSub l (Jacobi.angCol l) m)
      (fun m => Jacobi.colLoop Jacobi.opSub (Mirror.link l) (Jacobi.angCol (Mirror.link l)) m) := fun l h =>
    Mirror.step_ang ho (fun k v a => by simp only [Jacobi.opSub, Mirror.axi]; vec_ring) h
  have amStep : ∀ (q : Vec3 K) (i : ℕ), Mirror.Step Mirror.axi (Mirror.cols c.link)
      (fun m => Jacobi.linkAM' c q m i) (fun m => Jacobi.linkAM' (Mirror.chain c) (Mirror.pol q) m i) := by
    intro q i m hm
    simp only [Jacobi.linkAM', hl, hsh, Mirror.map_get]
    cases hi : c.link[i]? with
    | none => exact ⟨rfl, fun m' q => by cases q⟩
    | some li =>
      simp only [Option.map_some, Option.bind_eq_bind, Option.bind_some]
      cases c.shape.pathUp i with
      | none => exact ⟨rfl, fun m' q => by cases q⟩
      | some path =>
        have eI : (Mirror.link li).wldInertia = Mirror.mat li.wldInertia := by
          simp only [Link.wldInertia, Mirror.link, Mirror.body, Mirror.mp, Mirror.frame, Mirror.mat, Mirror.pol]; vec_ring
        simp only [Option.bind_some, eI]
        exact Mirror.step_walk (fun l h => Mirror.step_am ho li.wldInertia li.body.mp.mass li.body.wldCOM q h) path m hm
  have amAll : ∀ q : Vec3 K, Jacobi.am (Mirror.chain c) (Mirror.pol q) m' =
      (Jacobi.am c q m).map (Mirror.see Mirror.axi (Mirror.cols c.link)) := by
    intro q
    simp only [Jacobi.am, hl, List.length_map]
    rw [za]
    exact (Mirror.Step.foldlM _ (fun i _ => amStep q i) _ len0).1
  refine ⟨?_, ?_, ?_, ?_, ?_, ?_, amAll p, amAll c.wldCOM⟩
  · simp only [Jacobi.wldAng, hsh, hl]
    cases c.shape.pathUp i with
    | none => rfl
    | some path =>
      simp only [Option.bind_some]
      rw [za]
      exact (Mirror.step_walk (f := fun l m => Jacobi.colLoop Jacobi.opSet l (Jacobi.angCol l) m)
        (f' := fun l m => Jacobi.colLoop Jacobi.opSet l (Jacobi.angCol l) m) angSet path (Jacobi.zero m) len0).1
  · simp only [Jacobi.linkToLinkAng, hsh, hl]
    cases c.shape.pathUp j with
    | none => rfl
    | some path =>
      simp only [Option.bind_some]
      obtain ⟨e, n⟩ := Mirror.walkAngTo (f := fun l m => Jacobi.colLoop Jacobi.opSet l (Jacobi.angCol l) m)
        (f' := fun l m => Jacobi.colLoop Jacobi.opSet l (Jacobi.angCol l) m) angSet i path (Jacobi.zero m) len0
      rw [za, e]
      cases hw : Jacobi.walkAngTo (fun l m => Jacobi.colLoop Jacobi.opSet l (Jacobi.angCol l) m) i c.link path (Jacobi.zero m) with
      | none => rfl
      | some r =>
        obtain ⟨b, m1⟩ := r
        have n1 := n _ hw
        simp only [Option.map_some, Option.bind_eq_bind, Option.bind_some]
        cases b with
        | true => rfl
        | false =>
          simp only [Bool.false_eq_true, if_false]
          cases c.shape.pathUp i with
          | none => rfl
          | some path' =>
            simp only [Option.bind_some]
            exact (Mirror.step_walkBelow (f := fun l m => Jacobi.colLoop Jacobi.opSub l (Jacobi.angCol l) m)
              (f' := fun l m => Jacobi.colLoop Jacobi.opSub l (Jacobi.angCol l) m) angSub path' m1 n1).1
  · simp only [Jacobi.wldLin, hsh, hl, Mirror.map_get]
    cases c.link[i]? with
    | none => rfl
    | some l =>
      simp only [Option.map_some, Option.bind_eq_bind, Option.bind_some]
      cases c.shape.pathUp i with
      | none => rfl
      | some path =>
        have ex : (Mirror.link l).body.frame.xform (Mirror.pol p) = Mirror.pol (l.body.frame.xform p) := by
          simp only [Mirror.link, Mirror.body, Mirror.frame, Mirror.pol, Mirror.mat]; vec_ring
        simp only [Option.bind_some, ex]
        rw [zp]
        exact (Mirror.step_walk (fun l h => Mirror.step_lin ho (op := Jacobi.opSet) (fun _ _ _ => rfl) _ h) path (Jacobi.zero m) len0).1
  · simp only [Jacobi.linkToLinkLin, hsh, hl, Mirror.map_get]
    cases c.link[j]? with
    | none => rfl
    | some l =>
      simp only [Option.map_some, Option.bind_eq_bind, Option.bind_some]
      cases c.shape.pathUp j with
      | none => rfl
      | some path =>
        have ex : (Mirror.link l).body.frame.xform (Mirror.pol p) = Mirror.pol (l.body.frame.xform p) := by
          simp only [Mirror.link, Mirror.body, Mirror.frame, Mirror.pol, Mirror.mat]; vec_ring
        simp only [Option.bind_some, ex]
        generalize l.body.frame.xform p = tp
        obtain ⟨e, n⟩ := Mirror.walkLinTo (f := fun l m => Jacobi.colLoop Jacobi.opSet l (Jacobi.linCol l tp) m)
          (f' := fun l m => Jacobi.colLoop Jacobi.opSet l (Jacobi.linCol l (Mirror.pol tp)) m)
          (fun l h => Mirror.step_lin ho (op := Jacobi.opSet) (fun _ _ _ => rfl) tp h) i path (Jacobi.zero m) len0
        rw [zp, e]
        cases hw : Jacobi.walkLinTo (fun l m => Jacobi.colLoop Jacobi.opSet l (Jacobi.linCol l tp) m) i c.link path (Jacobi.zero m) with
        | none => rfl
        | some r =>
          obtain ⟨b, m1⟩ := r
          have n1 := n _ hw
          simp only [Option.map_some, Option.bind_some]
          cases b with
          | true => rfl
          | false =>
            simp only [Bool.false_eq_true, if_false]
            cases c.shape.pathUp i with
            | none => rfl
            | some path' =>
              simp only [Option.bind_some]
              exact (Mirror.step_walk (fun l h => Mirror.step_lin ho (op := Jacobi.opSub)
                (fun k v a => by simp only [Jacobi.opSub, Mirror.pol]; vec_ring) tp h) path' m1 n1).1
  · simp only [Jacobi.com, hl, List.length_map]
    rw [zp]
    refine (Mirror.Step.foldlM _ (fun i _ => ?_) _ len0).1
    intro m hm
    simp only [Jacobi.comLink, hl, hsh, Mirror.map_get]
    cases c.link[i]? with
    | none => exact ⟨rfl, fun m' q => by cases q⟩
    | some li =>
      simp only [Option.map_some, Option.bind_eq_bind, Option.bind_some]
      have e0 : (Mirror.link li).body.mp.mass = li.body.mp.mass := rfl
      have e1 : (Mirror.chain c).mass = c.mass := rfl
      simp only [e0, e1]
      by_cases h0 : li.body.mp.mass = 0
      · simp only [if_pos h0]; exact ⟨rfl, fun m' q => by cases q; exact hm⟩
      · simp only [if_neg h0]
        cases c.shape.pathUp i with
        | none => exact ⟨rfl, fun m' q => by cases q⟩
        | some path =>
          simp only [Option.bind_some]
          exact Mirror.step_walk (fun l h => Mirror.step_lin ho (op := Jacobi.opCat (li.body.mp.mass / c.mass))
            (fun k v a => by simp only [Jacobi.opCat, Mirror.pol]; vec_ring) li.body.wldCOM h) path m hm
  · simp only [Jacobi.linkAM]
    rw [za]
    exact (amStep p i _ len0).1

/-- **C140** The yaw torque is not: the moment about the vertical axis changes its sign in the mirror, while `rkChainYawTorque` returns the same
number; it is not a moment (C21). -/
theorem C140_yaw_fails (r : Link K) :
    dot (Mirror.link r).joint.wrench.ang (gravityDir (Mirror.link r)) = -dot r.joint.wrench.ang (gravityDir r) ∧
    yawTorque (Mirror.link r) = yawTorque r := by
  have ed : gravityDir (Mirror.link r) = Mirror.pol (gravityDir r) := by
    simp only [gravityDir, Mirror.link, Mirror.body, Mirror.frame, Mirror.pol, Mirror.mat]; vec_ring
  have e1 : dot (Mirror.link r).joint.wrench.ang (gravityDir (Mirror.link r)) = -dot r.joint.wrench.ang (gravityDir r) := by
    rw [ed]; simp only [Mirror.link, Mirror.vec6, Mirror.pol, Mirror.axi]; vec_unfold; ring
  have e2 : dot (Mirror.link r).joint.wrench.ang (Mirror.link r).joint.wrench.lin = -dot r.joint.wrench.ang r.joint.wrench.lin := by
    simp only [Mirror.link, Mirror.vec6, Mirror.pol, Mirror.axi]; vec_unfold; ring
  refine ⟨e1, ?_⟩
  simp only [yawTorque]
  rw [e1, e2, neg_div_neg_eq]

/-- **C140** A robot that is its own mirror image, up to the exchange `σ` of its left and right links, and that goes through a history `as` that is its
own mirror image too, stays its own mirror image: `bs` is what is done in the mirror, `cs` is the same with left and right exchanged, and `as` and
`cs` have the same effect, for instance because they are equal or because they only differ in whether left or right comes first.  Its center of mass, the velocity and acceleration of the latter and its zero moment point stay in the
plane of symmetry. -/
theorem C140_symmetric [LinearOrder K] [IsStrictOrderedRing K] [Zm K] [Mirror.Fair K] {σ : ℕ → ℕ} (c : Chain K)
    (h : Relabelled σ (Mirror.chain c) c) (hc : c.WF) (ho : setOffset c.link = c.link) (hi : ∀ l ∈ c.link, Mirror.InOrder l.joint.prp)
    (as bs cs : List (Act K)) (h1 : List.Forall₂ (Mirror.SameAct c) as bs) (h2 : List.Forall₂ (SameAct σ (Mirror.chain c) c) bs cs)
    (h3 : runActs cs c = runActs as c) : ∃ c', runActs as c = some c' ∧ Relabelled σ (Mirror.chain c') c' ∧
      c'.wldCOM.y = 0 ∧ c'.comVel.y = 0 ∧ c'.comAcc.y = 0 ∧
      ∀ r z p, c'.link[0]? = some r → zmp r z = some p → p.y = 0 := by
  have ho' : setOffset (Mirror.chain c).link = (Mirror.chain c).link := by
    rw [show (Mirror.chain c).link = c.link.map Mirror.link from rfl, Mirror140.setOffset_link, ho]
  obtain ⟨c1, d, e1, e2, rl, w1, w2, o1, o2, -⟩ := C113_history (Mirror.chain c) c h (Mirror140.wf hc) hc ho' ho bs cs h2
  rw [h3] at e2
  have e := C140_history c hi as bs h1
  rw [e2, e1, Option.map_some, Option.some.injEq] at e
  subst e
  have z : ∀ x : K, x = -x → x = 0 := fun x hx => by linarith
  refine ⟨d, e2, rl, z _ (congrArg Vec3.y rl.wldCOM), z _ (congrArg Vec3.y rl.comVel), z _ (congrArg Vec3.y rl.comAcc), ?_⟩
  intro r t p hr hp
  have g := (((C113_values (Mirror.chain d) d rl w1 w2 o1 o2).2.2.2.2.2.2) (Mirror.link r) r t
    (by rw [show (Mirror.chain d).link = d.link.map Mirror.link from rfl, List.getElem?_map, hr]; rfl) hr).1
  rw [(C140_values d o2).2.2.2.2.2 r t, hp, Option.map_some, Option.some.injEq] at g
  exact z _ (congrArg Vec3.y g)

/-- **C140** An exact half turn is not mirrored: a revolute joint that may turn from `0` to `π` can be set to `π`; its mirror image, that may turn
from `-π` to `0`, goes to `0` when it is set to `-π`. -/
theorem C140_half_turn_fails (p : Dof1 ℝ) (hlo : p.lo = some 0) (hhi : p.hi = some Real.pi) :
    ((Prp.revol p).setDis [Real.pi]).map Prp.getDis = some [Real.pi] ∧
    ((Mirror.prp (.revol p)).setDis [-Real.pi]).map Prp.getDis = some [0] := by
  have hp := Real.pi_pos
  have e1 : Zm.phaseNormalize Real.pi = Real.pi := LawfulZm.phase_id _ (show -Real.pi < Real.pi by linarith) le_rfl
  have e2 : Zm.phaseNormalize (-Real.pi) = Real.pi := by
    simp only [Zm.phaseNormalize]
    rw [toIocMod_eq_iff]
    exact ⟨⟨by linarith, by linarith⟩, -1, by simp; ring⟩
  constructor
  · simp only [Prp.setDis, Option.map_some, Prp.getDis, hlo, hhi, e1, limit]
    simp [hp.le]
  · simp only [Mirror.prp, Prp.setDis, Option.map_some, Prp.getDis, hlo, hhi, e2, limit]
    simp [hp.le]

/-! ## The hypotheses are met -/

namespace Sample

/-- The tree of a trunk with two arms. -/
def armsShape : LTree ℕ := .node 0 (.node 1 .nil (.node 2 .nil .nil)) .nil

/-- A shoulder with a motor. -/
noncomputable def shoulder (lo hi mn mx : ℝ) : Prp ℝ := .revol { dof1 0 0 0 0 1 (some lo) (some hi) with motor := .trq ⟨0, some mx, some mn⟩ }

/-- A trunk that slides up and down, with a left and a right arm whose ranges and motors are the reverse of each other. -/
noncomputable def twoArms : Chain ℝ :=
  { link := LinkArray.setOffset [link "trunk" (.prism (dof1 0 0 0 0 1 none none)) mp1 Frame.ident,
      link "left" (shoulder (-1) 2 (-3) 5) ⟨1, ⟨1, 1, 0⟩, 1⟩ ⟨⟨0, 1, 0⟩, 1⟩,
      link "right" (shoulder (-2) 1 (-5) 3) ⟨1, ⟨1, -1, 0⟩, 1⟩ ⟨⟨0, -1, 0⟩, 1⟩]
    shape := armsShape
    mass := 3, wldCOM := 0, comVel := 0, comAcc := 0 }

/-- Left is right and right is left. -/
def otherSide : ℕ → ℕ
  | 1 => 2
  | 2 => 1
  | i => i

theorem abi_mirror (p : Prp ℝ) : Mirror.abi p Sample.abi = Sample.abi := by
  have z : Mirror.mat6 (0 : Mat6 ℝ) = 0 := by simp only [Mirror.mat6, Mirror.mat, Mirror.pol]; vec_ring
  simp only [Mirror.abi, Sample.abi, Mirror.vec6_zero, Mirror.joint2_zero, z, List.map_nil]

/-- The trunk goes up and down, both arms go forward, and something pushes the trunk from behind; then both motors get the same drive and the robot
is left to forward dynamics. -/
noncomputable def wave : List (Act ℝ) :=
  [.setDis [1, 2, -2], .updateFK, .setRate [3, 1, -1] [4, 5, -5], .push 0 ⟨⟨⟨1, 0, 3⟩, ⟨0, 5, 0⟩⟩, ⟨0, 0, 1⟩⟩,
    .updateID ⟨⟨0, 0, 9⟩, 0⟩, .alloc, .input 1 4, .input 2 (-4), .updateABI false true]

/-- The same, where the right motor is told first. -/
noncomputable def wave' : List (Act ℝ) :=
  [.setDis [1, 2, -2], .updateFK, .setRate [3, 1, -1] [4, 5, -5], .push 0 ⟨⟨⟨1, 0, 3⟩, ⟨0, 5, 0⟩⟩, ⟨0, 0, 1⟩⟩,
    .updateID ⟨⟨0, 0, 9⟩, 0⟩, .alloc, .input 2 (-4), .input 1 4, .updateABI false true]

/-- It does not matter which motor is told first. -/
theorem input_comm (u v : ℝ) (c : Chain ℝ) : ((Act.input 2 v).run c).bind (Act.input 1 u).run = ((Act.input 1 u).run c).bind (Act.input 2 v).run := by
  simp only [Act.run]
  split_ifs with h1 h2 h2
  · simp only [Option.bind_some, Act.run, List.length_modify, if_pos h1, if_pos h2]
    refine congrArg (fun ls => some { c with link := ls }) ?_
    apply List.ext_getElem?
    intro j
    simp only [List.getElem?_modify]
    by_cases e1 : 1 = j
    · subst e1; simp
    · by_cases e2 : 2 = j
      · subst e2; simp
      · simp [e1, e2]
  · omega
  · simp only [Option.bind_some, Option.bind_none, Act.run, List.length_modify, if_neg h1]
  · rfl

theorem wave_comm (c : Chain ℝ) : runActs wave' c = runActs wave c := by
  have h : ∀ (u v : ℝ) (as : List (Act ℝ)) (d : Chain ℝ), runActs (.input 2 v :: .input 1 u :: as) d = runActs (.input 1 u :: .input 2 v :: as) d := by
    intro u v as d
    have := congrArg (fun o => o.bind (runActs as)) (input_comm u v d)
    simp only [Option.bind_assoc] at this
    exact this
  have app : ∀ (pre x y : List (Act ℝ)) (hxy : ∀ d : Chain ℝ, runActs x d = runActs y d) (d : Chain ℝ), runActs (pre ++ x) d = runActs (pre ++ y) d := by
    intro pre x y hxy
    induction pre with
    | nil => exact hxy
    | cons a pre ih =>
      intro d
      show (a.run d).bind (runActs (pre ++ x)) = (a.run d).bind (runActs (pre ++ y))
      rw [show runActs (pre ++ x) = runActs (pre ++ y) from funext ih]
  exact app [_, _, _, _, _, _] _ _ (h 4 (-4) _) c

end Sample

open Sample in
/-- A trunk with two arms that move alike meets the hypotheses of `C140_history`, `C140_values` and `C140_symmetric`. -/
theorem C140_sample : Relabelled otherSide (Mirror.chain twoArms) twoArms ∧ twoArms.WF ∧ setOffset twoArms.link = twoArms.link ∧
    (∀ l ∈ twoArms.link, Mirror.InOrder l.joint.prp) ∧
    ∃ bs, List.Forall₂ (Mirror.SameAct twoArms) wave bs ∧ List.Forall₂ (SameAct otherSide (Mirror.chain twoArms) twoArms) bs wave' ∧
      runActs wave' twoArms = runActs wave twoArms := by
  refine ⟨⟨rfl, ?_, ?_, ?_, rfl, ?_, ?_, ?_⟩, ⟨⟨_, rfl⟩, ?_⟩, rfl, ?_, ?_⟩
  · have : ∀ i < 3, ∀ j < 3, otherSide i = otherSide j → i = j := by decide
    exact fun i j hi hj => this i hi j hj
  · intro q
    show IsPath armsShape q ↔ ∃ p, IsPath armsShape p ∧ q = p.map otherSide
    rw [Sample.isPath_iff]
    constructor
    · intro h
      have : ∀ q ∈ Sample.paths armsShape, ∃ p ∈ Sample.paths armsShape, q = p.map otherSide := by decide +kernel
      obtain ⟨p, h1, h2⟩ := this q h
      exact ⟨p, (Sample.isPath_iff _ _).2 h1, h2⟩
    · rintro ⟨p, h1, rfl⟩
      have : ∀ p ∈ Sample.paths armsShape, p.map otherSide ∈ Sample.paths armsShape := by decide +kernel
      exact this p ((Sample.isPath_iff _ _).1 h1)
  · intro i l h
    rcases i with _ | _ | _ | i
    · cases h
      refine ⟨_, rfl, ?_, ?_, ?_, ?_, (abi_mirror _).symm⟩
      all_goals simp [Mirror.link, Mirror.prp, Mirror.body, Mirror.mp, Mirror.mat, Mirror.pol, Mirror.frame, Mirror.vec6, Mirror.axi, Sample.link,
        Sample.dof1, mp1, Body.init]
      all_goals first | done | vec_unfold
      all_goals norm_num
    · cases h
      refine ⟨_, rfl, ?_, ?_, ?_, ?_, (abi_mirror _).symm⟩
      all_goals simp [Mirror.link, Mirror.prp, Mirror.body, Mirror.mp, Mirror.mat, Mirror.pol, Mirror.frame, Mirror.vec6, Mirror.axi, Sample.link, shoulder,
        Sample.dof1, Body.init, Mirror.motor, Mirror.pivot]
      all_goals first | done | vec_unfold
      all_goals norm_num
    · cases h
      refine ⟨_, rfl, ?_, ?_, ?_, ?_, (abi_mirror _).symm⟩
      all_goals simp [Mirror.link, Mirror.prp, Mirror.body, Mirror.mp, Mirror.mat, Mirror.pol, Mirror.frame, Mirror.vec6, Mirror.axi, Sample.link, shoulder,
        Sample.dof1, Body.init, Mirror.motor, Mirror.pivot]
      all_goals first | done | vec_unfold
      all_goals norm_num
    · cases h
  · simp [Mirror.chain, twoArms, Mirror.pol]; vec_unfold; norm_num
  · simp [Mirror.chain, twoArms, Mirror.pol]; vec_unfold; norm_num
  · simp [Mirror.chain, twoArms, Mirror.pol]; vec_unfold; norm_num
  · show armsShape.toList.Perm (List.range 3)
    decide
  · intro l hl
    obtain ⟨i, hi⟩ := List.mem_iff_getElem?.1 hl
    rcases i with _ | _ | _ | i
    · cases hi; trivial
    · cases hi; constructor <;> (intro a ha b hb; cases ha; cases hb; norm_num)
    · cases hi; constructor <;> (intro a ha b hb; cases ha; cases hb; norm_num)
    · cases hi
  · have hv : ∀ a b c : ℝ, Mirror.Values twoArms [a, b, c] [1 * a, -1 * b, -1 * c] := by
      intro a b c l hl
      obtain ⟨i, hi⟩ := List.mem_iff_getElem?.1 hl
      rcases i with _ | _ | _ | i
      · cases hi; rfl
      · cases hi; rfl
      · cases hi; rfl
      · cases hi
    have sv : ∀ a b c : ℝ, c = -1 * b → b = -1 * c → SameValues otherSide (Mirror.chain twoArms) twoArms [1 * a, -1 * b, -1 * c] [a, b, c] := by
      intro a b c h1 h2 i l m hl hm
      rcases i with _ | _ | _ | i
      · cases hl; cases hm; show [a] = [1 * a]; rw [one_mul]
      · cases hl; cases hm; show [c] = [-1 * b]; rw [← h1]
      · cases hl; cases hm; show [b] = [-1 * c]; rw [← h2]
      · cases hl
    have l1 : ∀ a b c : ℝ, [a, b, c].length = jointSize twoArms.link := fun _ _ _ => rfl
    have l2 : ∀ a b c : ℝ, [a, b, c].length = jointSize (Mirror.chain twoArms).link := fun _ _ _ => rfl
    have hn : ∀ x ∈ ([1, 2, -2] : List ℝ), Zm.phaseNormalize x ≠ Zm.pi := by
      intro x hx
      have hp := Real.pi_gt_three
      have : -Real.pi < x ∧ x < Real.pi := by
        simp only [List.mem_cons, List.not_mem_nil, or_false] at hx
        rcases hx with rfl | rfl | rfl <;> constructor <;> linarith
      rw [LawfulZm.phase_id x this.1 this.2.le]
      exact this.2.ne
    refine ⟨_, .cons (.setDis (hv _ _ _) hn) (.cons .updateFK (.cons (.setRate (hv _ _ _) (hv _ _ _)) (.cons (.push _ _)
      (.cons (.updateID _) (.cons .alloc (.cons (.input _ (l := twoArms.link[1]) rfl) (.cons (.input _ (l := twoArms.link[2]) rfl)
      (.cons (.updateABI _ _) .nil)))))))), ?_, wave_comm _⟩
    refine .cons (.setDis (l2 _ _ _) (l1 _ _ _) (sv _ _ _ (by norm_num) (by norm_num))) (.cons .updateFK (.cons (.setRate (l2 _ _ _) (l1 _ _ _)
      (sv _ _ _ (by norm_num) (by norm_num)) (l2 _ _ _) (l1 _ _ _) (sv _ _ _ (by norm_num) (by norm_num))) ?_))
    have e1 : Mirror.load (⟨⟨⟨1, 0, 3⟩, ⟨0, 5, 0⟩⟩, ⟨0, 0, 1⟩⟩ : Wrench ℝ) = ⟨⟨⟨1, 0, 3⟩, ⟨0, 5, 0⟩⟩, ⟨0, 0, 1⟩⟩ := by
      simp [Mirror.load, Mirror.vec6, Mirror.pol, Mirror.axi]
    have e2 : Mirror.vec6 (⟨⟨0, 0, 9⟩, 0⟩ : Vec6 ℝ) = ⟨⟨0, 0, 9⟩, 0⟩ := by
      simp [Mirror.vec6, Mirror.pol, Mirror.axi]; vec_unfold; norm_num
    rw [e1, e2]
    have d1 : Mirror.drive (twoArms.link[1]).joint.prp 4 = -4 := rfl
    have d2 : Mirror.drive (twoArms.link[2]).joint.prp (-4) = 4 := neg_neg _
    rw [d1, d2]
    exact .cons (.push (i := 0) _ (show 0 < 3 by omega)) (.cons (.updateID _) (.cons .alloc (.cons (.input (i := 1) _ (show 1 < 3 by omega))
      (.cons (.input (i := 2) _ (show 2 < 3 by omega)) (.cons (.updateABI _ _) .nil)))))

end Roki
