import Verif.Props.Coriolis
import Verif.Props.Lagrange
import Verif.Props.VirtualWork
import Verif.Spec.Christoffel
set_option autoImplicit false

/-! # The velocity-dependent torques are those of the Christoffel symbols of the inertia (C143) -/

namespace Roki
open Spec LinkArray Filter Topology

theorem polarKE_add_right (m : MP ℝ) (V W D : Vec6 ℝ) : polarKE m D (V + W) = polarKE m D V + polarKE m D W := by
  simp only [polarKE, cv]; vec_ring

theorem sum_three {α : Type*} (L : List α) (a b c d : α → ℝ) (h : ∀ x ∈ L, a x - b x - c x = d x) :
    (L.map a).sum - (L.map b).sum - (L.map c).sum = (L.map d).sum := by
  induction L with
  | nil => simp
  | cons x L ih =>
    simp only [List.map_cons, List.sum_cons]
    rw [← ih fun y hy => h y (by simp [hy]), ← h x (by simp)]
    ring

section
variable [Zm ℝ] [LawfulZm ℝ] (hsin : ∀ x : ℝ, Zm.sin x = Real.sin x) (hcos : ∀ x : ℝ, Zm.cos x = Real.cos x)

theorem kineticAt_eq_lagrangian (c : Chain ℝ) (q v : List ℝ) : kineticAt c q v = lagrangian 0 c q v := by
  have z : ∀ ls : List (Link ℝ), (ls.map fun l => mass l * dot (0 : Vec3 ℝ) l.body.wldCOM).sum = 0 := by
    intro ls
    have : ∀ l : Link ℝ, mass l * dot (0 : Vec3 ℝ) l.body.wldCOM = 0 := fun l => by
      simp [dot]
    simp [this]
  simp only [kineticAt, lagrangian, z, sub_zero]
  rfl

theorem zip_add_shift (v u : List ℝ) : List.zipWith (· + ·) v u = shift v 1 u := by simp [shift]

include hsin hcos in
/-- The torques of the velocities `v` do on `u` the work of the motion with constant velocity. -/
theorem christoffel_links (c c1 : Chain ℝ) (q v u : List ℝ) (hA : Arm c) (hI : ∀ l ∈ c.link, l.body.mp.inertia.Symm)
    (hx : ∀ l ∈ c.link, l.body.extw = []) (hq : q.length = jointSize c.link) (hv : v.length = jointSize c.link)
    (hu : u.length = jointSize c.link) (hl : OffLimits c q) (e1 : c.fk q = some c1) :
    ∃ (B : ℕ → List (Link ℝ)) (M : ℕ → MP ℝ) (Q : ℝ) (τ : List ℝ),
      (∀ i < c.link.length, (∃ p ms m, IsPath c.shape (p ++ [i]) ∧ OnPath c p ms ∧ c.link[i]? = some m ∧ B i = ms ++ [m] ∧ M i = m.body.mp) ∧
        (∀ l ∈ B i, l ∈ c.link) ∧ (M i).inertia.Symm) ∧
      idTorque 0 v (List.replicate v.length 0) c1 = some τ ∧ (∀ l ∈ c1.link, l.body.extw = []) ∧
      HasDerivAt (fun e => ((List.range c.link.length).map fun i => lag1 0 (M i) (B i) (shift q e u) v).sum) Q 0 ∧
      HasDerivAt (fun s => ((List.range c.link.length).map fun i =>
        polarKE (M i) (pathVel (shift q s v) v 0 (B i)) (pathVel (shift q s v) u 0 (B i))).sum) (work τ u + Q) 0 := by
  obtain ⟨B, M, hB⟩ := hA.paths
  have hmem : ∀ i < c.link.length, (∀ l ∈ B i, l ∈ c.link) ∧ (M i).inertia.Symm := by
    intro i hi
    obtain ⟨p, ms, m, -, x1, x2, x3, x4⟩ := hB i hi
    have hm := List.mem_iff_getElem?.2 ⟨i, x2⟩
    refine ⟨fun l hl => ?_, x4 ▸ hI m hm⟩
    rw [x3] at hl
    rcases List.mem_append.1 hl with hl | hl
    · have : some l ∈ ms.map some := List.mem_map.2 ⟨l, hl, rfl⟩
      rw [← x1] at this
      obtain ⟨j, -, e⟩ := List.mem_map.1 this
      exact List.mem_iff_getElem?.2 ⟨j, e⟩
    · rw [List.mem_singleton.1 hl]; exact hm
  obtain ⟨hp, hz⟩ := hA.posed e1
  have hrep : ∀ w : List ℝ, w.length = jointSize c.link → (List.replicate w.length (0 : ℝ)).length = jointSize c.link := by
    intro w hw; simp [hw]
  obtain ⟨c2, e2⟩ := hp.invDyn 0 (hv.trans hz.symm) ((hrep v hv).trans hz.symm)
  obtain ⟨d2, e3⟩ := hp.invDyn 0 (hu.trans hz.symm) ((hrep u hu).trans hz.symm)
  obtain ⟨ls, T, r⟩ := hp.run (hv.trans hz.symm) ((hrep v hv).trans hz.symm) e2
  obtain ⟨ks, U, r'⟩ := hp.run (hu.trans hz.symm) ((hrep u hu).trans hz.symm) e3
  obtain ⟨τ, y1, -, y2⟩ := virtual_work hp r r' rfl rfl
  have nc : c2.link.length = c.link.length := r.len2.trans (fk_length hA.wf e1)
  have nd : d2.link.length = c.link.length := r'.len2.trans (fk_length hA.wf e1)
  have x2 := hA.run_ext hsin hcos hq hv (hrep v hv) hl e1 e2 hx
  have q0 : shift q 0 v = q := by
    refine List.ext_getElem (by simp [shift, hq, hv]) fun i h1 h2 => by simp [shift]
  -- each link
  have hlink : ∀ i, ∃ Q w : ℝ, i < c.link.length →
      (∀ l d, c2.link[i]? = some l → d2.link[i]? = some d → inertialWork l d = w) ∧
      HasDerivAt (fun e => lag1 0 (M i) (B i) (shift q e u) v) Q 0 ∧
      HasDerivAt (fun s => polarKE (M i) (pathVel (shift q s v) v 0 (B i)) (pathVel (shift q s v) u 0 (B i))) (w + Q) 0 := by
    intro i
    by_cases hi : i < c.link.length
    swap
    · exact ⟨0, 0, fun h => absurd h hi⟩
    obtain ⟨hb, hs⟩ := hmem i hi
    obtain ⟨p, ms, m, x1, x2, x3, x4, x5⟩ := hB i hi
    obtain ⟨l, f1, f2, -, f3, -, f4, -⟩ := hA.run_path hsin hcos hq hv (hrep v hv) hl e1 e2 x1 x2 x3
    obtain ⟨d, k1, k2, -, k3, -, k4, -⟩ := hA.run_path hsin hcos hq hu (hrep u hu) hl e1 e3 x1 x2 x3
    rw [← x4] at f3 f4 k3 k4
    rw [← x5] at f2 k2
    have hfr : ∀ v a, ((B i).map (placed q v a)).map linkFrame = ((B i).map (placed q [] [])).map linkFrame := by
      intro v a
      rw [List.map_map, List.map_map]
      exact List.map_congr_left fun l _ => placed_frame l q v a [] []
    have fd : d.body.frame = l.body.frame := by rw [k3, f3, hfr, hfr v]
    have vd : d.body.vel = pathVel q u 0 (B i) := by
      rw [← foldl_placed (B i) q u (List.replicate u.length 0)]
      have := congrArg Prod.fst k4
      simp only at this
      rw [this]
      exact foldl_pair _ _ _
    have hrate : Rate (fun _ : ℝ => v) fun _ => List.replicate v.length 0 := by
      intro t k
      have : (List.replicate v.length (0 : ℝ)).getD k 0 = 0 := by
        rw [List.getD_eq_getElem?_getD, List.getElem?_replicate]; split <;> rfl
      rw [this]
      exact hasDerivAt_const _ _
    obtain ⟨Q, hQ, hD⟩ := lag1_motion (t := 0) (u := u) (fun l hl => hA.rot l (hb l hl)) (fun l hl => hA.coord l (hb l hl)) 0 hs
      (shift_rate (x := q) (hq.trans hv.symm)) hrate (by simp only [q0]; exact hq.trans hu.symm) f2
      (by simp only [q0]; exact f3) (by simp only [q0]; exact f4) k2 fd (by simp only [q0]; exact vd)
    simp only [q0] at hQ hD
    refine ⟨Q, inertialWork l d, fun _ => ⟨fun l' d' e e' => ?_, hQ, hD⟩⟩
    rw [f1] at e; rw [k1] at e'; cases e; cases e'; rfl
  choose Q w hQw using hlink
  refine ⟨B, M, ((List.range c.link.length).map Q).sum, τ, fun i hi => ⟨hB i hi, hmem i hi⟩, ?_, ?_, ?_, ?_⟩
  · rw [idTorque, e2]; exact y1
  · intro l hl
    have : l.body.extw ∈ c2.link.map fun l => l.body.extw := r.ext2 ▸ List.mem_map.2 ⟨l, hl, rfl⟩
    obtain ⟨l', h', e⟩ := List.mem_map.1 this
    rw [← e]; exact x2 l' h'
  · exact hasDerivAt_list_sum _ _ _ _ fun i hi => (hQw i (List.mem_range.1 hi)).2.1
  · refine (hasDerivAt_list_sum _ (fun i => w i + Q i) 0 _ fun i hi => (hQw i (List.mem_range.1 hi)).2.2).congr_deriv ?_
    have hw : List.zipWith inertialWork c2.link d2.link = (List.range c.link.length).map w :=
      zip_range _ _ _ nc nd _ fun i l k e e' => (hQw i (nc ▸ (List.getElem?_eq_some_iff.1 e).1)).1 l k e e'
    rw [y2, hw, extWork_nil x2, sub_zero]
    exact List.sum_map_add

/-- The torques without gravity, accelerations and external wrenches are the products with `coriolis`. -/
theorem torque_coriolis {c c1 : Chain ℝ} {q v τ : List ℝ} (hA : Arm c) (e1 : c.fk q = some c1) (hv : v.length = jointSize c.link)
    (hx : ∀ l ∈ c1.link, l.body.extw = []) (e : idTorque 0 v (List.replicate v.length 0) c1 = some τ) :
    τ.length = jointSize c.link ∧ ∀ k < jointSize c.link, τ.getD k 0 = ∑ i ∈ Finset.range (jointSize c.link),
      ∑ j ∈ Finset.range (jointSize c.link), coriolis c1 k i j * (v.getD i 0 * v.getD j 0) := by
  obtain ⟨ls, f, hw, hr, o, z⟩ := hA.split e1
  have he0 : withExt (fun _ => []) c1 = c1 := by
    simp only [withExt]
    congr 1
    refine List.ext_getElem (by simp) fun i hi hi' => ?_
    have key : ∀ l : Link ℝ, l.body.extw = [] → { l with body := { l.body with extw := [] } } = l := by
      intro l hl
      rw [← hl]
    rw [List.getElem_mapIdx]
    exact key _ (hx _ (List.getElem_mem hi'))
  obtain ⟨τ', β, h1, h2, n1, n2, H⟩ := C143_velocity_forces hw hr o f (fun _ => []) 0 v (List.replicate v.length 0) (hv.trans z.symm)
    (by simp [hv, z])
  simp only [z] at n1 n2 H h2
  rw [he0] at h1 h2
  rw [e] at h1; cases h1
  refine ⟨n1, fun k hk => ?_⟩
  rw [H k hk]
  obtain ⟨τ2, h3, n3, h4⟩ := C90_time_scaling hw hr o f (fun _ => []) 0 0 v (List.replicate v.length 0) (hv.trans z.symm) (by simp [hv, z])
  have hmap : ∀ w : List ℝ, w.length = jointSize c.link → w.map ((0 : ℝ) * ·) = List.replicate (jointSize c.link) 0 := by
    intro w hw
    refine List.ext_getElem (by simp [hw]) fun i h1 h2 => by simp
  simp only [List.map_nil, he0, mul_zero, smul_zero] at h4
  have hb : β.getD k 0 = 0 := by
    rw [hmap v hv, hmap _ (by simp [hv])] at h4
    rw [hv] at h2
    rw [h2] at h4
    cases h4
    rw [List.getD_eq_getElem?_getD, List.getElem?_map]
    cases τ2[k]? <;> simp
  rw [hb, zero_add]

include hsin hcos in
/-- **C143** The velocity-dependent torques come from the way the inertia depends on the pose (they are given by its Christoffel symbols).  For any
joint velocities `v` and any direction `u`, the work on `u` of the torques `coriolis` gives for `v` is the derivative of the inertia between `v` and
`u` when the joints move along `v`, less the derivative of the kinetic energy for `v` when the joints move along `u`.  Inertia and kinetic energy are
those that `rkChainKE` reports. -/
theorem C143_christoffel (c c1 : Chain ℝ) (q v u : List ℝ) (h : c.WF) (ho : setOffset c.link = c.link)
    (hr : ∀ l ∈ c.link, l.org.att.IsRot) (hI : ∀ l ∈ c.link, l.body.mp.inertia.Symm) (hj : ∀ l ∈ c.link, Coord l.joint.prp)
    (hx : ∀ l ∈ c.link, l.body.extw = []) (hq : q.length = jointSize c.link) (hv : v.length = jointSize c.link)
    (hu : u.length = jointSize c.link) (hl : ∀ᶠ s in 𝓝 0, OffLimits c (shift q s v)) (hl' : ∀ᶠ s in 𝓝 0, OffLimits c (shift q s u))
    (e1 : c.fk q = some c1) :
    ∃ (f g : ℝ → ℝ) (f' g' : ℝ), (∀ᶠ s in 𝓝 0, mutualInertia c (shift q s v) v u = some (f s)) ∧
      (∀ᶠ s in 𝓝 0, kineticAt c (shift q s u) v = some (g s)) ∧ HasDerivAt f f' 0 ∧ HasDerivAt g g' 0 ∧
      ∑ k ∈ Finset.range (jointSize c.link), (∑ i ∈ Finset.range (jointSize c.link), ∑ j ∈ Finset.range (jointSize c.link),
        coriolis c1 k i j * (v.getD i 0 * v.getD j 0)) * u.getD k 0 = f' - g' := by
  have hA : Arm c := ⟨h, ho, hr, hj⟩
  have q0 : shift q 0 v = q := by
    refine List.ext_getElem (by simp [shift, hq, hv]) fun i h1 h2 => by simp [shift]
  have hl0 : OffLimits c q := by have := hl.self_of_nhds; rwa [q0] at this
  obtain ⟨B, M, Q, τ, hB, et, hx1, hQ, hD⟩ := christoffel_links hsin hcos c c1 q v u hA hI hx hq hv hu hl0 e1
  obtain ⟨nτ, hτ⟩ := torque_coriolis hA e1 hv hx1 et
  refine ⟨_, _, _, _, ?_, ?_, hD, hQ, ?_⟩
  · filter_upwards [hl] with s hs
    have ns : (shift q s v).length = jointSize c.link := (shift_length (hq.trans hv.symm) s).trans hq
    have hP := fun i hi => (hB i hi).1
    rw [mutualInertia, kineticAt_eq_lagrangian, kineticAt_eq_lagrangian, kineticAt_eq_lagrangian, zip_add_shift,
      hA.lagrangian_eq hsin hcos hP ns ((shift_length (hv.trans hu.symm) 1).trans hv) hs 0,
      hA.lagrangian_eq hsin hcos hP ns hv hs 0, hA.lagrangian_eq hsin hcos hP ns hu hs 0]
    simp only [Option.bind_some, Option.map_some, Option.some.injEq]
    refine sum_three _ _ _ _ _ fun i hi => ?_
    obtain ⟨-, hb, hs⟩ := hB i (List.mem_range.1 hi)
    have hp := pathVel_shift (fun l hl => hj l (hb l hl)) (shift q s v) (hv.trans hu.symm) 1 (0 : Vec6 ℝ) 0
    rw [one_smul, one_smul, add_zero] at hp
    simp only [lag1, dot, Vec3.zero_x, Vec3.zero_y, Vec3.zero_z]
    rw [hp, polarKE_add_left, polarKE_add_right, polarKE_add_right, polarKE_symm hs (pathVel (shift q s v) u 0 (B i)) (pathVel (shift q s v) v 0 (B i))]
    ring
  · filter_upwards [hl'] with s hs
    rw [kineticAt_eq_lagrangian]
    exact hA.lagrangian_eq hsin hcos (fun i hi => (hB i hi).1) ((shift_length (hq.trans hu.symm) s).trans hq) hv hs 0
  · rw [add_sub_cancel_right, work_eq_sum nτ hu]
    exact Finset.sum_congr rfl fun k hk => by rw [hτ k (Finset.mem_range.1 hk)]

include hsin hcos in
/-- **C143** The velocity-dependent torques do the work that changes the kinetic energy of a motion with constant joint velocities, and no other. -/
theorem C143_power (c c1 : Chain ℝ) (q v : List ℝ) (h : c.WF) (ho : setOffset c.link = c.link)
    (hr : ∀ l ∈ c.link, l.org.att.IsRot) (hI : ∀ l ∈ c.link, l.body.mp.inertia.Symm) (hj : ∀ l ∈ c.link, Coord l.joint.prp)
    (hx : ∀ l ∈ c.link, l.body.extw = []) (hq : q.length = jointSize c.link) (hv : v.length = jointSize c.link)
    (hl : ∀ᶠ s in 𝓝 0, OffLimits c (shift q s v)) (e1 : c.fk q = some c1) :
    ∃ g : ℝ → ℝ, (∀ᶠ s in 𝓝 0, kineticAt c (shift q s v) v = some (g s)) ∧
      HasDerivAt g (∑ k ∈ Finset.range (jointSize c.link), (∑ i ∈ Finset.range (jointSize c.link), ∑ j ∈ Finset.range (jointSize c.link),
        coriolis c1 k i j * (v.getD i 0 * v.getD j 0)) * v.getD k 0) 0 := by
  have hA : Arm c := ⟨h, ho, hr, hj⟩
  have q0 : shift q 0 v = q := by
    refine List.ext_getElem (by simp [shift, hq, hv]) fun i h1 h2 => by simp [shift]
  have hl0 : OffLimits c q := by have := hl.self_of_nhds; rwa [q0] at this
  obtain ⟨B, M, Q, τ, hB, et, hx1, hQ, hD⟩ := christoffel_links hsin hcos c c1 q v v hA hI hx hq hv hv hl0 e1
  obtain ⟨nτ, hτ⟩ := torque_coriolis hA e1 hv hx1 et
  refine ⟨_, ?_, hQ.congr_deriv ?_⟩
  · filter_upwards [hl] with s hs
    rw [kineticAt_eq_lagrangian]
    exact hA.lagrangian_eq hsin hcos (fun i hi => (hB i hi).1) ((shift_length (hq.trans hv.symm) s).trans hq) hv hs 0
  · have e2 : (fun s => ((List.range c.link.length).map fun i =>
        polarKE (M i) (pathVel (shift q s v) v 0 (B i)) (pathVel (shift q s v) v 0 (B i))).sum) =
        fun s => 2 * ((List.range c.link.length).map fun i => lag1 0 (M i) (B i) (shift q s v) v).sum := by
      funext s
      rw [← List.sum_map_mul_left]
      congr 1
      refine List.map_congr_left fun i _ => ?_
      simp only [lag1, dot, Vec3.zero_x, Vec3.zero_y, Vec3.zero_z]
      ring
    rw [e2] at hD
    have := hD.unique (hQ.const_mul 2)
    have hw : work τ v = ∑ k ∈ Finset.range (jointSize c.link), (∑ i ∈ Finset.range (jointSize c.link),
        ∑ j ∈ Finset.range (jointSize c.link), coriolis c1 k i j * (v.getD i 0 * v.getD j 0)) * v.getD k 0 := by
      rw [work_eq_sum nτ hv]
      exact Finset.sum_congr rfl fun k hk => by rw [hτ k (Finset.mem_range.1 hk)]
    rw [← hw]
    linarith

end

/-- The hypotheses of `C143_christoffel` and `C143_power` are met by a branched arm in motion, along every direction. -/
theorem C143_motion_sample (q v u : List ℝ) (hq : q.length = 6) : let c := Sample.branched
    c.WF ∧ setOffset c.link = c.link ∧ (∀ l ∈ c.link, l.org.att.IsRot) ∧ (∀ l ∈ c.link, l.body.mp.inertia.Symm) ∧
    (∀ l ∈ c.link, Coord l.joint.prp) ∧ (∀ l ∈ c.link, l.body.extw = []) ∧ jointSize c.link = 6 ∧
    (∀ᶠ s in 𝓝 0, OffLimits c (shift q s v)) ∧ (∀ᶠ s in 𝓝 0, OffLimits c (shift q s u)) ∧
    (∀ x : ℝ, Zm.sin x = Real.sin x) ∧ (∀ x : ℝ, Zm.cos x = Real.cos x) ∧ ∃ c1, c.fk q = some c1 := by
  intro c
  have hw : c.WF := ⟨⟨_, rfl⟩, by decide⟩
  have hmem : ∀ l ∈ c.link, l.org.att.IsRot ∧ l.body.mp.inertia.Symm ∧ Coord l.joint.prp ∧ l.body.extw = [] := by
    intro l hl
    simp only [c, Sample.branched, List.mem_cons, List.not_mem_nil, or_false] at hl
    rcases hl with rfl | rfl | rfl | rfl | rfl <;> exact ⟨Mat3.isRot_one, rfl, trivial, rfl⟩
  have hlim : ∀ q, OffLimits c q := by
    intro q l hl
    simp only [c, Sample.branched, List.mem_cons, List.not_mem_nil, or_false] at hl
    rcases hl with rfl | rfl | rfl | rfl | rfl <;> simp [Sample.link, Sample.dof1, Sample.dof2, limit]
  have hA : Arm c := ⟨hw, rfl, fun l hl => (hmem l hl).1, fun l hl => (hmem l hl).2.2.1⟩
  exact ⟨hw, rfl, fun l hl => (hmem l hl).1, fun l hl => (hmem l hl).2.1, fun l hl => (hmem l hl).2.2.1, fun l hl => (hmem l hl).2.2.2,
    rfl, .of_forall fun s => hlim _, .of_forall fun s => hlim _, fun _ => rfl, fun _ => rfl, hA.fk hq⟩

end Roki
