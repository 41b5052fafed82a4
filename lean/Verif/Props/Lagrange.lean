import Verif.Lemmas.Lagrange3
set_option autoImplicit false

/-!
# Inverse dynamics and Lagrange's equations

C121.
-/

namespace Roki
open Spec LinkArray Filter Topology

section
variable [Zm ℝ] [LawfulZm ℝ] (hsin : ∀ x : ℝ, Zm.sin x = Real.sin x) (hcos : ∀ x : ℝ, Zm.cos x = Real.cos x)

theorem foldl_pair (ks : List (Link ℝ)) (w a : Vec6 ℝ) :
    (ks.foldl (fun st m => (stepVel st.1 m, stepAcc st.1 st.2 m)) (w, a)).1 = ks.foldl stepVel w := by
  induction ks generalizing w a with
  | nil => rfl
  | cons k ks ih => rw [List.foldl_cons, ih, List.foldl_cons]

/-- `rkChainFK` as setting the displacements and updating the frames. -/
theorem Arm.split {c c1 : Chain ℝ} (h : Arm c) {q : List ℝ} (e : c.fk q = some c1) :
    ∃ ls, Chain.updateFK { c with link := ls } = some c1 ∧ Chain.WF { c with link := ls } ∧
      (∀ l ∈ ls, l.org.att.IsRot ∧ l.joint.prp.WF) ∧ setOffset ls = ls ∧ jointSize ls = jointSize c.link := by
  simp only [Chain.fk, Option.bind_eq_bind, Option.bind_eq_some_iff] at e
  obtain ⟨ls, f, e⟩ := e
  have n := (setJointAll_getElem f 0).2
  have key : ∀ (i : ℕ) (l : Link ℝ), ls[i]? = some l → ∃ l0, c.link[i]? = some l0 ∧ l.org = l0.org ∧ l.joint.prp.WF ∧
      l.offset = l0.offset ∧ l.size = l0.size := by
    intro i l hi
    have h1 := (setJointAll_getElem f i).1
    rw [hi, Option.bind_eq_some_iff] at h1
    obtain ⟨l0, h0, h1⟩ := h1
    have hm : l0 ∈ c.link := List.mem_iff_getElem?.2 ⟨i, h0⟩
    refine ⟨l0, h0, ?_⟩
    simp only [Link.setAtOffset] at h1
    split_ifs at h1 with hoff
    · obtain ⟨p, hp, rfl⟩ := setWith_eq_some.1 h1
      exact ⟨rfl, setDis_WF _ _ _ hp, rfl, (isSetter_dis.size _ _ _ hp)⟩
    · simp only [Option.some.injEq] at h1
      subst h1
      refine ⟨rfl, ?_, rfl, rfl⟩
      have hz : ¬ 0 < l0.joint.prp.size := fun hs => hoff (offset_nonneg h.off hm hs)
      cases hp : l0.joint.prp <;> simp [hp, Prp.size] at hz
      trivial
  have em : ls.map (fun l : Link ℝ => (l.offset, l.size)) = c.link.map fun l => (l.offset, l.size) := by
    refine List.ext_getElem? fun i => ?_
    rw [List.getElem?_map, List.getElem?_map]
    by_cases hi : i < ls.length
    · obtain ⟨l0, h0, -, -, h1, h2⟩ := key i _ (List.getElem?_eq_getElem hi)
      rw [List.getElem?_eq_getElem hi, h0, Option.map_some, Option.map_some, h1, h2]
    · rw [List.getElem?_eq_none (by omega), List.getElem?_eq_none (by omega)]
  obtain ⟨o, z⟩ := offsets_of_sizes em 0 h.off
  have hw : Chain.WF { c with link := ls } := h.wf.with_link n
  exact ⟨ls, e, hw, fun l hl => by
    obtain ⟨i, hi⟩ := List.mem_iff_getElem?.1 hl
    obtain ⟨l0, h0, h1, h2, -⟩ := key i l hi
    exact ⟨h1 ▸ h.rot l0 (List.mem_iff_getElem?.2 ⟨i, h0⟩), h2⟩, o, by rw [jointSize_eq, jointSize_eq]; exact z⟩

theorem Arm.posed {c c1 : Chain ℝ} (h : Arm c) {q : List ℝ} (e : c.fk q = some c1) :
    Posed c1 ∧ jointSize c1.link = jointSize c.link := by
  obtain ⟨ls, e', hw, hr, o, z⟩ := h.split e
  obtain ⟨a, b⟩ := posed_of_fk hw hr o e'
  exact ⟨a, b.trans z⟩

theorem Arm.fk {c : Chain ℝ} (h : Arm c) {q : List ℝ} (hq : q.length = jointSize c.link) : ∃ c1, c.fk q = some c1 := by
  obtain ⟨c1, e, -⟩ := C06_fk_rotation_any c h.wf h.off q hq h.rot
  exact ⟨c1, e⟩

/-- For every link, the links on the path from the root to it. -/
theorem Arm.paths {c : Chain ℝ} (h : Arm c) : ∃ (P : ℕ → List (Link ℝ)) (M : ℕ → MP ℝ), ∀ i < c.link.length, ∃ p ms m,
    IsPath c.shape (p ++ [i]) ∧ OnPath c p ms ∧ c.link[i]? = some m ∧ P i = ms ++ [m] ∧ M i = m.body.mp := by
  have : ∀ i, ∃ P M, i < c.link.length → ∃ p ms m,
      IsPath c.shape (p ++ [i]) ∧ OnPath c p ms ∧ c.link[i]? = some m ∧ P = ms ++ [m] ∧ M = m.body.mp := by
    intro i
    by_cases hi : i < c.link.length
    · obtain ⟨p, hp⟩ := LTree.exists_path (h.wf.mem.2 hi)
      have hmem : ∀ j ∈ p, j < c.link.length := fun j hj => h.wf.mem.1 (hp.mem j (by simp [hj]))
      obtain ⟨ms, hms⟩ : ∃ ms, OnPath c p ms := by
        clear hp
        induction p with
        | nil => exact ⟨[], rfl⟩
        | cons j p ih =>
          obtain ⟨ms, hms⟩ := ih fun k hk => hmem k (by simp [hk])
          have hj := hmem j (by simp)
          refine ⟨c.link[j] :: ms, ?_⟩
          unfold OnPath at hms ⊢
          rw [List.map_cons, List.map_cons, hms, List.getElem?_eq_getElem hj]
      exact ⟨ms ++ [c.link[i]], c.link[i].body.mp, fun _ => ⟨p, ms, c.link[i], hp, hms, List.getElem?_eq_getElem hi, rfl, rfl⟩⟩
    · exact ⟨[], ⟨0, 0, 0⟩, fun h => absurd h hi⟩
  choose P M hPM using this
  exact ⟨P, M, hPM⟩

theorem map_range {α β : Type*} (ls : List α) (f : α → β) {n : ℕ} (hn : ls.length = n) (F : ℕ → β)
    (h : ∀ i l, ls[i]? = some l → f l = F i) : ls.map f = (List.range n).map F := by
  refine List.ext_getElem (by simp [hn]) fun i h1 h2 => ?_
  simp only [List.getElem_map, List.getElem_range]
  exact h i _ (List.getElem?_eq_getElem (by simpa using h1))

theorem zip_range {α β γ : Type*} (ls : List α) (ks : List β) (f : α → β → γ) {n : ℕ} (hn : ls.length = n) (hk : ks.length = n) (F : ℕ → γ)
    (h : ∀ i l k, ls[i]? = some l → ks[i]? = some k → f l k = F i) : List.zipWith f ls ks = (List.range n).map F := by
  refine List.ext_getElem (by simp [hn, hk]) fun i h1 h2 => ?_
  simp only [List.getElem_map, List.getElem_range, List.getElem_zipWith]
  simp only [List.length_zipWith] at h1
  exact h i _ _ (List.getElem?_eq_getElem (by omega)) (List.getElem?_eq_getElem (by omega))

theorem ke_sum (ls : List (Link ℝ)) : ke ls = (ls.map fun l => l.body.ke).sum := by
  have : ∀ x : ℝ, ls.foldl (fun e l => e + l.body.ke) x = x + (ls.map fun l => l.body.ke).sum := by
    induction ls with
    | nil => intro x; simp
    | cons l ls ih => intro x; rw [List.foldl_cons, ih, List.map_cons, List.sum_cons]; ring
  rw [ke, this, zero_add]

theorem sum_sub {α : Type*} (L : List α) (f g : α → ℝ) : (L.map f).sum - (L.map g).sum = (L.map fun a => f a - g a).sum := by
  induction L with
  | nil => simp
  | cons a L ih => simp only [List.map_cons, List.sum_cons, ← ih]; ring

theorem invDyn_length {c1 c2 : Chain ℝ} (h : Posed c1) {g : Vec6 ℝ} {v a : List ℝ} (hv : v.length = jointSize c1.link)
    (ha : a.length = jointSize c1.link) (e : c1.invDyn g v a = some c2) : c2.link.length = c1.link.length := by
  simp only [Chain.invDyn, Option.bind_eq_bind, Option.bind_eq_some_iff] at e
  obtain ⟨ls, f, e⟩ := e
  rw [setJointRateAll_eq, Option.bind_eq_some_iff] at f
  obtain ⟨ls1, f1, f2⟩ := f
  have n1 := (setJointAll_getElem f1 0).2
  have n2 := (setJointAll_getElem f2 0).2
  obtain ⟨c3, -, -, -, -, -, -, n⟩ := updateID_rate (h.wf.with_link (n2.trans n1)) e
  rw [n]; exact n2.trans n1

theorem fk_length {c c1 : Chain ℝ} (h : c.WF) {q : List ℝ} (e : c.fk q = some c1) : c1.link.length = c.link.length := by
  simp only [Chain.fk, Option.bind_eq_bind, Option.bind_eq_some_iff] at e
  obtain ⟨ls, f, e⟩ := e
  have n := (setJointAll_getElem f 0).2
  have hw : Chain.WF { c with link := ls } := h.with_link n
  obtain ⟨-, -, -, -, -, k, -⟩ := hw.updateFK e
  exact k.trans n

include hsin hcos in
theorem Arm.lagrangian_eq {c : Chain ℝ} (h : Arm c) {P : ℕ → List (Link ℝ)} {M : ℕ → MP ℝ}
    (hP : ∀ i < c.link.length, ∃ p ms m, IsPath c.shape (p ++ [i]) ∧ OnPath c p ms ∧ c.link[i]? = some m ∧ P i = ms ++ [m] ∧ M i = m.body.mp)
    {q v : List ℝ} (hq : q.length = jointSize c.link) (hv : v.length = jointSize c.link) (hlim : OffLimits c q) (g : Vec3 ℝ) :
    lagrangian g c q v = some ((List.range c.link.length).map fun i => lag1 g (M i) (P i) q v).sum := by
  obtain ⟨c1, e1⟩ := h.fk hq
  obtain ⟨hp, hz⟩ := h.posed e1
  have hrep : (List.replicate v.length (0 : ℝ)).length = jointSize c.link := by simp [hv]
  obtain ⟨c2, e2⟩ := hp.invDyn ⟨g, 0⟩ (hv.trans hz.symm) (hrep.trans hz.symm)
  have n2 : c2.link.length = c.link.length :=
    (invDyn_length hp (hv.trans hz.symm) (hrep.trans hz.symm) e2).trans (fk_length h.wf e1)
  rw [lagrangian, e1, Option.bind_some, e2, Option.map_some, ke_sum, sum_sub]
  congr 2
  refine map_range _ _ n2 _ fun i l hl => ?_
  have hi : i < c.link.length := n2 ▸ (List.getElem?_eq_some_iff.1 hl).1
  obtain ⟨p, ms, m, hpath, hms, hm, eP, eM⟩ := hP i hi
  obtain ⟨l', hl', x1, -, x2, x3, x4, x5, -⟩ := h.run_path hsin hcos hq hv hrep hlim e1 e2 hpath hms hm
  rw [hl] at hl'; cases hl'
  have ev : l.body.vel = pathVel q v 0 (ms ++ [m]) := by
    rw [← foldl_placed (ms ++ [m]) q v (List.replicate v.length 0)]
    have := congrArg Prod.fst x4
    simp only at this
    rw [this]
    exact foldl_pair _ _ _
  have ef : l.body.frame = product (((ms ++ [m]).map (placed q [] [])).map linkFrame) := by
    rw [x2, List.map_map, List.map_map]
    congr 1
    exact List.map_congr_left fun l _ => placed_frame l q v _ [] []
  rw [lag1, eP, eM, ← ev, ← ef, x3]
  simp only [Body.ke, polarKE, mass, x1]
  have : l.body.comVel = cv m.body.mp l.body.vel := by rw [x5, cv, x1]
  rw [this]
  simp only [sqrNorm, dot]

include hsin hcos in
/-- **C121** Inverse dynamics solves Lagrange's equations.  A chain of fixed, revolute, prismatic, cylindrical and universal
joints moves along `q` with joint velocities `v` and accelerations `a`, within its limits.  Let `L` be its kinetic energy less
its potential energy in the field that accelerates bodies by `-g`, both as the library computes them from displacements and
velocities.  Let `P s` be the derivative of `L` in the velocities, along any direction `u`, at the time `s`, and `Q` its
derivative in the displacements along `u` at the time `t`.  Then the derivative of `P` at `t` less `Q` is the work on `u` of the
joint torques that `rkChainID` computes at the time `t` from velocities and accelerations, with the root accelerated by `g`,
and of the external wrenches. -/
theorem C121_lagrange (c c1 c2 d2 : Chain ℝ) (g : Vec3 ℝ) (q v a : ℝ → List ℝ) (u : List ℝ) (t : ℝ) (h : c.WF)
    (ho : setOffset c.link = c.link) (hr : ∀ l ∈ c.link, l.org.att.IsRot) (hI : ∀ l ∈ c.link, l.body.mp.inertia.Symm)
    (hj : ∀ l ∈ c.link, Coord l.joint.prp)
    (hq : ∀ s, (q s).length = jointSize c.link) (hv : ∀ s, (v s).length = jointSize c.link)
    (ha : (a t).length = jointSize c.link) (hu : u.length = jointSize c.link)
    (h1 : ∀ s k, HasDerivAt (fun s => (q s).getD k 0) ((v s).getD k 0) s)
    (h2 : ∀ s k, HasDerivAt (fun s => (v s).getD k 0) ((a s).getD k 0) s)
    (hl : ∀ s, OffLimits c (q s)) (hl' : ∀ᶠ e in 𝓝 0, OffLimits c (shift (q t) e u))
    (e1 : c.fk (q t) = some c1) (e2 : c1.invDyn ⟨g, 0⟩ (v t) (a t) = some c2)
    (e3 : c1.invDyn 0 u (List.replicate u.length 0) = some d2) :
    ∃ (τ : List ℝ) (P : ℝ → ℝ) (Q : ℝ), torques c2 = some τ ∧
      (∀ s, ∃ L : ℝ → ℝ, (∀ e, lagrangian g c (q s) (shift (v s) e u) = some (L e)) ∧ HasDerivAt L (P s) 0) ∧
      (∃ L : ℝ → ℝ, (∀ᶠ e in 𝓝 0, lagrangian g c (shift (q t) e u) (v t) = some (L e)) ∧ HasDerivAt L Q 0) ∧
      HasDerivAt P (work τ u + (List.zipWith extWork c2.link d2.link).sum + Q) t := by
  have hA : Arm c := ⟨h, ho, hr, hj⟩
  obtain ⟨B, M, hB⟩ := hA.paths
  have hmem : ∀ i < c.link.length, (∀ l ∈ B i, l ∈ c.link) ∧ (M i).inertia.Symm := by
    intro i hi
    obtain ⟨p, ms, m, -, x1, x2, x3, x4⟩ := hB i hi
    have hm := List.mem_iff_getElem?.2 ⟨i, x2⟩
    refine ⟨fun l hl => ?_, x4 ▸ hI m hm⟩
    rw [x3] at hl
    rcases List.mem_append.1 hl with hl | hl
    · have : some l ∈ ms.map some := List.mem_map.2 ⟨l, hl, rfl⟩
      rw [← x1] at this
      obtain ⟨j, -, e⟩ := List.mem_map.1 this
      exact List.mem_iff_getElem?.2 ⟨j, e⟩
    · rw [List.mem_singleton.1 hl]; exact hm
  obtain ⟨hp, hz⟩ := hA.posed e1
  have hrep : (List.replicate u.length (0 : ℝ)).length = jointSize c.link := by simp [hu]
  obtain ⟨ls, T, r⟩ := hp.run ((hv t).trans hz.symm) (ha.trans hz.symm) e2
  obtain ⟨ks, U, r'⟩ := hp.run (hu.trans hz.symm) (hrep.trans hz.symm) e3
  obtain ⟨τ, y1, -, y2⟩ := virtual_work hp r r' rfl rfl
  have nc : c2.link.length = c.link.length := (invDyn_length hp ((hv t).trans hz.symm) (ha.trans hz.symm) e2).trans (fk_length h e1)
  have nd : d2.link.length = c.link.length := (invDyn_length hp (hu.trans hz.symm) (hrep.trans hz.symm) e3).trans (fk_length h e1)
  -- each link
  have hlink : ∀ i, ∃ Q w : ℝ, i < c.link.length →
      (∀ l d, c2.link[i]? = some l → d2.link[i]? = some d → inertialWork l d = w) ∧
      HasDerivAt (fun e => lag1 g (M i) (B i) (shift (q t) e u) (v t)) Q 0 ∧
      HasDerivAt (fun s => polarKE (M i) (pathVel (q s) (v s) 0 (B i)) (pathVel (q s) u 0 (B i))) (w + Q) t := by
    intro i
    by_cases hi : i < c.link.length
    swap
    · exact ⟨0, 0, fun h => absurd h hi⟩
    obtain ⟨hb, hs⟩ := hmem i hi
    obtain ⟨p, ms, m, x1, x2, x3, x4, x5⟩ := hB i hi
    obtain ⟨l, f1, f2, -, f3, -, f4, -⟩ := hA.run_path hsin hcos (hq t) (hv t) ha (hl t) e1 e2 x1 x2 x3
    obtain ⟨d, k1, k2, -, k3, -, k4, -⟩ := hA.run_path hsin hcos (hq t) hu hrep (hl t) e1 e3 x1 x2 x3
    rw [← x4] at f3 f4 k3 k4
    rw [← x5] at f2 k2
    have hfr : ∀ v a, ((B i).map (placed (q t) v a)).map linkFrame = ((B i).map (placed (q t) [] [])).map linkFrame := by
      intro v a
      rw [List.map_map, List.map_map]
      exact List.map_congr_left fun l _ => placed_frame l (q t) v a [] []
    have fd : d.body.frame = l.body.frame := by rw [k3, f3, hfr, hfr (v t)]
    have vd : d.body.vel = pathVel (q t) u 0 (B i) := by
      rw [← foldl_placed (B i) (q t) u (List.replicate u.length 0)]
      have := congrArg Prod.fst k4
      simp only at this
      rw [this]
      exact foldl_pair _ _ _
    obtain ⟨Q, hQ, hD⟩ := lag1_motion (fun l hl => hr l (hb l hl)) (fun l hl => hj l (hb l hl)) g hs h1 h2
      ((hq t).trans hu.symm) f2 f3 f4 k2 fd vd
    refine ⟨Q, inertialWork l d, fun _ => ⟨fun l' d' e e' => ?_, hQ, hD⟩⟩
    rw [f1] at e; rw [k1] at e'; cases e; cases e'; rfl
  choose Q w hQw using hlink
  refine ⟨τ, fun s => ((List.range c.link.length).map fun i => polarKE (M i) (pathVel (q s) (v s) 0 (B i)) (pathVel (q s) u 0 (B i))).sum,
    ((List.range c.link.length).map Q).sum, y1, fun s => ?_, ?_, ?_⟩
  · refine ⟨fun e => ((List.range c.link.length).map fun i => lag1 g (M i) (B i) (q s) (shift (v s) e u)).sum, fun e => ?_, ?_⟩
    · exact hA.lagrangian_eq hsin hcos hB (hq s) ((shift_length ((hv s).trans hu.symm) e).trans (hv s)) (hl s) g
    · refine hasDerivAt_list_sum _ _ _ _ fun i hi => ?_
      obtain ⟨hb, hs⟩ := hmem i (List.mem_range.1 hi)
      exact lag1_momentum (fun l hl => hj l (hb l hl)) g hs (q s) ((hv s).trans hu.symm)
  · refine ⟨fun e => ((List.range c.link.length).map fun i => lag1 g (M i) (B i) (shift (q t) e u) (v t)).sum, ?_, ?_⟩
    · filter_upwards [hl'] with e he
      exact hA.lagrangian_eq hsin hcos hB ((shift_length ((hq t).trans hu.symm) e).trans (hq t)) (hv t) he g
    · exact hasDerivAt_list_sum _ _ _ _ fun i hi => (hQw i (List.mem_range.1 hi)).2.1
  · refine (hasDerivAt_list_sum _ (fun i => w i + Q i) t _ fun i hi => (hQw i (List.mem_range.1 hi)).2.2).congr_deriv ?_
    have hw : List.zipWith inertialWork c2.link d2.link = (List.range c.link.length).map w :=
      zip_range _ _ _ nc nd _ fun i l k e e' => (hQw i (nc ▸ (List.getElem?_eq_some_iff.1 e).1)).1 l k e e'
    rw [y2, hw]
    have hs : ((List.range c.link.length).map fun i => w i + Q i).sum =
        ((List.range c.link.length).map w).sum + ((List.range c.link.length).map Q).sum := List.sum_map_add
    rw [hs]; ring

theorem extWork_nil {ls ks : List (Link ℝ)} (h : ∀ l ∈ ls, l.body.extw = []) : (List.zipWith extWork ls ks).sum = 0 := by
  induction ls generalizing ks with
  | nil => simp
  | cons l ls ih =>
    cases ks with
    | nil => simp
    | cons k ks =>
      rw [List.zipWith_cons_cons, List.sum_cons, ih fun m hm => h m (by simp [hm]), extWork, h l (by simp)]; simp

include hsin hcos in
theorem Arm.run_ext {c c1 c2 : Chain ℝ} (h : Arm c) {q v a : List ℝ} {g : Vec6 ℝ} (hq : q.length = jointSize c.link)
    (hv : v.length = jointSize c.link) (ha : a.length = jointSize c.link) (hlim : OffLimits c q)
    (e1 : c.fk q = some c1) (e2 : c1.invDyn g v a = some c2) (hx : ∀ l ∈ c.link, l.body.extw = []) :
    ∀ l ∈ c2.link, l.body.extw = [] := by
  intro l hl
  obtain ⟨i, hi⟩ := List.mem_iff_getElem?.1 hl
  obtain ⟨hp, hz⟩ := h.posed e1
  have n2 : c2.link.length = c.link.length := (invDyn_length hp (hv.trans hz.symm) (ha.trans hz.symm) e2).trans (fk_length h.wf e1)
  obtain ⟨P, M, hP⟩ := h.paths
  obtain ⟨p, ms, m, x1, x2, x3, -, -⟩ := hP i (n2 ▸ (List.getElem?_eq_some_iff.1 hi).1)
  obtain ⟨l', f1, -, f2, -⟩ := h.run_path hsin hcos hq hv ha hlim e1 e2 x1 x2 x3
  rw [hi] at f1; cases f1
  rw [f2]; exact hx m (List.mem_iff_getElem?.2 ⟨i, x3⟩)

include hsin hcos in
/-- **C121** Lagrange's equations by components.  Without external wrenches, the torque of the component `j` that `rkChainID`
computes is the time derivative of the partial derivative of kinetic less potential energy in the velocity `j`, less its partial
derivative in the displacement `j`. -/
theorem C121_component (c c1 c2 : Chain ℝ) (g : Vec3 ℝ) (q v a : ℝ → List ℝ) (j : ℕ) (t : ℝ) (h : c.WF)
    (ho : setOffset c.link = c.link) (hr : ∀ l ∈ c.link, l.org.att.IsRot) (hI : ∀ l ∈ c.link, l.body.mp.inertia.Symm)
    (hj : ∀ l ∈ c.link, Coord l.joint.prp) (hx : ∀ l ∈ c.link, l.body.extw = []) (hn : j < jointSize c.link)
    (hq : ∀ s, (q s).length = jointSize c.link) (hv : ∀ s, (v s).length = jointSize c.link)
    (ha : (a t).length = jointSize c.link)
    (h1 : ∀ s k, HasDerivAt (fun s => (q s).getD k 0) ((v s).getD k 0) s)
    (h2 : ∀ s k, HasDerivAt (fun s => (v s).getD k 0) ((a s).getD k 0) s)
    (hl : ∀ s, OffLimits c (q s)) (hl' : ∀ᶠ e in 𝓝 0, OffLimits c (shift (q t) e (unitVec (jointSize c.link) j)))
    (e1 : c.fk (q t) = some c1) (e2 : c1.invDyn ⟨g, 0⟩ (v t) (a t) = some c2) :
    ∃ (τ : List ℝ) (P : ℝ → ℝ) (Q : ℝ), torques c2 = some τ ∧
      (∀ s, ∃ L : ℝ → ℝ, (∀ e, lagrangian g c (q s) (shift (v s) e (unitVec (jointSize c.link) j)) = some (L e)) ∧
        HasDerivAt L (P s) 0) ∧
      (∃ L : ℝ → ℝ, (∀ᶠ e in 𝓝 0, lagrangian g c (shift (q t) e (unitVec (jointSize c.link) j)) (v t) = some (L e)) ∧
        HasDerivAt L Q 0) ∧
      HasDerivAt P (τ.getD j 0 + Q) t := by
  have hA : Arm c := ⟨h, ho, hr, hj⟩
  have hu : (unitVec (jointSize c.link) j : List ℝ).length = jointSize c.link := by exact unitVec_length _ _
  obtain ⟨hp, hz⟩ := hA.posed e1
  obtain ⟨d2, e3⟩ := hp.invDyn 0 (v := unitVec (jointSize c.link) j) (a := List.replicate (unitVec (jointSize c.link) j).length 0)
    (hu.trans hz.symm) (by rw [List.length_replicate]; exact hu.trans hz.symm)
  obtain ⟨τ, P, Q, x1, x2, x3, x4⟩ := C121_lagrange hsin hcos c c1 c2 d2 g q v a _ t h ho hr hI hj hq hv ha hu h1 h2 hl hl' e1 e2 e3
  refine ⟨τ, P, Q, x1, x2, x3, ?_⟩
  have hτ : τ.length = jointSize c.link := by
    obtain ⟨ls, T, r⟩ := hp.run ((hv t).trans hz.symm) (ha.trans hz.symm) e2
    obtain ⟨ks, U, r'⟩ := hp.run (hu.trans hz.symm) (by rw [List.length_replicate]; exact hu.trans hz.symm) e3
    obtain ⟨τ', y1, y2, -⟩ := virtual_work hp r r' rfl rfl
    rw [x1] at y1; cases y1
    exact y2.trans hz
  rw [extWork_nil (hA.run_ext hsin hcos (hq t) (hv t) ha (hl t) e1 e2 hx), add_zero, work_unitVec hτ hn] at x4
  exact x4

include hsin hcos in
/-- **C121** Conserved momenta.  A motion without external wrenches, whose joint torques do no work along `u` at any time,
keeps the derivative of kinetic less potential energy in the velocities along `u`, if moving the joints along `u` does
not change that energy to first order. -/
theorem C121_conserved (c : Chain ℝ) (c1 c2 : ℝ → Chain ℝ) (g : Vec3 ℝ) (q v a : ℝ → List ℝ) (u : List ℝ) (τ : ℝ → List ℝ) (h : c.WF)
    (ho : setOffset c.link = c.link) (hr : ∀ l ∈ c.link, l.org.att.IsRot) (hI : ∀ l ∈ c.link, l.body.mp.inertia.Symm)
    (hj : ∀ l ∈ c.link, Coord l.joint.prp) (hx : ∀ l ∈ c.link, l.body.extw = [])
    (hq : ∀ s, (q s).length = jointSize c.link) (hv : ∀ s, (v s).length = jointSize c.link)
    (ha : ∀ s, (a s).length = jointSize c.link) (hu : u.length = jointSize c.link)
    (h1 : ∀ s k, HasDerivAt (fun s => (q s).getD k 0) ((v s).getD k 0) s)
    (h2 : ∀ s k, HasDerivAt (fun s => (v s).getD k 0) ((a s).getD k 0) s)
    (hl : ∀ s, OffLimits c (q s)) (hl' : ∀ s, ∀ᶠ e in 𝓝 0, OffLimits c (shift (q s) e u))
    (e1 : ∀ s, c.fk (q s) = some (c1 s)) (e2 : ∀ s, (c1 s).invDyn ⟨g, 0⟩ (v s) (a s) = some (c2 s))
    (e3 : ∀ s, torques (c2 s) = some (τ s)) (e4 : ∀ s, work (τ s) u = 0)
    (e5 : ∀ s, ∃ L : ℝ → ℝ, (∀ᶠ e in 𝓝 0, lagrangian g c (shift (q s) e u) (v s) = some (L e)) ∧ HasDerivAt L 0 0) :
    ∃ P : ℝ, ∀ s, ∃ L : ℝ → ℝ, (∀ e, lagrangian g c (q s) (shift (v s) e u) = some (L e)) ∧ HasDerivAt L P 0 := by
  have hA : Arm c := ⟨h, ho, hr, hj⟩
  have key : ∀ t, ∃ P : ℝ → ℝ, (∀ s, ∃ L : ℝ → ℝ, (∀ e, lagrangian g c (q s) (shift (v s) e u) = some (L e)) ∧ HasDerivAt L (P s) 0) ∧
      HasDerivAt P 0 t := by
    intro t
    obtain ⟨hp, hz⟩ := hA.posed (e1 t)
    obtain ⟨d2, f3⟩ := hp.invDyn 0 (v := u) (a := List.replicate u.length 0) (hu.trans hz.symm)
      (by rw [List.length_replicate]; exact hu.trans hz.symm)
    obtain ⟨τ', P, Q, x1, x2, ⟨L, x3, x5⟩, x4⟩ := C121_lagrange hsin hcos c _ _ d2 g q v a u t h ho hr hI hj hq hv (ha t) hu h1 h2 hl
      (hl' t) (e1 t) (e2 t) f3
    rw [e3 t] at x1; cases x1
    obtain ⟨L', y1, y2⟩ := e5 t
    have hL : L =ᶠ[𝓝 0] L' := by
      filter_upwards [x3, y1] with e a b
      rw [a] at b; exact Option.some.inj b
    have hQ : Q = 0 := (x5.congr_of_eventuallyEq hL.symm).unique y2
    rw [extWork_nil (hA.run_ext hsin hcos (hq t) (hv t) (ha t) (hl t) (e1 t) (e2 t) hx), e4 t, hQ] at x4
    exact ⟨P, x2, by simpa using x4⟩
  obtain ⟨P, hP, -⟩ := key 0
  have hd : ∀ t, HasDerivAt P 0 t := by
    intro t
    obtain ⟨P', hP', hd⟩ := key t
    have : P = P' := by
      funext s
      obtain ⟨L, x1, x2⟩ := hP s
      obtain ⟨L', y1, y2⟩ := hP' s
      have : L = L' := by funext e; have := x1 e; rw [y1 e] at this; exact (Option.some.inj this).symm
      subst this
      exact x2.unique y2
    rw [this]; exact hd
  have hc : ∀ s, P s = P 0 := fun s => is_const_of_deriv_eq_zero (fun x => (hd x).differentiableAt) (fun x => (hd x).deriv) s 0
  refine ⟨P 0, fun s => ?_⟩
  obtain ⟨L, x1, x2⟩ := hP s
  exact ⟨L, x1, hc s ▸ x2⟩
end

namespace Sample
/-- An arm that branches: revolute and prismatic joints in a row, and a universal and a cylindrical joint beside them. -/
noncomputable def branched : Chain ℝ :=
  { link :=
      [ { link "base" .fixed mp1 Frame.ident with offset := -1 },
        { link "turn" (.revol (dof1 0 0 0 0 1 none none)) mp1 ⟨⟨1, 0, 0⟩, 1⟩ with offset := 0 },
        { link "slide" (.prism (dof1 0 0 0 0 1 none none)) mp1 ⟨⟨0, 1, 0⟩, 1⟩ with offset := 1 },
        { link "wrist" (.hooke (dof2 0 0 0 1 0 1)) mp1 ⟨⟨0, 1, 0⟩, 1⟩ with offset := 2 },
        { link "screw" (.cylin (dof2 0 0 0 1 0 1)) mp1 ⟨⟨0, 0, 1⟩, 1⟩ with offset := 4 } ],
    shape := .node 0 (.node 1 (.node 2 .nil (.node 3 .nil .nil)) (.node 4 .nil .nil)) .nil,
    mass := 5, wldCOM := 0, comVel := 0, comAcc := 0 }
end Sample

/-- The hypotheses of `C121_lagrange` and `C121_component` are met by the arm, all joints of which accelerate uniformly. -/
example : Sample.branched.WF ∧ setOffset Sample.branched.link = Sample.branched.link ∧ (∀ l ∈ Sample.branched.link, l.org.att.IsRot) ∧
    (∀ l ∈ Sample.branched.link, l.body.mp.inertia.Symm) ∧ (∀ l ∈ Sample.branched.link, Coord l.joint.prp) ∧
    (∀ l ∈ Sample.branched.link, l.body.extw = []) ∧ jointSize Sample.branched.link = 6 ∧ (∀ q, OffLimits Sample.branched q) ∧
    (∀ (s : ℝ) (k : ℕ), HasDerivAt (fun s => (List.replicate 6 (s * s)).getD k 0) ((List.replicate 6 (2 * s)).getD k 0) s) ∧
    (∀ (s : ℝ) (k : ℕ), HasDerivAt (fun s => (List.replicate 6 (2 * s)).getD k 0) ((List.replicate 6 (2 : ℝ)).getD k 0) s) ∧
    (∀ x : ℝ, Zm.sin x = Real.sin x) ∧ (∀ x : ℝ, Zm.cos x = Real.cos x) ∧
    ∀ t : ℝ, ∃ c1 c2, Sample.branched.fk (List.replicate 6 (t * t)) = some c1 ∧
      c1.invDyn ⟨⟨0, 0, 9.8⟩, 0⟩ (List.replicate 6 (2 * t)) (List.replicate 6 2) = some c2 := by
  have hw : Sample.branched.WF := ⟨⟨_, rfl⟩, by decide⟩
  have hmem : ∀ l ∈ Sample.branched.link, l.org.att.IsRot ∧ l.body.mp.inertia.Symm ∧ Coord l.joint.prp ∧ l.body.extw = [] := by
    intro l hl
    simp only [Sample.branched, List.mem_cons, List.not_mem_nil, or_false] at hl
    rcases hl with rfl | rfl | rfl | rfl | rfl <;> exact ⟨Mat3.isRot_one, rfl, trivial, rfl⟩
  have hz : jointSize Sample.branched.link = 6 := rfl
  have hA : Arm Sample.branched := ⟨hw, rfl, fun l hl => (hmem l hl).1, fun l hl => (hmem l hl).2.2.1⟩
  have hget : ∀ (x : ℝ) (k : ℕ), (List.replicate 6 x).getD k 0 = if k < 6 then x else 0 := by
    intro x k
    rw [List.getD_eq_getElem?_getD, List.getElem?_replicate]; split_ifs <;> rfl
  refine ⟨hw, rfl, fun l hl => (hmem l hl).1, fun l hl => (hmem l hl).2.1, fun l hl => (hmem l hl).2.2.1, fun l hl => (hmem l hl).2.2.2,
    hz, ?_, ?_, ?_, fun _ => rfl, fun _ => rfl, ?_⟩
  · intro q l hl
    simp only [Sample.branched, List.mem_cons, List.not_mem_nil, or_false] at hl
    rcases hl with rfl | rfl | rfl | rfl | rfl <;> simp [Sample.link, Sample.dof1, Sample.dof2, limit]
  · intro s k
    simp only [hget]
    split_ifs
    · exact ((hasDerivAt_id s).mul (hasDerivAt_id s)).congr_deriv (by simp; ring)
    · exact hasDerivAt_const s 0
  · intro s k
    simp only [hget]
    split_ifs
    · exact ((hasDerivAt_id s).const_mul 2).congr_deriv (by simp)
    · exact hasDerivAt_const s 0
  · intro t
    obtain ⟨c1, e1⟩ := hA.fk (q := List.replicate 6 (t * t)) (by simp [hz])
    obtain ⟨hp, h1⟩ := hA.posed e1
    obtain ⟨c2, e2⟩ := hp.invDyn ⟨⟨0, 0, 9.8⟩, 0⟩ (v := List.replicate 6 (2 * t)) (a := List.replicate 6 2) (by simp [h1, hz]) (by simp [h1, hz])
    exact ⟨c1, c2, e1, e2⟩

/-- The hypotheses of `C121_conserved` are met by a block that slides freely across the field. -/
example : let c : Chain ℝ :=
      { link := [{ Sample.link "block" (.prism (Sample.dof1 0 0 0 0 1 none none)) Sample.mp1 Frame.ident with offset := 0 }],
        shape := .node 0 .nil .nil, mass := 1, wldCOM := 0, comVel := 0, comAcc := 0 }
    c.WF ∧ setOffset c.link = c.link ∧ jointSize c.link = 1 ∧ (∀ q, OffLimits c q) ∧
    (∀ s, ∃ c1 c2, c.fk [s] = some c1 ∧ c1.invDyn ⟨⟨9.8, 0, 0⟩, 0⟩ [1] [0] = some c2 ∧ torques c2 = some [0] ∧ work [(0 : ℝ)] [1] = 0) ∧
    ∀ s e, lagrangian ⟨9.8, 0, 0⟩ c (shift [s] e [1]) [1] = some (1 / 2) := by
  intro c
  refine ⟨⟨⟨_, rfl⟩, .refl _⟩, rfl, rfl, ?_, ?_, ?_⟩
  · intro q l hl
    simp only [c, List.mem_cons, List.not_mem_nil, or_false] at hl
    subst hl; simp [Sample.link, Sample.dof1, limit]
  · intro s
    refine ⟨_, _, rfl, rfl, ?_, by simp [work]⟩
    refine Eq.trans (b := some [_]) rfl ?_
    congr 2
    norm_num [c, Sample.link, Sample.dof1, Sample.mp1, limit, Frame.ident, cross, dot, triple, sqrNorm, Mat3.mulVec, Mat3.mulVecT, Mat3.mul, Body.init, Link.updateFrame1, Link.updateRate1,
      Link.updateVel1, Link.updateAcc1, Body.updateCOM, Body.updateCOMVel, Body.updateCOMAcc, Body.netWrench, Body.calcExtWrench, WrenchList.net, Prp.xform,
      Prp.incVel, Prp.incAcc, Prp.incAccOnVel, Prp.calcTrq, Prp.getTrq, Frame.cascade, Frame.xform, Frame.xform6Lin, Vec6.linShift, Vec6.angShift, Mat3.mulVecT6,
      LTree.updateWrench, LTree.addChildWrench, Body.ke, LinkArray.ke, cat, mass]
  · intro s e
    have hA : Arm c := by
      refine ⟨⟨⟨_, rfl⟩, .refl _⟩, rfl, ?_, ?_⟩ <;> intro l hl <;>
        simp only [c, List.mem_cons, List.not_mem_nil, or_false] at hl <;> subst hl
      · exact Mat3.isRot_one
      · trivial
    have hL := hA.lagrangian_eq (fun _ => rfl) (fun _ => rfl) (P := fun _ => c.link) (M := fun _ => Sample.mp1) (fun i hi => by
      have hi : i < 1 := hi
      obtain rfl : i = 0 := by omega
      exact ⟨[], [], _, .here _ _ _, rfl, rfl, rfl, rfl⟩) (q := shift [s] e [1]) (v := [1]) rfl rfl (by
      intro l hl
      simp only [c, List.mem_cons, List.not_mem_nil, or_false] at hl
      subst hl; simp [Sample.link, Sample.dof1, limit]) ⟨9.8, 0, 0⟩
    rw [hL]
    norm_num [c, lag1, polarKE, cv, pathVel, stepVel, placed, place, shift, Sample.link, Sample.dof1, Sample.mp1, Frame.ident, cross, dot, Mat3.mulVec, Mat3.mulVecT,
      Mat3.mul, Prp.incVel, Frame.cascade, Frame.xform, Frame.xform6Lin, Vec6.linShift, Mat3.mulVecT6, product, linkFrame, jointFrame]

end Roki
