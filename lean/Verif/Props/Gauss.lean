import Verif.Lemmas.Gauss
import Verif.Props.ABIPos
set_option autoImplicit false

/-! # C136: the motion is the one of least constraint (Gauss) -/

namespace Roki
open Spec LinkArray

section
variable {K : Type*} [Field K]

theorem work_add_right {n : ℕ} {t a x : List K} (ht : t.length = n) (ha : a.length = n) (hx : x.length = n) :
    work t (List.zipWith (· + ·) a x) = work t a + work t x := by
  unfold work
  induction t generalizing a x n with
  | nil => simp
  | cons t ts ih =>
    cases a with
    | nil => simp at ha; simp [← ha] at ht
    | cons a as =>
      cases x with
      | nil => simp at hx; simp [← hx] at ht
      | cons x xs =>
        cases n with
        | zero => simp at ht
        | succ n =>
          simp only [List.length_cons, Nat.add_right_cancel_iff] at ht ha hx
          simp only [List.zipWith_cons_cons, List.sum_cons, ih ht ha hx]
          ring

theorem work_smul_right (k : K) (t x : List K) : work t (x.map (k * ·)) = k * work t x := by
  unfold work
  induction t generalizing x with
  | nil => simp
  | cons t ts ih =>
    cases x with
    | nil => simp
    | cons x xs =>
      simp only [List.map_cons, List.zipWith_cons_cons, List.sum_cons, ih]
      ring

theorem zipWith_add_sub {n : ℕ} {a x : List K} (ha : a.length = n) (hx : x.length = n) :
    List.zipWith (· + ·) a (List.zipWith (· - ·) x a) = x := by
  apply List.ext_getElem?
  intro i
  simp only [List.getElem?_zipWith]
  by_cases hi : i < n
  · rw [List.getElem?_eq_getElem (by omega), List.getElem?_eq_getElem (by omega)]
    simp
  · rw [List.getElem?_eq_none (by omega), List.getElem?_eq_none (by omega)]

/-- The constraint of another motion. -/
theorem Posed.constraint_of {c1 c2 e2 d2 : Chain K} [NeZero (2 : K)] {g : Vec6 K} {v a x b : List K} (hp : Posed c1)
    (hs : ∀ l ∈ c1.link, l.body.mp.inertia.tr = l.body.mp.inertia)
    (hv : v.length = jointSize c1.link) (ha : a.length = jointSize c1.link) (hx : x.length = jointSize c1.link)
    (hb : b.length = jointSize c1.link) (h2 : c1.invDyn g v a = some c2)
    (h3 : c1.invDyn g v (List.zipWith (· + ·) a x) = some e2) (h4 : c1.invDyn 0 x b = some d2) :
    ∃ τ, torques c2 = some τ ∧ τ.length = jointSize c1.link ∧ ∀ trq : List K, trq.length = jointSize c1.link →
      constraint e2 trq (List.zipWith (· + ·) a x) = constraint c2 trq a + (Spec.work τ x - Spec.work trq x) +
        (d2.link.map fun l => kinetic l l / 2).sum := by
  obtain ⟨ls, T, r⟩ := hp.run hv ha h2
  obtain ⟨ms, U, r'⟩ := hp.run hx hb h4
  obtain ⟨τ, t1, t2, t3⟩ := virtual_work hp r r' rfl rfl
  refine ⟨τ, t1, t2, fun trq ht => ?_⟩
  have key := constraint_step hp hs hv ha hx hb h2 h3 h4
  unfold Spec.constraint
  rw [key, work_add_right ht ha hx, t3]
  ring

end

section
variable {K : Type*} [Field K] [LinearOrder K] [IsStrictOrderedRing K]

theorem kinetic_nonneg {l : Link K} (hr : l.body.frame.att.IsRot) (hm : 0 ≤ mass l)
    (hI : ∀ w : Vec3 K, 0 ≤ dot w (l.body.mp.inertia.mulVec w)) : 0 ≤ kinetic l l := by
  rw [kinetic, Link.angEnergy hr]
  refine add_nonneg (mul_nonneg hm ?_) (hI _)
  simp only [dot]
  nlinarith [mul_self_nonneg (comVel l).x, mul_self_nonneg (comVel l).y, mul_self_nonneg (comVel l).z]

/-- Links that have a nonnegative mass and a symmetric, positive semidefinite inertia tensor. -/
theorem Posed.kinetic_nonneg {c1 d2 : Chain K} {x b : List K} (hp : Posed c1) (hm : ∀ l ∈ c1.link, Physical l.body.mp)
    (hx : x.length = jointSize c1.link) (hb : b.length = jointSize c1.link) (h4 : c1.invDyn 0 x b = some d2) :
    0 ≤ (d2.link.map fun l => kinetic l l / 2).sum := by
  obtain ⟨ms, U, r⟩ := hp.run hx hb h4
  refine List.sum_nonneg fun y hy => ?_
  obtain ⟨l, hl, rfl⟩ := List.mem_map.1 hy
  have e := forall_of_map_eq statics (fun s => s.2.2.2.1.att.IsRot ∧ Physical s.2.2.2.2) r.stat2
    (fun l hl => ⟨hp.rot l hl, hm l hl⟩) l hl
  exact div_nonneg (Roki.kinetic_nonneg e.1 e.2.mass e.2.inertia) (by norm_num)

theorem Posed.least {c1 c2 e2 : Chain K} {g : Vec6 K} {v a y τ : List K} (hp : Posed c1) (hm : ∀ l ∈ c1.link, Physical l.body.mp)
    (hv : v.length = jointSize c1.link) (ha : a.length = jointSize c1.link) (hy : y.length = jointSize c1.link)
    (h2 : c1.invDyn g v a = some c2) (h3 : c1.invDyn g v y = some e2) (ht : torques c2 = some τ) :
    constraint c2 τ a ≤ constraint e2 τ y := by
  have hx : (List.zipWith (· - ·) y a).length = jointSize c1.link := by simp [ha, hy]
  obtain ⟨d2, h4⟩ := hp.invDyn 0 hx hx
  rw [← zipWith_add_sub ha hy] at h3
  obtain ⟨τ', t1, t2, key⟩ := hp.constraint_of (fun l hl => (hm l hl).symm) hv ha hx hx h2 h3 h4
  rw [ht, Option.some.injEq] at t1
  subst t1
  have := key τ t2
  rw [zipWith_add_sub ha hy] at this
  have := hp.kinetic_nonneg hm hx hx h4
  linarith

/-- The kinetic energy is quadratic in the velocities. -/
theorem Posed.kinetic_scale {c1 d2 e2 : Chain K} {x : List K} (t : K) (hp : Posed c1) (hx : x.length = jointSize c1.link)
    (h4 : c1.invDyn 0 x (List.replicate (jointSize c1.link) 0) = some d2)
    (h5 : c1.invDyn 0 (x.map (t * ·)) (List.replicate (jointSize c1.link) 0) = some e2) :
    (e2.link.map fun l => kinetic l l / 2).sum = t * t * (d2.link.map fun l => kinetic l l / 2).sum := by
  have h0 : (List.replicate (jointSize c1.link) (0 : K)).length = jointSize c1.link := by simp
  obtain ⟨z2, h6⟩ := hp.invDyn 0 h0 h0
  obtain ⟨la, A, rA⟩ := hp.run (by simpa using hx) h0 h5
  obtain ⟨lb, B, rB⟩ := hp.run hx h0 h4
  obtain ⟨lc, C, rC⟩ := hp.run h0 h0 h6
  have rA' : IDRun c1 e2 ((t * t) • (0 : Vec6 K)) (x.map (t * ·)) (List.zipWith (fun x y => t * t * x + y)
      (List.replicate (jointSize c1.link) 0) (List.replicate (jointSize c1.link) 0)) la A := by
    simpa only [smul_zero, List.zipWith_replicate, min_self, mul_zero, add_zero] using rA
  have n1 : e2.link.length = d2.link.length := rA.len2.trans rB.len2.symm
  rw [← List.sum_map_mul_left]
  congr 1
  refine List.ext_getElem (by simpa using n1) fun i hi hj => ?_
  simp only [List.length_map] at hi hj
  simp only [List.getElem_map]
  have hk : i < z2.link.length := by rw [rC.len2, ← rB.len2]; exact hj
  have l1 := List.getElem?_eq_getElem hi
  have l2 := List.getElem?_eq_getElem hj
  have l3 := List.getElem?_eq_getElem hk
  have r := rate_affine rA' rB rC rfl rfl rfl rfl l1 l2 l3
  have s1 := forall_zip_statics (rA.stat2.trans rB.stat2.symm) l1 l2
  revert r s1
  generalize e2.link[i] = l; generalize d2.link[i] = m; generalize z2.link[i] = n
  intro r s1
  obtain ⟨-, -, -, f1, p1⟩ := statics_iff.1 s1
  have v1 : angVel l = t • angVel m := by simp only [angVel, r.1, ← f1]; rw [← Mat3.mulVec_smul]; rfl
  have v2 : comVel l = t • comVel m := by
    simp only [comVel, r.1, ← f1, ← p1]; rw [← Mat3.mulVec_smul]; congr 1; vec_ring
  have w1 : worldInertia l = worldInertia m := by simp only [worldInertia, f1, p1]
  have m1 : mass l = mass m := by simp only [mass, p1]
  simp only [kinetic, v1, v2, w1, m1, Mat3.mulVec_smul, dot_smul_left, dot_smul_right]
  ring

/-- The torques for which given accelerations are of least constraint. -/
theorem Posed.only {c1 c2 : Chain K} {g : Vec6 K} {v a trq : List K} (hp : Posed c1) (hm : ∀ l ∈ c1.link, Physical l.body.mp)
    (hv : v.length = jointSize c1.link) (ha : a.length = jointSize c1.link) (htr : trq.length = jointSize c1.link)
    (h2 : c1.invDyn g v a = some c2)
    (hmin : ∀ (y : List K) (e2 : Chain K), y.length = jointSize c1.link → c1.invDyn g v y = some e2 →
      constraint c2 trq a ≤ constraint e2 trq y) : torques c2 = some trq := by
  obtain ⟨ls, T, r⟩ := hp.run hv ha h2
  obtain ⟨t1, t2⟩ := r.torques hp
  rw [t1, Option.some.injEq]
  revert t1 t2
  generalize (c2.link.map fun l => l.joint.prp.getTrq).flatten = τ
  intro t1 t2
  have h0 : (List.replicate (jointSize c1.link) (0 : K)).length = jointSize c1.link := by simp
  refine List.ext_getElem (t2.trans htr.symm) fun k hk hk' => ?_
  have hkn : k < jointSize c1.link := t2 ▸ hk
  have hu := unitVec_length (K := K) (jointSize c1.link) k
  obtain ⟨d2, h4⟩ := hp.invDyn 0 hu h0
  have hQ := hp.kinetic_nonneg hm hu h0 h4
  set Q := (d2.link.map fun l => kinetic l l / 2).sum with hQd
  set A := τ[k] - trq[k] with hA
  have key : ∀ t : K, 0 ≤ t * A + t * t * Q := by
    intro t
    have hxt : ((unitVec (jointSize c1.link) k : List K).map (t * ·)).length = jointSize c1.link := by simpa using hu
    obtain ⟨e2, h5⟩ := hp.invDyn 0 hxt h0
    have hz : (List.zipWith (· + ·) a ((unitVec (jointSize c1.link) k : List K).map (t * ·))).length = jointSize c1.link := by
      simp [ha, hu]
    obtain ⟨f2, h3⟩ := hp.invDyn g hv hz
    obtain ⟨τ', t1', -, hc⟩ := hp.constraint_of (fun l hl => (hm l hl).symm) hv ha hxt h0 h2 h3 h5
    rw [t1, Option.some.injEq] at t1'
    subst t1'
    have e := hc trq htr
    rw [hp.kinetic_scale t hu h4 h5, ← hQd] at e
    have hw : ∀ s : List K, s.length = jointSize c1.link →
        Spec.work s ((unitVec (jointSize c1.link) k : List K).map (t * ·)) = t * s.getD k 0 := by
      intro s hsl
      rw [← work_unitVec hsl hkn]
      exact work_smul_right t s _
    rw [hw τ t2, hw trq htr] at e
    have := hmin _ f2 hz h3
    have g1 : τ.getD k 0 = τ[k] := by simp [List.getD, hk]
    have g2 : trq.getD k 0 = trq[k] := by simp [List.getD, hk']
    rw [g1, g2] at e
    rw [hA]
    linarith
  have h1 : 0 < Q + 1 := by linarith
  have := key (-A / (Q + 1))
  have e : -A / (Q + 1) * A + -A / (Q + 1) * (-A / (Q + 1)) * Q = -(A / (Q + 1)) ^ 2 := by field_simp; ring
  rw [e] at this
  have hz : A / (Q + 1) = 0 := by
    have := sq_nonneg (A / (Q + 1))
    exact pow_eq_zero_iff (two_ne_zero) |>.1 (by linarith)
  have : A = 0 := by
    rcases div_eq_zero_iff.1 hz with h | h
    · exact h
    · linarith
  linarith

section
variable {c c1 : Chain K} (h : c.WF) (hr : ∀ l ∈ c.link, l.org.att.IsRot ∧ l.joint.prp.WF)
  (ho : setOffset c.link = c.link) (h1 : c.updateFK = some c1) (hm : ∀ l ∈ c.link, Physical l.body.mp)
  (g : Vec6 K) (vel acc : List K) (hv : vel.length = jointSize c.link) (ha : acc.length = jointSize c.link)
include h hr ho h1 hm hv ha

/-- **C136** (Gauss) For every chain, whatever its joints, let `τ` be the torques that inverse dynamics computes for the joint
accelerations `acc`.  Under these torques, and from the same state, no joint accelerations have a smaller constraint than `acc`. -/
theorem C136_least_constraint (c2 d2 : Chain K) (τ acc' : List K) (ha' : acc'.length = jointSize c.link)
    (h2 : c1.invDyn g vel acc = some c2) (h3 : c1.invDyn g vel acc' = some d2) (ht : torques c2 = some τ) :
    constraint c2 τ acc ≤ constraint d2 τ acc' := by
  obtain ⟨hp, hz⟩ := posed_of_fk h hr ho h1
  rw [← hz] at hv ha ha'
  exact hp.least (forall_of_map_eq (fun l : Link K => l.body.mp) Physical (mp_fk h hr ho h1) hm) hv ha ha' h2 h3 ht

/-- **C136** If the masses are positive and the inertia tensors are positive definite, all other joint accelerations have a larger
constraint. -/
theorem C136_least_constraint_strict (hpos : ∀ l ∈ c.link, 0 < mass l)
    (hI : ∀ l ∈ c.link, ∀ w : Vec3 K, w ≠ 0 → 0 < dot w (l.body.mp.inertia.mulVec w))
    (c2 d2 : Chain K) (τ acc' : List K) (ha' : acc'.length = jointSize c.link)
    (h2 : c1.invDyn g vel acc = some c2) (h3 : c1.invDyn g vel acc' = some d2) (ht : torques c2 = some τ) (hne : acc' ≠ acc) :
    constraint c2 τ acc < constraint d2 τ acc' := by
  obtain ⟨hp, hz⟩ := posed_of_fk h hr ho h1
  have hm1 : ∀ l ∈ c1.link, Physical l.body.mp :=
    forall_of_map_eq (fun l : Link K => l.body.mp) Physical (mp_fk h hr ho h1) hm
  have hx : (List.zipWith (· - ·) acc' acc).length = jointSize c.link := by simp [ha, ha']
  obtain ⟨d, h4⟩ := hp.invDyn 0 (hx.trans hz.symm) (hx.trans hz.symm)
  have h3' := h3
  rw [← zipWith_add_sub ha ha'] at h3
  obtain ⟨τ', t1, t2, key⟩ := hp.constraint_of (fun l hl => (hm1 l hl).symm) (hv.trans hz.symm) (ha.trans hz.symm) (hx.trans hz.symm)
    (hx.trans hz.symm) h2 h3 h4
  rw [ht, Option.some.injEq] at t1
  subst t1
  have e := key τ t2
  rw [zipWith_add_sub ha ha'] at e
  have hk := C95_inertia_definite c c1 h hr ho h1 hpos hI _ hx (by
    by_contra hcon
    push Not at hcon
    apply hne
    rw [← zipWith_add_sub ha ha']
    apply List.ext_getElem?
    intro i
    by_cases hi : i < jointSize c.link
    · have hi1 : i < (List.zipWith (· - ·) acc' acc).length := hx ▸ hi
      have := hcon _ (List.getElem_mem hi1)
      rw [List.getElem?_zipWith, List.getElem?_eq_getElem hi1, this, List.getElem?_eq_getElem (ha ▸ hi)]
      simp
    · rw [List.getElem?_zipWith, List.getElem?_eq_none (l := acc) (by omega)])
  rw [← kinetic_sum h hr ho h1 hx hx hx hx h4 h4] at hk
  have : (d.link.map fun l => kinetic l l / 2).sum = (List.zipWith kinetic d.link d.link).sum / 2 := by
    generalize d.link = L
    induction L with
    | nil => simp
    | cons l L ih => simp only [List.map_cons, List.sum_cons, List.zipWith_cons_cons, ih]; ring
  rw [this] at e
  linarith

/-- **C136** Conversely, the torques of inverse dynamics are the only ones under which `acc` has the least constraint. -/
theorem C136_only_torques (c2 : Chain K) (τ : List K) (hτ : τ.length = jointSize c.link) (h2 : c1.invDyn g vel acc = some c2) :
    torques c2 = some τ ↔ ∀ (acc' : List K) (d2 : Chain K), acc'.length = jointSize c.link → c1.invDyn g vel acc' = some d2 →
      constraint c2 τ acc ≤ constraint d2 τ acc' := by
  constructor
  · intro ht acc' d2 ha' h3
    exact C136_least_constraint h hr ho h1 hm g vel acc hv ha c2 d2 τ acc' ha' h2 h3 ht
  · intro hmin
    obtain ⟨hp, hz⟩ := posed_of_fk h hr ho h1
    rw [← hz] at hv ha hτ hmin
    exact hp.only (forall_of_map_eq (fun l : Link K => l.body.mp) Physical (mp_fk h hr ho h1) hm) hv ha hτ h2 hmin

end

section
variable [Zm K] [LawfulZm K] (c c1 : Chain K) (fx : Bool) (dis vel acc acc' : List K) (tol : K) (h : c.WF)
  (ho : setOffset c.link = c.link) (hv : vel.length = jointSize c.link) (ha : acc.length = jointSize c.link)
  (horg : ∀ l ∈ c.link, l.org.att.IsRot) (htol : ∀ x : K, tol < x → Zm.tiny x = false)
  (hm : ∀ l ∈ c.link, l.abi.m = Link.abiInertia l.body.mp ∧ Physical l.body.mp ∧ Heavy tol l ∧ l.abi.wlist = [])
  (hroot : ∀ l, c.link[0]? = some l → l.joint.prp.ABIRootGood)
  (hgood : ∀ (i : ℕ) (l : Link K), c.link[i + 1]? = some l → l.joint.prp.ABIGood)
  (hfx : fx = true → ∀ l ∈ c.link, ∀ p, l.joint.prp ≠ .brfloat p)
  (e : c.abi fx dis vel acc = some (c1, some acc'))
  (hf : ∀ l ∈ c1.link, ∀ d, l.joint.prp = .float d ∨ l.joint.prp = .brfloat d → cross d.vel.lin d.vel.ang = 0)
include h ho hv ha horg htol hm hroot hgood hfx e hf

/-- **C136** Forward dynamics obeys Gauss's principle: the joint accelerations that `rkChainABI` returns have the least constraint of all,
under the torques that motors and friction apply, and if every link has a positive mass and a positive definite inertia tensor they are the only
ones.  `d2` is the state of the chain with the joint accelerations `x`, as `rkChainID` sets it.

Missing from the full property: what is missing from `C96_equation_of_motion_partial`. -/
theorem C136_simulated_partial (x : List K) (c2 d2 : Chain K) (hx : x.length = jointSize c.link)
    (h2 : c1.invDyn ⟨⟨0, 0, rkG⟩, 0⟩ vel acc' = some c2) (h3 : c1.invDyn ⟨⟨0, 0, rkG⟩, 0⟩ vel x = some d2) :
    let τ := (c1.link.map fun l => appliedTrq l.joint.prp).flatten
    constraint c2 τ acc' ≤ constraint d2 τ x ∧
      ((∀ l ∈ c.link, 0 < mass l) → (∀ l ∈ c.link, ∀ w : Vec3 K, w ≠ 0 → 0 < dot w (l.body.mp.inertia.mulVec w)) → x ≠ acc' →
        constraint c2 τ acc' < constraint d2 τ x) := by
  intro τ
  obtain ⟨β, hb, nb, na, key⟩ := C96_equation_of_motion_partial c c1 fx dis vel acc acc' tol h ho hv ha horg htol hm hroot hgood hfx e hf
  have hr := C96_regular c c1 fx dis vel acc acc' tol h htol (fun l hl => ⟨(hm l hl).1, (hm l hl).2.1, (hm l hl).2.2.1⟩)
    hroot hgood hfx e
  obtain ⟨U, -, w1, -, -, -, -, -, hfix, -, -⟩ := abi_state h ho (fun l hl => ⟨(hm l hl).1, (hm l hl).2.1.symm⟩)
    hroot hgood e hr
  obtain ⟨d, d1, wd, rd, od, fd, zd, hp, st, sh⟩ := abi_posed h ho horg e w1
  have hz1 : jointSize c1.link = jointSize c.link := by
    obtain ⟨hpd, hzd⟩ := posed_of_fk wd rd od fd
    rw [← zd, ← hzd, jointSize_eq, jointSize_eq, (offsets_of_statics st 0 hpd.off).2]
  have hmp : ∀ l ∈ c1.link, Physical l.body.mp := by
    have a2 := congrArg (List.map fun s => s.1) hfix
    simp only [List.map_map] at a2
    exact forall_of_map_eq (fun l : Link K => l.body.mp) Physical a2 fun l hl => (hm l hl).2.1
  have hm' : ∀ l ∈ c.link, l.abi.m = Link.abiInertia l.body.mp ∧ l.body.mp.inertia.Symm ∧ l.abi.wlist = [] :=
    fun l hl => ⟨(hm l hl).1, (hm l hl).2.1.symm, (hm l hl).2.2.2⟩
  have hfx' : fx = true → ∀ l ∈ c1.link, ∀ d, l.joint.prp ≠ .brfloat d := fun hx =>
    forall_of_map_eq (fun l : Link K => ∀ p, l.joint.prp ≠ .brfloat p) (fun P => P) (abi_noBreak h e) (hfx hx)
  obtain ⟨c2', e2, hl⟩ := C26_inverse_of_forward_partial c c1 fx dis vel acc acc' h ho hv ha hm' hroot hgood e hr hfx' hf
  have hc2 : c2' = c2 := by
    have := e2.symm.trans h2; simpa using this
  subst hc2
  have hv1 := hv.trans hz1.symm
  have na1 := na.trans hz1.symm
  have hx1 := hx.trans hz1.symm
  obtain ⟨ls, T, r⟩ := hp.run hv1 na1 h2
  have hτ : torques c2' = some τ := by
    rw [(r.torques hp).1, Option.some.injEq]
    congr 1
    apply List.ext_getElem?
    intro i
    rw [List.getElem?_map, List.getElem?_map]
    cases h1 : c1.link[i]? with
    | none =>
      have : c2'.link[i]? = none := List.getElem?_eq_none (by rw [r.len2]; exact List.getElem?_eq_none_iff.1 h1)
      rw [this]; rfl
    | some l1 =>
      have hi : i < c2'.link.length := by rw [r.len2]; exact (List.getElem?_eq_some_iff.1 h1).1
      rw [List.getElem?_eq_getElem hi]
      simp only [Option.map_some, Option.some.injEq]
      exact (hl i l1 _ h1 (List.getElem?_eq_getElem hi)).1
  have nτ : τ.length = jointSize c1.link := by
    have := (r.torques hp).1.symm.trans hτ
    rw [Option.some.injEq] at this
    rw [← this]; exact (r.torques hp).2
  have hle : ∀ (y : List K) (f2 : Chain K), y.length = jointSize c1.link → c1.invDyn ⟨⟨0, 0, rkG⟩, 0⟩ vel y = some f2 →
      constraint c2' τ acc' ≤ constraint f2 τ y := fun y f2 hy hf2 => hp.least hmp hv1 na1 hy h2 hf2 hτ
  refine ⟨hle x d2 hx1 h3, fun hpos hI hne => ?_⟩
  by_contra hcon
  have heq : constraint c2' τ acc' = constraint d2 τ x := le_antisymm (hle x d2 hx1 h3) (not_lt.1 hcon)
  have ht2 := hp.only hmp hv1 hx1 nτ h3 fun y f2 hy hf2 => heq ▸ hle y f2 hy hf2
  apply hne
  refine (C96_unique_partial c c1 fx dis vel acc acc' tol h ho hv ha horg htol hm hroot hgood hfx e hf hpos hI β x hb hx).1 ?_
  obtain ⟨τ', β', e3, e4, n3, n4, k2⟩ := inertia_affine wd rd od fd hp st sh ⟨⟨0, 0, rkG⟩, 0⟩ vel x
    (hv.trans zd.symm) (hx.trans zd.symm)
  rw [zd] at e4 k2
  rw [idTorque, h3, Option.bind_some, ht2, Option.some.injEq] at e3
  rw [hb, Option.some.injEq] at e4
  subst e3; subst e4
  intro k hk
  rw [k2 k hk]
  congr 1
  refine Finset.sum_congr rfl fun j _ => ?_
  rw [jointInertia_congr st sh]

end

end

/-- `Sample.arm` in motion meets the hypotheses (see the examples of C93, C95 and C96); under the torques for the accelerations 1 and 1 the
constraint of the accelerations 1 and 0 is larger by 1. -/
example : (Sample.arm.updateFK.bind fun c1 => (c1.invDyn ⟨⟨0, 0, rkG⟩, 0⟩ [1, 2] [1, 1]).bind fun c2 => (torques c2).bind fun τ =>
    (c1.invDyn ⟨⟨0, 0, rkG⟩, 0⟩ [1, 2] [1, 0]).map fun d2 => constraint d2 τ [1, 0] - constraint c2 τ [1, 1]) = some 1 := by
  decide +kernel

end Roki
