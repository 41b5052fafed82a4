import Verif.Lemmas.VirtualWork5

/-!
# Inverse dynamics as generalised forces

C86 virtual work, C87 joint-space inertia, C88 external wrenches, C89 gravity, C90 time scaling.
-/

namespace Roki
set_option autoImplicit false
set_option linter.unusedSectionVars false
open Spec LinkArray
variable {K : Type*} [Field K]

/-! ## C86 -/

/-- **C86** (d'Alembert) At a pose reached by forward kinematics, the work of the joint torques of
inverse dynamics on any joint velocities `u` is the work of the rates of change of momentum of all
links, less the work of the external wrenches, on the link velocities that belong to `u`. -/
theorem C86_virtual_work (c c1 c2 d2 : Chain K) (g g' : Vec6 K) (vel acc u b : List K) (h : c.WF)
    (hr : ∀ l ∈ c.link, l.org.att.IsRot ∧ l.joint.prp.WF) (ho : setOffset c.link = c.link)
    (hv : vel.length = jointSize c.link) (ha : acc.length = jointSize c.link)
    (hu : u.length = jointSize c.link) (hb : b.length = jointSize c.link)
    (h1 : c.updateFK = some c1) (h2 : c1.invDyn g vel acc = some c2) (h3 : c1.invDyn g' u b = some d2) :
    ∃ τ, torques c2 = some τ ∧ τ.length = jointSize c.link ∧
      work τ u = (List.zipWith inertialWork c2.link d2.link).sum -
        (List.zipWith extWork c2.link d2.link).sum := by
  obtain ⟨hp, hz⟩ := posed_of_fk h hr ho h1
  rw [← hz] at hv ha hu hb
  obtain ⟨ls, T, r⟩ := hp.run hv ha h2
  obtain ⟨ms, U, r'⟩ := hp.run hu hb h3
  rw [← hz]
  exact virtual_work hp r r' rfl rfl

/-! ## Velocities by columns of the Jacobians -/

theorem fsum_dot {ι : Type*} (s : Finset ι) (f : ι → Vec3 K) (v : Vec3 K) :
    dot (∑ i ∈ s, f i) v = ∑ i ∈ s, dot (f i) v := by
  classical
  induction s using Finset.induction_on with
  | empty => simp only [Finset.sum_empty]; vec_ring
  | insert a s ha ih => rw [Finset.sum_insert ha, Finset.sum_insert ha, dot_add_left, ih]

theorem dot_fsum {ι : Type*} (s : Finset ι) (f : ι → Vec3 K) (v : Vec3 K) :
    dot v (∑ i ∈ s, f i) = ∑ i ∈ s, dot v (f i) := by
  classical
  induction s using Finset.induction_on with
  | empty => simp only [Finset.sum_empty]; vec_ring
  | insert a s ha ih => rw [Finset.sum_insert ha, Finset.sum_insert ha, dot_add_right, ih]

theorem mulVec_fsum {ι : Type*} (s : Finset ι) (f : ι → Vec3 K) (M : Mat3 K) :
    M.mulVec (∑ i ∈ s, f i) = ∑ i ∈ s, M.mulVec (f i) := by
  classical
  induction s using Finset.induction_on with
  | empty => simp only [Finset.sum_empty]; vec_ring
  | insert a s ha ih => rw [Finset.sum_insert ha, Finset.sum_insert ha, Mat3.mulVec_add, ih]

theorem zipWith_sum_add {α β γ δ M : Type*} [AddCommMonoid M] {f : α → δ → M} {g : β → δ → M} {h : γ → δ → M}
    {l1 : List α} {l2 : List β} {l3 : List γ} {l4 : List δ} (e2 : l2.length = l1.length) (e3 : l3.length = l1.length)
    (H : ∀ (i : ℕ) (a : α) (b : β) (c : γ) (d : δ), l1[i]? = some a → l2[i]? = some b → l3[i]? = some c →
      l4[i]? = some d → f a d = g b d + h c d) :
    (List.zipWith f l1 l4).sum = (List.zipWith g l2 l4).sum + (List.zipWith h l3 l4).sum := by
  induction l1 generalizing l2 l3 l4 with
  | nil =>
    rw [List.length_eq_zero_iff.1 e2, List.length_eq_zero_iff.1 e3]; simp
  | cons a l1 ih =>
    rcases l2 with _ | ⟨b, l2⟩
    · simp at e2
    rcases l3 with _ | ⟨c, l3⟩
    · simp at e3
    rcases l4 with _ | ⟨d, l4⟩
    · simp
    simp only [List.zipWith_cons_cons, List.sum_cons]
    rw [H 0 a b c d rfl rfl rfl rfl, ih (l2 := l2) (l3 := l3) (l4 := l4) (by simpa using e2) (by simpa using e3)
      (fun i a b c d h1 h2 h3 h4 => H (i + 1) a b c d h1 h2 h3 h4)]
    ac_rfl

theorem sum_zipWith_add {p q : List K} (h : p.length = q.length) :
    (List.zipWith (· + ·) p q).sum = p.sum + q.sum := by
  induction p generalizing q with
  | nil => rw [List.length_eq_zero_iff.1 h.symm]; simp
  | cons a p ih =>
    rcases q with _ | ⟨b, q⟩
    · simp at h
    simp only [List.zipWith_cons_cons, List.sum_cons, ih (by simpa using h)]
    ring

theorem extWork_congr {l1 l2 l3 : List (Link K)}
    (h1 : (l1.map fun l => l.body.extw) = l2.map fun l => l.body.extw) (h2 : l1.map statics = l2.map statics) :
    List.zipWith extWork l1 l3 = List.zipWith extWork l2 l3 := by
  induction l1 generalizing l2 l3 with
  | nil => cases l2 <;> simp_all
  | cons a l1 ih =>
    rcases l2 with _ | ⟨b, l2⟩
    · simp at h1
    rcases l3 with _ | ⟨d, l3⟩
    · simp
    simp only [List.map_cons, List.cons.injEq] at h1 h2
    rw [List.zipWith_cons_cons, List.zipWith_cons_cons, ih h1.2 h2.2, extWork, extWork, h1.1,
      (statics_iff.1 h2.1).2.2.2.1]

theorem dot_fsum_fsum (s : Finset ℕ) (x u : ℕ → K) (A B : ℕ → Vec3 K) :
    dot (∑ j ∈ s, x j • A j) (∑ k ∈ s, u k • B k) =
      ∑ k ∈ s, ∑ j ∈ s, u k * (dot (A j) (B k) * x j) := by
  rw [dot_fsum]
  refine Finset.sum_congr rfl fun k _ => ?_
  rw [fsum_dot]
  refine Finset.sum_congr rfl fun j _ => ?_
  rw [dot_smul_left, dot_smul_right]
  ring

section
variable {c c1 : Chain K} (h : c.WF) (hr : ∀ l ∈ c.link, l.org.att.IsRot ∧ l.joint.prp.WF)
    (ho : setOffset c.link = c.link) (h1 : c.updateFK = some c1)
include h hr ho h1

theorem vel_columns {g : Vec6 K} {u b : List K} (hu : u.length = jointSize c.link) {d2 : Chain K}
    (h2 : c1.invDyn g u b = some d2) {i : ℕ} {m : Link K} (hm : d2.link[i]? = some m) :
    angVel m = ∑ j ∈ Finset.range (jointSize c.link), u.getD j 0 • angColumn c1 i j ∧
    ∀ p, pointVelocity m p = ∑ j ∈ Finset.range (jointSize c.link), u.getD j 0 • linColumn c1 i p j := by
  obtain ⟨hp, hz⟩ := posed_of_fk h hr ho h1
  constructor
  · obtain ⟨J, e, n, hJ⟩ := C10_angular_jacobian c c1 d2 g u b h hr ho hu h1 h2
      (List.replicate (jointSize c1.link) 0) (by simp [hz]) i m hm
    rw [← hJ, jacMul_eq_sum (by rw [n]; simp [hz]) hu]
    simp only [angColumn, e, Option.getD_some]
  · intro p
    obtain ⟨J, e, n, hJ⟩ := C11_linear_jacobian c c1 d2 g u b h hr ho hu h1 h2
      (List.replicate (jointSize c1.link) 0) (by simp [hz]) i m hm p
    rw [← hJ, jacMul_eq_sum (by rw [n]; simp [hz]) hu]
    simp only [linColumn, e, Option.getD_some]

theorem kinetic_sum {g g' : Vec6 K} {x y u b : List K} (hx : x.length = jointSize c.link)
    (hy : y.length = jointSize c.link)
    (hu : u.length = jointSize c.link) (hb : b.length = jointSize c.link) {c2 d2 : Chain K} (h2 : c1.invDyn g x y = some c2)
    (h3 : c1.invDyn g' u b = some d2) :
    (List.zipWith kinetic c2.link d2.link).sum =
      ∑ k ∈ Finset.range (jointSize c.link), u.getD k 0 *
        ∑ j ∈ Finset.range (jointSize c.link), jointInertia c1 k j * x.getD j 0 := by
  obtain ⟨hp, hz⟩ := posed_of_fk h hr ho h1
  obtain ⟨_, _, r⟩ := hp.run (by rw [hz, hx]) (by rw [hz, hy]) h2
  obtain ⟨_, _, r'⟩ := hp.run (by rw [hz, hu]) (by rw [hz, hb]) h3
  set n := jointSize c.link with hn
  have key : (List.zipWith kinetic c2.link d2.link).sum = ∑ i ∈ Finset.range c2.link.length,
      ∑ k ∈ Finset.range n, ∑ j ∈ Finset.range n, u.getD k 0 * (linkInertia c1 i k j * x.getD j 0) := by
    refine zipWith_sum_range (r.len2.trans r'.len2.symm) ?_
    intro i a m ha hm
    have hi : i < c1.link.length := by rw [← r.len2]; exact (List.getElem?_eq_some_iff.1 ha).1
    have hl : c1.link[i]? = some c1.link[i] := List.getElem?_eq_getElem hi
    generalize c1.link[i] = l at hl
    obtain ⟨-, -, -, f1, p1⟩ := statics_iff.1 (forall_zip_statics r.stat2 ha hl)
    obtain ⟨-, -, -, f2, p2⟩ := statics_iff.1 (forall_zip_statics r'.stat2 hm hl)
    obtain ⟨w1, v1⟩ := vel_columns h hr ho h1 hx h2 ha
    obtain ⟨w2, v2⟩ := vel_columns h hr ho h1 hu h3 hm
    have e1 : comVel a = pointVelocity a l.body.mp.com := by rw [← p1]; rfl
    have e2 : comVel m = pointVelocity m l.body.mp.com := by rw [← p2]; rfl
    have e3 : mass a = mass l := by simp only [mass, p1]
    have e4 : worldInertia a = worldInertia l := by simp only [worldInertia, f1, p1]
    simp only [kinetic, e1, e2, e3, e4, w1, w2, v1, v2, linkInertia, hl]
    rw [dot_comm (∑ j ∈ _, _ • angColumn c1 i j), mulVec_fsum]
    simp only [Mat3.mulVec_smul]
    rw [dot_fsum_fsum, dot_fsum_fsum, Finset.mul_sum, ← Finset.sum_add_distrib]
    refine Finset.sum_congr rfl fun k _ => ?_
    rw [Finset.mul_sum, ← Finset.sum_add_distrib]
    refine Finset.sum_congr rfl fun j _ => ?_
    rw [dot_comm (linColumn c1 i l.body.mp.com j), dot_comm (angColumn c1 i k)]
    ring
  rw [key, Finset.sum_comm]
  refine Finset.sum_congr rfl fun k _ => ?_
  rw [Finset.sum_comm, Finset.mul_sum]
  refine Finset.sum_congr rfl fun j _ => ?_
  rw [jointInertia, ← Finset.mul_sum, ← Finset.sum_mul, r.len2]

/-! ## C87 -/

/-- The torques are affine in the accelerations: for every chain with the statics of `c1`. -/
theorem inertia_affine {d : Chain K} (hd : Posed d) (hst : d.link.map statics = c1.link.map statics)
    (hsh : d.shape = c1.shape) (g : Vec6 K) (vel acc : List K)
    (hv : vel.length = jointSize c.link) (ha : acc.length = jointSize c.link) :
    ∃ τ β, idTorque g vel acc d = some τ ∧
      idTorque g vel (List.replicate (jointSize c.link) 0) d = some β ∧
      τ.length = jointSize c.link ∧ β.length = jointSize c.link ∧
      ∀ k < jointSize c.link, τ.getD k 0 = β.getD k 0 +
        ∑ j ∈ Finset.range (jointSize c.link), jointInertia c1 k j * acc.getD j 0 := by
  obtain ⟨hp, hz⟩ := posed_of_fk h hr ho h1
  have hzd : jointSize d.link = jointSize c.link := by
    rw [← hz, jointSize_eq, jointSize_eq, (offsets_of_statics hst 0 hp.off).2]
  set n := jointSize c.link with hn
  set z : List K := List.replicate n 0 with hz0
  have hzl : z.length = n := by simp [hz0]
  obtain ⟨a2, la, A, τ, -, rA, eA, nA, wA⟩ := hd.work hp (g := g) hst hsh.symm (hv.trans hzd.symm) (ha.trans hzd.symm)
  obtain ⟨b2, lb, B, β, -, rB, eB, nB, wB⟩ := hd.work hp (g := g) hst hsh.symm (hv.trans hzd.symm) (hzl.trans hzd.symm)
  refine ⟨τ, β, eA, eB, nA.trans hzd, nB.trans hzd, ?_⟩
  intro k hk
  obtain ⟨x2, hx2⟩ := hp.invDyn 0 (ha.trans hz.symm) (hzl.trans hz.symm)
  obtain ⟨lx, X, rX⟩ := hp.run (ha.trans hz.symm) (hzl.trans hz.symm) hx2
  have hul : (unitVec n k : List K).length = n := unitVec_length n k
  obtain ⟨u2, hu2⟩ := hp.invDyn 0 (hul.trans hz.symm) (hzl.trans hz.symm)
  obtain ⟨lu, U, rU⟩ := hp.run (hul.trans hz.symm) (hzl.trans hz.symm) hu2
  rw [← work_unitVec (nA.trans hzd) hk, ← work_unitVec (nB.trans hzd) hk,
    wA (hul.trans hz.symm) (hzl.trans hz.symm) hu2, wB (hul.trans hz.symm) (hzl.trans hz.symm) hu2]
  have hK := kinetic_sum h hr ho h1 ha hzl hul hzl hx2 hu2
  rw [← hn] at hK
  have hK' : (List.zipWith kinetic x2.link u2.link).sum =
      ∑ j ∈ Finset.range n, jointInertia c1 k j * acc.getD j 0 := by
    rw [hK]
    simp only [unitVec_getD n k _ hk, ite_mul, one_mul, zero_mul]
    rw [Finset.sum_ite_eq' (Finset.range n) k, if_pos (Finset.mem_range.2 hk)]
  rw [← hK']
  have hsAB : a2.link.map statics = b2.link.map statics := rA.stat2.trans rB.stat2.symm
  have hsAX : a2.link.map statics = x2.link.map statics := rA.stat2.trans (hst.trans rX.stat2.symm)
  have hsAU : a2.link.map statics = u2.link.map statics := rA.stat2.trans (hst.trans rU.stat2.symm)
  have hlAX : x2.link.length = a2.link.length := by simpa using (congrArg List.length hsAX).symm
  have hI : (List.zipWith inertialWork a2.link u2.link).sum =
      (List.zipWith inertialWork b2.link u2.link).sum + (List.zipWith kinetic x2.link u2.link).sum := by
    refine zipWith_sum_add (rB.len2.trans rA.len2.symm) hlAX ?_
    intro i a b x u hia hib hix hiu
    have rA' : IDRun d a2 (((1 : K) * 1) • g) (vel.map (1 * ·))
        (List.zipWith (fun x y => (1 : K) * 1 * x + y) z acc) la A := by
      have e1 : vel.map ((1 : K) * ·) = vel := by simp
      have e2 : List.zipWith (fun x y => (1 : K) * 1 * x + y) z acc = acc := by
        apply List.ext_getElem
        · simp [hzl, ha]
        · intro i h1 h2; simp [hz0]
      rw [e1, e2, mul_one, one_smul]; exact rA
    have hR := rate_affine rA' rB rX rfl hst rfl hsh.symm hia hib hix
    rw [inertialWork_affine hR (forall_zip_statics hsAB hia hib) (forall_zip_statics hsAX hia hix)
      (forall_zip_statics hsAU hia hiu)]
    ring
  have hE : (List.zipWith extWork a2.link u2.link).sum = (List.zipWith extWork b2.link u2.link).sum := by
    rw [extWork_congr (rA.ext2.trans rB.ext2.symm) hsAB]
  rw [hI, hE]
  ring

/-- **C87** The joint torques depend on the joint accelerations by the joint-space inertia: whatever
the gravity, the joint velocities and the external wrenches, the torques for the accelerations `acc`
are those for zero accelerations plus `jointInertia` times `acc`. -/
theorem C87_inertia_affine (e : ℕ → WrenchList K) (g : Vec6 K) (vel acc : List K)
    (hv : vel.length = jointSize c.link) (ha : acc.length = jointSize c.link) :
    ∃ τ β, idTorque g vel acc (withExt e c1) = some τ ∧
      idTorque g vel (List.replicate (jointSize c.link) 0) (withExt e c1) = some β ∧
      τ.length = jointSize c.link ∧ β.length = jointSize c.link ∧
      ∀ k < jointSize c.link, τ.getD k 0 = β.getD k 0 +
        ∑ j ∈ Finset.range (jointSize c.link), jointInertia c1 k j * acc.getD j 0 := by
  obtain ⟨hp, -⟩ := posed_of_fk h hr ho h1
  exact inertia_affine h hr ho h1 (hp.withExt e) (statics_withExt e c1) rfl g vel acc hv ha

theorem mp_fk : c1.link.map (fun l => l.body.mp) = c.link.map fun l => l.body.mp :=
  (ZTK.updateFK_map _ (fun _ _ => rfl) h1).1

/-- **C87** The joint-space inertia is symmetric when the inertia tensors of the links are. -/
theorem C87_inertia_symmetric (hI : ∀ l ∈ c.link, l.body.mp.inertia.tr = l.body.mp.inertia) (j k : ℕ) :
    jointInertia c1 j k = jointInertia c1 k j := by
  have hI1 : ∀ l ∈ c1.link, l.body.mp.inertia.tr = l.body.mp.inertia := by
    intro l hl
    have : l.body.mp ∈ c.link.map fun l => l.body.mp := by
      rw [← mp_fk h hr ho h1]; exact List.mem_map.2 ⟨l, hl, rfl⟩
    obtain ⟨m, hm, e⟩ := List.mem_map.1 this
    rw [← e]; exact hI m hm
  refine Finset.sum_congr rfl fun i hi => ?_
  rw [Finset.mem_range] at hi
  have hl : c1.link[i]? = some c1.link[i] := List.getElem?_eq_getElem hi
  have hs := hI1 _ (List.getElem_mem hi)
  generalize c1.link[i] = l at hl hs
  simp only [linkInertia, hl]
  rw [dot_comm (linColumn c1 i l.body.mp.com j)]
  congr 1
  generalize angColumn c1 i j = x
  generalize angColumn c1 i k = y
  simp only [worldInertia]
  generalize l.body.frame.att = R
  have e : ∀ a b : Vec3 K, dot a (l.body.mp.inertia.mulVec b) = dot b (l.body.mp.inertia.mulVec a) := by
    intro a b
    conv_lhs => rw [← hs]
    vec_ring
  simp only [Mat3.mul_mulVec, ← Mat3.mulVecT_eq]
  have e2 : ∀ a b : Vec3 K, dot a (R.mulVec b) = dot (R.mulVecT a) b := by intro a b; vec_ring
  rw [e2, e2, e]

/-- **C87** The joint velocities on the joint-space inertia give twice the kinetic energy. -/
theorem C87_inertia_energy [CharZero K] (c2 : Chain K) (g : Vec6 K) (vel acc : List K)
    (hv : vel.length = jointSize c.link) (ha : acc.length = jointSize c.link)
    (h2 : c1.invDyn g vel acc = some c2) :
    ∑ k ∈ Finset.range (jointSize c.link), vel.getD k 0 *
      ∑ j ∈ Finset.range (jointSize c.link), jointInertia c1 k j * vel.getD j 0 = 2 * ke c2.link := by
  rw [← kinetic_sum h hr ho h1 hv ha hv ha h2 h2, C22_energy_id c c1 c2 g vel acc h hr h1 h2]
  have : ∀ ls : List (Link K), (List.zipWith kinetic ls ls).sum = 2 * (ls.map fun l =>
      (mass l * dot (comVel l) (comVel l) + dot (angVel l) ((worldInertia l).mulVec (angVel l))) / 2).sum := by
    intro ls
    induction ls with
    | nil => simp
    | cons a ls ih =>
      simp only [List.zipWith_cons_cons, List.sum_cons, List.map_cons, ih, kinetic]
      ring
  exact this _

/-- **C87** The joint-space inertia is positive semidefinite for links with nonnegative masses and
positive semidefinite inertia tensors. -/
theorem C87_inertia_semidefinite [LinearOrder K] [IsStrictOrderedRing K] (hm : ∀ l ∈ c.link, 0 ≤ mass l)
    (hI : ∀ l ∈ c.link, ∀ w : Vec3 K, 0 ≤ dot w (l.body.mp.inertia.mulVec w)) (vel : List K)
    (hv : vel.length = jointSize c.link) :
    0 ≤ ∑ k ∈ Finset.range (jointSize c.link), vel.getD k 0 *
      ∑ j ∈ Finset.range (jointSize c.link), jointInertia c1 k j * vel.getD j 0 := by
  obtain ⟨hp, hz⟩ := posed_of_fk h hr ho h1
  obtain ⟨c2, h2⟩ := hp.invDyn 0 (hv.trans hz.symm) (hv.trans hz.symm)
  obtain ⟨_, _, r⟩ := hp.run (hv.trans hz.symm) (hv.trans hz.symm) h2
  rw [C87_inertia_energy h hr ho h1 c2 0 vel vel hv hv h2]
  have hmp : ∀ l ∈ c2.link, ∃ m ∈ c.link, m.body.mp = l.body.mp := by
    intro l hl
    have : l.body.mp ∈ c.link.map fun l => l.body.mp := by
      rw [← mp_fk h hr ho h1]
      have e := congrArg (List.map fun s => s.2.2.2.2) r.stat2
      simp only [List.map_map, Function.comp_def, statics] at e
      rw [← e]; exact List.mem_map.2 ⟨l, hl, rfl⟩
    obtain ⟨m, hm, e⟩ := List.mem_map.1 this
    exact ⟨m, hm, e⟩
  have := C22_nonneg c2 (fun l hl => by
    obtain ⟨m, hm', e⟩ := hmp l hl
    simp only [mass, ← e]; exact hm m hm') (fun l hl w => by
    obtain ⟨m, hm', e⟩ := hmp l hl
    rw [← e]; exact hI m hm' w)
  linarith

/-! ## C88 -/

/-- **C88** One more external wrench at the point `w.p` of link `i` changes the joint torques by minus
the transposed Jacobians of that point times its force and torque, in world coordinates. -/
theorem C88_external_wrench (e : ℕ → WrenchList K) (i : ℕ) (l : Link K) (hl : c1.link[i]? = some l)
    (w : Wrench K) (g : Vec6 K) (vel acc : List K) (hv : vel.length = jointSize c.link)
    (ha : acc.length = jointSize c.link) :
    ∃ τ τ', idTorque g vel acc (withExt e c1) = some τ ∧
      idTorque g vel acc (withExt (Function.update e i ((e i).push w)) c1) = some τ' ∧
      τ.length = jointSize c.link ∧ τ'.length = jointSize c.link ∧
      ∀ k < jointSize c.link, τ'.getD k 0 = τ.getD k 0 -
        (dot (l.body.frame.att.mulVec w.w.lin) (linColumn c1 i w.p k) +
          dot (l.body.frame.att.mulVec w.w.ang) (angColumn c1 i k)) := by
  obtain ⟨hp, hz⟩ := posed_of_fk h hr ho h1
  set e' := Function.update e i ((e i).push w) with he'
  have hd := hp.withExt e
  have hd' := hp.withExt e'
  have hzd : jointSize (withExt e c1).link = jointSize c.link := (jointSize_withExt e hp.off).trans hz
  have hzd' : jointSize (withExt e' c1).link = jointSize c.link := (jointSize_withExt e' hp.off).trans hz
  set n := jointSize c.link with hn
  have hst := statics_withExt e c1
  have hst' := statics_withExt e' c1
  obtain ⟨a2, la, A, τ, -, rA, eA, nA, wA⟩ := hd.work hp (g := g) hst rfl (hv.trans hzd.symm) (ha.trans hzd.symm)
  obtain ⟨b2, lb, B, τ', -, rB, eB, nB, wB⟩ := hd'.work hp (g := g) hst' rfl (hv.trans hzd'.symm) (ha.trans hzd'.symm)
  refine ⟨τ, τ', eA, eB, nA.trans hzd, nB.trans hzd', ?_⟩
  intro k hk
  have hul : (unitVec n k : List K).length = n := unitVec_length n k
  obtain ⟨u2, hu2⟩ := hp.invDyn 0 (hul.trans hz.symm) (hul.trans hz.symm)
  obtain ⟨lu, U, rU⟩ := hp.run (hul.trans hz.symm) (hul.trans hz.symm) hu2
  rw [← work_unitVec (nA.trans hzd) hk, ← work_unitVec (nB.trans hzd') hk,
    wA (hul.trans hz.symm) (hul.trans hz.symm) hu2, wB (hul.trans hz.symm) (hul.trans hz.symm) hu2]
  have hsAB : b2.link.map statics = a2.link.map statics := rB.stat2.trans (hst'.trans (hst.symm.trans rA.stat2.symm))
  have hsAU : a2.link.map statics = u2.link.map statics := rA.stat2.trans (hst.trans rU.stat2.symm)
  have hlu : u2.link.length = c1.link.length := rU.len2
  have hla : a2.link.length = c1.link.length := by
    rw [rA.len2]; simp [withExt]
  have hlb : b2.link.length = c1.link.length := by
    rw [rB.len2]; simp [withExt]
  have hi : i < c1.link.length := (List.getElem?_eq_some_iff.1 hl).1
  have hI : List.zipWith inertialWork b2.link u2.link = List.zipWith inertialWork a2.link u2.link := by
    apply List.ext_getElem?
    intro j
    rw [List.getElem?_zipWith, List.getElem?_zipWith]
    rcases hb : b2.link[j]? with _ | b
    · have : a2.link[j]? = none := List.getElem?_eq_none (by rw [hla, ← hlb]; exact List.getElem?_eq_none_iff.1 hb)
      rw [this]
    have hj : j < c1.link.length := by rw [← hlb]; exact (List.getElem?_eq_some_iff.1 hb).1
    have ha' : a2.link[j]? = some (a2.link[j]'(by omega)) := List.getElem?_eq_getElem _
    generalize a2.link[j]'(by omega) = a at ha'
    have hu' : u2.link[j]? = some (u2.link[j]'(by omega)) := List.getElem?_eq_getElem _
    generalize u2.link[j]'(by omega) = u at hu'
    rw [ha', hu']
    have rB' : IDRun (withExt e' c1) b2 (((1 : K) * 1) • g + ⟨0, 0⟩) (vel.map (1 * ·)) (acc.map (1 * 1 * ·)) lb B := by
      have e1 : vel.map ((1 : K) * ·) = vel := by simp
      have e2 : acc.map ((1 : K) * 1 * ·) = acc := by simp
      rw [e1, e2, mul_one, one_smul]
      have : g + (⟨0, 0⟩ : Vec6 K) = g := by vec_ring
      rw [this]; exact rB
    have hR := rate_field hd (hv.trans hzd.symm) (ha.trans hzd.symm) rB' rA (hst'.trans hst.symm) rfl hb ha'
    have hrot := (rB.link hd' b (List.mem_of_getElem? hb)).1
    have := inertialWork_field (γ := 0) hrot hR.1 hR.2 (forall_zip_statics hsAB hb ha')
      (forall_zip_statics (hsAB.trans hsAU) hb hu')
    simp only [this]
    have : ∀ v : Vec3 K, dot 0 v = 0 := by intro v; vec_ring
    rw [this]; simp
  have hE : (List.zipWith extWork b2.link u2.link).sum = (List.zipWith extWork a2.link u2.link).sum +
      (dot (l.body.frame.att.mulVec w.w.lin) (linColumn c1 i w.p k) +
        dot (l.body.frame.att.mulVec w.w.ang) (angColumn c1 i k)) := by
    have hu' : u2.link[i]? = some (u2.link[i]'(by omega)) := List.getElem?_eq_getElem _
    generalize u2.link[i]'(by omega) = u at hu'
    obtain ⟨w1, v1⟩ := vel_columns h hr ho h1 hul hu2 hu'
    have e1 : angColumn c1 i k = angVel u := by
      rw [w1]
      simp only [← hn, unitVec_getD n k _ hk, ite_smul, one_smul, zero_smul]
      rw [Finset.sum_ite_eq' (Finset.range n) k, if_pos (Finset.mem_range.2 hk)]
    have e2 : linColumn c1 i w.p k = pointVelocity u w.p := by
      rw [v1]
      simp only [← hn, unitVec_getD n k _ hk, ite_smul, one_smul, zero_smul]
      rw [Finset.sum_ite_eq' (Finset.range n) k, if_pos (Finset.mem_range.2 hk)]
    rw [e1, e2]
    set δ := dot (l.body.frame.att.mulVec w.w.lin) (pointVelocity u w.p) +
      dot (l.body.frame.att.mulVec w.w.ang) (angVel u) with hδ
    have hsum : (List.zipWith (fun (_ : Link K) (j : ℕ) => if j = i then δ else 0) a2.link (List.range a2.link.length)).sum = δ := by
      rw [zipWith_sum_range (F := fun j => if j = i then δ else 0) (by simp)]
      · rw [Finset.sum_ite_eq' (Finset.range _) i, if_pos (Finset.mem_range.2 (by omega))]
      · intro j a b _ hb
        rw [List.getElem?_range (by
          have := (List.getElem?_eq_some_iff.1 hb).1
          simpa using this)] at hb
        simp only [Option.some.injEq] at hb
        rw [hb]
    have hz' : List.zipWith extWork b2.link u2.link = List.zipWith (· + ·) (List.zipWith extWork a2.link u2.link)
        (List.zipWith (fun (_ : Link K) (j : ℕ) => if j = i then δ else 0) a2.link (List.range a2.link.length)) := by
      apply List.ext_getElem
      · simp [hla, hlb, hlu]
      intro j hj1 hj2
      have hj : j < c1.link.length := by simp at hj1; omega
      simp only [List.getElem_zipWith, List.getElem_range]
      have hjb : b2.link[j]? = some (b2.link[j]'(by omega)) := List.getElem?_eq_getElem _
      have hja : a2.link[j]? = some (a2.link[j]'(by omega)) := List.getElem?_eq_getElem _
      have hju : u2.link[j]? = some (u2.link[j]'(by omega)) := List.getElem?_eq_getElem _
      generalize b2.link[j]'(by omega) = b at hjb ⊢
      generalize a2.link[j]'(by omega) = a at hja ⊢
      generalize u2.link[j]'(by omega) = v at hju ⊢
      have hxa : a.body.extw = e j := by
        have := congrArg (fun x => x[j]?) rA.ext2
        simp only [List.getElem?_map, hja, withExt, List.getElem?_mapIdx, List.getElem?_eq_getElem hj, Option.map_some,
          Option.some.injEq] at this
        exact this
      have hxb : b.body.extw = e' j := by
        have := congrArg (fun x => x[j]?) rB.ext2
        simp only [List.getElem?_map, hjb, withExt, List.getElem?_mapIdx, List.getElem?_eq_getElem hj, Option.map_some,
          Option.some.injEq] at this
        exact this
      have hf := (statics_iff.1 (forall_zip_statics hsAB hjb hja)).2.2.2.1
      simp only [extWork, hxa, hxb, hf]
      by_cases hji : j = i
      · subst hji
        rw [hju] at hu'
        obtain rfl := Option.some.inj hu'
        have hfl := (statics_iff.1 (forall_zip_statics (rA.stat2.trans hst) hja hl)).2.2.2.1
        rw [if_pos rfl, he', Function.update_self, WrenchList.push, List.map_cons, List.sum_cons, hδ, hfl, add_comm]
      · rw [if_neg hji, he', Function.update_of_ne hji, add_zero]
    rw [hz', sum_zipWith_add (by simp [hla, hlu]), hsum]
  rw [hI, hE]
  ring

/-! ## C89, C90 -/

/-- Two motions whose rates differ by a factor and by a uniform acceleration of the root. -/
theorem work_field (e e' : ℕ → WrenchList K) (k : K) (γ : Vec3 K) (g : Vec6 K) {vel acc : List K}
    (hv : vel.length = jointSize c.link) (ha : acc.length = jointSize c.link) (q : K)
    (he : ∀ i, e' i = (e i).map fun w => { w with w := q • w.w }) :
    ∃ τ τ', idTorque g vel acc (withExt e c1) = some τ ∧
      idTorque ((k * k) • g + ⟨γ, 0⟩) (vel.map (k * ·)) (acc.map (k * k * ·)) (withExt e' c1) = some τ' ∧
      τ.length = jointSize c.link ∧ τ'.length = jointSize c.link ∧
      ∀ j < jointSize c.link, ∃ d2, c1.invDyn 0 (unitVec (jointSize c.link) j) (unitVec (jointSize c.link) j) = some d2 ∧
        ∃ x : K, τ'.getD j 0 = k * k * τ.getD j 0 + dot γ (d2.link.map fun l => mass l • comVel l).sum +
          (k * k - q) * x := by
  obtain ⟨hp, hz⟩ := posed_of_fk h hr ho h1
  have hd := hp.withExt e
  have hd' := hp.withExt e'
  have hzd : jointSize (withExt e c1).link = jointSize c.link := (jointSize_withExt e hp.off).trans hz
  have hzd' : jointSize (withExt e' c1).link = jointSize c.link := (jointSize_withExt e' hp.off).trans hz
  set n := jointSize c.link with hn
  have hst := statics_withExt e c1
  have hst' := statics_withExt e' c1
  obtain ⟨a2, la, A, τ, -, rA, eA, nA, wA⟩ := hd.work hp (g := g) hst rfl (hv.trans hzd.symm) (ha.trans hzd.symm)
  obtain ⟨b2, lb, B, τ', -, rB, eB, nB, wB⟩ := hd'.work hp (g := (k * k) • g + ⟨γ, 0⟩) (v := vel.map (k * ·))
    (a := acc.map (k * k * ·)) hst' rfl (by rw [List.length_map, hv, hzd']) (by rw [List.length_map, ha, hzd'])
  refine ⟨τ, τ', eA, eB, nA.trans hzd, nB.trans hzd', ?_⟩
  intro j hj
  have hul : (unitVec n j : List K).length = n := unitVec_length n j
  obtain ⟨u2, hu2⟩ := hp.invDyn 0 (hul.trans hz.symm) (hul.trans hz.symm)
  obtain ⟨lu, U, rU⟩ := hp.run (hul.trans hz.symm) (hul.trans hz.symm) hu2
  refine ⟨u2, hu2, (List.zipWith extWork a2.link u2.link).sum, ?_⟩
  rw [← work_unitVec (nA.trans hzd) hj, ← work_unitVec (nB.trans hzd') hj,
    wA (hul.trans hz.symm) (hul.trans hz.symm) hu2, wB (hul.trans hz.symm) (hul.trans hz.symm) hu2]
  have hsAB : b2.link.map statics = a2.link.map statics := rB.stat2.trans (hst'.trans (hst.symm.trans rA.stat2.symm))
  have hsAU : a2.link.map statics = u2.link.map statics := rA.stat2.trans (hst.trans rU.stat2.symm)
  have hlu : u2.link.length = c1.link.length := rU.len2
  have hla : a2.link.length = c1.link.length := by
    rw [rA.len2]; simp [withExt]
  have hlb : b2.link.length = c1.link.length := by
    rw [rB.len2]; simp [withExt]
  have hI : (List.zipWith inertialWork b2.link u2.link).sum =
      (List.zipWith (fun a u => k * k * inertialWork a u) a2.link u2.link).sum +
        (List.zipWith (fun _ u => dot γ (mass u • comVel u)) a2.link u2.link).sum := by
    refine zipWith_sum_add (hla.trans hlb.symm) (hla.trans hlb.symm) ?_
    intro i b a _ u hb ha' _ hu'
    have hR := rate_field hd (hv.trans hzd.symm) (ha.trans hzd.symm) rB rA (hst'.trans hst.symm) rfl hb ha'
    exact inertialWork_field (rB.link hd' b (List.mem_of_getElem? hb)).1 hR.1 hR.2 (forall_zip_statics hsAB hb ha')
      (forall_zip_statics (hsAB.trans hsAU) hb hu')
  have hmul : ∀ (q : K) (f : Link K → Link K → K) (l1 l2 : List (Link K)),
      (List.zipWith (fun a u => q * f a u) l1 l2).sum = q * (List.zipWith f l1 l2).sum := by
    intro q f l1
    induction l1 with
    | nil => intro l2; simp
    | cons a l1 ih =>
      intro l2
      rcases l2 with _ | ⟨b, l2⟩
      · simp
      simp only [List.zipWith_cons_cons, List.sum_cons, ih, mul_add]
  have hG : (List.zipWith (fun _ u => dot γ (mass u • comVel u)) a2.link u2.link).sum =
      dot γ (u2.link.map fun l => mass l • comVel l).sum := by
    have : ∀ l1 l2 : List (Link K), l1.length = l2.length →
        (List.zipWith (fun _ u => dot γ (mass u • comVel u)) l1 l2).sum =
          dot γ (l2.map fun l => mass l • comVel l).sum := by
      intro l1
      induction l1 with
      | nil => intro l2 hl; rw [List.length_eq_zero_iff.1 hl.symm]; simp only [List.zipWith_nil_left, List.map_nil, List.sum_nil]; vec_ring
      | cons a l1 ih =>
        intro l2 hl
        rcases l2 with _ | ⟨b, l2⟩
        · simp at hl
        simp only [List.zipWith_cons_cons, List.sum_cons, List.map_cons, dot_add_right]
        rw [ih l2 (by simpa using hl)]
    exact this _ _ (hla.trans hlu.symm)
  have hE : (List.zipWith extWork b2.link u2.link).sum = q * (List.zipWith extWork a2.link u2.link).sum := by
    rw [← hmul]
    have : List.zipWith extWork b2.link u2.link = List.zipWith (fun a u => q * extWork a u) a2.link u2.link := by
      apply List.ext_getElem
      · simp [hla, hlb]
      intro j hj1 hj2
      have hj : j < c1.link.length := by simp at hj1; omega
      simp only [List.getElem_zipWith]
      have hjb : b2.link[j]? = some (b2.link[j]'(by omega)) := List.getElem?_eq_getElem _
      have hja : a2.link[j]? = some (a2.link[j]'(by omega)) := List.getElem?_eq_getElem _
      generalize b2.link[j]'(by omega) = b at hjb ⊢
      generalize a2.link[j]'(by omega) = a at hja ⊢
      generalize u2.link[j]'(by omega) = v
      have hxa : a.body.extw = e j := by
        have := congrArg (fun x => x[j]?) rA.ext2
        simp only [List.getElem?_map, hja, withExt, List.getElem?_mapIdx, List.getElem?_eq_getElem hj, Option.map_some,
          Option.some.injEq] at this
        exact this
      have hxb : b.body.extw = e' j := by
        have := congrArg (fun x => x[j]?) rB.ext2
        simp only [List.getElem?_map, hjb, withExt, List.getElem?_mapIdx, List.getElem?_eq_getElem hj, Option.map_some,
          Option.some.injEq] at this
        exact this
      have hf := (statics_iff.1 (forall_zip_statics hsAB hjb hja)).2.2.2.1
      simp only [extWork, hxa, hxb, hf, he]
      generalize e j = ws
      rw [List.map_map]
      induction ws with
      | nil => simp
      | cons w ws ih =>
        simp only [List.map_cons, List.sum_cons, ih, mul_add, Function.comp_apply]
        congr 1
        simp only [show ∀ x : Vec6 K, (q • x).lin = q • x.lin from fun _ => rfl,
          show ∀ x : Vec6 K, (q • x).ang = q • x.ang from fun _ => rfl, Mat3.mulVec_smul, dot_smul_left]
    rw [this]
  rw [hI, hmul, hG, hE]
  ring

/-- **C89** A uniform acceleration `γ` more of the root (gravity, with the opposite sign) changes the
joint torques by the mass times the transposed Jacobian of the center of mass times `γ`. -/
theorem C89_gravity_torque [DecidableEq K] (e : ℕ → WrenchList K) (γ : Vec3 K) (g : Vec6 K) (vel acc : List K)
    (hv : vel.length = jointSize c.link) (ha : acc.length = jointSize c.link) (hM : c.mass ≠ 0)
    (m : List (Vec3 K)) (hm : m.length = jointSize c.link) :
    ∃ J τ τ', Jacobi.com c1 m = some J ∧ J.length = jointSize c.link ∧
      idTorque g vel acc (withExt e c1) = some τ ∧ idTorque (g + ⟨γ, 0⟩) vel acc (withExt e c1) = some τ' ∧
      τ.length = jointSize c.link ∧ τ'.length = jointSize c.link ∧
      ∀ k < jointSize c.link, τ'.getD k 0 = τ.getD k 0 + c.mass * dot γ (J.getD k 0) := by
  obtain ⟨hp, hz⟩ := posed_of_fk h hr ho h1
  obtain ⟨c2, h2⟩ := hp.invDyn 0 (hv.trans hz.symm) (ha.trans hz.symm)
  obtain ⟨J, hJ, hJl, -⟩ := C13_com_jacobian c c1 c2 0 vel acc h hr ho hv h1 h2 m hm hM
  obtain ⟨τ, τ', e1, e2, n1, n2, H⟩ := work_field h hr ho h1 e e 1 γ g hv ha 1
    (fun i => by simp)
  have hm1 : vel.map ((1 : K) * ·) = vel := by simp
  have hm2 : acc.map ((1 : K) * 1 * ·) = acc := by simp
  rw [hm1, hm2, mul_one, one_smul] at e2
  refine ⟨J, τ, τ', hJ, hJl.trans hm, e1, e2, n1, n2, ?_⟩
  intro k hk
  obtain ⟨d2, hd2, x, hx⟩ := H k hk
  obtain ⟨J', hJ', -, -, hJ2⟩ := C13_com_jacobian c c1 d2 0 _ _ h hr ho (unitVec_length _ k) h1 hd2 m hm hM
  rw [hJ] at hJ'
  obtain rfl := Option.some.inj hJ'
  rw [hx, ← hJ2, jacMul_unitVec (hJl.trans hm) hk, dot_smul_right]
  ring

/-- **C90** Time scaling: `k` times the joint velocities, `k` squared times the joint accelerations, the
gravity and the external wrenches give `k` squared times the joint torques. -/
theorem C90_time_scaling (e : ℕ → WrenchList K) (k : K) (g : Vec6 K) (vel acc : List K)
    (hv : vel.length = jointSize c.link) (ha : acc.length = jointSize c.link) :
    ∃ τ, idTorque g vel acc (withExt e c1) = some τ ∧ τ.length = jointSize c.link ∧
      idTorque ((k * k) • g) (vel.map (k * ·)) (acc.map (k * k * ·))
        (withExt (fun i => (e i).map fun w => { w with w := (k * k) • w.w }) c1) =
        some (τ.map (k * k * ·)) := by
  obtain ⟨τ, τ', e1, e2, n1, n2, H⟩ := work_field h hr ho h1 e
    (fun i => (e i).map fun w => { w with w := (k * k) • w.w }) k 0 g hv ha (k * k) (fun i => rfl)
  have h0 : (k * k) • g + (⟨0, 0⟩ : Vec6 K) = (k * k) • g := by vec_ring
  rw [h0] at e2
  refine ⟨τ, e1, n1, ?_⟩
  rw [e2]
  congr 1
  apply List.ext_getElem
  · rw [List.length_map, n1, n2]
  intro j hj1 hj2
  obtain ⟨d2, -, x, hx⟩ := H j (by omega)
  have h0 : ∀ v : Vec3 K, dot 0 v = 0 := by intro v; vec_ring
  rw [h0, sub_self, zero_mul, add_zero, add_zero] at hx
  rw [List.getElem_map]
  simpa [List.getD_eq_getElem?_getD, List.getElem?_eq_getElem hj1,
    List.getElem?_eq_getElem (show j < τ.length by omega)] using hx

end

/-! ## The hypotheses are met -/

theorem Sample.chain_rot : ∀ l ∈ (Sample.chain (K := ℚ)).link, l.org.att.IsRot ∧ l.joint.prp.WF := by
  intro l hl
  have h1 : l.org.att ∈ (Sample.chain (K := ℚ)).link.map (fun l => l.org.att) :=
    List.mem_map.2 ⟨l, hl, rfl⟩
  have e1 : (Sample.chain (K := ℚ)).link.map (fun l => l.org.att) = [1, 1, 1, 1] := rfl
  have h2 : l.joint.prp ∈ (Sample.chain (K := ℚ)).link.map (fun l => l.joint.prp) :=
    List.mem_map.2 ⟨l, hl, rfl⟩
  have e2 : (Sample.chain (K := ℚ)).link.map (fun l => l.joint.prp) =
      [.float (Sample.flt 0), .fixed, .revol (Sample.dof1 0 0 0 0 1 none none),
       .hooke (Sample.dof2 0 0 0 1 0 1)] := rfl
  rw [e1] at h1
  rw [e2] at h2
  simp only [List.mem_cons, List.not_mem_nil, or_false, or_self] at h1 h2
  refine ⟨by rw [h1]; exact Mat3.isRot_one, ?_⟩
  rcases h2 with h | h | h | h <;> rw [h] <;>
    simp [Prp.WF, Sample.flt, Sample.dof1, Sample.dof2, Mat3.isRot_one]

/-- A chain of four links with nine joint components: the hypotheses of C86 to C90. -/
example : ∃ c1 c2 d2 : Chain ℚ, (Sample.chain (K := ℚ)).WF ∧
    (∀ l ∈ (Sample.chain (K := ℚ)).link, l.org.att.IsRot ∧ l.joint.prp.WF) ∧
    setOffset (Sample.chain (K := ℚ)).link = (Sample.chain (K := ℚ)).link ∧
    jointSize (Sample.chain (K := ℚ)).link = 9 ∧ (Sample.chain (K := ℚ)).updateFK = some c1 ∧
    c1.invDyn ⟨⟨0, 0, 10⟩, 0⟩ [0, 0, 0, 0, 0, 0, 1, 2, 3] [0, 0, 0, 0, 0, 0, 4, 5, 6] = some c2 ∧
    c1.invDyn 0 [0, 1, 0, 0, 0, 2, 0, 3, 0] [0, 0, 0, 0, 0, 0, 0, 0, 0] = some d2 ∧
    (Sample.chain (K := ℚ)).mass ≠ 0 := by
  refine ⟨_, _, _, Sample.chain_wf, Sample.chain_rot, ?_, ?_, rfl, rfl, rfl, ?_⟩
  · rfl
  · decide +kernel
  · show (4 : ℚ) ≠ 0
    norm_num

/-- The inertia between the first joint component and itself is the mass of the chain. -/
example : ∃ c1 : Chain ℚ, (Sample.chain (K := ℚ)).updateFK = some c1 ∧ jointInertia c1 0 0 = 4 ∧
    jointInertia c1 6 6 ≠ 0 := by
  refine ⟨_, rfl, ?_, ?_⟩
  · decide +kernel
  · decide +kernel

end Roki
