import Verif.Spec.Gauss
import Verif.Lemmas.VirtualWork5
set_option autoImplicit false

/-! # Least constraint: lemmas -/

namespace Roki
open Spec LinkArray
variable {K : Type*} [Field K]

/-- A symmetric tensor, in world coordinates too. -/
theorem worldInertia_dot {l : Link K} (h : l.body.mp.inertia.tr = l.body.mp.inertia) (a b : Vec3 K) :
    dot a ((worldInertia l).mulVec b) = dot b ((worldInertia l).mulVec a) := by
  obtain ⟨name, joint, body, off, org, adj, abi⟩ := l
  generalize hI : body.mp.inertia = I at h
  obtain ⟨⟨x1, x2, x3⟩, ⟨y1, y2, y3⟩, ⟨z1, z2, z3⟩⟩ := I
  simp only [Mat3.tr, Mat3.mk.injEq, Vec3.mk.injEq] at h
  obtain ⟨⟨-, h1, h2⟩, ⟨-, -, h3⟩, -⟩ := h
  simp only [worldInertia, hI, h1, h2, h3]
  vec_ring

theorem extAcc_step {l m n : Link K} (h : RateRes 1 l m n) (hm : statics l = statics m) (hn : statics l = statics n)
    (he : l.body.extw = m.body.extw) : extAcc l = extAcc m + extWork m n := by
  obtain ⟨-, -, -, f1, p1⟩ := statics_iff.1 hm
  obtain ⟨-, -, -, f2, p2⟩ := statics_iff.1 hn
  obtain ⟨hv, ha⟩ := h
  simp only [mul_one, one_smul] at hv ha
  unfold extAcc extWork
  rw [← List.sum_map_add, he]
  congr 1
  refine List.map_congr_left fun w _ => ?_
  simp only [pointAcc, pointVelocity, angAcc, angVel, hv, ha, ← f1, ← f2]
  have e1 : l.body.frame.att.mulVec ((m.body.acc + n.body.vel).lin + cross (m.body.acc + n.body.vel).ang w.p +
      cross m.body.vel.ang (cross m.body.vel.ang w.p)) =
      l.body.frame.att.mulVec (m.body.acc.lin + cross m.body.acc.ang w.p + cross m.body.vel.ang (cross m.body.vel.ang w.p)) +
      l.body.frame.att.mulVec (n.body.vel.lin + cross n.body.vel.ang w.p) := by
    rw [← Mat3.mulVec_add]; congr 1; vec_ring
  have e2 : l.body.frame.att.mulVec (m.body.acc + n.body.vel).ang =
      l.body.frame.att.mulVec m.body.acc.ang + l.body.frame.att.mulVec n.body.vel.ang := by
    rw [← Mat3.mulVec_add]; rfl
  rw [e1, e2, dot_add_right, dot_add_right]
  ring

theorem accEnergy_step [NeZero (2 : K)] {l m n : Link K} (h : RateRes 1 l m n) (hm : statics l = statics m) (hn : statics l = statics n)
    (hs : m.body.mp.inertia.tr = m.body.mp.inertia) :
    accEnergy l = accEnergy m + inertialWork m n + kinetic n n / 2 := by
  have hI := worldInertia_dot (l := l) (by rw [(statics_iff.1 hm).2.2.2.2]; exact hs)
  obtain ⟨-, -, -, f1, p1⟩ := statics_iff.1 hm
  obtain ⟨-, -, -, f2, p2⟩ := statics_iff.1 hn
  obtain ⟨hv, ha⟩ := h
  simp only [mul_one, one_smul] at hv ha
  have w1 : worldInertia m = worldInertia l := by simp only [worldInertia, f1, p1]
  have w2 : worldInertia n = worldInertia l := by simp only [worldInertia, f2, p2]
  have m1 : mass m = mass l := by simp only [mass, p1]
  have m2 : mass n = mass l := by simp only [mass, p2]
  have e1 : comAcc l = comAcc m + comVel n := by
    simp only [comAcc, comVel, hv, ha, ← f1, ← f2, ← p1, ← p2]
    rw [← Mat3.mulVec_add]; congr 1; vec_ring
  have e2 : angAcc l = angAcc m + angVel n := by
    simp only [angAcc, angVel, ha, ← f1, ← f2]
    rw [← Mat3.mulVec_add]; rfl
  have e3 : angVel l = angVel m := by simp only [angVel, hv, ← f1]
  unfold accEnergy inertialWork kinetic
  rw [e1, e2, e3, w1, w2, m1, m2]
  generalize worldInertia l = I at hI ⊢
  have h2 := hI (angAcc m) (angVel n)
  simp only [Mat3.mulVec_add, dot_add_left, dot_add_right]
  rw [h2, dot_comm (comVel n) (comAcc m)]
  have : (2 : K) ≠ 0 := NeZero.ne _
  field_simp
  ring

/-- The constraints of two motions of one chain differ by the work of the inertial and external forces of the first on the difference of the
accelerations, and the kinetic energy that belongs to this difference. -/
theorem constraint_step [NeZero (2 : K)] {c1 c2 e2 d2 : Chain K} {g : Vec6 K} {v a x b : List K} (hp : Posed c1)
    (hs : ∀ l ∈ c1.link, l.body.mp.inertia.tr = l.body.mp.inertia)
    (hv : v.length = jointSize c1.link) (ha : a.length = jointSize c1.link) (hx : x.length = jointSize c1.link)
    (hb : b.length = jointSize c1.link) (h2 : c1.invDyn g v a = some c2)
    (h3 : c1.invDyn g v (List.zipWith (· + ·) a x) = some e2) (h4 : c1.invDyn 0 x b = some d2) :
    (e2.link.map fun l => accEnergy l - extAcc l).sum = (c2.link.map fun l => accEnergy l - extAcc l).sum +
      ((List.zipWith inertialWork c2.link d2.link).sum - (List.zipWith extWork c2.link d2.link).sum) +
      (d2.link.map fun l => kinetic l l / 2).sum := by
  have hz : (List.zipWith (· + ·) a x).length = jointSize c1.link := by simp [ha, hx]
  obtain ⟨la, A, rA⟩ := hp.run hv hz h3
  obtain ⟨lb, B, rB⟩ := hp.run hv ha h2
  obtain ⟨lc, C, rC⟩ := hp.run hx hb h4
  have rA' : IDRun c1 e2 (((1 : K) * 1) • g) (v.map (1 * ·)) (List.zipWith (fun x y => 1 * 1 * x + y) a x) la A := by
    simpa only [one_mul, mul_one, one_smul, List.map_id'] using rA
  have key : ∀ (i : ℕ) (l m n : Link K), e2.link[i]? = some l → c2.link[i]? = some m → d2.link[i]? = some n →
      accEnergy l - extAcc l = accEnergy m - extAcc m + (inertialWork m n - extWork m n) + kinetic n n / 2 := by
    intro i l m n hl hm hn
    have r := rate_affine rA' rB rC rfl rfl rfl rfl hl hm hn
    have s1 : statics l = statics m := forall_zip_statics (rA.stat2.trans rB.stat2.symm) hl hm
    have s2 : statics l = statics n := forall_zip_statics (rA.stat2.trans rC.stat2.symm) hl hn
    have hmI : m.body.mp.inertia.tr = m.body.mp.inertia := by
      have e := congrArg (List.map fun s => s.2.2.2.2) rB.stat2
      simp only [List.map_map] at e
      have := congrArg (fun L => L[i]?) e
      simp only [List.getElem?_map, hm, Option.map_some] at this
      cases h0 : c1.link[i]? with
      | none => rw [h0] at this; simp at this
      | some q =>
        rw [h0] at this
        simp only [Option.map_some, Option.some.injEq, Function.comp, statics] at this
        rw [this]; exact hs q (List.mem_of_getElem? h0)
    have hext : l.body.extw = m.body.extw := by
      have e := rA.ext2.trans rB.ext2.symm
      have := congrArg (fun L => L[i]?) e
      simp only [List.getElem?_map, hl, hm, Option.map_some, Option.some.injEq] at this
      exact this
    rw [accEnergy_step r s1 s2 hmI, extAcc_step r s1 s2 hext]
    ring
  have n1 : e2.link.length = c2.link.length := rA.len2.trans rB.len2.symm
  have n2 : d2.link.length = c2.link.length := rC.len2.trans rB.len2.symm
  clear rA rB rC rA' h2 h3 h4
  revert n1 n2 key
  generalize e2.link = L; generalize c2.link = M; generalize d2.link = N
  intro key n1 n2
  induction M generalizing L N with
  | nil =>
    rw [List.length_nil, List.length_eq_zero_iff] at n1 n2
    subst n1; subst n2; simp
  | cons m M ih =>
    cases L with
    | nil => simp at n1
    | cons l L =>
      cases N with
      | nil => simp at n2
      | cons n N =>
        have k0 := key 0 l m n rfl rfl rfl
        have k1 := ih L N (fun i p q r hp hq hr => key (i + 1) p q r hp hq hr) (by simpa using n1) (by simpa using n2)
        simp only [List.map_cons, List.sum_cons, List.zipWith_cons_cons, k0, k1]
        ring

end Roki
