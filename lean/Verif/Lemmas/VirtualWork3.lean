import Verif.Lemmas.VirtualWork2

/-! # How the accelerations of the links depend on the joint rates -/

namespace Roki
set_option autoImplicit false
set_option linter.unusedSectionVars false
open Spec LinkArray
variable {K : Type*} [Field K]

/-- Three trees of the same shape with related elements. -/
def LTree.All3 {α : Type*} (R : α → α → α → Prop) : LTree α → LTree α → LTree α → Prop
  | .nil, .nil, .nil => True
  | .node a c s, .node a' c' s', .node a'' c'' s'' =>
    R a a' a'' ∧ All3 R c c' c'' ∧ All3 R s s' s''
  | _, _, _ => False

theorem all3_of_gather {R : Link K → Link K → Link K → Prop} {t : LTree ℕ}
    {l1 l2 l3 : List (Link K)} {A B C : LTree (Link K)} (h1 : Chain.gather l1 t = some A)
    (h2 : Chain.gather l2 t = some B) (h3 : Chain.gather l3 t = some C)
    (h : ∀ (i : ℕ) (a b c : Link K), l1[i]? = some a → l2[i]? = some b → l3[i]? = some c → R a b c) :
    A.All3 R B C := by
  induction t generalizing A B C with
  | nil => simp only [Chain.gather, Option.some.injEq] at h1 h2 h3; subst h1 h2 h3; trivial
  | node i c s ihc ihs =>
    obtain ⟨a, c1, s1, a1, a2, a3, rfl⟩ := Chain.gather_node.1 h1
    obtain ⟨b, c2, s2, b1, b2, b3, rfl⟩ := Chain.gather_node.1 h2
    obtain ⟨d, c3, s3, d1, d2, d3, rfl⟩ := Chain.gather_node.1 h3
    exact ⟨h i a b d a1 b1 d1, ihc a2 b2 d2, ihs a3 b3 d3⟩

theorem gather_all3 {R : Link K → Link K → Link K → Prop} {t : LTree ℕ}
    {l1 l2 l3 : List (Link K)} {A B C : LTree (Link K)} (h1 : Chain.gather l1 t = some A)
    (h2 : Chain.gather l2 t = some B) (h3 : Chain.gather l3 t = some C) (h : A.All3 R B C)
    {i : ℕ} (hi : i ∈ t.toList) {a b c : Link K} (ha : l1[i]? = some a) (hb : l2[i]? = some b)
    (hc : l3[i]? = some c) : R a b c := by
  induction t generalizing A B C with
  | nil => simp [LTree.toList] at hi
  | node j c s ihc ihs =>
    obtain ⟨a', c1, s1, a1, a2, a3, rfl⟩ := Chain.gather_node.1 h1
    obtain ⟨b', c2, s2, b1, b2, b3, rfl⟩ := Chain.gather_node.1 h2
    obtain ⟨d', c3, s3, d1, d2, d3, rfl⟩ := Chain.gather_node.1 h3
    obtain ⟨r, rc, rs⟩ := h
    simp only [LTree.toList, List.mem_cons, List.mem_append] at hi
    rcases hi with rfl | hi | hi
    · rw [ha] at a1; rw [hb] at b1; rw [hc] at d1; cases a1; cases b1; cases d1; exact r
    · exact ihc a2 b2 d2 rc hi
    · exact ihs a3 b3 d3 rs hi

theorem all3_updateWrench {R : Link K → Link K → Link K → Prop}
    (hR : ∀ a b c a' b' c' : Link K, a'.body = a.body → b'.body = b.body → c'.body = c.body →
      R a b c → R a' b' c') {A B C : LTree (Link K)} (h : A.All3 R B C) :
    A.updateWrench.All3 R B.updateWrench C.updateWrench := by
  induction A generalizing B C with
  | nil => rcases B with _ | _ <;> rcases C with _ | _ <;> simp_all [LTree.All3, LTree.updateWrench]
  | node a c s ihc ihs =>
    rcases B with _ | ⟨b, c', s'⟩
    · simp [LTree.All3] at h
    rcases C with _ | ⟨d, c'', s''⟩
    · simp [LTree.All3] at h
    exact ⟨hR a b d _ _ _ rfl rfl rfl h.1, ihc h.2.1, ihs h.2.2⟩

/-- The acceleration due to the joint acceleration. -/
def accTwist (p : Prp K) : Vec6 K := p.incAcc 0
/-- The acceleration due to the joint velocity, for the angular velocity `w` of the link. -/
def velAcc (p : Prp K) (w : Vec3 K) : Vec6 K := p.incAccOnVel w 0

theorem incAcc_eq (p : Prp K) (a : Vec6 K) : p.incAcc a = a + accTwist p := by
  cases p <;> simp only [accTwist, Prp.incAcc] <;> vec_ring

theorem incAccOnVel_eq (p : Prp K) (w : Vec3 K) (a : Vec6 K) : p.incAccOnVel w a = a + velAcc p w := by
  cases p <;> simp only [velAcc, Prp.incAccOnVel, cat] <;> vec_ring

/-- Velocity and acceleration of a link. -/
theorem updateRate1_eq (l : Link K) (v a : Vec6 K) :
    (l.updateRate1 v a).body.vel = l.adj.xform6Lin v + twist l.joint.prp ∧
    (l.updateRate1 v a).body.acc = l.adj.xform6Lin a +
      l.adj.att.mulVecT6 ⟨cross v.ang (cross v.ang l.adj.pos), 0⟩ +
      velAcc l.joint.prp (l.updateRate1 v a).body.vel.ang + accTwist l.joint.prp := by
  constructor
  · simp only [Link.updateRate1, Link.updateAcc1, Link.updateVel1, Body.updateCOMVel,
      Body.updateCOMAcc, incVel_twist]
  · simp only [Link.updateRate1, Link.updateAcc1, Link.updateVel1, Body.updateCOMVel,
      Body.updateCOMAcc, incAcc_eq, incAccOnVel_eq, Frame.xform6Lin, Vec6.linShift]
    congr 2
    vec_ring

/-- Three states of a link: the velocities of the first are `k` times those of the second, its
accelerations are `k^2` times those of the second plus the velocities of the third. -/
structure RateRel (k : K) (a b c : Link K) : Prop where
  ab : statics a = statics b
  ac : statics a = statics c
  tw : twist a.joint.prp = k • twist b.joint.prp
  va : ∀ w, velAcc a.joint.prp (k • w) = (k * k) • velAcc b.joint.prp w
  at' : accTwist a.joint.prp = (k * k) • accTwist b.joint.prp + twist c.joint.prp

/-- The result. -/
def RateRes (k : K) (a b c : Link K) : Prop :=
  a.body.vel = k • b.body.vel ∧ a.body.acc = (k * k) • b.body.acc + c.body.vel

theorem all3_updateRate {k : K} {A B C : LTree (Link K)} (h : A.All3 (RateRel k) B C)
    (v a w x : Vec6 K) :
    (A.updateRate (k • v) ((k * k) • a + w)).All3 (RateRes k) (B.updateRate v a) (C.updateRate w x) := by
  induction A generalizing B C v a w x with
  | nil => rcases B with _ | _ <;> rcases C with _ | _ <;> simp_all [LTree.All3, LTree.updateRate]
  | node l c s ihc ihs =>
    rcases B with _ | ⟨m, c', s'⟩
    · simp [LTree.All3] at h
    rcases C with _ | ⟨n, c'', s''⟩
    · simp [LTree.All3] at h
    obtain ⟨r, rc, rs⟩ := h
    obtain ⟨-, -, hb, -⟩ := statics_iff.1 r.ab
    obtain ⟨-, -, hc, -⟩ := statics_iff.1 r.ac
    have e1 := updateRate1_eq l (k • v) ((k * k) • a + w)
    have e2 := updateRate1_eq m v a
    have e3 := (updateRate1_eq n w x).1
    have hv : (l.updateRate1 (k • v) ((k * k) • a + w)).body.vel = k • (m.updateRate1 v a).body.vel := by
      rw [e1.1, e2.1, r.tw, hb]
      simp only [Frame.xform6Lin]
      vec_ring
    have ha : (l.updateRate1 (k • v) ((k * k) • a + w)).body.acc =
        (k * k) • (m.updateRate1 v a).body.acc + (n.updateRate1 w x).body.vel := by
      rw [e1.2, e2.2, e3, hv, show (k • (m.updateRate1 v a).body.vel).ang =
        k • (m.updateRate1 v a).body.vel.ang from rfl, r.va, r.at', hb, ← hc, hb]
      generalize velAcc m.joint.prp _ = p
      generalize accTwist m.joint.prp = q
      generalize twist n.joint.prp = y
      simp only [Frame.xform6Lin]
      vec_ring
    refine ⟨⟨hv, ha⟩, ?_, ihs rs v a w x⟩
    rw [hv, ha]
    exact ihc rc _ _ _ _

/-- Rates of a joint in three states. -/
theorem rateRel_of {k : K} {a b c : Link K} (ab : statics a = statics b) (ac : statics a = statics c)
    (hv : a.joint.prp.getVel = b.joint.prp.getVel.map (k * ·))
    (ha : a.joint.prp.getAcc =
      List.zipWith (fun x y => k * k * x + y) b.joint.prp.getAcc c.joint.prp.getVel) :
    RateRel k a b c := by
  refine ⟨ab, ac, ?_, ?_, ?_⟩
  all_goals
    obtain ⟨-, h1, -⟩ := statics_iff.1 ab
    obtain ⟨-, h2, -⟩ := statics_iff.1 (ac.symm.trans ab)
    revert hv ha h1 h2
    generalize a.joint.prp = p
    generalize b.joint.prp = q
    generalize c.joint.prp = r
    intro hv ha h1 h2
    cases p <;> cases q <;> simp only [Prp.still, Prp.revol.injEq, Prp.prism.injEq, Prp.cylin.injEq,
      Prp.hooke.injEq, Prp.spher.injEq, Prp.float.injEq, Prp.brfloat.injEq, reduceCtorEq] at h1 <;>
      cases r <;> simp only [Prp.still, Prp.revol.injEq, Prp.prism.injEq, Prp.cylin.injEq,
      Prp.hooke.injEq, Prp.spher.injEq, Prp.float.injEq, Prp.brfloat.injEq, reduceCtorEq] at h2
  all_goals
    simp only [Prp.getVel, Prp.getAcc, Vec3.toBuf, Vec6.toBuf, List.map_cons, List.map_nil, List.zipWith_cons_cons,
      List.zipWith_nil_left, List.cons_append, List.nil_append, List.cons.injEq, and_true] at hv ha
    try simp only [Dof1.mk.injEq, Dof2.mk.injEq, SpherPrp.mk.injEq, FloatPrp.mk.injEq, true_and, and_true] at h1 h2
    simp only [twist, velAcc, accTwist, Prp.incVel, Prp.incAccOnVel, Prp.incAcc]
    try intro w
    vec_unfold
    simp [h1, h2, hv, ha]
    try (repeat' (first | trivial | refine ⟨?_, ?_⟩ | ring1))

end Roki
