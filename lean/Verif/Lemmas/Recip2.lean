import Verif.Lemmas.Recip

/-! # Reciprocity on trees -/

namespace Roki
set_option autoImplicit false
set_option linter.unusedSectionVars false
open Spec LinkArray
variable {K : Type*} [Field K] [LinearOrder K] [IsStrictOrderedRing K] [Zm K] [LawfulZm K]

/-- Sum over three trees of the same shape. -/
def LTree.sum3 {α : Type*} (f : α → α → α → K) : LTree α → LTree α → LTree α → K
  | .node u c s, .node a c' s', .node b c'' s'' => f u a b + sum3 f c c' c'' + sum3 f s s' s''
  | _, _, _ => 0

/-- Sum over the links of three chains, in the order of the tree and in the order of the array. -/
theorem sum3_gather {f : Link K → Link K → Link K → K} {t : LTree ℕ} {l1 l2 l3 : List (Link K)}
    {U A B : LTree (Link K)} (h1 : Chain.gather l1 t = some U) (h2 : Chain.gather l2 t = some A)
    (h3 : Chain.gather l3 t = some B) :
    LTree.sum3 f U A B = (t.toList.map fun i => match l1[i]?, l2[i]?, l3[i]? with
      | some u, some a, some b => f u a b
      | _, _, _ => 0).sum := by
  induction t generalizing U A B with
  | nil =>
    simp only [Chain.gather, Option.some.injEq] at h1 h2 h3
    subst h1 h2 h3; simp [LTree.sum3, LTree.toList]
  | node i c s ihc ihs =>
    obtain ⟨u, c1, s1, a1, a2, a3, rfl⟩ := Chain.gather_node.1 h1
    obtain ⟨a, c2, s2, b1, b2, b3, rfl⟩ := Chain.gather_node.1 h2
    obtain ⟨b, c3, s3, d1, d2, d3, rfl⟩ := Chain.gather_node.1 h3
    simp only [LTree.sum3, LTree.toList, List.map_cons, List.map_append, List.sum_cons, List.sum_append, a1, b1, d1,
      ihc a2 b2 d2, ihs a3 b3 d3]
    ring

theorem sum3_chain {f : Link K → Link K → Link K → K} {t : LTree ℕ} {l1 l2 l3 : List (Link K)}
    {U A B : LTree (Link K)} (h1 : Chain.gather l1 t = some U) (h2 : Chain.gather l2 t = some A)
    (h3 : Chain.gather l3 t = some B) (hp : t.toList.Perm (List.range l1.length)) :
    LTree.sum3 f U A B = ((List.range l1.length).map fun i => match l1[i]?, l2[i]?, l3[i]? with
      | some u, some a, some b => f u a b
      | _, _, _ => 0).sum := by
  rw [sum3_gather h1 h2 h3]; exact (hp.map _).sum_eq

/-- The acceleration of a joint with one degree of freedom. -/
def Prp.acc1 : Prp K → K
  | .revol p => p.acc
  | .prism p => p.acc
  | _ => 0

/-- What the loads of run `a` do along the response of run `b`. -/
def loadTerm (u a b : Link K) : K := (a.abi.w - u.abi.w).dot6 (b.body.acc - u.body.acc)

/-- What masses and motors take up. -/
def massTerm (u a b : Link K) : K :=
  (u.abi.m.mulVec (a.body.acc - u.body.acc)).dot6 (b.body.acc - u.body.acc) +
    u.joint.prp.motorInertia * ((a.joint.prp.acc1 - u.joint.prp.acc1) * (b.joint.prp.acc1 - u.joint.prp.acc1))

theorem Prp.core_motor {p q : Prp K} (h : p.core = q.core) : p.motorInertia = q.motorInertia := by
  cases p <;> cases q <;> simp [Prp.core] at h <;> simp_all [Prp.motorInertia, Prp.getMotor]

theorem Vec6.mul_sub_mul (m : Mat6 K) (v w : Vec6 K) : m.mulVec (v - w) = m.mulVec v - m.mulVec w := by vec_ring

/-- The power at the joint of a link. -/
theorem joint_power {fx : Bool} {pu pa pb : Vec6 K} {u a b : Link K} {cu ca cb : LTree (Link K)}
    (ea : a.frozen = u.frozen) (eb : b.frozen = u.frozen) (hg : u.joint.prp.ABIRootGood)
    (hu : LTree.NodeEq fx pu u cu) (ha : LTree.NodeEq fx pa a ca) (hb : LTree.NodeEq fx pb b cb) :
    (a.joint.wrench - u.joint.wrench).dot6 (b.body.acc - u.body.acc) =
      (u.adj.xform6Ang (a.joint.wrench - u.joint.wrench)).dot6 (pb - pu) -
        u.joint.prp.motorInertia * ((a.joint.prp.acc1 - u.joint.prp.acc1) * (b.joint.prp.acc1 - u.joint.prp.acc1)) := by
  simp only [Link.frozen, Prod.mk.injEq] at ea eb
  obtain ⟨pa1, pa2, -, -, -, pa6, -, -⟩ := ea
  obtain ⟨pb1, pb2, -, -, -, pb6, -, -⟩ := eb
  have dual : ∀ (F : Frame K) (f v w : Vec6 K), f.dot6 (F.xform6Lin v - F.xform6Lin w) = (F.xform6Ang f).dot6 (v - w) := by
    intro F f v w; vec_ring
  have hacc := hb.acc
  have hacu := hu.acc
  have hja := ha.joint
  have hju := hu.joint
  have hfa := ha.float
  have hfu := hu.float
  have rigid : b.body.acc = b.adj.xform6Lin pb + b.abi.c → u.body.acc = u.adj.xform6Lin pu + u.abi.c →
      (a.joint.wrench - u.joint.wrench).dot6 (b.body.acc - u.body.acc) =
        (u.adj.xform6Ang (a.joint.wrench - u.joint.wrench)).dot6 (pb - pu) := by
    intro h1 h2
    rw [h1, h2, pb2, pb6, ← dual]
    congr 1
    generalize u.adj.xform6Lin pb = s
    generalize u.adj.xform6Lin pu = t
    vec_ring
  have free : a.joint.wrench = 0 → u.joint.wrench = 0 →
      (a.joint.wrench - u.joint.wrench).dot6 (b.body.acc - u.body.acc) =
        (u.adj.xform6Ang (a.joint.wrench - u.joint.wrench)).dot6 (pb - pu) := by
    intro h1 h2
    rw [h1, h2]
    have : (0 : Vec6 K) - 0 = 0 := by vec_ring
    rw [this, Frame.xform6Ang_zero]
    vec_ring
  generalize hpu : u.joint.prp = qu at *
  generalize hpa : a.joint.prp = qa at *
  generalize hpb : b.joint.prp = qb at *
  cases qu with
  | fixed =>
    cases qa <;> simp [Prp.core] at pa1
    cases qb <;> simp [Prp.core] at pb1
    simp only [LTree.AccEq, hpb, hpu, Prp.incAcc] at hacc hacu
    rw [rigid hacc hacu]; simp [Prp.acc1]
  | revol p =>
    cases qa <;> simp only [Prp.core, reduceCtorEq, Prp.revol.injEq] at pa1
    cases qb <;> simp only [Prp.core, reduceCtorEq, Prp.revol.injEq] at pb1
    rename_i qa qb
    simp only [Dof1.mk.injEq] at pa1 pb1
    simp only [LTree.AccEq, hpb, hpu, Prp.incAcc] at hacc hacu
    simp only [Prp.JointEq, drivingTrq_eq] at hja hju
    have e : b.body.acc - u.body.acc = (u.adj.xform6Lin pb - u.adj.xform6Lin pu) + (⟨0, ⟨0, 0, qb.acc - p.acc⟩⟩ : Vec6 K) := by
      rw [hacc, hacu, pb2, pb6]
      generalize u.adj.xform6Lin pb = s
      generalize u.adj.xform6Lin pu = t
      vec_ring
    have e2 : ∀ (f v : Vec6 K) (z : K), f.dot6 (v + ⟨0, ⟨0, 0, z⟩⟩) = f.dot6 v + f.ang.z * z := by intro f v z; vec_ring
    have e3 : (a.joint.wrench - u.joint.wrench).ang.z = - (p.motor.inertia * (qa.acc - p.acc)) := by
      have : (a.joint.wrench - u.joint.wrench).ang.z = a.joint.wrench.ang.z - u.joint.wrench.ang.z := rfl
      rw [this, hja, hju]
      have m1 : qa.motor = p.motor := by tauto
      have m2 : qa.vel = p.vel := by tauto
      have m3 : qa.tf = p.tf := by tauto
      rw [m1, m2, m3]; ring
    rw [e, e2, dual, e3]
    simp only [Prp.motorInertia, Prp.getMotor, Prp.acc1]
    ring
  | prism p =>
    cases qa <;> simp only [Prp.core, reduceCtorEq, Prp.prism.injEq] at pa1
    cases qb <;> simp only [Prp.core, reduceCtorEq, Prp.prism.injEq] at pb1
    rename_i qa qb
    simp only [Dof1.mk.injEq] at pa1 pb1
    simp only [LTree.AccEq, hpb, hpu, Prp.incAcc] at hacc hacu
    simp only [Prp.JointEq, drivingTrq_eq] at hja hju
    have e : b.body.acc - u.body.acc = (u.adj.xform6Lin pb - u.adj.xform6Lin pu) + (⟨⟨0, 0, qb.acc - p.acc⟩, 0⟩ : Vec6 K) := by
      rw [hacc, hacu, pb2, pb6]
      generalize u.adj.xform6Lin pb = s
      generalize u.adj.xform6Lin pu = t
      vec_ring
    have e2 : ∀ (f v : Vec6 K) (z : K), f.dot6 (v + ⟨⟨0, 0, z⟩, 0⟩) = f.dot6 v + f.lin.z * z := by intro f v z; vec_ring
    have e3 : (a.joint.wrench - u.joint.wrench).lin.z = - (p.motor.inertia * (qa.acc - p.acc)) := by
      have : (a.joint.wrench - u.joint.wrench).lin.z = a.joint.wrench.lin.z - u.joint.wrench.lin.z := rfl
      rw [this, hja, hju]
      have m1 : qa.motor = p.motor := by tauto
      have m2 : qa.vel = p.vel := by tauto
      have m3 : qa.tf = p.tf := by tauto
      rw [m1, m2, m3]; ring
    rw [e, e2, dual, e3]
    simp only [Prp.motorInertia, Prp.getMotor, Prp.acc1]
    ring
  | cylin p => exact absurd hg (by simp [Prp.ABIGood, Prp.ABIRootGood])
  | hooke p => exact absurd hg (by simp [Prp.ABIGood, Prp.ABIRootGood])
  | spher p => exact absurd hg (by simp [Prp.ABIGood, Prp.ABIRootGood])
  | float p =>
    cases qa <;> simp only [Prp.core, reduceCtorEq] at pa1
    simp only [LTree.FloatEq, hpa, hpu] at hfa hfu
    rw [free hfa hfu]; simp [Prp.motorInertia, Prp.getMotor]
  | brfloat p =>
    cases qa <;> simp only [Prp.core, reduceCtorEq] at pa1
    cases qb <;> simp only [Prp.core, reduceCtorEq] at pb1
    cases fx with
    | true =>
      simp only [LTree.AccEq, hpb, hpu, if_true] at hacc hacu
      rw [rigid hacc hacu]; simp [Prp.motorInertia, Prp.getMotor]
    | false =>
      simp only [LTree.FloatEq, hpa, hpu, forall_const] at hfa hfu
      rw [free hfa hfu]; simp [Prp.motorInertia, Prp.getMotor]

/-- **The work of the loads** of one run along the response of another is what masses and motors take up, and what is
transmitted to the parent. -/
theorem recip_tree {x y : K} {wr fx : Bool} {T : Run → LTree (Link K)} (h : Fam (Done wr x y) T)
    (hg : ∀ l ∈ (T .o).toList, l.joint.prp.ABIRootGood) {p : Run → Vec6 K} (hd : ∀ k, (T k).Dyn fx (p k)) (ka kb : Run) :
    LTree.sum3 loadTerm (T .o) (T ka) (T kb) +
      ((T ka).addChildWrench 0 - (T .o).addChildWrench 0).dot6 (p kb - p .o) =
      LTree.sum3 massTerm (T .o) (T ka) (T kb) := by
  induction h generalizing p with
  | nil =>
    simp only [LTree.sum3, LTree.addChildWrench]
    vec_ring
  | node r _ _ ihc ihs =>
    rename_i l c s _ _
    simp only [LTree.toList, List.mem_cons, List.mem_append] at hg
    have hc := ihc (fun m hm => hg m (.inr (.inl hm))) (p := fun k => (l k).body.acc) (fun k => (hd k).2.1)
    have hs := ihs (fun m hm => hg m (.inr (.inr hm))) (p := p) (fun k => (hd k).2.2)
    have hp := joint_power (r.frozen ka) (r.frozen kb) (hg _ (.inl rfl)) (hd .o).1 (hd ka).1 (hd kb).1
    have ba := (hd ka).1.balance
    have bo := (hd .o).1.balance
    have fa := r.frozen ka
    simp only [Link.frozen, Prod.mk.injEq] at fa
    obtain ⟨-, fadj, -, -, fm, -, ff, -⟩ := fa
    have e1 : (l ka).abi.w - (l .o).abi.w = (l .o).abi.m.mulVec ((l ka).body.acc - (l .o).body.acc) +
        ((c ka).addChildWrench 0 - (c .o).addChildWrench 0) - ((l ka).joint.wrench - (l .o).joint.wrench) := by
      rw [ba, bo, fm, ff, Vec6.mul_sub_mul]
      generalize (l .o).abi.m.mulVec (l ka).body.acc = s1
      generalize (l .o).abi.m.mulVec (l .o).body.acc = s2
      abel
    have e2 : ∀ a b c d : Vec6 K, (a + b - c).dot6 d = a.dot6 d + b.dot6 d - c.dot6 d := by intro a b c d; vec_ring
    have e3 : ∀ k, (LTree.node (l k) (c k) (s k)).addChildWrench 0 =
        (l k).adj.xform6Ang (l k).joint.wrench + (s k).addChildWrench 0 := by
      intro k
      simp only [LTree.addChildWrench]
      rw [LTree.addChildWrench_eq]; simp
    have e4 : ∀ a b c d e : Vec6 K, ((a + b) - (c + d)).dot6 e = (a - c).dot6 e + (b - d).dot6 e := by
      intro a b c d e; vec_ring
    simp only [LTree.sum3]
    rw [e3, e3, e4, fadj, ← Frame.xform6Ang_sub]
    simp only [loadTerm, massTerm] at hc hs ⊢
    rw [e1, e2, hp]
    linear_combination hc + hs

theorem mass_symm {u a b : Link K} (h : u.abi.m.Symm) : massTerm u a b = massTerm u b a := by
  have : ∀ (m : Mat6 K) (v w : Vec6 K), m.Symm → (m.mulVec v).dot6 w = (m.mulVec w).dot6 v := by
    intro m v w h
    have h1 : m.tr = m := h
    have : (m.mulVec v).dot6 w = (m.tr.mulVec w).dot6 v := by simp only [Mat6.tr]; vec_ring
    rw [this, h1]
  simp only [massTerm]
  rw [this _ _ _ h]; ring

theorem sum3_symm {x y : K} {wr : Bool} {T : Run → LTree (Link K)} (h : Fam (Done wr x y) T)
    (hs : ∀ l ∈ (T .o).toList, l.abi.m.Symm) :
    LTree.sum3 massTerm (T .o) (T .a) (T .b) = LTree.sum3 massTerm (T .o) (T .b) (T .a) := by
  induction h with
  | nil => rfl
  | node r _ _ ihc ihs =>
    simp only [LTree.toList, List.mem_cons, List.mem_append] at hs
    simp only [LTree.sum3]
    rw [mass_symm (hs _ (.inl rfl)), ihc fun m hm => hs m (.inr (.inl hm)), ihs fun m hm => hs m (.inr (.inr hm))]

theorem sum3_nonneg {x y : K} {wr : Bool} {T : Run → LTree (Link K)}
    (h : Fam (Done wr x y) T) (hs : ∀ l ∈ (T .o).toList, l.abi.m.Psd ∧ 0 ≤ l.joint.prp.motorInertia) :
    0 ≤ LTree.sum3 massTerm (T .o) (T .a) (T .a) := by
  induction h with
  | nil => exact le_refl _
  | node r _ _ ihc ihs =>
    simp only [LTree.toList, List.mem_cons, List.mem_append] at hs
    simp only [LTree.sum3]
    refine add_nonneg (add_nonneg ?_ (ihc fun m hm => hs m (.inr (.inl hm)))) (ihs fun m hm => hs m (.inr (.inr hm)))
    obtain ⟨h1, h2⟩ := hs _ (.inl rfl)
    refine add_nonneg ?_ (mul_nonneg h2 (mul_self_nonneg _))
    have := h1 ((‹Run → Link K› .a).body.acc - (‹Run → Link K› .o).body.acc)
    have c : ∀ v w : Vec6 K, v.dot6 w = w.dot6 v := by intro v w; vec_ring
    rw [c]; exact this

end Roki
