import Verif.Lemmas.IKBufs
import Verif.Lemmas.JacobiSize
import Verif.Lemmas.IKRat
import Mathlib.Data.List.Sort
set_option autoImplicit false

/-!
# C40: the constraint equation of the inverse kinematics solver
-/

namespace Roki
open LinkArray
variable {K : Type*} [Field K] [LinearOrder K] [Zm K] [ZSqrt K]

/-- **C40** After any history of calls, the equation set up by `rkIKEq` has exactly one row for every axis that is
switched on of every constraint that is switched on, in the order of the constraints.  The coefficients of a row are
those columns of the Jacobian matrix of the constraint that belong to registered joints; the right-hand side is the
reference velocity without the motion of the joints that are not registered; the weight is that of the constraint on
the axis.  The evaluation is the square root of the sum of the squared weighted errors. -/
theorem C40_equation (c : Chain K) (jv : List (List K) → List K → List K → List K → List K → ℕ → K)
    (ho : setOffset c.link = c.link) (ops : List (IK.Op K)) (hs : ∀ o ∈ ops, o.Sized) (ik ik' : IK K)
    (h : (IK.create c jv).runAll ops = some ik) (hne : ik.clist ≠ []) (he : ik.eq = some ik') :
    ∃ bs, Spec.IkBlocks ik.chain ik.matCell ik.clist bs ik'.clist ∧ ik'.rows = (Spec.ikRows bs).length ∧
      ik'.eval = ZSqrt.sqrt ((bs.map fun b => Spec.ikSquare b.cell.attr.w b.err).sum) ∧
      ∃ M, ik'.cmat = some M ∧ ∀ (k : ℕ) b s, (Spec.ikRows bs)[k]? = some (b, s) →
        ∃ row e, M[k]? = some row ∧ row.length = ik.jvel.length ∧ ik'.csrv[k]? = some e ∧
          Spec.IkRow ik.chain.link (Spec.ikJoints c.link ops) ik.vel b.jac b.ref s row e ∧
          ik'.cwe[k]? = some (b.cell.attr.w.get s) := by
  have hj := IK.runAll_joints ops (IK.Joints.create c jv) h
  have hb := IK.runAll_bufs ho ops (IK.Joints.create c jv) (IK.Bufs.create c jv) hs h
  obtain ⟨bs, ys, hbs⟩ := IK.blocks_of_eq he
  obtain ⟨ik1, e1, hc, hr, hev, w, f⟩ := IK.eq_spec hj ho hb hne hbs
  rw [he] at e1
  cases e1
  obtain ⟨M, hM, _, hrow, hk⟩ := w.mat
  refine ⟨bs, by rw [hc]; exact hbs, hr, hev, M, hM, ?_⟩
  intro k b s hkb
  obtain ⟨row, e, a1, a2, a3, a4⟩ := hk k b s hkb
  have f1 : ik'.chain = ik.chain := by rw [f]
  have f2 : ik'.vel = ik.vel := by rw [f]
  rw [f1, f2] at a3
  exact ⟨row, e, a1, hrow row (List.mem_of_getElem? a1), a2, a3, a4⟩

/-- **C40** Whatever the history of calls was, `rkIKEq` stays inside its work space and does not use a null pointer, if
there is a constraint and every constraint that is switched on can be evaluated. -/
theorem C40_memory (c : Chain K) (jv : List (List K) → List K → List K → List K → List K → ℕ → K)
    (ho : setOffset c.link = c.link) (ops : List (IK.Op K)) (hs : ∀ o ∈ ops, o.Sized) (ik : IK K)
    (h : (IK.create c jv).runAll ops = some ik) (hne : ik.clist ≠ [])
    (hbs : ∃ bs ys, Spec.IkBlocks ik.chain ik.matCell ik.clist bs ys) : ∃ ik', ik.eq = some ik' := by
  obtain ⟨bs, ys, hbs⟩ := hbs
  obtain ⟨ik1, e1, _⟩ := IK.eq_spec (IK.runAll_joints ops (IK.Joints.create c jv) h) ho
    (IK.runAll_bufs ho ops (IK.Joints.create c jv) (IK.Bufs.create c jv) hs h) hne hbs
  exact ⟨ik1, e1⟩

/-- The built-in kinds of constraints keep the size of the matrix. -/
theorem C40_builtin (acm : IKAcm K → Vec3 K → IKAcm K × Vec3 K) :
    IK.KeepsSize (IKFns.wldPos (K := K)) ∧ IK.KeepsSize (IKFns.wldAtt acm) ∧ IK.KeepsSize (IKFns.l2lPos (K := K)) ∧
    IK.KeepsSize (IKFns.l2lAtt acm) ∧ IK.KeepsSize (IKFns.com (K := K)) ∧ IK.KeepsSize (IKFns.am acm) ∧
    IK.KeepsSize (IKFns.amCOM acm) :=
  ⟨Jacobi.wldPos_sized, Jacobi.wldAtt_sized acm, Jacobi.l2lPos_sized, Jacobi.l2lAtt_sized acm, Jacobi.com_sized,
    Jacobi.am_sized acm, Jacobi.amCOM_sized acm⟩

theorem range_filter_split (P : ℕ → Bool) (n i : ℕ) (hi : i < n) (hp : P i = true) :
    ∃ post, (List.range n).filter P = (List.range i).filter P ++ i :: post := by
  obtain ⟨k, rfl⟩ : ∃ k, n = i + (1 + k) := ⟨n - i - 1, by omega⟩
  refine ⟨(((List.range k).map (1 + ·)).map (i + ·)).filter P, ?_⟩
  rw [List.range_add, List.filter_append, List.range_add]
  simp [hp]

omit [LinearOrder K] [Zm K] in
/-- **C40** `rkIKSolveRate` hands exactly the rows of the equation to the solver of the velocities, gives every
registered joint the components of the solution at its position, and leaves the velocities of the other joints. -/
theorem C40_velocity [LinearOrder K] [Zm K] (c : Chain K) (jv : List (List K) → List K → List K → List K → List K → ℕ → K)
    (ho : setOffset c.link = c.link) (ops : List (IK.Op K)) (ik ik' : IK K)
    (h : (IK.create c jv).runAll ops = some ik) (hreg : ∃ i, (Spec.ikJoints c.link ops i).isSome)
    (he : ik.solveRate = some ik') :
    (∃ q M, ik.eq = some q ∧ q.cmat = some M ∧
      ik'.jvel = (List.range q.jvel.length).map
        (q.jv (M.take q.rows) (q.csrv.take q.rows) q.jwn (q.cwe.take q.rows) q.jvel)) ∧
    (∀ i l, ik.chain.link[i]? = some l → (Spec.ikJoints c.link ops i).isSome → ∀ j < l.joint.prp.size,
      ik'.vel[l.offset.toNat + j]? = ik'.jvel[Spec.ikOfs ik.chain.link (Spec.ikJoints c.link ops) i + j]?) ∧
    (∀ i p, Spec.ikJoints c.link ops i = none → Spec.Owns ik.chain.link i p → ik'.vel[p]? = ik.vel[p]?) := by
  have hj := IK.runAll_joints ops (IK.Joints.create c jv) h
  change IK.Joints c.link (Spec.ikJoints c.link ops) ik at hj
  have henv := hj.env ho
  obtain ⟨_, _, idx, hidx, hsc⟩ := IK.solveRate_same he
  obtain ⟨i0, hi0⟩ := hreg
  have hix := (hj.idx ⟨i0, (henv.sw i0).1 hi0⟩).1
  rw [hidx] at hix
  have hix := Option.some.inj hix
  have hmem : ∀ i, i ∈ idx ↔ (Spec.ikJoints c.link ops i).isSome := by
    intro i; rw [hix, IK.mem_indexFrom, henv.sw]; simp
  have hsort : idx.Pairwise (· < ·) := by rw [hix]; exact IK.indexFrom_sorted _ _
  refine ⟨?_, ?_, ?_⟩
  · simp only [IK.solveRate, Option.bind_eq_bind, Option.bind_eq_some_iff, pure, Option.some.injEq] at he
    obtain ⟨q, h1, M, hM, vel, _, rfl⟩ := he
    exact ⟨q, M, h1, hM, rfl⟩
  · intro i l hl hi j hjs
    have hlt : i < ik.chain.link.length := (List.getElem?_eq_some_iff.1 hl).1
    have hidx' : idx = (List.range ik.chain.link.length).filter fun i => (Spec.ikJoints c.link ops i).isSome := by
      have hs2 : ((List.range ik.chain.link.length).filter fun i => (Spec.ikJoints c.link ops i).isSome).Pairwise
          (· < ·) := List.Pairwise.filter _ List.pairwise_lt_range
      refine List.Perm.eq_of_pairwise' (r := (· ≤ ·)) (hsort.imp le_of_lt) (hs2.imp le_of_lt) ?_
      rw [List.perm_ext_iff_of_nodup (hsort.imp ne_of_lt) (hs2.imp ne_of_lt)]
      intro a
      rw [hmem, List.mem_filter, List.mem_range]
      refine ⟨fun ha => ⟨?_, ha⟩, fun ha => ha.2⟩
      have := (henv.sw a).1 ha
      rw [← henv.lsw]
      exact (List.getElem?_eq_some_iff.1 this).1
    obtain ⟨post, hp⟩ := range_filter_split (fun i => (Spec.ikJoints c.link ops i).isSome) _ i hlt hi
    exact IK.scatter_at henv.ofs idx hsort hsc _ post i l (hidx'.trans hp) hl j hjs
  · intro i p hi hown
    refine IK.scatter_other _ _ hsc p fun k hk hown' => ?_
    have := owns_unique henv.ofs hown hown'
    rw [hmem, ← this, hi] at hk
    simp at hk

set_option synthInstance.maxSize 1000 in
/-- A constraint with three axes, and a joint that is not registered and moves. -/
example : ∃ (ops : List (IK.Op ℚ)) (ik ik' : IK ℚ), setOffset Sample.sliders.link = Sample.sliders.link ∧
    (∀ o ∈ ops, o.Sized) ∧ Sample.ik.runAll ops = some ik ∧ ik.clist ≠ [] ∧ ik.eq = some ik' ∧ ik'.rows = 3 ∧
    ik'.cmat = some [[0], [0], [1]] ∧ ik'.csrv = [0, 0, 2 / 3] ∧ ik'.cwe = [1, 1, 1] ∧ ik'.eval = 1 := by
  have key : (Sample.ik.runAll [.jointReg 0 1, Sample.regPos 5 1, .setRef 5 0 0 1, .solveRate, .jointReg 1 1,
      .jointUnreg 0]).bind (fun s => s.eq.map fun t =>
        ((s.clist.length, t.rows), t.cmat, (t.csrv, t.cwe), t.eval)) =
      some ((1, 3), some [[0], [0], [1]], ([0, 0, 2 / 3], [1, 1, 1]), 1) := by decide +kernel
  simp only [Option.bind_eq_some_iff, Option.map_eq_some_iff, Prod.mk.injEq] at key
  obtain ⟨ik, h, ik', h1, ⟨h2, h3⟩, h4, ⟨h5, h6⟩, h7⟩ := key
  refine ⟨_, ik, ik', rfl, ?_, h, ?_, h1, h3, h4, h5, h6, h7⟩
  · simp [IK.Op.Sized, Sample.regPos, Jacobi.wldPos_sized]
  · intro hh; rw [hh] at h2; simp at h2

/-- **C40 fails** while no constraint has ever been registered: `rkIKEq` sets the size of a matrix that does not
exist. -/
theorem C40_empty_fails (c : Chain K) (jv : List (List K) → List K → List K → List K → List K → ℕ → K) (ops : List (IK.Op K))
    (hops : ∀ o ∈ ops, ∃ id w, o = .jointReg id w) (ik : IK K) (h : (IK.create c jv).runAll ops = some ik) :
    ik.eq = none := by
  have key : ∀ (ops : List (IK.Op K)), (∀ o ∈ ops, ∃ id w, o = .jointReg id w) → ∀ a : IK K, a.clist = [] → a.cmat = none →
      ∀ b, a.runAll ops = some b → b.clist = [] ∧ b.cmat = none := by
    intro ops
    induction ops with
    | nil => intro _ a h1 h2 b hb; simp only [IK.runAll, Option.some.injEq] at hb; subst hb; exact ⟨h1, h2⟩
    | cons o ops ih =>
      intro ho a h1 h2 b hb
      obtain ⟨id, w, rfl⟩ := ho o (by simp)
      simp only [IK.runAll, IK.Op.run, Option.bind_eq_some_iff, Option.map_eq_some_iff] at hb
      obtain ⟨a', ⟨⟨ok, a''⟩, hr, rfl⟩, hb⟩ := hb
      refine ih (fun o h => ho o (List.mem_cons_of_mem _ h)) _ ?_ ?_ b hb <;>
      · simp only [IK.jointReg, IK.jointReg'] at hr
        split_ifs at hr
        · simp only [Option.some.injEq, Prod.mk.injEq] at hr
          rw [← hr.2]; assumption
        · simp only [Option.map_eq_some_iff, Prod.mk.injEq] at hr
          obtain ⟨x, hr, _, rfl⟩ := hr
          simp only [IK.allocJointIndex] at hr
          split_ifs at hr
          · rw [← Option.some.inj hr]; assumption
          · simp only [Option.bind_eq_some_iff] at hr
            obtain ⟨n, _, wn, _, hr⟩ := hr
            simp only [IK.allocCMat, h1, List.length_nil, if_true, Option.some.injEq] at hr
            subst hr; first | rfl | assumption
  obtain ⟨h1, h2⟩ := key ops hops _ rfl rfl ik h
  simp [IK.eq, h1, IK.eqCells, h2]

end Roki
