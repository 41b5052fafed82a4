import Verif.Lemmas.IKStep
import Verif.Lemmas.IKRat
import Mathlib.Tactic.FinCases
set_option autoImplicit false

/-!
# C36-C39: constraints and joints of the inverse kinematics solver, and its main loop
-/

namespace Roki
open LinkArray
variable {K : Type*} [Field K] [LinearOrder K] [Zm K] [ZSqrt K]

/-! ## C36 -/

/-- **C36** After any history of calls on a solver, the registered constraints with their identifiers are those
of the table of the history, in which a registration takes the least identifier not in use and an
unregistration removes that constraint only; the identifiers are pairwise distinct, and so are the addresses. -/
theorem C36_identifiers (c : Chain K) (jv : List (List K) → List K → List K → List K → List K → ℕ → K)
    (ops : List (IK.Op K)) (ik : IK K) (hf : Spec.FreshFrom [] ops) (h : (IK.create c jv).runAll ops = some ik) :
    (ik.clist.map fun x => (x.ptr, x.id)).Perm (Spec.ikTable ops) ∧
    (ik.clist.map fun x => x.id).Pairwise (· < ·) ∧ (ik.clist.map fun x => x.ptr).Nodup := by
  have ht : IK.Table (IK.create c jv) [] := ⟨List.Perm.refl _, List.Pairwise.nil, List.nodup_nil⟩
  have e := IK.runAll_table ops (IK.Joints.create c jv) ht hf h
  refine ⟨e.perm, ?_, ?_⟩
  · have := e.sorted
    rw [List.pairwise_map] at this ⊢
    exact this
  · have := ((e.perm.map Prod.fst).nodup_iff).2 e.nodup
    rwa [List.map_map] at this

/-- **C36** Looking up an identifier returns exactly the constraint that holds it, and nothing if none does. -/
theorem C36_lookup (c : Chain K) (jv : List (List K) → List K → List K → List K → List K → ℕ → K)
    (ops : List (IK.Op K)) (ik : IK K) (hf : Spec.FreshFrom [] ops) (h : (IK.create c jv).runAll ops = some ik)
    (id : ℕ) :
    (∀ x, ik.findCell id = some x ↔ x ∈ ik.clist ∧ x.id = id) ∧
    (∀ ptr, (ik.findCell id).map (fun x => x.ptr) = some ptr ↔ (ptr, id) ∈ Spec.ikTable ops) ∧
    (ik.findCell id = none ↔ ∀ e ∈ Spec.ikTable ops, e.2 ≠ id) := by
  obtain ⟨hp, hs, -⟩ := C36_identifiers c jv ops ik hf h
  have key : ∀ x, ik.findCell id = some x ↔ x ∈ ik.clist ∧ x.id = id := by
    intro x
    constructor
    · intro h
      exact ⟨List.mem_of_find?_eq_some h, by simpa using List.find?_some h⟩
    · rintro ⟨hx, hid⟩
      cases hfc : ik.findCell id with
      | none =>
        have := List.find?_eq_none.1 hfc x hx
        simp [hid] at this
      | some y =>
        have hy : y ∈ ik.clist := List.mem_of_find?_eq_some hfc
        have hyid : y.id = id := by simpa using List.find?_some hfc
        rw [List.pairwise_map] at hs
        congr 1
        by_contra hne
        have hne' : ∀ a ∈ ik.clist, ∀ b ∈ ik.clist, a ≠ b → a.id ≠ b.id := by
          have hs' : ik.clist.Pairwise fun a b => a.id ≠ b.id := hs.imp fun h => Nat.ne_of_lt h
          intro a ha b hb hab
          haveI : Std.Symm fun a b : IKCell K => a.id ≠ b.id := ⟨fun _ _ h => h.symm⟩
          exact hs'.forall ha hb hab
        exact hne' y hy x hx hne (hyid.trans hid.symm)
  have hmem : ∀ ptr, (ptr, id) ∈ Spec.ikTable ops ↔ ∃ x ∈ ik.clist, x.ptr = ptr ∧ x.id = id := by
    intro ptr
    rw [← hp.mem_iff]
    simp
  refine ⟨key, fun ptr => ?_, ?_⟩
  · rw [hmem, Option.map_eq_some_iff]
    constructor
    · rintro ⟨x, hx, rfl⟩
      exact ⟨x, ((key x).1 hx).1, rfl, ((key x).1 hx).2⟩
    · rintro ⟨x, hx, rfl, hid⟩
      exact ⟨x, (key x).2 ⟨hx, hid⟩, rfl⟩
  · constructor
    · rintro h ⟨ptr, i⟩ he rfl
      obtain ⟨x, hx, _, hid⟩ := (hmem ptr).1 he
      rw [(key x).2 ⟨hx, hid⟩] at h
      simp at h
    · intro h
      cases hfc : ik.findCell id with
      | none => rfl
      | some x =>
        have := (key x).1 hfc
        exact absurd rfl (h (x.ptr, id) ((hmem x.ptr).2 ⟨x, this.1, rfl, this.2⟩))

/-- **C36** A new constraint is disabled, has zero reference and accumulated error, the attributes that the mask
selects, and defaults for the others; the other constraints are the same objects as before. -/
theorem C36_new_constraint (ik ik' : IK K) (ptr : ℕ) (attr : IKAttr K) (mask : IKMask) (fns : IKFns K)
    (hs : (ik.clist.map fun x => x.id).Pairwise (· < ·)) (h : ik.cellReg ptr (some attr) mask fns = some ik') :
    ∃ x : IKCell K, ik'.clist.Perm (x :: ik.clist) ∧ x.ptr = ptr ∧ x.id = Spec.leastUnused (ik.clist.map fun x => x.id) ∧
      x.attr.isDisabled = true ∧ x.attr.id = (if mask.id then attr.id else 0) ∧
      x.attr.idSub = (if mask.idSub then attr.idSub else 0) ∧ x.attr.ap = (if mask.ap then attr.ap else 0) ∧
      x.attr.force = mask.force ∧ x.attr.w = (if mask.weight then attr.w else ⟨1, 1, 1⟩) ∧
      x.ref = 0 ∧ x.acm = ⟨0, 0⟩ ∧ x.eval = 0 ∧ x.fns = fns := by
  have e := (IK.allocSRV_same h).2.1
  have hs' : IK.Sorted ik.clist := by rw [List.pairwise_map] at hs; exact hs
  obtain ⟨n, hp, -, hm, hx⟩ := IK.insertCell_spec (IKCell.init ptr (some attr) mask fns) ik.clist hs'
  refine ⟨{ IKCell.init ptr (some attr) mask fns with id := n }, ?_, rfl, ?_, rfl, rfl, rfl, rfl, rfl, rfl, rfl,
    rfl, rfl, rfl⟩
  · rw [e]; exact hp
  · exact (IK.leastUnused_eq (fun m hmn => by simpa using hm m hmn) (by simpa using hx)).symm

/-- A history with three registrations, the last of which reuses the identifier of an unregistered constraint. -/
example : ∃ (ops : List (IK.Op ℚ)) (ik : IK ℚ), Spec.FreshFrom [] ops ∧ Sample.ik.runAll ops = some ik ∧
    (ik.clist.map fun x => (x.ptr, x.id)) = [(7, 0), (6, 1)] ∧ (ik.findCell 1).map (fun x => x.ptr) = some 6 := by
  have key : (Sample.ik.runAll [.jointReg 0 1, Sample.regPos 5 0, Sample.regPos 6 1, .cellUnreg 5,
      Sample.regPos 7 1]).map (fun s => ((s.clist.map fun x => (x.ptr, x.id)), (s.findCell 1).map fun x => x.ptr)) =
      some ([(7, 0), (6, 1)], some 6) := by decide +kernel
  rw [Option.map_eq_some_iff] at key
  obtain ⟨ik, h, e⟩ := key
  simp only [Prod.mk.injEq] at e
  refine ⟨_, ik, ?_, h, e⟩
  simp [Spec.FreshFrom, Spec.ikTableStep, Sample.regPos]
  constructor <;> (rintro ptr _ _ _ rfl; simp)

/-- **C36 fails** while no joint has ever been registered: the registration of a constraint reads the joint index,
which has not been allocated, through a null pointer. -/
theorem C36_no_joint_fails (c : Chain K) (jv : List (List K) → List K → List K → List K → List K → ℕ → K)
    (ptr : ℕ) (attr : Option (IKAttr K)) (mask : IKMask) (fns : IKFns K) :
    (IK.create c jv).runAll [.cellReg ptr attr mask fns] = none := by
  simp [IK.runAll, IK.Op.run, IK.cellReg, IK.allocSRV, IK.allocCMat, IK.create, IK.insertCell]

/-! ## C37 -/

/-- **C37** As long as at least one joint is registered, the joint index lists exactly the registered joints in
link order, the reverse index holds the position of each registered joint among the components of the registered
joints and -1 for the others, the work vectors have one component per component of a registered joint, and the
weight of a joint is given to each of its components.  Missing is the case that no joint is registered, see
`C37_index_fails`. -/
theorem C37_index_partial (c : Chain K) (jv : List (List K) → List K → List K → List K → List K → ℕ → K)
    (ops : List (IK.Op K)) (ik : IK K) (h : (IK.create c jv).runAll ops = some ik)
    (hreg : ∃ i, (Spec.ikJoints c.link ops i).isSome) :
    (∃ idx, ik.jidx = some idx ∧ idx.Pairwise (· < ·) ∧
      ∀ i, i ∈ idx ↔ (Spec.ikJoints c.link ops i).isSome) ∧
    (∀ i w, Spec.ikJoints c.link ops i = some w → ∃ l, c.link[i]? = some l ∧ 0 < l.joint.prp.size ∧
      ik.jofs[i]? = some (Spec.ikOfs c.link (Spec.ikJoints c.link ops) i : ℤ) ∧
      (ik.jwn.drop (Spec.ikOfs c.link (Spec.ikJoints c.link ops) i)).take l.joint.prp.size =
        List.replicate l.joint.prp.size w) ∧
    (∀ i < c.link.length, Spec.ikJoints c.link ops i = none → ik.jofs[i]? = some (-1)) ∧
    ik.jvel.length = Spec.ikOfs c.link (Spec.ikJoints c.link ops) c.link.length ∧
    ik.jwn.length = Spec.ikOfs c.link (Spec.ikJoints c.link ops) c.link.length := by
  have e := IK.runAll_joints ops (IK.Joints.create c jv) h
  change IK.Joints c.link (Spec.ikJoints c.link ops) ik at e
  have hsw : ∀ i, (Spec.ikJoints c.link ops i).isSome ↔ ik.sw[i]? = some true := by
    intro i
    rw [e.reg]
    split_ifs with h1
    · have : i < ik.weight.length := by
        rw [e.lwt, ← e.lsw]; exact (List.getElem?_eq_some_iff.1 h1).1
      simp [h1, List.getElem?_eq_getElem this]
    · simp [h1]
  obtain ⟨i0, hi0⟩ := hreg
  obtain ⟨e1, e2, e3, e4⟩ := e.idx ⟨i0, (hsw i0).1 hi0⟩
  obtain ⟨w1, w2⟩ := IK.weights_slices c.link ik.weight ik.sw 0 c.link _ ik.jwn e.lsw (by simp) hsw e3
  refine ⟨⟨_, e1, IK.indexFrom_sorted _ _, fun i => ?_⟩, ?_, ?_, e4.trans w1, w1⟩
  · rw [hsw, IK.mem_indexFrom]; simp
  · intro i w hw
    have h1 := (hsw i).1 (by simp [hw])
    obtain ⟨w', l, a1, a2, a3⟩ := w2 i h1
    obtain ⟨l', hl', hs⟩ := e.mov i h1
    have : l' = l := by rw [hl'] at a2; exact Option.some.inj a2
    subst this
    have hr := e.reg i
    rw [if_pos h1, hw] at hr
    rw [Nat.zero_add] at a1
    rw [a1] at hr
    refine ⟨l', a2, hs, ?_, ?_⟩
    · rw [e2, IK.offsetsFrom_getElem? c.link ik.sw 0 i _ true e.lsw hsw h1]; simp
    · rw [Option.some.inj hr]; exact a3
  · intro i hi hn
    have h1 : ik.sw[i]? = some false := by
      have hlt : i < ik.sw.length := by rw [e.lsw]; exact hi
      rw [List.getElem?_eq_getElem hlt]
      by_contra hne
      have : ik.sw[i]? = some true := by
        rw [List.getElem?_eq_getElem hlt]
        cases hb : ik.sw[i] <;> simp_all
      have := (hsw i).2 this
      simp [hn] at this
    rw [e2, IK.offsetsFrom_getElem? c.link ik.sw 0 i _ false e.lsw hsw h1]; simp

/-- A history that ends with one of two registered joints, whose weight was changed. -/
example : ∃ (ops : List (IK.Op ℚ)) (ik : IK ℚ), Sample.ik.runAll ops = some ik ∧
    Spec.ikJoints Sample.sliders.link ops 0 = none ∧ Spec.ikJoints Sample.sliders.link ops 1 = some 3 ∧
    ik.jidx = some [1] ∧ ik.jofs = [-1, 0] ∧ ik.jwn = [3] := by
  have key : (Sample.ik.runAll [.jointRegAll 1, .jointReg 1 3, .jointUnreg 0]).map
      (fun s => (s.jidx, s.jofs, s.jwn)) = some (some [1], [-1, 0], [3]) := by decide +kernel
  rw [Option.map_eq_some_iff] at key
  obtain ⟨ik, h, e⟩ := key
  simp only [Prod.mk.injEq] at e
  have hm : Spec.Movable Sample.sliders.link 1 := ⟨_, rfl, by decide⟩
  refine ⟨_, ik, h, ?_, ?_, e⟩
  · simp [Spec.ikJoints, Spec.ikJointsStep]
  · simp [Spec.ikJoints, Spec.ikJointsStep, hm]

/-- **C37 fails**: after the only registered joint has been unregistered, the joint index still lists it, and the
work vectors keep its component. -/
theorem C37_index_fails : ∃ (ops : List (IK.Op ℚ)) (ik : IK ℚ), Sample.ik.runAll ops = some ik ∧
    (∀ i, Spec.ikJoints Sample.sliders.link ops i = none) ∧ ik.jidx = some [0] ∧ ik.jvel.length = 1 ∧
    ik.sw = [false, false] := by
  have key : (Sample.ik.runAll [.jointReg 0 1, .jointUnreg 0]).map (fun s => (s.jidx, s.jvel.length, s.sw)) =
      some (some [0], 1, [false, false]) := by decide +kernel
  rw [Option.map_eq_some_iff] at key
  obtain ⟨ik, h, e⟩ := key
  simp only [Prod.mk.injEq] at e
  refine ⟨_, ik, h, fun i => ?_, e.1, e.2.1, e.2.2⟩
  by_cases hi : i = 0
  · subst hi; simp [Spec.ikJoints, Spec.ikJointsStep]
  · simp [Spec.ikJoints, Spec.ikJointsStep, hi]

/-! ## C38 -/

namespace Spec
/-- The joint is at the same place: it has the same type and limits, gives the same transformation, and holds the
same displacements if they are not an orientation vector, which is not unique. -/
def SamePlace {K : Type*} [Field K] (p q : Prp K) : Prop :=
  jointConst q = jointConst p ∧ (∀ f, q.xform f = p.xform f) ∧ (Limited p → q.getDis = p.getDis)
end Spec

section
variable [IsStrictOrderedRing K] [LawfulZm K]

theorem rest_step (p : Prp K) (hs : p.Settled) (hr : Spec.Respects p p.getDis) (dis v d : List K) (dt : K) (q : Prp K)
    (hd : dis.take p.size = p.getDis) (hv : v.take p.size = List.replicate p.size 0)
    (hc : p.catDis dis dt v = some d) (hq : p.setDis d = some q) :
    Spec.SamePlace p q ∧ q.Settled ∧ Spec.Respects q q.getDis := by
  have ph := LawfulZm.phase_id (K := K)
  have casc : ∀ a : Vec3 K, Zm.fromAA (aaCascade a (dt • (0 : Vec3 K))) = Zm.fromAA a := by
    intro a
    have h0 : dt • (0 : Vec3 K) = 0 := by ext <;> simp
    rw [aaCascade, h0, LawfulZm.fromAA_zero, Mat3.one_mul', LawfulZm.fromAA_toAA _ (LawfulZm.fromAA_isRot _)]
  have z3 : (⟨0, 0, 0⟩ : Vec3 K) = 0 := rfl
  have ct : ∀ a : Vec3 K, cat a dt 0 = a := by intro a; ext <;> simp [cat]
  cases p
  case fixed =>
    simp only [Prp.setDis, Option.some.injEq] at hq
    subst hq
    exact ⟨⟨rfl, fun _ => rfl, fun _ => rfl⟩, hs, hr⟩
  case revol p =>
    obtain ⟨h1, h2, h3, h4⟩ := hs
    have hw := hr 0 _ _ _ rfl rfl rfl
    rcases dis with _ | ⟨x, dis⟩ <;> simp [Prp.size, Prp.getDis] at hd
    rcases v with _ | ⟨y, v⟩ <;> simp [Prp.size] at hv
    subst hd; subst hv
    simp only [Prp.catDis, mul_zero, add_zero, Option.some.injEq] at hc
    subst hc
    simp only [Prp.setDis, ph _ h1 h2, limit_eq_self hw, Option.some.injEq] at hq
    subst hq
    exact ⟨⟨rfl, fun f => by simp [Prp.xform, h3, h4], fun _ => rfl⟩, ⟨h1, h2, rfl, rfl⟩, hr⟩
  case prism p =>
    have hw := hr 0 _ _ _ rfl rfl rfl
    rcases dis with _ | ⟨x, dis⟩ <;> simp [Prp.size, Prp.getDis] at hd
    rcases v with _ | ⟨y, v⟩ <;> simp [Prp.size] at hv
    subst hd; subst hv
    simp only [Prp.catDis, mul_zero, add_zero, Option.some.injEq] at hc
    subst hc
    simp only [Prp.setDis, limit_eq_self hw, Option.some.injEq] at hq
    subst hq
    exact ⟨⟨rfl, fun f => rfl, fun _ => rfl⟩, trivial, hr⟩
  case cylin p =>
    obtain ⟨h1, h2, h3, h4⟩ := hs
    have hw := hr 0 _ _ _ rfl rfl rfl
    have hw1 := hr 1 _ _ _ rfl rfl rfl
    rcases dis with _ | ⟨x, _ | ⟨x1, dis⟩⟩ <;> simp [Prp.size, Prp.getDis] at hd
    rcases v with _ | ⟨y, _ | ⟨y1, v⟩⟩ <;> simp [Prp.size, List.replicate] at hv
    obtain ⟨rfl, rfl⟩ := hd
    obtain ⟨rfl, rfl⟩ := hv
    simp only [Prp.catDis, zero_mul, add_zero, Option.some.injEq] at hc
    subst hc
    simp only [Prp.setDis, ph _ h1 h2, limit_eq_self hw, limit_eq_self hw1, Option.some.injEq] at hq
    subst hq
    exact ⟨⟨rfl, fun f => by simp [Prp.xform, h3, h4], fun _ => rfl⟩, ⟨h1, h2, rfl, rfl⟩, hr⟩
  case hooke p =>
    obtain ⟨h1, h2, h3, h4, h5, h6, h7, h8⟩ := hs
    have hw := hr 0 _ _ _ rfl rfl rfl
    have hw1 := hr 1 _ _ _ rfl rfl rfl
    rcases dis with _ | ⟨x, _ | ⟨x1, dis⟩⟩ <;> simp [Prp.size, Prp.getDis] at hd
    rcases v with _ | ⟨y, _ | ⟨y1, v⟩⟩ <;> simp [Prp.size, List.replicate] at hv
    obtain ⟨rfl, rfl⟩ := hd
    obtain ⟨rfl, rfl⟩ := hv
    simp only [Prp.catDis, zero_mul, add_zero, Option.some.injEq] at hc
    subst hc
    simp only [Prp.setDis, ph _ h1 h2, ph _ h5 h6, limit_eq_self hw, limit_eq_self hw1, Option.some.injEq] at hq
    subst hq
    exact ⟨⟨rfl, fun f => by simp [Prp.xform, h3, h4, h7, h8], fun _ => rfl⟩,
      ⟨h1, h2, rfl, rfl, h5, h6, rfl, rfl⟩, hr⟩
  case spher p =>
    rcases dis with _ | ⟨x, _ | ⟨x1, _ | ⟨x2, dis⟩⟩⟩ <;> simp [Prp.size, Prp.getDis, Vec3.toBuf] at hd
    rcases v with _ | ⟨y, _ | ⟨y1, _ | ⟨y2, v⟩⟩⟩ <;> simp [Prp.size, List.replicate] at hv
    obtain ⟨rfl, rfl, rfl⟩ := hd
    obtain ⟨rfl, rfl, rfl⟩ := hv
    simp only [Prp.catDis, Vec3.ofBuf, Option.some.injEq, z3] at hc
    subst hc
    simp only [Prp.setDis, Vec3.toBuf, Vec3.ofBuf, Option.some.injEq, Option.map_some] at hq
    subst hq
    refine ⟨⟨rfl, fun f => ?_, fun h => h.elim⟩, rfl, ?_⟩
    · simp only [Prp.xform]
      rw [show p.att = Zm.fromAA p.aa from hs]
      exact congrArg (fun m => (⟨f.pos, f.att.mul m⟩ : Frame K)) (casc _)
    · intro i x lo hi _ h1 h2
      simp only [Prp.getMin, Prp.getMax] at h1 h2
      rcases i with _ | _ | _ | i <;> simp at h1 h2 <;> subst h1 <;> subst h2 <;> simp [Spec.Within]
  case float p =>
    rcases dis with _ | ⟨x, _ | ⟨x1, _ | ⟨x2, _ | ⟨x3, _ | ⟨x4, _ | ⟨x5, dis⟩⟩⟩⟩⟩⟩ <;>
      simp [Prp.size, Prp.getDis, Vec6.toBuf, Vec3.toBuf] at hd
    rcases v with _ | ⟨y, _ | ⟨y1, _ | ⟨y2, _ | ⟨y3, _ | ⟨y4, _ | ⟨y5, v⟩⟩⟩⟩⟩⟩ <;>
      simp [Prp.size, List.replicate] at hv
    obtain ⟨rfl, rfl, rfl, rfl, rfl, rfl⟩ := hd
    obtain ⟨rfl, rfl, rfl, rfl, rfl, rfl⟩ := hv
    simp only [Prp.catDis, Vec6.ofBuf, Vec3.ofBuf, Option.some.injEq, z3, ct] at hc
    subst hc
    simp only [Prp.setDis, Vec6.toBuf, Vec3.toBuf, Vec6.ofBuf, Vec3.ofBuf, List.cons_append, List.nil_append,
      Option.some.injEq, Option.map_some] at hq
    subst hq
    refine ⟨⟨rfl, fun f => ?_, fun h => h.elim⟩, rfl, ?_⟩
    · simp only [Prp.xform]
      rw [show p.att = Zm.fromAA p.dis.ang from hs]
      exact congrArg (fun m => (⟨f.xform p.dis.lin, f.att.mul m⟩ : Frame K)) (casc _)
    · intro i x lo hi _ h1 h2
      simp only [Prp.getMin, Prp.getMax] at h1 h2
      rcases i with _ | _ | _ | _ | _ | _ | i <;> simp at h1 h2 <;> subst h1 <;> subst h2 <;> simp [Spec.Within]
  case brfloat p =>
    rcases dis with _ | ⟨x, _ | ⟨x1, _ | ⟨x2, _ | ⟨x3, _ | ⟨x4, _ | ⟨x5, dis⟩⟩⟩⟩⟩⟩ <;>
      simp [Prp.size, Prp.getDis, Vec6.toBuf, Vec3.toBuf] at hd
    rcases v with _ | ⟨y, _ | ⟨y1, _ | ⟨y2, _ | ⟨y3, _ | ⟨y4, _ | ⟨y5, v⟩⟩⟩⟩⟩⟩ <;>
      simp [Prp.size, List.replicate] at hv
    obtain ⟨rfl, rfl, rfl, rfl, rfl, rfl⟩ := hd
    obtain ⟨rfl, rfl, rfl, rfl, rfl, rfl⟩ := hv
    simp only [Prp.catDis, Vec6.ofBuf, Vec3.ofBuf, Option.some.injEq, z3, ct] at hc
    subst hc
    simp only [Prp.setDis, Vec6.toBuf, Vec3.toBuf, Vec6.ofBuf, Vec3.ofBuf, List.cons_append, List.nil_append,
      Option.some.injEq, Option.map_some] at hq
    subst hq
    refine ⟨⟨rfl, fun f => ?_, fun h => h.elim⟩, rfl, ?_⟩
    · simp only [Prp.xform]
      rw [show p.att = Zm.fromAA p.dis.ang from hs]
      exact congrArg (fun m => (⟨f.xform p.dis.lin, f.att.mul m⟩ : Frame K)) (casc _)
    · intro i x lo hi _ h1 h2
      simp only [Prp.getMin, Prp.getMax] at h1 h2
      rcases i with _ | _ | _ | _ | _ | _ | i <;> simp at h1 h2 <;> subst h1 <;> subst h2 <;> simp [Spec.Within]

theorem SamePlace.trans {p q r : Prp K} (h : Spec.SamePlace p q) (g : Spec.SamePlace q r) : Spec.SamePlace p r := by
  refine ⟨g.1.trans h.1, fun f => (g.2.1 f).trans (h.2.1 f), fun hl => ?_⟩
  have hl' : Spec.Limited q := by
    have := h.1
    cases p <;> cases q <;> simp_all [Spec.Limited, Spec.jointConst, Prp.typeStr]
  exact (g.2.2 hl').trans (h.2.2 hl)

/-- A joint that the solver leaves alone: it is at the place `p`, its velocity is zero and stays zero. -/
structure Still (i : ℕ) (p : Prp K) (ik : IK K) (dis : List K) : Prop where
  ofs : setOffset ik.chain.link = ik.chain.link
  link : ∃ l, ik.chain.link[i]? = some l ∧ 0 < l.size ∧ Spec.SamePlace p l.joint.prp ∧ l.joint.prp.Settled ∧
    Spec.Respects l.joint.prp l.joint.prp.getDis ∧ (dis.drop l.offset.toNat).take l.size = l.joint.prp.getDis
  vel : ∀ q, Spec.Owns ik.chain.link i q → ik.vel[q]? = some 0 ∧ ik.Free q

omit [Field K] [LinearOrder K] [Zm K] [ZSqrt K] [IsStrictOrderedRing K] [LawfulZm K] in
theorem take_drop_of_owns [Field K] {ls : List (Link K)} (ho : setOffset ls = ls) {i : ℕ} {l : Link K} (hi : ls[i]? = some l) {v : List K}
    (h : ∀ q, Spec.Owns ls i q → v[q]? = some 0) : (v.drop l.offset.toNat).take l.size = List.replicate l.size 0 := by
  apply List.ext_getElem?
  intro q
  by_cases hq : q < l.size
  · have hoff : 0 ≤ l.offset := offset_nonneg ho (List.mem_iff_getElem?.2 ⟨i, hi⟩) (by unfold Link.size at hq; omega)
    rw [List.getElem?_take_of_lt hq, List.getElem?_drop, List.getElem?_replicate, if_pos hq]
    apply h
    refine ⟨l, hi, ?_, ?_, ?_⟩ <;> unfold Link.size at hq <;> omega
  · rw [List.getElem?_eq_none (by simp; omega), List.getElem?_eq_none (by simp; omega)]

theorem Still.solveOne {i : ℕ} {p : Prp K} {ik ik' : IK K} {dis dis' : List K} {dt : K} (h : Still i p ik dis)
    (hs : ik.solveOne dis dt = some (ik', dis')) : Still i p ik' dis' := by
  obtain ⟨l, hl, hsz, hpl, hst, hr, hd⟩ := h.link
  have hsame := IK.solveOne_same hs
  obtain ⟨-, hj, -⟩ := IK.solveOne_joint h.ofs hs
  obtain ⟨d, q, l', hc, hq, hl', hp', hd'⟩ := hj i l hl hsz
  have hv' : ∀ q, Spec.Owns ik.chain.link i q → ik'.vel[q]? = some 0 := fun q hown => by
    rw [IK.solveOne_vel hs (h.vel q hown).2]; exact (h.vel q hown).1
  have hv := take_drop_of_owns h.ofs hl hv'
  obtain ⟨r1, r2, r3⟩ := rest_step l.joint.prp hst hr _ _ _ dt q hd hv hc hq
  have hk := keys_getElem? hsame.keys i
  rw [hl, hl'] at hk
  simp only [Option.map_some, Option.some.injEq, Link.key, Prod.mk.injEq] at hk
  have hsz' : l'.size = l.size := hk.1
  refine ⟨setOffset_keys hsame.keys.symm h.ofs, ⟨l', hl', by omega, ?_, ?_, ?_, ?_⟩, ?_⟩
  · rw [hp']; exact SamePlace.trans hpl r1
  · rw [hp']; exact r2
  · rw [hp']; exact r3
  · rw [hk.2, hsz', hp']; exact hd'
  · intro q hown
    have hown' := (owns_keys hsame.keys i q).1 hown
    exact ⟨hv' q hown', ((h.vel q hown').2).same hsame⟩

theorem Still.loop {i : ℕ} {p : Prp K} (tol : K) (n : ℕ) :
    ∀ {j : ℕ} {rest : Option K} {ik ik' : IK K} {dis dis' : List K} {r : ℤ}, Still i p ik dis →
      IK.solveLoop tol n j rest ik dis = some (r, ik', dis') → Still i p ik' dis' := by
  induction n with
  | zero =>
    intro j rest ik ik' dis dis' r h hs
    simp only [IK.solveLoop, Option.some.injEq, Prod.mk.injEq] at hs
    rw [← hs.2.1, ← hs.2.2]; exact h
  | succ n ih =>
    intro j rest ik ik' dis dis' r h hs
    simp only [IK.solveLoop, Option.bind_eq_bind, Option.bind_eq_some_iff] at hs
    obtain ⟨⟨ik1, dis1⟩, h1, hs⟩ := hs
    have h' := h.solveOne h1
    cases rest with
    | none => exact ih h' hs
    | some r =>
      simp only at hs
      split_ifs at hs
      · simp only [Option.some.injEq, Prod.mk.injEq] at hs
        rw [← hs.2.1, ← hs.2.2]; exact h'
      · exact ih h' hs

/-- **C38** After any history of calls in which the joint of link `i` has not been registered, `rkIKSolve` leaves the
joint where it is, whatever the constraints and the solver of the velocities are, provided its angles are in
`(-π,π]` and it respects its limits; and it still does afterwards.  Missing is the case that the joint was registered and unregistered before, see
`C38_unregistered_fails`. -/
theorem C38_unregistered_stays_partial (c : Chain K)
    (jv : List (List K) → List K → List K → List K → List K → ℕ → K) (ho : setOffset c.link = c.link)
    (ops : List (IK.Op K)) (ik ik' : IK K) (h : (IK.create c jv).runAll ops = some ik) (i : ℕ)
    (hi : ¬ Spec.ikEver ops i) (maxIter : ℕ) (dis dis' : List K) (tol : K) (iter r : ℤ)
    (hs : ik.solve maxIter dis tol iter = some (r, ik', dis')) (l l' : Link K)
    (hl : ik.chain.link[i]? = some l) (hl' : ik'.chain.link[i]? = some l')
    (hset : l.joint.prp.Settled) (hlim : Spec.Respects l.joint.prp l.joint.prp.getDis) :
    Spec.SamePlace l.joint.prp l'.joint.prp ∧ l'.joint.prp.Settled ∧ Spec.Respects l'.joint.prp l'.joint.prp.getDis := by
  have hj := IK.runAll_joints ops (IK.Joints.create c jv) h
  have he := IK.runAll_ever ho ops (IK.Joints.create c jv) (IK.Ever.create ho jv) h
  have hof : setOffset ik.chain.link = ik.chain.link := setOffset_keys hj.keys.symm ho
  have hne : ¬ (False ∨ Spec.ikEver ops i) := by simpa using hi
  by_cases hsz : 0 < l.size
  · simp only [IK.solve, Option.bind_eq_bind, Option.bind_eq_some_iff] at hs
    obtain ⟨dis0, hd, hs⟩ := hs
    obtain ⟨-, -, hg⟩ := getJointAll_spec Prp.getDis getDis_length ik.chain.link 0 dis dis0 hof hd
    have hst : Still i l.joint.prp ik.acmZero dis0 := by
      refine ⟨hof, ⟨l, hl, hsz, ⟨rfl, fun _ => rfl, fun _ => rfl⟩, hset, hlim, hg i l hl hsz⟩, ?_⟩
      intro q hown
      have hown' := (owns_keys hj.keys i q).1 hown
      exact ⟨he.vel i q hne hown', (he.free ho hj.keys hne hown').same (IK.acmZero_same ik)⟩
    obtain ⟨l'', e, -, hp, h2, h3, -⟩ := (hst.loop _ _ hs).link
    rw [hl'] at e
    rw [Option.some.inj e]; exact ⟨hp, h2, h3⟩
  · have hk := keys_getElem? (IK.solve_same hs).keys i
    rw [hl, hl'] at hk
    simp only [Option.map_some, Option.some.injEq, Link.key, Prod.mk.injEq] at hk
    have h0 : l.joint.prp.size = 0 := by unfold Link.size at hsz; omega
    have h1 : l.joint.prp = .fixed := by cases hp : l.joint.prp <;> simp_all [Prp.size]
    have h2 : l'.joint.prp = .fixed := by cases hp : l'.joint.prp <;> simp_all [Prp.size]
    rw [h1] at hset hlim
    rw [h1, h2]
    exact ⟨⟨rfl, fun _ => rfl, fun _ => rfl⟩, hset, hlim⟩
end

/-- **C38** One step moves every joint, registered or not, by its component of the velocity vector of the solver over
the time step, within its limits; the velocity of a registered joint is its slice of the solution of the constraint
equation. -/
theorem C38_step (ik ik' : IK K) (dis dis' : List K) (dt : K) (ho : setOffset ik.chain.link = ik.chain.link)
    (h : ik.solveOne dis dt = some (ik', dis')) (i : ℕ) (l : Link K) (hl : ik.chain.link[i]? = some l)
    (hs : 0 < l.joint.prp.size) :
    (∃ d p l', l.joint.prp.catDis (dis.drop l.offset.toNat) dt (ik'.vel.drop l.offset.toNat) = some d ∧
      l.joint.prp.setDis d = some p ∧ ik'.chain.link[i]? = some l' ∧ l'.joint.prp = p ∧
      Spec.slice dis' l = p.getDis) ∧
    (∀ idx pre post, ik.jidx = some idx → idx.Pairwise (· < ·) → idx = pre ++ i :: post →
      ∀ q < l.joint.prp.size, ik'.vel[l.offset.toNat + q]? =
        ik'.jvel[(pre.map fun j => (ik.chain.link[j]?.map fun l => l.joint.prp.size).getD 0).sum + q]?) := by
  refine ⟨(IK.solveOne_joint ho h).2.1 i l hl hs, ?_⟩
  intro idx pre post hidx hp he q hq
  simp only [IK.solveOne, Option.bind_eq_bind, Option.bind_eq_some_iff, pure, Option.some.injEq, Prod.mk.injEq] at h
  obtain ⟨ik1, h1, dis1, hc, ls, hls, dis2, hg, c, hfk, rfl, rfl⟩ := h
  obtain ⟨_, _, idx', hidx', hsc⟩ := IK.solveRate_same h1
  rw [hidx] at hidx'
  rw [← Option.some.inj hidx'] at hsc
  exact IK.scatter_at ho idx hp hsc pre post i l he hl q hq

/-- A history in which joint 1 is never registered, and a call of the solver that moves joint 0 towards its goal. -/
example : ∃ (ops : List (IK.Op ℚ)) (ik ik' : IK ℚ) (r : ℤ) (dis' : List ℚ),
    setOffset Sample.sliders.link = Sample.sliders.link ∧
    Sample.ik.runAll ops = some ik ∧ ¬ Spec.ikEver ops 1 ∧ ik.solve 10 [0, 0] 1 1 = some (r, ik', dis') ∧
    (∃ l, ik.chain.link[1]? = some l ∧ l.joint.prp.Settled ∧ Spec.Respects l.joint.prp l.joint.prp.getDis) ∧
    (ik'.chain.link.map fun l => l.joint.prp.getDis) = [[1 / 3], [0]] := by
  have key : (Sample.ik.runAll [.jointReg 0 1, Sample.regPos 5 0, .setRef 5 0 0 1]).bind (fun s =>
      (s.solve 10 [0, 0] 1 1).map fun t => (s.chain.link[1]?.map fun l => l.joint.prp,
        (t.2.1.chain.link.map fun l => l.joint.prp.getDis))) =
      some (some (.prism (Sample.dof1 0 0 0 0 1 none none)), [[1 / 3], [0]]) := by decide +kernel
  simp only [Option.bind_eq_some_iff, Option.map_eq_some_iff, Prod.mk.injEq] at key
  obtain ⟨ik, h, ⟨r, ik', dis'⟩, h1, ⟨l, hl, hp⟩, h3⟩ := key
  refine ⟨_, ik, ik', r, dis', rfl, h, ?_, h1, ⟨l, hl, ?_, ?_⟩, h3⟩
  · simp [Spec.ikEver, Sample.regPos]
  · rw [hp]; simp [Prp.Settled]
  · rw [hp]
    intro j x lo hi h1 h2 h3
    match j with
    | 0 => 
      simp [Prp.getMin, Prp.getMax, Sample.dof1] at h2 h3
      subst h2; subst h3
      exact ⟨fun _ h => by simp at h, fun _ h => by simp at h⟩
    | j + 1 => simp [Prp.getDis] at h1

/-- **C38 fails** for a joint that was registered, moved by the solver, and unregistered: it keeps its last velocity and
goes on moving although another joint only is registered. -/
theorem C38_unregistered_fails : ∃ (ops : List (IK.Op ℚ)) (ik ik' : IK ℚ) (r : ℤ) (dis' : List ℚ),
    Sample.ik.runAll ops = some ik ∧ Spec.ikJoints Sample.sliders.link ops 0 = none ∧
    ik.jidx = some [1] ∧ ik.solve 10 [0, 0] 1 1 = some (r, ik', dis') ∧
    (ik.chain.link.map fun l => l.joint.prp.getDis) = [[0], [0]] ∧
    (ik'.chain.link.map fun l => l.joint.prp.getDis) = [[1 / 3], [0]] := by
  have key : (Sample.ik.runAll [.jointReg 0 1, Sample.regPos 5 0, .setRef 5 0 0 1, .solveRate, .jointReg 1 1,
      .jointUnreg 0]).bind (fun s => (s.solve 10 [0, 0] 1 1).map fun t =>
        (s.jidx, (s.chain.link.map fun l => l.joint.prp.getDis), (t.2.1.chain.link.map fun l => l.joint.prp.getDis))) =
      some (some [1], [[0], [0]], [[1 / 3], [0]]) := by decide +kernel
  simp only [Option.bind_eq_some_iff, Option.map_eq_some_iff, Prod.mk.injEq] at key
  obtain ⟨ik, h, ⟨r, ik', dis'⟩, h1, h2, h3, h4⟩ := key
  refine ⟨_, ik, ik', r, dis', h, ?_, h2, h1, h3, h4⟩
  simp [Spec.ikJoints, Spec.ikJointsStep, Sample.regPos]

/-- **C38 fails** as well when no joint is left: the stale index and the stale equation still move the joint. -/
theorem C38_stale_index_fails : ∃ (ops : List (IK.Op ℚ)) (ik ik' : IK ℚ) (r : ℤ) (dis' : List ℚ),
    Sample.ik.runAll ops = some ik ∧ (∀ i, Spec.ikJoints Sample.sliders.link ops i = none) ∧
    ik.vel = [0, 0] ∧ ik.solve 10 [0, 0] 1 1 = some (r, ik', dis') ∧
    (ik.chain.link.map fun l => l.joint.prp.getDis) = [[0], [0]] ∧
    (ik'.chain.link.map fun l => l.joint.prp.getDis) = [[1 / 3], [0]] := by
  have key : (Sample.ik.runAll [.jointReg 0 1, Sample.regPos 5 0, .setRef 5 0 0 1, .eq,
      .jointUnreg 0]).bind (fun s => (s.solve 10 [0, 0] 1 1).map fun t =>
        (s.vel, (s.chain.link.map fun l => l.joint.prp.getDis), (t.2.1.chain.link.map fun l => l.joint.prp.getDis))) =
      some ([0, 0], [[0], [0]], [[1 / 3], [0]]) := by decide +kernel
  simp only [Option.bind_eq_some_iff, Option.map_eq_some_iff, Prod.mk.injEq] at key
  obtain ⟨ik, h, ⟨r, ik', dis'⟩, h1, h2, h3, h4⟩ := key
  refine ⟨_, ik, ik', r, dis', h, fun i => ?_, h2, h1, h3, h4⟩
  by_cases hi : i = 0
  · subst hi; simp [Spec.ikJoints, Spec.ikJointsStep, Sample.regPos]
  · simp [Spec.ikJoints, Spec.ikJointsStep, Sample.regPos, hi]

/-! ## C39 -/

namespace Spec
/-- The state of the solver and the displacement after `n` steps of unit length. -/
def ikIterate {K : Type*} [Field K] [LinearOrder K] [Zm K] [ZSqrt K] (ik : IK K) (dis : List K) : ℕ → Option (IK K × List K)
  | 0 => some (ik, dis)
  | n + 1 => (ikIterate ik dis n).bind fun s => s.1.solveOne s.2 1

/-- The evaluation of the constraints reported by step `n`, counted from 1. -/
def ikEval {K : Type*} [Field K] [LinearOrder K] [Zm K] [ZSqrt K] (ik : IK K) (dis : List K) (n : ℕ) : Option K :=
  (ikIterate ik dis n).map fun s => s.1.eval

/-- The evaluation of step `n + 1` differs from that of step `n` by at most the tolerance. -/
def ikSettled {K : Type*} [Field K] [LinearOrder K] [Zm K] [ZSqrt K] (ik : IK K) (dis : List K) (tol : K) (n : ℕ) : Prop :=
  ∃ e e', ikEval ik dis n = some e ∧ ikEval ik dis (n + 1) = some e' ∧ |e' - e| ≤ tol
end Spec

theorem solveLoop_report (tol : K) (ik0 : IK K) (dis0 : List K) (n : ℕ) :
    ∀ (i : ℕ) (rest : Option K) (ik ik' : IK K) (dis dis' : List K) (r : ℤ),
      Spec.ikIterate ik0 dis0 i = some (ik, dis) → (rest = if i = 0 then none else some ik.eval) →
      IK.solveLoop tol n i rest ik dis = some (r, ik', dis') →
      (∃ k : ℕ, r = k ∧ i ≤ k ∧ 1 ≤ k ∧ k < i + n ∧ Spec.ikIterate ik0 dis0 (k + 1) = some (ik', dis') ∧
          Spec.ikSettled ik0 dis0 tol k ∧ ∀ j, i ≤ j → 1 ≤ j → j < k → ¬ Spec.ikSettled ik0 dis0 tol j) ∨
      (r = -1 ∧ Spec.ikIterate ik0 dis0 (i + n) = some (ik', dis') ∧
          ∀ j, i ≤ j → 1 ≤ j → j < i + n → ¬ Spec.ikSettled ik0 dis0 tol j) := by
  induction n with
  | zero =>
    intro i rest ik ik' dis dis' r hi _ h
    simp only [IK.solveLoop, Option.some.injEq, Prod.mk.injEq] at h
    obtain ⟨rfl, rfl, rfl⟩ := h
    exact .inr ⟨rfl, hi, fun j h1 _ h2 => by omega⟩
  | succ n ih =>
    intro i rest ik ik' dis dis' r hi hrest h
    simp only [IK.solveLoop, Option.bind_eq_bind, Option.bind_eq_some_iff] at h
    obtain ⟨⟨ik1, dis1⟩, h1, h⟩ := h
    have hi1 : Spec.ikIterate ik0 dis0 (i + 1) = some (ik1, dis1) := by
      simp only [Spec.ikIterate, hi, Option.bind_some]; exact h1
    have hset : Spec.ikSettled ik0 dis0 tol i ↔ |ik1.eval - ik.eval| ≤ tol := by
      simp [Spec.ikSettled, Spec.ikEval, hi, hi1]
    have next : (1 ≤ i → ¬ Spec.ikSettled ik0 dis0 tol i) →
        IK.solveLoop tol n (i + 1) (some ik1.eval) ik1 dis1 = some (r, ik', dis') →
        (∃ k : ℕ, r = k ∧ i ≤ k ∧ 1 ≤ k ∧ k < i + (n + 1) ∧ Spec.ikIterate ik0 dis0 (k + 1) = some (ik', dis') ∧
            Spec.ikSettled ik0 dis0 tol k ∧ ∀ j, i ≤ j → 1 ≤ j → j < k → ¬ Spec.ikSettled ik0 dis0 tol j) ∨
        (r = -1 ∧ Spec.ikIterate ik0 dis0 (i + (n + 1)) = some (ik', dis') ∧
            ∀ j, i ≤ j → 1 ≤ j → j < i + (n + 1) → ¬ Spec.ikSettled ik0 dis0 tol j) := by
      intro hno h
      have := ih (i + 1) (some ik1.eval) ik1 ik' dis1 dis' r hi1 (by simp) h
      have ext : ∀ m, (∀ j, i + 1 ≤ j → 1 ≤ j → j < m → ¬ Spec.ikSettled ik0 dis0 tol j) →
          ∀ j, i ≤ j → 1 ≤ j → j < m → ¬ Spec.ikSettled ik0 dis0 tol j := by
        intro m hm j h1 h2 h3
        by_cases hj : j = i
        · subst hj; exact hno h2
        · exact hm j (by omega) h2 h3
      rcases this with ⟨k, e, h1, h2, h3, h4, h5, h6⟩ | ⟨e, h4, h6⟩
      · exact .inl ⟨k, e, by omega, h2, by omega, h4, h5, ext k h6⟩
      · have e' : i + 1 + n = i + (n + 1) := by omega
        rw [e'] at h4 h6
        exact .inr ⟨e, h4, ext _ h6⟩
    by_cases h0 : i = 0
    · rw [if_pos h0] at hrest
      subst hrest
      exact next (fun h => by omega) h
    · rw [if_neg h0] at hrest
      subst hrest
      simp only at h
      split_ifs at h with htol
      · simp only [Option.some.injEq, Prod.mk.injEq] at h
        obtain ⟨rfl, rfl, rfl⟩ := h
        exact .inl ⟨i, rfl, le_refl _, by omega, by omega, hi1, hset.2 htol, fun j h1 _ h2 => by omega⟩
      · exact next (fun _ hh => htol (hset.1 hh)) h

/-- **C39** `rkIKSolve` starts from the present displacement with the accumulated errors cleared and iterates steps of
unit length.  With `n` the iteration limit, where 0 stands for the default and a negative limit for none:
* it returns `k` if the evaluation changed by at most the tolerance at step `k + 1`, for the first time and before the
  limit, and then the state is that after `k + 1` steps;
* it returns -1 exactly when this never happened within the limit, and then the state is that after `n` steps. -/
theorem C39_report (maxIter : ℕ) (ik ik' : IK K) (dis dis' : List K) (tol : K) (iter r : ℤ)
    (h : ik.solve maxIter dis tol iter = some (r, ik', dis')) :
    ∃ dis0, getJointAll Prp.getDis ik.chain.link dis = some dis0 ∧
      let n := if iter = 0 then maxIter else iter.toNat
      ((∃ k : ℕ, r = k ∧ 1 ≤ k ∧ k < n ∧ Spec.ikIterate ik.acmZero dis0 (k + 1) = some (ik', dis') ∧
          Spec.ikSettled ik.acmZero dis0 tol k ∧ ∀ j, 1 ≤ j → j < k → ¬ Spec.ikSettled ik.acmZero dis0 tol j) ∨
        (r = -1 ∧ Spec.ikIterate ik.acmZero dis0 n = some (ik', dis') ∧
          ∀ j, 1 ≤ j → j < n → ¬ Spec.ikSettled ik.acmZero dis0 tol j)) ∧
      (r = -1 ↔ ∀ j, 1 ≤ j → j < n → ¬ Spec.ikSettled ik.acmZero dis0 tol j) := by
  simp only [IK.solve, Option.bind_eq_bind, Option.bind_eq_some_iff] at h
  obtain ⟨dis0, hd, h⟩ := h
  refine ⟨dis0, hd, ?_⟩
  have := solveLoop_report tol ik.acmZero dis0 _ 0 none _ ik' _ dis' r rfl rfl h
  simp only [Nat.zero_add, Nat.zero_le, true_implies, true_and] at this
  refine ⟨this, ?_⟩
  rcases this with ⟨k, e, h1, h2, h3, h4, h5⟩ | ⟨e, h3, h4⟩
  · constructor
    · intro h; omega
    · intro h; exact absurd h4 (h k h1 h2)
  · exact ⟨fun _ => h4, fun _ => e⟩

/-- Both outcomes occur: the evaluation settles after some steps, or the limit of iterations is reached. -/
example : ((Sample.ik.runAll [.jointReg 0 1, Sample.regPos 5 0, .setRef 5 0 0 1]).bind fun s =>
      (s.solve 10 [0, 0] (1 / 2) 0).map fun t => t.1) = some 1 ∧
    ((Sample.ik.runAll [.jointReg 0 1, Sample.regPos 5 0, .setRef 5 0 0 1]).bind fun s =>
      (s.solve 10 [0, 0] (1 / 1000) 3).map fun t => t.1) = some (-1) := by decide +kernel

end Roki
