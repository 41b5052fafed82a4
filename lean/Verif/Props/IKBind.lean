import Verif.Props.IKEq
set_option autoImplicit false

/-! # C41: binding constraints to the current state -/

namespace Roki
open LinkArray
variable {K : Type*} [Field K] [LinearOrder K] [Zm K] [ZSqrt K]

/-- The built-in kinds of constraints on positions, attitudes and the centre of mass. -/
def Spec.Geometric (f : IKFns K) : Prop :=
  f = IKFns.wldPos ∨ (∃ acm, f = IKFns.wldAtt acm) ∨ f = IKFns.l2lPos ∨ (∃ acm, f = IKFns.l2lAtt acm) ∨ f = IKFns.com

/-- The quantity that a constraint of a built-in kind is about, at the current state of the chain: the position of the
attention point, the attitude of the link, the same relative to another link, or the centre of mass.  A position is
kept in the first column. -/
inductive Spec.IkNow (c : Chain K) (a : IKAttr K) : IKFns K → Mat3 K → Prop
  | wldPos {l r} : c.link[a.id]? = some l → r.cx = l.body.frame.att.mulVec a.ap + l.body.frame.pos →
      Spec.IkNow c a IKFns.wldPos r
  | wldAtt {l acm} : c.link[a.id]? = some l → Spec.IkNow c a (IKFns.wldAtt acm) l.body.frame.att
  | l2lPos {l s r} : c.link[a.id]? = some l → c.link[a.idSub]? = some s →
      r.cx = s.body.frame.att.mulVec a.ap + s.body.frame.pos - l.body.frame.pos → Spec.IkNow c a IKFns.l2lPos r
  | l2lAtt {l s acm} : c.link[a.id]? = some l → c.link[a.idSub]? = some s →
      Spec.IkNow c a (IKFns.l2lAtt acm) (l.body.frame.att.tr.mul s.body.frame.att)
  | com {r} : r.cx = c.wldCOM → Spec.IkNow c a IKFns.com r

theorem mapM_mem {α β : Type*} {f : α → Option β} : ∀ {l : List α} {r : List β}, l.mapM f = some r →
    ∀ y ∈ r, ∃ x ∈ l, f x = some y := by
  intro l
  induction l with
  | nil => intro r h y hy; simp only [List.mapM_nil, pure, Option.some.injEq] at h; rw [← h] at hy; simp at hy
  | cons a l ih =>
    intro r h y hy
    simp only [List.mapM_cons, Option.bind_eq_bind, Option.bind_eq_some_iff, pure, Option.some.injEq] at h
    obtain ⟨b, hb, bs, hbs, rfl⟩ := h
    rcases List.mem_cons.1 hy with rfl | hy
    · exact ⟨a, by simp, hb⟩
    · obtain ⟨x, hx, e⟩ := ih hbs y hy
      exact ⟨x, List.mem_cons_of_mem _ hx, e⟩

/-- **C41 (partial)** After `rkIKBind` every constraint on a position, an attitude or the centre of mass is switched on,
its reference is the current value of what it constrains, and its error is zero.  Missing: the constraints on the
angular momentum, for which it is false (`C41_momentum_fails`). -/
theorem C41_bind_partial [IsStrictOrderedRing K] [LawfulZm K] (ik ik' : IK K) (h : ik.bind = some ik')
    (hr : ∀ l ∈ ik.chain.link, l.body.frame.att.IsRot) :
    ik'.chain = ik.chain ∧ ∀ x ∈ ik'.clist, x.attr.xon = true ∧ x.attr.yon = true ∧ x.attr.zon = true ∧
      (Spec.Geometric x.fns → Spec.IkNow ik'.chain x.attr x.fns x.ref ∧ x.fns.srv ik'.chain x.attr x.ref = some 0) := by
  simp only [IK.bind, Option.map_eq_some_iff] at h
  obtain ⟨l, hl, rfl⟩ := h
  refine ⟨rfl, fun x hx => ?_⟩
  obtain ⟨y, -, hy⟩ := mapM_mem hl x hx
  simp only [IKCell.bind, Option.map_eq_some_iff] at hy
  obtain ⟨r, hb, rfl⟩ := hy
  refine ⟨rfl, rfl, rfl, ?_⟩
  have herr : ∀ m : Mat3 K, m.IsRot → mat3Error m m = 0 := by
    intro m hm
    rw [mat3Error, hm.mul_tr_self, LawfulZm.toAA_one]
  dsimp only
  rintro (e | ⟨acm, e⟩ | e | ⟨acm, e⟩ | e) <;> rw [e] at hb ⊢
  · simp only [IKFns.wldPos, Option.map_eq_some_iff] at hb
    obtain ⟨k, hk, rfl⟩ := hb
    refine ⟨.wldPos hk ?_, ?_⟩
    · simp [IKFns.setPos, Frame.xform]
    · simp only [IKFns.wldPos, hk, Option.map_some, IKFns.setPos]
      simp
  · simp only [IKFns.wldAtt, Option.map_eq_some_iff] at hb
    obtain ⟨k, hk, rfl⟩ := hb
    refine ⟨.wldAtt hk, ?_⟩
    simp only [IKFns.wldAtt, hk, Option.map_some]
    rw [herr _ (hr k (List.mem_of_getElem? hk))]
  · simp only [IKFns.l2lPos, Option.bind_eq_bind, Option.bind_eq_some_iff, pure, Option.some.injEq] at hb
    obtain ⟨s, hs, k, hk, rfl⟩ := hb
    refine ⟨.l2lPos hk hs ?_, ?_⟩
    · simp [IKFns.setPos, Frame.xform]
    · simp only [IKFns.l2lPos, hk, hs, Option.bind_eq_bind, Option.bind_some, pure, IKFns.setPos]
      simp
  · simp only [IKFns.l2lAtt, Option.bind_eq_bind, Option.bind_eq_some_iff, pure, Option.some.injEq] at hb
    obtain ⟨k, hk, s, hs, rfl⟩ := hb
    refine ⟨?_, ?_⟩
    · rw [Mat3.mulT_eq]; exact .l2lAtt hk hs
    · simp only [IKFns.l2lAtt, hk, hs, Option.bind_eq_bind, Option.bind_some, pure]
      rw [herr _ ((hr k (List.mem_of_getElem? hk)).mulT (hr s (List.mem_of_getElem? hs)))]
      simp [Mat3.mulVec]
  · simp only [IKFns.com, Option.some.injEq] at hb
    subst hb
    refine ⟨.com (by simp [IKFns.setPos]), ?_⟩
    simp only [IKFns.com, IKFns.setPos]
    simp

theorem blocks_zero {c : Chain K} {m : Jacobi.Mat K} {cs ys : List (IKCell K)} {bs : List (Spec.IkBlock K)}
    (h : Spec.IkBlocks c m cs bs ys) (h0 : ∀ x ∈ cs, x.fns.srv c x.attr x.ref = some 0) :
    (bs.map fun b => Spec.ikSquare b.cell.attr.w b.err).sum = 0 := by
  induction h with
  | nil => rfl
  | off _ _ ih => exact ih fun x hx => h0 x (List.mem_cons_of_mem _ hx)
  | on _ _ hs _ ih =>
    rw [h0 _ (by simp)] at hs
    cases hs
    rw [List.map_cons, List.sum_cons, ih fun x hx => h0 x (List.mem_cons_of_mem _ hx)]
    simp [Spec.ikSquare]

/-- **C41 (partial)** After any history of calls in which all constraints are on positions, attitudes or the centre of
mass: `rkIKBind` followed by `rkIKEq` reports the error zero. -/
theorem C41_report_partial [IsStrictOrderedRing K] [LawfulZm K] (c : Chain K)
    (jv : List (List K) → List K → List K → List K → List K → ℕ → K)
    (ho : setOffset c.link = c.link) (ops : List (IK.Op K)) (hs : ∀ o ∈ ops, o.Sized) (ik ik' ik'' : IK K)
    (h : (IK.create c jv).runAll ops = some ik) (hne : ik'.clist ≠ []) (hr : ∀ l ∈ ik.chain.link, l.body.frame.att.IsRot)
    (hg : ∀ x ∈ ik'.clist, Spec.Geometric x.fns) (hb : ik.bind = some ik') (he : ik'.eq = some ik'') :
    ik''.eval = ZSqrt.sqrt 0 := by
  have h' : (IK.create c jv).runAll (ops ++ [.bind]) = some ik' := by
    have : ∀ (ops : List (IK.Op K)) (a : IK K), a.runAll ops = some ik → a.runAll (ops ++ [.bind]) = some ik' := by
      intro ops
      induction ops with
      | nil =>
        intro a ha
        simp only [IK.runAll, Option.some.injEq] at ha
        subst ha
        simp [IK.runAll, IK.Op.run, hb]
      | cons o ops ih =>
        intro a ha
        simp only [IK.runAll, List.cons_append, Option.bind_eq_some_iff] at ha ⊢
        obtain ⟨b, hb1, hb2⟩ := ha
        exact ⟨b, hb1, ih b hb2⟩
    exact this ops _ h
  obtain ⟨bs, hbs, _, hev, _⟩ := C40_equation c jv ho (ops ++ [.bind]) (by
    intro o hm
    rcases List.mem_append.1 hm with hm | hm
    · exact hs o hm
    · rw [List.mem_singleton.1 hm]; trivial) ik' ik'' h' hne he
  rw [hev, blocks_zero hbs fun x hx => ((C41_bind_partial ik ik' hb hr).2 x hx).2.2.2 (hg x hx) |>.2]

/-- A history that meets the hypotheses: a constraint on the position of the second slider, away from the origin, with
an error before binding. -/
example : ∃ (ops : List (IK.Op ℚ)) (ik ik' ik'' q : IK ℚ), setOffset Sample.sliders.link = Sample.sliders.link ∧
    (∀ o ∈ ops, o.Sized) ∧ Sample.ik.runAll ops = some ik ∧ ik'.clist ≠ [] ∧
    (∀ l ∈ ik.chain.link, l.body.frame.att.IsRot) ∧ (∀ x ∈ ik'.clist, Spec.Geometric x.fns) ∧ ik.bind = some ik' ∧
    ik'.eq = some ik'' ∧ ik.eq = some q ∧ q.eval = 4 ∧ ik''.eval = 0 := by
  let ops : List (IK.Op ℚ) := [.jointReg 0 1, Sample.regPos 5 1, .setRef 5 0 0 1, .chain (.fk [2, 3])]
  have key : (Sample.ik.runAll ops).bind (fun s => s.bind.bind fun t => t.eq.bind fun u => s.eq.map fun q =>
      (t.clist.length, (s.chain.link.map fun l => l.body.frame.att), (q.eval, u.eval))) = some (1, [1, 1], (4, 0)) := by
    decide +kernel
  have hf : (Sample.ik.runAll ops).bind (fun s => s.bind.map fun t => t.clist.map IKCell.fns) =
      some [IKFns.wldPos] := rfl
  simp only [Option.bind_eq_some_iff, Option.map_eq_some_iff, Prod.mk.injEq] at key
  obtain ⟨ik, h, ik', h1, ik'', h2, q, h3, h4, h5, h6, h7⟩ := key
  rw [h, Option.bind_some, h1, Option.map_some] at hf
  refine ⟨ops, ik, ik', ik'', q, rfl, ?_, h, ?_, ?_, ?_, h1, h2, h3, h6, h7⟩
  · simp [ops, IK.Op.Sized, Sample.regPos, Jacobi.wldPos_sized]
  · intro hh; rw [hh] at h4; simp at h4
  · intro l hl
    have := List.mem_map_of_mem (f := fun l : Link ℚ => l.body.frame.att) hl
    rw [h5] at this
    have : l.body.frame.att = 1 := by simpa using this
    rw [this]
    exact Mat3.isRot_one
  · intro x hx
    have := List.mem_map_of_mem (f := IKCell.fns) hx
    rw [Option.some.inj hf] at this
    exact .inl (by simpa using this)

/-- **C41 fails** for the constraints on the angular momentum: the error is minus the momentum whatever the reference
is, so binding has no effect on it. -/
theorem C41_momentum_ignored (acm : IKAcm K → Vec3 K → IKAcm K × Vec3 K) (c : Chain K) (a : IKAttr K) (r : Mat3 K) :
    (IKFns.am acm).srv c a r = some (-LinkArray.am c.link a.ap) ∧
    (IKFns.amCOM acm).srv c a r = some (-LinkArray.am c.link c.wldCOM) := ⟨rfl, rfl⟩

namespace Sample
/-- A wheel that turns about its axis. -/
def wheel : Chain ℚ :=
  { link := [link "a" (.revol (dof1 0 1 0 0 1 none none)) mp1 Frame.ident], shape := .node 0 .nil .nil,
    mass := 1, wldCOM := 0, comVel := 0, comAcc := 0 }
end Sample

/-- **C41 fails** for the constraints on the angular momentum: a turning wheel, bound to its current momentum, still
has an error. -/
theorem C41_momentum_fails : ∃ (ops : List (IK.Op ℚ)) (ik : IK ℚ) (x : IKCell ℚ) (e : Vec3 ℚ),
    (IK.create Sample.wheel (IK.jointVelAD Sample.gauss1)).runAll ops = some ik ∧ ops.getLast? = some .bind ∧
    x ∈ ik.clist ∧ x.fns.srv ik.chain x.attr x.ref = some e ∧ e ≠ 0 := by
  have key : ((IK.create Sample.wheel (IK.jointVelAD Sample.gauss1)).runAll
      [.jointReg 0 1, .chain (.id 0 [1] [0]), .cellReg 5 (some (Sample.attrOf 0)) Sample.noMask (IKFns.am IKFns.acmPos),
       .bind]).bind (fun s => s.clist.head?.bind fun x => (x.fns.srv s.chain x.attr x.ref).map fun e => e.z) = some (-1) := by
    decide +kernel
  simp only [Option.bind_eq_some_iff, Option.map_eq_some_iff] at key
  obtain ⟨ik, h, x, hx, e, he, hz⟩ := key
  refine ⟨_, ik, x, e, h, rfl, List.mem_of_head? hx, he, ?_⟩
  intro h0
  rw [h0] at hz
  exact absurd hz (by decide)

end Roki
