import Verif.Lemmas.ABIInv
import Verif.Lemmas.ABIKeep
import Verif.Props.FK
import Verif.Props.JointVector
import Verif.Lemmas.ABIAddEx
set_option autoImplicit false

/-!
# C26: forward dynamics solves the equations of motion
-/

namespace Roki
open Spec LinkArray
variable {K : Type*} [Field K]

/-- Entries of two lists gathered into trees that agree. -/
theorem Chain.getElem_of_gather_map {α : Type*} {ls ls' : List (Link K)} {t : LTree ℕ} {T T' : LTree (Link K)}
    (h : Chain.gather ls t = some T) (h' : Chain.gather ls' t = some T') (k k' : Link K → α)
    (e : T.map k = T'.map k') : ∀ i ∈ t.toList, ls[i]?.map k = ls'[i]?.map k' := by
  induction t generalizing T T' with
  | nil => intro i hi; simp [LTree.toList] at hi
  | node j c s ihc ihs =>
    obtain ⟨l, c1, s1, a1, a2, a3, rfl⟩ := Chain.gather_node.1 h
    obtain ⟨l', c2, s2, b1, b2, b3, rfl⟩ := Chain.gather_node.1 h'
    simp only [LTree.map, LTree.node.injEq] at e
    intro i hi
    simp only [LTree.toList, List.mem_cons, List.mem_append] at hi
    rcases hi with rfl | hi | hi
    · rw [a1, b1]; simp [e.1]
    · exact ihc a2 b2 e.2.1 i hi
    · exact ihs a3 b3 e.2.2 i hi

/-- Setting joint values keeps what does not depend on them. -/
theorem setJointAll_keep {β : Type*} {set : Prp K → List K → Option (Prp K)} (k : Link K → β)
    (hk : ∀ (l : Link K) buf p', set l.joint.prp buf = some p' →
      k { l with joint := { l.joint with prp := p' } } = k l) {v : List K} {ls ls' : List (Link K)}
    (h : setJointAll set v ls = some ls') : ls'.map k = ls.map k := by
  induction ls generalizing ls' with
  | nil => simp only [setJointAll, Option.some.injEq] at h; subst h; rfl
  | cons l ls ih =>
    simp only [setJointAll, Option.bind_eq_bind, Option.bind_eq_some_iff, Option.pure_def,
      Option.some.injEq] at h
    obtain ⟨l1, h1, ls1, h3, rfl⟩ := h
    simp only [List.map_cons, ih h3, List.cons.injEq, and_true]
    simp only [Link.setAtOffset] at h1
    split_ifs at h1
    · obtain ⟨p, hp, rfl⟩ := setWith_eq_some.1 h1
      exact hk _ _ _ hp
    · simp only [Option.some.injEq] at h1; rw [h1]

/-- Setting the values that the joints hold changes nothing. -/
theorem setJointAll_self {set : Prp K → List K → Option (Prp K)} {get : Prp K → List K}
    (hget : ∀ p : Prp K, (get p).length = p.size) (hs : ∀ (p : Prp K) r, set p (get p ++ r) = some p)
    (ls : List (Link K)) (s : ℕ) (h : OffsetsFrom s ls) (a : List K) (ha : a.length = s) :
    setJointAll set (a ++ (ls.map fun l => get l.joint.prp).flatten) ls = some ls := by
  induction ls generalizing s a with
  | nil => rfl
  | cons l ls ih =>
    obtain ⟨h1, h2⟩ := offsetsFrom_cons.1 h
    simp only [setJointAll, List.map_cons, List.flatten_cons]
    have e1 : l.setAtOffset set (a ++ (get l.joint.prp ++ (ls.map fun l => get l.joint.prp).flatten)) = some l := by
      simp only [Link.setAtOffset]
      split_ifs with h0
      · have : l.offset.toNat = s := by
          rw [h1] at h0 ⊢
          simp only [offsetAt] at h0 ⊢
          split_ifs at h0 ⊢ with hz
          · simp
          · omega
        rw [this, List.drop_left' ha]
        exact setWith_eq_some.2 ⟨_, hs _ _, rfl⟩
      · rfl
    have e2 := ih (s + l.size) h2 (a ++ get l.joint.prp) (by simp [ha, hget])
    rw [List.append_assoc] at e2
    rw [e1]
    simp [e2]

theorem setVel_getVel (p : Prp K) (r : List K) : p.setVel (p.getVel ++ r) = some p := by
  cases p <;> rfl

theorem setAcc_getAcc (p : Prp K) (r : List K) : p.setAcc (p.getAcc ++ r) = some p := by
  cases p <;> rfl

theorem setJointRateAll_self {ls : List (Link K)} (ho : setOffset ls = ls) :
    setJointRateAll (ls.map fun l => l.joint.prp.getVel).flatten
      (ls.map fun l => l.joint.prp.getAcc).flatten ls = some ls := by
  have e1 := setJointAll_self getVel_length setVel_getVel ls 0 ho [] rfl
  have e2 := setJointAll_self getAcc_length setAcc_getAcc ls 0 ho [] rfl
  rw [List.nil_append] at e1 e2
  rw [setJointRateAll_eq, e1]
  exact e2

section
variable [LinearOrder K] [IsStrictOrderedRing K] [Zm K] [LawfulZm K]

/-- The parts of a link on which the equations of motion rest and that no pass changes. -/
def Link.fixedPart (l : Link K) :=
  (l.body.mp, l.body.extw, l.abi.m, l.abi.wlist, l.joint.prp.ABIGood, l.joint.prp.ABIRootGood)

/-- The same with the state of the joint. -/
def Link.statePart (l : Link K) := (l.fixedPart, l.joint.prp.WF, l.offset, l.joint.prp.getVel, l.joint.prp.size)

theorem Prp.setDis_kind {p p' : Prp K} {v : List K} (h : p.setDis v = some p') :
    (p'.ABIGood = p.ABIGood) ∧ (p'.ABIRootGood = p.ABIRootGood) := by
  cases p <;> rcases v with _ | ⟨a, _ | ⟨b, _ | ⟨c, _ | ⟨d, _ | ⟨e, _ | ⟨f, v⟩⟩⟩⟩⟩⟩ <;>
    simp [Prp.setDis, Vec3.ofBuf, Vec6.ofBuf] at h <;> subst h <;> exact ⟨rfl, rfl⟩

theorem Prp.setVel_kind {p p' : Prp K} {v : List K} (h : p.setVel v = some p') :
    (p'.ABIGood = p.ABIGood) ∧ (p'.ABIRootGood = p.ABIRootGood) ∧ p'.WF = p.WF := by
  cases p <;> rcases v with _ | ⟨a, _ | ⟨b, _ | ⟨c, _ | ⟨d, _ | ⟨e, _ | ⟨f, v⟩⟩⟩⟩⟩⟩ <;>
    simp [Prp.setVel, Vec3.ofBuf, Vec6.ofBuf] at h <;> subst h <;> exact ⟨rfl, rfl, rfl⟩

theorem Link.statePart_init (v : Vec6 K) (l : Link K) : (l.abiUpdateInit v).statePart = l.statePart := rfl

theorem Link.statePart_back (fx : Bool) (l : Link K) : (l.abiBackward fx).statePart = l.statePart := by
  obtain ⟨name, ⟨p, w⟩, body, off, org, adj, abi⟩ := l
  cases p <;> rfl

theorem Link.statePart_add (l : Link K) (d : Mat6 K × Vec6 K) : (l.abiAdd d).statePart = l.statePart := rfl

theorem Link.statePart_step (fx wr : Bool) (l : Link K) (pa : Vec6 K) :
    (LTree.abiStep fx wr pa l).statePart = l.statePart := by
  obtain ⟨name, ⟨p, w⟩, body, off, org, adj, abi⟩ := l
  cases p <;> cases wr <;> (try cases fx) <;> rfl

theorem offsetsFrom_congr {ls ls' : List (Link K)} {s : ℕ}
    (h : ls'.map (fun l => (l.offset, l.joint.prp.size)) = ls.map fun l => (l.offset, l.joint.prp.size))
    (ho : OffsetsFrom s ls) : OffsetsFrom s ls' := by
  induction ls generalizing ls' s with
  | nil => simp only [List.map_nil, List.map_eq_nil_iff] at h; subst h; exact OffsetsFrom.nil s
  | cons l ls ih =>
    rcases ls' with _ | ⟨l', ls'⟩
    · simp at h
    · simp only [List.map_cons, List.cons.injEq, Prod.mk.injEq] at h
      obtain ⟨h1, h2⟩ := offsetsFrom_cons.1 ho
      have hz : l'.size = l.size := h.1.2
      refine offsetsFrom_cons.2 ⟨?_, ?_⟩
      · rw [h.1.1, h1]; simp only [offsetAt, hz]
      · rw [hz]; exact ih h.2 h2

/-- After all displacements have been set the joints hold those of rotations. -/
theorem setDisAll_WF {ls ls' : List (Link K)} {dis : List K} (ho : setOffset ls = ls)
    (e : setJointAll Prp.setDis dis ls = some ls') : ∀ l ∈ ls', l.joint.prp.WF := by
  intro l hl
  obtain ⟨i, hi⟩ := List.mem_iff_getElem?.1 hl
  have h1 := (setJointAll_getElem e i).1
  rw [hi, Option.bind_eq_some_iff] at h1
  obtain ⟨l0, h0, h1⟩ := h1
  have hm : l0 ∈ ls := List.mem_iff_getElem?.2 ⟨i, h0⟩
  simp only [Link.setAtOffset] at h1
  split_ifs at h1 with hoff
  · obtain ⟨p, hp, rfl⟩ := setWith_eq_some.1 h1
    exact setDis_WF _ _ _ hp
  · simp only [Option.some.injEq] at h1
    subst h1
    have hz : ¬ 0 < l0.joint.prp.size := fun hs => hoff (offset_nonneg ho hm hs)
    cases hp : l0.joint.prp <;> simp [hp, Prp.size] at hz
    trivial

/-- A property of the links of a list, seen through a map that keeps it. -/
theorem forall_of_map_eq {α β : Type*} {xs ys : List α} (f : α → β) (P : β → Prop) (h : xs.map f = ys.map f)
    (hy : ∀ y ∈ ys, P (f y)) : ∀ x ∈ xs, P (f x) := by
  intro x hx
  have : f x ∈ ys.map f := by rw [← h]; exact List.mem_map.2 ⟨x, hx, rfl⟩
  obtain ⟨y, hy', e⟩ := List.mem_map.1 this
  rw [← e]; exact hy y hy'

/-- The state in which `rkChainABI` leaves the chain. -/
theorem abi_state {c c1 : Chain K} {fx : Bool} {dis vel acc acc' : List K} (h : c.WF)
    (ho : setOffset c.link = c.link)
    (hm : ∀ l ∈ c.link, l.abi.m = Link.abiInertia l.body.mp ∧ l.body.mp.inertia.Symm)
    (hroot : ∀ l, c.link[0]? = some l → l.joint.prp.ABIRootGood)
    (hgood : ∀ (i : ℕ) (l : Link K), c.link[i + 1]? = some l → l.joint.prp.ABIGood)
    (e : c.abi fx dis vel acc = some (c1, some acc'))
    (hr : ∀ l ∈ c1.link, AxisRegular l) :
    ∃ U : LTree (Link K), Chain.gather c1.link c1.shape = some U ∧ c1.WF ∧ U.Dyn fx 0 ∧
      U.FrameOK Frame.ident ∧ U.VelOK 0 ∧ U.InitOK 0 ∧
      (∀ l ∈ U.toList, l.joint.prp.WF ∧ l.abi.m = Link.abiInertia l.body.mp) ∧
      c1.link.map Link.fixedPart = c.link.map Link.fixedPart ∧ setOffset c1.link = c1.link ∧
      (vel.length = jointSize c.link → acc.length = jointSize c.link →
        vel = (c1.link.map fun l => l.joint.prp.getVel).flatten ∧
        acc' = (c1.link.map fun l => l.joint.prp.getAcc).flatten) := by
  simp only [Chain.abi] at e
  split_ifs at e with hsz
  · simp at e
  simp only [Option.bind_eq_bind, Option.bind_eq_some_iff, Option.pure_def, Option.some.injEq,
    Prod.mk.injEq] at e
  obtain ⟨ls, e1, ls', e2, d1, e3, d2, e4, d3, e5, a3, e6, rfl, rfl⟩ := e
  have f1 : ls.map Link.fixedPart = c.link.map Link.fixedPart :=
    setJointAll_keep Link.fixedPart (fun l buf p' hp => by
      obtain ⟨k1, k2⟩ := Prp.setDis_kind hp
      simp only [Link.fixedPart, k1, k2]) e1
  have f2 : ls'.map (fun l => (l.fixedPart, l.joint.prp.WF)) = ls.map fun l => (l.fixedPart, l.joint.prp.WF) :=
    setJointAll_keep (fun l : Link K => (l.fixedPart, l.joint.prp.WF)) (fun l buf p' hp => by
      obtain ⟨k1, k2, k3⟩ := Prp.setVel_kind hp
      simp only [Link.fixedPart, k1, k2, k3]) e2
  have o1 : ls.map (fun l : Link K => (l.offset, l.joint.prp.size)) = c.link.map fun l => (l.offset, l.joint.prp.size) :=
    setJointAll_keep _ (fun l buf p' hp => by simp only [isSetter_dis.size _ _ _ hp]) e1
  have o2 : ls'.map (fun l : Link K => (l.offset, l.joint.prp.size)) = ls.map fun l => (l.offset, l.joint.prp.size) :=
    setJointAll_keep _ (fun l buf p' hp => by simp only [isSetter_vel.size _ _ _ hp]) e2
  have n0 : ls'.length = c.link.length := by
    rw [(setJointAll_getElem e2 0).2, (setJointAll_getElem e1 0).2]
  have w0 : Chain.WF { c with link := ls' } := h.with_link n0
  obtain ⟨T0, g0, g1, w1, s1, n1, -⟩ := w0.updateFK e3
  obtain ⟨ls2, T1, hT1, ev, gv, nv⟩ := w1.downAt (fun pvel (l : Link K) => l.updateVel1 pvel) (fun l => l.body.vel) 0
  rw [← LTree.updateVel_eq] at gv
  have hd2 : d2 = { d1 with link := ls2 } := by
    have hv' : Chain.updateVelAt none d1.shape 0 d1.link = some ls2 := ev
    rw [Chain.updateVel, hv'] at e4
    simpa using e4.symm
  have hT1' : T1 = T0.updateFrame Frame.ident := by
    have := hT1.symm.trans g1; simpa using this
  have w2 : d2.WF := by rw [hd2]; exact w1.with_link nv
  have gv2 : Chain.gather d2.link d2.shape = some (T1.updateVel 0) := by rw [hd2]; exact gv
  have hs1 : d1.shape = c.shape := s1
  have hs2 : d2.shape = c.shape := by rw [hd2]; exact hs1
  -- the state part up to the velocity pass
  have t1 : (T1.updateVel 0).map Link.statePart = T0.map Link.statePart := by
    rw [LTree.updateVel_eq, LTree.down_map_inv Link.statePart (by intro _ _; rfl), hT1', LTree.updateFrame_eq,
      LTree.down_map_inv Link.statePart (by intro _ _; rfl)]
  have n2 : d2.link.length = ls'.length := by rw [hd2]; exact nv.trans n1
  have p2 : d2.link.map Link.statePart = ls'.map Link.statePart := by
    refine Chain.map_eq_of_gather gv2 (hs2 ▸ g0) n2 ?_ _ t1
    intro i hi
    exact w2.mem.2 hi
  have hz2 : jointSize d2.link ≠ 0 := by
    have : jointSize d2.link = jointSize c.link := by
      refine jointSize_congr ?_
      have a1 := congrArg (List.map fun x => x.2.2.2.2) p2
      have a2 := congrArg (List.map Prod.snd) o2
      have a3 := congrArg (List.map Prod.snd) o1
      simp only [List.map_map] at a1 a2 a3
      exact a1.trans (a2.trans a3)
    rw [this]; exact hsz
  obtain ⟨ls3, e5', g3, n3⟩ := w2.abiUpdate fx true hz2 gv2
  rw [e5', Option.some.injEq] at e5
  have p3 : d3.link.map Link.statePart = d2.link.map Link.statePart := by
    refine (Chain.abiUpdate_keep Link.statePart (fx := fx) (wr := true) (fun _ => rfl) Link.statePart_init
      (Link.statePart_back fx) Link.statePart_add (Link.statePart_step fx true) (c := d2) ?_).1
    rw [e5', e5]
  subst e5
  have w3 : Chain.WF { d2 with link := ls3 } := w2.with_link n3
  have pall : ls3.map Link.fixedPart = c.link.map Link.fixedPart := by
    have a1 := congrArg (List.map fun x => x.1) (p3.trans p2)
    have a2 := congrArg (List.map Prod.fst) f2
    simp only [List.map_map] at a1 a2
    exact a1.trans (a2.trans f1)
  have pfix : d2.link.map Link.fixedPart = c.link.map Link.fixedPart := by
    have a1 := congrArg (List.map fun x => x.1) p2
    have a2 := congrArg (List.map Prod.fst) f2
    simp only [List.map_map] at a1 a2
    exact a1.trans (a2.trans f1)
  have pwf : d2.link.map (fun l => l.joint.prp.WF) = ls.map fun l => l.joint.prp.WF := by
    have a1 := congrArg (List.map fun x => x.2.1) p2
    have a2 := congrArg (List.map Prod.snd) f2
    simp only [List.map_map] at a1 a2
    exact a1.trans a2
  have hwf2 : ∀ l ∈ d2.link, l.joint.prp.WF :=
    forall_of_map_eq (fun l : Link K => l.joint.prp.WF) (fun P => P) pwf (setDisAll_WF ho e1)
  have hm2 : ∀ l ∈ d2.link, l.abi.m = Link.abiInertia l.body.mp ∧ l.body.mp.inertia.Symm :=
    forall_of_map_eq Link.fixedPart (fun x => x.2.2.1 = Link.abiInertia x.1 ∧ x.1.inertia.Symm) pfix hm
  have getfix : ∀ (i : ℕ) (l : Link K), d2.link[i]? = some l → ∃ m, c.link[i]? = some m ∧ l.fixedPart = m.fixedPart := by
    intro i l hl
    have := congrArg (fun L => L[i]?) pfix
    simp only [List.getElem?_map, hl, Option.map_some] at this
    cases hc : c.link[i]? with
    | none => rw [hc] at this; simp at this
    | some m => rw [hc] at this; simp only [Option.map_some, Option.some.injEq] at this; exact ⟨m, rfl, this⟩
  have hroot2 : ∀ l, d2.link[0]? = some l → l.joint.prp.ABIRootGood := by
    intro l hl
    obtain ⟨m, hm', ef⟩ := getfix 0 l hl
    have : l.fixedPart.2.2.2.2.2 := by rw [ef]; exact hroot m hm'
    exact this
  have hgood2 : ∀ (i : ℕ) (l : Link K), d2.link[i + 1]? = some l → l.joint.prp.ABIGood := by
    intro i l hl
    obtain ⟨m, hm', ef⟩ := getfix (i + 1) l hl
    have : l.fixedPart.2.2.2.2.1 := by rw [ef]; exact hgood i m hm'
    exact this
  have perm2 := Chain.gather_perm gv2 w2.perm
  -- the tree
  obtain ⟨t, ht⟩ := w2.root
  have gv3 := gv2
  rw [ht] at gv3
  obtain ⟨l0, cc, ss, g4, g5, g6, e7⟩ := Chain.gather_node.1 gv3
  simp only [Chain.gather, Option.some.injEq] at g6
  subst g6
  have hgc : ∀ m ∈ cc.toList, m.joint.prp.ABIGood := by
    intro m hm'
    have h1 := Chain.gather_toList g5
    have : some m ∈ cc.toList.map some := List.mem_map.2 ⟨m, hm', rfl⟩
    rw [h1] at this
    obtain ⟨j, hj, hjm⟩ := List.mem_map.1 this
    have hnd := w2.nodup
    rw [ht] at hnd
    simp only [LTree.toList, List.append_nil, List.nodup_cons] at hnd
    rcases j with _ | j
    · exact absurd hj hnd.1
    · exact hgood2 j m hjm
  have memT : ∀ m ∈ (T1.updateVel 0).toList, m ∈ d2.link := fun m hm' => perm2.mem_iff.1 hm'
  set TI := (T1.updateVel 0).abiInit 0 with hTI
  have hTIe : TI = LTree.node (l0.abiUpdateInit 0) (cc.abiInit (l0.abiUpdateInit 0).body.vel) .nil := by
    rw [hTI, e7]; rfl
  have initMap : ∀ {β : Type _} (k : Link K → β) (hk : ∀ v l, k (l.abiUpdateInit v) = k l) (T : LTree (Link K)) v,
      (T.abiInit v).map k = T.map k := fun k hk T v => LTree.down_map_inv k hk v T
  have hiI : ∀ m ∈ TI.toList, m.abi.i = m.abi.m ∧ m.abi.b = m.abi.f := by
    have : ∀ (T : LTree (Link K)) v, ∀ m ∈ (T.abiInit v).toList, m.abi.i = m.abi.m ∧ m.abi.b = m.abi.f := by
      intro T
      induction T with
      | nil => intro v m hm'; simp [LTree.abiInit, LTree.down, LTree.toList] at hm'
      | node l c s ihc ihs =>
        intro v m hm'
        simp only [LTree.abiInit, LTree.down, LTree.toList, List.mem_cons, List.mem_append] at hm'
        rcases hm' with rfl | hm' | hm'
        · exact ⟨rfl, rfl⟩
        · exact ihc _ m hm'
        · exact ihs _ m hm'
    exact this _ 0
  have keyI : TI.toList.map Link.statePart = (T1.updateVel 0).toList.map Link.statePart := by
    rw [← LTree.toList_map, ← LTree.toList_map, hTI, initMap Link.statePart Link.statePart_init]
  have hsI : ∀ m ∈ TI.toList, m.abi.m.Symm := by
    refine forall_of_map_eq Link.statePart (fun x => x.1.2.2.1.Symm) keyI ?_
    intro y hy
    obtain ⟨a1, a2⟩ := hm2 y (memT y hy)
    show y.abi.m.Symm
    rw [a1]; exact Link.abiInertia_symm a2
  have hwfI : ∀ m ∈ TI.toList, m.joint.prp.WF :=
    forall_of_map_eq Link.statePart (fun x => x.2.1) keyI fun y hy => hwf2 y (memT y hy)
  have hrI : ∀ m ∈ (TI.abiBack fx).1.toList, AxisRegular m := by
    have k1 : ((TI.abiBack fx).1.abiFwd fx true 0).map AxisRegular = (TI.abiBack fx).1.map AxisRegular := by
      rw [LTree.abiFwd, LTree.down_map_inv AxisRegular]
      intro pa l
      obtain ⟨name, ⟨p, w⟩, body, off, org, adj, abi⟩ := l
      cases p <;> (try cases fx) <;> rfl
    have k2 := congrArg LTree.toList k1
    rw [LTree.toList_map, LTree.toList_map] at k2
    refine forall_of_map_eq AxisRegular (fun P => P) k2.symm ?_
    intro y hy
    exact hr y ((Chain.gather_perm g3 w3.perm).mem_iff.1 hy)
  have hdyn : ((TI.abiBack fx).1.abiFwd fx true 0).Dyn fx 0 := by
    rw [hTIe] at hiI hsI hwfI hrI ⊢
    refine LTree.dyn_root fx _ _ hiI (fun m hm' => by rw [(hiI m hm').1]; exact hsI m hm') (hroot2 l0 g4) ?_ hwfI hrI 0
    have kc := congrArg LTree.toList (LTree.down_map_inv (f := fun v (l : Link K) => l.abiUpdateInit v)
      (g := fun l => l.body.vel) (fun l : Link K => l.joint.prp.ABIGood) (by intro _ _; rfl)
      (l0.abiUpdateInit 0).body.vel cc)
    rw [LTree.toList_map, LTree.toList_map] at kc
    exact forall_of_map_eq (fun l : Link K => l.joint.prp.ABIGood) (fun P => P) kc hgc
  have hkey := LTree.abiKey_update fx true TI 0
  have vkey : TI.map (fun l => (l.adj, l.body.frame, l.body.vel, l.joint.prp.incVel)) =
      (T1.updateVel 0).map fun l => (l.adj, l.body.frame, l.body.vel, l.joint.prp.incVel) :=
    initMap _ (fun _ _ => rfl) _ _
  refine ⟨_, g3, w3, hdyn, ?_, ?_, ?_, ?_, pall, ?_, ?_⟩
  · refine LTree.frameOK_congr (T := T1) ?_ ?_
    · have a1 := congrArg (LTree.map fun x => (x.2.1, x.1)) hkey
      have a2 := congrArg (LTree.map fun x => (x.2.1, x.1)) vkey
      rw [LTree.map_map, LTree.map_map] at a1 a2
      refine (a1.trans (a2.trans ?_)).symm
      rw [LTree.updateVel_eq]
      refine LTree.down_map_inv _ ?_ _ _
      intro _ _; rfl
    · rw [hT1']; exact LTree.frameOK_updateFrame _ _
  · have hvT : TI.VelOK 0 := by
      have : ∀ (T : LTree (Link K)) v v', T.VelOK v' → (T.abiInit v).VelOK v' := by
        intro T
        induction T with
        | nil => intro _ _ _; trivial
        | node l c s ihc ihs => intro v v' hh; exact ⟨hh.1, ihc _ _ hh.2.1, ihs _ _ hh.2.2⟩
      exact this _ _ _ (LTree.velOK_updateVel 0 T1)
    exact LTree.velOK_key hkey.symm hvT
  · exact LTree.initOK_congr hkey.symm (LTree.initOK_abiInit 0 _)
  · have q3 : ls3.map Link.statePart = d2.link.map Link.statePart := p3
    have r3 := forall_of_map_eq Link.statePart (fun x => x.2.1 ∧ x.1.2.2.1 = Link.abiInertia x.1.1) q3
      (fun y hy => ⟨hwf2 y hy, (hm2 y hy).1⟩)
    intro l hl
    exact r3 l ((Chain.gather_perm g3 w3.perm).mem_iff.1 hl)
  · have a1 := congrArg (List.map fun x => (x.2.2.1, x.2.2.2.2)) (p3.trans p2)
    simp only [List.map_map] at a1
    exact offsetsFrom_congr (a1.trans (o2.trans o1)) ho
  · intro hv ha
    have hoff3 : setOffset ls3 = ls3 := by
      have a1 := congrArg (List.map fun x => (x.2.2.1, x.2.2.2.2)) (p3.trans p2)
      simp only [List.map_map] at a1
      exact offsetsFrom_congr (a1.trans (o2.trans o1)) ho
    have hz1 : jointSize ls = jointSize c.link := by
      refine jointSize_congr ?_
      have a3 := congrArg (List.map Prod.snd) o1
      simp only [List.map_map] at a3
      exact a3
    have hz3 : jointSize ls3 = jointSize c.link := by
      refine jointSize_congr ?_
      have a1 := congrArg (List.map fun x => x.2.2.2.2) (p3.trans p2)
      have a2 := congrArg (List.map Prod.snd) o2
      have a3 := congrArg (List.map Prod.snd) o1
      simp only [List.map_map] at a1 a2 a3
      exact a1.trans (a2.trans a3)
    constructor
    · have hols : setOffset ls = ls := offsetsFrom_congr o1 ho
      obtain ⟨lsx, x1, x2⟩ := C02_vel_roundtrip ls vel vel hols (by rw [hz1, hv]) (by rw [hz1, hv])
      rw [e2, Option.some.injEq] at x1
      subst x1
      rw [getJointAll_eq Prp.getVel getVel_length ls' (offsetsFrom_congr (o2.trans o1) ho) vel
        (by rw [hv]; symm; refine jointSize_congr ?_
            have a2 := congrArg (List.map Prod.snd) (o2.trans o1)
            simp only [List.map_map] at a2
            exact a2), Option.some.injEq] at x2
      rw [← x2]
      have a1 := congrArg (List.map fun x => x.2.2.2.1) (p3.trans p2)
      simp only [List.map_map] at a1
      exact congrArg List.flatten a1.symm
    · have := getJointAll_eq Prp.getAcc getAcc_length ls3 hoff3 acc (by rw [ha, hz3])
      rw [this, Option.some.injEq] at e6
      exact e6.symm

/-- Inverse dynamics is defined on every well-formed chain. -/
theorem _root_.Roki.Chain.WF.updateID_exists {c : Chain K} (h : c.WF) (g : Vec6 K) :
    ∃ c2, c.updateID g = some c2 := by
  obtain ⟨ls1, T, hT, e1, g1, n1⟩ := h.downAt (fun st (l : Link K) => l.updateRate1 st.1 st.2)
    (fun l => (l.body.vel, l.body.acc)) (0, g)
  have h1 : Chain.WF { c with link := ls1 } := h.with_link n1
  obtain ⟨ls2, T2, hT2, e2, g2, n2⟩ := h1.updateWrenchAt
  refine ⟨({ c with link := ls2 } : Chain K).calcCOMVel.calcCOMAcc, ?_⟩
  have e1' : Chain.updateRateAt none c.shape (0, g) c.link = some ls1 := e1
  simp only [Chain.updateID, Chain.updateRate, e1', Option.map_some, Chain.updateWrench,
    Option.bind_eq_bind, Option.bind_some]
  simp only at e2
  rw [e2]
  rfl

/-- **C26.**  Take a chain whose workspace for forward dynamics has been prepared (`rkChainABIAlloc`:
`abi.m` is the inertia of the link; no additional force attached), with symmetric inertia tensors.
Call `rkChainABI` with any displacements and velocities, any motor inputs, friction torques and external
forces being set.  Feed the velocities and the resulting accelerations to `rkChainID`.  Then every joint
torque that comes out is the one the motor and friction apply, less the inertia of the motor, it is zero
at floating joints, and the wrenches at the joints are those computed by forward dynamics.

Missing from the full property: joints are fixed, revolute, floating or breakable, and a prismatic joint
may only be at the root (see `C26_prism_fails`, `C26_cylin_fails`, `C26_hooke_fails`); linear and angular
velocity of floating joints are parallel (see `C26_float_fails`); no breakable joint when the table of
breakable joints has been exchanged. -/
theorem C26_inverse_of_forward_partial (c c1 : Chain K) (fx : Bool) (dis vel acc acc' : List K) (h : c.WF)
    (ho : setOffset c.link = c.link) (hv : vel.length = jointSize c.link)
    (ha : acc.length = jointSize c.link)
    (hm : ∀ l ∈ c.link, l.abi.m = Link.abiInertia l.body.mp ∧ l.body.mp.inertia.Symm ∧ l.abi.wlist = [])
    (hroot : ∀ l, c.link[0]? = some l → l.joint.prp.ABIRootGood)
    (hgood : ∀ (i : ℕ) (l : Link K), c.link[i + 1]? = some l → l.joint.prp.ABIGood)
    (e : c.abi fx dis vel acc = some (c1, some acc'))
    (hr : ∀ l ∈ c1.link, AxisRegular l)
    (hfx : fx = true → ∀ l ∈ c1.link, ∀ d, l.joint.prp ≠ .brfloat d)
    (hf : ∀ l ∈ c1.link, ∀ d, l.joint.prp = .float d ∨ l.joint.prp = .brfloat d →
      cross d.vel.lin d.vel.ang = 0) :
    ∃ c2, c1.invDyn ⟨⟨0, 0, rkG⟩, 0⟩ vel acc' = some c2 ∧
      ∀ (i : ℕ) (l1 l2 : Link K), c1.link[i]? = some l1 → c2.link[i]? = some l2 →
        l2.joint.prp.getTrq = appliedTrq l1.joint.prp ∧ l2.joint.wrench = l1.joint.wrench := by
  obtain ⟨U, gU, w1, hd, hF, hV, hI, hmU, hfix, ho1, hva⟩ := abi_state h ho (fun l hl => ⟨(hm l hl).1, (hm l hl).2.1⟩)
    hroot hgood e hr
  obtain ⟨ev, ea⟩ := hva hv ha
  obtain ⟨c2, e2⟩ := w1.updateID_exists ⟨⟨0, 0, rkG⟩, 0⟩
  have hwl : ∀ l ∈ c1.link, l.abi.wlist = [] :=
    forall_of_map_eq Link.fixedPart (fun x => x.2.2.2.1 = []) hfix fun y hy => (hm y hy).2.2
  have perm := Chain.gather_perm gU w1.perm
  refine ⟨c2, ?_, ?_⟩
  · rw [Chain.invDyn, ev, ea, setJointRateAll_self ho1]
    exact e2
  · obtain ⟨T2, hT2, g2, w2, s2, n2, -⟩ := w1.updateID e2
    rw [gU, Option.some.injEq] at hT2
    subst hT2
    have key := LTree.dyn_updateWrench (fx := fx) rkG rfl U Frame.ident 0 0 hd hF hV hI
      (fun l hl => ⟨(hmU l hl).2, hwl l (perm.mem_iff.1 hl)⟩)
      (fun hx l hl => hfx hx l (perm.mem_iff.1 hl))
      (fun l hl d hd' => ⟨by
        have := (hmU l hl).1
        rcases hd' with hp | hp <;> rw [hp] at this <;> exact this, hf l (perm.mem_iff.1 hl) d hd'⟩)
    have hg0 : (0 : Vec6 K) + ⟨(Frame.ident : Frame K).att.mulVecT ⟨0, 0, rkG⟩, 0⟩ = ⟨⟨0, 0, rkG⟩, 0⟩ := by
      rw [zero_add, Frame.ident_att, Mat3.one_mulVecT]
    rw [hg0] at key
    have key2 : (U.updateRate 0 ⟨⟨0, 0, rkG⟩, 0⟩).updateWrench.map (fun l => (l.joint.prp.getTrq, l.joint.wrench)) =
        U.map fun l => ((l.joint.prp.calcTrq l.joint.wrench).getTrq, l.joint.wrench) := by
      have := congrArg (LTree.map fun x : Frame K × Joint K => (x.2.prp.getTrq, x.2.wrench)) key
      rw [LTree.map_map, LTree.map_map] at this
      exact this
    -- what the equations say about each link
    have heq : ∀ (pa : Vec6 K) (V : LTree (Link K)), V.Dyn fx pa → (∀ l ∈ V.toList, l.joint.prp.ABIRootGood ∧
        (fx = true → ∀ d, l.joint.prp ≠ .brfloat d)) →
        V.map (fun l => ((l.joint.prp.calcTrq l.joint.wrench).getTrq, l.joint.wrench)) =
        V.map fun l => (appliedTrq l.joint.prp, l.joint.wrench) := by
      intro pa V
      induction V generalizing pa with
      | nil => intro _ _; rfl
      | node l cc s ihc ihs =>
        intro hdV hg
        obtain ⟨hn, hc, hs⟩ := hdV
        simp only [LTree.toList, List.mem_cons, List.mem_append] at hg
        simp only [LTree.map, LTree.node.injEq, Prod.mk.injEq, and_true]
        refine ⟨?_, ihc _ hc fun m hm' => hg m (.inr (.inl hm')), ihs _ hs fun m hm' => hg m (.inr (.inr hm'))⟩
        obtain ⟨gl, bl⟩ := hg l (.inl rfl)
        have hj := hn.joint
        have hfl := hn.float
        simp only [LTree.FloatEq] at hfl
        cases hp : l.joint.prp with
        | fixed => rfl
        | revol p => rw [hp] at hj; simp only [Prp.calcTrq, Prp.getTrq, appliedTrq]; rw [← hj]
        | prism p => rw [hp] at hj; simp only [Prp.calcTrq, Prp.getTrq, appliedTrq]; rw [← hj]
        | float p =>
          rw [hp] at hfl
          simp only at hfl
          rw [hfl]
          simp [Prp.calcTrq, Prp.getTrq, appliedTrq, Mat3.mulVec6, Vec6.toBuf, Vec3.toBuf]
        | brfloat p =>
          have hfx' : fx = false := by
            cases fx with
            | false => rfl
            | true => exact absurd hp (bl rfl p)
          rw [hp] at hfl
          simp only at hfl
          rw [hfl hfx']
          simp [Prp.calcTrq, Prp.getTrq, appliedTrq, Mat3.mulVec6, Vec6.toBuf, Vec3.toBuf]
        | cylin p => rw [hp] at gl; exact absurd gl (by simp [Prp.ABIGood, Prp.ABIRootGood])
        | hooke p => rw [hp] at gl; exact absurd gl (by simp [Prp.ABIGood, Prp.ABIRootGood])
        | spher p => rw [hp] at gl; exact absurd gl (by simp [Prp.ABIGood, Prp.ABIRootGood])
    have hgall : ∀ l ∈ c1.link, l.joint.prp.ABIRootGood := by
      refine forall_of_map_eq Link.fixedPart (fun x => x.2.2.2.2.2) hfix ?_
      intro y hy
      obtain ⟨i, hi⟩ := List.mem_iff_getElem?.1 hy
      rcases i with _ | i
      · exact hroot y hi
      · have : y.joint.prp.ABIGood := hgood i y hi
        show y.joint.prp.ABIRootGood
        cases hp : y.joint.prp <;> simp_all [Prp.ABIRootGood, Prp.ABIGood]
    have key3 := key2.trans (heq 0 U hd fun l hl => ⟨hgall l (perm.mem_iff.1 hl), fun hx => hfx hx l (perm.mem_iff.1 hl)⟩)
    intro i l1 l2 h1 h2
    have hi : i ∈ c1.shape.toList := by
      refine w1.mem.2 ?_
      by_contra hh
      rw [List.getElem?_eq_none (by omega)] at h1; simp at h1
    have hk := Chain.getElem_of_gather_map gU (s2 ▸ g2) (fun l => (appliedTrq l.joint.prp, l.joint.wrench))
      (fun l => (l.joint.prp.getTrq, l.joint.wrench)) key3.symm i hi
    rw [h1, h2] at hk
    simp only [Option.map_some, Option.some.injEq, Prod.mk.injEq] at hk
    exact ⟨hk.1.symm, hk.2.symm⟩
end
end Roki
