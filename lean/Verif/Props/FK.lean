import Verif.Lemmas.FK
import Verif.Lemmas.ZmReal
import Verif.Spec.Samples

/-!
# C06, C07: forward kinematics
-/

namespace Roki
open Spec LinkArray
set_option linter.unusedSectionVars false
variable {K : Type*} [Field K]

/-! ## C06 -/

/-- **C06** `rkChainUpdateFK` on any chain whose links form one tree rooted at link 0: it completes;
nothing but the computed frames and centers of mass changes; every link is at the end of a path from
the root; and the world frame of a link is the ordered product, along the path from the root, of the
original frames and joint transformations of the links on the path.  The frame of a link with
respect to its parent and the world position of its center of mass are those of the link. -/
theorem C06_fk_composition (c : Chain K) (h : c.WF) :
    ∃ c', c.updateFK = some c' ∧ c'.shape = c.shape ∧
      c'.link.map eraseFK = c.link.map eraseFK ∧
      (∀ i < c.link.length, ∃ path, IsPath c.shape (path ++ [i])) ∧
      ∀ (path : List ℕ) (i : ℕ) (l : Link K), IsPath c.shape (path ++ [i]) → c'.link[i]? = some l →
        (∃ ms : List (Link K), (path ++ [i]).map (fun j => c.link[j]?) = ms.map some ∧
          l.body.frame = product (ms.map linkFrame)) ∧
        l.adj = linkFrame l ∧ l.body.wldCOM = l.body.frame.xform l.body.mp.com := by
  obtain ⟨ls', T, hT, e, g', n⟩ := h.downAt (fun pwf (l : Link K) => l.updateFrame1 pwf)
    (fun l => l.body.frame) Frame.ident
  refine ⟨({ c with link := ls' } : Chain K).calcCOM, ?_, rfl, ?_, ?_, ?_⟩
  · simp only [Chain.updateFK, Chain.updateFrame, Chain.updateFrameAt, e, Option.map_some]
  · refine Chain.map_eq_of_gather g' hT n (fun i hi => h.mem.2 (by omega)) eraseFK ?_
    exact LTree.down_map_inv _ eraseFK_updateFrame1 _ _
  · intro i hi
    exact LTree.exists_path (h.mem.2 hi)
  · intro path i l hp hl
    have hl' : ls'[i]? = some l := hl
    refine ⟨?_, ?_⟩
    · obtain ⟨q, hq, eq⟩ := Chain.gather_path g' hp
      obtain ⟨p, hp1, hd⟩ := LTree.isPath_down hq
      obtain ⟨l', hl1, hf⟩ := downPath_frame hd
      -- the path of the original links
      obtain ⟨p0, hp0, ep0⟩ := Chain.gather_path hT hp
      have hlast : l' = l := by
        have : (q.map some).getLast? = some (some l) := by rw [eq]; simp [hl']
        rw [List.getLast?_map] at this
        rw [Option.mem_def.1 hl1] at this
        simpa using this
      subst hlast
      refine ⟨p0, ep0.symm, ?_⟩
      rw [hf]
      have hpe : p.map linkFrame = p0.map linkFrame := by
        -- both are the frames of the links at the indices of the path
        have h1 : q.map linkFrame = p.map linkFrame := downPath_linkFrame hd
        rw [← h1]
        have h2 : ls'.map linkFrame = c.link.map linkFrame := by
          refine Chain.map_eq_of_gather g' hT n (fun i hi => h.mem.2 (by omega)) linkFrame ?_
          exact LTree.down_map_inv _ linkFrame_updateFrame1 _ _
        have h3 : (q.map some).map (Option.map linkFrame) = (p0.map some).map (Option.map linkFrame) := by
          rw [eq, ep0, List.map_map, List.map_map]
          apply List.map_congr_left
          intro j _
          have := congrArg (fun t => t[j]?) h2
          simpa [List.getElem?_map] using this
        simp only [List.map_map] at h3
        have h4 := congrArg (List.filterMap _root_.id) h3
        simpa [List.filterMap_map, Function.comp_def] using h4
      rw [hpe]
      exact Frame.ident_cascade _
    · rw [← LTree.updateFrame_eq] at g'
      have : i ∈ c.shape.toList := hp.mem i (by simp)
      exact mem_down_updateFrame (Chain.mem_of_gather g' this hl')

/-- **C06** Attitudes stay rotations: if the original attitudes of the links and the joint
rotations are rotations, so is every world attitude after forward kinematics. -/
theorem C06_fk_rotation (c c' : Chain K) (h : c.WF) (hc : c.updateFK = some c')
    (hr : ∀ l ∈ c.link, l.org.att.IsRot ∧ l.joint.prp.WF) :
    ∀ l ∈ c'.link, l.body.frame.att.IsRot ∧ l.adj.att.IsRot := by
  obtain ⟨c'', e, hs, hst, hpath, hall⟩ := C06_fk_composition c h
  rw [hc] at e
  cases e
  have hlen : c'.link.length = c.link.length := by
    have := congrArg List.length hst
    simpa using this
  intro l hl
  obtain ⟨i, hi⟩ := List.mem_iff_getElem?.1 hl
  have hil : i < c.link.length := by
    rw [← hlen]
    exact (List.getElem?_eq_some_iff.1 hi).1
  obtain ⟨path, hp⟩ := hpath i hil
  obtain ⟨⟨ms, hms, hf⟩, ha, -⟩ := hall path i l hp hi
  have hmem : ∀ m ∈ ms, m ∈ c.link := by
    intro m hm
    have : some m ∈ ms.map some := List.mem_map.2 ⟨m, hm, rfl⟩
    rw [← hms] at this
    obtain ⟨j, -, hj⟩ := List.mem_map.1 this
    exact List.mem_iff_getElem?.2 ⟨j, hj⟩
  refine ⟨?_, ?_⟩
  · rw [hf]
    refine isRot_product fun f hf => ?_
    obtain ⟨m, hm, rfl⟩ := List.mem_map.1 hf
    exact isRot_linkFrame (hr m (hmem m hm)).1 (hr m (hmem m hm)).2
  · rw [ha]
    have he := congrArg (fun t => t[i]?) hst
    simp only [List.getElem?_map, hi, Option.map_some, List.getElem?_eq_getElem hil,
      Option.some.injEq] at he
    have h1 : l.org = c.link[i].org := by
      have := congrArg Link.org he; simpa [eraseFK] using this
    have h2 : l.joint = c.link[i].joint := by
      have := congrArg Link.joint he; simpa [eraseFK] using this
    have := hr c.link[i] (List.getElem_mem _)
    refine isRot_linkFrame ?_ ?_
    · rw [h1]; exact this.1
    · rw [h2]; exact this.2

section
variable [LinearOrder K] [Zm K]

/-- Setting a displacement makes the cached sine, cosine and attitude those of a rotation. -/
theorem setDis_WF [IsStrictOrderedRing K] [LawfulZm K] (p p' : Prp K) (v : List K)
    (h : p.setDis v = some p') : p'.WF := by
  cases p <;> rcases v with _ | ⟨a, _ | ⟨b, _ | ⟨c, _ | ⟨d, _ | ⟨e, _ | ⟨f, v⟩⟩⟩⟩⟩⟩ <;>
    simp [Prp.setDis, Vec3.ofBuf, Vec6.ofBuf] at h <;> subst h <;>
    simp [Prp.WF, LawfulZm.sin_sq_add_cos_sq, LawfulZm.fromAA_isRot]

theorem setJointAll_ok {ls : List (Link K)} (ho : setOffset ls = ls) {v : List K}
    (hv : v.length = jointSize ls) : ∃ ls', setJointAll Prp.setDis v ls = some ls' := by
  obtain ⟨ls', e, _⟩ := setJointAll_from isSetter_dis
    (fun p h => by cases p <;> simp_all [Prp.size, Prp.getDis, Prp.limDis]) ls 0 ho v
    (by rw [jointSize_eq] at hv; omega)
  exact ⟨ls', e⟩

omit [Field K] [LinearOrder K] [Zm K] in
theorem setJointAll_getElem {set : Prp K → List K → Option (Prp K)} {v : List K}
    {ls ls' : List (Link K)} (h : setJointAll set v ls = some ls') (i : ℕ) :
    ls[i]?.bind (fun l => l.setAtOffset set v) = ls'[i]? ∧ ls'.length = ls.length := by
  induction ls generalizing ls' i with
  | nil => simp only [setJointAll, Option.some.injEq] at h; subst h; simp
  | cons l ls ih =>
    simp only [setJointAll, Option.bind_eq_bind, Option.bind_eq_some_iff, Option.pure_def,
      Option.some.injEq] at h
    obtain ⟨l', h1, ls1, h2, rfl⟩ := h
    refine ⟨?_, by simp [(ih h2 0).2]⟩
    rcases i with _ | i
    · simpa using h1
    · simpa using (ih h2 i).1

omit [Field K] [LinearOrder K] [Zm K] in
/-- A movable joint has a nonnegative offset after `rkChainSetOffset`. -/
theorem offset_nonneg {ls : List (Link K)} (ho : setOffset ls = ls) {l : Link K} (hl : l ∈ ls)
    (hs : 0 < l.joint.prp.size) : 0 ≤ l.offset := by
  obtain ⟨i, hi⟩ := List.mem_iff_getElem?.1 hl
  have := setOffsetFrom_getElem? 0 ls i
  rw [show setOffsetFrom 0 ls = ls from ho, hi] at this
  simp only [Option.map_some, Option.some.injEq] at this
  have h2 : l.offset = offsetAt l (0 + sizes (ls.take i)) := by
    have := congrArg Link.offset this; simpa using this
  rw [h2]
  simp [offsetAt, Link.size, hs]

/-- **C06** The attitudes after `rkChainFK` are rotations for every displacement vector, with no
hypothesis on the state of the joints before the call. -/
theorem C06_fk_rotation_any [IsStrictOrderedRing K] [LawfulZm K] (c : Chain K) (h : c.WF)
    (ho : setOffset c.link = c.link) (dis : List K) (hd : dis.length = jointSize c.link)
    (hr : ∀ l ∈ c.link, l.org.att.IsRot) :
    ∃ c', c.fk dis = some c' ∧ ∀ l ∈ c'.link, l.body.frame.att.IsRot ∧ l.adj.att.IsRot := by
  obtain ⟨ls, e⟩ := setJointAll_ok ho hd
  have hlen := (setJointAll_getElem e 0).2
  have hw : Chain.WF { c with link := ls } := h.with_link hlen
  obtain ⟨c', e', -⟩ := C06_fk_composition _ hw
  refine ⟨c', by simp [Chain.fk, e, e'], ?_⟩
  refine C06_fk_rotation _ c' hw e' ?_
  intro l hl
  obtain ⟨i, hi⟩ := List.mem_iff_getElem?.1 hl
  have hi : ls[i]? = some l := hi
  have h1 := (setJointAll_getElem e i).1
  rw [hi, Option.bind_eq_some_iff] at h1
  obtain ⟨l0, h0, h1⟩ := h1
  have hm : l0 ∈ c.link := List.mem_iff_getElem?.2 ⟨i, h0⟩
  simp only [Link.setAtOffset] at h1
  split_ifs at h1 with hoff
  · obtain ⟨p, hp, rfl⟩ := setWith_eq_some.1 h1
    exact ⟨hr l0 hm, setDis_WF _ _ _ hp⟩
  · simp only [Option.some.injEq] at h1
    subst h1
    refine ⟨hr l0 hm, ?_⟩
    have hz : ¬ 0 < l0.joint.prp.size := fun hs => hoff (offset_nonneg ho hm hs)
    cases hp : l0.joint.prp <;> simp [hp, Prp.size] at hz
    trivial
end

/-- A root link that has a sibling makes `rkChainUpdateFK` dereference the null parent pointer. -/
theorem C06_root_sibling_faults (c : Chain K) {i j : ℕ} {t u v : LTree ℕ}
    (h : c.shape = .node i t (.node j u v)) : c.updateFK = none := by
  simp only [Chain.updateFK, Chain.updateFrame, Chain.updateFrameAt, h, Chain.downAt, LTree.isNil]
  cases c.link[i]? with
  | none => rfl
  | some l =>
    simp only [Option.bind_eq_bind, Option.bind_some]
    cases Chain.downAt _ _ _ _ _ _ <;> rfl

/-- The hypotheses are met by the sample chain, a tree of four links. -/
example : (Sample.chain (K := ℝ)).WF ∧ setOffset (Sample.chain (K := ℝ)).link = Sample.chain.link ∧
    (∀ l ∈ (Sample.chain (K := ℝ)).link, l.org.att.IsRot) ∧
    IsPath (Sample.chain (K := ℝ)).shape [0, 2, 3] := by
  refine ⟨Sample.chain_wf, rfl, ?_, ?_⟩
  · intro l hl
    have h1 : (Sample.chain (K := ℝ)).link.map (fun l => l.org.att) = [1, 1, 1, 1] := rfl
    have h2 : l.org.att ∈ (Sample.chain (K := ℝ)).link.map (fun l => l.org.att) :=
      List.mem_map.2 ⟨l, hl, rfl⟩
    rw [h1] at h2
    simp only [List.mem_cons, List.not_mem_nil, or_false, or_self] at h2
    rw [h2]; exact Mat3.isRot_one
  · exact .child (.sibl (.child (.here _ _ _)))

/-! ## C07 -/

section
variable [LinearOrder K] [Zm K]

/-- What `rkJointSetDis` stores depends on the type and the limits only. -/
theorem setDis_const (p1 p2 q1 : Prp K) (v : List K) (h : jointConst p1 = jointConst p2)
    (e : p1.setDis v = some q1) : ∃ q2, p2.setDis v = some q2 ∧ q2.getDis = q1.getDis ∧
      (∀ f, q2.xform f = q1.xform f) := by
  cases p1 <;> cases p2 <;>
    simp [jointConst, Prp.typeStr, Prp.getMin, Prp.getMax] at h <;>
    rcases v with _ | ⟨a, _ | ⟨b, _ | ⟨c, _ | ⟨d, _ | ⟨e', _ | ⟨f, v⟩⟩⟩⟩⟩⟩ <;>
    simp [Prp.setDis, Vec3.ofBuf, Vec6.ofBuf] at e <;> subst e <;>
    exact ⟨_, rfl, by simp [Prp.getDis, h], by simp [Prp.xform, h]⟩

theorem setDis_again (p q : Prp K) (v : List K) (e : p.setDis v = some q) : q.setDis v = some q := by
  cases p <;> rcases v with _ | ⟨a, _ | ⟨b, _ | ⟨c, _ | ⟨d, _ | ⟨e', _ | ⟨f, v⟩⟩⟩⟩⟩⟩ <;>
    simp [Prp.setDis, Vec3.ofBuf, Vec6.ofBuf] at e <;> subst e <;> rfl

/-- The frames after forward kinematics depend on the relative frames and the centers of mass. -/
theorem updateFrame_congr (st : Frame K) {T1 T2 : LTree (Link K)}
    (h : T1.map (fun l => (l.joint.prp.getDis, l.joint.prp.xform l.org, l.body.mp)) =
         T2.map (fun l => (l.joint.prp.getDis, l.joint.prp.xform l.org, l.body.mp))) :
    (T1.updateFrame st).map (fun l => (fkResult l, l.body.mp)) =
      (T2.updateFrame st).map (fun l => (fkResult l, l.body.mp)) := by
  induction T1 generalizing T2 st with
  | nil => cases T2 with
    | nil => rfl
    | node => simp [LTree.map] at h
  | node l c s ihc ihs => cases T2 with
    | nil => simp [LTree.map] at h
    | node l2 c2 s2 =>
      simp only [LTree.map, LTree.node.injEq, Prod.mk.injEq] at h
      obtain ⟨⟨h1, h2, h3⟩, h4, h5⟩ := h
      simp only [LTree.updateFrame, LTree.map, LTree.node.injEq]
      have hf : (l.updateFrame1 st).body.frame = (l2.updateFrame1 st).body.frame := by
        simp only [Link.updateFrame1, Body.updateCOM, h2]
      refine ⟨?_, ?_, ihs _ h5⟩
      · simp only [Link.updateFrame1, Body.updateCOM, fkResult, h1, h2, h3]
      · rw [hf]; exact ihc _ h4

/-- **C07** The result of `rkChainFK` depends only on the constant data of the chain and on the
given displacement: two chains that agree on joint types and limits, offsets, original frames, mass
properties and tree structure, whatever else they hold, get the same joint displacements, the same
frames and centers of mass of all links, and the same total center of mass. -/
theorem C07_fk_history_free (c1 c2 : Chain K) (h1 : c1.WF) (hs : c2.shape = c1.shape)
    (hm : c2.mass = c1.mass) (hc : c2.link.map fkConst = c1.link.map fkConst)
    (ho : setOffset c1.link = c1.link) (dis : List K) (hd : dis.length = jointSize c1.link) :
    ∃ d1 d2, c1.fk dis = some d1 ∧ c2.fk dis = some d2 ∧
      d1.link.map fkResult = d2.link.map fkResult ∧ d1.wldCOM = d2.wldCOM := by
  obtain ⟨ls1, e1⟩ := setJointAll_ok ho hd
  have hlen1 := (setJointAll_getElem e1 0).2
  have hlen21 : c2.link.length = c1.link.length := by simpa using congrArg List.length hc
  have hget : ∀ (i : ℕ) (l : Link K), c1.link[i]? = some l →
      ∃ l2, c2.link[i]? = some l2 ∧ fkConst l2 = fkConst l := by
    intro i l hl
    have := congrArg (fun t => t[i]?) hc
    simp only [List.getElem?_map, hl, Option.map_some, Option.map_eq_some_iff] at this
    exact this
  -- the second chain accepts the displacement too, and stores the same
  have key : ∀ (l1 l2 l1' : Link K), fkConst l2 = fkConst l1 →
      (0 < l1.joint.prp.size → 0 ≤ l1.offset) →
      l1.setAtOffset Prp.setDis dis = some l1' → ∃ l2', l2.setAtOffset Prp.setDis dis = some l2' ∧
        (l2'.joint.prp.getDis, l2'.joint.prp.xform l2'.org, l2'.body.mp) =
        (l1'.joint.prp.getDis, l1'.joint.prp.xform l1'.org, l1'.body.mp) := by
    intro l1 l2 l1' hk hof he
    simp only [fkConst, Prod.mk.injEq] at hk
    obtain ⟨k1, k2, k3, k4⟩ := hk
    simp only [Link.setAtOffset, k2] at he ⊢
    split_ifs at he ⊢ with hoff
    · obtain ⟨p, hp, rfl⟩ := setWith_eq_some.1 he
      obtain ⟨q2, e2, g2, x2⟩ := setDis_const _ l2.joint.prp _ _ k1.symm hp
      refine ⟨_, setWith_eq_some.2 ⟨q2, e2, rfl⟩, ?_⟩
      simp only [g2, x2, k3, k4]
    · simp only [Option.some.injEq] at he
      subst he
      refine ⟨l2, rfl, ?_⟩
      have hz : ¬ 0 < l1.joint.prp.size := fun hs => hoff (hof hs)
      cases hp : l1.joint.prp <;> simp [hp, Prp.size] at hz
      rw [hp] at k1
      cases hp2 : l2.joint.prp <;> rw [hp2] at k1 <;> simp [jointConst, Prp.typeStr] at k1
      simp [k3, k4, Prp.getDis, Prp.xform]
  have all2 : ∀ (a b a' : List (Link K)), b.map fkConst = a.map fkConst →
      (∀ l ∈ a, 0 < l.joint.prp.size → 0 ≤ l.offset) →
      setJointAll Prp.setDis dis a = some a' → ∃ b', setJointAll Prp.setDis dis b = some b' ∧
        b'.map (fun l => (l.joint.prp.getDis, l.joint.prp.xform l.org, l.body.mp)) =
        a'.map (fun l => (l.joint.prp.getDis, l.joint.prp.xform l.org, l.body.mp)) := by
    intro a
    induction a with
    | nil =>
      intro b a' hb _ he
      simp only [List.map_nil, List.map_eq_nil_iff] at hb
      simp only [setJointAll, Option.some.injEq] at he
      subst hb he
      exact ⟨[], rfl, rfl⟩
    | cons l a ih =>
      intro b a' hb hof he
      rcases b with _ | ⟨l2, b⟩
      · simp at hb
      simp only [List.map_cons, List.cons.injEq] at hb
      simp only [setJointAll, Option.bind_eq_bind, Option.bind_eq_some_iff, Option.pure_def,
        Option.some.injEq] at he
      obtain ⟨l', x1, a1, x2, rfl⟩ := he
      obtain ⟨l2', y1, y2⟩ := key l l2 l' hb.1 (hof l (by simp)) x1
      obtain ⟨b', z1, z2⟩ := ih b a1 hb.2 (fun m hm => hof m (by simp [hm])) x2
      exact ⟨l2' :: b', by simp [setJointAll, y1, z1], by simp only [List.map_cons, y2, z2]⟩
  obtain ⟨ls2, e2, hmap⟩ := all2 c1.link c2.link ls1 hc (fun l hl hs => offset_nonneg ho hl hs) e1
  have hlen2 := (setJointAll_getElem e2 0).2
  have w1 : Chain.WF { c1 with link := ls1 } := h1.with_link hlen1
  have w2 : Chain.WF { c2 with link := ls2 } :=
    ⟨by rw [hs]; exact h1.root, by rw [hs]; simpa [hlen2, hlen21] using h1.perm⟩
  obtain ⟨u1, T1, t1, x1, y1, n1⟩ := w1.downAt (fun pwf (l : Link K) => l.updateFrame1 pwf)
    (fun l => l.body.frame) Frame.ident
  obtain ⟨u2, T2, t2, x2, y2, n2⟩ := w2.downAt (fun pwf (l : Link K) => l.updateFrame1 pwf)
    (fun l => l.body.frame) Frame.ident
  simp only at t1 x1 y1 n1 t2 x2 y2 n2
  rw [hs] at t2 x2 y2
  have hT := Chain.gather_map_eq t1 t2 _ hmap.symm
  have hres : u1.map (fun l => (fkResult l, l.body.mp)) = u2.map (fun l => (fkResult l, l.body.mp)) := by
    rw [← LTree.updateFrame_eq] at y1 y2
    refine Chain.map_eq_of_gather y1 y2 (by omega) (fun i hi => h1.mem.2 (by omega)) _ ?_
    exact updateFrame_congr _ hT
  refine ⟨Chain.calcCOM { c1 with link := u1 }, Chain.calcCOM { c2 with link := u2 }, ?_, ?_, ?_, ?_⟩
  · simp only [Chain.fk, e1, Option.bind_eq_bind, Option.bind_some, Chain.updateFK,
      Chain.updateFrame, Chain.updateFrameAt, x1, Option.map_some]
  · simp only [Chain.fk, e2, Option.bind_eq_bind, Option.bind_some, Chain.updateFK,
      Chain.updateFrame, Chain.updateFrameAt, hs, x2, Option.map_some]
  · have := congrArg (List.map Prod.fst) hres
    rw [List.map_map, List.map_map] at this
    exact this
  · have hf : ∀ (ls ls' : List (Link K)) (w : Vec3 K),
        ls.map (fun l => (fkResult l, l.body.mp)) = ls'.map (fun l => (fkResult l, l.body.mp)) →
        ls.foldl (fun p l => cat p l.body.mp.mass l.body.wldCOM) w =
          ls'.foldl (fun p l => cat p l.body.mp.mass l.body.wldCOM) w := by
      intro ls
      induction ls with
      | nil => intro ls' w h; cases ls' <;> simp_all
      | cons l ls ih =>
        intro ls' w h
        rcases ls' with _ | ⟨l', ls'⟩
        · simp at h
        simp only [List.map_cons, List.cons.injEq, Prod.mk.injEq, fkResult] at h
        simp only [List.foldl_cons, h.1.1.2.2.2, h.1.2]
        exact ih _ _ h.2
    simp only [Chain.calcCOM, LinkArray.calcCOM, hm, hf _ _ _ hres]

/-- **C07** Repeating the call changes nothing. -/
theorem C07_fk_repeat (c d : Chain K) (h : c.WF) (dis : List K) (hd : c.fk dis = some d) :
    d.fk dis = some d := by
  simp only [Chain.fk, Option.bind_eq_bind, Option.bind_eq_some_iff] at hd
  obtain ⟨ls, e, hu⟩ := hd
  have hlen := (setJointAll_getElem e 0).2
  have w : Chain.WF { c with link := ls } := h.with_link hlen
  obtain ⟨u, T, t, x, y, n⟩ := w.downAt (fun pwf (l : Link K) => l.updateFrame1 pwf)
    (fun l => l.body.frame) Frame.ident
  simp only at t x y n
  simp only [Chain.updateFK, Chain.updateFrame, Chain.updateFrameAt, x, Option.map_some,
    Option.some.injEq] at hu
  subst hu
  -- the displacements stored are stored again
  have hjo : u.map (fun l => (l.joint, l.offset)) = ls.map (fun l => (l.joint, l.offset)) := by
    refine Chain.map_eq_of_gather y t n (fun i hi => w.mem.2 (by simp only; omega)) _ ?_
    refine LTree.down_map_inv _ ?_ _ _
    intro st l; rfl
  have hself : ∀ (i : ℕ) (l : Link K), ls[i]? = some l → l.setAtOffset Prp.setDis dis = some l := by
    intro i l hl
    have h1 := (setJointAll_getElem e i).1
    rw [hl, Option.bind_eq_some_iff] at h1
    obtain ⟨l0, -, h1⟩ := h1
    simp only [Link.setAtOffset] at h1 ⊢
    split_ifs at h1 with hoff
    · obtain ⟨p, hp, rfl⟩ := setWith_eq_some.1 h1
      simp only [if_pos hoff]
      exact setWith_eq_some.2 ⟨p, setDis_again _ _ _ hp, rfl⟩
    · simp only [Option.some.injEq] at h1
      subst h1
      simp [hoff]
  have hu : setJointAll Prp.setDis dis u = some u := by
    have hg : ∀ l ∈ u, l.setAtOffset Prp.setDis dis = some l := by
      intro l hl
      obtain ⟨i, hi⟩ := List.mem_iff_getElem?.1 hl
      have := congrArg (fun t => t[i]?) hjo
      simp only [List.getElem?_map, hi, Option.map_some] at this
      obtain ⟨m, hm, hme⟩ := Option.map_eq_some_iff.1 this.symm
      have hs := hself i m hm
      simp only [Prod.mk.injEq] at hme
      simp only [Link.setAtOffset, ← hme.2] at hs ⊢
      split_ifs at hs ⊢ with hoff
      · obtain ⟨p, hp, hpe⟩ := setWith_eq_some.1 hs
        refine setWith_eq_some.2 ⟨p, by rw [← hme.1]; exact hp, ?_⟩
        have h2 : m.joint = { m.joint with prp := p } := by
          have := congrArg Link.joint hpe; simpa using this
        rw [hme.1] at h2
        rw [← h2]
      · rfl
    clear hself hjo y n x
    induction u with
    | nil => rfl
    | cons l u ih =>
      simp [setJointAll, hg l (by simp), ih fun m hm => hg m (by simp [hm])]
  -- and the frames are computed again
  have w2 : Chain.WF { c with link := u } := h.with_link (by omega)
  obtain ⟨u2, T2, t2, x2, y2, n2⟩ := w2.downAt (fun pwf (l : Link K) => l.updateFrame1 pwf)
    (fun l => l.body.frame) Frame.ident
  simp only at t2 x2 y2 n2
  have huu : u2 = u := by
    have : u2.map _root_.id = u.map _root_.id := by
      refine Chain.map_eq_of_gather y2 y (by omega) (fun i hi => h.mem.2 (by omega)) _ ?_
      rw [y] at t2
      cases t2
      congr 1
      have idem : ∀ (T : LTree (Link K)) (st : Frame K),
          (T.updateFrame st).updateFrame st = T.updateFrame st := by
        intro T
        induction T with
        | nil => intro st; rfl
        | node l c s ihc ihs =>
          intro st
          simp only [LTree.updateFrame, LTree.node.injEq]
          refine ⟨rfl, ?_, ihs st⟩
          have : (Link.updateFrame1 (Link.updateFrame1 l st) st) = l.updateFrame1 st := rfl
          rw [this]; exact ihc _
      rw [← LTree.updateFrame_eq, ← LTree.updateFrame_eq]
      exact idem T _
    simpa using this
  subst huu
  have x3 : Chain.downAt (fun pwf (l : Link K) => l.updateFrame1 pwf) (fun l => l.body.frame) none
      c.shape Frame.ident u2 = some u2 := x2
  simp only [Chain.fk, Chain.calcCOM, hu, Option.bind_eq_bind, Option.bind_some, Chain.updateFK,
    Chain.updateFrame, Chain.updateFrameAt, x3, Option.map_some]
end

/-- The hypotheses are met by the sample chain with different earlier displacements. -/
example : ∃ c1 c2 : Chain ℝ, c1.WF ∧ c2.shape = c1.shape ∧ c2.mass = c1.mass ∧
    c2.link.map fkConst = c1.link.map fkConst ∧ setOffset c1.link = c1.link ∧
    c1.link.map (fun l => l.body.frame) ≠ c2.link.map (fun l => l.body.frame) := by
  refine ⟨Sample.chain, { Sample.chain with link := Sample.chain.link.map fun l =>
    { l with body := { l.body with frame := ⟨⟨1, 2, 3⟩, 1⟩ } } }, Sample.chain_wf, rfl, rfl, rfl, rfl, ?_⟩
  intro h
  simp [Sample.chain, setOffset, setOffsetFrom, Sample.links, Sample.link, Link.size, Prp.size,
    Body.init, Frame.ident] at h
  have := congrArg Vec3.x h
  norm_num at this

end Roki
