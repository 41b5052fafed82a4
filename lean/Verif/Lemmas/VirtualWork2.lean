import Verif.Lemmas.VirtualWork
import Verif.Props.JointVector

/-! # Virtual work of a run of inverse dynamics on a chain -/

namespace Roki
set_option autoImplicit false
set_option linter.unusedSectionVars false
open Spec LinkArray
variable {K : Type*} [Field K]

/-- The state of a chain between forward kinematics and inverse dynamics. -/
structure Posed (c : Chain K) : Prop where
  wf : c.WF
  off : setOffset c.link = c.link
  rot : ∀ l ∈ c.link, l.body.frame.att.IsRot
  frame : ∃ T, Chain.gather c.link c.shape = some T ∧ T.FrameOK Frame.ident

/-- What inverse dynamics does: the links `ls` with the rates set, their tree `T`, and the result
`c2`. -/
structure IDRun (c1 c2 : Chain K) (g : Vec6 K) (v a : List K) (ls : List (Link K))
    (T : LTree (Link K)) : Prop where
  wf : c2.WF
  shape : c2.shape = c1.shape
  mass : c2.mass = c1.mass
  len : ls.length = c1.link.length
  len2 : c2.link.length = c1.link.length
  tree : Chain.gather ls c1.shape = some T
  tree2 : Chain.gather c2.link c1.shape = some (T.updateRate 0 g).updateWrench
  stat : ls.map statics = c1.link.map statics
  stat2 : c2.link.map statics = c1.link.map statics
  ext : (ls.map fun l => l.body.extw) = c1.link.map fun l => l.body.extw
  ext2 : (c2.link.map fun l => l.body.extw) = c1.link.map fun l => l.body.extw
  vel : ∀ l ∈ ls, l.joint.prp.getVel = slice v l
  acc : ∀ l ∈ ls, l.joint.prp.getAcc = slice a l
  vel2 : (c2.link.map fun l => l.joint.prp.getVel) = ls.map fun l => l.joint.prp.getVel
  flat : (ls.map fun l => l.joint.prp.getVel).flatten = v

theorem offsets_of_statics {l1 l2 : List (Link K)} (h : l1.map statics = l2.map statics) (s : ℕ)
    (ho : OffsetsFrom s l2) : OffsetsFrom s l1 ∧ sizes l1 = sizes l2 := by
  induction l1 generalizing l2 s with
  | nil => cases l2 <;> simp_all [OffsetsFrom, setOffsetFrom]
  | cons a l1 ih =>
    rcases l2 with _ | ⟨b, l2⟩
    · simp at h
    simp only [List.map_cons, List.cons.injEq] at h
    obtain ⟨h1, h2⟩ := h
    obtain ⟨ha, hb, -⟩ := statics_iff.1 h1
    have hsz : a.size = b.size := by
      have := congrArg Prp.size hb
      simpa [size_still] using this
    obtain ⟨k1, k2⟩ := offsetsFrom_cons.1 ho
    obtain ⟨i1, i2⟩ := ih h2 (s + b.size) k2
    refine ⟨offsetsFrom_cons.2 ⟨?_, ?_⟩, by rw [sizes_cons, sizes_cons, i2, hsz]⟩
    · rw [ha, k1, offsetAt, offsetAt, hsz]
    · rw [hsz]; exact i1

theorem slices_of_map {get : Prp K → List K} (hg : ∀ p : Prp K, (get p).length = p.size)
    {v : List K} {ls ls' : List (Link K)} (ho : setOffset ls = ls)
    (hl : ls'.map statics = ls.map statics)
    (h : (ls'.map fun l => get l.joint.prp) = slicesFrom (fun _ x => x) v 0 ls) :
    ∀ l ∈ ls', get l.joint.prp = slice v l := by
  intro l hl'
  obtain ⟨i, hi⟩ := List.mem_iff_getElem?.1 hl'
  by_cases hs : 0 < l.size
  · have hlen : i < ls.length := by
      have := congrArg List.length hl
      simp at this
      rw [← this]; exact (List.getElem?_eq_some_iff.1 hi).1
    have hm : ls[i]? = some ls[i] := List.getElem?_eq_getElem hlen
    have e := congrArg (fun x => x[i]?) hl
    simp only [List.getElem?_map, hi, hm, Option.map_some, Option.some.injEq] at e
    obtain ⟨ha, hb, -⟩ := statics_iff.1 e
    have hsz : l.size = (ls[i]).size := by
      have := congrArg Prp.size hb
      simpa [size_still] using this
    have e2 := congrArg (fun x => x[i]?) h
    simp only [List.getElem?_map, hi, Option.map_some] at e2
    rw [slicesFrom_getElem? _ v 0 ls ho i _ hm (by omega), Option.some.injEq] at e2
    rw [e2, slice, ha]
    congr 1
    exact hsz.symm
  · have : (get l.joint.prp).length = 0 := by rw [hg]; simp only [Link.size] at hs; omega
    have hz : l.joint.prp.size = 0 := by simp only [Link.size] at hs; omega
    rw [List.length_eq_zero_iff.1 this, slice, hz, List.take_zero]

/-- Setting the rates succeeds and stores the vectors. -/
theorem setJointRateAll_run {ls : List (Link K)} {v a : List K} (ho : setOffset ls = ls)
    (hv : v.length = jointSize ls) (ha : a.length = jointSize ls) :
    ∃ ls', setJointRateAll v a ls = some ls' ∧ ls'.map statics = ls.map statics ∧
      (ls'.map fun l => l.body.extw) = (ls.map fun l => l.body.extw) ∧
      (∀ l ∈ ls', l.joint.prp.getVel = slice v l) ∧ (∀ l ∈ ls', l.joint.prp.getAcc = slice a l) ∧
      (ls'.map fun l => l.joint.prp.getVel).flatten = v := by
  rw [jointSize_eq] at hv ha
  obtain ⟨l1, e1, o1, z1, n1, g1⟩ := setJointAll_from isSetter_vel
    (fun p h => ⟨List.length_eq_zero_iff.1 (by rw [getVel_length, h]), rfl⟩) ls 0 ho v (by omega)
  obtain ⟨l2, e2, o2, z2, n2, g2⟩ := setJointAll_from isSetter_acc
    (fun p h => ⟨List.length_eq_zero_iff.1 (by rw [getAcc_length, h]), rfl⟩) l1 0 o1 a (by omega)
  have s1 : l1.map statics = ls.map statics := by
    refine setJointAll_link statics ?_ e1
    intro l l' buf h
    obtain ⟨p, hp, rfl⟩ := setWith_eq_some.1 h
    simp only [statics, still_setVel hp]
  have s2 : l2.map statics = l1.map statics := by
    refine setJointAll_link statics ?_ e2
    intro l l' buf h
    obtain ⟨p, hp, rfl⟩ := setWith_eq_some.1 h
    simp only [statics, still_setAcc hp]
  have x1 : (l1.map fun l => l.body.extw) = (ls.map fun l => l.body.extw) := by
    refine setJointAll_link (fun l => l.body.extw) ?_ e1
    intro l l' buf h
    obtain ⟨p, hp, rfl⟩ := setWith_eq_some.1 h
    rfl
  have x2 : (l2.map fun l => l.body.extw) = (l1.map fun l => l.body.extw) := by
    refine setJointAll_link (fun l => l.body.extw) ?_ e2
    intro l l' buf h
    obtain ⟨p, hp, rfl⟩ := setWith_eq_some.1 h
    rfl
  have v2 : (l2.map fun l => l.joint.prp.getVel) = l1.map fun l => l.joint.prp.getVel :=
    setJointAll_map Prp.getVel (fun p b p' => setAcc_getVel p p' b) a l1 l2 e2
  refine ⟨l2, by rw [setJointRateAll_eq, e1]; exact e2, s2.trans s1, x2.trans x1, ?_, ?_, ?_⟩
  · exact slices_of_map getVel_length ho (s2.trans s1) (v2.trans g1)
  · exact slices_of_map getAcc_length o1 s2 g2
  · rw [v2, g1, slicesFrom_id _ _ _ (by omega), List.drop_zero, ← hv, List.take_length]

/-- Inverse dynamics of a posed chain succeeds. -/
theorem Posed.invDyn {c1 : Chain K} (h : Posed c1) (g : Vec6 K) {v a : List K}
    (hv : v.length = jointSize c1.link) (ha : a.length = jointSize c1.link) :
    ∃ c2, c1.invDyn g v a = some c2 := by
  obtain ⟨ls, e, s, -⟩ := setJointRateAll_run h.off hv ha
  have hlen : ls.length = c1.link.length := by
    have := congrArg List.length s; simpa using this
  have hw : Chain.WF { c1 with link := ls } := h.wf.with_link hlen
  obtain ⟨ls1, T, hT, e1, g1, n1⟩ := hw.downAt (fun st (l : Link K) => l.updateRate1 st.1 st.2)
    (fun l => (l.body.vel, l.body.acc)) (0, g)
  have h1 : Chain.WF { c1 with link := ls1 } := h.wf.with_link (n1.trans hlen)
  obtain ⟨ls2, T2, hT2, e2, g2, n2⟩ := h1.updateWrenchAt
  refine ⟨({ c1 with link := ls2 } : Chain K).calcCOMVel.calcCOMAcc, ?_⟩
  have e1' : Chain.updateRateAt none c1.shape (0, g) ls = some ls1 := e1
  have e2' : Chain.updateWrenchAt c1.shape ls1 = some ls2 := e2
  simp only [Chain.invDyn, e, Option.bind_eq_bind, Option.bind_some, Chain.updateID, Chain.updateRate,
    e1', Option.map_some, Chain.updateWrench, e2', Option.pure_def]

/-- The facts about a run of inverse dynamics. -/
theorem Posed.run {c1 c2 : Chain K} (h : Posed c1) {g : Vec6 K} {v a : List K}
    (hv : v.length = jointSize c1.link) (ha : a.length = jointSize c1.link)
    (h2 : c1.invDyn g v a = some c2) : ∃ ls T, IDRun c1 c2 g v a ls T := by
  obtain ⟨ls, e, s, x, v1, a1, f⟩ := setJointRateAll_run h.off hv ha
  have hlen : ls.length = c1.link.length := by
    have := congrArg List.length s; simpa using this
  have hw : Chain.WF { c1 with link := ls } := h.wf.with_link hlen
  simp only [Chain.invDyn, e, Option.bind_eq_bind, Option.bind_some] at h2
  obtain ⟨T, hT, hg, hw2, hs2, hn2, hm⟩ := hw.updateID h2
  have hs2' : c2.shape = c1.shape := hs2
  have hT' : Chain.gather ls c1.shape = some T := hT
  have hg' : Chain.gather c2.link c1.shape = some (T.updateRate 0 g).updateWrench := by
    rw [← hs2']; exact hg
  have hmem : ∀ i, i < c2.link.length → i ∈ c1.shape.toList := by
    intro i hi; rw [← hs2']; exact hw2.mem.2 hi
  have tr : ∀ {α : Type _} (k : Link K → α),
      (∀ (l : Link K) (w v : Vec6 K), k { l with joint := ⟨l.joint.prp.calcTrq w, v⟩ } = k l) →
      (∀ (l : Link K) (b : Body K), b.mp = l.body.mp → b.frame = l.body.frame → b.extw = l.body.extw →
        k { l with body := b } = k l) → c2.link.map k = ls.map k := by
    intro α k h1 h2
    refine Chain.map_eq_of_gather hg' hT' hn2 hmem k ?_
    rw [LTree.updateWrench_map k h1, LTree.updateRate_eq]
    refine LTree.down_map_inv _ ?_ _ _
    intro st l
    exact h2 l _ rfl rfl rfl
  refine ⟨ls, T, hw2, hs2', hm, hlen, hn2.trans hlen, hT', hg', s, ?_, x, ?_, v1, a1, ?_, f⟩
  · refine (tr statics ?_ ?_).trans s
    · intro l w v; simp only [statics, still_calcTrq]
    · intro l b h1 h2 h3; simp only [statics, h1, h2]
  · refine (tr (fun l => l.body.extw) ?_ ?_).trans x
    · intro l w v; rfl
    · intro l b h1 h2 h3; exact h3
  · refine tr (fun l => l.joint.prp.getVel) ?_ ?_
    · intro l w v; exact getVel_calcTrq _ _
    · intro l b h1 h2 h3; rfl

/-- Sum over the links of two chains, in the order of the tree and in the order of the array. -/
theorem sum_gather {f : Link K → Link K → K} {t : LTree ℕ} {l1 l2 : List (Link K)}
    {T U : LTree (Link K)} (h1 : Chain.gather l1 t = some T) (h2 : Chain.gather l2 t = some U)
    (hl : l1.length = l2.length) (hp : t.toList.Perm (List.range l1.length)) :
    (List.zipWith f T.toList U.toList).sum = (List.zipWith f l1 l2).sum := by
  have key : ∀ (is : List ℕ) (xs ys : List (Link K)), xs.map some = is.map (fun i => l1[i]?) →
      ys.map some = is.map (fun i => l2[i]?) →
      List.zipWith f xs ys = is.map fun i => match l1[i]?, l2[i]? with
        | some a, some b => f a b | _, _ => 0 := by
    intro is
    induction is with
    | nil => intro xs ys h h'; simp at h h'; subst h h'; rfl
    | cons i is ih =>
      intro xs ys h h'
      rcases xs with _ | ⟨x, xs⟩
      · simp at h
      rcases ys with _ | ⟨y, ys⟩
      · simp at h'
      simp only [List.map_cons, List.cons.injEq] at h h'
      rw [List.zipWith_cons_cons, ih xs ys h.2 h'.2, List.map_cons, ← h.1, ← h'.1]
  have hr : ∀ l : List (Link K), l.map some = (List.range l.length).map fun i => l[i]? := by
    intro l
    apply List.ext_getElem
    · simp
    · intro i h1 h2; simp at h1 h2 ⊢
  rw [key _ _ _ (Chain.gather_toList h1) (Chain.gather_toList h2),
    key (List.range l1.length) l1 l2 (hr l1) (by rw [hl]; exact hr l2)]
  exact (hp.map _).sum_eq

theorem work_append {x1 y1 x2 y2 : List K} (h : x1.length = y1.length) :
    work (x1 ++ x2) (y1 ++ y2) = work x1 y1 + work x2 y2 := by
  simp only [work]
  rw [List.zipWith_append h, List.sum_append]

/-- Work over the joints of two chains. -/
theorem work_flatten {l1 l2 : List (Link K)} (h : l1.map statics = l2.map statics) :
    work (l1.map fun l => l.joint.prp.getTrq).flatten (l2.map fun l => l.joint.prp.getVel).flatten =
      (List.zipWith jointWork l1 l2).sum := by
  induction l1 generalizing l2 with
  | nil => cases l2 <;> simp_all [work]
  | cons a l1 ih =>
    rcases l2 with _ | ⟨b, l2⟩
    · simp at h
    simp only [List.map_cons, List.cons.injEq] at h
    obtain ⟨-, hb, -⟩ := statics_iff.1 h.1
    have hsz : a.joint.prp.size = b.joint.prp.size := by
      have := congrArg Prp.size hb
      simpa [size_still] using this
    simp only [List.map_cons, List.flatten_cons, List.zipWith_cons_cons, List.sum_cons]
    rw [work_append (by rw [getTrq_length, getVel_length, hsz]), ih h.2]
    rfl

/-- The local work of a link is the work in world coordinates. -/
theorem localWork_eq {l m : Link K} (h : statics l = statics m) (hr : l.body.frame.att.IsRot)
    (hc : COMAccCurrent l) : localWork l m = inertialWork l m - extWork l m := by
  obtain ⟨-, -, -, hf, hm⟩ := statics_iff.1 h
  have hc' : l.body.comAcc = _ := hc
  have e1 : (l.body.netWrench.angShift l.body.mp.com).dot6 m.body.vel = inertialWork l m := by
    simp only [inertialWork, mass, comAcc, comVel, worldInertia, angAcc, angVel, ← hf, ← hm,
      Mat3.mul_mulVec, ← Mat3.mulVecT_eq, hr.mulVecT_mulVec, ← hr.mulVec_cross, ← Mat3.mulVec_add,
      hr.dot_mulVec_mulVec, Body.netWrench, hc', triple_eq]
    vec_ring
  have e2 : l.body.calcExtWrench.dot6 m.body.vel = extWork l m := by
    simp only [Body.calcExtWrench, net_eq, extWork]
    rw [map_map_sum' (fun w : Vec6 K => w.dot6 m.body.vel) (by vec_ring) (fun a b => by vec_ring)]
    congr 1
    apply List.map_congr_left
    intro w _
    simp only [pointVelocity, angVel, ← hf, hr.dot_mulVec_mulVec, Wrench.shift]
    vec_ring
  rw [← e1, ← e2, localWork]
  simp only [Vec6.dot6, dot]
  simp
  ring

theorem forall_zip_statics {l1 l2 : List (Link K)} (h : l1.map statics = l2.map statics) {i : ℕ}
    {a b : Link K} (ha : l1[i]? = some a) (hb : l2[i]? = some b) : statics a = statics b := by
  have := congrArg (fun x => x[i]?) h
  simpa [ha, hb] using this

theorem zipWith_sum_congr {α β M : Type*} [AddCommMonoid M] {f g : α → β → M} {l1 : List α}
    {l2 : List β} (h : ∀ (i : ℕ) (a : α) (b : β), l1[i]? = some a → l2[i]? = some b → f a b = g a b) :
    (List.zipWith f l1 l2).sum = (List.zipWith g l1 l2).sum := by
  congr 1
  apply List.ext_getElem?
  intro i
  rw [List.getElem?_zipWith, List.getElem?_zipWith]
  cases ha : l1[i]? <;> cases hb : l2[i]? <;> simp only []
  rw [h i _ _ ha hb]

/-- The links of the result: rotations, accelerations of the centers of mass. -/
theorem IDRun.link {c1 c2 : Chain K} {g : Vec6 K} {v a : List K} {ls : List (Link K)}
    {T : LTree (Link K)} (hc : Posed c1) (h : IDRun c1 c2 g v a ls T) :
    ∀ l ∈ c2.link, l.body.frame.att.IsRot ∧ COMVelCurrent l ∧ COMAccCurrent l := by
  intro l hl
  have hb := Chain.gather_perm h.tree2 (by rw [← h.shape]; exact h.wf.perm)
  have hl' := hb.mem_iff.2 hl
  have e := congrArg LTree.toList (LTree.updateWrench_body (T.updateRate 0 g))
  rw [LTree.toList_map, LTree.toList_map] at e
  have hm : l.body ∈ (T.updateRate 0 g).toList.map (fun l => l.body) := by
    rw [← e]; exact List.mem_map.2 ⟨l, hl', rfl⟩
  obtain ⟨m, hm, e⟩ := List.mem_map.1 hm
  refine ⟨?_, ?_⟩
  · obtain ⟨i, hi⟩ := List.mem_iff_getElem?.1 hl
    have hi' : i < c1.link.length := by
      rw [← h.len2]; exact (List.getElem?_eq_some_iff.1 hi).1
    have hs := forall_zip_statics h.stat2 hi (List.getElem?_eq_getElem hi')
    rw [(statics_iff.1 hs).2.2.2.1]
    exact hc.rot _ (List.getElem_mem hi')
  · have := mem_updateRate hm
    unfold COMVelCurrent COMAccCurrent at this ⊢
    rw [← e]; exact this

/-- The torques of a run. -/
theorem IDRun.torques {c1 c2 : Chain K} {g : Vec6 K} {v a : List K} {ls : List (Link K)}
    {T : LTree (Link K)} (hc : Posed c1) (h : IDRun c1 c2 g v a ls T) :
    torques c2 = some (c2.link.map fun l => l.joint.prp.getTrq).flatten ∧
      (c2.link.map fun l => l.joint.prp.getTrq).flatten.length = jointSize c1.link := by
  obtain ⟨o, z⟩ := offsets_of_statics h.stat2 0 hc.off
  constructor
  · exact getJointAll_eq _ getTrq_length _ o _ (by simp)
  · rw [List.length_flatten, List.map_map, jointSize_eq, ← z]
    simp [sizes, Function.comp_def, getTrq_length]

/-- **Virtual work.**  The torques of one run of inverse dynamics on the joint velocities of
another. -/
theorem virtual_work {c1 d1 c2 d2 : Chain K} {g g' : Vec6 K} {v a u b : List K}
    {ls ms : List (Link K)} {T U : LTree (Link K)} (hc : Posed c1) (h : IDRun c1 c2 g v a ls T)
    (h' : IDRun d1 d2 g' u b ms U) (hs : c1.link.map statics = d1.link.map statics)
    (hsh : d1.shape = c1.shape) :
    ∃ τ, torques c2 = some τ ∧ τ.length = jointSize c1.link ∧
      work τ u = (List.zipWith inertialWork c2.link d2.link).sum -
        (List.zipWith extWork c2.link d2.link).sum := by
  obtain ⟨e1, e2⟩ := h.torques hc
  refine ⟨_, e1, e2, ?_⟩
  have hst : c2.link.map statics = d2.link.map statics := h.stat2.trans (hs.trans h'.stat2.symm)
  have hlen : c2.link.length = d2.link.length := by
    have := congrArg List.length hst; simpa using this
  have hperm : c1.shape.toList.Perm (List.range c2.link.length) := by
    rw [← h.shape]; exact h.wf.perm
  have ht2 := h'.tree2
  rw [hsh] at ht2
  rw [← h'.flat, ← h'.vel2, work_flatten hst, ← sum_gather h.tree2 ht2 hlen hperm]
  have hV : ((U.updateRate 0 g').updateWrench).VelOK 0 := by
    refine LTree.velOK_congr ?_ (LTree.velOK_updateRate 0 g' U)
    symm
    refine LTree.updateWrench_map _ ?_ _
    intro _ _ _
    simp only [twist_calcTrq]
  have hTU : (T.updateRate 0 g).map statics = (U.updateRate 0 g').updateWrench.map statics := by
    have := Chain.gather_map_eq h.tree2 ht2 statics hst
    rw [← this]
    symm
    refine LTree.updateWrench_map _ ?_ _
    intro l w v; simp only [statics, still_calcTrq]
  rw [virtual_work_tree (T.updateRate 0 g) _ 0 hTU hV, Vec6.dot6_zero, sub_zero]
  have hloc : List.zipWith localWork (T.updateRate 0 g).toList (U.updateRate 0 g').updateWrench.toList =
      List.zipWith localWork (T.updateRate 0 g).updateWrench.toList
        (U.updateRate 0 g').updateWrench.toList := by
    have hb := congrArg LTree.toList (LTree.updateWrench_body (T.updateRate 0 g))
    rw [LTree.toList_map, LTree.toList_map] at hb
    have : ∀ xs ys : List (Link K), List.zipWith localWork xs ys =
        List.zipWith (fun (b : Body K) (m : Link K) =>
            (b.netWrench.angShift b.mp.com - b.calcExtWrench).dot6 m.body.vel)
          (xs.map fun l => l.body) ys := by
      intro xs ys
      rw [List.zipWith_map_left]; rfl
    rw [this, this, hb]
  rw [hloc, sum_gather h.tree2 ht2 hlen hperm]
  have hsub : ∀ (xs ys : List (Link K)), (List.zipWith (fun l m => inertialWork l m - extWork l m) xs ys).sum =
      (List.zipWith inertialWork xs ys).sum - (List.zipWith extWork xs ys).sum := by
    intro xs
    induction xs with
    | nil => intro ys; simp
    | cons x xs ih =>
      intro ys
      rcases ys with _ | ⟨y, ys⟩
      · simp
      · simp only [List.zipWith_cons_cons, List.sum_cons, ih ys]; ring
  rw [← hsub]
  refine zipWith_sum_congr ?_
  intro i l m hl hm
  have := h.link hc l (List.mem_of_getElem? hl)
  exact localWork_eq (forall_zip_statics hst hl hm) this.1 this.2.2

end Roki
