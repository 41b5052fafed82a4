import Verif.Spec.Placed
import Verif.Props.MassLinear
set_option autoImplicit false

/-! # C102: a robot placed elsewhere -/

namespace Roki
set_option linter.unusedSectionVars false
open Spec LinkArray
variable {K : Type*} [Field K]

theorem placed_getElem (X : Frame K) (c : Chain K) (i : ℕ) : (placed X c).link[i]? =
    if i = 0 then c.link[i]?.map (fun l => { l with org := X.cascade l.org }) else c.link[i]? := by
  simp only [placed, List.getElem?_modify]
  by_cases h : i = 0
  · subst h; simp
  · have h' : ¬ (0 = i) := fun e => h e.symm
    simp [h, h']

theorem placed_wf {X : Frame K} {c : Chain K} (h : c.WF) : (placed X c).WF := h.with_link (by simp [placed])

theorem isPath_root {t : LTree ℕ} {p : List ℕ} (h : IsPath (.node 0 t .nil) p) (hn : 0 ∉ t.toList) :
    ∃ q, p = 0 :: q ∧ 0 ∉ q := by
  cases h with
  | here => exact ⟨[], rfl, by simp⟩
  | child h => exact ⟨_, rfl, fun h0 => hn (h.mem 0 h0)⟩
  | sibl h => cases h

/-- **C102** Moving the original frame of the root by `X` moves the frame and the center of mass of every link by `X`. -/
theorem C102_frames (c c1 : Chain K) (X : Frame K) (h : c.WF) (h1 : c.updateFK = some c1) :
    ∃ d1, (placed X c).updateFK = some d1 ∧
      ∀ (i : ℕ) (x y : Link K), c1.link[i]? = some x → d1.link[i]? = some y →
        y.body.frame = X.cascade x.body.frame ∧ y.body.wldCOM = X.xform x.body.wldCOM := by
  obtain ⟨c1', e1, s1, er1, hp, hall⟩ := C06_fk_composition c h
  rw [h1] at e1; cases e1
  obtain ⟨d1, e2, s2, er2, -, hall2⟩ := C06_fk_composition (placed X c) (placed_wf h)
  refine ⟨d1, e2, ?_⟩
  intro i x y hx hy
  have hi : i < c.link.length := by
    have := congrArg List.length er1
    simp only [List.length_map] at this
    rw [← this]; exact (List.getElem?_eq_some_iff.1 hx).1
  obtain ⟨path, hpath⟩ := hp i hi
  obtain ⟨⟨ms, hms, hf⟩, -, hx3⟩ := hall path i x hpath hx
  obtain ⟨⟨ns, hns, hg⟩, -, hy3⟩ := hall2 path i y hpath hy
  obtain ⟨t, ht⟩ := h.root
  have hnd : c.shape.toList.Nodup := h.perm.nodup_iff.2 List.nodup_range
  rw [ht] at hpath hnd
  simp only [LTree.toList, List.append_nil, List.nodup_cons] at hnd
  obtain ⟨q, hq, hq0⟩ := isPath_root hpath hnd.1
  rw [hq] at hms hns
  rcases ms with _ | ⟨m, ms⟩
  · simp at hms
  rcases ns with _ | ⟨n, ns⟩
  · simp at hns
  simp only [List.map_cons, List.cons.injEq] at hms hns
  rw [placed_getElem, if_pos rfl, hms.1] at hns
  have hn1 := hns.1
  simp only [Option.map_some, Option.some.injEq] at hn1
  have hrest : ns = ms := by
    have : ns.map some = ms.map some := by
      rw [← hns.2, ← hms.2]
      refine List.map_congr_left fun k hk => ?_
      rw [placed_getElem, if_neg (fun e : k = 0 => hq0 (e ▸ hk))]
    exact List.map_injective_iff.2 (Option.some_injective _) this
  have key : y.body.frame = X.cascade x.body.frame := by
    rw [hf, hg, ← hn1, hrest]
    simp only [List.map_cons, product, linkFrame]
    rw [Frame.cascade_assoc, Frame.cascade_assoc, Frame.cascade_assoc]
  refine ⟨key, ?_⟩
  have hmp : y.body.mp = x.body.mp := by
    have k1 := congrArg (fun l => (l[i]?).map fun l => l.body.mp) er1
    have k2 := congrArg (fun l => (l[i]?).map fun l => l.body.mp) er2
    simp only [List.getElem?_map, hx, hy, Option.map_some, Option.map_map] at k1 k2
    rw [placed_getElem] at k2
    by_cases h0 : i = 0
    · rw [if_pos h0, Option.map_map] at k2
      have : some (eraseFK y).body.mp = some (eraseFK x).body.mp := k2.trans k1.symm
      exact Option.some_injective _ this
    · rw [if_neg h0] at k2
      have : some (eraseFK y).body.mp = some (eraseFK x).body.mp := k2.trans k1.symm
      exact Option.some_injective _ this
  rw [hx3, hy3, key, hmp, Frame.cascade_xform]

theorem erased {x y : Link K} (h : eraseFK x = eraseFK y) :
    x.org = y.org ∧ x.joint = y.joint ∧ x.offset = y.offset ∧ x.body.mp = y.body.mp ∧ x.body.extw = y.body.extw := by
  have e1 := congrArg (fun l : Link K => l.org) h
  have e2 := congrArg (fun l : Link K => l.joint) h
  have e3 := congrArg (fun l : Link K => l.offset) h
  have e4 := congrArg (fun l : Link K => l.body.mp) h
  have e5 := congrArg (fun l : Link K => l.body.extw) h
  exact ⟨e1, e2, e3, e4, e5⟩

/-- What forward kinematics and placement leave alone. -/
theorem placed_fk {c c1 d1 : Chain K} {X : Frame K} (h : c.WF) (h1 : c.updateFK = some c1) (h2 : (placed X c).updateFK = some d1)
    {i : ℕ} {x y : Link K} (hx : c1.link[i]? = some x) (hy : d1.link[i]? = some y) :
    x.offset = y.offset ∧ x.joint.prp = y.joint.prp ∧ x.body.mp = y.body.mp ∧ x.body.extw = y.body.extw ∧
      y.adj = if i = 0 then X.cascade x.adj else x.adj := by
  obtain ⟨c1', e1, s1, er1, hp, hall⟩ := C06_fk_composition c h
  rw [h1] at e1; cases e1
  obtain ⟨d1', e2, s2, er2, -, hall2⟩ := C06_fk_composition (placed X c) (placed_wf h)
  rw [h2] at e2; cases e2
  have hi : i < c.link.length := by
    have := congrArg List.length er1
    simp only [List.length_map] at this
    rw [← this]; exact (List.getElem?_eq_some_iff.1 hx).1
  obtain ⟨path, hpath⟩ := hp i hi
  obtain ⟨-, ax, -⟩ := hall path i x hpath hx
  obtain ⟨-, ay, -⟩ := hall2 path i y hpath hy
  have k1 := congrArg (fun l => l[i]?) er1
  have k2 := congrArg (fun l => l[i]?) er2
  simp only [List.getElem?_map, hx, hy, Option.map_some] at k1 k2
  rw [List.getElem?_eq_getElem hi, Option.map_some, Option.some.injEq] at k1
  rw [placed_getElem, List.getElem?_eq_getElem hi] at k2
  obtain ⟨ox, jx, fx, mx, ex⟩ := erased k1
  by_cases h0 : i = 0
  · rw [if_pos h0, Option.map_some, Option.map_some, Option.some.injEq] at k2
    obtain ⟨oy, jy, fy, my, ey⟩ := erased k2
    refine ⟨fx.trans fy.symm, by rw [jx, jy], mx.trans my.symm, ex.trans ey.symm, ?_⟩
    rw [if_pos h0, ax, ay, linkFrame, linkFrame, oy, ox, jx, jy, Frame.cascade_assoc]
  · rw [if_neg h0, Option.map_some, Option.some.injEq] at k2
    obtain ⟨oy, jy, fy, my, ey⟩ := erased k2
    refine ⟨fx.trans fy.symm, by rw [jx, jy], mx.trans my.symm, ex.trans ey.symm, ?_⟩
    rw [if_neg h0, ax, ay, linkFrame, linkFrame, oy, ox, jx, jy]

/-- What a run of inverse dynamics sees of link `i`. -/
theorem run_link {c1 c2 : Chain K} {g : Vec6 K} {v a : List K} {ls : List (Link K)} {T : LTree (Link K)} (r : IDRun c1 c2 g v a ls T)
    {i : ℕ} {x : Link K} (hx : ls[i]? = some x) :
    ∃ m, c1.link[i]? = some m ∧ x.offset = m.offset ∧ x.joint.prp.still = m.joint.prp.still ∧ x.adj = m.adj ∧ x.body.mp = m.body.mp ∧
      x.body.extw = m.body.extw ∧ x.joint.prp.getVel = slice v x ∧ x.joint.prp.getAcc = slice a x := by
  have hi : i < c1.link.length := by rw [← r.len]; exact (List.getElem?_eq_some_iff.1 hx).1
  refine ⟨c1.link[i], List.getElem?_eq_getElem hi, ?_⟩
  obtain ⟨s1, s2, s3, s4, s5⟩ := statics_iff.1 (forall_zip_statics r.stat hx (List.getElem?_eq_getElem hi))
  have hext := congrArg (fun l => l[i]?) r.ext
  simp only [List.getElem?_map, hx, List.getElem?_eq_getElem hi, Option.map_some, Option.some.injEq] at hext
  exact ⟨s1, s2, s3, s5, hext, r.vel x (List.mem_of_getElem? hx), r.acc x (List.mem_of_getElem? hx)⟩

theorem xform6Lin_turned {X f : Frame K} (hX : X.att.IsRot) {g : Vec6 K} (hg : g.ang = 0) :
    (X.cascade f).xform6Lin (turned X g) = f.xform6Lin g := by
  have e := hX.mulVecT_mulVec g.lin
  rcases g with ⟨u, w⟩
  simp only at hg e
  subst hg
  have : (X.att.mul f.att).mulVecT (X.att.mulVec u) = f.att.mulVecT u := by
    conv_rhs => rw [← e]
    generalize X.att.mulVec u = z
    generalize X.att = R
    vec_ring
  rw [Vec6.ext_iff]
  constructor
  · simp only [Frame.xform6Lin, turned, Frame.cascade_att, Mat3.mulVecT6, Vec6.linShift]
    rw [show X.att.mulVec u + cross (0 : Vec3 K) (X.cascade f).pos = X.att.mulVec u by vec_ring, this]
    vec_ring
  · simp only [Frame.xform6Lin, turned, Frame.cascade_att, Mat3.mulVecT6, Vec6.linShift]
    generalize X.att = R
    vec_ring


/-- **C102** Placing the robot elsewhere, with gravity turned along, changes nothing that inverse dynamics reports in link coordinates:
velocities, accelerations, joint wrenches and joint torques are the same. -/
theorem C102_dynamics (c c1 : Chain K) (X : Frame K) (hX : X.att.IsRot) (h : c.WF) (hr : ∀ l ∈ c.link, l.org.att.IsRot ∧ l.joint.prp.WF)
    (ho : setOffset c.link = c.link) (h1 : c.updateFK = some c1) (g : Vec6 K) (hg : g.ang = 0) (vel acc : List K)
    (hv : vel.length = jointSize c.link) (ha : acc.length = jointSize c.link) :
    ∃ d1 c2 d2, (placed X c).updateFK = some d1 ∧ c1.invDyn g vel acc = some c2 ∧ d1.invDyn (turned X g) vel acc = some d2 ∧
      torques d2 = torques c2 ∧
      ∀ (i : ℕ) (x y : Link K), c2.link[i]? = some x → d2.link[i]? = some y →
        y.body.vel = x.body.vel ∧ y.body.acc = x.body.acc ∧ y.joint.wrench = x.joint.wrench ∧
        y.joint.prp.getTrq = x.joint.prp.getTrq := by
  obtain ⟨d1, e1, -⟩ := C102_frames c c1 X h h1
  have hos : (placed X c).link.map (fun l : Link K => (l.offset, l.size)) = c.link.map fun l => (l.offset, l.size) := by
    apply List.ext_getElem?
    intro i
    rw [List.getElem?_map, List.getElem?_map, placed_getElem]
    split
    · rw [Option.map_map]; rfl
    · rfl
  obtain ⟨o2, z2⟩ := offsets_of_sizes hos 0 ho
  have hr2 : ∀ l ∈ (placed X c).link, l.org.att.IsRot ∧ l.joint.prp.WF := by
    intro l hl
    obtain ⟨i, hi⟩ := List.mem_iff_getElem?.1 hl
    rw [placed_getElem] at hi
    split at hi
    · obtain ⟨m, hm, rfl⟩ := Option.map_eq_some_iff.1 hi
      obtain ⟨r1, r2⟩ := hr m (List.mem_of_getElem? hm)
      exact ⟨hX.mul r1, r2⟩
    · exact hr l (List.mem_of_getElem? hi)
  obtain ⟨hp, hz⟩ := posed_of_fk h hr ho h1
  obtain ⟨hp2, hz2⟩ := posed_of_fk (placed_wf h) hr2 o2 e1
  have hzz : jointSize (placed X c).link = jointSize c.link := by rw [jointSize_eq, jointSize_eq, z2]
  have hv1 := hv; have ha1 := ha; have hv2 := hv; have ha2 := ha
  rw [← hz] at hv1 ha1
  rw [← hzz, ← hz2] at hv2 ha2
  obtain ⟨c2, ec⟩ := hp.invDyn g hv1 ha1
  obtain ⟨d2, ed⟩ := hp2.invDyn (turned X g) hv2 ha2
  obtain ⟨lx, A, rx⟩ := hp.run hv1 ha1 ec
  obtain ⟨ly, B, ry⟩ := hp2.run hv2 ha2 ed
  have hsc : c1.shape = c.shape := by
    obtain ⟨c1', e, s, -⟩ := C06_fk_composition c h
    rw [h1] at e; cases e; exact s
  have hsd : d1.shape = c.shape := by
    obtain ⟨c1', e, s, -⟩ := C06_fk_composition (placed X c) (placed_wf h)
    rw [e1] at e; cases e; exact s
  obtain ⟨t, ht⟩ := h.root
  have hnd : c.shape.toList.Nodup := h.perm.nodup_iff.2 List.nodup_range
  rw [ht] at hnd
  simp only [LTree.toList, List.append_nil, List.nodup_cons] at hnd
  have tA := rx.tree; have tA2 := rx.tree2; have tB := ry.tree; have tB2 := ry.tree2
  rw [hsc, ht] at tA tA2
  rw [hsd, ht] at tB tB2
  -- the links before the run
  have hlink : ∀ (i : ℕ) (x y : Link K), lx[i]? = some x → ly[i]? = some y →
      x.joint.prp.still = y.joint.prp.still ∧ x.joint.prp.getVel = y.joint.prp.getVel ∧ x.joint.prp.getAcc = y.joint.prp.getAcc ∧
      x.body.mp = y.body.mp ∧ x.body.extw = y.body.extw ∧ y.adj = if i = 0 then X.cascade x.adj else x.adj := by
    intro i x y hx hy
    obtain ⟨m, hm, a1, a2, a3, a4, a5, a6, a7⟩ := run_link rx hx
    obtain ⟨n, hn, b1, b2, b3, b4, b5, b6, b7⟩ := run_link ry hy
    obtain ⟨k1, k2, k3, k4, k5⟩ := placed_fk h h1 e1 hm hn
    have hst : x.joint.prp.still = y.joint.prp.still := by rw [a2, b2, k2]
    have hsz : x.joint.prp.size = y.joint.prp.size := by
      have := congrArg Prp.size hst
      simpa [size_still] using this
    have hsl : ∀ w : List K, slice w x = slice w y := fun w => by simp only [slice, hsz, a1, b1, k1]
    exact ⟨hst, by rw [a6, b6, hsl], by rw [a7, b7, hsl], by rw [a4, b4, k3], by rw [a5, b5, k4], by rw [a3, b3, k5]⟩
  -- the two trees
  obtain ⟨a, Ac, As, a1, a2, a3, rfl⟩ := Chain.gather_node.1 tA
  obtain ⟨b, Bc, Bs, b1, b2, b3, rfl⟩ := Chain.gather_node.1 tB
  obtain ⟨p, Pc, Ps, p1, p2, p3, eP⟩ := Chain.gather_node.1 tA2
  obtain ⟨q, Qc, Qs, q1, q2, q3, eQ⟩ := Chain.gather_node.1 tB2
  obtain ⟨l1, l2, l3, l4, l5, l6⟩ := hlink 0 a b a1 b1
  rw [if_pos rfl] at l6
  obtain ⟨t1, t2, t3⟩ := prp_rates l1 l2 l3
  have rv : (a.updateRate1 0 g).body.vel = (b.updateRate1 0 (turned X g)).body.vel := by
    rw [(updateRate1_eq a _ _).1, (updateRate1_eq b _ _).1, t1, Frame.xform6Lin_zero, Frame.xform6Lin_zero]
  have ra : (a.updateRate1 0 g).body.acc = (b.updateRate1 0 (turned X g)).body.acc := by
    rw [(updateRate1_eq a _ _).2, (updateRate1_eq b _ _).2, ← rv, t2, t3, l6, xform6Lin_turned hX hg]
    congr 2
    generalize X.cascade a.adj = f
    generalize a.adj = f'
    vec_ring
  simp only [LTree.updateRate, LTree.updateWrench, LTree.node.injEq] at eP eQ
  obtain ⟨eP1, eP2, eP3⟩ := eP
  obtain ⟨eQ1, eQ2, eQ3⟩ := eQ
  -- the links carried by the root
  have pre : Ac.All3 (PreLin 1 0) Ac Bc := by
    have key : ∀ (s : LTree ℕ) (A B : LTree (Link K)), Chain.gather lx s = some A → Chain.gather ly s = some B →
        (∀ k ∈ s.toList, k ≠ 0) → A.All3 (PreLin 1 0) A B := by
      intro s
      induction s with
      | nil => intro A B h1 h2 _; simp only [Chain.gather, Option.some.injEq] at h1 h2; subst h1 h2; trivial
      | node k c1 s1 i1 i2 =>
        intro A B h1 h2 hmem
        obtain ⟨l, lc, lss, l1, l2, l3, rfl⟩ := Chain.gather_node.1 h1
        obtain ⟨m, mc, mss, m1, m2, m3, rfl⟩ := Chain.gather_node.1 h2
        obtain ⟨g1, g2, g3, g4, g5, g6⟩ := hlink k l m l1 m1
        rw [if_neg (hmem k (by simp [LTree.toList]))] at g6
        refine ⟨⟨g6.symm, g6.symm, g1, g1, g2, g2, g3, g3, ?_, ?_⟩, ?_, ?_⟩
        · rw [g4]; exact blend_self _
        · simp only [Body.calcExtWrench, g5]; generalize WrenchList.net m.body.extw = e; vec_ring
        · exact i1 _ _ l2 m2 fun n hn => hmem n (by simp [LTree.toList, hn])
        · exact i2 _ _ l3 m3 fun n hn => hmem n (by simp [LTree.toList, hn])
    exact key t Ac Bc a2 b2 fun k hk e => hnd.1 (e ▸ hk)
  have post := all3_wrenchLin (all3_rateLin pre (a.updateRate1 0 g).body.vel (a.updateRate1 0 g).body.acc)
  have hadd := addChild_lin post
  rw [← rv, ← ra] at eQ1 eQ2
  have hown : (b.updateRate1 0 (turned X g)).body.netWrench.angShift (b.updateRate1 0 (turned X g)).body.mp.com =
      (a.updateRate1 0 g).body.netWrench.angShift (a.updateRate1 0 g).body.mp.com := by
    rw [updateRate1_own a, updateRate1_own b, ← rv, ← ra, l4]
  have hext : (b.updateRate1 0 (turned X g)).body.calcExtWrench = (a.updateRate1 0 g).body.calcExtWrench := by
    show WrenchList.net b.body.extw = WrenchList.net a.body.extw
    rw [l5]
  have hw : q.joint.wrench = p.joint.wrench := by
    rw [← eP1, ← eQ1]
    dsimp only
    rw [LTree.addChildWrench_eq, hadd, hown, hext,
      LTree.addChildWrench_eq (Ac.updateRate (a.updateRate1 0 g).body.vel (a.updateRate1 0 g).body.acc).updateWrench
        ((a.updateRate1 0 g).body.netWrench.angShift (a.updateRate1 0 g).body.mp.com)]
    generalize LTree.addChildWrench 0 (Ac.updateRate (a.updateRate1 0 g).body.vel (a.updateRate1 0 g).body.acc).updateWrench = z
    generalize (a.updateRate1 0 g).body.netWrench.angShift (a.updateRate1 0 g).body.mp.com = y
    generalize (a.updateRate1 0 g).body.calcExtWrench = w
    vec_ring
  have hall : ∀ (i : ℕ) (x y : Link K), c2.link[i]? = some x → d2.link[i]? = some y →
        y.body.vel = x.body.vel ∧ y.body.acc = x.body.acc ∧ y.joint.wrench = x.joint.wrench ∧
        y.joint.prp.getTrq = x.joint.prp.getTrq := by
    intro i x y hx hy
    have hi : i ∈ c.shape.toList := by
      have := rx.wf.mem.2 (List.getElem?_eq_some_iff.1 hx).1
      rwa [rx.shape, hsc] at this
    rw [ht] at hi
    simp only [LTree.toList, List.append_nil, List.mem_cons] at hi
    by_cases h0 : i = 0
    · subst h0
      rw [hx] at p1; rw [hy] at q1; cases p1; cases q1
      refine ⟨?_, ?_, hw, ?_⟩
      · rw [← eP1, ← eQ1]; exact rv.symm
      · rw [← eP1, ← eQ1]; exact ra.symm
      · have ew := hw
        rw [← eP1, ← eQ1] at ew ⊢
        dsimp only at ew ⊢
        rw [ew]
        have := calcTrq_blend (p := (a.updateRate1 0 g).joint.prp) (q := (a.updateRate1 0 g).joint.prp)
          (r := (b.updateRate1 0 (turned X g)).joint.prp) l1 l1 1 0
          (LTree.addChildWrench ((a.updateRate1 0 g).body.netWrench.angShift (a.updateRate1 0 g).body.mp.com)
            (Ac.updateRate (a.updateRate1 0 g).body.vel (a.updateRate1 0 g).body.acc).updateWrench -
            (a.updateRate1 0 g).body.calcExtWrench)
          (LTree.addChildWrench ((a.updateRate1 0 g).body.netWrench.angShift (a.updateRate1 0 g).body.mp.com)
            (Ac.updateRate (a.updateRate1 0 g).body.vel (a.updateRate1 0 g).body.acc).updateWrench -
            (a.updateRate1 0 g).body.calcExtWrench)
        rw [show ∀ z : Vec6 K, (1 : K) • z + (0 : K) • z = z by intro z; vec_ring] at this
        rw [this]
        simp
    · have hit : i ∈ t.toList := hi.resolve_left h0
      have gP : Chain.gather c2.link t = some (Ac.updateRate (a.updateRate1 0 g).body.vel (a.updateRate1 0 g).body.acc).updateWrench := by
        rw [p2, eP2]
      have gQ : Chain.gather d2.link t = some (Bc.updateRate (a.updateRate1 0 g).body.vel (a.updateRate1 0 g).body.acc).updateWrench := by
        rw [q2, eQ2]
      obtain ⟨kv, ka⟩ := kin_tree _ _ a2 b2 gP gQ (fun k hk x y hx hy => by
        obtain ⟨g1, g2, g3, g4, g5, g6⟩ := hlink k x y hx hy
        rw [if_neg (fun e : k = 0 => hnd.1 (e ▸ hk))] at g6
        exact ⟨g6.symm, g1, g2, g3⟩) hit hx hy
      have hl := gather_all3 gP gP gQ post hit hx hx hy
      refine ⟨kv.symm, ka.symm, ?_, ?_⟩
      · rw [hl.wr]; generalize x.joint.wrench = e; vec_ring
      · rw [hl.trq]; simp
  refine ⟨d1, c2, d2, e1, ec, ed, ?_, hall⟩
  rw [(rx.torques hp).1, (ry.torques hp2).1]
  congr 2
  have hlen : d2.link.length = c2.link.length := by
    rw [rx.len2, ry.len2]
    have n1 := congrArg List.length (ZTK.updateFK_map (fun l : Link K => l.offset) (fun _ _ => rfl) h1).1
    have n2 := congrArg List.length (ZTK.updateFK_map (fun l : Link K => l.offset) (fun _ _ => rfl) e1).1
    simp only [List.length_map] at n1 n2
    rw [n1, n2]; simp [placed]
  refine List.ext_getElem (by simpa using hlen) ?_
  intro k hk1 hk2
  simp only [List.length_map] at hk1 hk2
  simp only [List.getElem_map]
  exact (hall k _ _ (List.getElem?_eq_getElem hk2) (List.getElem?_eq_getElem hk1)).2.2.2

namespace Sample
/-- A quarter turn about the x-axis and a shift. -/
def place : Frame ℚ := ⟨⟨1, 2, 3⟩, ⟨⟨1, 0, 0⟩, ⟨0, 0, 1⟩, ⟨0, -1, 0⟩⟩⟩
end Sample

/-- The hypotheses are met by the sample chain and a quarter turn; gravity is then seen along another axis. -/
example : Sample.place.att.IsRot ∧ turned Sample.place ⟨⟨0, 0, 10⟩, 0⟩ = ⟨⟨0, -10, 0⟩, 0⟩ ∧ (Sample.chain (K := ℚ)).WF ∧
    (placed Sample.place Sample.chain).link.map (fun l => l.org) ≠ Sample.chain.link.map fun l => l.org := by
  refine ⟨?_, by decide +kernel, Sample.chain_wf, by decide +kernel⟩
  constructor <;> decide +kernel

/-- Without turning gravity along, the torques do change. -/
example : ∃ c1 d1 : Chain ℚ, Sample.chain.updateFK = some c1 ∧ (placed Sample.place Sample.chain).updateFK = some d1 ∧
    idTorque ⟨⟨0, 0, 10⟩, 0⟩ [0, 0, 0, 0, 0, 0, 0, 0, 0] [0, 0, 0, 0, 0, 0, 0, 0, 0] c1 ≠
      idTorque ⟨⟨0, 0, 10⟩, 0⟩ [0, 0, 0, 0, 0, 0, 0, 0, 0] [0, 0, 0, 0, 0, 0, 0, 0, 0] d1 := by
  refine ⟨_, _, rfl, rfl, by decide +kernel⟩

end Roki
