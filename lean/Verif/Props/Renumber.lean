import Verif.Lemmas.Renumber
set_option autoImplicit false

/-! # C110: the same robot with its links numbered otherwise -/

namespace Roki
set_option linter.unusedSectionVars false
open Spec LinkArray
variable {K : Type*} [Field K]

theorem Spec.Renumbered.lt {σ : ℕ → ℕ} {c d : Chain K} (h : Renumbered σ c d) {i : ℕ} (hi : i < c.link.length) :
    σ i < c.link.length := by
  obtain ⟨m, hm, -⟩ := h.link i _ (List.getElem?_eq_getElem hi)
  rw [← h.len]; exact (List.getElem?_eq_some_iff.1 hm).1

/-- The links of `d` are those of `c` in another order, so that sums over the links agree. -/
theorem renumbered_sum {M : Type*} [AddCommMonoid M] {σ : ℕ → ℕ} {l1 l2 : List (Link K)} (hlen : l2.length = l1.length)
    (hlt : ∀ i < l1.length, σ i < l1.length) (inj : ∀ i j, i < l1.length → j < l1.length → σ i = σ j → i = j) {f g : Link K → M}
    (hfg : ∀ (i : ℕ) (x y : Link K), l1[i]? = some x → l2[σ i]? = some y → g y = f x) : (l2.map g).sum = (l1.map f).sum := by
  have key : ∀ (l : List (Link K)) (f : Link K → M), (l.map f).sum = ∑ i ∈ Finset.range l.length, (l[i]?.map f).getD 0 := by
    intro l f
    induction l with
    | nil => simp
    | cons a l ih => rw [List.map_cons, List.sum_cons, List.length_cons, Finset.sum_range_succ', ih]; simp [add_comm]
  rw [key, key, hlen]
  symm
  refine Finset.sum_bij (fun i _ => σ i) (fun i hi => ?_) (fun i hi j hj e => ?_) ?_ (fun i hi => ?_)
  · exact Finset.mem_range.2 (hlt i (Finset.mem_range.1 hi))
  · exact inj i j (Finset.mem_range.1 hi) (Finset.mem_range.1 hj) e
  · intro j hj
    have := Finset.surjOn_of_injOn_of_card_le (s := Finset.range l1.length) (t := Finset.range l1.length) σ
      (fun i hi => Finset.mem_coe.2 (Finset.mem_range.2 (hlt i (Finset.mem_range.1 (Finset.mem_coe.1 hi)))))
      (fun i hi k hk e => inj i k (Finset.mem_range.1 (Finset.mem_coe.1 hi)) (Finset.mem_range.1 (Finset.mem_coe.1 hk)) e) le_rfl
    obtain ⟨i, hi, e⟩ := this (Finset.mem_coe.2 hj)
    exact ⟨i, Finset.mem_coe.1 hi, e⟩
  · have hi' := Finset.mem_range.1 hi
    have hj : σ i < l2.length := hlen ▸ hlt i hi'
    rw [List.getElem?_eq_getElem hi', List.getElem?_eq_getElem hj]
    exact (hfg i _ _ (List.getElem?_eq_getElem hi') (List.getElem?_eq_getElem hj)).symm

/-- What forward kinematics leaves of the agreement of two links. -/
theorem renumbered_fk {σ : ℕ → ℕ} {c d c1 d1 : Chain K} (hr : Renumbered σ c d) (hc : c.WF) (hd : d.WF) (h1 : c.updateFK = some c1)
    (h2 : d.updateFK = some d1) {i : ℕ} {x y : Link K} (hx : c1.link[i]? = some x) (hy : d1.link[σ i]? = some y) :
    y.body.frame = x.body.frame ∧ y.body.wldCOM = x.body.wldCOM ∧ y.adj = x.adj ∧ y.joint.prp = x.joint.prp ∧
      y.body.mp = x.body.mp ∧ y.body.extw = x.body.extw := by
  obtain ⟨c1', e1, s1, er1, hp, hall⟩ := C06_fk_composition c hc
  rw [h1] at e1; cases e1
  obtain ⟨d1', e2, s2, er2, -, hall2⟩ := C06_fk_composition d hd
  rw [h2] at e2; cases e2
  have hi : i < c.link.length := by
    have := congrArg List.length er1
    simp only [List.length_map] at this
    rw [← this]; exact (List.getElem?_eq_some_iff.1 hx).1
  obtain ⟨path, hpath⟩ := hp i hi
  have hpath2 : IsPath d.shape (path.map σ ++ [σ i]) := (hr.path _).2 ⟨_, hpath, by simp⟩
  obtain ⟨⟨ms, hms, hf⟩, hx2, hx3⟩ := hall path i x hpath hx
  obtain ⟨⟨ns, hns, hg⟩, hy2, hy3⟩ := hall2 _ (σ i) y hpath2 hy
  have hfr : ns.map linkFrame = ms.map linkFrame := by
    have hl : ∀ (ks : List ℕ) (ms ns : List (Link K)), ks.map (fun j => c.link[j]?) = ms.map some →
        (ks.map σ).map (fun j => d.link[j]?) = ns.map some → ns.map linkFrame = ms.map linkFrame := by
      intro ks
      induction ks with
      | nil =>
        intro ms ns a b
        have a' : ms = [] := by simpa using a.symm
        have b' : ns = [] := by simpa using b.symm
        rw [a', b']
      | cons k ks ih =>
        intro ms ns a b
        rcases ms with _ | ⟨m, ms⟩
        · simp at a
        rcases ns with _ | ⟨n, ns⟩
        · simp at b
        simp only [List.map_cons, List.cons.injEq] at a b
        obtain ⟨n', hn, o1, o2, -⟩ := hr.link k m a.1
        rw [b.1] at hn; cases hn
        simp only [List.map_cons, linkFrame, o1, o2, ih ms ns a.2 b.2]
    exact hl (path ++ [i]) ms ns hms (by rw [← hns]; simp)
  have hfrm : y.body.frame = x.body.frame := by rw [hf, hg, hfr]
  have k1 := congrArg (fun l => l[i]?) er1
  have k2 := congrArg (fun l => l[σ i]?) er2
  have hj : σ i < d.link.length := by rw [hr.len]; exact hr.lt hi
  simp only [List.getElem?_map, hx, hy, Option.map_some] at k1 k2
  rw [List.getElem?_eq_getElem hi, Option.map_some, Option.some.injEq] at k1
  rw [List.getElem?_eq_getElem hj, Option.map_some, Option.some.injEq] at k2
  obtain ⟨ox, jx, fx, mx, ex⟩ := erased k1
  obtain ⟨oy, jy, fy, my, ey⟩ := erased k2
  obtain ⟨m, hm, o1, o2, o3, o4⟩ := hr.link i _ (List.getElem?_eq_getElem hi)
  rw [List.getElem?_eq_getElem hj] at hm; cases hm
  have hmp : y.body.mp = x.body.mp := by rw [mx, my, o3]
  have hprp : y.joint.prp = x.joint.prp := by rw [jx, jy, o2]
  refine ⟨hfrm, by rw [hx3, hy3, hfrm, hmp], ?_, hprp, hmp, by rw [ex, ey, o4]⟩
  rw [hx2, hy2, linkFrame, linkFrame, ox, oy, o1, hprp]

theorem renumbered_len {c c1 : Chain K} (h1 : c.updateFK = some c1) : c1.link.length = c.link.length := by
  have n1 := congrArg List.length (ZTK.updateFK_map (fun l : Link K => l.offset) (fun _ _ => rfl) h1).1
  simpa using n1

/-- **C110** The mass of the robot, the frames of its links and their centers of mass, and the center of mass of the whole do not
depend on how the links are numbered nor on the order in which the children of a link are listed. -/
theorem C110_frames {σ : ℕ → ℕ} (c d c1 : Chain K) (hr : Renumbered σ c d) (hc : c.WF) (hd : d.WF) (h1 : c.updateFK = some c1) :
    d.calcMass.mass = c.calcMass.mass ∧
    ∃ d1, d.updateFK = some d1 ∧ (d.mass = c.mass → d1.wldCOM = c1.wldCOM) ∧
      ∀ (i : ℕ) (x y : Link K), c1.link[i]? = some x → d1.link[σ i]? = some y →
        y.body.frame = x.body.frame ∧ y.body.wldCOM = x.body.wldCOM := by
  constructor
  · simp only [Chain.calcMass, LinkArray.calcMass]
    rw [foldl_add_eq, foldl_add_eq, zero_add, zero_add]
    refine renumbered_sum hr.len (fun i hi => hr.lt hi) hr.inj ?_
    intro i x y hx hy
    obtain ⟨m, hm, -, -, o, -⟩ := hr.link i x hx
    rw [hy] at hm; cases hm
    rw [o]
  obtain ⟨d1, e2, -⟩ := C06_fk_composition d hd
  refine ⟨d1, e2, ?_, fun i x y hx hy => ?_⟩
  · intro hm
    have hw : ∀ c c1 : Chain K, c.updateFK = some c1 → c1.wldCOM = LinkArray.calcCOM c.mass c1.link := by
      intro c c1 h
      simp only [Chain.updateFK, Chain.updateFrame, Option.map_map] at h
      obtain ⟨ls, -, rfl⟩ := Option.map_eq_some_iff.1 h
      rfl
    rw [hw _ _ e2, hw _ _ h1, hm]
    simp only [LinkArray.calcCOM, cat]
    rw [foldl_add_eq, foldl_add_eq, zero_add, zero_add]
    congr 1
    have hl1 := renumbered_len h1
    refine renumbered_sum ?_ (fun i hi => ?_) (fun i j hi hj => ?_) ?_ (σ := σ)
    · rw [renumbered_len e2, hl1, hr.len]
    · rw [hl1] at hi ⊢; exact hr.lt hi
    · rw [hl1] at hi hj; exact hr.inj i j hi hj
    · intro i x y hx hy
      obtain ⟨-, a, -, -, b, -⟩ := renumbered_fk hr hc hd h1 e2 hx hy
      rw [a, b]
  · obtain ⟨a, b, -⟩ := renumbered_fk hr hc hd h1 e2 hx hy
    exact ⟨a, b⟩

/-- **C110** Inverse dynamics reports the same velocities, accelerations, joint wrenches and joint torques however the links are
numbered, and the motion of the center of mass is the same. -/
theorem C110_dynamics {σ : ℕ → ℕ} (c d c1 d1 : Chain K) (hr : Renumbered σ c d) (hc : c.WF) (hd : d.WF)
    (hrot : ∀ l ∈ c.link, l.org.att.IsRot ∧ l.joint.prp.WF) (ho : setOffset c.link = c.link) (ho' : setOffset d.link = d.link)
    (h1 : c.updateFK = some c1) (h1' : d.updateFK = some d1) (g : Vec6 K) (vel acc vel' acc' : List K)
    (hv : vel.length = jointSize c.link) (ha : acc.length = jointSize c.link)
    (hv' : vel'.length = jointSize d.link) (ha' : acc'.length = jointSize d.link)
    (sv : SameValues σ c d vel vel') (sa : SameValues σ c d acc acc') :
    ∃ c2 d2 τ τ', c1.invDyn g vel acc = some c2 ∧ d1.invDyn g vel' acc' = some d2 ∧
      torques c2 = some τ ∧ torques d2 = some τ' ∧ SameValues σ c d τ τ' ∧
      (∀ (i : ℕ) (x y : Link K), c2.link[i]? = some x → d2.link[σ i]? = some y →
        y.body.vel = x.body.vel ∧ y.body.acc = x.body.acc ∧ y.joint.wrench = x.joint.wrench ∧
        y.joint.prp.getTrq = x.joint.prp.getTrq) ∧
      (c.mass ≠ 0 → d.mass = c.mass → d2.comVel = c2.comVel ∧ d2.comAcc = c2.comAcc) := by
  have hi' : ∀ {i : ℕ}, i < c.link.length → σ i < d.link.length := fun hi => by rw [hr.len]; exact hr.lt hi
  have surj : ∀ j < d.link.length, ∃ i < c.link.length, σ i = j := by
    intro j hj
    have := Finset.surjOn_of_injOn_of_card_le (s := Finset.range c.link.length) (t := Finset.range c.link.length) σ
      (fun i hi => Finset.mem_coe.2 (Finset.mem_range.2 (hr.lt (Finset.mem_range.1 (Finset.mem_coe.1 hi)))))
      (fun i hi k hk e => hr.inj i k (Finset.mem_range.1 (Finset.mem_coe.1 hi)) (Finset.mem_range.1 (Finset.mem_coe.1 hk)) e) le_rfl
    obtain ⟨i, hi, e⟩ := this (Finset.mem_coe.2 (Finset.mem_range.2 (hr.len ▸ hj)))
    exact ⟨i, Finset.mem_range.1 (Finset.mem_coe.1 hi), e⟩
  have hrot' : ∀ l ∈ d.link, l.org.att.IsRot ∧ l.joint.prp.WF := by
    intro l hl
    obtain ⟨j, hj, rfl⟩ := List.getElem_of_mem hl
    obtain ⟨i, hi, rfl⟩ := surj j hj
    obtain ⟨m, hm, o1, o2, -⟩ := hr.link i _ (List.getElem?_eq_getElem hi)
    rw [List.getElem?_eq_getElem hj] at hm; cases hm
    rw [o1, o2]; exact hrot _ (List.getElem_mem hi)
  obtain ⟨hp, hz⟩ := posed_of_fk hc hrot ho h1
  obtain ⟨hp2, hz2⟩ := posed_of_fk hd hrot' ho' h1'
  rw [← hz] at hv ha
  rw [← hz2] at hv' ha'
  obtain ⟨c2, ec⟩ := hp.invDyn g hv ha
  obtain ⟨d2, ed⟩ := hp2.invDyn g hv' ha'
  obtain ⟨lx, A, rx⟩ := hp.run hv ha ec
  obtain ⟨ly, B, ry⟩ := hp2.run hv' ha' ed
  have hsc : c1.shape = c.shape := by
    obtain ⟨c1', e, s, -⟩ := C06_fk_composition c hc
    rw [h1] at e; cases e; exact s
  have hsd : d1.shape = d.shape := by
    obtain ⟨c1', e, s, -⟩ := C06_fk_composition d hd
    rw [h1'] at e; cases e; exact s
  have off : ∀ {c c1 : Chain K} (_ : c.updateFK = some c1) {i : ℕ} {m : Link K}, c1.link[i]? = some m →
      ∃ l, c.link[i]? = some l ∧ l.offset = m.offset ∧ l.joint.prp = m.joint.prp := by
    intro c c1 h i m hm
    have k := congrArg (fun l => l[i]?) (ZTK.updateFK_map (fun l : Link K => (l.offset, l.joint.prp)) (fun _ _ => rfl) h).1
    simp only [List.getElem?_map, hm, Option.map_some] at k
    obtain ⟨l, hl, e⟩ := Option.map_eq_some_iff.1 k.symm
    simp only [Prod.mk.injEq] at e
    exact ⟨l, hl, e⟩
  have hcm : ∀ i ∈ c.shape.toList, i < c.link.length := fun i hi => hc.mem.1 hi
  have iso : Iso σ c.shape d.shape := iso_of_paths (hc.perm.nodup_iff.2 List.nodup_range) (hd.perm.nodup_iff.2 List.nodup_range)
    (fun i hi j hj => hr.inj i j (hcm i hi) (hcm j hj)) hr.path
  have tw : ∀ i ∈ c.shape.toList, ∀ x y, lx[i]? = some x → ly[σ i]? = some y → Twin x y := by
    intro i hi x y hx hy
    obtain ⟨m, hm, a1, a2, a3, a4, a5, a6, a7⟩ := run_link rx hx
    obtain ⟨n, hn, b1, b2, b3, b4, b5, b6, b7⟩ := run_link ry hy
    obtain ⟨-, -, k3, k4, k5, k6⟩ := renumbered_fk hr hc hd h1 h1' hm hn
    obtain ⟨l, hl, l1, l2⟩ := off h1 hm
    obtain ⟨l', hl', l1', l2'⟩ := off h1' hn
    have szs : ∀ {x m : Link K}, x.joint.prp.still = m.joint.prp.still → x.joint.prp.size = m.joint.prp.size := by
      intro x m h
      have := congrArg Prp.size h
      simpa [size_still] using this
    have sx : ∀ w : List K, slice w x = slice w l := fun w => by simp only [slice, a1, l1, l2, szs a2]
    have sy : ∀ w : List K, slice w y = slice w l' := fun w => by simp only [slice, b1, l1', l2', szs b2]
    exact ⟨by rw [a2, b2, k4], by rw [a6, b6, sx, sy, sv i l l' hl hl'], by rw [a7, b7, sx, sy, sa i l l' hl hl'],
      by rw [a4, b4, k5], by rw [a5, b5, k6], by rw [a3, b3, k3]⟩
  have tA := rx.tree; have tA2 := rx.tree2; have tB := ry.tree; have tB2 := ry.tree2
  rw [hsc] at tA tA2
  rw [hsd] at tB tB2
  obtain ⟨hall, -⟩ := iso_run iso tw tA tA2 tB tB2
  have hl2 : c2.link.length = c.link.length := by rw [rx.len2, renumbered_len h1]
  have hl2' : d2.link.length = d.link.length := by rw [ry.len2, renumbered_len h1']
  have hres : ∀ (i : ℕ) (x y : Link K), c2.link[i]? = some x → d2.link[σ i]? = some y → SameID x y := by
    intro i x y hx hy
    exact hall i (hc.mem.2 (by rw [← hl2]; exact (List.getElem?_eq_some_iff.1 hx).1)) x y hx hy
  obtain ⟨o2, z2⟩ := offsets_of_statics rx.stat2 0 hp.off
  obtain ⟨o2', z2'⟩ := offsets_of_statics ry.stat2 0 hp2.off
  obtain ⟨τ, t1, t2, t3⟩ := C02_get_slices c2.link (List.replicate (jointSize c2.link) 0) o2 (by simp) Prp.getTrq (by simp)
  obtain ⟨τ', t1', t2', t3'⟩ := C02_get_slices d2.link (List.replicate (jointSize d2.link) 0) o2' (by simp) Prp.getTrq (by simp)
  refine ⟨c2, d2, τ, τ', ec, ed, t1, t1', ?_, fun i x y hx hy => ?_, ?_⟩
  · intro i l m hl hm
    have hi : i < c.link.length := (List.getElem?_eq_some_iff.1 hl).1
    have hx : c2.link[i]? = some (c2.link[i]'(hl2 ▸ hi)) := List.getElem?_eq_getElem _
    have hy : d2.link[σ i]? = some (d2.link[σ i]'(hl2' ▸ hi' hi)) := List.getElem?_eq_getElem _
    have same : ∀ {c c1 c2 : Chain K} (_ : c.updateFK = some c1) (_ : c2.link.map statics = c1.link.map statics) {i : ℕ} {l x : Link K},
        c.link[i]? = some l → c2.link[i]? = some x → x.offset = l.offset ∧ x.joint.prp.size = l.joint.prp.size := by
      intro c c1 c2 h s i l x hl hx
      have hi : i < c1.link.length := by rw [renumbered_len h]; exact (List.getElem?_eq_some_iff.1 hl).1
      obtain ⟨l', e1, e2, e3⟩ := off h (List.getElem?_eq_getElem hi)
      rw [hl] at e1; cases e1
      obtain ⟨s1, s2, -⟩ := statics_iff.1 (forall_zip_statics s hx (List.getElem?_eq_getElem hi))
      refine ⟨by rw [s1, e2], ?_⟩
      rw [e3]
      have := congrArg Prp.size s2
      simpa [size_still] using this
    obtain ⟨p1, p2⟩ := same h1 rx.stat2 hl hx
    obtain ⟨q1, q2⟩ := same h1' ry.stat2 hm hy
    obtain ⟨m', hm', -, q3, -⟩ := hr.link i l hl
    rw [hm] at hm'; cases hm'
    by_cases hs : 0 < l.joint.prp.size
    · have u1 := t3 _ (List.mem_of_getElem? hx) (by rw [p2]; exact hs)
      have u2 := t3' _ (List.mem_of_getElem? hy) (by rw [q2, q3]; exact hs)
      have e1 : slice τ l = slice τ (c2.link[i]'(hl2 ▸ hi)) := by simp only [slice, p1, p2]
      have e2 : slice τ' m = slice τ' (d2.link[σ i]'(hl2' ▸ hi' hi)) := by simp only [slice, q1, q2]
      rw [e1, e2, u1, u2, (hres i _ _ hx hy).trq]
    · have hz : l.joint.prp.size = 0 := by omega
      simp only [slice, q3, hz, List.take_zero]
  · obtain ⟨a, b, e, f⟩ := hres i x y hx hy
    exact ⟨a, b, e, f⟩
  · intro hm0 hm
    have mass1 : ∀ {c c1 : Chain K}, c.updateFK = some c1 → c1.mass = c.mass := by
      intro c c1 h
      simp only [Chain.updateFK, Chain.updateFrame, Option.map_map] at h
      obtain ⟨ls, -, rfl⟩ := Option.map_eq_some_iff.1 h
      rfl
    have hmc : c2.mass = c.mass := by rw [rx.mass, mass1 h1]
    have hmd : d2.mass = c.mass := by rw [ry.mass, mass1 h1', hm]
    obtain ⟨u1, u2⟩ := C15_id_com c c1 c2 g vel acc hc hrot h1 ec (by rw [hmc]; exact hm0)
    obtain ⟨w1, w2⟩ := C15_id_com d d1 d2 g vel' acc' hd hrot' h1' ed (by rw [hmd]; exact hm0)
    rw [hmc] at u1 u2
    rw [hmd] at w1 w2
    have body : ∀ (i : ℕ) (x y : Link K), c2.link[i]? = some x → d2.link[σ i]? = some y →
        y.body.frame = x.body.frame ∧ y.body.mp = x.body.mp ∧ y.body.vel = x.body.vel ∧ y.body.acc = x.body.acc := by
      intro i x y hx hy
      have hi : i < c1.link.length := by rw [← rx.len2]; exact (List.getElem?_eq_some_iff.1 hx).1
      have hj : σ i < d1.link.length := by rw [← ry.len2]; exact (List.getElem?_eq_some_iff.1 hy).1
      have s1 := statics_iff.1 (forall_zip_statics rx.stat2 hx (List.getElem?_eq_getElem hi))
      have s2 := statics_iff.1 (forall_zip_statics ry.stat2 hy (List.getElem?_eq_getElem hj))
      obtain ⟨k1, -, -, -, k5, -⟩ := renumbered_fk hr hc hd h1 h1' (List.getElem?_eq_getElem hi) (List.getElem?_eq_getElem hj)
      obtain ⟨a, b, -, -⟩ := hres i x y hx hy
      exact ⟨by rw [s1.2.2.2.1, s2.2.2.2.1, k1], by rw [s1.2.2.2.2, s2.2.2.2.2, k5], a, b⟩
    have sums : ∀ f : Link K → Vec3 K, (∀ (i : ℕ) (x y : Link K), c2.link[i]? = some x → d2.link[σ i]? = some y → f y = f x) →
        (d2.link.map f).sum = (c2.link.map f).sum := by
      intro f hf
      refine renumbered_sum ?_ (fun i hi => ?_) (fun i j hi hj => ?_) hf (σ := σ)
      · rw [hl2, hl2', hr.len]
      · rw [hl2] at hi ⊢; exact hr.lt hi
      · rw [hl2] at hi hj; exact hr.inj i j hi hj
    have canc : ∀ u v : Vec3 K, c.mass • u = c.mass • v → u = v := by
      intro u v e
      have := congrArg (fun z : Vec3 K => c.mass⁻¹ • z) e
      simpa only [smul_smul, inv_mul_cancel₀ hm0, one_smul] using this
    constructor
    · refine canc _ _ ?_
      rw [w1, u1]
      refine sums _ fun i x y hx hy => ?_
      obtain ⟨a, b, e, f⟩ := body i x y hx hy
      simp only [mass, comVel, a, b, e]
    · refine canc _ _ ?_
      rw [w2, u2]
      refine sums _ fun i x y hx hy => ?_
      obtain ⟨a, b, e, f⟩ := body i x y hx hy
      simp only [mass, comAcc, a, b, e, f]

namespace Sample

/-- All the paths of a tree. -/
def paths : LTree ℕ → List (List ℕ)
  | .nil => []
  | .node i c s => [i] :: ((paths c).map (i :: ·) ++ paths s)

theorem isPath_iff (t : LTree ℕ) (q : List ℕ) : IsPath t q ↔ q ∈ paths t := by
  induction t generalizing q with
  | nil => simp only [paths, List.not_mem_nil, iff_false]; intro h; cases h
  | node i c s ihc ihs =>
    simp only [paths, List.mem_cons, List.mem_append, List.mem_map]
    constructor
    · intro h
      cases h with
      | here => exact .inl rfl
      | child h => exact .inr (.inl ⟨_, (ihc _).1 h, rfl⟩)
      | sibl h => exact .inr (.inr ((ihs _).1 h))
    · rintro (rfl | ⟨p, h, rfl⟩ | h)
      · exact .here _ _ _
      · exact .child ((ihc _).2 h)
      · exact .sibl ((ihs _).2 h)

/-- The sample chain with the fixed link listed last and the wrist before the arm. -/
def renumbered : Chain ℚ :=
  { link := LinkArray.setOffset
      [ link "base" (.float (flt 0)) mp1 Frame.ident,
        link "wrist" (.hooke (dof2 0 0 0 1 0 1)) mp1 ⟨⟨0, 1, 0⟩, 1⟩,
        link "arm" (.revol (dof1 0 0 0 0 1 none none)) mp1 ⟨⟨1, 0, 0⟩, 1⟩,
        link "fixed" .fixed mp1 Frame.ident ],
    shape := .node 0 (.node 2 (.node 1 .nil .nil) (.node 3 .nil .nil)) .nil,
    mass := 4, wldCOM := 0, comVel := 0, comAcc := 0 }

/-- The new numbers of the links. -/
def perm (i : ℕ) : ℕ := if i = 1 then 3 else if i = 2 then 2 else if i = 3 then 1 else i

end Sample

/-- The sample chain with its links in another order, so that the joints lie elsewhere in the joint vectors, meets the hypotheses. -/
theorem C110_sample : Renumbered Sample.perm (Sample.chain (K := ℚ)) Sample.renumbered ∧ Sample.renumbered.WF ∧
    setOffset Sample.renumbered.link = Sample.renumbered.link ∧
    SameValues Sample.perm (Sample.chain (K := ℚ)) Sample.renumbered [1, 2, 3, 4, 5, 6, 7, 8, 9] [1, 2, 3, 4, 5, 6, 8, 9, 7] := by
  have hl : (Sample.chain (K := ℚ)).link.length = 4 := rfl
  refine ⟨⟨rfl, ?_, ?_, ?_⟩, ⟨⟨_, rfl⟩, ?_⟩, rfl, ?_⟩
  · have : ∀ i < 4, ∀ j < 4, Sample.perm i = Sample.perm j → i = j := by decide
    rw [hl]; exact fun i j hi hj => this i hi j hj
  · intro q
    rw [Sample.isPath_iff]
    constructor
    · intro h
      have : ∀ q ∈ Sample.paths Sample.renumbered.shape, ∃ p ∈ Sample.paths (Sample.chain (K := ℚ)).shape, q = p.map Sample.perm := by
        decide +kernel
      obtain ⟨p, h1, h2⟩ := this q h
      exact ⟨p, (Sample.isPath_iff _ _).2 h1, h2⟩
    · rintro ⟨p, h1, rfl⟩
      have : ∀ p ∈ Sample.paths (Sample.chain (K := ℚ)).shape, p.map Sample.perm ∈ Sample.paths Sample.renumbered.shape := by
        decide +kernel
      exact this p ((Sample.isPath_iff _ _).1 h1)
  · intro i l h
    rcases i with _ | _ | _ | _ | i
    · cases h; exact ⟨_, rfl, rfl, rfl, rfl, rfl⟩
    · cases h; exact ⟨_, rfl, rfl, rfl, rfl, rfl⟩
    · cases h; exact ⟨_, rfl, rfl, rfl, rfl, rfl⟩
    · cases h; exact ⟨_, rfl, rfl, rfl, rfl, rfl⟩
    · cases h
  · decide +kernel
  · intro i l m h h'
    rcases i with _ | _ | _ | _ | i
    · cases h; cases h'; rfl
    · cases h; cases h'; rfl
    · cases h; cases h'; rfl
    · cases h; cases h'; rfl
    · cases h

end Roki
