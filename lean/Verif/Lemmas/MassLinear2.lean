import Verif.Lemmas.MassLinear
set_option autoImplicit false

/-! # Masses and loads in inverse dynamics: chains -/

namespace Roki
set_option linter.unusedSectionVars false
open Spec LinkArray
variable {K : Type*} [Field K]

/-- The data of a link that motion depends on. -/
def kin (l : Link K) : ℤ × Prp K × Frame K × Frame K := (l.offset, l.joint.prp.still, l.adj, l.body.frame)

theorem kin_withLoad (p : ℕ → MP K) (e : ℕ → WrenchList K) (c : Chain K) : (withLoad p e c).link.map kin = c.link.map kin := by
  apply List.ext_getElem?
  intro i
  simp only [withLoad, List.getElem?_map, List.getElem?_mapIdx, Option.map_map]
  rfl

theorem offsize_withLoad (p : ℕ → MP K) (e : ℕ → WrenchList K) (c : Chain K) :
    (withLoad p e c).link.map (fun l : Link K => (l.offset, l.size)) = c.link.map (fun l => (l.offset, l.size)) := by
  apply List.ext_getElem?
  intro i
  simp only [withLoad, List.getElem?_map, List.getElem?_mapIdx, Option.map_map]
  rfl

theorem jointSize_withLoad (p : ℕ → MP K) (e : ℕ → WrenchList K) {c : Chain K} (ho : setOffset c.link = c.link) :
    jointSize (withLoad p e c).link = jointSize c.link := by
  rw [jointSize_eq, jointSize_eq, (offsets_of_sizes (offsize_withLoad p e c) 0 ho).2]

theorem Posed.withLoad {c1 : Chain K} (h : Posed c1) (p : ℕ → MP K) (e : ℕ → WrenchList K) : Posed (withLoad p e c1) := by
  have hlen : (Spec.withLoad p e c1).link.length = c1.link.length := by simp [Spec.withLoad]
  have hw : (Spec.withLoad p e c1).WF := h.wf.with_link hlen
  have hs := kin_withLoad p e c1
  have hget : ∀ (i : ℕ) (l m : Link K), (Spec.withLoad p e c1).link[i]? = some l → c1.link[i]? = some m → kin l = kin m := by
    intro i l m hl hm
    have := congrArg (fun x => x[i]?) hs
    simpa [hl, hm] using this
  refine ⟨hw, (offsets_of_sizes (offsize_withLoad p e c1) 0 h.off).1, ?_, ?_⟩
  · intro l hl
    obtain ⟨i, hi⟩ := List.mem_iff_getElem?.1 hl
    have hi' : i < c1.link.length := by rw [← hlen]; exact (List.getElem?_eq_some_iff.1 hi).1
    have := hget i _ _ hi (List.getElem?_eq_getElem hi')
    simp only [kin, Prod.mk.injEq] at this
    rw [this.2.2.2]
    exact h.rot _ (List.getElem_mem hi')
  · obtain ⟨T0, hT0, hF⟩ := h.frame
    obtain ⟨T, hT⟩ := Chain.gather_exists (ls := (Spec.withLoad p e c1).link) (t := c1.shape)
      (fun i hi => hw.mem.1 hi)
    refine ⟨T, hT, LTree.frameOK_congr ?_ hF⟩
    have e := Chain.gather_map_eq hT hT0 kin hs
    have := congrArg (LTree.map fun s => (s.2.2.2, s.2.2.1)) e
    simpa [LTree.map_map, Function.comp_def, kin] using this.symm

/-- What a run of inverse dynamics sees of link `i` of a chain with replaced loads. -/
theorem run_load {c1 : Chain K} {p : ℕ → MP K} {e : ℕ → WrenchList K} {c2 : Chain K} {g : Vec6 K} {v a : List K}
    {ls : List (Link K)} {T : LTree (Link K)} (r : IDRun (withLoad p e c1) c2 g v a ls T) {i : ℕ} {x : Link K} (hx : ls[i]? = some x) :
    ∃ m, c1.link[i]? = some m ∧ kin x = kin m ∧ x.body.mp = p i ∧ x.body.extw = e i ∧
      x.joint.prp.getVel = slice v x ∧ x.joint.prp.getAcc = slice a x := by
  have hi : i < c1.link.length := by
    have := (List.getElem?_eq_some_iff.1 hx).1
    rw [r.len] at this
    simpa [withLoad] using this
  refine ⟨c1.link[i], List.getElem?_eq_getElem hi, ?_⟩
  have hl : (withLoad p e c1).link[i]? = some { c1.link[i] with body := { c1.link[i].body with mp := p i, extw := e i } } := by
    simp only [withLoad, List.getElem?_mapIdx, List.getElem?_eq_getElem hi, Option.map_some]
  have hs := forall_zip_statics r.stat hx hl
  obtain ⟨s1, s2, s3, s4, s5⟩ := statics_iff.1 hs
  have hext := congrArg (fun l => l[i]?) r.ext
  simp only [List.getElem?_map, hx, hl, Option.map_some, Option.some.injEq] at hext
  refine ⟨?_, s5, hext, r.vel x (List.mem_of_getElem? hx), r.acc x (List.mem_of_getElem? hx)⟩
  simp only [kin, s1, s2, s3, s4]

theorem slice_kin (v : List K) {l m : Link K} (h : kin l = kin m) : slice v l = slice v m := by
  simp only [kin, Prod.mk.injEq] at h
  have hs : l.joint.prp.size = m.joint.prp.size := by
    have := congrArg Prp.size h.2.1
    simpa [size_still] using this
  simp only [slice, h.1, hs]

/-- Equal kinematics in two runs. -/
theorem kin_of_runs {c1 : Chain K} {p q : ℕ → MP K} {e f : ℕ → WrenchList K} {c2 d2 : Chain K} {g : Vec6 K} {v a : List K}
    {ls ms : List (Link K)} {T U : LTree (Link K)} (r : IDRun (withLoad p e c1) c2 g v a ls T)
    (s : IDRun (withLoad q f c1) d2 g v a ms U) {i : ℕ} {x y : Link K} (hx : ls[i]? = some x) (hy : ms[i]? = some y) :
    x.adj = y.adj ∧ x.joint.prp.still = y.joint.prp.still ∧ x.joint.prp.getVel = y.joint.prp.getVel ∧
      x.joint.prp.getAcc = y.joint.prp.getAcc := by
  obtain ⟨m, hm, k1, -, -, v1, a1⟩ := run_load r hx
  obtain ⟨m', hm', k2, -, -, v2, a2⟩ := run_load s hy
  rw [hm] at hm'; cases hm'
  have hk := k1.trans k2.symm
  have hk' := hk
  simp only [kin, Prod.mk.injEq] at hk'
  exact ⟨hk'.2.2.1, hk'.2.1, by rw [v1, v2, slice_kin v hk], by rw [a1, a2, slice_kin a hk]⟩

theorem flatten_zipWith (a b : K) : ∀ {x y z : List (Link K)},
    (∀ (i : ℕ) (l m n : Link K), x[i]? = some l → y[i]? = some m → z[i]? = some n →
      n.joint.prp.getTrq = List.zipWith (fun s t => a * s + b * t) l.joint.prp.getTrq m.joint.prp.getTrq ∧
      l.joint.prp.size = m.joint.prp.size) → x.length = z.length → y.length = z.length →
    (z.map fun l => l.joint.prp.getTrq).flatten =
      List.zipWith (fun s t => a * s + b * t) (x.map fun l => l.joint.prp.getTrq).flatten (y.map fun l => l.joint.prp.getTrq).flatten := by
  intro x
  induction x with
  | nil => intro y z _ h1 h2; have : z = [] := List.length_eq_zero_iff.1 h1.symm; subst this; simp
  | cons l x ih =>
    intro y z h h1 h2
    rcases z with _ | ⟨n, z⟩
    · simp at h1
    rcases y with _ | ⟨m, y⟩
    · simp at h2
    obtain ⟨t1, t2⟩ := h 0 l m n rfl rfl rfl
    simp only [List.map_cons, List.flatten_cons]
    rw [List.zipWith_append (by rw [getTrq_length, getTrq_length, t2]), t1,
      ih (fun i l m n h1 h2 h3 => h (i + 1) l m n h1 h2 h3) (by simpa using h1) (by simpa using h2)]

/-- Superposition of three runs. -/
theorem superposition {c1 : Chain K} (hc : Posed c1) {a b : K} {p q r : ℕ → MP K} {e f k : ℕ → WrenchList K} {g : Vec6 K} {v u : List K}
    {x2 y2 z2 : Chain K} {lx ly lz : List (Link K)} {X Y Z : LTree (Link K)}
    (rx : IDRun (withLoad p e c1) x2 g v u lx X) (ry : IDRun (withLoad q f c1) y2 g v u ly Y) (rz : IDRun (withLoad r k c1) z2 g v u lz Z)
    (hm : ∀ i < c1.link.length, Blend a b (p i) (q i) (r i))
    (he : ∀ i < c1.link.length, WrenchList.net (k i) = a • WrenchList.net (e i) + b • WrenchList.net (f i)) :
    ∀ (i : ℕ) (x y z : Link K), x2.link[i]? = some x → y2.link[i]? = some y → z2.link[i]? = some z → WrenchLin a b x y z := by
  have hpre : X.All3 (PreLin a b) Y Z := by
    refine all3_of_gather rx.tree ry.tree rz.tree ?_
    intro i x y z hx hy hz
    obtain ⟨x1, x3, x4, x5⟩ := kin_of_runs rx rz hx hz
    obtain ⟨y1, y3, y4, y5⟩ := kin_of_runs ry rz hy hz
    obtain ⟨m, hmi, -, px, ex, -⟩ := run_load rx hx
    obtain ⟨-, -, -, py, ey, -⟩ := run_load ry hy
    obtain ⟨-, -, -, pz, ez, -⟩ := run_load rz hz
    have hi : i < c1.link.length := (List.getElem?_eq_some_iff.1 hmi).1
    refine ⟨x1, y1, x3, y3, x4, y4, x5, y5, ?_, ?_⟩
    · rw [px, py, pz]; exact hm i hi
    · simp only [Body.calcExtWrench, ex, ey, ez]; exact he i hi
  have hpost := all3_wrenchLin (all3_rateLin hpre 0 g)
  intro i x y z hx hy hz
  refine gather_all3 rx.tree2 ry.tree2 rz.tree2 hpost ?_ hx hy hz
  have : i < x2.link.length := (List.getElem?_eq_some_iff.1 hx).1
  have := rx.wf.mem.2 this
  rwa [rx.shape] at this

/-! ## What a joint carries -/

/-- Two states of a link with the same kinematics. -/
structure KinEq (x y : Link K) : Prop where
  adj : x.adj = y.adj
  still : x.joint.prp.still = y.joint.prp.still
  vel : x.joint.prp.getVel = y.joint.prp.getVel
  acc : x.joint.prp.getAcc = y.joint.prp.getAcc

theorem KinEq.rates {x y : Link K} (h : KinEq x y) (v w : Vec6 K) :
    (x.updateRate1 v w).body.vel = (y.updateRate1 v w).body.vel ∧ (x.updateRate1 v w).body.acc = (y.updateRate1 v w).body.acc := by
  obtain ⟨t1, t2, t3⟩ := prp_rates h.still h.vel h.acc
  have hv : (x.updateRate1 v w).body.vel = (y.updateRate1 v w).body.vel := by
    rw [(updateRate1_eq x v w).1, (updateRate1_eq y v w).1, t1, h.adj]
  exact ⟨hv, by rw [(updateRate1_eq x v w).2, (updateRate1_eq y v w).2, t3, t2, h.adj, hv]⟩

theorem blend_self (p : MP K) : Blend 1 0 p p p := by
  refine ⟨by ring, ?_, ?_⟩
  · vec_ring
  · generalize inertiaAbout p 0 = I
    vec_ring

theorem kin_tree {t : LTree ℕ} {ls ms pl ql : List (Link K)} {A B : LTree (Link K)} (v w : Vec6 K)
    (hA : Chain.gather ls t = some A) (hB : Chain.gather ms t = some B)
    (hP : Chain.gather pl t = some (A.updateRate v w).updateWrench) (hQ : Chain.gather ql t = some (B.updateRate v w).updateWrench)
    (hk : ∀ i ∈ t.toList, ∀ (x y : Link K), ls[i]? = some x → ms[i]? = some y → KinEq x y)
    {j : ℕ} (hj : j ∈ t.toList) {x y : Link K} (hx : pl[j]? = some x) (hy : ql[j]? = some y) :
    x.body.vel = y.body.vel ∧ x.body.acc = y.body.acc := by
  induction t generalizing A B v w with
  | nil => simp [LTree.toList] at hj
  | node i c s ihc ihs =>
    obtain ⟨a, Ac, As, a1, a2, a3, rfl⟩ := Chain.gather_node.1 hA
    obtain ⟨b, Bc, Bs, b1, b2, b3, rfl⟩ := Chain.gather_node.1 hB
    obtain ⟨p, Pc, Ps, p1, p2, p3, eP⟩ := Chain.gather_node.1 hP
    obtain ⟨q, Qc, Qs, q1, q2, q3, eQ⟩ := Chain.gather_node.1 hQ
    simp only [LTree.updateRate, LTree.updateWrench, LTree.node.injEq] at eP eQ
    obtain ⟨eP1, eP2, eP3⟩ := eP
    obtain ⟨eQ1, eQ2, eQ3⟩ := eQ
    obtain ⟨r1, r2⟩ := (hk i (by simp [LTree.toList]) a b a1 b1).rates v w
    simp only [LTree.toList, List.mem_cons, List.mem_append] at hj
    rcases hj with rfl | hj | hj
    · rw [hx] at p1; rw [hy] at q1; cases p1; cases q1
      rw [← eP1, ← eQ1]
      exact ⟨r1, r2⟩
    · rw [r1, r2] at eP2
      exact ihc _ _ a2 b2 (by rw [p2, eP2]) (by rw [q2, eQ2]) (fun n hn => hk n (by simp [LTree.toList, hn])) hj
    · exact ihs _ _ a3 b3 (by rw [p3, eP3]) (by rw [q3, eQ3]) (fun n hn => hk n (by simp [LTree.toList, hn])) hj

theorem local_tree {t : LTree ℕ} {ls ms pl ql : List (Link K)} {A B : LTree (Link K)} (v w : Vec6 K)
    (hA : Chain.gather ls t = some A) (hB : Chain.gather ms t = some B)
    (hP : Chain.gather pl t = some (A.updateRate v w).updateWrench) (hQ : Chain.gather ql t = some (B.updateRate v w).updateWrench)
    (hk : ∀ (i : ℕ) (x y : Link K), ls[i]? = some x → ms[i]? = some y → KinEq x y)
    {j : ℕ} (hj : j ∈ t.toList)
    (hc : ∀ i, (∃ path, IsPath t (path ++ [i]) ∧ j ∈ path ++ [i]) → ∀ (x y : Link K), ls[i]? = some x → ms[i]? = some y →
      x.body.mp = y.body.mp ∧ x.body.calcExtWrench = y.body.calcExtWrench)
    {x y : Link K} (hx : pl[j]? = some x) (hy : ql[j]? = some y) :
    x.joint.wrench = y.joint.wrench ∧ x.joint.prp.getTrq = y.joint.prp.getTrq := by
  induction t generalizing A B v w with
  | nil => simp [LTree.toList] at hj
  | node i c s ihc ihs =>
    obtain ⟨a, Ac, As, a1, a2, a3, rfl⟩ := Chain.gather_node.1 hA
    obtain ⟨b, Bc, Bs, b1, b2, b3, rfl⟩ := Chain.gather_node.1 hB
    obtain ⟨p, Pc, Ps, p1, p2, p3, eP⟩ := Chain.gather_node.1 hP
    obtain ⟨q, Qc, Qs, q1, q2, q3, eQ⟩ := Chain.gather_node.1 hQ
    obtain ⟨r1, r2⟩ := (hk i a b a1 b1).rates v w
    simp only [LTree.toList, List.mem_cons, List.mem_append] at hj
    by_cases hji : j = i
    · subst hji
      rw [hx] at p1; rw [hy] at q1; cases p1; cases q1
      have pre : ∀ (k : ℕ) (x y : Link K), (∃ path, IsPath (.node j c s) (path ++ [k]) ∧ j ∈ path ++ [k]) → ls[k]? = some x →
          ms[k]? = some y → PreLin 1 0 x x y := by
        intro k x y hp hx hy
        obtain ⟨m1, m2⟩ := hc k hp x y hx hy
        have h := hk k x y hx hy
        refine ⟨h.adj, h.adj, h.still, h.still, h.vel, h.vel, h.acc, h.acc, ?_, ?_⟩
        · rw [m1]; exact blend_self _
        · rw [m2]; generalize y.body.calcExtWrench = e; vec_ring
      have hsub : Ac.All3 (PreLin 1 0) Ac Bc := by
        have key : ∀ (t : LTree ℕ) (A B : LTree (Link K)), Chain.gather ls t = some A → Chain.gather ms t = some B →
            (∀ k ∈ t.toList, k ∈ c.toList) → A.All3 (PreLin 1 0) A B := by
          intro t
          induction t with
          | nil => intro A B h1 h2 _; simp only [Chain.gather, Option.some.injEq] at h1 h2; subst h1 h2; trivial
          | node k c1 s1 i1 i2 =>
            intro A B h1 h2 hmem
            obtain ⟨l, lc, lss, l1, l2, l3, rfl⟩ := Chain.gather_node.1 h1
            obtain ⟨m, mc, mss, m1, m2, m3, rfl⟩ := Chain.gather_node.1 h2
            have hkc : k ∈ c.toList := hmem k (by simp [LTree.toList])
            obtain ⟨path, hpath⟩ := LTree.exists_path hkc
            refine ⟨pre k l m ⟨j :: path, by simpa using IsPath.child (s := s) hpath, by simp⟩ l1 m1, ?_, ?_⟩
            · exact i1 _ _ l2 m2 fun n hn => hmem n (by simp [LTree.toList, hn])
            · exact i2 _ _ l3 m3 fun n hn => hmem n (by simp [LTree.toList, hn])
        exact key c Ac Bc a2 b2 fun _ h => h
      have hroot := pre j a b ⟨[], by simpa using IsPath.here j c s, by simp⟩ a1 b1
      have hall : (LTree.node a Ac .nil).All3 (PreLin 1 0) (LTree.node a Ac .nil) (LTree.node b Bc .nil) := ⟨hroot, hsub, trivial⟩
      have hw := (all3_wrenchLin (all3_rateLin hall v w)).1
      simp only [LTree.updateRate, LTree.updateWrench, LTree.node.injEq] at eP eQ
      rw [eP.1, eQ.1] at hw
      have e1 := hw.wr
      have e2 := hw.trq
      refine ⟨?_, ?_⟩
      · rw [e1]; generalize x.joint.wrench = e; vec_ring
      · rw [e2]; simp
    · simp only [LTree.updateRate, LTree.updateWrench, LTree.node.injEq] at eP eQ
      rcases hj with h | hj | hj
      · exact absurd h hji
      · have eP2 := eP.2.1
        rw [r1, r2] at eP2
        refine ihc _ _ a2 b2 (by rw [p2, eP2]) (by rw [q2, eQ.2.1]) hj ?_
        rintro k ⟨path, h1, h2⟩
        exact hc k ⟨i :: path, by simpa using IsPath.child (s := s) h1, by simp only [List.cons_append, List.mem_cons]; exact Or.inr h2⟩
      · refine ihs _ _ a3 b3 (by rw [p3, eP.2.2]) (by rw [q3, eQ.2.2]) hj ?_
        rintro k ⟨path, h1, h2⟩
        exact hc k ⟨path, IsPath.sibl h1, h2⟩

end Roki
