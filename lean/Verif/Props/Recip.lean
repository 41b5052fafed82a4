import Verif.Lemmas.Recip2
import Verif.Lemmas.Sum
import Verif.Props.ABI
import Verif.Props.ABIFails
set_option autoImplicit false
set_option linter.unusedSectionVars false

/-!
# C120: superposition, reciprocity and sign of the response to additional forces

Contact simulation probes a chain with unit forces at contact points, assembles the answers to a matrix and solves for the
contact forces.  This is sound when the answers add up, and when the matrix is symmetric and not negative.
-/

namespace Roki
open Spec LinkArray
variable {K : Type*} [Field K]

theorem WrenchList.net_append (V W : WrenchList K) : WrenchList.net (V ++ W) = V.net + W.net := by
  have key : ∀ (W : WrenchList K) (v : Vec6 K), W.foldl (fun w c => w + c.shift) v = v + W.foldl (fun w c => w + c.shift) 0 := by
    intro W
    induction W with
    | nil => intro v; simp
    | cons a W ih => intro v; rw [List.foldl_cons, List.foldl_cons, ih, ih (0 + _)]; abel
  simp only [WrenchList.net, List.foldl_append]
  rw [key]

theorem WrenchList.net_cons (w : Wrench K) (W : WrenchList K) : WrenchList.net (w :: W) = w.shift + W.net := by
  have := WrenchList.net_append [w] W
  simp only [List.singleton_append] at this
  rw [this]; simp [WrenchList.net]

theorem WrenchList.net_scaled (x : K) (W : WrenchList K) : WrenchList.net (scaled x W) = x • W.net := by
  induction W with
  | nil => simp only [scaled, List.map_nil, WrenchList.net, List.foldl_nil]; vec_ring
  | cons a W ih =>
    have e : scaled x (a :: W) = { a with w := x • a.w } :: scaled x W := rfl
    rw [e, WrenchList.net_cons, WrenchList.net_cons, ih]
    simp only [Wrench.shift]; vec_ring

/-- The work of the loads on a link is that of their resultant. -/
theorem loadWork_eq (W : WrenchList K) {l0 l : Link K} (h : l.body.vel = l0.body.vel) :
    loadWork W l0 l = W.net.dot6 (l.body.acc - l0.body.acc) := by
  induction W with
  | nil => simp only [loadWork, List.map_nil, List.sum_nil, WrenchList.net, List.foldl_nil]; vec_ring
  | cons a W ih =>
    rw [WrenchList.net_cons]
    have e : loadWork (a :: W) l0 l = (dot a.w.lin (l.pointAcc a.p - l0.pointAcc a.p) +
      dot a.w.ang (l.body.acc.ang - l0.body.acc.ang)) + loadWork W l0 l := rfl
    rw [e, ih]
    have d : ∀ u v w : Vec6 K, (u + v).dot6 w = u.dot6 w + v.dot6 w := by intro u v w; vec_ring
    rw [d]
    congr 1
    simp only [Link.pointAcc, h, Wrench.shift]
    generalize triple l0.body.vel.ang l0.body.vel.ang a.p = z
    vec_ring

section
variable [Zm K]

/-- The trees of the four runs. -/
theorem runs_trees {c : Chain K} (h : c.WF) (hz : jointSize c.link ≠ 0) {x y : K} {W : Run → ℕ → WrenchList K}
    (hW : ∀ i, Aff6 x y fun k => (W k i).net) (fx wr : Bool) {d : Run → Chain K}
    (e : ∀ k, (c.withForces (W k)).abiUpdate fx wr = some (d k)) :
    ∃ T : Run → LTree (Link K), (∀ k, Chain.gather (c.withForces (W k)).link c.shape = some (T k)) ∧
      (∀ k, Chain.gather (d k).link c.shape = some ((((T k).abiInit 0).abiBack fx).1.abiFwd fx wr 0)) ∧
      (∀ k, (d k).link.length = c.link.length) ∧ Fam (Runs x y) (fun k => (((T k).abiInit 0).abiBack fx).1) ∧
      Fam (Done wr x y) fun k => (((T k).abiInit 0).abiBack fx).1.abiFwd fx wr 0 := by
  have g : ∀ k, ∃ T, Chain.gather (c.withForces (W k)).link c.shape = some T := fun k =>
    Chain.gather_exists fun i hi => (h.withForces (W k)).mem.1 hi
  choose T hT using g
  have hs : ∀ k, jointSize (c.withForces (W k)).link ≠ 0 := fun k => by rw [Chain.jointSize_withForces]; exact hz
  have hu := fun k => (h.withForces (W k)).abiUpdate fx wr (hs k) (hT k)
  choose ls e1 g1 n1 using hu
  have hd : ∀ k, d k = { c.withForces (W k) with link := ls k } := fun k => by
    have := (e k).symm.trans (e1 k); simpa using this
  have st : Fam (Start x y) T := by
    refine fam_of_gather hT ?_
    intro i l hi hl
    have hi' := h.mem.1 hi
    have el : ∀ k, l k = { c.link[i] with abi := { c.link[i].abi with wlist := W k i } } := by
      intro k
      have := hl k
      simp only [Chain.withForces, List.getElem?_mapIdx, List.getElem?_eq_getElem hi', Option.map_some, Option.some.injEq] at this
      exact this.symm
    refine ⟨fun k => by rw [el k, el .o], ?_⟩
    have : (fun k => (l k).abi.wlist.net) = fun k => (W k i).net := by funext k; rw [el k]
    rw [this]; exact hW i
  have rb := (fam_back fx (fam_init st 0)).1
  refine ⟨T, hT, fun k => ?_, fun k => ?_, rb, fam_fwd fx wr rb (aff6_const x y 0)⟩
  · rw [hd k]; exact g1 k
  · rw [hd k]; exact (n1 k).trans (by simp [Chain.withForces])

/-- The loads of the four runs. -/
def loads (x y : K) (A B : ℕ → WrenchList K) : Run → ℕ → WrenchList K
  | .o => fun _ => []
  | .a => A
  | .b => B
  | .d => fun i => scaled x (A i) ++ scaled y (B i)

theorem loads_aff (x y : K) (A B : ℕ → WrenchList K) (i : ℕ) : Aff6 x y fun k => (loads x y A B k i).net := by
  simp only [Aff6, loads, WrenchList.net_append, WrenchList.net_scaled, comb6]
  have : WrenchList.net ([] : WrenchList K) = 0 := rfl
  rw [this]; vec_ring

/-- **C120, superposition.**  Take any chain in any state, with any joints.  Update its forward dynamics four times: with no
additional forces, with forces `A`, with forces `B`, and with `x` times the forces `A` together with `y` times the forces `B`.
The last run answers with the sum of `x` times the response to `A` and `y` times the response to `B`: for the acceleration of
every link, for the acceleration of every joint and, in the variant that computes them, for the wrench of every joint. -/
theorem C120_superposition (c c0 cA cB cD : Chain K) (fx wr : Bool) (h : c.WF) (hz : jointSize c.link ≠ 0)
    (A B : ℕ → WrenchList K) (x y : K)
    (e0 : (c.withForces fun _ => []).abiUpdate fx wr = some c0)
    (eA : (c.withForces A).abiUpdate fx wr = some cA)
    (eB : (c.withForces B).abiUpdate fx wr = some cB)
    (eD : (c.withForces fun i => scaled x (A i) ++ scaled y (B i)).abiUpdate fx wr = some cD)
    (i : ℕ) (l0 lA lB lD : Link K) (h0 : c0.link[i]? = some l0) (hA : cA.link[i]? = some lA) (hB : cB.link[i]? = some lB)
    (hD : cD.link[i]? = some lD) :
    lD.body.acc = comb6 x y l0.body.acc lA.body.acc lB.body.acc ∧
    lD.joint.prp.getAcc = List.zipWith3 (comb x y) l0.joint.prp.getAcc lA.joint.prp.getAcc lB.joint.prp.getAcc ∧
    (wr = true → lD.joint.wrench = comb6 x y l0.joint.wrench lA.joint.wrench lB.joint.wrench) := by
  let d : Run → Chain K := fun k => match k with | .o => c0 | .a => cA | .b => cB | .d => cD
  obtain ⟨T, -, hT, hn, -, hF⟩ := runs_trees h hz (loads_aff x y A B) fx wr (d := d) (by
    rintro (_ | _ | _ | _)
    exacts [e0, eA, eB, eD])
  let l : Run → Link K := fun k => match k with | .o => l0 | .a => lA | .b => lB | .d => lD
  have hl : ∀ k, (d k).link[i]? = some (l k) := by
    rintro (_ | _ | _ | _)
    exacts [h0, hA, hB, hD]
  have hi : i ∈ c.shape.toList := by
    refine h.mem.2 ?_
    rw [← hn .o]
    exact (List.getElem?_eq_some_iff.1 h0).1
  have := gather_fam hT hF hi hl
  exact ⟨this.acc, this.jacc, fun hw => this.wrench hw⟩

end

section
variable [LinearOrder K] [IsStrictOrderedRing K] [Zm K] [LawfulZm K]

/-- Whether wrenches are computed makes no difference to the rest. -/
theorem fwd_wr (fx wr : Bool) (T : LTree (Link K)) (pa : Vec6 K) :
    (T.abiFwd fx wr pa).map (fun l => (l.body, l.joint.prp, l.abi, l.adj)) =
      (T.abiFwd fx true pa).map fun l => (l.body, l.joint.prp, l.abi, l.adj) := by
  induction T generalizing pa with
  | nil => rfl
  | node l c s ihc ihs =>
    simp only [LTree.abiFwd_node, LTree.map]
    have : (LTree.abiStep fx wr pa l).body.acc = (LTree.abiStep fx true pa l).body.acc := by cases wr <;> rfl
    rw [this, ihc, ihs]
    congr 1
    cases wr <;> rfl

theorem sum3_congr {f : Link K → Link K → Link K → K} {U A B U' A' B' : LTree (Link K)} {β : Type*} (π : Link K → β)
    (hf : ∀ u a b u' a' b' : Link K, π u = π u' → π a = π a' → π b = π b' → f u a b = f u' a' b')
    (hU : U.map π = U'.map π) (hA : A.map π = A'.map π) (hB : B.map π = B'.map π) :
    LTree.sum3 f U A B = LTree.sum3 f U' A' B' := by
  induction U generalizing A B U' A' B' with
  | nil => rcases U' with _ | _ <;> simp_all [LTree.sum3, LTree.map]
  | node u c s ihc ihs =>
    rcases U' with _ | ⟨u', c', s'⟩ <;> simp only [LTree.map, reduceCtorEq, LTree.node.injEq] at hU
    rcases A with _ | ⟨a, ca, sa⟩ <;> rcases A' with _ | ⟨a', ca', sa'⟩ <;>
      simp only [LTree.map, reduceCtorEq, LTree.node.injEq] at hA
    · simp [LTree.sum3]
    rcases B with _ | ⟨b, cb, sb⟩ <;> rcases B' with _ | ⟨b', cb', sb'⟩ <;>
      simp only [LTree.map, reduceCtorEq, LTree.node.injEq] at hB
    · simp [LTree.sum3]
    simp only [LTree.sum3]
    rw [hf u a b u' a' b' hU.1 hA.1 hB.1, ihc hU.2.1 hA.2.1 hB.2.1, ihs hU.2.2 hA.2.2 hB.2.2]

theorem axisRegular_core {l m : Link K} (h1 : l.joint.prp.core = m.joint.prp.core) (h2 : l.abi.axi = m.abi.axi)
    (h : AxisRegular m) : AxisRegular l := by
  generalize hp : l.joint.prp = p at *
  generalize hq : m.joint.prp = q at *
  simp only [AxisRegular, hp, hq, h2] at h ⊢
  cases p <;> cases q <;> simp [Prp.core] at h1 <;> exact h

/-- The result of the update solves the equations of motion. -/
theorem update_dyn {c : Chain K} (h : c.WF) (fx : Bool) {T : LTree (Link K)} (hT : Chain.gather c.link c.shape = some T)
    (hm : ∀ l ∈ c.link, l.abi.m.Symm) (hwf : ∀ l ∈ c.link, l.joint.prp.WF)
    (hroot : ∀ l, c.link[0]? = some l → l.joint.prp.ABIRootGood)
    (hgood : ∀ (i : ℕ) (l : Link K), c.link[i + 1]? = some l → l.joint.prp.ABIGood)
    (hr : ∀ l ∈ ((T.abiInit 0).abiBack fx).1.toList, AxisRegular l) :
    (((T.abiInit 0).abiBack fx).1.abiFwd fx true 0).Dyn fx 0 := by
  have perm := Chain.gather_perm hT h.perm
  obtain ⟨t, ht⟩ := h.root
  have gv3 := hT
  rw [ht] at gv3
  obtain ⟨l0, cc, ss, g4, g5, g6, e7⟩ := Chain.gather_node.1 gv3
  simp only [Chain.gather, Option.some.injEq] at g6
  subst g6
  have hgc : ∀ m ∈ cc.toList, m.joint.prp.ABIGood := by
    intro m hm'
    have h1 := Chain.gather_toList g5
    have : some m ∈ cc.toList.map some := List.mem_map.2 ⟨m, hm', rfl⟩
    rw [h1] at this
    obtain ⟨j, hj, hjm⟩ := List.mem_map.1 this
    have hnd := h.nodup
    rw [ht] at hnd
    simp only [LTree.toList, List.append_nil, List.nodup_cons] at hnd
    rcases j with _ | j
    · exact absurd hj hnd.1
    · exact hgood j m hjm
  have hTIe : T.abiInit 0 = LTree.node (l0.abiUpdateInit 0) (cc.abiInit (l0.abiUpdateInit 0).body.vel) .nil := by
    rw [e7]; rfl
  have hiI : ∀ m ∈ (T.abiInit 0).toList, m.abi.i = m.abi.m ∧ m.abi.b = m.abi.f := by
    have : ∀ (T : LTree (Link K)) v, ∀ m ∈ (T.abiInit v).toList, m.abi.i = m.abi.m ∧ m.abi.b = m.abi.f := by
      intro T
      induction T with
      | nil => intro v m hm'; simp [LTree.abiInit, LTree.down, LTree.toList] at hm'
      | node l c s ihc ihs =>
        intro v m hm'
        simp only [LTree.abiInit, LTree.down, LTree.toList, List.mem_cons, List.mem_append] at hm'
        rcases hm' with rfl | hm' | hm'
        · exact ⟨rfl, rfl⟩
        · exact ihc _ m hm'
        · exact ihs _ m hm'
    exact this _ 0
  have keyI : (T.abiInit 0).toList.map (fun l => (l.abi.m, l.joint.prp)) = T.toList.map fun l => (l.abi.m, l.joint.prp) := by
    rw [← LTree.toList_map, ← LTree.toList_map]
    exact congrArg LTree.toList (LTree.down_map_inv (f := fun v (l : Link K) => l.abiUpdateInit v)
      (g := fun l => l.body.vel) (fun l : Link K => (l.abi.m, l.joint.prp)) (by intro _ _; rfl) 0 T)
  have hsI : ∀ m ∈ (T.abiInit 0).toList, m.abi.m.Symm :=
    forall_of_map_eq (fun l : Link K => (l.abi.m, l.joint.prp)) (fun x => x.1.Symm) keyI fun y hy => hm y (perm.mem_iff.1 hy)
  have hwfI : ∀ m ∈ (T.abiInit 0).toList, m.joint.prp.WF :=
    forall_of_map_eq (fun l : Link K => (l.abi.m, l.joint.prp)) (fun x => x.2.WF) keyI fun y hy => hwf y (perm.mem_iff.1 hy)
  rw [hTIe] at hiI hsI hwfI hr ⊢
  refine LTree.dyn_root fx _ _ hiI (fun m hm' => by rw [(hiI m hm').1]; exact hsI m hm') (hroot l0 g4) ?_ hwfI hr 0
  have kc := congrArg LTree.toList (LTree.down_map_inv (f := fun v (l : Link K) => l.abiUpdateInit v)
    (g := fun l => l.body.vel) (fun l : Link K => l.joint.prp.ABIGood) (by intro _ _; rfl)
    (l0.abiUpdateInit 0).body.vel cc)
  rw [LTree.toList_map, LTree.toList_map] at kc
  exact forall_of_map_eq (fun l : Link K => l.joint.prp.ABIGood) (fun P => P) kc hgc

/-- The work of the loads of one run along the response of another. -/
theorem work_eq {c : Chain K} (h : c.WF) (hz : jointSize c.link ≠ 0) {x y : K} {W : Run → ℕ → WrenchList K}
    (hW : ∀ i, Aff6 x y fun k => (W k i).net) (hW0 : W .o = fun _ => []) (fx wr : Bool) {d : Run → Chain K}
    (e : ∀ k, (c.withForces (W k)).abiUpdate fx wr = some (d k))
    (hm : ∀ l ∈ c.link, l.abi.m.Symm) (hwf : ∀ l ∈ c.link, l.joint.prp.WF)
    (hroot : ∀ l, c.link[0]? = some l → l.joint.prp.ABIRootGood)
    (hgood : ∀ (i : ℕ) (l : Link K), c.link[i + 1]? = some l → l.joint.prp.ABIGood)
    (hr : ∀ l ∈ (d .o).link, AxisRegular l) :
    ∃ U : Run → LTree (Link K), Fam (Done true x y) U ∧
      (U .o).toList.map (fun l => (l.abi.m, l.joint.prp.motorInertia)) ⊆ c.link.map (fun l => (l.abi.m, l.joint.prp.motorInertia)) ∧
      ∀ ka kb, totalWork (W ka) (d .o) (d kb) = LTree.sum3 massTerm (U .o) (U ka) (U kb) := by
  obtain ⟨T, hT, hG, hn, hB, hF⟩ := runs_trees h hz hW fx wr e
  have hWF := fun k => h.withForces (W k)
  have hshape : ∀ k, (c.withForces (W k)).shape = c.shape := fun _ => rfl
  -- what the runs start from
  have get : ∀ (k : Run) (i : ℕ) (l : Link K), (c.withForces (W k)).link[i]? = some l → ∃ m, c.link[i]? = some m ∧
      l.abi.m = m.abi.m ∧ l.joint = m.joint ∧ l.abi.wlist = W k i := by
    intro k i l hl
    simp only [Chain.withForces, List.getElem?_mapIdx, Option.map_eq_some_iff] at hl
    obtain ⟨m, hm, rfl⟩ := hl
    exact ⟨m, hm, rfl, rfl, rfl⟩
  have getm : ∀ (k : Run) (l : Link K), l ∈ (c.withForces (W k)).link → ∃ m ∈ c.link, l.abi.m = m.abi.m ∧ l.joint = m.joint := by
    intro k l hl
    obtain ⟨i, hi⟩ := List.mem_iff_getElem?.1 hl
    obtain ⟨m, h1, h2, h3, -⟩ := get k i l hi
    exact ⟨m, List.mem_of_getElem? h1, h2, h3⟩
  -- regularity
  have hkeep : ∀ k, (((T k).abiInit 0).abiBack fx).1.map AxisRegular =
      ((((T k).abiInit 0).abiBack fx).1.abiFwd fx wr 0).map AxisRegular := by
    intro k
    rw [LTree.abiFwd, LTree.down_map_inv AxisRegular]
    intro pa l
    obtain ⟨name, ⟨p, w⟩, body, off, org, adj, abi⟩ := l
    cases p <;> (try cases fx) <;> cases wr <;> rfl
  have perm0 : (((((T .o).abiInit 0).abiBack fx).1.abiFwd fx wr 0)).toList.Perm (d .o).link :=
    Chain.gather_perm (hG .o) (by rw [hn]; exact h.perm)
  have hr0 : ∀ l ∈ (((T .o).abiInit 0).abiBack fx).1.toList, AxisRegular l := by
    have k2 := congrArg LTree.toList (hkeep .o)
    rw [LTree.toList_map, LTree.toList_map] at k2
    exact forall_of_map_eq AxisRegular (fun P => P) k2 fun y hy => hr y (perm0.mem_iff.1 hy)
  have hrk : ∀ k, ∀ l ∈ (((T k).abiInit 0).abiBack fx).1.toList, AxisRegular l := by
    intro k
    have : ∀ {V : Run → LTree (Link K)}, Fam (Runs x y) V → (∀ l ∈ (V .o).toList, AxisRegular l) →
        ∀ l ∈ (V k).toList, AxisRegular l := by
      intro V hV
      induction hV with
      | nil => intro _ l hl; simp [LTree.toList] at hl
      | node r _ _ ihc ihs =>
        intro h0 l hl
        simp only [LTree.toList, List.mem_cons, List.mem_append] at h0 hl
        rcases hl with rfl | hl | hl
        · have b := r.base k
          simp only [Link.base, Prod.mk.injEq] at b
          exact axisRegular_core (by rw [b.1]) b.2.2.2.2.2.2.2.1 (h0 _ (.inl rfl))
        · exact ihc (fun m hm => h0 m (.inr (.inl hm))) l hl
        · exact ihs (fun m hm => h0 m (.inr (.inr hm))) l hl
    exact this hB hr0
  have hD : ∀ k, ((((T k).abiInit 0).abiBack fx).1.abiFwd fx true 0).Dyn fx 0 := by
    intro k
    refine update_dyn (hWF k) fx (hT k) ?_ ?_ ?_ ?_ (hrk k)
    · intro l hl; obtain ⟨m, h1, h2, h3⟩ := getm k l hl; rw [h2]; exact hm m h1
    · intro l hl; obtain ⟨m, h1, h2, h3⟩ := getm k l hl; rw [h3]; exact hwf m h1
    · intro l hl; obtain ⟨m, h1, h2, h3, -⟩ := get k 0 l hl; rw [h3]; exact hroot m h1
    · intro i l hl; obtain ⟨m, h1, h2, h3, -⟩ := get k (i + 1) l hl; rw [h3]; exact hgood i m h1
  have hFt : Fam (Done true x y) fun k => (((T k).abiInit 0).abiBack fx).1.abiFwd fx true 0 :=
    fam_fwd fx true hB (aff6_const x y 0)
  have hcore : ∀ k, ((((T k).abiInit 0).abiBack fx).1.abiFwd fx true 0).map (fun l => (l.abi.m, l.joint.prp.core)) =
      (T k).map fun l => (l.abi.m, l.joint.prp.core) := by
    intro k
    have b : ∀ V : LTree (Link K), (V.abiBack fx).1.map (fun l => (l.abi.m, l.joint.prp.core)) =
        V.map fun l => (l.abi.m, l.joint.prp.core) := by
      intro V
      induction V with
      | nil => rfl
      | node l c s ihc ihs =>
        simp only [LTree.abiBack, LTree.map, ihc, ihs, Link.abiBackward, Link.abiAdd, Prp.core_drive]
    rw [LTree.abiFwd, LTree.down_map_inv (fun l : Link K => (l.abi.m, l.joint.prp.core)), b]
    · exact LTree.down_map_inv (f := fun v (l : Link K) => l.abiUpdateInit v) (g := fun l => l.body.vel)
        (fun l : Link K => (l.abi.m, l.joint.prp.core)) (by intro _ _; rfl) 0 (T k)
    · intro pa l
      simp only [LTree.abiStep, if_true, Link.abiWrench, Link.abiForward, Prp.core_qacc]
  have hcoreL : ∀ l ∈ ((((T .o).abiInit 0).abiBack fx).1.abiFwd fx true 0).toList, ∃ m ∈ c.link,
      l.abi.m = m.abi.m ∧ l.joint.prp.core = m.joint.prp.core := by
    intro l hl
    have k2 := congrArg LTree.toList (hcore .o)
    rw [LTree.toList_map, LTree.toList_map] at k2
    have : (l.abi.m, l.joint.prp.core) ∈ (T .o).toList.map fun l => (l.abi.m, l.joint.prp.core) := by
      rw [← k2]; exact List.mem_map.2 ⟨l, hl, rfl⟩
    obtain ⟨y', hy, e1⟩ := List.mem_map.1 this
    simp only [Prod.mk.injEq] at e1
    obtain ⟨m, h1, h2, h3⟩ := getm .o y' ((Chain.gather_perm (hT .o) (hWF .o).perm).mem_iff.1 hy)
    exact ⟨m, h1, e1.1.symm.trans h2, by rw [← e1.2, h3]⟩
  refine ⟨_, hFt, ?_, ?_⟩
  · intro z hz'
    obtain ⟨l, hl, rfl⟩ := List.mem_map.1 hz'
    obtain ⟨m, h1, h2, h3⟩ := hcoreL l hl
    exact List.mem_map.2 ⟨m, h1, by rw [h2, Prp.core_motor h3]⟩
  intro ka kb
  have hgr : ∀ l ∈ ((((T .o).abiInit 0).abiBack fx).1.abiFwd fx true 0).toList, l.joint.prp.ABIRootGood := by
    intro l hl
    obtain ⟨m, h1, h2, h3⟩ := hcoreL l hl
    have : m.joint.prp.ABIRootGood := by
      obtain ⟨i, hi⟩ := List.mem_iff_getElem?.1 h1
      rcases i with _ | i
      · exact hroot m hi
      · exact ABIGood.root (hgood i m hi)
    generalize l.joint.prp = p at *
    generalize m.joint.prp = q at *
    cases p <;> cases q <;> simp [Prp.core] at h3 <;> exact this
  have rcp := recip_tree hFt hgr (p := fun _ => 0) hD ka kb
  have z0 : ((0 : Vec6 K) - 0) = 0 := by vec_ring
  have z1 : ∀ v : Vec6 K, v.dot6 0 = 0 := by intro v; vec_ring
  rw [z0, z1, add_zero] at rcp
  rw [← rcp]
  have swap : LTree.sum3 loadTerm ((((T .o).abiInit 0).abiBack fx).1.abiFwd fx true 0)
      ((((T ka).abiInit 0).abiBack fx).1.abiFwd fx true 0) ((((T kb).abiInit 0).abiBack fx).1.abiFwd fx true 0) =
      LTree.sum3 loadTerm ((((T .o).abiInit 0).abiBack fx).1.abiFwd fx wr 0)
      ((((T ka).abiInit 0).abiBack fx).1.abiFwd fx wr 0) ((((T kb).abiInit 0).abiBack fx).1.abiFwd fx wr 0) := by
    refine (sum3_congr (fun l : Link K => (l.body, l.joint.prp, l.abi, l.adj)) ?_ (fwd_wr _ _ _ _) (fwd_wr _ _ _ _) (fwd_wr _ _ _ _)).symm
    intro u a b u' a' b' h1 h2 h3
    simp only [Prod.mk.injEq] at h1 h2 h3
    simp only [loadTerm, h1, h2, h3]
  rw [swap, sum3_chain (hG .o) (hG ka) (hG kb) (by rw [hn]; exact h.perm), totalWork]
  congr 1
  refine List.map_congr_left fun i hi => ?_
  have hi' : i < c.link.length := by rw [← hn .o]; exact List.mem_range.1 hi
  have hget : ∀ k, ∃ l, (d k).link[i]? = some l := fun k => ⟨_, List.getElem?_eq_getElem (by rw [hn]; exact hi')⟩
  choose l hl using hget
  have done := gather_fam hG hF (h.mem.2 hi') hl
  have wl : ∀ k, (l k).abi.wlist = W k i := by
    intro k
    have hk := (Chain.abiUpdate_keep (fun l : Link K => l.abi.wlist) (fun _ => rfl) (fun _ _ => rfl)
      (fun _ => rfl) (fun _ _ => rfl) (fun l pa => by rw [Link.abiStep_abi]) (e k)).1
    have := congrArg (fun L => L[i]?) hk
    simp only [List.getElem?_map, hl k, Option.map_some] at this
    cases hc : (c.withForces (W k)).link[i]? with
    | none => rw [hc] at this; simp at this
    | some m =>
      rw [hc] at this
      simp only [Option.map_some, Option.some.injEq] at this
      obtain ⟨m', -, -, -, h4⟩ := get k i m hc
      rw [this, h4]
  rw [hl .o, hl ka, hl kb]
  simp only [loadTerm]
  have fz := done.frozen kb
  simp only [Link.frozen, Prod.mk.injEq] at fz
  rw [loadWork_eq _ fz.2.2.1, done.net ka, wl, wl, hW0]
  have : WrenchList.net ([] : WrenchList K) = 0 := rfl
  rw [this]
  congr 1
  simp

/-- **C120, reciprocity.**  Take a chain with fixed, revolute, floating and breakable joints (its root may be prismatic) in
any state, prepared for forward dynamics, in which no joint inertia is degenerate.  Attach forces and torques `A` to its
links, at any points; and in another run forces and torques `B`.  What the loads `A` do along the accelerations that `B`
causes is what the loads `B` do along the accelerations that `A` causes.  In particular the acceleration of one contact
point caused by a unit force at another is that of the other caused by the same force at the first.
Missing: the other joint types, for which it is false (`C120_prism_fails`). -/
theorem C120_reciprocity_partial (c c0 cA cB : Chain K) (fx wr : Bool) (h : c.WF) (hz : jointSize c.link ≠ 0)
    (hm : ∀ l ∈ c.link, l.abi.m = Link.abiInertia l.body.mp ∧ l.body.mp.inertia.Symm) (hwf : ∀ l ∈ c.link, l.joint.prp.WF)
    (hroot : ∀ l, c.link[0]? = some l → l.joint.prp.ABIRootGood)
    (hgood : ∀ (i : ℕ) (l : Link K), c.link[i + 1]? = some l → l.joint.prp.ABIGood)
    (A B : ℕ → WrenchList K)
    (e0 : (c.withForces fun _ => []).abiUpdate fx wr = some c0)
    (eA : (c.withForces A).abiUpdate fx wr = some cA)
    (eB : (c.withForces B).abiUpdate fx wr = some cB)
    (hr : ∀ l ∈ c0.link, AxisRegular l) :
    totalWork A c0 cB = totalWork B c0 cA := by
  have hs : ∀ l ∈ c.link, l.abi.m.Symm := fun l hl => by rw [(hm l hl).1]; exact Link.abiInertia_symm (hm l hl).2
  obtain ⟨T, hT⟩ := Chain.gather_exists (ls := (c.withForces fun i => scaled 1 (A i) ++ scaled 1 (B i)).link) (t := c.shape)
    fun i hi => (h.withForces _).mem.1 hi
  obtain ⟨ls, eD, -, -⟩ := (h.withForces fun i => scaled 1 (A i) ++ scaled 1 (B i)).abiUpdate fx wr
    (by rw [Chain.jointSize_withForces]; exact hz) hT
  let d : Run → Chain K := fun k => match k with
    | .o => c0 | .a => cA | .b => cB | .d => { (c.withForces fun i => scaled 1 (A i) ++ scaled 1 (B i)) with link := ls }
  obtain ⟨U, hF, hU, hw⟩ := work_eq h hz (loads_aff 1 1 A B) rfl fx wr (d := d) (by
    rintro (_ | _ | _ | _)
    exacts [e0, eA, eB, eD]) hs hwf hroot hgood hr
  have h1 := hw .a .b
  have h2 := hw .b .a
  refine h1.trans (Eq.trans ?_ h2.symm)
  refine sum3_symm hF ?_
  intro l hl
  obtain ⟨m, hm', e⟩ := List.mem_map.1 (hU (List.mem_map.2 ⟨l, hl, rfl⟩))
  simp only [Prod.mk.injEq] at e
  rw [← e.1]; exact hs m hm'

/-- **C120, sign.**  When moreover masses, inertia tensors and motor inertias are not negative, loads never drive the points
they act on backwards: what the loads `A` do along the accelerations they cause is not negative. -/
theorem C120_sign_partial (c c0 cA : Chain K) (fx wr : Bool) (h : c.WF) (hz : jointSize c.link ≠ 0)
    (hm : ∀ l ∈ c.link, l.abi.m = Link.abiInertia l.body.mp ∧ Physical l.body.mp ∧ 0 ≤ l.joint.prp.motorInertia)
    (hwf : ∀ l ∈ c.link, l.joint.prp.WF)
    (hroot : ∀ l, c.link[0]? = some l → l.joint.prp.ABIRootGood)
    (hgood : ∀ (i : ℕ) (l : Link K), c.link[i + 1]? = some l → l.joint.prp.ABIGood)
    (A : ℕ → WrenchList K)
    (e0 : (c.withForces fun _ => []).abiUpdate fx wr = some c0)
    (eA : (c.withForces A).abiUpdate fx wr = some cA)
    (hr : ∀ l ∈ c0.link, AxisRegular l) :
    0 ≤ totalWork A c0 cA := by
  have hs : ∀ l ∈ c.link, l.abi.m.Symm := fun l hl => by
    rw [(hm l hl).1]; exact Link.abiInertia_symm (hm l hl).2.1.symm
  let d : Run → Chain K := fun k => match k with | .o => c0 | .a => cA | .b => c0 | .d => cA
  let W : Run → ℕ → WrenchList K := fun k => match k with | .o => fun _ => [] | .a => A | .b => fun _ => [] | .d => A
  obtain ⟨U, hF, hU, hw⟩ := work_eq h hz (x := 1) (y := 0) (W := W) (fun i => by
      simp only [Aff6, W, comb6]; vec_ring) rfl fx wr (d := d) (by
    rintro (_ | _ | _ | _)
    exacts [e0, eA, e0, eA]) hs hwf hroot hgood hr
  have h1 := hw .a .a
  refine le_of_le_of_eq (sum3_nonneg hF ?_) h1.symm
  intro l hl
  obtain ⟨m, hm', e⟩ := List.mem_map.1 (hU (List.mem_map.2 ⟨l, hl, rfl⟩))
  simp only [Prod.mk.injEq] at e
  rw [← e.1, ← e.2]
  obtain ⟨a1, a2, a3⟩ := hm m hm'
  exact ⟨by rw [a1]; exact Link.abiInertia_psd a2, a3⟩

end

/-! ## Cases -/

namespace Sample
/-- Two bodies on revolute joints with crossed axes. -/
def crossed : Chain ℚ :=
  let c := serial [(turn, mpx, Frame.ident), (turn, mpx, side)]
  { c with link := c.link.map fun l => { l with adj := l.org } }
/-- Two bodies that slide on each other. -/
def slides : Chain ℚ := serial [(slide, mp0, Frame.ident), (slide, mp0, Frame.ident)]
/-- A single force on one link. -/
def unitPush (i : ℕ) (f p : Vec3 ℚ) : ℕ → WrenchList ℚ := fun j => if j = i then [⟨⟨f, 0⟩, p⟩] else []
end Sample

/-- The work of loads `A` along the response to loads `B`. -/
noncomputable def crossWork (c : Chain ℚ) (A B : ℕ → WrenchList ℚ) : Option ℚ :=
  ((c.withForces fun _ => []).abiUpdate false false).bind fun c0 =>
    ((c.withForces B).abiUpdate false false).map fun cB => totalWork A c0 cB

/-- **C120, violated** by a prismatic joint that is not at the root: a unit force on the lower of two sliding bodies does not
accelerate the upper one, but a unit force on the upper one accelerates the lower by 2 (src/rk_joint_prism.c:214-225). -/
theorem C120_prism_fails :
    crossWork Sample.slides (Sample.unitPush 1 ⟨0, 0, 1⟩ 0) (Sample.unitPush 0 ⟨0, 0, 1⟩ 0) = some 0 ∧
    crossWork Sample.slides (Sample.unitPush 0 ⟨0, 0, 1⟩ 0) (Sample.unitPush 1 ⟨0, 0, 1⟩ 0) = some 2 := by
  constructor <;> decide +kernel

/-- **C120, violated** by a cylindrical joint: a force along the axis drives the body backwards
(src/rk_joint_cylin.c:270-285). -/
theorem C120_cylin_fails :
    crossWork (Sample.serial [(Sample.turnSlide, Sample.mp0, Frame.ident)]) (Sample.unitPush 0 ⟨0, 0, 1⟩ 0)
      (Sample.unitPush 0 ⟨0, 0, 1⟩ 0) = some (-1) := by decide +kernel

/-- The theorems apply to the two bodies with crossed axes, and the works are not zero. -/
theorem C120_applies : Sample.crossed.WF ∧ jointSize Sample.crossed.link = 2 ∧
    (∀ l ∈ Sample.crossed.link, l.abi.m = Link.abiInertia l.body.mp ∧ l.body.mp.inertia.Symm ∧ Physical l.body.mp ∧
      0 ≤ l.joint.prp.motorInertia ∧ l.joint.prp.ABIGood) ∧
    (∃ c0, (Sample.crossed.withForces fun _ => []).abiUpdate false false = some c0 ∧ ∀ l ∈ c0.link, AxisRegular l) ∧
    crossWork Sample.crossed (Sample.unitPush 0 ⟨0, 1, 0⟩ ⟨1, 0, 0⟩) (Sample.unitPush 1 ⟨0, 1, 1⟩ ⟨1, 0, 1⟩) =
      crossWork Sample.crossed (Sample.unitPush 1 ⟨0, 1, 1⟩ ⟨1, 0, 1⟩) (Sample.unitPush 0 ⟨0, 1, 0⟩ ⟨1, 0, 0⟩) ∧
    crossWork Sample.crossed (Sample.unitPush 0 ⟨0, 1, 0⟩ ⟨1, 0, 0⟩) (Sample.unitPush 1 ⟨0, 1, 1⟩ ⟨1, 0, 1⟩) ≠ some 0 := by
  have hphys : Physical Sample.mpx := by
    refine ⟨by decide, fun w => ?_, rfl⟩
    have : dot w (Sample.mpx.inertia.mulVec w) = w.x * w.x + w.y * w.y + w.z * w.z := by
      simp only [Sample.mpx]; vec_ring
    rw [this]
    exact add_nonneg (add_nonneg (mul_self_nonneg _) (mul_self_nonneg _)) (mul_self_nonneg _)
  refine ⟨⟨⟨.node 1 .nil .nil, rfl⟩, by decide⟩, by decide +kernel, ?_, ?_, ?_, ?_⟩
  · intro l hl
    have h2 : (l.abi.m, l.body.mp, l.joint.prp) ∈ Sample.crossed.link.map (fun l => (l.abi.m, l.body.mp, l.joint.prp)) :=
      List.mem_map.2 ⟨l, hl, rfl⟩
    have e2 : Sample.crossed.link.map (fun l => (l.abi.m, l.body.mp, l.joint.prp)) =
        [(Link.abiInertia Sample.mpx, Sample.mpx, Sample.turn), (Link.abiInertia Sample.mpx, Sample.mpx, Sample.turn)] := rfl
    rw [e2] at h2
    simp only [List.mem_cons, List.not_mem_nil, or_false, or_self, Prod.mk.injEq] at h2
    obtain ⟨a, b, d⟩ := h2
    rw [a, b, d]
    exact ⟨rfl, hphys.symm, hphys, by decide +kernel, trivial⟩
  · have k : ((Sample.crossed.withForces fun _ => []).abiUpdate false false).map
        (fun c => c.link.map fun l => (Zm.tiny (l.abi.axi 0 0), l.joint.prp.size)) = some [(false, 1), (false, 1)] := by
      decide +kernel
    rw [Option.map_eq_some_iff] at k
    obtain ⟨c0, e0, k⟩ := k
    refine ⟨c0, e0, fun l hl => ?_⟩
    have : (Zm.tiny (l.abi.axi 0 0), l.joint.prp.size) ∈ [(false, 1), (false, 1)] := by
      rw [← k]; exact List.mem_map.2 ⟨l, hl, rfl⟩
    simp only [List.mem_cons, List.not_mem_nil, or_false, or_self, Prod.mk.injEq] at this
    generalize hp : l.joint.prp = p at *
    cases p <;> simp [Prp.size] at this <;> simp [AxisRegular, hp, this]
  · decide +kernel
  · decide +kernel

end Roki
