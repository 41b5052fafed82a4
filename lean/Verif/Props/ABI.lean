import Verif.Lemmas.ABITwo
import Verif.Spec.Samples
set_option autoImplicit false

/-!
# C27 and C28: additional external forces in forward dynamics
-/

namespace Roki
variable {K : Type*} [Field K]

/-! ## C27 -/

/-- Two chains show the same joint state (displacement, velocity, acceleration, torque), the same
bodies (frame, velocity and acceleration of every link) and, if `wr`, the same joint wrenches. -/
def SameMotion (wr : Bool) (c d : Chain K) : Prop :=
  c.link.length = d.link.length ∧ ∀ (i : ℕ) (l m : Link K), c.link[i]? = some l → d.link[i]? = some m →
    l.joint.prp = m.joint.prp ∧ l.body = m.body ∧ (wr = true → l.joint.wrench = m.joint.wrench)

theorem zeroRate_same {c d : Chain K} (wr : Bool)
    (h : c.link.map (fun l => (l.joint, l.body)) = d.link.map fun l => (l.joint, l.body)) :
    SameMotion wr c.abiZeroLinkRate d.abiZeroLinkRate := by
  have hl : c.link.length = d.link.length := by simpa using congrArg List.length h
  refine ⟨by simp [Chain.abiZeroLinkRate, hl], ?_⟩
  intro i l m h1 h2
  simp only [Chain.abiZeroLinkRate, List.getElem?_map, Option.map_eq_some_iff] at h1 h2
  obtain ⟨x, hx, rfl⟩ := h1
  obtain ⟨y, hy, rfl⟩ := h2
  have e := congrArg (fun L => L[i]?) h
  simp only [List.getElem?_map, hx, hy, Option.map_some, Option.some.injEq, Prod.mk.injEq] at e
  exact ⟨by rw [e.1], by simp only [e.2], fun _ => by rw [e.1]⟩

theorem withForces_jb (c : Chain K) (W : ℕ → WrenchList K) :
    (c.withForces W).link.map (fun l => (l.joint, l.body)) = c.link.map fun l => (l.joint, l.body) := by
  apply List.ext_getElem
  · simp [Chain.withForces]
  · intro i h1 h2; simp [Chain.withForces]

theorem sameMotion_of_agree {wr : Bool} {c d : Chain K} {n : ℕ} (h1 : c.link.length = n)
    (h2 : d.link.length = n) (h : ∀ i, i < n → ∃ l3 l4, c.link[i]? = some l3 ∧ d.link[i]? = some l4 ∧
      LTree.Agree wr l3 l4) : SameMotion wr c d := by
  refine ⟨by rw [h1, h2], fun i l m e1 e2 => ?_⟩
  have hi : i < n := by
    rw [← h1]
    by_contra hh
    rw [List.getElem?_eq_none (by omega)] at e1; simp at e1
  obtain ⟨l3, l4, g1, g2, a1, a2, -, -, a5⟩ := h i hi
  rw [e1] at g1; rw [e2] at g2
  cases g1; cases g2
  exact ⟨a1, a2, a5⟩

/-- **C27.**  Take any well-formed chain to which no additional force is attached, in any state.
Run the forward dynamics update on it.  Then attach any forces `W` to the links and call
`rkChainABIUpdateAddExForce`.  The joints and bodies end up exactly as if the complete update had
been run on the first chain with the forces attached from the beginning.  This holds for all joint
types, and for the variants that compute wrenches as well. -/
theorem C27_add_ex_force [Zm K] (c : Chain K) (h : c.WF) (hw : ∀ l ∈ c.link, l.abi.wlist = [])
    (fx wr0 wr : Bool) (W : ℕ → WrenchList K) :
    ∃ c1 c3 c4, c.abiUpdate fx wr0 = some c1 ∧ (c1.withForces W).abiUpdateAddEx fx wr = some c3 ∧
      (c.withForces W).abiUpdate fx wr = some c4 ∧ SameMotion wr c3 c4 := by
  by_cases hs : LinkArray.jointSize c.link = 0
  · refine ⟨c.abiZeroLinkRate, (c.abiZeroLinkRate.withForces W).abiZeroLinkRate,
      (c.withForces W).abiZeroLinkRate, by simp [Chain.abiUpdate, hs], ?_, ?_, ?_⟩
    · rw [Chain.abiUpdateAddEx, if_pos]
      rw [Chain.jointSize_withForces]
      rw [← hs]; exact LinkArray.jointSize_congr (by simp [Chain.abiZeroLinkRate])
    · rw [Chain.abiUpdate, if_pos]
      rw [Chain.jointSize_withForces]; exact hs
    · have key : ∀ d : Chain K, d.abiZeroLinkRate.abiZeroLinkRate = d.abiZeroLinkRate := by
        intro d; simp [Chain.abiZeroLinkRate, Body.zeroRate]
      have e1 : (c.abiZeroLinkRate.withForces W).abiZeroLinkRate = (c.withForces W).abiZeroLinkRate := by
        simp only [Chain.abiZeroLinkRate, Chain.withForces, Chain.mk.injEq, and_true]
        apply List.ext_getElem
        · simp
        · intro i h1 h2; simp [Body.zeroRate]
      rw [e1]
      exact zeroRate_same wr rfl
  · obtain ⟨T, hT⟩ := Chain.gather_exists (ls := c.link) (t := c.shape) fun i hi => h.mem.1 hi
    obtain ⟨ls', e1, g1, n1⟩ := h.abiUpdate fx wr0 hs hT
    have hfree := Chain.update_free h hs hT e1
    have hs2 : LinkArray.jointSize ({ c with link := ls' } : Chain K).link ≠ 0 := by
      rw [Chain.jointSize_update e1]; exact hs
    obtain ⟨c3, c4, e3, e4, n3, n4, hag⟩ := Chain.free_addEx (c1 := c) h (wr := wr) (W := W) hw hs hT hfree hs2
    exact ⟨_, c3, c4, e1, e3, e4, sameMotion_of_agree n3 n4 hag⟩

/-- **C27**, any history.  After the update without forces the caller saves the state with
`rkChainABIPushPrpAccBias`.  Then any number of times they attach forces, update for them and go back
with `rkChainABIPopPrpAccBias`; `Ws` are the forces of these trials.  A last update for the forces
`W` still gives what the complete update with `W` gives: nothing of the trials remains. -/
theorem C27_history [Zm K] (c : Chain K) (h : c.WF) (hw : ∀ l ∈ c.link, l.abi.wlist = [])
    (hs : LinkArray.jointSize c.link ≠ 0) (fx wr0 wr : Bool) (Ws : List (ℕ → WrenchList K))
    (W : ℕ → WrenchList K) :
    ∃ c1 c2 c3 c4, c.abiUpdate fx wr0 = some c1 ∧
      Ws.foldlM (fun d V => ((d.withForces V).abiUpdateAddEx fx wr).map Chain.abiPop) c1.abiPush = some c2 ∧
      (c2.withForces W).abiUpdateAddEx fx wr = some c3 ∧
      (c.withForces W).abiUpdate fx wr = some c4 ∧ SameMotion wr c3 c4 := by
  obtain ⟨T, hT⟩ := Chain.gather_exists (ls := c.link) (t := c.shape) fun i hi => h.mem.1 hi
  obtain ⟨ls', e1, g1, n1⟩ := h.abiUpdate fx wr0 hs hT
  have hfree := Chain.update_free h hs hT e1
  have hs1 : LinkArray.jointSize ({ c with link := ls' } : Chain K).abiPush.link ≠ 0 := by
    rw [← Chain.jointSize_update e1] at hs
    rw [← LinkArray.jointSize_congr (ls := ({ c with link := ls' } : Chain K).link)]
    · exact hs
    · simp [Chain.abiPush]
  have loop : ∀ (Ws : List (ℕ → WrenchList K)) (d : Chain K), d.WF → LinkArray.jointSize d.link ≠ 0 →
      Chain.RelTree (LTree.FreeSaved fx) d c.shape c.link.length ((T.abiInit 0).abiBack fx).1 →
      ∃ d', Ws.foldlM (fun d V => ((d.withForces V).abiUpdateAddEx fx wr).map Chain.abiPop) d = some d' ∧
        LinkArray.jointSize d'.link ≠ 0 ∧
        Chain.RelTree (LTree.FreeSaved fx) d' c.shape c.link.length ((T.abiInit 0).abiBack fx).1 := by
    intro Ws
    induction Ws with
    | nil => intro d _ hd hr; exact ⟨d, rfl, hd, hr⟩
    | cons V Ws ih =>
      intro d hwf hd hr
      obtain ⟨d1, e, hr1, hwf1⟩ := Chain.cycle_saved (W := V) (wr := wr) hwf hd hr
      obtain ⟨d', e', hd', hr'⟩ := ih d1 hwf1 (by rw [Chain.jointSize_cycle e]; exact hd) hr1
      exact ⟨d', by rw [List.foldlM_cons]; simp only [Chain.exCycle] at e; rw [e]; exact e', hd', hr'⟩
  have hwf1 : ({ c with link := ls' } : Chain K).abiPush.WF := h.with_link (by simpa using n1)
  obtain ⟨c2, e2, hs2, hr2⟩ := loop Ws _ hwf1 hs1 (Chain.push_saved hfree)
  obtain ⟨c3, c4, e3, e4, n3, n4, hag⟩ := Chain.free_addEx (c1 := c) h (wr := wr) (W := W) hw hs hT hr2.free hs2
  exact ⟨_, c2, c3, c4, e1, e2, e3, e4, sameMotion_of_agree n3 n4 hag⟩

/-- **C27**, for the update with one or two forces.  `rkChainABIUpdateAddExForceTwo` after the update
of a chain without additional forces gives what the complete update gives when exactly these forces
are attached.  Each force may be absent, and both may act on the same link. -/
theorem C27_two [Zm K] (c : Chain K) (h : c.WF) (hw : ∀ l ∈ c.link, l.abi.wlist = [])
    (hs : LinkArray.jointSize c.link ≠ 0) (fx wr0 : Bool) (a b : Option (ℕ × Wrench K))
    (ha : ∀ j w, a = some (j, w) → j < c.link.length) (hb : ∀ j w, b = some (j, w) → j < c.link.length) :
    ∃ c1 c3 c4, c.abiUpdate fx wr0 = some c1 ∧ c1.abiUpdateAddExTwo fx a b = some c3 ∧
      (c.withForces (forcesTwo a b)).abiUpdate fx false = some c4 ∧ SameMotion false c3 c4 := by
  obtain ⟨T, hT⟩ := Chain.gather_exists (ls := c.link) (t := c.shape) fun i hi => h.mem.1 hi
  obtain ⟨ls', e1, g1, n1⟩ := h.abiUpdate fx wr0 hs hT
  have hfree := Chain.update_free h hs hT e1
  have hs2 : LinkArray.jointSize ({ c with link := ls' } : Chain K).link ≠ 0 := by
    rw [Chain.jointSize_update e1]; exact hs
  have hk := (Chain.abiUpdate_keep (fun l : Link K => l.abi.wlist) (fun _ => rfl) (fun _ _ => rfl)
    (fun _ => rfl) (fun _ _ => rfl) (fun l pa => by rw [Link.abiStep_abi]) e1).1
  have hw2 : ∀ l ∈ ({ c with link := ls' } : Chain K).link, l.abi.wlist = [] := by
    intro l hl
    have : l.abi.wlist ∈ ls'.map fun l : Link K => l.abi.wlist := List.mem_map.2 ⟨l, hl, rfl⟩
    have hk' : ls'.map (fun l : Link K => l.abi.wlist) = c.link.map fun l => l.abi.wlist := hk
    rw [hk'] at this
    obtain ⟨x, hx, e⟩ := List.mem_map.1 this
    rw [← e]; exact hw x hx
  obtain ⟨c3, c4, e3, e4, n3, n4, hag⟩ := Chain.free_two h hw hw2 ha hb hs hT hfree hs2
  exact ⟨_, c3, c4, e1, e3, e4, sameMotion_of_agree n3 n4 hag⟩

/-- A chain of four links with floating, fixed, revolute and hooke joints meets the hypotheses, with
forces on two links. -/
example : (Sample.chain (K := ℚ)).WF ∧ (∀ l ∈ (Sample.chain (K := ℚ)).link, l.abi.wlist = []) ∧
    LinkArray.jointSize (Sample.chain (K := ℚ)).link ≠ 0 ∧ 3 < (Sample.chain (K := ℚ)).link.length ∧
    forcesTwo (some (1, ⟨⟨⟨1, 0, 0⟩, 0⟩, 0⟩)) (some (3, (⟨⟨⟨0, 1, 0⟩, 0⟩, 0⟩ : Wrench ℚ))) 3 ≠ [] := by
  refine ⟨Sample.chain_wf, ?_, by decide, by decide, by simp [forcesTwo]⟩
  intro l hl
  have h2 : l.abi.wlist ∈ (Sample.chain (K := ℚ)).link.map (fun l => l.abi.wlist) :=
    List.mem_map.2 ⟨l, hl, rfl⟩
  have e2 : (Sample.chain (K := ℚ)).link.map (fun l => l.abi.wlist) = [[], [], [], []] := rfl
  rw [e2] at h2
  simpa using h2

/-! ## C28 -/

/-- The calls that may stand between a push and the matching pop. -/
inductive ABICall (K : Type*) where
  | attach (W : ℕ → WrenchList K)
  | update (fx wr : Bool)
  | addEx (fx wr : Bool)
  | addExTwo (fx : Bool) (a b : Option (ℕ × Wrench K))

/-- The effect of a call. -/
def ABICall.run [Zm K] : ABICall K → Chain K → Option (Chain K)
  | attach W, c => some (c.withForces W)
  | update fx wr, c => c.abiUpdate fx wr
  | addEx fx wr, c => c.abiUpdateAddEx fx wr
  | addExTwo fx a b, c => c.abiUpdateAddExTwo fx a b

theorem ABICall.run_saved [Zm K] (q : ABICall K) {c c' : Chain K} (h : q.run c = some c') :
    c'.link.map Link.saved = c.link.map Link.saved := by
  cases q with
  | attach W =>
    cases h
    apply List.ext_getElem
    · simp [Chain.withForces]
    · intro i h1 h2; simp [Chain.withForces, Link.saved]
  | update fx wr =>
    exact (Chain.abiUpdate_keep Link.saved (fun _ => rfl) (fun _ _ => rfl) (fun _ => rfl) (fun _ _ => rfl)
      (fun l pa => by simp only [Link.saved, Link.abiStep_abi]) h).1
  | addEx fx wr =>
    exact (Chain.abiUpdateAddEx_keep Link.saved (fun _ => rfl) (fun _ _ => rfl) Link.abiSubNet_saved
      (fun _ => rfl) (fun _ _ => rfl) (fun l pa => by simp only [Link.saved, Link.abiStep_abi]) h).1
  | addExTwo fx a b =>
    exact (Chain.abiUpdateAddExTwo_keep Link.saved (fun _ => rfl) (fun _ _ => rfl) Link.abiSubNet_saved
      (fun _ => rfl) (fun _ _ => rfl) (fun l pa => by simp only [Link.saved, Link.abiStep_abi])
      (fun _ _ => rfl) h).1

/-- **C28.**  Push, any sequence of updates and changes of the attached forces, pop: the bias and the
acceleration of every link are those at the time of the push. -/
theorem C28_push_pop [Zm K] (c c' : Chain K) (qs : List (ABICall K))
    (h : qs.foldlM (fun d q => q.run d) c.abiPush = some c') :
    c'.abiPop.link.map (fun l => (l.abi.b, l.body.acc)) = c.link.map fun l => (l.abi.b, l.body.acc) := by
  have loop : ∀ (qs : List (ABICall K)) (d d' : Chain K),
      qs.foldlM (fun d q => q.run d) d = some d' → d'.link.map Link.saved = d.link.map Link.saved := by
    intro qs
    induction qs with
    | nil => intro d d' h; cases h; rfl
    | cons q qs ih =>
      intro d d' h
      rw [List.foldlM_cons, Option.bind_eq_bind, Option.bind_eq_some_iff] at h
      obtain ⟨d1, h1, h2⟩ := h
      rw [ih _ _ h2, q.run_saved h1]
  have e := loop qs _ _ h
  have e1 : c'.abiPop.link.map (fun l => (l.abi.b, l.body.acc)) = c'.link.map Link.saved := by
    simp [Chain.abiPop, Link.saved]
  rw [e1, e]
  simp [Chain.abiPush, Link.saved]

/-- **C28**, wrench lists.  `rkChainABIUpdateAddExForceTwo` leaves every wrench list as it was, also
when both forces act on one link and when the lists were not empty. -/
theorem C28_two_wlist (c c' : Chain K) (fx : Bool) (a b : Option (ℕ × Wrench K))
    (h : c.abiUpdateAddExTwo fx a b = some c') :
    c'.link.map (fun l => l.abi.wlist) = c.link.map fun l => l.abi.wlist := by
  simp only [Chain.abiUpdateAddExTwo] at h
  split_ifs at h
  · cases h; simp [Chain.abiZeroLinkRate]
  · simp only [Option.bind_eq_bind, Option.bind_eq_some_iff, Option.pure_def, Option.some.injEq] at h
    obtain ⟨ls1, e1, ls2, e2, ls3, e3, ls4, e4, rfl⟩ := h
    show ls4.map _ = _
    rw [Chain.abiForwardAt_keep (fun l : Link K => l.abi.wlist) (fun l pa => by rw [Link.abiStep_abi]) e4]
    refine Chain.abiPurgeTwo_pushed ?_
    rw [Chain.abiAddExAt_keep (fun l : Link K => l.abi.wlist) Link.abiSubNet_wlist (fun _ => rfl)
      (fun _ _ => rfl) e3, Chain.abiPushOne_wlist e2, Chain.abiPushOne_wlist e1]
    simp [Link.abiSetPath, Function.comp_def]

/-- What the backward pass for additional forces does to a link off the paths. -/
theorem LTree.abiAddEx_off (fx : Bool) (T : LTree (Link K)) :
    T.Rel (fun x y : Link K => y.abi.path = x.abi.path ∧ y.abi.wlist = x.abi.wlist ∧
      y.abi.b0 = x.abi.b0 ∧ y.abi.a0 = x.abi.a0 ∧
      (x.abi.path = false → x.abi.wlist = [] → y.abi.b = x.abi.b)) (T.abiAddEx fx).1 := by
  induction T with
  | nil => trivial
  | node l c s ihc ihs =>
    have hn : ∀ x : Link K, x.abiSubNet.abi.path = x.abi.path ∧ x.abiSubNet.abi.wlist = x.abi.wlist ∧
        x.abiSubNet.abi.b0 = x.abi.b0 ∧ x.abiSubNet.abi.a0 = x.abi.a0 := by
      intro x; rw [Link.abiSubNet]; split_ifs <;> exact ⟨rfl, rfl, rfl, rfl⟩
    simp only [abiAddEx]
    split_ifs with h
    · refine ⟨?_, ihc, ihs⟩
      obtain ⟨h1, h2, h3, h4⟩ := hn l.abiResetB
      exact ⟨h1, h2, h3, h4, fun hf => by rw [h] at hf; cases hf⟩
    · refine ⟨?_, Rel.refl (fun _ => ⟨rfl, rfl, rfl, rfl, fun _ _ => rfl⟩) c, ihs⟩
      obtain ⟨h1, h2, h3, h4⟩ := hn l
      exact ⟨h1, h2, h3, h4, fun _ hw => by rw [Link.abiSubNet, if_pos hw]⟩

theorem getElem?_of_map_eq {α β : Type*} {f : α → β} {xs ys : List α} (h : xs.map f = ys.map f) {i : ℕ}
    {x : α} (hx : xs[i]? = some x) : ∃ y, ys[i]? = some y ∧ f x = f y := by
  have e := congrArg (fun L => L[i]?) h
  simp only [List.getElem?_map, hx, Option.map_some] at e
  cases hy : ys[i]? with
  | none => rw [hy] at e; simp at e
  | some y => rw [hy] at e; exact ⟨y, rfl, by simpa using e⟩

/-- **C28**, the restricted pop.  `rkChainABIPopPrpAccBiasAddExForceTwo`, which restores fewer biases,
is enough after `rkChainABIUpdateAddExForceTwo` on the same links when no force is attached
elsewhere. -/
theorem C28_pop_two (c c2 c3 : Chain K) (h : c.WF) (fx : Bool) (a b : Option (ℕ × Wrench K))
    (hw : ∀ (i : ℕ) (l : Link K), c.link[i]? = some l → a.map Prod.fst ≠ some i → b.map Prod.fst ≠ some i →
      l.abi.wlist = [])
    (e2 : c.abiPush.abiUpdateAddExTwo fx a b = some c2)
    (e3 : c2.abiPopTwo (a.map Prod.fst) (b.map Prod.fst) = some c3) :
    ∀ (i : ℕ) (l l3 : Link K), c.link[i]? = some l → c3.link[i]? = some l3 →
      l3.abi.b = l.abi.b ∧ l3.body.acc = l.body.acc := by
  -- the state before the pop
  have key : ∀ (i : ℕ) (l2 : Link K), c2.link[i]? = some l2 → ∃ l, c.link[i]? = some l ∧
      l2.abi.b0 = l.abi.b ∧ l2.abi.a0 = l.body.acc ∧
      (a.map Prod.fst ≠ some i → b.map Prod.fst ≠ some i → l2.abi.path = false → l2.abi.b = l.abi.b) := by
    simp only [Chain.abiUpdateAddExTwo] at e2
    split_ifs at e2
    · cases e2
      intro i l2 hl
      simp only [Chain.abiZeroLinkRate, Chain.abiPush, List.getElem?_map, Option.map_map,
        Option.map_eq_some_iff] at hl
      obtain ⟨l, hl, rfl⟩ := hl
      exact ⟨l, hl, rfl, rfl, fun _ _ _ => rfl⟩
    · simp only [Option.bind_eq_bind, Option.bind_eq_some_iff, Option.pure_def, Option.some.injEq] at e2
      obtain ⟨ls1, p1, ls2, p2, ls3, p3, ls4, p4, rfl⟩ := e2
      have hwf : ∀ {ls : List (Link K)}, ls.length = c.link.length → ∃ B, Chain.gather ls c.shape = some B :=
        fun hl => Chain.gather_exists fun i hi => by rw [hl]; exact h.mem.1 hi
      -- pushes
      have kb : ls2.map (fun l => (l.abi.b, l.abi.b0, l.abi.a0)) =
          c.link.map fun l => (l.abi.b, l.abi.b, l.body.acc) := by
        rw [Chain.abiPushOne_keep (fun l : Link K => (l.abi.b, l.abi.b0, l.abi.a0)) (fun _ _ => rfl)
          (fun _ _ => rfl) p2, Chain.abiPushOne_keep (fun l : Link K => (l.abi.b, l.abi.b0, l.abi.a0))
          (fun _ _ => rfl) (fun _ _ => rfl) p1]
        simp [Chain.abiPush, Link.abiSetPath]
      have kw : ls2.map (fun l => l.abi.wlist) =
          Chain.pushed b (Chain.pushed a (c.link.map fun l => l.abi.wlist)) := by
        rw [Chain.abiPushOne_wlist p2, Chain.abiPushOne_wlist p1]
        simp [Chain.abiPush, Link.abiSetPath, Function.comp_def]
      have n2 : ls2.length = c.link.length := by simpa using congrArg List.length kb
      obtain ⟨B2, hB2⟩ := hwf n2
      obtain ⟨ls3', q3, g3, n3, -⟩ := Chain.abiAddExAt_refines fx c.shape none ls2 B2 h.nodup hB2 (by simp)
      have p3' : Chain.abiAddExAt fx none c.shape ls2 = some ls3 := p3
      rw [p3'] at q3
      cases q3
      have hr := Chain.gather_rel hB2 g3 (LTree.abiAddEx_off fx B2)
      have k4 : ls4.map (fun l => (l.abi.b, l.abi.b0, l.abi.a0, l.abi.path)) =
          ls3.map fun l => (l.abi.b, l.abi.b0, l.abi.a0, l.abi.path) := by
        rw [Chain.abiForwardAt_keep (fun l : Link K => (l.abi.b, l.abi.b0, l.abi.a0, l.abi.path))
          (fun l pa => by simp only [Link.abiStep_abi]) p4]
        exact Chain.abiPurgeTwo_keep _ (fun _ _ => rfl) _ _ _
      intro i l2 hl
      obtain ⟨l3, hl3, e4⟩ := getElem?_of_map_eq k4 hl
      have hi : i < c.link.length := by
        rw [← n2, ← n3]
        by_contra hh
        rw [List.getElem?_eq_none (by omega)] at hl3; simp at hl3
      obtain ⟨x, y, hx, hy, r1, r2, r3, r4, r5⟩ := hr i (h.mem.2 hi)
      rw [hl3] at hy
      cases hy
      have hxb := congrArg (fun L => L[i]?) kb
      have hxw := congrArg (fun L => L[i]?) kw
      obtain ⟨l, hl0⟩ : ∃ l, c.link[i]? = some l := ⟨c.link[i], by simp [hi]⟩
      simp only [List.getElem?_map, hx, hl0, Option.map_some, Option.some.injEq, Prod.mk.injEq] at hxb hxw e4
      refine ⟨l, hl0, ?_, ?_, ?_⟩
      · rw [e4.2.1, r3, hxb.2.1]
      · rw [e4.2.2.1, r4, hxb.2.2]
      · intro na nb hp
        rw [e4.1, r5, hxb.1]
        · rw [← r1, ← e4.2.2.2]; exact hp
        · have w0 := hw i l hl0 na nb
          have : some x.abi.wlist = some l.abi.wlist := by
            rw [hxw]
            have hm : ∀ (q : Option (ℕ × Wrench K)) (ws : List (WrenchList K)), q.map Prod.fst ≠ some i →
                (Chain.pushed q ws)[i]? = ws[i]? := by
              intro q ws hq
              rcases q with _ | ⟨j, w⟩
              · rfl
              · have hj : ¬ j = i := fun e => hq (by simp [e])
                simp [Chain.pushed, hj]
            rw [hm b _ nb, hm a _ na]
            simp [hl0]
          rw [Option.some.inj this]; exact w0
  -- the pop
  simp only [Chain.abiPopTwo, Option.bind_eq_bind, Option.bind_eq_some_iff, Option.pure_def,
    Option.some.injEq] at e3
  obtain ⟨ls1, q1, ls2, q2, rfl⟩ := e3
  have popB : ∀ {ls ls' : List (Link K)} {q : Option ℕ}, Chain.abiPopB ls q = some ls' →
      ∀ (i : ℕ) (x : Link K), ls'[i]? = some x → ∃ y, ls[i]? = some y ∧ x.abi.b0 = y.abi.b0 ∧
        x.abi.a0 = y.abi.a0 ∧ x.abi.path = y.abi.path ∧
        x.abi.b = if q = some i then y.abi.b0 else y.abi.b := by
    intro ls ls' q hq i x hx
    cases q with
    | none => cases hq; exact ⟨x, hx, rfl, rfl, rfl, by simp⟩
    | some j =>
      simp only [Chain.abiPopB] at hq
      split at hq
      · rename_i y hy
        cases hq
        by_cases hij : j = i
        · subst hij
          rw [List.getElem?_set_self (by
            by_contra hh
            rw [List.getElem?_eq_none (by omega)] at hy; simp at hy)] at hx
          cases hx
          exact ⟨y, hy, rfl, rfl, rfl, by simp⟩
        · rw [List.getElem?_set_ne hij] at hx
          exact ⟨x, hx, rfl, rfl, rfl, by simp [hij]⟩
      · simp at hq
  intro i l l3 hl hl3
  simp only [List.getElem?_map, Option.map_eq_some_iff] at hl3
  obtain ⟨x, hx, rfl⟩ := hl3
  obtain ⟨y, hy, a1, a2, a3, a4⟩ := popB q2 i x hx
  obtain ⟨z, hz, b1, b2, b3, b4⟩ := popB q1 i y hy
  obtain ⟨l', hl', c1, d1, f1⟩ := key i z hz
  rw [hl] at hl'
  cases hl'
  refine ⟨?_, by show x.abi.a0 = _; rw [a2, b2, d1]⟩
  show (if x.abi.path = true then x.abi.b0 else x.abi.b) = l.abi.b
  by_cases hp : x.abi.path = true
  · rw [if_pos hp, a1, b1, c1]
  · rw [if_neg hp, a4]
    split_ifs with hb'
    · rw [b1, c1]
    · rw [b4]
      split_ifs with ha'
      · exact c1
      · exact f1 ha' hb' (by rw [← b3, ← a3]; simpa using hp)

theorem Sample.chain_noforce (l : Link K) (hl : l ∈ (Sample.chain (K := K)).link) : l.abi.wlist = [] := by
  have h2 : l.abi.wlist ∈ (Sample.chain (K := K)).link.map (fun l => l.abi.wlist) :=
    List.mem_map.2 ⟨l, hl, rfl⟩
  have e2 : (Sample.chain (K := K)).link.map (fun l => l.abi.wlist) = [[], [], [], []] := rfl
  rw [e2] at h2
  simpa using h2

/-- The calls of C28 succeed on the sample chain, from a state reached by an update. -/
example [Zm K] (w : Wrench K) : ∃ c c1 c2 : Chain K, (Sample.chain (K := K)).abiUpdate false false = some c ∧
    c.abiUpdateAddExTwo false (some (1, w)) (some (3, w)) = some c1 ∧
    [ABICall.attach fun i => if i = 3 then [w] else [], ABICall.addEx false true].foldlM
      (fun d q => q.run d) c = some c2 := by
  obtain ⟨c, c1, -, e1, e2, -⟩ := C27_two (Sample.chain (K := K)) Sample.chain_wf Sample.chain_noforce
    (by simp [LinkArray.jointSize, Sample.chain, Sample.links, LinkArray.setOffset,
      LinkArray.setOffsetFrom, Sample.link, Link.size, Prp.size]) false false (some (1, w)) (some (3, w))
    (by rintro j v ⟨⟩; simp [Sample.chain, LinkArray.setOffset, LinkArray.setOffsetFrom, Sample.links, Sample.link, Link.size, Prp.size])
    (by rintro j v ⟨⟩; simp [Sample.chain, LinkArray.setOffset, LinkArray.setOffsetFrom, Sample.links, Sample.link, Link.size, Prp.size])
  obtain ⟨c', c2, -, e3, e4, -⟩ := C27_add_ex_force (Sample.chain (K := K)) Sample.chain_wf
    Sample.chain_noforce false false true (fun i => if i = 3 then [w] else [])
  rw [e1] at e3
  cases e3
  exact ⟨c, c1, c2, e1, e2, by simp [ABICall.run, e4]⟩

end Roki
