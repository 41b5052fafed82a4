import Verif.Lemmas.History2
set_option autoImplicit false

/-! # C113: no history of operations depends on the numbering of the links -/

namespace Roki
set_option linter.unusedSectionVars false
open Spec LinkArray
variable {K : Type*}

theorem Spec.SameLink.mk_eq {x y : Link K} (h : SameLink x y) : y = { x with name := y.name, offset := y.offset } := by
  obtain ⟨n, j, b, o, og, ad, ab⟩ := x
  obtain ⟨n', j', b', o', og', ad', ab'⟩ := y
  obtain ⟨h1, h2, h3, h4, h5⟩ := h
  simp only at h1 h2 h3 h4 h5
  rw [h1, h2, h3, h4, h5]

/-- The two descriptions after the same history. -/
structure Rel (σ : ℕ → ℕ) (c0 d0 c d : Chain K) : Prop where
  shape : c.shape = c0.shape
  shape' : d.shape = d0.shape
  twins : Twins σ c0 d0 c.link d.link
  mass : d.mass = c.mass
  wldCOM : d.wldCOM = c.wldCOM
  comVel : d.comVel = c.comVel
  comAcc : d.comAcc = c.comAcc

namespace Rel
variable {σ : ℕ → ℕ} {c0 d0 c d : Chain K}

theorem wf (b : Twofold σ c0 d0) (h : Rel σ c0 d0 c d) : c.WF :=
  ⟨by rw [h.shape]; exact b.wf.root, by rw [h.shape, h.twins.len]; exact b.wf.perm⟩
theorem wf' (b : Twofold σ c0 d0) (h : Rel σ c0 d0 c d) : d.WF :=
  ⟨by rw [h.shape']; exact b.wf'.root, by rw [h.shape', h.twins.len']; exact b.wf'.perm⟩

theorem with_links (h : Rel σ c0 d0 c d) {ls ms : List (Link K)} (t : Twins σ c0 d0 ls ms) :
    Rel σ c0 d0 { c with link := ls } { d with link := ms } :=
  ⟨h.shape, h.shape', t, h.mass, h.wldCOM, h.comVel, h.comAcc⟩

variable [Field K]

theorem sum {M : Type*} [AddCommMonoid M] (b : Twofold σ c0 d0) {ls ms : List (Link K)} (t : Twins σ c0 d0 ls ms) {f : Link K → M}
    (hf : ∀ x y, SameLink x y → f y = f x) : (ms.map f).sum = (ls.map f).sum := by
  refine renumbered_sum ?_ (fun i hi => ?_) (fun i j hi hj => ?_) (fun i x y hx hy => hf x y (t.same i x y hx hy)) (σ := σ)
  · rw [t.len, t.len', b.len]
  · rw [t.len] at hi ⊢; exact b.lt i hi
  · rw [t.len] at hi hj; exact b.inj i j hi hj

theorem com (b : Twofold σ c0 d0) {ls ms : List (Link K)} (t : Twins σ c0 d0 ls ms) (m : K) :
    LinkArray.calcMass ms = LinkArray.calcMass ls ∧ LinkArray.calcCOM m ms = LinkArray.calcCOM m ls ∧
    LinkArray.calcCOMVel m ms = LinkArray.calcCOMVel m ls ∧ LinkArray.calcCOMAcc m ms = LinkArray.calcCOMAcc m ls := by
  refine ⟨?_, ?_, ?_, ?_⟩
  · simp only [LinkArray.calcMass, foldl_add_eq, zero_add]
    exact sum b t fun x y h => by rw [h.body]
  · simp only [LinkArray.calcCOM, cat, foldl_add_eq, zero_add]
    congr 1
    exact sum b t fun x y h => by rw [h.body]
  · simp only [LinkArray.calcCOMVel, cat, foldl_add_eq, zero_add]
    exact sum b t fun x y h => by rw [h.body]
  · simp only [LinkArray.calcCOMAcc, cat, foldl_add_eq, zero_add]
    exact sum b t fun x y h => by rw [h.body]

theorem size (b : Twofold σ c0 d0) (h : Rel σ c0 d0 c d) : jointSize d.link = jointSize c.link := by
  rw [jointSize_eq, jointSize_eq]
  exact sum b h.twins fun x y h => by simp only [Link.size, h.joint]

/-- A pass from the root to the leaves, on both descriptions. -/
theorem downAt {St : Type*} (b : Twofold σ c0 d0) (h : Rel σ c0 d0 c d) {f : St → Link K → Link K} {g : Link K → St} (v : St)
    (hf : ∀ v x y, SameLink x y → SameLink (f v x) (f v y)) (hg : ∀ x y, SameLink x y → g y = g x)
    (hk : ∀ v l, (f v l).place = l.place) :
    ∃ ls ms, Chain.downAt f g none c.shape v c.link = some ls ∧ Chain.downAt f g none d.shape v d.link = some ms ∧
      Twins σ c0 d0 ls ms := by
  obtain ⟨ls, A, h1, e, h2, n⟩ := (h.wf b).downAt f g v
  obtain ⟨ms, B, h3, e', h4, n'⟩ := (h.wf' b).downAt f g v
  rw [h.shape] at h1 h2
  rw [h.shape'] at h3 h4
  exact ⟨ls, ms, e, e', h.twins.down b hf hg hk h1 h2 h3 h4 n n'⟩

theorem updateFK (b : Twofold σ c0 d0) (h : Rel σ c0 d0 c d) :
    ∃ c' d', c.updateFK = some c' ∧ d.updateFK = some d' ∧ Rel σ c0 d0 c' d' := by
  obtain ⟨ls, ms, e, e', t⟩ := h.downAt b (f := fun pwf l => l.updateFrame1 pwf) (g := fun l => l.body.frame) Frame.ident
    (fun v x y h => by rw [h.mk_eq]; exact ⟨rfl, rfl, rfl, rfl, rfl⟩) (fun x y h => by rw [h.body]) (fun _ _ => rfl)
  refine ⟨{ c with link := ls, wldCOM := LinkArray.calcCOM c.mass ls }, { d with link := ms, wldCOM := LinkArray.calcCOM d.mass ms },
    by simp only [Chain.updateFK, Chain.updateFrame, Chain.updateFrameAt, e, Option.map_some, Chain.calcCOM],
    by simp only [Chain.updateFK, Chain.updateFrame, Chain.updateFrameAt, e', Option.map_some, Chain.calcCOM],
    ⟨h.shape, h.shape', t, h.mass, ?_, h.comVel, h.comAcc⟩⟩
  simp only [h.mass, (com b t c.mass).2.1]

theorem updateVel (b : Twofold σ c0 d0) (h : Rel σ c0 d0 c d) :
    ∃ c' d', c.updateVel = some c' ∧ d.updateVel = some d' ∧ Rel σ c0 d0 c' d' := by
  obtain ⟨ls, ms, e, e', t⟩ := h.downAt b (f := fun pv l => l.updateVel1 pv) (g := fun l => l.body.vel) 0
    (fun v x y h => by rw [h.mk_eq]; exact ⟨rfl, rfl, rfl, rfl, rfl⟩) (fun x y h => by rw [h.body]) (fun _ _ => rfl)
  exact ⟨_, _, by simp only [Chain.updateVel, Chain.updateVelAt, e, Option.map_some],
    by simp only [Chain.updateVel, Chain.updateVelAt, e', Option.map_some], h.with_links t⟩

theorem updateID (b : Twofold σ c0 d0) (h : Rel σ c0 d0 c d) (g : Vec6 K) :
    ∃ c' d', c.updateID g = some c' ∧ d.updateID g = some d' ∧ Rel σ c0 d0 c' d' := by
  obtain ⟨ls, ms, e, e', t⟩ := h.downAt b (f := fun st l => l.updateRate1 st.1 st.2) (g := fun l => (l.body.vel, l.body.acc)) (0, g)
    (fun v x y h => by rw [h.mk_eq]; exact ⟨rfl, rfl, rfl, rfl, rfl⟩) (fun x y h => by rw [h.body]) (fun _ _ => rfl)
  have r := h.with_links t
  obtain ⟨ls2, A, h1, e2, h2, n⟩ := (r.wf b).updateWrenchAt
  obtain ⟨ms2, B, h3, e2', h4, n'⟩ := (r.wf' b).updateWrenchAt
  rw [r.shape] at h1 h2
  rw [r.shape'] at h3 h4
  have t2 : Twins σ c0 d0 ls2 ms2 := by
    have ea := congrArg Prod.fst (updateWrench_up A)
    have eb := congrArg Prod.fst (updateWrench_up B)
    simp only at ea eb
    rw [← ea] at h2
    rw [← eb] at h4
    refine t.up b (fun x y w => add_left_comm x y w) (fun _ _ _ => rfl) ?_ (fun _ _ h => h) ?_ ?_ (fun _ => rfl) h1 h2 h3 h4 n n'
    · intro m x y h
      rw [h.mk_eq]; exact ⟨rfl, rfl, rfl, rfl, rfl⟩
    · intro x y h
      simp only [h.adj, h.joint]
    · intro l m
      simp only [Link.place, (axes_calcTrq l.joint.prp _).1]
  refine ⟨({ c with link := ls2 } : Chain K).calcCOMVel.calcCOMAcc, ({ d with link := ms2 } : Chain K).calcCOMVel.calcCOMAcc, ?_, ?_, ?_⟩
  · simp only [Chain.updateID, Chain.updateRate, Chain.updateRateAt, e, Option.map_some, Chain.updateWrench, Option.bind_eq_bind,
      Option.bind_some, Option.pure_def]
    rw [show Chain.updateWrenchAt c.shape ls = some ls2 from e2]; rfl
  · simp only [Chain.updateID, Chain.updateRate, Chain.updateRateAt, e', Option.map_some, Chain.updateWrench, Option.bind_eq_bind,
      Option.bind_some, Option.pure_def]
    rw [show Chain.updateWrenchAt d.shape ms = some ms2 from e2']; rfl
  · refine ⟨h.shape, h.shape', t2, h.mass, h.wldCOM, ?_, ?_⟩
    · simp only [Chain.calcCOMVel, Chain.calcCOMAcc, h.mass, (com b t2 c.mass).2.2.1]
    · simp only [Chain.calcCOMVel, Chain.calcCOMAcc, h.mass, (com b t2 c.mass).2.2.2]

theorem calcMass (b : Twofold σ c0 d0) (h : Rel σ c0 d0 c d) : Rel σ c0 d0 c.calcMass d.calcMass :=
  ⟨h.shape, h.shape', h.twins, (com b h.twins c.mass).1, h.wldCOM, h.comVel, h.comAcc⟩

theorem zeroRate (h : Rel σ c0 d0 c d) : Rel σ c0 d0 c.abiZeroLinkRate d.abiZeroLinkRate :=
  h.with_links (h.twins.map (fun x y h => by rw [h.mk_eq]; exact ⟨rfl, rfl, rfl, rfl, rfl⟩) (fun _ => rfl))

theorem step_same (fx wr : Bool) (v : Vec6 K) (x y : Link K) (h : SameLink x y) :
    SameLink (LTree.abiStep fx wr v x) (LTree.abiStep fx wr v y) := by
  rw [h.mk_eq]
  unfold LTree.abiStep
  split <;> exact ⟨rfl, rfl, rfl, rfl, rfl⟩

theorem step_place (fx wr : Bool) (v : Vec6 K) (l : Link K) : (LTree.abiStep fx wr v l).place = l.place := by
  have := Chain.step_size fx wr l v
  simp only [Link.place, this, Prod.mk.injEq, and_true]
  unfold LTree.abiStep
  split <;> rfl

theorem abiUpdate [LinearOrder K] [Zm K] (b : Twofold σ c0 d0) (h : Rel σ c0 d0 c d) (fx wr : Bool) :
    ∃ c' d', c.abiUpdate fx wr = some c' ∧ d.abiUpdate fx wr = some d' ∧ Rel σ c0 d0 c' d' := by
  by_cases hs : jointSize c.link = 0
  · exact ⟨_, _, by rw [Chain.abiUpdate, if_pos hs], by rw [Chain.abiUpdate, if_pos (by rw [h.size b, hs])], h.zeroRate⟩
  have hs' : jointSize d.link ≠ 0 := by rw [h.size b]; exact hs
  obtain ⟨A, hA⟩ := Chain.gather_exists (ls := c.link) (t := c.shape) fun i hi => (h.wf b).mem.1 hi
  obtain ⟨B, hB⟩ := Chain.gather_exists (ls := d.link) (t := d.shape) fun i hi => (h.wf' b).mem.1 hi
  obtain ⟨ls1, e1, g1, n1⟩ := (h.wf b).abiInitAt hA
  obtain ⟨ls2, e2, g2, n2, -⟩ := Chain.abiBackwardAt_refines fx c.shape none ls1 _ (h.wf b).nodup g1 (by simp)
  obtain ⟨ls3, e3, g3, n3, -⟩ := Chain.abiForwardAt_refines fx wr c.shape 0 ls2 _ (h.wf b).nodup g2
  obtain ⟨ms1, e1', g1', n1'⟩ := (h.wf' b).abiInitAt hB
  obtain ⟨ms2, e2', g2', n2', -⟩ := Chain.abiBackwardAt_refines fx d.shape none ms1 _ (h.wf' b).nodup g1' (by simp)
  obtain ⟨ms3, e3', g3', n3', -⟩ := Chain.abiForwardAt_refines fx wr d.shape 0 ms2 _ (h.wf' b).nodup g2'
  refine ⟨{ c with link := ls3 }, { d with link := ms3 }, by simp [Chain.abiUpdate, hs, e1, e2, e3],
    by simp [Chain.abiUpdate, hs', e1', e2', e3'], h.with_links ?_⟩
  rw [h.shape] at hA g1 g2 g3
  rw [h.shape'] at hB g1' g2' g3'
  have t1 : Twins σ c0 d0 ls1 ms1 := h.twins.down b (f := fun v l => l.abiUpdateInit v) (g := fun l => l.body.vel)
    (fun v x y h => by rw [h.mk_eq]; exact ⟨rfl, rfl, rfl, rfl, rfl⟩) (fun x y h => by rw [h.body]) (fun _ _ => rfl) hA g1 hB g1' n1 (by omega)
  have t2 : Twins σ c0 d0 ls2 ms2 := by
    rw [← abiBack_up] at g2 g2'
    refine t1.up b (fun x y w => add_left_comm x y w) (fun _ _ _ => rfl) ?_ (fun _ _ h => h) ?_ ?_ (fun _ => rfl) g1 g2 g1' g2' n2 n2'
    · intro m x y h
      rw [h.mk_eq]; exact ⟨rfl, rfl, rfl, rfl, rfl⟩
    · intro x y h
      rw [h.mk_eq]; rfl
    · intro l m
      simp only [Link.place, Link.abiAdd, Link.abiBackward, Prp.abiDrivingTorque_size]
  exact t2.down b (f := LTree.abiStep fx wr) (g := fun l => l.body.acc) (step_same fx wr) (fun x y h => by rw [h.body]) (step_place fx wr) g2 g3 g2' g3' n3 n3'

theorem addForces (b : Twofold σ c0 d0) (h : Rel σ c0 d0 c d) (fx wr : Bool) :
    ∃ c' d', c.abiUpdateAddEx fx wr = some c' ∧ d.abiUpdateAddEx fx wr = some d' ∧ Rel σ c0 d0 c' d' := by
  by_cases hs : jointSize c.link = 0
  · exact ⟨_, _, by rw [Chain.abiUpdateAddEx, if_pos hs], by rw [Chain.abiUpdateAddEx, if_pos (by rw [h.size b, hs])], h.zeroRate⟩
  have hs' : jointSize d.link ≠ 0 := by rw [h.size b]; exact hs
  obtain ⟨A, hA⟩ := Chain.gather_exists (ls := c.link) (t := c.shape) fun i hi => (h.wf b).mem.1 hi
  obtain ⟨B, hB⟩ := Chain.gather_exists (ls := d.link) (t := d.shape) fun i hi => (h.wf' b).mem.1 hi
  have g0 := Chain.gather_map_links (fun l : Link K => l.abiSetPath false) hA
  have g0' := Chain.gather_map_links (fun l : Link K => l.abiSetPath false) hB
  obtain ⟨ls1, e1, g1, n1, -⟩ := Chain.abiFindPathAt_refines c.shape none _ _ (h.wf b).nodup g0 (by simp)
  obtain ⟨ls2, e2, g2, n2, -⟩ := Chain.abiAddExAt_refines fx c.shape none ls1 _ (h.wf b).nodup g1 (by simp)
  obtain ⟨ls3, e3, g3, n3, -⟩ := Chain.abiForwardAt_refines fx wr c.shape 0 ls2 _ (h.wf b).nodup g2
  obtain ⟨ms1, e1', g1', n1', -⟩ := Chain.abiFindPathAt_refines d.shape none _ _ (h.wf' b).nodup g0' (by simp)
  obtain ⟨ms2, e2', g2', n2', -⟩ := Chain.abiAddExAt_refines fx d.shape none ms1 _ (h.wf' b).nodup g1' (by simp)
  obtain ⟨ms3, e3', g3', n3', -⟩ := Chain.abiForwardAt_refines fx wr d.shape 0 ms2 _ (h.wf' b).nodup g2'
  refine ⟨{ c with link := ls3 }, { d with link := ms3 }, by simp [Chain.abiUpdateAddEx, Chain.abiBackwardAddEx, hs, e1, e2, e3],
    by simp [Chain.abiUpdateAddEx, Chain.abiBackwardAddEx, hs', e1', e2', e3'], h.with_links ?_⟩
  rw [h.shape] at g0 g1 g2 g3
  rw [h.shape'] at g0' g1' g2' g3'
  have t0 : Twins σ c0 d0 _ _ := h.twins.map (f := fun l : Link K => l.abiSetPath false)
    (fun x y h => by rw [h.mk_eq]; exact ⟨rfl, rfl, rfl, rfl, rfl⟩) (fun _ => rfl)
  have t1 : Twins σ c0 d0 ls1 ms1 := by
    rw [← abiFindPath_up] at g1 g1'
    refine t0.up b (fun x y w => Bool.or_left_comm x y w) (fun _ _ _ => rfl) ?_ (fun _ _ h => h) ?_ ?_ (fun _ => rfl) g0 g1 g0' g1' n1 n1'
    · intro m x y h
      rw [h.mk_eq]; cases m <;> exact ⟨rfl, rfl, rfl, rfl, rfl⟩
    · intro x y h
      rw [h.abi]
    · intro l m
      cases m <;> rfl
  have sub : ∀ x y : Link K, SameLink x y → SameLink x.abiSubNet y.abiSubNet := by
    intro x y h
    rw [h.mk_eq]; unfold Link.abiSubNet; split <;> exact ⟨rfl, rfl, rfl, rfl, rfl⟩
  have subp : ∀ l : Link K, l.abiSubNet.place = l.place := by
    intro l; unfold Link.abiSubNet; split <;> rfl
  have t2 : Twins σ c0 d0 ls2 ms2 := by
    rw [← abiAddEx_up] at g2 g2'
    refine t1.up b (fun x y w => add_left_comm x y w) ?_ ?_ sub ?_ ?_ subp g1 g2 g1' g2' n2 n2'
    · intro x y h; rw [h.abi]
    · intro m x y h
      have h1 : SameLink x.abiResetB y.abiResetB := by rw [h.mk_eq]; exact ⟨rfl, rfl, rfl, rfl, rfl⟩
      have h2 := sub _ _ h1
      rw [h2.mk_eq]; exact ⟨rfl, rfl, rfl, rfl, rfl⟩
    · intro x y h
      rw [h.mk_eq]; rfl
    · intro l m
      exact (subp l.abiResetB).trans rfl
  exact t2.down b (f := LTree.abiStep fx wr) (g := fun l => l.body.acc) (step_same fx wr) (fun x y h => by rw [h.body]) (step_place fx wr) g2 g3 g2' g3' n3 n3'

section
variable [LinearOrder K] [Zm K]

/-- `Prp.setDisCNT` reads as many values as the joint has. -/
theorem isSetter_CNT (dt : K) : IsSetter (K := K) (fun p v => p.setDisCNT v dt) (fun _ => []) (fun _ _ => []) where
  ok p buf h := by
    cases p <;> rcases buf with _ | ⟨a, _ | ⟨b, _ | ⟨c, _ | ⟨d, _ | ⟨e, _ | ⟨f, buf⟩⟩⟩⟩⟩⟩ <;>
      first | exact ⟨_, rfl⟩ | (simp [Prp.size] at h)
  size p buf p' h := setDisCNT_size dt p buf p' h
  local_ p buf buf' h e := by
    cases p <;> rcases buf with _ | ⟨a, _ | ⟨b, _ | ⟨c, _ | ⟨d, _ | ⟨e, _ | ⟨f, buf⟩⟩⟩⟩⟩⟩ <;>
      rcases buf' with _ | ⟨a', _ | ⟨b', _ | ⟨c', _ | ⟨d', _ | ⟨e', _ | ⟨f', buf'⟩⟩⟩⟩⟩⟩ <;>
      simp_all [Prp.size, Prp.setDisCNT, Vec3.ofBuf, Vec6.ofBuf]
  got p buf p' h := rfl

theorem set0 {set : Prp K → List K → Option (Prp K)} {get : Prp K → List K} {stored : Prp K → List K → List K}
    (hset : IsSetter set get stored) : IsSetter set (fun _ => []) (fun _ _ => []) :=
  ⟨hset.ok, hset.size, hset.local_, fun _ _ _ _ => rfl⟩

theorem setAll {set : Prp K → List K → Option (Prp K)} {get : Prp K → List K} {stored : Prp K → List K → List K}
    (hset : IsSetter set get stored) (b : Twofold σ c0 d0) (h : Rel σ c0 d0 c d) {v w : List K}
    (hv : v.length = jointSize c0.link) (hw : w.length = jointSize d0.link) (sv : SameValues σ c0 d0 v w) :
    ∃ c' d', (setJointAll set v c.link).map (fun ls => { c with link := ls }) = some c' ∧
      (setJointAll set w d.link).map (fun ls => { d with link := ls }) = some d' ∧ Rel σ c0 d0 c' d' := by
  obtain ⟨ls, ms, e, e', t⟩ := h.twins.setAll (set0 hset) (fun _ _ => ⟨rfl, rfl⟩) b hv hw sv
  exact ⟨_, _, by rw [e]; rfl, by rw [e']; rfl, h.with_links t⟩

theorem modify (b : Twofold σ c0 d0) (h : Rel σ c0 d0 c d) {f : Link K → Link K} (hf : ∀ x y, SameLink x y → SameLink (f x) (f y))
    (hk : ∀ l, (f l).place = l.place) {i : ℕ} (hi : i < c0.link.length) :
    ∃ c' d', (if i < c.link.length then some { c with link := c.link.modify i f } else none) = some c' ∧
      (if σ i < d.link.length then some { d with link := d.link.modify (σ i) f } else none) = some d' ∧ Rel σ c0 d0 c' d' :=
  ⟨_, _, if_pos (by rw [h.twins.len]; exact hi), if_pos (by rw [h.twins.len', b.len]; exact b.lt i hi),
    h.with_links (h.twins.modify b hf hk hi)⟩

/-- One action. -/
theorem act (b : Twofold σ c0 d0) (h : Rel σ c0 d0 c d) {a a' : Act K} (ha : SameAct σ c0 d0 a a') :
    ∃ c' d', a.run c = some c' ∧ a'.run d = some d' ∧ Rel σ c0 d0 c' d' := by
  cases ha with
  | setDis h1 h2 h3 => exact h.setAll isSetter_dis b h1 h2 h3
  | setVel h1 h2 h3 => exact h.setAll isSetter_vel b h1 h2 h3
  | setDisCNT dt h1 h2 h3 => exact h.setAll (isSetter_CNT dt) b h1 h2 h3
  | setRate h1 h2 h3 h4 h5 h6 =>
    obtain ⟨c1, d1, e, e', r⟩ := h.setAll isSetter_vel b h1 h2 h3
    obtain ⟨ls, e1, rfl⟩ := Option.map_eq_some_iff.1 e
    obtain ⟨ms, e1', rfl⟩ := Option.map_eq_some_iff.1 e'
    obtain ⟨c2, d2, e2, e2', r2⟩ := r.setAll isSetter_acc b h4 h5 h6
    refine ⟨c2, d2, ?_, ?_, r2⟩
    · rw [Act.run, setJointRateAll_eq, e1, Option.bind_some]; exact e2
    · rw [Act.run, setJointRateAll_eq, e1', Option.bind_some]; exact e2'
  | updateFK => exact h.updateFK b
  | updateVel => exact h.updateVel b
  | updateID g => exact h.updateID b g
  | calcMass => exact ⟨_, _, rfl, rfl, h.calcMass b⟩
  | push w hi =>
    exact h.modify b (f := fun l => { l with body := { l.body with extw := l.body.extw.push w } })
      (fun x y h => by rw [h.mk_eq]; exact ⟨rfl, rfl, rfl, rfl, rfl⟩) (fun _ => rfl) hi
  | clear =>
    exact ⟨_, _, rfl, rfl, h.with_links (h.twins.map (f := fun l : Link K => { l with body := { l.body with extw := [] } })
      (fun x y h => by rw [h.mk_eq]; exact ⟨rfl, rfl, rfl, rfl, rfl⟩) (fun _ => rfl))⟩
  | input u hi =>
    refine h.modify b (f := fun l => { l with joint := { l.joint with prp := l.joint.prp.motorSetInput u } })
      (fun x y h => by rw [h.mk_eq]; exact ⟨rfl, rfl, rfl, rfl, rfl⟩) (fun l => ?_) hi
    simp only [Link.place, Prod.mk.injEq, true_and]
    cases l.joint.prp <;> rfl
  | alloc =>
    exact ⟨_, _, rfl, rfl, h.with_links (h.twins.map (f := Link.abiAlloc)
      (fun x y h => by rw [h.mk_eq]; exact ⟨rfl, rfl, rfl, rfl, rfl⟩) (fun _ => rfl))⟩
  | updateABI fx wr => exact h.abiUpdate b fx wr
  | load w hi =>
    exact h.modify b (f := fun l => { l with abi := { l.abi with wlist := l.abi.wlist.push w } })
      (fun x y h => by rw [h.mk_eq]; exact ⟨rfl, rfl, rfl, rfl, rfl⟩) (fun _ => rfl) hi
  | unload hi =>
    exact h.modify b (f := fun l => { l with abi := { l.abi with wlist := [] } })
      (fun x y h => by rw [h.mk_eq]; exact ⟨rfl, rfl, rfl, rfl, rfl⟩) (fun _ => rfl) hi
  | addForces fx wr => exact h.addForces b fx wr
  | save =>
    exact ⟨_, _, rfl, rfl, h.with_links (h.twins.map (f := fun l : Link K => { l with abi := { l.abi with b0 := l.abi.b, a0 := l.body.acc } })
      (fun x y h => by rw [h.mk_eq]; exact ⟨rfl, rfl, rfl, rfl, rfl⟩) (fun _ => rfl))⟩
  | restore =>
    exact ⟨_, _, rfl, rfl, h.with_links (h.twins.map (f := fun l : Link K => { l with abi := { l.abi with b := l.abi.b0 }, body := { l.body with acc := l.abi.a0 } })
      (fun x y h => by rw [h.mk_eq]; exact ⟨rfl, rfl, rfl, rfl, rfl⟩) (fun _ => rfl))⟩

theorem acts (b : Twofold σ c0 d0) {as as' : List (Act K)} (ha : List.Forall₂ (SameAct σ c0 d0) as as') :
    ∀ {c d : Chain K}, Rel σ c0 d0 c d → ∃ c' d', runActs as c = some c' ∧ runActs as' d = some d' ∧ Rel σ c0 d0 c' d' := by
  induction ha with
  | nil => intro c d h; exact ⟨c, d, rfl, rfl, h⟩
  | cons h1 _ ih =>
    intro c d h
    obtain ⟨c1, d1, e, e', r⟩ := h.act b h1
    obtain ⟨c2, d2, e2, e2', r2⟩ := ih r
    exact ⟨c2, d2, by rw [runActs, e]; exact e2, by rw [runActs, e']; exact e2', r2⟩
end

end Rel

section
variable {σ : ℕ → ℕ} [Field K]

theorem twofold_of {c d : Chain K} (h : Relabelled σ c d) (hc : c.WF) (hd : d.WF) (ho : setOffset c.link = c.link)
    (ho' : setOffset d.link = d.link) : Twofold σ c d ∧ Rel σ c d c d := by
  have lt : ∀ i < c.link.length, σ i < c.link.length := by
    intro i hi
    obtain ⟨m, hm, -⟩ := h.link i _ (List.getElem?_eq_getElem hi)
    rw [← h.len]; exact (List.getElem?_eq_some_iff.1 hm).1
  refine ⟨⟨hc, hd, ho, ho', h.len, lt, h.inj, iso_of_paths hc.nodup hd.nodup
    (fun i hi j hj => h.inj i j (hc.mem.1 hi) (hc.mem.1 hj)) h.path, h.path⟩,
    ⟨rfl, rfl, ⟨rfl, rfl, fun i x y hx hy => ?_⟩, h.mass, h.wldCOM, h.comVel, h.comAcc⟩⟩
  obtain ⟨m, hm, hs⟩ := h.link i x hx
  rw [hy] at hm; cases hm
  exact hs

theorem Rel.relabelled {c0 d0 c d : Chain K} (b : Twofold σ c0 d0) (h : Rel σ c0 d0 c d) : Relabelled σ c d where
  len := by rw [h.twins.len, h.twins.len', b.len]
  inj := by rw [h.twins.len]; exact b.inj
  path := by rw [h.shape, h.shape']; exact b.path
  link i l hl := by
    have hi : i < c0.link.length := by rw [← h.twins.len]; exact (List.getElem?_eq_some_iff.1 hl).1
    have hj : σ i < d.link.length := by rw [h.twins.len', b.len]; exact b.lt i hi
    exact ⟨_, List.getElem?_eq_getElem hj, h.twins.same i _ _ hl (List.getElem?_eq_getElem hj)⟩
  mass := h.mass
  wldCOM := h.wldCOM
  comVel := h.comVel
  comAcc := h.comAcc

/-- **C113** No history of operations depends on how the links are numbered or on the order in which the children of a link are listed:
when the same operations are done on two descriptions of the same robot, whatever they are and however long the history is, both
histories go through and leave two descriptions of the same robot in the same state. -/
theorem C113_history [LinearOrder K] [Zm K] (c d : Chain K) (h : Relabelled σ c d) (hc : c.WF) (hd : d.WF)
    (ho : setOffset c.link = c.link) (ho' : setOffset d.link = d.link) (as as' : List (Act K))
    (ha : List.Forall₂ (SameAct σ c d) as as') :
    ∃ c' d', runActs as c = some c' ∧ runActs as' d = some d' ∧ Relabelled σ c' d' ∧ c'.WF ∧ d'.WF ∧
      setOffset c'.link = c'.link ∧ setOffset d'.link = d'.link ∧
      (∀ v w, SameValues σ c' d' v w ↔ SameValues σ c d v w) := by
  obtain ⟨b, r⟩ := twofold_of h hc hd ho ho'
  obtain ⟨c', d', e, e', r'⟩ := Rel.acts b ha r
  refine ⟨c', d', e, e', r'.relabelled b, r'.wf b, r'.wf' b, (Twins.offs r'.twins.key ho).1, (Twins.offs r'.twins.key' ho').1, ?_⟩
  have pl : ∀ {l1 l2 : List (Link K)}, l1.map Link.place = l2.map Link.place → ∀ (i : ℕ) (x : Link K), l1[i]? = some x →
      ∃ y, l2[i]? = some y ∧ ∀ v : List K, slice v x = slice v y := by
    intro l1 l2 e i x hx
    have := congrArg (fun l => l[i]?) e
    simp only [List.getElem?_map, hx, Option.map_some] at this
    obtain ⟨y, p, q⟩ := Option.map_eq_some_iff.1 this.symm
    simp only [Link.place, Prod.mk.injEq] at q
    exact ⟨y, p, fun v => by simp only [slice, q.1, q.2]⟩
  intro v w
  constructor
  · intro s i l m hl hm
    obtain ⟨l', h1, h2⟩ := pl r'.twins.key.symm i l hl
    obtain ⟨m', h3, h4⟩ := pl r'.twins.key'.symm (σ i) m hm
    rw [h2, h4]; exact s i l' m' h1 h3
  · intro s i l m hl hm
    obtain ⟨l', h1, h2⟩ := pl r'.twins.key i l hl
    obtain ⟨m', h3, h4⟩ := pl r'.twins.key' (σ i) m hm
    rw [h2, h4]; exact s i l' m' h1 h3

/-- **C113** Two descriptions of the same robot in the same state report the same joint displacements, velocities, accelerations and
torques, the same mass, momentum, energy, external wrench and zero moment point. -/
theorem C113_values [LinearOrder K] [Zm K] (c d : Chain K) (h : Relabelled σ c d) (hc : c.WF) (hd : d.WF)
    (ho : setOffset c.link = c.link) (ho' : setOffset d.link = d.link) :
    (∀ get ∈ [Prp.getDis, Prp.getVel, Prp.getAcc, Prp.getTrq], ∀ buf buf' : List K, buf.length = jointSize c.link →
      buf'.length = jointSize d.link →
      ∃ v w, getJointAll get c.link buf = some v ∧ getJointAll get d.link buf' = some w ∧ SameValues σ c d v w) ∧
    jointSize d.link = jointSize c.link ∧
    LinkArray.calcMass d.link = LinkArray.calcMass c.link ∧ LinkArray.ke d.link = LinkArray.ke c.link ∧
    (∀ p, LinkArray.am d.link p = LinkArray.am c.link p) ∧
    LinkArray.calcExtWrench d.link = LinkArray.calcExtWrench c.link ∧
    (∀ r r' z, c.link[0]? = some r → d.link[0]? = some r' → LinkArray.zmp r' z = LinkArray.zmp r z ∧
      LinkArray.yawTorque r' = LinkArray.yawTorque r) := by
  obtain ⟨b, r⟩ := twofold_of h hc hd ho ho'
  refine ⟨?_, r.size b, (Rel.com b r.twins c.mass).1, ?_, ?_, ?_, ?_⟩
  · intro get hg buf buf' hb hb'
    obtain ⟨v, e, -, s⟩ := C02_get_slices c.link buf ho hb get hg
    obtain ⟨w, e', -, s'⟩ := C02_get_slices d.link buf' ho' hb' get hg
    refine ⟨v, w, e, e', fun i l m hl hm => ?_⟩
    have hs := r.twins.same i l m hl hm
    by_cases hz : 0 < l.joint.prp.size
    · rw [s l (List.mem_of_getElem? hl) hz, s' m (List.mem_of_getElem? hm) (by rw [hs.joint]; exact hz), hs.joint]
    · have hz' : l.joint.prp.size = 0 := by omega
      simp only [slice, hs.joint, hz', List.take_zero]
  · simp only [LinkArray.ke, foldl_add_eq, zero_add]
    exact Rel.sum b r.twins fun x y h => by rw [h.body]
  · intro p
    simp only [LinkArray.am, foldl_add_eq, zero_add]
    exact Rel.sum b r.twins fun x y h => by rw [h.body]
  · have key : ∀ ls : List (Link K), LinkArray.calcExtWrench ls = (ls.map fun l => if tiny6 l.body.calcExtWrench then (0 : Vec6 K)
        else (l.body.frame.att.mulVec6 l.body.calcExtWrench).angShift l.body.frame.pos).sum := by
      intro ls
      rw [← zero_add (List.sum _), ← foldl_add_eq]
      simp only [LinkArray.calcExtWrench]
      congr 1
      funext w l
      split_ifs <;> simp
    rw [key, key]
    exact Rel.sum b r.twins fun x y h => by rw [h.body]
  · intro x y z hx hy
    have h0 : σ 0 = 0 := by
      obtain ⟨t, ht⟩ := hc.root
      obtain ⟨t', ht'⟩ := hd.root
      obtain ⟨p, hp, e⟩ := (h.path [0]).1 (by rw [ht']; exact .here _ _ _)
      rcases p with _ | ⟨i, _ | ⟨j, p⟩⟩
      · simp at e
      · rw [ht] at hp
        cases hp with
        | here => simpa using e.symm
        | child h => exact absurd rfl (isPath_ne h)
        | sibl h => cases h
      · simp at e
    have hs := r.twins.same 0 x y hx (by rw [h0]; exact hy)
    constructor
    · unfold zmp gravityDir; rw [hs.joint, hs.body]
    · unfold yawTorque gravityDir; rw [hs.joint, hs.body]

/-- **C113** Forward dynamics finds the same joint accelerations however the links are numbered. -/
theorem C113_forward [LinearOrder K] [Zm K] (c d : Chain K) (h : Relabelled σ c d) (hc : c.WF) (hd : d.WF)
    (ho : setOffset c.link = c.link) (ho' : setOffset d.link = d.link) (fx : Bool) (hs : jointSize c.link ≠ 0)
    (dis vel acc dis' vel' acc' : List K) (h1 : dis.length = jointSize c.link) (h2 : vel.length = jointSize c.link)
    (h3 : acc.length = jointSize c.link) (h1' : dis'.length = jointSize d.link) (h2' : vel'.length = jointSize d.link)
    (h3' : acc'.length = jointSize d.link) (sd : SameValues σ c d dis dis') (sv : SameValues σ c d vel vel') :
    ∃ c' d' q q', c.abi fx dis vel acc = some (c', some q) ∧ d.abi fx dis' vel' acc' = some (d', some q') ∧
      SameValues σ c d q q' ∧ Relabelled σ c' d' := by
  obtain ⟨b, r⟩ := twofold_of h hc hd ho ho'
  obtain ⟨c', d', e, e', rl, w, w', o, o', sv'⟩ := C113_history c d h hc hd ho ho'
    [.setDis dis, .setVel vel, .updateFK, .updateVel, .updateABI fx true]
    [.setDis dis', .setVel vel', .updateFK, .updateVel, .updateABI fx true]
    (.cons (.setDis h1 h1' sd) (.cons (.setVel h2 h2' sv) (.cons .updateFK (.cons .updateVel (.cons (.updateABI fx true) .nil)))))
  obtain ⟨cx, dx, ex, ex', rx⟩ := Rel.acts b (as := [.setDis dis, .setVel vel, .updateFK, .updateVel, .updateABI fx true])
    (as' := [.setDis dis', .setVel vel', .updateFK, .updateVel, .updateABI fx true])
    (.cons (.setDis h1 h1' sd) (.cons (.setVel h2 h2' sv) (.cons .updateFK (.cons .updateVel (.cons (.updateABI fx true) .nil))))) r
  rw [e] at ex; cases ex
  rw [e'] at ex'; cases ex'
  have z : jointSize c'.link = jointSize c.link := by
    rw [jointSize_eq, jointSize_eq]; exact (Twins.offs rx.twins.key ho).2
  have z' : jointSize d'.link = jointSize d.link := by
    rw [jointSize_eq, jointSize_eq]; exact (Twins.offs rx.twins.key' ho').2
  obtain ⟨q, q', g, g', s⟩ := (C113_values c' d' rl w w' o o').1 Prp.getAcc (by simp) acc acc' (by rw [h3, z]) (by rw [h3', z'])
  have unf : ∀ {c c' : Chain K} {dis vel acc q : List K}, jointSize c.link ≠ 0 →
      runActs [.setDis dis, .setVel vel, .updateFK, .updateVel, .updateABI fx true] c = some c' →
      getJointAll Prp.getAcc c'.link acc = some q → c.abi fx dis vel acc = some (c', some q) := by
    intro c c' dis vel acc q hs e g
    simp only [runActs, Act.run, Option.bind_eq_some_iff, Option.map_eq_some_iff] at e
    obtain ⟨c1, ⟨l1, a1, rfl⟩, c2, ⟨l2, a2, rfl⟩, c3, a3, c4, a4, c5, a5, a6⟩ := e
    cases a6
    simp only [Chain.abi, if_neg hs, Option.bind_eq_bind, a1, Option.bind_some, a2, a3, a4, a5, g, Option.pure_def]
  exact ⟨c', d', q, q', unf hs e g, unf (by rw [r.size b]; exact hs) e' g', (sv' q q').1 s, rl⟩

end

namespace Sample

/-- A history: bodies are set up, joints are set, a wrench is put on the last link, forward dynamics, a further wrench, its
incremental update, inverse dynamics. -/
def history : List (Act ℚ) :=
  [.alloc, .setDis [1, 2, 3, 4, 5, 6, 7, 8, 9], .setVel [1, 2, 3, 4, 5, 6, 7, 8, 9], .updateFK, .updateVel,
    .push 3 ⟨⟨⟨1, 2, 3⟩, 0⟩, ⟨0, 1, 0⟩⟩, .updateABI false true, .save, .load 2 ⟨⟨⟨0, 2, 0⟩, ⟨1, 0, 0⟩⟩, 0⟩, .addForces false false, .restore,
    .unload 2, .input 2 3, .calcMass, .updateID ⟨⟨0, 0, 9⟩, 0⟩]

/-- The same history on the other description. -/
def history' : List (Act ℚ) :=
  [.alloc, .setDis [1, 2, 3, 4, 5, 6, 8, 9, 7], .setVel [1, 2, 3, 4, 5, 6, 8, 9, 7], .updateFK, .updateVel,
    .push 1 ⟨⟨⟨1, 2, 3⟩, 0⟩, ⟨0, 1, 0⟩⟩, .updateABI false true, .save, .load 2 ⟨⟨⟨0, 2, 0⟩, ⟨1, 0, 0⟩⟩, 0⟩, .addForces false false, .restore,
    .unload 2, .input 2 3, .calcMass, .updateID ⟨⟨0, 0, 9⟩, 0⟩]

end Sample

/-- The two descriptions of the sample chain and a history with every kind of update meet the hypotheses. -/
theorem C113_sample : Relabelled Sample.perm (Sample.chain (K := ℚ)) Sample.renumbered ∧
    jointSize (Sample.chain (K := ℚ)).link ≠ 0 ∧
    List.Forall₂ (SameAct Sample.perm (Sample.chain (K := ℚ)) Sample.renumbered) Sample.history Sample.history' := by
  obtain ⟨h, hd, ho, sv⟩ := C110_sample
  refine ⟨⟨h.len, h.inj, h.path, ?_, rfl, rfl, rfl, rfl⟩, by decide +kernel, ?_⟩
  · intro i l h
    rcases i with _ | _ | _ | _ | i
    · cases h; exact ⟨_, rfl, rfl, rfl, rfl, rfl, rfl⟩
    · cases h; exact ⟨_, rfl, rfl, rfl, rfl, rfl, rfl⟩
    · cases h; exact ⟨_, rfl, rfl, rfl, rfl, rfl, rfl⟩
    · cases h; exact ⟨_, rfl, rfl, rfl, rfl, rfl, rfl⟩
    · cases h
  · have l1 : ([1, 2, 3, 4, 5, 6, 7, 8, 9] : List ℚ).length = jointSize (Sample.chain (K := ℚ)).link := by decide +kernel
    have l2 : ([1, 2, 3, 4, 5, 6, 8, 9, 7] : List ℚ).length = jointSize Sample.renumbered.link := by decide +kernel
    have lt : ∀ i < 4, i < (Sample.chain (K := ℚ)).link.length := fun i hi => hi
    exact .cons .alloc (.cons (.setDis l1 l2 sv) (.cons (.setVel l1 l2 sv) (.cons .updateFK (.cons .updateVel
      (.cons (.push (i := 3) _ (lt 3 (by omega))) (.cons (.updateABI _ _) (.cons .save (.cons (.load (i := 2) _ (lt 2 (by omega)))
      (.cons (.addForces _ _) (.cons .restore (.cons (.unload (i := 2) (lt 2 (by omega))) (.cons (.input (i := 2) _ (lt 2 (by omega)))
      (.cons .calcMass (.cons (.updateID _) .nil))))))))))))))

end Roki
