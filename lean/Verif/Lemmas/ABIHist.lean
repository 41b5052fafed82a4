import Verif.Lemmas.ABIKeep
set_option autoImplicit false

/-! # Updates for additional forces, one after another -/

namespace Roki
variable {K : Type*} [Field K]

namespace LTree
variable {α β : Type*}

theorem Rel.flip {R : α → β → Prop} {t : LTree α} {u : LTree β} (h : Rel R t u) :
    Rel (fun b a => R a b) u t := by
  induction t generalizing u with
  | nil => cases u <;> simp_all [Rel]
  | node a c s ihc ihs =>
    cases u with
    | nil => simp [Rel] at h
    | node b c' s' => exact ⟨h.1, ihc h.2.1, ihs h.2.2⟩

/-- What an update for additional forces does to a link. -/
def Cyc (fx : Bool) (x y : Link K) : Prop :=
  (∃ m bb jac ih, y.joint.prp = (x.joint.prp.abiQAcc fx m bb jac ih x.body.acc).1 ∧
    y.body = { x.body with acc := (x.joint.prp.abiQAcc fx m bb jac ih x.body.acc).2 }) ∧
  y.adj = x.adj ∧ y.abi.i = x.abi.i ∧ y.abi.c = x.abi.c ∧ y.abi.iaxi = x.abi.iaxi ∧
  y.abi.f = x.abi.f ∧ y.abi.w = x.abi.w ∧ y.abi.b0 = x.abi.b0 ∧ y.abi.a0 = x.abi.a0

/-- Before the forward pass. -/
def Cyc0 (x y : Link K) : Prop :=
  y.joint.prp = x.joint.prp ∧ y.body = x.body ∧
  y.adj = x.adj ∧ y.abi.i = x.abi.i ∧ y.abi.c = x.abi.c ∧ y.abi.iaxi = x.abi.iaxi ∧
  y.abi.f = x.abi.f ∧ y.abi.w = x.abi.w ∧ y.abi.b0 = x.abi.b0 ∧ y.abi.a0 = x.abi.a0

theorem Cyc0.trans {x y z : Link K} (h : Cyc0 x y) (g : Cyc0 y z) : Cyc0 x z := by
  obtain ⟨a1, a2, a3, a4, a5, a6, a7, a8, a9, a10⟩ := h
  obtain ⟨b1, b2, b3, b4, b5, b6, b7, b8, b9, b10⟩ := g
  exact ⟨b1.trans a1, b2.trans a2, b3.trans a3, b4.trans a4, b5.trans a5, b6.trans a6, b7.trans a7,
    b8.trans a8, b9.trans a9, b10.trans a10⟩

theorem Cyc0.refl (x : Link K) : Cyc0 x x := ⟨rfl, rfl, rfl, rfl, rfl, rfl, rfl, rfl, rfl, rfl⟩

theorem cyc0_subNet (x : Link K) : Cyc0 x x.abiSubNet := by
  rw [Link.abiSubNet]; split_ifs <;> exact ⟨rfl, rfl, rfl, rfl, rfl, rfl, rfl, rfl, rfl, rfl⟩

theorem abiFindPath_cyc (T : LTree (Link K)) : Rel Cyc0 T T.abiFindPath.1 := by
  induction T with
  | nil => trivial
  | node l c s ihc ihs =>
    refine ⟨?_, ihc, ihs⟩
    split_ifs
    · exact ⟨rfl, rfl, rfl, rfl, rfl, rfl, rfl, rfl, rfl, rfl⟩
    · exact Cyc0.refl _

theorem abiAddEx_cyc (fx : Bool) (T : LTree (Link K)) : Rel Cyc0 T (T.abiAddEx fx).1 := by
  induction T with
  | nil => trivial
  | node l c s ihc ihs =>
    simp only [abiAddEx]
    split_ifs with h
    · refine ⟨?_, ihc, ihs⟩
      have h1 : Cyc0 l l.abiResetB := ⟨rfl, rfl, rfl, rfl, rfl, rfl, rfl, rfl, rfl, rfl⟩
      have h2 : ∀ (x : Link K) (v : Vec6 K), Cyc0 x (x.abiAdd (0, v)) := fun x v =>
        ⟨rfl, rfl, rfl, by simp [Link.abiAdd], rfl, rfl, rfl, rfl, rfl, rfl⟩
      exact (h1.trans (cyc0_subNet _)).trans (h2 _ _)
    · exact ⟨cyc0_subNet _, Rel.refl Cyc0.refl c, ihs⟩

theorem abiFwd_cyc (fx wr : Bool) (pa : Vec6 K) (T : LTree (Link K)) :
    Rel (Cyc fx) T (T.abiFwd fx wr pa) := by
  refine down_rel (fun st x => ?_) T pa
  rw [abiStep]
  split_ifs
  · exact ⟨⟨_, _, _, _, rfl, rfl⟩, rfl, rfl, rfl, rfl, rfl, rfl, rfl, rfl⟩
  · exact ⟨⟨_, _, _, _, rfl, rfl⟩, rfl, rfl, rfl, rfl, rfl, rfl, rfl, rfl⟩

theorem Cyc0.cyc {fx : Bool} {x y z : Link K} (h : Cyc0 x y) (g : Cyc fx y z) : Cyc fx x z := by
  obtain ⟨a1, a2, a3, a4, a5, a6, a7, a8, a9, a10⟩ := h
  obtain ⟨⟨m, bb, jac, ih, b1, b2⟩, b3, b4, b5, b6, b7, b8, b9, b10⟩ := g
  refine ⟨⟨m, bb, jac, ih, ?_, ?_⟩, b3.trans a3, b4.trans a4, b5.trans a5, b6.trans a6, b7.trans a7,
    b8.trans a8, b9.trans a9, b10.trans a10⟩
  · rw [b1, a1, a2]
  · rw [b2, a1, a2]

/-- The whole update. -/
theorem addEx_cyc (fx wr : Bool) (pa : Vec6 K) (T : LTree (Link K)) :
    Rel (Cyc fx) T (((((T.map fun l => l.abiSetPath false).abiFindPath.1).abiAddEx fx).1).abiFwd fx wr pa) := by
  have h0 : Rel Cyc0 T (T.map fun l => l.abiSetPath false) :=
    rel_map _ (fun _ => ⟨rfl, rfl, rfl, rfl, rfl, rfl, rfl, rfl, rfl, rfl⟩) T
  have h1 := Rel.trans (R := Cyc0) (S := Cyc0) (T := Cyc0) (fun _ _ _ a b => a.trans b) h0 (abiFindPath_cyc _)
  have h2 := Rel.trans (R := Cyc0) (S := Cyc0) (T := Cyc0) (fun _ _ _ a b => a.trans b) h1 (abiAddEx_cyc fx _)
  exact Rel.trans (R := Cyc0) (S := Cyc fx) (T := Cyc fx) (fun _ _ _ a b => a.cyc b) h2 (abiFwd_cyc fx wr pa _)

/-- `Free`, with the bias and the acceleration saved. -/
def FreeSaved (fx : Bool) (x o : Link K) : Prop :=
  Free fx x o ∧ x.abi.b0 = o.abi.b ∧
    ∃ m bb jac ih, x.abi.a0 = (o.joint.prp.abiQAcc fx m bb jac ih o.body.acc).2

/-- An update for additional forces followed by `rkChainABIPopPrpAccBias`. -/
theorem FreeSaved.cycle {fx : Bool} {x o y : Link K} (h : FreeSaved fx x o) (g : Cyc fx x y) :
    FreeSaved fx { y with abi := { y.abi with b := y.abi.b0 }, body := { y.body with acc := y.abi.a0 } } o := by
  obtain ⟨⟨⟨m, m2, bb, jac, bb2, jac2, ih, ih2, e1, e2, e3, e4, e5, e6, e7⟩, hb, hw⟩, hb0, m3, bb3, jac3, ih3, ha0⟩ := h
  obtain ⟨⟨m4, bb4, jac4, ih4, b1, b2⟩, b3, b4, b5, b6, b7, b8, b9, b10⟩ := g
  have hq := Prp.abiQAcc_again fx o.joint.prp m m4 m2 bb jac bb4 jac4 bb2 jac2 ih ih4 ih2 o.body.acc
  refine ⟨⟨⟨m4, m3, bb4, jac4, bb3, jac3, ih4, ih3, ?_, ?_, b3.trans e3, b4.trans e4, b5.trans e5,
    b6.trans e6, b7.trans e7⟩, b9.trans hb0, b8.trans hw⟩, b9.trans hb0, m3, bb3, jac3, ih3, b10.trans ha0⟩
  · show y.joint.prp = _
    rw [b1, e1, e2, ← hq]
  · show ({ y.body with acc := y.abi.a0 } : Body K) = _
    rw [b2, b10, ha0, e2]

end LTree

namespace Chain

/-- An update for the forces `W`, and back. -/
def exCycle (fx wr : Bool) (c : Chain K) (W : ℕ → WrenchList K) : Option (Chain K) :=
  ((c.withForces W).abiUpdateAddEx fx wr).map abiPop

theorem gather_withForces {c : Chain K} {W : ℕ → WrenchList K} {T : LTree (Link K)}
    (hT : gather c.link c.shape = some T) :
    ∃ T', gather (c.withForces W).link c.shape = some T' ∧
      T.Rel (fun x y => y = { x with abi := { x.abi with wlist := y.abi.wlist } }) T' := by
  have hex : ∃ T', gather (c.withForces W).link c.shape = some T' := by
    apply gather_exists
    intro i hi
    obtain ⟨l, l', e, -⟩ := gather_rel (R := fun _ _ => True) hT hT (LTree.Rel.refl (fun _ => trivial) T) i hi
    have : i < c.link.length := by
      by_contra hh
      rw [List.getElem?_eq_none (by omega)] at e; simp at e
    simpa [Chain.withForces] using this
  obtain ⟨T', hT'⟩ := hex
  refine ⟨T', hT', rel_gather hT hT' ?_⟩
  intro i _ l l' e e'
  simp only [Chain.withForces, List.getElem?_mapIdx, e, Option.map_some, Option.some.injEq] at e'
  rw [← e']

theorem withForces_size {c : Chain K} {W : ℕ → WrenchList K} :
    (c.withForces W).link.length = c.link.length := by simp [Chain.withForces]

/-- A chain that is `R`-related, link by link, to a tree. -/
def RelTree (R : Link K → Link K → Prop) (c : Chain K) (t : LTree ℕ) (n : ℕ) (O : LTree (Link K)) : Prop :=
  c.shape = t ∧ c.link.length = n ∧ ∃ B, gather c.link t = some B ∧ B.Rel R O

variable [Zm K]

/-- The state after a pass without additional forces. -/
theorem update_free {c c1 : Chain K} (h : c.WF) {fx wr0 : Bool} (hs : LinkArray.jointSize c.link ≠ 0)
    {T : LTree (Link K)} (hT : gather c.link c.shape = some T) (e : c.abiUpdate fx wr0 = some c1) :
    RelTree (LTree.Free fx) c1 c.shape c.link.length ((T.abiInit 0).abiBack fx).1 := by
  obtain ⟨ls', e', g, n⟩ := h.abiUpdate fx wr0 hs hT
  rw [e] at e'
  cases e'
  exact ⟨rfl, n, _, g, (LTree.down_rel (R := fun o x => LTree.Free fx x o)
    (fun st x => LTree.step_free fx wr0 st x) _ 0).flip⟩

/-- **From such a state, an update for additional forces gives what a full update gives.** -/
theorem free_addEx {c c1 c2 : Chain K} (h : c.WF) {fx wr : Bool} {W : ℕ → WrenchList K}
    (hw : ∀ l ∈ c.link, l.abi.wlist = [])
    (hs : LinkArray.jointSize c.link ≠ 0) {T : LTree (Link K)} (hT : gather c.link c.shape = some T)
    (e : RelTree (LTree.Free fx) c2 c.shape c.link.length ((T.abiInit 0).abiBack fx).1)
    (hs2 : LinkArray.jointSize c2.link ≠ 0) :
    ∃ c3 c4, (c2.withForces W).abiUpdateAddEx fx wr = some c3 ∧
      (c.withForces W).abiUpdate fx wr = some c4 ∧ c3.link.length = c.link.length ∧
      c4.link.length = c.link.length ∧
      ∀ i, i < c.link.length → ∃ l3 l4, c3.link[i]? = some l3 ∧ c4.link[i]? = some l4 ∧
        LTree.Agree wr l3 l4 := by
  obtain ⟨hsh, hn, B, hB, hr⟩ := e
  have hc2 : c2.WF := by
    refine ⟨hsh ▸ h.root, ?_⟩
    rw [hsh, hn]; exact h.perm
  rw [← hsh] at hB
  obtain ⟨TW, hTW, rW⟩ := gather_withForces (W := W) hT
  obtain ⟨BW, hBW, rB⟩ := gather_withForces (W := W) hB
  -- the tree without forces is the tree with forces, cleared
  have hclear : T = TW.map Link.abiNoForce := by
    have hTw : ∀ l ∈ T.toList, l.abi.wlist = [] := fun l hl =>
      hw l ((gather_perm hT h.perm).mem_iff.1 hl)
    clear hT hr hTW hB hBW rB
    induction T generalizing TW with
    | nil => cases TW <;> simp_all [LTree.Rel, LTree.map]
    | node l cc s ihc ihs =>
      cases TW with
      | nil => simp [LTree.Rel] at rW
      | node l' cc' s' =>
        obtain ⟨r1, r2, r3⟩ := rW
        simp only [LTree.map]
        rw [← ihc cc' r2 fun x hx => hTw x (by simp [LTree.toList, hx]),
          ← ihs s' r3 fun x hx => hTw x (by simp [LTree.toList, hx])]
        congr 1
        have := hTw l (by simp [LTree.toList])
        rw [r1]
        obtain ⟨n, j, b, o, og, ad, abi⟩ := l
        obtain ⟨m, i, f, b, c, wl, w, w0, b0, a0, pa, ax, iax⟩ := abi
        simp only at this
        simp [Link.abiNoForce, this]
  -- the state before the update
  have hbefore : LTree.Before fx ((BW.map fun l => l.abiSetPath false).abiFindPath.1) (TW.abiInit 0) := by
    refine LTree.Before.findPath (LTree.before_of_free ?_ ?_)
    · rw [← LTree.abiInit_noForce, ← hclear]
      have r0 : BW.Rel (LTree.Free fx) ((T.abiInit 0).abiBack fx).1 :=
        LTree.Rel.trans (R := fun (y x : Link K) => y = { x with abi := { x.abi with wlist := y.abi.wlist } })
          (fun a b d h1 h2 => by rw [h1]; exact h2) rB.flip hr
      exact LTree.Rel.trans (R := fun (y x : Link K) => y = x.abiSetPath false)
          (fun a b d h1 h2 => by rw [h1]; exact h2)
          (LTree.rel_map (R := fun (x y : Link K) => y = x.abiSetPath false) (fun l => l.abiSetPath false) (fun _ => rfl) BW).flip r0
    · have i1 : (BW.map fun l => l.abiSetPath false).Rel (fun x y : Link K => x.abi.wlist = y.abi.wlist) BW :=
        (LTree.rel_map (R := fun x y : Link K => y.abi.wlist = x.abi.wlist) (fun l => l.abiSetPath false)
          (fun _ => rfl) BW).flip
      have i2 : BW.Rel (fun x y : Link K => x.abi.wlist = y.abi.wlist) TW := by
        refine rel_gather (by rw [hsh] at hBW; exact hBW) hTW ?_
        intro i _ l l' g1 g2
        simp only [Chain.withForces, List.getElem?_mapIdx, Option.map_eq_some_iff] at g1 g2
        obtain ⟨_, -, rfl⟩ := g1
        obtain ⟨_, -, rfl⟩ := g2
        rfl
      exact LTree.Rel.trans (fun _ _ _ h1 h2 => h1.trans h2) i1
        (LTree.Rel.trans (fun _ _ _ h1 (h2 : LTree.Keep _ _) => h1.trans h2.2) i2 (LTree.abiInit_keep TW 0))
  have hpath : LTree.PathOK ((BW.map fun l => l.abiSetPath false).abiFindPath.1) := by
    refine (LTree.abiFindPath_ok _ ?_).1
    intro l hl
    rw [LTree.toList_map] at hl
    obtain ⟨x, -, rfl⟩ := List.mem_map.1 hl
    rfl
  obtain ⟨ok1, ok2⟩ := LTree.abiInit_ok TW (0 : Vec6 K)
  have res := hbefore.result hpath ok1 ok2 wr 0
  obtain ⟨ls3, e3, g3, n3⟩ := (hc2.withForces W).abiUpdateAddEx fx wr
    (by rw [jointSize_withForces]; exact hs2) hBW
  obtain ⟨ls4, e4, g4, n4⟩ := (h.withForces W).abiUpdate fx wr
    (by rw [jointSize_withForces]; exact hs) hTW
  refine ⟨_, _, e3, e4, (n3.trans withForces_size).trans hn,
    n4.trans withForces_size, fun i hi => ?_⟩
  have g3' : gather ls3 c.shape = _ := hsh ▸ g3
  exact gather_rel g3' g4 res i (h.mem.2 hi)

omit [Zm K] in
theorem step_size (fx wr : Bool) (l : Link K) (pa : Vec6 K) :
    (LTree.abiStep fx wr pa l).joint.prp.size = l.joint.prp.size := by
  rw [LTree.abiStep]; split_ifs <;> exact Prp.abiQAcc_size ..

theorem jointSize_update {fx wr : Bool} {c c' : Chain K} (h : c.abiUpdate fx wr = some c') :
    LinkArray.jointSize c'.link = LinkArray.jointSize c.link :=
  LinkArray.jointSize_congr (abiUpdate_keep (fun l : Link K => l.joint.prp.size) (fun _ => rfl)
    (fun _ _ => rfl) (fun _ => Prp.abiDrivingTorque_size _) (fun _ _ => rfl) (step_size fx wr) h).1

omit [Zm K] in
theorem jointSize_addEx {fx wr : Bool} {c c' : Chain K} (h : c.abiUpdateAddEx fx wr = some c') :
    LinkArray.jointSize c'.link = LinkArray.jointSize c.link :=
  LinkArray.jointSize_congr (abiUpdateAddEx_keep (fun l : Link K => l.joint.prp.size) (fun _ => rfl)
    (fun _ _ => rfl) (fun l => by rw [Link.abiSubNet]; split_ifs <;> rfl) (fun _ => rfl) (fun _ _ => rfl)
    (step_size fx wr) h).1

omit [Zm K] in
theorem jointSize_cycle {fx wr : Bool} {c c' : Chain K} {W : ℕ → WrenchList K}
    (h : c.exCycle fx wr W = some c') : LinkArray.jointSize c'.link = LinkArray.jointSize c.link := by
  simp only [exCycle, Option.map_eq_some_iff] at h
  obtain ⟨c1, h1, rfl⟩ := h
  rw [← jointSize_withForces c W, ← jointSize_addEx h1]
  refine LinkArray.jointSize_congr ?_
  simp [abiPop]

omit [Zm K] in
/-- A cycle keeps the saved state. -/
theorem cycle_saved {fx wr : Bool} {c : Chain K} {W : ℕ → WrenchList K} {t : LTree ℕ} {n : ℕ}
    {O : LTree (Link K)} (hwf : c.WF) (hs : LinkArray.jointSize c.link ≠ 0)
    (h : RelTree (LTree.FreeSaved fx) c t n O) :
    ∃ c', c.exCycle fx wr W = some c' ∧ RelTree (LTree.FreeSaved fx) c' t n O ∧ c'.WF := by
  obtain ⟨rfl, rfl, B, hB, hr⟩ := h
  obtain ⟨BW, hBW, rB⟩ := gather_withForces (W := W) hB
  obtain ⟨ls, e, g, n⟩ := (hwf.withForces W).abiUpdateAddEx fx wr
    (by rw [jointSize_withForces]; exact hs) hBW
  have n' := n.trans withForces_size
  refine ⟨abiPop { c with link := ls }, by rw [exCycle, e]; rfl, ⟨rfl, by simpa [abiPop] using n', _,
    gather_map_links (fun l : Link K =>
      { l with abi := { l.abi with b := l.abi.b0 }, body := { l.body with acc := l.abi.a0 } }) g, ?_⟩,
    hwf.with_link (by simpa using n')⟩
  have r1 : BW.Rel (LTree.FreeSaved fx) O :=
    LTree.Rel.trans (R := fun (y x : Link K) => y = { x with abi := { x.abi with wlist := y.abi.wlist } })
      (fun a b d h1 h2 => by rw [h1]; exact h2) rB.flip hr
  have r2 := LTree.Rel.trans (R := fun x o : Link K => LTree.FreeSaved fx o x) (S := LTree.Cyc fx)
    (T := fun o y => LTree.FreeSaved fx
      { y with abi := { y.abi with b := y.abi.b0 }, body := { y.body with acc := y.abi.a0 } } o)
    (fun _ _ _ a b => a.cycle b) r1.flip (LTree.addEx_cyc fx wr 0 BW)
  have r3 := LTree.Rel.trans (S := fun (y z : Link K) => z =
      { y with abi := { y.abi with b := y.abi.b0 }, body := { y.body with acc := y.abi.a0 } })
    (T := fun o z => LTree.FreeSaved fx z o) (fun _ _ _ a b => by rw [b]; exact a) r2
    (LTree.rel_map (R := fun (y z : Link K) => z =
      { y with abi := { y.abi with b := y.abi.b0 }, body := { y.body with acc := y.abi.a0 } })
      (fun l : Link K =>
      { l with abi := { l.abi with b := l.abi.b0 }, body := { l.body with acc := l.abi.a0 } }) (fun _ => rfl) _)
  exact r3.flip

omit [Zm K] in
/-- `rkChainABIPushPrpAccBias` in such a state. -/
theorem push_saved {fx : Bool} {c : Chain K} {t : LTree ℕ} {n : ℕ} {O : LTree (Link K)}
    (h : RelTree (LTree.Free fx) c t n O) : RelTree (LTree.FreeSaved fx) c.abiPush t n O := by
  obtain ⟨rfl, rfl, B, hB, hr⟩ := h
  refine ⟨rfl, by simp [abiPush], _, gather_map_links _ hB, ?_⟩
  have r := LTree.Rel.trans (S := fun (y z : Link K) => z =
      { y with abi := { y.abi with b0 := y.abi.b, a0 := y.body.acc } })
    (T := fun o z => LTree.FreeSaved fx z o) (fun o y z (a : LTree.Free fx y o) b => by
      obtain ⟨⟨m, m2, bb, jac, bb2, jac2, ih, ih2, e1, e2, e3, e4, e5, e6, e7⟩, hb, hw⟩ := a
      rw [b]
      refine ⟨⟨⟨m, m2, bb, jac, bb2, jac2, ih, ih2, e1, e2, e3, e4, e5, e6, e7⟩, hb, hw⟩, hb,
        m2, bb2, jac2, ih2, ?_⟩
      show y.body.acc = _
      rw [e2]) hr.flip
    (LTree.rel_map (R := fun (y z : Link K) => z =
      { y with abi := { y.abi with b0 := y.abi.b, a0 := y.body.acc } })
      (fun y : Link K => { y with abi := { y.abi with b0 := y.abi.b, a0 := y.body.acc } }) (fun _ => rfl) _)
  exact r.flip

omit [Zm K] in
theorem RelTree.free {fx : Bool} {c : Chain K} {t : LTree ℕ} {n : ℕ} {O : LTree (Link K)}
    (h : RelTree (LTree.FreeSaved fx) c t n O) : RelTree (LTree.Free fx) c t n O := by
  obtain ⟨h1, h2, B, h3, h4⟩ := h
  exact ⟨h1, h2, B, h3, h4.mono fun _ _ h => h.1⟩

end Chain
end Roki
