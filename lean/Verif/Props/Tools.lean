import Verif.Model.Tools
import Verif.Lemmas.ZmReal
import Verif.Props.PoseFile
import Verif.Props.Conf
set_option autoImplicit false

/-! # The tools `rk_ground`, `zvs2zkcs` and `zvs2zkci` -/

namespace Roki
open LinkArray Spec ZTK Tools

/-! ## `rk_ground` -/

section ground

/-- **C105** The contact model of `rk_ground` for a depth that is not zero.  It is elastic with the given coefficients of
friction, and a body of the given mass rests on it exactly when it has sunk in by the given depth. -/
theorem C105_sinks (g mass depth zeta ms mu : ℝ) (hm : mass * g ≠ 0) (hd : depth ≠ 0) :
    let ci := groundInfo g mass depth zeta ms mu
    ci.type = .elastic ∧ ci.sf = ms ∧ ci.kf = mu ∧ ∀ x, ci.p0 * x = mass * g ↔ x = depth := by
  refine ⟨rfl, rfl, rfl, fun x => ?_⟩
  show mass * g / depth * x = mass * g ↔ x = depth
  rw [div_mul_eq_mul_div, div_eq_iff hd]
  exact ⟨fun h => mul_left_cancel₀ hm h, fun h => by rw [h]⟩

/-- **C105** The viscosity of the contact model of `rk_ground`: the motion of the body on the ground,
`mass * x'' + viscosity * x' + elasticity * x = mass * g`, has the given damping coefficient.  It can approach the rest without
oscillation (its characteristic equation has a real root) exactly if the coefficient is at least one, critically (a double root) exactly
at one. -/
theorem C105_damping (g mass depth zeta ms mu : ℝ) (hg : 0 < g) (hm : 0 < mass) (hd : 0 < depth) (hz : 0 ≤ zeta) :
    let ci := groundInfo g mass depth zeta ms mu
    0 ≤ ci.p1 ∧ ((∃ r, mass * r ^ 2 + ci.p1 * r + ci.p0 = 0) ↔ 1 ≤ zeta) ∧
      ((∃! r, mass * r ^ 2 + ci.p1 * r + ci.p0 = 0) ↔ zeta = 1) := by
  intro ci
  obtain ⟨w, hw⟩ : ∃ w : ℝ, w = Real.sqrt (g / depth) := ⟨_, rfl⟩
  have hgd : 0 < g / depth := div_pos hg hd
  have hw0 : 0 < w := by rw [hw]; exact Real.sqrt_pos.2 hgd
  have hw2 : w ^ 2 = g / depth := by rw [hw]; exact Real.sq_sqrt hgd.le
  have k0 : ci.p0 = mass * w ^ 2 := by
    show mass * g / depth = _
    rw [hw2]; ring
  have k1 : ci.p1 = 2 * zeta * (mass * w) := by
    show 2 * zeta * Real.sqrt (mass * g / depth * mass) = _
    congr 1
    rw [show mass * g / depth * mass = (mass * w) ^ 2 by rw [mul_pow, hw2]; ring]
    exact Real.sqrt_sq (mul_pos hm hw0).le
  have key : ∀ r, mass * r ^ 2 + ci.p1 * r + ci.p0 = 0 ↔ (r + zeta * w) ^ 2 = (zeta ^ 2 - 1) * w ^ 2 := by
    intro r
    rw [k0, k1]
    constructor
    · intro h
      have : mass * ((r + zeta * w) ^ 2 - (zeta ^ 2 - 1) * w ^ 2) = 0 := by linarith [h, mul_comm mass w]
      have := (mul_eq_zero.1 this).resolve_left hm.ne'
      linarith
    · intro h
      have : mass * ((r + zeta * w) ^ 2 - (zeta ^ 2 - 1) * w ^ 2) = 0 := by rw [h]; ring
      linarith [this, mul_comm mass w]
  simp only [key]
  have hw2' : 0 < w ^ 2 := by positivity
  refine ⟨by rw [k1]; positivity, ⟨?_, fun h => ?_⟩, ⟨?_, ?_⟩⟩
  · rintro ⟨r, h⟩
    by_contra hlt
    have : (zeta ^ 2 - 1) * w ^ 2 < 0 := mul_neg_of_neg_of_pos (by nlinarith) hw2'
    nlinarith [sq_nonneg (r + zeta * w)]
  · refine ⟨Real.sqrt (zeta ^ 2 - 1) * w - zeta * w, ?_⟩
    have : (0 : ℝ) ≤ zeta ^ 2 - 1 := by nlinarith
    rw [sub_add_cancel, mul_pow, Real.sq_sqrt this]
  · rintro ⟨r, h, hu⟩
    have h1 := hu (-r - 2 * zeta * w) (by simp only; rw [← h]; ring)
    have h2 : r + zeta * w = 0 := by linarith
    simp only [h2] at h
    have : zeta ^ 2 - 1 = 0 := (mul_eq_zero.1 (by linarith : (zeta ^ 2 - 1) * w ^ 2 = 0)).resolve_right hw2'.ne'
    nlinarith
  · rintro rfl
    refine ⟨-w, by simp, fun r h => ?_⟩
    simp only [one_pow, sub_self, zero_mul, one_mul] at h
    have := pow_eq_zero_iff (two_ne_zero) |>.1 h
    linarith

/-- A mass of 3 that sinks in by 2 under gravity 6: the elasticity is 9. -/
example : (groundInfo (6 : ℝ) 3 2 1 0 0).p0 = 9 := by norm_num [groundInfo]

variable {K : Type*} [Field K] [Zm K] [ZSqrt K]

/-- **C105** A tiny depth and fewer than four arguments are refused. -/
theorem C105_refused (g : K) (rnd : K → K) (args : List K) :
    rkGround g rnd args = .refused ↔ args.length < 4 ∨ 5 ≤ args.length ∧ ∃ x, args[1]? = some x ∧ Zm.tiny x = true := by
  rcases args with _ | ⟨a, _ | ⟨b, _ | ⟨c, _ | ⟨d, _ | ⟨e, l⟩⟩⟩⟩⟩ <;> simp [rkGround]
  by_cases h : Zm.tiny b = true
  · simp [h]
  · have h' : Zm.tiny b = false := by simpa using h
    simp [h', CI.print, groundInfo]

/-- **C105 fails** for every other command line: `rk_ground` never prints a contact model with defined behaviour.  With four
arguments it reads a fifth; with five it prints two null pointers as strings. -/
theorem C105_output_fails (g : K) (rnd : K → K) (args : List K) : ∀ ks, rkGround g rnd args ≠ .out ks := by
  intro ks
  rcases args with _ | ⟨a, _ | ⟨b, _ | ⟨c, _ | ⟨d, _ | ⟨e, l⟩⟩⟩⟩⟩ <;> simp [rkGround]
  split_ifs <;> simp [CI.print, groundInfo]

end ground

/-! ## `zvs2zkcs` -/

section zkcs
variable {K : Type*} [Field K] [LinearOrder K] [Zm K]

theorem getConf_congr {c d : Chain K} (h : c.link.map fkResult = d.link.map fkResult) : c.getConf = d.getConf := by
  have : ∀ ls : List (Roki.Link K), ls.flatMap (fun l => l.body.frame.pos.toBuf ++ (Zm.toAA l.body.frame.att).toBuf) =
      (ls.map fkResult).flatMap fun r => r.2.2.1.pos.toBuf ++ (Zm.toAA r.2.2.1.att).toBuf := by
    intro ls; rw [List.flatMap_map]; rfl
  rw [Chain.getConf, Chain.getConf, this, this, h]

theorem zkcsLoop_spec {c : Chain K} (h : c.WF) (ho : setOffset c.link = c.link) :
    ∀ (seq : List (K × List K)) (_ : ∀ s ∈ seq, s.2.length = jointSize c.link) (c' : Chain K) (_ : SameConst c c'),
    ∃ log, zkcsLoop seq c' = some log ∧
      List.Forall₂ (fun s line => ∃ d, c.fk s.2 = some d ∧ line = (s.1, d.getConf)) seq log
  | [], _, _, _ => ⟨[], rfl, .nil⟩
  | s :: seq, hd, c', hc => by
    obtain ⟨d1, d2, f1, f2, e, -⟩ := C07_fk_history_free c c' h hc.shape hc.mass hc.link ho s.2 (hd s (by simp))
    obtain ⟨log, e1, e2⟩ := zkcsLoop_spec h ho seq (fun s hs => hd s (by simp [hs])) d2 (hc.trans (fk_const f2))
    refine ⟨(s.1, d2.getConf) :: log, by simp only [zkcsLoop, f2, e1, bind, Option.bind_some, pure], .cons ⟨d1, f1, ?_⟩ e2⟩
    rw [getConf_congr e]

/-- **C106** `zvs2zkcs` without the name of an output file: one line for each step of the sequence and in its order, for a sequence of any
length, also the empty one.  A line has the duration of the step and the frames of all links that `rkChainFK` gives the chain as it was
read for the vector of this step alone. -/
theorem C106_zkcs (c : Chain K) (h : c.WF) (ho : setOffset c.link = c.link) (seq : List (K × List K))
    (hd : ∀ s ∈ seq, s.2.length = jointSize c.link) :
    ∃ log, zvs2zkcs none seq c = .out (log, none) ∧
      List.Forall₂ (fun s line => ∃ d, c.fk s.2 = some d ∧ line = (s.1, d.getConf)) seq log := by
  obtain ⟨log, e1, e2⟩ := zkcsLoop_spec h ho seq hd c (SameConst.refl c)
  exact ⟨log, by simp [zvs2zkcs, e1], e2⟩

/-- Two steps of two sliders: the heights of the links. -/
example : ∃ log, zvs2zkcs none [((1 : ℚ), [5, 6]), (2, [1, 2])] Sample.sliders = .out (log, none) ∧
    log.map (fun s => (s.1, s.2[2]?, s.2[8]?)) = [(1, some 5, some 11), (2, some 1, some 3)] := by
  refine ⟨_, rfl, by decide +kernel⟩

/-- **C106 fails** with the name of an output file: nothing is ever written.  The tool stops if there is no such file; otherwise
the file stays as it was. -/
theorem C106_file_fails (c : Chain K) (h : c.WF) (ho : setOffset c.link = c.link) (seq old : List (K × List K))
    (hd : ∀ s ∈ seq, s.2.length = jointSize c.link) :
    zvs2zkcs (some none) seq c = .refused ∧ zvs2zkcs (some (some old)) seq c = .out ([], some old) := by
  obtain ⟨log, e1, -⟩ := zkcsLoop_spec h ho seq hd c (SameConst.refl c)
  exact ⟨rfl, by simp [zvs2zkcs, e1]⟩

end zkcs

/-! ## `zvs2zkci` -/

section zkci
variable {K : Type*} [Field K] [LinearOrder K] [IsStrictOrderedRing K] [Zm K] [LawfulZm K]

/-- After `rkChainFK` all displacements are ones that were set. -/
theorem fk_disSet {c d : Chain K} {v : List K} (ho : setOffset c.link = c.link)
    (hl : ∀ l ∈ c.link, LimitsOrdered l.joint.prp) (h : c.fk v = some d) : ∀ l ∈ d.link, DisSet l.joint.prp := by
  simp only [Chain.fk, bind, Option.bind_eq_some_iff] at h
  obtain ⟨ls, e, h⟩ := h
  have hm := (updateFK_map (fun l : Roki.Link K => l.joint.prp) (fun _ _ => rfl) h).1
  have key : ∀ l ∈ ls, DisSet l.joint.prp := by
    intro l hmem
    obtain ⟨i, hi⟩ := List.mem_iff_getElem?.1 hmem
    have hg := (setJointAll_getElem e i).1
    rw [hi, Option.bind_eq_some_iff] at hg
    obtain ⟨l0, h0, h1⟩ := hg
    have hl0 := hl l0 (List.mem_of_getElem? h0)
    rw [Link.setAtOffset] at h1
    split_ifs at h1 with hofs
    · obtain ⟨p, hp, rfl⟩ := setWith_eq_some.1 h1
      exact C04_idempotent _ _ _ hl0 hp
    · rw [Option.some.injEq] at h1
      subst h1
      by_cases hz : 0 < l0.joint.prp.size
      · exact absurd (offset_nonneg ho (List.mem_of_getElem? h0) hz) hofs
      · cases hp : l0.joint.prp <;> rw [hp] at hz <;> simp [Prp.size] at hz
        rfl
  intro l hmem
  have : l.joint.prp ∈ d.link.map fun l => l.joint.prp := List.mem_map_of_mem (f := fun l : Roki.Link K => l.joint.prp) hmem
  rw [hm] at this
  obtain ⟨l', h1, h2⟩ := List.mem_map.1 this
  rw [← h2]
  exact key l' h1

/-- Forward kinematics once more does not move anything. -/
theorem fk_again {c d : Chain K} {v : List K} (h : c.WF) (e : c.fk v = some d) : d.WF ∧ ∃ d', d.updateFK = some d' ∧
    d'.link.map (fun l => (l.joint.prp.getDis, l.body.frame, l.body.wldCOM)) =
      d.link.map (fun l => (l.joint.prp.getDis, l.body.frame, l.body.wldCOM)) ∧ d'.wldCOM = d.wldCOM := by
  simp only [Chain.fk, bind, Option.bind_eq_some_iff] at e
  obtain ⟨ls, e0, e⟩ := e
  have hls : ({ c with link := ls } : Chain K).WF := h.with_link (setJointAll_getElem e0 0).2
  obtain ⟨-, -, -, hd, -⟩ := hls.updateFK e
  obtain ⟨d', e'⟩ := updateFK_total hd
  have hc := updateFK_const e
  have hm := (updateFK_map (fun l : Roki.Link K => (linkFrame l, l.body.mp)) (fun _ _ => rfl) e).1
  obtain ⟨p1, p2⟩ := pose_congr hls hc.shape hc.mass hm e e'
  have q := (updateFK_map (fun l : Roki.Link K => l.joint.prp.getDis) (fun _ _ => rfl) e').1
  refine ⟨hd, d', e', ?_, p2⟩
  refine List.ext_getElem? fun i => ?_
  have x1 := congrArg (fun x => x[i]?) p1
  have x2 := congrArg (fun x => x[i]?) q
  simp only [List.getElem?_map] at x1 x2 ⊢
  cases h1 : d'.link[i]? <;> cases h2 : d.link[i]? <;> simp_all

omit [IsStrictOrderedRing K] [LawfulZm K] in
theorem fk_names {c d : Chain K} {v : List K} (e : c.fk v = some d) :
    d.link.map (fun l => l.name) = c.link.map fun l => l.name := by
  simp only [Chain.fk, bind, Option.bind_eq_some_iff] at e
  obtain ⟨ls, e0, e⟩ := e
  rw [(updateFK_map (fun l : Roki.Link K => l.name) (fun _ _ => rfl) e).1]
  refine List.ext_getElem? fun i => ?_
  obtain ⟨hg, hlen⟩ := setJointAll_getElem e0 i
  rw [List.getElem?_map, List.getElem?_map, ← hg]
  cases h : c.link[i]? with
  | none => rfl
  | some l =>
    have hi : i < ls.length := by rw [hlen]; exact (List.getElem?_eq_some_iff.1 h).1
    rw [h, List.getElem?_eq_getElem hi, Option.bind_some] at hg
    rw [Option.bind_some, hg, Option.map_some, Option.map_some, Option.some.injEq]
    rw [Link.setAtOffset] at hg
    split_ifs at hg
    · obtain ⟨p, hp, hq⟩ := setWith_eq_some.1 hg
      rw [hq]
    · rw [Option.some.injEq] at hg
      rw [hg]

/-- **C106 (partial)** The pose file that `zvs2zkci` prints of the chosen step: read by `rkChainInitReadZTK` into any other copy `m` of the
robot, it gives all joints the displacements, and all links the frames and centres of mass, that `rkChainFK` gives the chain for the
vector of this step.  `c0` is the chain before: the chain that was read, in the pose of the file of argument 4 if it is given.
Missing: a joint that is neutral at this step is not in the file, so that the copy must have it there already. -/
theorem C106_zkci_partial (o : Order) (g : Vec6 K) (init : Option (File K)) (w : Which) (seq : List (K × List K)) (s : K × List K)
    (c c0 m : Chain K) (hinit : (init = none ∧ c0 = c) ∨ ∃ f, init = some f ∧ poseRead o g f c = some c0)
    (hw : c0.WF) (ho : setOffset c0.link = c0.link) (hlim : ∀ l ∈ c0.link, LimitsOrdered l.joint.prp)
    (hn : (c0.link.map fun l => l.name).Nodup) (hs : pick seq w = some s) (hv : s.2.length = jointSize c0.link)
    (hshape : m.shape = c0.shape) (hmass : m.mass = c0.mass) (hlen : m.link.length = c0.link.length)
    (hsame : ∀ (i : ℕ) l k, c0.link[i]? = some l → m.link[i]? = some k → k.name = l.name ∧
      jointConst k.joint.prp = jointConst l.joint.prp ∧ (0 < i → k.org = l.org) ∧ k.body.mp = l.body.mp) :
    ∃ f c1, zvs2zkci o g init w seq c = some f ∧ c0.fk s.2 = some c1 ∧
      ((∀ (i : ℕ) l k, c1.link[i]? = some l → m.link[i]? = some k → l.joint.prp.isNeutral = true →
        DisSet k.joint.prp ∧ k.joint.prp.getDis = l.joint.prp.getDis) →
      ∃ m', poseRead o g f m = some m' ∧ m'.link.length = c1.link.length ∧ m'.wldCOM = c1.wldCOM ∧
        ∀ (i : ℕ) l l', c1.link[i]? = some l → m'.link[i]? = some l' → l'.joint.prp.getDis = l.joint.prp.getDis ∧
          l'.body.frame = l.body.frame ∧ l'.body.wldCOM = l.body.wldCOM) := by
  obtain ⟨c1, -, f1, -⟩ := C07_fk_history_free c0 c0 hw rfl rfl rfl ho s.2 hv
  obtain ⟨hw1, c2, e2, a1, a2⟩ := fk_again hw f1
  have hc := fk_const f1
  have hl1 : c1.link.length = c0.link.length := by simpa using congrArg List.length hc.link
  have hnames : c1.link.map (fun l => l.name) = c0.link.map fun l => l.name := fk_names f1
  have hsame' : ∀ (i : ℕ) l k, c1.link[i]? = some l → m.link[i]? = some k → k.name = l.name ∧
      jointConst k.joint.prp = jointConst l.joint.prp ∧ (0 < i → k.org = l.org) ∧ k.body.mp = l.body.mp := by
    intro i l k h1 h2
    have hi : i < c0.link.length := by rw [← hl1]; exact (List.getElem?_eq_some_iff.1 h1).1
    have h0 := List.getElem?_eq_getElem hi
    have := hsame i _ k h0 h2
    have x1 := congrArg (fun x => x[i]?) hc.link
    have x2 := congrArg (fun x => x[i]?) hnames
    simp only [List.getElem?_map, h0, h1, Option.map_some, Option.some.injEq, fkConst, Prod.mk.injEq] at x1 x2
    rw [x1.1, x1.2.2.1, x1.2.2.2, x2]
    exact this
  have hset := fk_disSet ho hlim f1
  have hn1 : (c1.link.map fun l => l.name).Nodup := by rw [hnames]; exact hn
  obtain ⟨f, hf⟩ : ∃ f, posePrint c1 = some f := by
    obtain ⟨t, ht⟩ := hw1.root
    have hpos : 0 < c1.link.length := hw1.mem.1 (by rw [ht]; simp [LTree.toList])
    obtain ⟨l0, ls, h0⟩ := List.exists_cons_of_ne_nil (List.ne_nil_of_length_pos hpos)
    obtain ⟨f, hf, -⟩ := pose_read o g c1 c1 l0 l0 ls ls h0 h0 hn1 (List.forall₂_same.2 fun l _ => ⟨rfl, rfl⟩)
    exact ⟨f, hf⟩
  refine ⟨f, c1, ?_, f1, fun hneu => ?_⟩
  · rcases hinit with ⟨rfl, rfl⟩ | ⟨fi, rfl, hi⟩
    · simp only [zvs2zkci, hs, f1, hf, bind, Option.bind_some]
    · simp only [zvs2zkci, hs, hi, f1, hf, bind, Option.bind_some]
  · obtain ⟨f', m', g1, g2, g3, g4, g5⟩ := C84_pose_partial o g c1 c2 m hw1 (hshape.trans hc.shape.symm) (hmass.trans hc.mass.symm)
      (by omega) hn1 hsame' hset e2 hneu
    rw [hf, Option.some.injEq] at g1
    subst g1
    refine ⟨m', g2, by omega, g4.trans a2, fun i l l' h1 h2 => ?_⟩
    have hi : i < m.link.length := by
      have := (List.getElem?_eq_some_iff.1 h1).1
      omega
    have x1 := congrArg (fun x => x[i]?) a1
    have hc2 : c2.link.length = c1.link.length := by simpa using congrArg List.length a1
    have h3 : c2.link[i]? = some c2.link[i] := List.getElem?_eq_getElem (by omega)
    obtain ⟨y1, y2, y3, -, -⟩ := g5 i _ _ l' h3 (List.getElem?_eq_getElem hi) h2
    simp only [List.getElem?_map, h1, h3, Option.map_some, Option.some.injEq, Prod.mk.injEq] at x1
    rw [y1, y2, y3, x1.1, x1.2.1, x1.2.2]
    exact ⟨rfl, rfl, rfl⟩

/-- The second of three steps of two sliders, read into the robot in another pose. -/
example (o : Order) : ((zvs2zkci o 0 none (.nth 1) [(1, [5, 6]), (1, [1, 2]), (1, [7, 8])] Sample.sliders).bind fun f =>
    (Sample.sliders.fk [3, 0]).bind fun m => (poseRead o 0 f m).map fun m' =>
      m'.link.map fun l => (l.joint.prp.getDis, l.body.frame.pos.z)) = some [([1], 1), ([2], 3)] := by
  cases o <;> decide +kernel

/-- The last step, with the base moved by a pose file. -/
example (o : Order) : ((zvs2zkci o 0 none .head [(1, [5, 6])] { Sample.sliders with
      link := Sample.sliders.link.map fun l => { l with org := ⟨⟨0, 0, 10⟩, 1⟩ } }).bind fun b =>
    (zvs2zkci o 0 (some b) .last [(1, [5, 6]), (1, [1, 2])] Sample.sliders).bind fun f =>
    (poseRead o 0 f Sample.sliders).map fun m' =>
      m'.link.map fun l => (l.joint.prp.getDis, l.body.frame.pos.z)) = some [([1], 11), ([2], 13)] := by
  cases o <;> decide +kernel

/-- **C106 (partial)** A line that `zvs2zkcs` prints is enough to restore the pose: given to `rkChainSetConf` of any copy `m` of the robot,
it gives all links the frames that they had at this step, now and after `rkChainUpdateFK`.  Missing: the first angle of every universal
joint has to be less than a right angle (see C56). -/
theorem C106_zkcs_restores_partial (c e m : Chain ℝ) (hc : c.WF) (s : ℝ × List ℝ) (he : c.fk s.2 = some e) (hs : m.shape = c.shape)
    (hk : m.link.map confConst = c.link.map confConst) (hrot : ∀ l ∈ c.link, l.org.att.IsRot)
    (ho : setOffset c.link = c.link) (hlim : ∀ l ∈ c.link, LimitsOrdered l.joint.prp)
    (hh : ∀ l ∈ e.link, ∀ q, l.joint.prp = .hooke q → 0 < Real.cos q.dis0) :
    ∃ m1 m2, m.setConf e.getConf = some m1 ∧ m1.updateFK = some m2 ∧
      m1.link.map (fun l => l.body.frame) = e.link.map (fun l => l.body.frame) ∧
      m2.link.map (fun l => l.body.frame) = e.link.map (fun l => l.body.frame) := by
  obtain ⟨hw, e', h1, h2, -⟩ := fk_again hc he
  have hf : e'.link.map (fun l => l.body.frame) = e.link.map fun l => l.body.frame := by
    have := congrArg (List.map fun x => x.2.1) h2
    simpa [Function.comp_def] using this
  have hconf : e'.getConf = e.getConf := by
    have : ∀ ls : List (Roki.Link ℝ), ls.flatMap (fun l => l.body.frame.pos.toBuf ++ (Zm.toAA l.body.frame.att).toBuf) =
        (ls.map fun l => l.body.frame).flatMap fun r => r.pos.toBuf ++ (Zm.toAA r.att).toBuf := by
      intro ls; rw [List.flatMap_map]
    rw [Chain.getConf, Chain.getConf, this, this, hf]
  have hfk := fk_const he
  have hcc : e.link.map confConst = c.link.map confConst := by
    have := congrArg (List.map fun x : (String × List (Option ℝ) × List (Option ℝ)) × ℤ × Frame ℝ × MP ℝ => (x.1, x.2.2.1)) hfk.link
    rw [List.map_map, List.map_map] at this; exact this
  have hrot' : ∀ l ∈ e.link, l.org.att.IsRot := by
    intro l hl
    have : l.org ∈ (e.link.map confConst).map Prod.snd := by
      simp only [List.map_map, List.mem_map]
      exact ⟨l, hl, rfl⟩
    rw [hcc] at this
    simp only [List.map_map, List.mem_map] at this
    obtain ⟨l', h, h'⟩ := this
    have h'' : l'.org = l.org := h'
    rw [← h'']
    exact hrot l' h
  obtain ⟨m1, m2, a1, a2, a3, a4, -⟩ := C56_roundtrip_partial e m e' hw (hs.trans hfk.shape.symm) (hk.trans hcc.symm) hrot' (fk_disSet ho hlim he) hh h1
  rw [hconf] at a1
  exact ⟨m1, m2, a1, a2, a4.trans hf, a3.trans hf⟩

/-- **C106 fails** for an empty sequence: the tool takes the vector of a step that does not exist. -/
theorem C106_empty_fails (o : Order) (g : Vec6 K) (init : Option (File K)) (w : Which) (c : Chain K) :
    zvs2zkci o g init w [] c = none := by
  cases w <;> rfl

end zkci
end Roki
