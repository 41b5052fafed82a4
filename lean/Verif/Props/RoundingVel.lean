import Verif.Lemmas.RoundingVel
set_option autoImplicit false

/-!
# Rounding errors of velocities

C130.
-/

namespace Roki
open Spec Rounded

namespace Rounded

/-- A path through a downward pass. -/
theorem gather_down_path {σ : Type*} {f : σ → Link ℝ → Link ℝ} {g : Link ℝ → σ} {ls ls' : List (Link ℝ)} {t : LTree ℕ} {is : List ℕ} (hp : IsPath t is) :
    ∀ {T : LTree (Link ℝ)} {st : σ}, Chain.gather ls t = some T → Chain.gather ls' t = some (T.down f g st) →
    ∃ p q, p.map some = is.map (fun i => ls[i]?) ∧ q.map some = is.map (fun i => ls'[i]?) ∧ LTree.DownPath f g st p q := by
  induction hp with
  | here i a b =>
    intro T st h h'
    obtain ⟨l, x, y, hl, -, -, rfl⟩ := Chain.gather_node.1 h
    obtain ⟨l', x', y', hl', -, -, e⟩ := Chain.gather_node.1 h'
    simp only [LTree.down, LTree.node.injEq] at e
    refine ⟨[l], [f st l], by simp [hl], by simp [hl', e.1], .one _ _⟩
  | child _ ih =>
    intro T st h h'
    obtain ⟨l, x, y, hl, hx, -, rfl⟩ := Chain.gather_node.1 h
    obtain ⟨l', x', y', hl', hx', -, e⟩ := Chain.gather_node.1 h'
    simp only [LTree.down, LTree.node.injEq] at e
    rw [← e.2.1] at hx'
    obtain ⟨p, q, e1, e2, hd⟩ := ih hx hx'
    exact ⟨l :: p, f st l :: q, by simp [hl, e1], by simp [hl', e.1, e2], .cons hd⟩
  | sibl _ ih =>
    intro T st h h'
    obtain ⟨l, x, y, hl, -, hy, rfl⟩ := Chain.gather_node.1 h
    obtain ⟨l', x', y', hl', -, hy', e⟩ := Chain.gather_node.1 h'
    simp only [LTree.down, LTree.node.injEq] at e
    rw [← e.2.2] at hy'
    exact ih hy hy'

theorem down_all {σ : Type*} {f : σ → Link ℝ → Link ℝ} {g : Link ℝ → σ} {P : Link ℝ → Prop} (hP : ∀ st a, P (f st a)) (T : LTree (Link ℝ)) :
    ∀ st, ∀ x ∈ (T.down f g st).toList, P x := by
  induction T with
  | nil => intro st x hx; simp [LTree.down, LTree.toList] at hx
  | node l c s ihc ihs =>
    intro st x hx
    simp only [LTree.down, LTree.toList, List.mem_cons, List.mem_append] at hx
    rcases hx with rfl | hx | hx
    · exact hP _ _
    · exact ihc _ x hx
    · exact ihs _ x hx

/-- A downward pass over a chain: what it keeps, what it establishes, and what it does along a path. -/
theorem pass {c : Chain ℝ} (h : c.WF) {σ α : Type*} (f : σ → Link ℝ → Link ℝ) (g : Link ℝ → σ) (st : σ) (key : Link ℝ → α) (hk : ∀ st a, key (f st a) = key a)
    (P : Link ℝ → Prop) (hP : ∀ st a, P (f st a)) :
    ∃ ls', Chain.downAt f g none c.shape st c.link = some ls' ∧ ls'.length = c.link.length ∧ ls'.map key = c.link.map key ∧ (∀ l ∈ ls', P l) ∧
      ∀ is, IsPath c.shape is → ∃ p q, p.map some = is.map (fun i => c.link[i]?) ∧ q.map some = is.map (fun i => ls'[i]?) ∧ LTree.DownPath f g st p q := by
  obtain ⟨ls', T, hT, e, g', n⟩ := h.downAt f g st
  refine ⟨ls', e, n, ?_, ?_, fun is hp => gather_down_path hp hT g'⟩
  · exact Chain.map_eq_of_gather g' hT n (fun i hi => h.mem.2 (by omega)) key (LTree.down_map_inv (f := f) key hk _ _)
  · intro l hl
    have hperm := Chain.gather_perm g' (by rw [n]; exact h.perm)
    exact down_all hP T st l (hperm.mem_iff.2 hl)

variable {rnd : ℝ → ℝ} {v : ℝ}

theorem path_vel (hv : 0 ≤ v) (hv1 : v ≤ 1 / 100) (hr : RelError rnd v) {x : Vec6 ℝ} {p q : List (Link ℝ)}
    (h : LTree.DownPath (fun pvel (l : Link ℝ) => l.updateVel1 pvel) (fun l : Link ℝ => l.body.vel) x p q) :
    ∀ {x' : Vec6 ℝ} {p' q' : List (Link ℝ)}, LTree.DownPath (fun pvel l => updateVel1 rnd l pvel) (fun l : Link ℝ => l.body.vel) x' p' q' →
      List.Forall₂ (Placed v rnd) p p' → ∀ {m : ℕ} {W L : ℝ}, VInv (13 * v) m W L x' x →
      ∃ l l', q.getLast? = some l ∧ q'.getLast? = some l' ∧
        VInv (13 * v) (m + 5 * p.length) (W + turnRate p) (L + sweepRate W p) l'.body.vel l.body.vel := by
  induction h with
  | one x a =>
    intro x' p' q' h' hf m W L hI
    cases hf with
    | cons ha ht =>
      cases ht
      cases h' with
      | one => refine ⟨_, _, rfl, rfl, ?_⟩; simpa [turnRate, sweepRate] using vel_step hv hv1 hr hI ha
      | cons h' => cases h'
  | @cons x a p q hd ih =>
    intro x' p' q' h' hf m W L hI
    cases hf with
    | cons ha ht =>
      cases h' with
      | one => cases ht; cases hd
      | cons h' =>
        obtain ⟨l, l', e1, e2, hI'⟩ := ih h' ht (vel_step hv hv1 hr hI ha)
        refine ⟨l, l', ?_, ?_, ?_⟩
        · rw [List.getLast?_cons, e1]; rfl
        · rw [List.getLast?_cons, e2]; rfl
        · have a1 : m + 5 + 5 * p.length = m + 5 * (a :: p).length := by simp only [List.length_cons]; ring
          have a2 : W + turning a.joint.prp + turnRate p = W + turnRate (a :: p) := by simp [turnRate, add_assoc]
          have a3 : L + (W * extent a + sliding a.joint.prp) + sweepRate (W + turning a.joint.prp) p = L + sweepRate W (a :: p) := by
            simp [sweepRate, add_assoc]
          rw [a1, a2, a3] at hI'
          exact hI'

theorem rates_congr {ms p : List (Link ℝ)} (h : p.map (fun l => (l.org, l.joint.prp)) = ms.map (fun l => (l.org, l.joint.prp))) :
    turnRate p = turnRate ms ∧ ∀ W, sweepRate W p = sweepRate W ms := by
  induction p generalizing ms with
  | nil => cases ms with
    | nil => exact ⟨rfl, fun _ => rfl⟩
    | cons => cases h
  | cons a p ih => cases ms with
    | nil => cases h
    | cons b ms =>
      simp only [List.map_cons, List.cons.injEq, Prod.mk.injEq] at h
      obtain ⟨⟨h1, h2⟩, h3⟩ := h
      obtain ⟨i1, i2⟩ := ih h3
      unfold turnRate at i1
      exact ⟨by simp [turnRate, h2, i1], fun W => by simp [sweepRate, extent, h1, h2, i2]⟩

end Rounded

/-- **C130** Let `c` be a robot and `d` the same robot with rounded joint values and the same joint velocities, and let every addition and multiplication of forward
kinematics and of the update of velocities be rounded with a relative error of at most `v`.  Then the angular velocity computed for a link at the end of a path of `n`
links is wrong by no more than `(1+13v)^(5n) - 1` times the sum of the rates at which the joints of the path turn, and its linear velocity by no more than this factor
times the speed to which the joints of the path could drive the link. -/
theorem C130_velocities {rnd : ℝ → ℝ} {v : ℝ} (hv : 0 ≤ v) (hv1 : v ≤ 1 / 100) (hr : RelError rnd v) (c d : Chain ℝ) (h : c.WF)
    (hs : d.shape = c.shape) (hd : List.Forall₂ (fun l l' => NearLink v l l' ∧ SameRates l.joint.prp l'.joint.prp) c.link d.link)
    (hrot : ∀ l ∈ c.link, l.org.att.IsRot ∧ l.joint.prp.WF) :
    ∃ c1 c2 d1 d2, c.updateFK = some c1 ∧ c1.updateVel = some c2 ∧ Rounded.updateFrame rnd d = some d1 ∧ Rounded.updateVel rnd d1 = some d2 ∧
      ∀ (path : List ℕ) (i : ℕ) (ms : List (Link ℝ)) (l l' : Link ℝ), IsPath c.shape (path ++ [i]) →
        (path ++ [i]).map (fun j => c.link[j]?) = ms.map some → c2.link[i]? = some l → d2.link[i]? = some l' →
        len (l'.body.vel.ang - l.body.vel.ang) ≤ ((1 + 13 * v) ^ (5 * ms.length) - 1) * turnRate ms ∧
        len (l'.body.vel.lin - l.body.vel.lin) ≤ ((1 + 13 * v) ^ (5 * ms.length) - 1) * sweepRate 0 ms ∧
        len (l'.body.comVel - l.body.comVel) ≤ ((1 + 13 * v) ^ (5 * ms.length + 2) - 1) * (sweepRate 0 ms + turnRate ms * len l.body.mp.com) := by
  have hlen := hd.length_eq
  have hw : d.WF := by
    refine ⟨by rw [hs]; exact h.root, ?_⟩
    rw [hs, ← hlen]; exact h.perm
  let key : Link ℝ → Frame ℝ × Vec3 ℝ × Prp ℝ := fun l => (l.org, l.body.mp.com, l.joint.prp)
  -- forward kinematics
  obtain ⟨la, ea, na, ka, pa, -⟩ := pass h (fun pwf (l : Link ℝ) => l.updateFrame1 pwf) (fun l => l.body.frame) Frame.ident key (fun _ _ => rfl)
    (fun l => l.adj = linkFrame l) (fun st a => xform_eq a.joint.prp a.org)
  obtain ⟨lb, eb, nb, kb, pb, -⟩ := pass hw (fun pwf (l : Link ℝ) => updateFrame1 rnd l pwf) (fun l => l.body.frame) Frame.ident key (fun _ _ => rfl)
    (fun l => l.adj = jointXform rnd l.joint.prp l.org) (fun _ _ => rfl)
  let c1 : Chain ℝ := ({ c with link := la } : Chain ℝ).calcCOM
  let d1 : Chain ℝ := { d with link := lb }
  have hc1 : c1.WF := ⟨(h.with_link na).root, (h.with_link na).perm⟩
  have hd1 : d1.WF := hw.with_link nb
  have s1 : d1.shape = c1.shape := hs
  -- velocities
  obtain ⟨le, ee, ne, ke, pe, xe⟩ := pass hc1 (fun pvel (l : Link ℝ) => l.updateVel1 pvel) (fun l => l.body.vel) 0 key (fun _ _ => rfl)
    (fun l => l.body.comVel = l.body.vel.lin + cross l.body.vel.ang l.body.mp.com) (fun _ _ => rfl)
  obtain ⟨lf, ef, nf, kf, pf, xf⟩ := pass hd1 (fun pvel (l : Link ℝ) => updateVel1 rnd l pvel) (fun l => l.body.vel) 0 key (fun _ _ => rfl)
    (fun l => l.body.comVel = add rnd l.body.vel.lin (outer rnd l.body.vel.ang l.body.mp.com)) (fun _ _ => rfl)
  have look : ∀ {L M : List (Link ℝ)}, L.map key = M.map key → ∀ {i : ℕ} {x : Link ℝ}, L[i]? = some x → ∃ y, M[i]? = some y ∧ key x = key y := by
    intro L M hk i x hx
    have := congrArg (fun t => t[i]?) hk
    simp only [List.getElem?_map, hx, Option.map_some] at this
    cases hy : M[i]? with
    | none => rw [hy] at this; cases this
    | some y => rw [hy] at this; exact ⟨y, rfl, Option.some.inj this⟩
  have placed : ∀ (i : ℕ) (x y : Link ℝ), la[i]? = some x → lb[i]? = some y → Placed v rnd x y := by
    intro i x y hx hy
    obtain ⟨x0, hx0, kx⟩ := look ka hx
    obtain ⟨y0, hy0, ky⟩ := look kb hy
    simp only [key, Prod.mk.injEq] at kx ky
    obtain ⟨hj, e1⟩ := List.getElem?_eq_some_iff.1 hx0
    obtain ⟨hj', e2⟩ := List.getElem?_eq_some_iff.1 hy0
    have := (List.forall₂_iff_get.1 hd).2 i hj hj'
    simp only [List.get_eq_getElem, e1, e2] at this
    obtain ⟨hn, hsr⟩ := this
    obtain ⟨r1, r2⟩ := hrot x0 (List.mem_of_getElem? hx0)
    refine ⟨⟨?_, ?_, ?_⟩, ?_, ?_, ?_, pa x (List.mem_of_getElem? hx), pb y (List.mem_of_getElem? hy)⟩
    · rw [kx.1, ky.1, hn.org]
    · rw [kx.2.1, ky.2.1, hn.com]
    · rw [kx.2.2, ky.2.2]; exact hn.joint
    · rw [kx.2.2, ky.2.2]; exact hsr
    · rw [kx.1]; exact r1
    · rw [kx.2.2]; exact r2
  refine ⟨c1, { c1 with link := le }, d1, { d1 with link := lf }, ?_, ?_, ?_, ?_, ?_⟩
  · simp only [Chain.updateFK, Chain.updateFrame, Chain.updateFrameAt, ea, Option.map_some]; rfl
  · simp only [Chain.updateVel, Chain.updateVelAt, ee, Option.map_some]
  · simp only [Rounded.updateFrame, eb, Option.map_some]; rfl
  · simp only [Rounded.updateVel, ef, Option.map_some]
  intro path i ms l l' hp hms hl hl'
  obtain ⟨p, q, p1, q1, dp⟩ := xe _ hp
  obtain ⟨p', q', p1', q1', dp'⟩ := xf (path ++ [i]) (by rw [s1]; exact hp)
  have hpl : List.Forall₂ (Placed v rnd) p p' := by
    have e1 : p.length = p'.length := by
      have a := congrArg List.length p1
      have b := congrArg List.length p1'
      simp only [List.length_map] at a b
      rw [a, b]
    refine List.forall₂_iff_get.2 ⟨e1, fun k hk hk' => ?_⟩
    have a := congrArg (fun t => t[k]?) p1
    have b := congrArg (fun t => t[k]?) p1'
    simp only [List.getElem?_map, List.getElem?_eq_getElem hk, List.getElem?_eq_getElem hk', Option.map_some] at a b
    cases hj : (path ++ [i])[k]? with
    | none => rw [hj] at a; cases a
    | some j =>
      rw [hj] at a b
      exact placed j _ _ (Option.some.inj a).symm (Option.some.inj b).symm
  have hkey : p.map key = ms.map key := by
    have a : (p.map some).map (Option.map key) = (ms.map some).map (Option.map key) := by
      rw [p1, ← hms, List.map_map, List.map_map]
      apply List.map_congr_left
      intro j _
      have := congrArg (fun t => t[j]?) ka
      simp only [List.getElem?_map] at this
      exact this
    simp only [List.map_map] at a
    have b := congrArg (List.filterMap _root_.id) a
    simpa [List.filterMap_map, Function.comp_def] using b
  have hrates := rates_congr (ms := ms) (p := p) (by
    have := congrArg (List.map fun k : Frame ℝ × Vec3 ℝ × Prp ℝ => (k.1, k.2.2)) hkey
    simpa [Function.comp_def, key] using this)
  have hlenp : p.length = ms.length := by simpa using congrArg List.length hkey
  have start : VInv (13 * v) 0 0 0 (0 : Vec6 ℝ) (0 : Vec6 ℝ) :=
    ⟨len_zero.le, len_zero.le, by simp [len_zero], by simp [len_zero]⟩
  obtain ⟨x, x', ex, ex', hI⟩ := path_vel hv hv1 hr dp dp' hpl start
  have hx : x = l := by
    have : (q.map some).getLast? = some (some l) := by rw [q1]; simp [hl]
    rw [List.getLast?_map, ex] at this
    simpa using this
  have hx' : x' = l' := by
    have : (q'.map some).getLast? = some (some l') := by rw [q1']; simp [hl']
    rw [List.getLast?_map, ex'] at this
    simpa using this
  subst hx hx'
  rw [hrates.1, hrates.2, zero_add, zero_add, zero_add, hlenp] at hI
  refine ⟨hI.angErr, hI.linErr, ?_⟩
  have hcom : x'.body.mp.com = x.body.mp.com := by
    obtain ⟨y, hy, ky⟩ := look ke hl
    obtain ⟨y', hy', ky'⟩ := look kf hl'
    simp only [key, Prod.mk.injEq] at ky ky'
    rw [ky.2.1, ky'.2.1, (placed i y y' hy hy').near.com]
  rw [pe x (List.mem_of_getElem? hl), pf x' (List.mem_of_getElem? hl'), hcom, pow_add]
  refine (sweep_error hv hv1 hr ?_ hI.lin hI.linErr hI.ang hI.angErr le_rfl ?_).2
  · exact one_le_pow₀ (by linarith)
  · rw [sub_self, len_zero]; exact mul_nonneg (by linarith) (len_nonneg _)

theorem Rounded.turning_nonneg (p : Prp ℝ) : 0 ≤ turning p := by
  cases p <;> simp only [turning] <;> first | exact le_rfl | exact abs_nonneg _ | exact Real.sqrt_nonneg _ | exact len_nonneg _

theorem Rounded.sliding_nonneg (p : Prp ℝ) : 0 ≤ sliding p := by
  cases p <;> simp only [sliding] <;> first | exact le_rfl | exact abs_nonneg _ | exact len_nonneg _

theorem Rounded.sweepRate_nonneg : ∀ (ms : List (Link ℝ)) {w : ℝ}, 0 ≤ w → 0 ≤ sweepRate w ms
  | [], _, _ => le_rfl
  | l :: ms, w, hw => by
    have h1 := mul_nonneg hw (show 0 ≤ extent l from add_nonneg (len_nonneg _) (len_nonneg _))
    have h2 := sliding_nonneg l.joint.prp
    have h3 := sweepRate_nonneg ms (add_nonneg hw (turning_nonneg l.joint.prp))
    simp only [sweepRate]; linarith

/-- **C130** In the arithmetic of `double`, without overflow and underflow, the velocity of a link at the end of a path of `n` links is computed with an error of at
most `130 n 2^-53` times the rates of the joints of the path, for paths of up to ten million million links. -/
theorem C130_robot (c d : Chain ℝ) (h : c.WF) (hs : d.shape = c.shape)
    (hd : List.Forall₂ (fun l l' => NearLink (1 / 2 ^ 53) l l' ∧ SameRates l.joint.prp l'.joint.prp) c.link d.link)
    (hrot : ∀ l ∈ c.link, l.org.att.IsRot ∧ l.joint.prp.WF) :
    ∃ c1 c2 d1 d2, c.updateFK = some c1 ∧ c1.updateVel = some c2 ∧ Rounded.updateFrame nearest d = some d1 ∧ Rounded.updateVel nearest d1 = some d2 ∧
      ∀ (path : List ℕ) (i : ℕ) (ms : List (Link ℝ)) (l l' : Link ℝ), IsPath c.shape (path ++ [i]) →
        (path ++ [i]).map (fun j => c.link[j]?) = ms.map some → c2.link[i]? = some l → d2.link[i]? = some l' → ms.length ≤ 10 ^ 13 →
        len (l'.body.vel.ang - l.body.vel.ang) ≤ 130 * ms.length / 2 ^ 53 * turnRate ms ∧
        len (l'.body.vel.lin - l.body.vel.lin) ≤ 130 * ms.length / 2 ^ 53 * sweepRate 0 ms := by
  obtain ⟨c1, c2, d1, d2, e1, e2, e3, e4, H⟩ :=
    C130_velocities (rnd := nearest) (v := 1 / 2 ^ 53) (by positivity) (by norm_num) C127_double c d h hs hd hrot
  refine ⟨c1, c2, d1, d2, e1, e2, e3, e4, fun path i ms l l' hp hms hl hl' hn => ?_⟩
  obtain ⟨a, b, -⟩ := H path i ms l l' hp hms hl hl'
  have hn' : (ms.length : ℝ) ≤ 10 ^ 13 := by exact_mod_cast hn
  have hk := Rounded.pow_linear (x := 13 * (1 / 2 ^ 53)) (by positivity) (5 * ms.length) (by
    push_cast
    have : 2 * (5 * (ms.length : ℝ) * (13 * (1 / 2 ^ 53))) = 130 * ms.length / 2 ^ 53 := by ring
    rw [this, div_le_one (by positivity)]
    linarith)
  have e : 2 * (((5 * ms.length : ℕ) : ℝ) * (13 * (1 / 2 ^ 53))) = 130 * ms.length / 2 ^ 53 := by push_cast; ring
  rw [e] at hk
  refine ⟨a.trans (mul_le_mul_of_nonneg_right hk ?_), b.trans (mul_le_mul_of_nonneg_right hk (Rounded.sweepRate_nonneg ms le_rfl))⟩
  exact List.sum_nonneg fun x hx => by
    obtain ⟨m, -, rfl⟩ := List.mem_map.1 hx
    exact Rounded.turning_nonneg _

theorem Rounded.sameRates_refl (p : Prp ℝ) : SameRates p p := by
  cases p <;> simp [SameRates]

/-- An arm with a moving revolute joint and a wrist with a moving universal joint. -/
noncomputable def Rounded.arm : Chain ℝ :=
  { (Sample.chain : Chain ℝ) with
    link := [Sample.link "base" .fixed Sample.mp1 Frame.ident, Sample.link "arm" (.revol (Sample.dof1 0 2 0 (3 / 5) (4 / 5) none none)) Sample.mp1 ⟨⟨1, 0, 0⟩, 1⟩,
      Sample.link "wrist" (.hooke (Sample.dof2 1 1 0 1 (3 / 5) (4 / 5))) Sample.mp1 ⟨⟨0, 1, 0⟩, 1⟩],
    shape := .node 0 (.node 1 (.node 2 .nil .nil) .nil) .nil }

open Rounded in
/-- The moving arm meets the hypotheses of C130, for example when its rounded values are the exact ones. -/
example : arm.WF ∧ (∀ l ∈ arm.link, l.org.att.IsRot ∧ l.joint.prp.WF) ∧
    List.Forall₂ (fun l l' => NearLink (1 / 2 ^ 53) l l' ∧ SameRates l.joint.prp l'.joint.prp) arm.link arm.link ∧
    IsPath arm.shape [0, 1, 2] ∧ ∃ ms, [0, 1, 2].map (fun j => arm.link[j]?) = ms.map some ∧ 2 ≤ turnRate ms := by
  refine ⟨⟨⟨_, rfl⟩, .refl _⟩, ?_, List.forall₂_same.2 fun l _ => ⟨⟨rfl, rfl, ?_, ?_⟩, Rounded.sameRates_refl _⟩, ?_, [_, _, _], rfl, ?_⟩
  · have h : ∀ l ∈ [Sample.link "base" .fixed Sample.mp1 Frame.ident, Sample.link "arm" (.revol (Sample.dof1 0 2 0 (3 / 5) (4 / 5) none none)) Sample.mp1 ⟨⟨1, 0, 0⟩, 1⟩,
      Sample.link "wrist" (.hooke (Sample.dof2 1 1 0 1 (3 / 5) (4 / 5))) Sample.mp1 (⟨⟨0, 1, 0⟩, 1⟩ : Frame ℝ)], l.org.att.IsRot ∧ l.joint.prp.WF := by
      simp only [List.forall_mem_cons, List.forall_mem_nil, and_true]
      refine ⟨⟨Mat3.isRot_one, trivial⟩, ⟨Mat3.isRot_one, ?_⟩, ⟨Mat3.isRot_one, ?_, ?_⟩, by simp⟩
      · show (3 / 5 : ℝ) * (3 / 5) + (4 / 5) * (4 / 5) = 1; norm_num
      · show (0 : ℝ) * 0 + 1 * 1 = 1; norm_num
      · show (3 / 5 : ℝ) * (3 / 5) + (4 / 5) * (4 / 5) = 1; norm_num
    exact h
  · exact (AttError.refl _).mono (by positivity)
  · rw [sub_self, len_zero]; exact mul_nonneg (by positivity) (len_nonneg _)
  · exact .child (.child (.here _ _ _))
  · simp only [turnRate, List.map_cons, List.map_nil, List.sum_cons, List.sum_nil, turning, Sample.link, Sample.dof1, Sample.dof2]
    have : |(2 : ℝ)| = 2 := by norm_num
    rw [this]
    have := Real.sqrt_nonneg ((1 : ℝ) ^ 2 + 1 ^ 2)
    linarith

end Roki
