import Verif.Lemmas.Rounding
import Verif.Props.FK
set_option autoImplicit false

/-!
# Rounding errors of forward kinematics

C127.
-/

namespace Roki
open Spec Rounded

namespace Rounded

/-- The computed frame `F'` and the exact frame `F` after some links: their errors, and how far from the origin the exact one is. -/
structure Inv (u : ℝ) (m : ℕ) (S : ℝ) (F' F : Frame ℝ) : Prop where
  rot : F.att.IsRot
  att : AttError F'.att F.att ((1 + u) ^ m - 1)
  far : len F.pos ≤ S
  pos : len (F'.pos - F.pos) ≤ ((1 + u) ^ m - 1) * S

variable {rnd : ℝ → ℝ} {v : ℝ}

theorem small (hv : 0 ≤ v) (hv1 : v ≤ 1 / 100) : 3 * ((1 + v) ^ 3 - 1) ≤ 13 * v ∧ 2 * ((1 + v) ^ 4 - 1) ≤ 13 * v := by
  constructor
  · nlinarith [mul_nonneg hv hv, mul_nonneg hv (mul_nonneg hv hv)]
  · have : (1 + v) ^ 4 - 1 = v * (4 + 6 * v + 4 * (v * v) + v * (v * v)) := by ring
    rw [this]
    nlinarith [mul_nonneg hv hv, mul_nonneg hv (mul_nonneg hv hv), mul_le_mul_of_nonneg_left hv1 hv]

/-- Transforming a point `x'` that stands for `x` by the computed frame. -/
theorem point_error (hv : 0 ≤ v) (hv1 : v ≤ 1 / 100) (hr : RelError rnd v) {m : ℕ} {S s : ℝ} {F' F : Frame ℝ} (h : Inv (13 * v) m S F' F)
    {x' x : Vec3 ℝ} (hx : len x ≤ s) (hx' : len (x' - x) ≤ 13 * v * s) :
    len (F.xform x) ≤ S + s ∧ len (xform rnd F' x' - F.xform x) ≤ ((1 + 13 * v) ^ (m + 2) - 1) * (S + s) := by
  have hu : 0 ≤ 13 * v := by linarith
  have hB : Bound F'.att ((1 + 13 * v) ^ m) := by
    have := h.att.bound (bound_rot h.rot)
    rwa [add_sub_cancel] at this
  set G := (1 + 13 * v) ^ m with hG
  have hG1 : 1 ≤ G := one_le_pow₀ (by linarith)
  have hs : 0 ≤ s := (len_nonneg x).trans hx
  have hS : 0 ≤ S := (len_nonneg _).trans h.far
  have lx' : len x' ≤ (1 + 13 * v) * s := by
    have : x' = x + (x' - x) := by vec_ring
    rw [this]; exact (len_add _ _).trans (by linarith)
  have lp' : len F'.pos ≤ G * S := by
    have : F'.pos = F.pos + (F'.pos - F.pos) := by vec_ring
    rw [this]; exact (len_add _ _).trans (by linarith [h.far, h.pos])
  constructor
  · have := len_xform h.rot x; linarith [h.far]
  have e : xform rnd F' x' - F.xform x = (xform rnd F' x' - F'.xform x') + ((F'.att.mulVec x' - F.att.mulVec x') + (F.att.mulVec (x' - x) + (F'.pos - F.pos))) := by
    simp only [Frame.xform]; vec_ring
  rw [e]
  refine (len_add _ _).trans ?_
  have e1 := xform_error hv hr hB x'
  have e1' : len (xform rnd F' x' - F'.xform x') ≤ 13 * v * (G * ((1 + 13 * v) * s) + G * S) := by
    refine e1.trans (mul_le_mul (small hv hv1).2 ?_ (add_nonneg (mul_nonneg (by linarith) (len_nonneg _)) (len_nonneg _)) hu)
    exact add_le_add (mul_le_mul_of_nonneg_left lx' (by linarith)) lp'
  have e2 := (len_add (F'.att.mulVec x' - F.att.mulVec x') (F.att.mulVec (x' - x) + (F'.pos - F.pos))).trans
    (add_le_add le_rfl (len_add _ _))
  rw [len_rot h.rot] at e2
  have e3 := (h.att x').trans (mul_le_mul_of_nonneg_left lx' (show 0 ≤ G - 1 by linarith))
  have e4 := h.pos
  rw [← hG] at e4
  have key : 13 * v * (G * ((1 + 13 * v) * s) + G * S) + ((G - 1) * ((1 + 13 * v) * s) + (13 * v * s + (G - 1) * S)) ≤
      (G * (1 + 13 * v) ^ 2 - 1) * (S + s) := by
    have p1 : 0 ≤ G * (13 * v) := mul_nonneg (by linarith) hu
    nlinarith [mul_nonneg p1 hS, mul_nonneg (mul_nonneg p1 hu) hS]
  rw [pow_add]
  linarith

theorem step (hv : 0 ≤ v) (hv1 : v ≤ 1 / 100) (hr : RelError rnd v) {m : ℕ} {S : ℝ} {F' F : Frame ℝ} (h : Inv (13 * v) m S F' F)
    {l l' : Link ℝ} (ho : l.org.att.IsRot) (hj : (jointFrame l.joint.prp).att.IsRot) (hn : NearLink v l l') :
    Inv (13 * v) (m + 2) (S + extent l) (cascade rnd F' (jointXform rnd l'.joint.prp l'.org)) (F.cascade (linkFrame l)) := by
  have hu : 0 ≤ 13 * v := by linarith
  obtain ⟨ja, jp⟩ := joint_error hv hv1 hr ho hj hn
  have lrot : (linkFrame l).att.IsRot := ho.mul hj
  have lx : len (linkFrame l).pos ≤ extent l := linkFrame_pos ho
  obtain ⟨p1, p2⟩ := point_error hv hv1 hr h lx jp
  have hc : (F.cascade (linkFrame l)).pos = F.xform (linkFrame l).pos := add_comm _ _
  refine ⟨h.rot.mul lrot, ?_, by rw [hc]; exact p1, by rw [hc]; exact p2⟩
  have hB : Bound F'.att ((1 + 13 * v) ^ m) := by
    have := h.att.bound (bound_rot h.rot)
    rwa [add_sub_cancel] at this
  have hR := ja.bound (bound_rot lrot)
  have hm := mul_error hv hr hB hR
  intro p
  have e : (cascade rnd F' (jointXform rnd l'.joint.prp l'.org)).att.mulVec p - (F.cascade (linkFrame l)).att.mulVec p =
      ((mul rnd F'.att (jointXform rnd l'.joint.prp l'.org).att).mulVec p - (F'.att.mul (jointXform rnd l'.joint.prp l'.org).att).mulVec p) +
      ((F'.att.mulVec ((jointXform rnd l'.joint.prp l'.org).att.mulVec p) - F.att.mulVec ((jointXform rnd l'.joint.prp l'.org).att.mulVec p)) +
      F.att.mulVec ((jointXform rnd l'.joint.prp l'.org).att.mulVec p - (linkFrame l).att.mulVec p)) := by
    simp only [cascade, Frame.cascade, mul_mulVec', Mat3.mulVec_sub]; vec_ring
  rw [e]
  set G := (1 + 13 * v) ^ m with hG
  have hG1 : 1 ≤ G := one_le_pow₀ (by linarith)
  refine (len_add _ _).trans ((add_le_add le_rfl (len_add _ _)).trans ?_)
  rw [len_rot h.rot]
  have e1 := (hm p).trans (mul_le_mul_of_nonneg_right (mul_le_mul_of_nonneg_right (small hv hv1).1 (show 0 ≤ G * (1 + 13 * v) by positivity)) (len_nonneg p))
  have e2 := (h.att ((jointXform rnd l'.joint.prp l'.org).att.mulVec p)).trans (mul_le_mul_of_nonneg_left (hR p) (show 0 ≤ G - 1 by linarith))
  have e3 := ja p
  have hp := len_nonneg p
  have : (1 + 13 * v) ^ (m + 2) - 1 = 13 * v * (G * (1 + 13 * v)) + ((G - 1) * (1 + 13 * v) + 13 * v) := by rw [pow_add]; ring
  rw [this, add_mul, add_mul]
  linarith

theorem path_error (hv : 0 ≤ v) (hv1 : v ≤ 1 / 100) (hr : RelError rnd v) {F' : Frame ℝ} {p q : List (Link ℝ)}
    (h : LTree.DownPath (fun pwf l => updateFrame1 rnd l pwf) (fun l : Link ℝ => l.body.frame) F' p q) :
    ∀ {ms : List (Link ℝ)}, List.Forall₂ (NearLink v) ms p → (∀ l ∈ ms, l.org.att.IsRot ∧ (jointFrame l.joint.prp).att.IsRot) →
      ∀ {F : Frame ℝ} {m : ℕ} {S : ℝ}, Inv (13 * v) m S F' F → ∃ l' ∈ q.getLast?,
        Inv (13 * v) (m + 2 * ms.length) (S + (ms.map extent).sum) l'.body.frame (F.cascade (product (ms.map linkFrame))) ∧
        l'.body.wldCOM = xform rnd l'.body.frame l'.body.mp.com := by
  induction h with
  | one F' a =>
    intro ms hms hrot F m S hI
    cases hms with
    | cons hn ht =>
      cases ht
      rename_i l
      obtain ⟨ho, hj⟩ := hrot l (by simp)
      refine ⟨_, rfl, ?_, rfl⟩
      have := step hv hv1 hr hI ho hj hn
      simp only [List.length_cons, List.length_nil, List.map_cons, List.map_nil, List.sum_cons, List.sum_nil, add_zero, product]
      have e : (linkFrame l).cascade (⟨0, 1⟩ : Frame ℝ) = linkFrame l := Frame.cascade_ident _
      rw [e]
      exact this
  | @cons F' a p q _ ih =>
    intro ms hms hrot F m S hI
    cases hms with
    | cons hn ht =>
      rename_i l ms
      obtain ⟨ho, hj⟩ := hrot l (by simp)
      obtain ⟨l', hl, hI', hw⟩ := ih ht (fun k hk => hrot k (by simp [hk])) (step hv hv1 hr hI ho hj hn)
      refine ⟨l', ?_, ?_, hw⟩
      · rw [List.getLast?_cons]
        cases hq : q.getLast? with
        | none => rw [hq] at hl; simp at hl
        | some x => rw [hq] at hl; simpa using hl
      · simp only [List.map_cons, cascade_product_cons, List.sum_cons, List.length_cons]
        rw [← add_assoc, show m + 2 * (ms.length + 1) = m + 2 + 2 * ms.length by ring]
        exact hI'

theorem path_key {α : Type*} (key : Link ℝ → α) (hk : ∀ F l, key (updateFrame1 rnd l F) = key l) {F : Frame ℝ} {p q : List (Link ℝ)}
    (h : LTree.DownPath (fun pwf l => updateFrame1 rnd l pwf) (fun l : Link ℝ => l.body.frame) F p q) : q.map key = p.map key := by
  induction h with
  | one st a => simp [hk]
  | cons _ ih => simp only [List.map_cons, ih, hk]

end Rounded

/-- **C127** Let `c` be a robot and `d` the same robot with rounded joint values, and let every addition and multiplication of forward kinematics be rounded
with a relative error of at most `v`.  Then the attitude computed for a link at the end of a path of `n` links turns no vector further from where it should be than
`(1+13v)^(2n) - 1` times its length, and the position is wrong by no more than this factor times the length of the path. -/
theorem C127_forward_kinematics {rnd : ℝ → ℝ} {v : ℝ} (hv : 0 ≤ v) (hv1 : v ≤ 1 / 100) (hr : RelError rnd v) (c d : Chain ℝ) (h : c.WF)
    (hs : d.shape = c.shape) (hd : List.Forall₂ (NearLink v) c.link d.link) (hrot : ∀ l ∈ c.link, l.org.att.IsRot ∧ l.joint.prp.WF) :
    ∃ c1 d1, c.updateFK = some c1 ∧ Rounded.updateFrame rnd d = some d1 ∧
      ∀ (path : List ℕ) (i : ℕ) (ms : List (Link ℝ)) (l l' : Link ℝ), IsPath c.shape (path ++ [i]) →
        (path ++ [i]).map (fun j => c.link[j]?) = ms.map some → c1.link[i]? = some l → d1.link[i]? = some l' →
        AttError l'.body.frame.att l.body.frame.att ((1 + 13 * v) ^ (2 * ms.length) - 1) ∧
        len (l'.body.frame.pos - l.body.frame.pos) ≤ ((1 + 13 * v) ^ (2 * ms.length) - 1) * (ms.map extent).sum ∧
        len (l'.body.wldCOM - l.body.wldCOM) ≤ ((1 + 13 * v) ^ (2 * ms.length + 2) - 1) * ((ms.map extent).sum + len l.body.mp.com) := by
  obtain ⟨c1, e1, -, hst, -, hpath⟩ := C06_fk_composition c h
  have hlen := hd.length_eq
  have hw : d.WF := by
    refine ⟨by rw [hs]; exact h.root, ?_⟩
    rw [hs, ← hlen]; exact h.perm
  obtain ⟨ls', T, hT, e, g', n⟩ := hw.downAt (fun pwf l => updateFrame1 rnd l pwf) (fun l => l.body.frame) Frame.ident
  refine ⟨c1, { d with link := ls' }, e1, by simp [Rounded.updateFrame, e], ?_⟩
  intro path i ms l l' hp hms hl hl'
  obtain ⟨⟨ms', hms', hf⟩, -, hcom⟩ := hpath path i l hp hl
  have hmm : ms' = ms := List.map_injective_iff.2 (Option.some_injective _) (hms'.symm.trans hms)
  subst hmm
  have hp' : IsPath d.shape (path ++ [i]) := by rw [hs]; exact hp
  obtain ⟨q, hq, eq⟩ := Chain.gather_path g' hp'
  obtain ⟨p, hp1, hdp⟩ := LTree.isPath_down hq
  obtain ⟨p0, hp0, ep0⟩ := Chain.gather_path hT hp'
  -- what forward kinematics does not change
  let key : Link ℝ → Frame ℝ × Vec3 ℝ × Prp ℝ := fun l => (l.org, l.body.mp.com, l.joint.prp)
  have hk : ls'.map key = d.link.map key := by
    refine Chain.map_eq_of_gather g' hT n (fun i hi => hw.mem.2 (by omega)) key ?_
    exact LTree.down_map_inv (f := fun pwf l => updateFrame1 rnd l pwf) key (fun _ _ => rfl) _ _
  have hkq : q.map key = p.map key := path_key key (fun _ _ => rfl) hdp
  have hkp : p.map key = p0.map key := by
    rw [← hkq]
    have h3 : (q.map some).map (Option.map key) = (p0.map some).map (Option.map key) := by
      rw [eq, ep0, List.map_map, List.map_map]
      apply List.map_congr_left
      intro j _
      have := congrArg (fun t => t[j]?) hk
      simpa [List.getElem?_map] using this
    simp only [List.map_map] at h3
    have h4 := congrArg (List.filterMap _root_.id) h3
    simpa [List.filterMap_map, Function.comp_def] using h4
  have near0 : List.Forall₂ (NearLink v) ms' p0 := by
    have : ∀ (is : List ℕ) (ms p0 : List (Link ℝ)), is.map (fun j => c.link[j]?) = ms.map some → p0.map some = is.map (fun j => d.link[j]?) →
        List.Forall₂ (NearLink v) ms p0 := by
      intro is
      induction is with
      | nil => intro ms p0 a b; cases ms with
        | nil => cases p0 with
          | nil => exact .nil
          | cons => cases b
        | cons => cases a
      | cons j is ih => intro ms p0 a b; cases ms with
        | nil => cases a
        | cons x ms => cases p0 with
          | nil => cases b
          | cons y p0 =>
            simp only [List.map_cons, List.cons.injEq] at a b
            refine .cons ?_ (ih ms p0 a.2 b.2)
            obtain ⟨hj, ea⟩ := List.getElem?_eq_some_iff.1 a.1
            obtain ⟨hj', eb⟩ := List.getElem?_eq_some_iff.1 b.1.symm
            have := List.forall₂_iff_get.1 hd
            have := this.2 j hj hj'
            simp only [List.get_eq_getElem, ea, eb] at this
            exact this
    exact this _ _ _ hms' ep0
  have near : List.Forall₂ (NearLink v) ms' p := by
    have : ∀ (ms p0 : List (Link ℝ)), List.Forall₂ (NearLink v) ms p0 → ∀ p : List (Link ℝ), p.map key = p0.map key → List.Forall₂ (NearLink v) ms p := by
      intro ms p0 h
      induction h with
      | nil => intro p hkp; cases p with
        | nil => exact .nil
        | cons => cases hkp
      | cons a _ ih => intro p hkp; cases p with
        | nil => cases hkp
        | cons y p =>
          simp only [List.map_cons, List.cons.injEq] at hkp
          refine .cons ?_ (ih p hkp.2)
          obtain ⟨k1, k2⟩ := Prod.mk.inj hkp.1
          obtain ⟨k2, k3⟩ := Prod.mk.inj k2
          exact ⟨k1.trans a.org, k2.trans a.com, by rw [k3]; exact a.joint⟩
    exact this ms' p0 near0 p hkp
  have hr' : ∀ l ∈ ms', l.org.att.IsRot ∧ (jointFrame l.joint.prp).att.IsRot := by
    intro k hk
    have : some k ∈ (path ++ [i]).map (fun j => c.link[j]?) := by rw [hms']; exact List.mem_map.2 ⟨k, hk, rfl⟩
    obtain ⟨j, -, hj⟩ := List.mem_map.1 this
    obtain ⟨a, b⟩ := hrot k (List.mem_iff_getElem?.2 ⟨j, hj⟩)
    exact ⟨a, isRot_jointFrame b⟩
  have start : Rounded.Inv (13 * v) 0 0 Frame.ident (Frame.ident : Frame ℝ) :=
    ⟨Mat3.isRot_one, by simpa using AttError.refl _, by simp [Frame.ident, len_zero], by simp [Frame.ident, len_zero]⟩
  obtain ⟨x, hx, hI, hwc⟩ := path_error hv hv1 hr hdp near hr' start
  have hlast : x = l' := by
    have : (q.map some).getLast? = some (some l') := by rw [eq]; simp [hl']
    rw [List.getLast?_map, Option.mem_def.1 hx] at this
    simpa using this
  subst hlast
  have hid : (Frame.ident : Frame ℝ).cascade (product (ms'.map linkFrame)) = l.body.frame := by rw [hf]; exact Frame.ident_cascade _
  rw [hid, zero_add, zero_add] at hI
  refine ⟨hI.att, hI.pos, ?_⟩
  have hxc : x.body.mp.com = l.body.mp.com := by
    have k1 := congrArg (fun t => t[i]?) hk
    simp only [List.getElem?_map, hl'] at k1
    have k2 := congrArg (fun t => t[i]?) hst
    simp only [List.getElem?_map, hl] at k2
    cases hdi : d.link[i]? with
    | none => rw [hdi] at k1; simp at k1
    | some y =>
      cases hci : c.link[i]? with
      | none => rw [hci] at k2; simp at k2
      | some z =>
        rw [hdi] at k1; rw [hci] at k2
        simp only [Option.map_some, Option.some.injEq, key, Prod.mk.injEq] at k1 k2
        obtain ⟨hj, ea⟩ := List.getElem?_eq_some_iff.1 hci
        obtain ⟨hj', eb⟩ := List.getElem?_eq_some_iff.1 hdi
        have := (List.forall₂_iff_get.1 hd).2 i hj hj'
        simp only [List.get_eq_getElem, ea, eb] at this
        have k3 : l.body.mp.com = z.body.mp.com := show (eraseFK l).body.mp.com = (eraseFK z).body.mp.com from congrArg (fun l : Link ℝ => l.body.mp.com) k2
        rw [k1.2.1, this.com, k3]
  rw [hwc, hcom, hxc]
  exact (point_error hv hv1 hr hI le_rfl (by rw [sub_self, len_zero]; exact mul_nonneg (by linarith) (len_nonneg _))).2

theorem Rounded.pow_linear {x : ℝ} (hx : 0 ≤ x) : ∀ k : ℕ, 2 * (k * x) ≤ 1 → (1 + x) ^ k - 1 ≤ 2 * (k * x)
  | 0, _ => by simp
  | k + 1, h => by
    push_cast at h ⊢
    have ih := pow_linear hx k (by nlinarith)
    rw [pow_succ]
    nlinarith [mul_le_mul_of_nonneg_right ih (show 0 ≤ 1 + x by linarith), mul_le_mul_of_nonneg_right (show 2 * ((k : ℝ) * x) ≤ 1 by nlinarith) hx]

/-- **C127** The arithmetic of `double` rounds with a relative error of at most `2^-53`, apart from overflow and underflow. -/
theorem C127_double : RelError nearest (1 / 2 ^ 53) := by
  intro x
  by_cases hx : x = 0
  · simp [nearest, hx]
  have hpos : 0 < |x| := abs_pos.2 hx
  rw [nearest, if_neg hx]
  set e := Int.log 2 |x| with he
  have h2 : (0 : ℝ) < 2 ^ (e - 52) := zpow_pos (by norm_num) _
  have hlow : (2 : ℝ) ^ e ≤ |x| := by
    have := Int.zpow_log_le_self (b := 2) (by norm_num) hpos
    simpa using this
  have : (round (x / 2 ^ (e - 52)) : ℝ) * 2 ^ (e - 52) - x = -((x / 2 ^ (e - 52) - round (x / 2 ^ (e - 52))) * 2 ^ (e - 52)) := by
    field_simp; ring
  rw [this, abs_neg, abs_mul, abs_of_pos h2]
  have h3 := abs_sub_round (x / 2 ^ (e - 52))
  have h4 : (2 : ℝ) ^ (e - 52) = 2 ^ e / 2 ^ 52 := by rw [zpow_sub₀ (by norm_num)]; norm_num
  have h5 := mul_le_mul_of_nonneg_right h3 h2.le
  refine h5.trans ?_
  rw [h4]
  have : (1 : ℝ) / 2 * (2 ^ e / 2 ^ 52) = 1 / 2 ^ 53 * 2 ^ e := by ring
  rw [this]
  exact mul_le_mul_of_nonneg_left hlow (by positivity)

/-- **C127** In the arithmetic of `double`, without overflow and underflow, the attitude of a link at the end of a path of `n` links is computed with an error of at
most `52 n 2^-53`, and its position with an error of at most `52 n 2^-53` times the length of the path, for paths of up to a hundred million million links. -/
theorem C127_robot (c d : Chain ℝ) (h : c.WF) (hs : d.shape = c.shape) (hd : List.Forall₂ (NearLink (1 / 2 ^ 53)) c.link d.link)
    (hrot : ∀ l ∈ c.link, l.org.att.IsRot ∧ l.joint.prp.WF) : ∃ c1 d1, c.updateFK = some c1 ∧ Rounded.updateFrame nearest d = some d1 ∧
      ∀ (path : List ℕ) (i : ℕ) (ms : List (Link ℝ)) (l l' : Link ℝ), IsPath c.shape (path ++ [i]) →
        (path ++ [i]).map (fun j => c.link[j]?) = ms.map some → c1.link[i]? = some l → d1.link[i]? = some l' → ms.length ≤ 10 ^ 14 →
        AttError l'.body.frame.att l.body.frame.att (52 * ms.length / 2 ^ 53) ∧
        len (l'.body.frame.pos - l.body.frame.pos) ≤ 52 * ms.length / 2 ^ 53 * (ms.map extent).sum := by
  obtain ⟨c1, d1, e1, e2, H⟩ := C127_forward_kinematics (rnd := nearest) (v := 1 / 2 ^ 53) (by positivity) (by norm_num) C127_double c d h hs hd hrot
  refine ⟨c1, d1, e1, e2, fun path i ms l l' hp hms hl hl' hn => ?_⟩
  obtain ⟨a, b, -⟩ := H path i ms l l' hp hms hl hl'
  have hn' : (ms.length : ℝ) ≤ 10 ^ 14 := by exact_mod_cast hn
  have hk := Rounded.pow_linear (x := 13 * (1 / 2 ^ 53)) (by positivity) (2 * ms.length) (by
    push_cast
    have : 2 * (2 * (ms.length : ℝ) * (13 * (1 / 2 ^ 53))) = 52 * ms.length / 2 ^ 53 := by ring
    rw [this, div_le_one (by positivity)]
    linarith)
  have e : 2 * (((2 * ms.length : ℕ) : ℝ) * (13 * (1 / 2 ^ 53))) = 52 * ms.length / 2 ^ 53 := by push_cast; ring
  rw [e] at hk
  refine ⟨a.mono hk, b.trans (mul_le_mul_of_nonneg_right hk ?_)⟩
  exact List.sum_nonneg fun x hx => by
    obtain ⟨m, -, rfl⟩ := List.mem_map.1 hx
    exact add_nonneg (len_nonneg _) (len_nonneg _)

/-- The sample chain, a tree of four links, with the rounded values of its joints being the exact ones. -/
example : (Sample.chain (K := ℝ)).WF ∧ List.Forall₂ (NearLink (1 / 2 ^ 53)) (Sample.chain (K := ℝ)).link Sample.chain.link ∧
    IsPath (Sample.chain (K := ℝ)).shape [0, 2, 3] := by
  refine ⟨Sample.chain_wf, List.forall₂_same.2 fun l _ => ⟨rfl, rfl, ?_, ?_⟩, ?_⟩
  · exact (AttError.refl _).mono (by positivity)
  · rw [sub_self, len_zero]; exact mul_nonneg (by positivity) (len_nonneg _)
  · exact .child (.sibl (.child (.here _ _ _)))

/-- **C127** The hypothesis on what joints store is met when the sine and the cosine of a turning joint and the displacement of a sliding joint are
rounded. -/
theorem C127_stored {rnd : ℝ → ℝ} {v : ℝ} (hv : 0 ≤ v) (hr : RelError rnd v) (d : Dof1 ℝ) (hd : d.s * d.s + d.c * d.c = 1) :
    NearJoint v (.revol d) (.revol { d with s := rnd d.s, c := rnd d.c }) ∧ NearJoint v (.prism d) (.prism { d with dis := rnd d.dis }) := by
  refine ⟨⟨?_, ?_⟩, ⟨?_, ?_⟩⟩
  · intro p
    simp only [jointFrame]
    have e : (Rz (rnd d.s) (rnd d.c)).mulVec p - (Rz d.s d.c).mulVec p =
        ⟨(rnd d.c - d.c) * p.x - (rnd d.s - d.s) * p.y, (rnd d.s - d.s) * p.x + (rnd d.c - d.c) * p.y, 0⟩ := by
      simp only [Rz]; vec_ring
    rw [e]
    refine len_le (mul_nonneg hv (len_nonneg p)) ?_
    rw [mul_pow, len_sq]
    have hsq : ∀ x : ℝ, (rnd x - x) ^ 2 ≤ v ^ 2 * x ^ 2 := fun x => by
      have := pow_le_pow_left₀ (abs_nonneg _) (hr x) 2
      rwa [sq_abs, mul_pow, sq_abs] at this
    have h1 := hsq d.s
    have h2 := hsq d.c
    have h3 : (rnd d.s - d.s) ^ 2 + (rnd d.c - d.c) ^ 2 ≤ v ^ 2 := by
      have : v ^ 2 * d.s ^ 2 + v ^ 2 * d.c ^ 2 = v ^ 2 := by
        rw [← mul_add, show d.s ^ 2 + d.c ^ 2 = 1 by rw [← hd]; ring, mul_one]
      linarith
    simp only [sqrNorm, dot]
    nlinarith [mul_le_mul_of_nonneg_right h3 (add_nonneg (sq_nonneg p.x) (sq_nonneg p.y)), mul_nonneg (sq_nonneg v) (sq_nonneg p.z)]
  · simp only [jointFrame]; rw [sub_self, len_zero]; exact mul_nonneg hv le_rfl
  · simp only [jointFrame]; exact (AttError.refl _).mono hv
  · simp only [jointFrame]
    have e : (⟨0, 0, rnd d.dis⟩ : Vec3 ℝ) - ⟨0, 0, d.dis⟩ = ⟨0, 0, rnd d.dis - d.dis⟩ := by vec_ring
    rw [e, len_axis, len_axis]
    exact hr _

end Roki
