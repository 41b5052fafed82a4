import Verif.Lemmas.RoundingJacobi
import Verif.Props.RoundingVel
import Verif.Props.Jacobi
import Verif.Props.Reach
set_option autoImplicit false

/-!
# Rounding errors of Jacobian matrices

C138.
-/

namespace Roki
open Spec Rounded

namespace Rounded
variable {rnd : ℝ → ℝ} {v : ℝ}

theorem Inv.mono {u S T : ℝ} {m n : ℕ} {F' F : Frame ℝ} (hu : 0 ≤ u) (h : Inv u m S F' F) (hm : m ≤ n) (hS : S ≤ T) : Inv u n T F' F := by
  have hp := pow_mono hu hm
  have h1 : 1 ≤ (1 + u) ^ m := one_le_pow₀ (by linarith)
  have hS0 : 0 ≤ S := (len_nonneg _).trans h.far
  exact ⟨h.rot, h.att.mono (by linarith), h.far.trans hS, h.pos.trans (mul_le_mul (by linarith) hS hS0 (by linarith))⟩

/-- What rounded forward kinematics keeps. -/
theorem updateFrame_keeps {d d1 : Chain ℝ} (hw : d.WF) (e : Rounded.updateFrame rnd d = some d1) :
    d1.shape = d.shape ∧ d1.link.map (fun l => (l.org, l.body.mp.com, l.joint.prp, l.offset)) = d.link.map (fun l => (l.org, l.body.mp.com, l.joint.prp, l.offset)) := by
  obtain ⟨ls', e1, -, hk, -⟩ := pass hw (fun pwf l => updateFrame1 rnd l pwf) (fun l => l.body.frame) Frame.ident
    (fun l => (l.org, l.body.mp.com, l.joint.prp, l.offset)) (fun _ _ => rfl) (fun _ => True) (fun _ _ => trivial)
  simp only [Rounded.updateFrame, e1, Option.map_some, Option.some.injEq] at e
  subst e
  exact ⟨rfl, hk⟩

theorem prefix_sum {ns ms : List (Link ℝ)} (h : ns <+: ms) : (ns.map extent).sum ≤ (ms.map extent).sum := by
  obtain ⟨r, rfl⟩ := h
  rw [List.map_append, List.sum_append]
  have : 0 ≤ (r.map extent).sum := List.sum_nonneg fun x hx => by
    obtain ⟨m, -, rfl⟩ := List.mem_map.1 hx
    exact add_nonneg (len_nonneg _) (len_nonneg _)
  linarith

/-- Every link on a path after forward kinematics. -/
theorem on_path (hv : 0 ≤ v) (hv1 : v ≤ 1 / 100) (hr : RelError rnd v) (c d : Chain ℝ) (h : c.WF) (hs : d.shape = c.shape)
    (hd : List.Forall₂ (NearLinkJ v) c.link d.link) (hrot : ∀ l ∈ c.link, l.org.att.IsRot ∧ l.joint.prp.WF) :
    ∃ c1 d1, c.updateFK = some c1 ∧ Rounded.updateFrame rnd d = some d1 ∧ c1.shape = c.shape ∧ d1.shape = c.shape ∧
      ∀ (path : List ℕ) (i : ℕ) (ms : List (Link ℝ)), IsPath c.shape (path ++ [i]) → (path ++ [i]).map (fun j => c.link[j]?) = ms.map some →
        ∀ j ∈ path ++ [i], ∃ l l', c1.link[j]? = some l ∧ d1.link[j]? = some l' ∧ NearLinkJ v l l' ∧ (jointFrame l.joint.prp).att.IsRot ∧
          Inv (13 * v) (2 * ms.length) (ms.map extent).sum l'.body.frame l.body.frame := by
  have hd' : List.Forall₂ (NearLink v) c.link d.link := hd.imp fun _ _ h => h.toNearLink
  obtain ⟨c1, d1, e1, e2, H⟩ := C127_forward_kinematics hv hv1 hr c d h hs hd' hrot
  have hlen := hd.length_eq
  have hw : d.WF := by
    refine ⟨by rw [hs]; exact h.root, ?_⟩
    rw [hs, ← hlen]; exact h.perm
  obtain ⟨s2, k2⟩ := updateFrame_keeps hw e2
  obtain ⟨c1', e1', s1, k1, -, hpath⟩ := C06_fk_composition c h
  rw [e1] at e1'; cases e1'
  refine ⟨c1, d1, e1, e2, s1, s2.trans hs, fun path i ms hp hms j hj => ?_⟩
  -- the part of the path that ends at link `j`
  obtain ⟨a, b, hab⟩ := List.append_of_mem hj
  have hab' : path ++ [i] = (a ++ [j]) ++ b := by rw [hab]; simp
  have hpj : IsPath c.shape (a ++ [j]) := Jacobi.isPath_take (by rw [← hab']; exact hp) (by simp)
  obtain ⟨ns, rs, hmn, hns, -⟩ : ∃ ns rs : List (Link ℝ), ms = ns ++ rs ∧ (a ++ [j]).map (fun j => c.link[j]?) = ns.map some ∧ b.map (fun j => c.link[j]?) = rs.map some := by
    rw [hab', List.map_append] at hms
    obtain ⟨x, y, e, hx, hy⟩ := List.map_eq_append_iff.1 hms.symm
    exact ⟨x, y, e, hx.symm, hy.symm⟩
  have hin : j < c.link.length := h.mem.1 (hp.mem j hj)
  have n1 : c1.link.length = c.link.length := by simpa using congrArg List.length k1
  have n2 : d1.link.length = d.link.length := by simpa using congrArg List.length k2
  obtain ⟨l, hl⟩ : ∃ l, c1.link[j]? = some l := ⟨_, List.getElem?_eq_getElem (by omega)⟩
  obtain ⟨l', hl'⟩ : ∃ l', d1.link[j]? = some l' := ⟨_, List.getElem?_eq_getElem (by omega)⟩
  obtain ⟨x, hx⟩ : ∃ x, c.link[j]? = some x := ⟨_, List.getElem?_eq_getElem hin⟩
  obtain ⟨y, hy⟩ : ∃ y, d.link[j]? = some y := ⟨_, List.getElem?_eq_getElem (by omega)⟩
  have hxy : NearLinkJ v x y := by
    obtain ⟨p1, q1⟩ := List.getElem?_eq_some_iff.1 hx
    obtain ⟨p2, q2⟩ := List.getElem?_eq_some_iff.1 hy
    have := (List.forall₂_iff_get.1 hd).2 j p1 p2
    simpa only [List.get_eq_getElem, q1, q2] using this
  have kl := congrArg (fun t => t[j]?) k1
  simp only [List.getElem?_map, hl, hx, Option.map_some, Option.some.injEq] at kl
  have kl' := congrArg (fun t => t[j]?) k2
  simp only [List.getElem?_map, hl', hy, Option.map_some, Option.some.injEq, Prod.mk.injEq] at kl'
  have o1 : l.org = x.org := by have := congrArg Link.org kl; simpa [eraseFK] using this
  have o2 : l.joint = x.joint := by have := congrArg Link.joint kl; simpa [eraseFK] using this
  have o3 : l.offset = x.offset := by have := congrArg Link.offset kl; simpa [eraseFK] using this
  have o4 : l.body.mp.com = x.body.mp.com := show (eraseFK l).body.mp.com = (eraseFK x).body.mp.com from congrArg (fun l : Link ℝ => l.body.mp.com) kl
  obtain ⟨q1, q2, q3, q4⟩ := kl'
  refine ⟨l, l', hl, hl', ⟨⟨?_, ?_, ?_⟩, ?_, ?_⟩, ?_, ?_⟩
  · rw [q1, hxy.org, o1]
  · rw [q2, hxy.com, o4]
  · rw [q3, o2]; exact hxy.joint
  · rw [q3, o2]; exact hxy.kind
  · rw [q4, hxy.offset, o3]
  · rw [o2]; exact isRot_jointFrame (hrot x (List.mem_iff_getElem?.2 ⟨j, hx⟩)).2
  · obtain ⟨A, P, -⟩ := H a j ns l l' hpj hns hl hl'
    obtain ⟨⟨ns', hns', hf⟩, -, -⟩ := hpath a j l hpj hl
    have hnn : ns' = ns := List.map_injective_iff.2 (Option.some_injective _) (hns'.symm.trans hns)
    subst hnn
    have hr' : ∀ l ∈ ns', l.org.att.IsRot ∧ (jointFrame l.joint.prp).att.IsRot := by
      intro k hk
      have : some k ∈ (a ++ [j]).map (fun j => c.link[j]?) := by rw [hns']; exact List.mem_map.2 ⟨k, hk, rfl⟩
      obtain ⟨j, -, hj⟩ := List.mem_map.1 this
      obtain ⟨a, b⟩ := hrot k (List.mem_iff_getElem?.2 ⟨j, hj⟩)
      exact ⟨a, isRot_jointFrame b⟩
    have hfr : ∀ f ∈ ns'.map linkFrame, f.att.IsRot := by
      intro f hf
      obtain ⟨k, hk, rfl⟩ := List.mem_map.1 hf
      exact (hr' k hk).1.mul (hr' k hk).2
    refine Inv.mono (by linarith) (m := 2 * ns'.length) (S := (ns'.map extent).sum) ⟨?_, A, ?_, P⟩ ?_ (prefix_sum ⟨rs, hmn.symm⟩)
    · rw [hf]; exact isRot_product hfr
    · have := len_product _ hfr 0
      have e0 : (product (ns'.map linkFrame)).xform 0 = (product (ns'.map linkFrame)).pos := by simp only [Frame.xform]; vec_ring
      rw [e0, ← hf, len_zero, add_zero, List.map_map] at this
      refine this.trans (List.sum_le_sum fun k hk => ?_)
      exact linkFrame_pos (hr' k hk).1
    · rw [hmn, List.length_append]; omega

theorem rel_imp {α β : Type*} {R S : α → β → Prop} (h : ∀ a b, R a b → S a b) {x : Option α} {y : Option β} (hr : Option.Rel R x y) : Option.Rel S x y := by
  cases hr with
  | some h1 => exact .some (h _ _ h1)
  | none => exact .none

theorem lin_col (hv : 0 ≤ v) (hv1 : v ≤ 1 / 100) (hr : RelError rnd v) {n : ℕ} {S s : ℝ} {l l' : Link ℝ} (hn : NearLinkJ v l l')
    (hj : (jointFrame l.joint.prp).att.IsRot) (hI : Inv (13 * v) n S l'.body.frame l.body.frame) {t' t : Vec3 ℝ} (hs : 0 ≤ s) (ht : len t ≤ S + s)
    (ht' : len (t' - t) ≤ ((1 + 13 * v) ^ (n + 2) - 1) * (S + s)) (i : ℕ) :
    Option.Rel (fun a' a => len (a' - a) ≤ ((1 + 13 * v) ^ (2 * n + 4) - 1) * max 1 (2 * S + s)) (linCol rnd l' t' i) (Jacobi.linCol l t i) := by
  have hu : 0 ≤ 13 * v := by linarith
  set G := (1 + 13 * v) ^ n with hG
  have hG1 : 1 ≤ G := one_le_pow₀ (by linarith)
  have hS : 0 ≤ S := (len_nonneg _).trans hI.far
  obtain ⟨ha, hl⟩ := axes hv hv1 hr hG1 hI.rot hI.att hj hn.joint hn.kind i
  have big : 1 ≤ (1 + 13 * v) ^ (2 * n + 4) := one_le_pow₀ (by linarith)
  have e4 : (1 + 13 * v) ^ (2 * n + 4) = G * (1 + 13 * v) * (G * (1 + 13 * v) ^ 2) * (1 + 13 * v) := by rw [hG]; ring
  have up : G * (1 + 13 * v) ≤ (1 + 13 * v) ^ (2 * n + 4) := by rw [hG, ← pow_succ]; exact pow_mono hu (by omega)
  simp only [linCol, Jacobi.linCol]
  generalize linAxis rnd l'.joint.prp i l'.body.frame = x' at hl ⊢
  generalize l.joint.prp.linAxis i l.body.frame = x at hl ⊢
  generalize angAxis rnd l'.joint.prp i l'.body.frame = y' at ha ⊢
  generalize l.joint.prp.angAxis i l.body.frame = y at ha ⊢
  cases hl with
  | some h1 =>
    refine .some (h1.2.trans ?_)
    have := le_max_left 1 (2 * S + s)
    have h0 := mul_le_mul_of_nonneg_left this (show 0 ≤ (1 + 13 * v) ^ (2 * n + 4) - 1 by linarith)
    linarith
  | none =>
    cases ha with
    | none => exact .none
    | some h1 =>
      refine .some ?_
      have hW : len (t - l.body.frame.pos) ≤ 2 * S + s := by
        have e : t - l.body.frame.pos = t + (0 - l.body.frame.pos) := by vec_ring
        have z : (l.body.frame.pos - 0 : Vec3 ℝ) = l.body.frame.pos := by vec_ring
        rw [e]
        refine (len_add _ _).trans ?_
        rw [len_sub_comm, z]
        linarith [hI.far]
      have hW' : len ((t' - l'.body.frame.pos) - (t - l.body.frame.pos)) ≤ (G * (1 + 13 * v) ^ 2 - 1) * (2 * S + s) := by
        have e : (t' - l'.body.frame.pos) - (t - l.body.frame.pos) = (t' - t) + (l.body.frame.pos - l'.body.frame.pos) := by vec_ring
        rw [e]
        refine (len_add _ _).trans ?_
        rw [len_sub_comm l.body.frame.pos]
        have h3 := hI.pos
        rw [← hG] at h3
        rw [pow_add, ← hG] at ht'
        have h4 : (G - 1) * S ≤ (G * (1 + 13 * v) ^ 2 - 1) * S := by
          refine mul_le_mul_of_nonneg_right ?_ hS
          have : 1 ≤ (1 + 13 * v) ^ 2 := one_le_pow₀ (by linarith)
          nlinarith
        linarith
      have hH : 1 ≤ G * (1 + 13 * v) ^ 2 := by rw [hG, ← pow_add]; exact one_le_pow₀ (by linarith)
      have hGu : 1 ≤ G * (1 + 13 * v) := by rw [hG, ← pow_succ]; exact one_le_pow₀ (by linarith)
      have := turn_col hv hv1 hr hGu hH h1 hW hW'
      rw [← e4] at this
      exact this.trans (mul_le_mul_of_nonneg_left (le_max_right _ _) (by linarith))

end Rounded

open Jacobi in
/-- **C138** Let `c` be a robot and `d` the same robot with rounded joint values, and let every addition, subtraction and multiplication of forward kinematics and of the
computation of Jacobian matrices be rounded with a relative error of at most `v`.  Then, for a link at the end of a path of `n` links, no column of the computed angular
Jacobian matrix is further from where it should be than `(1+13v)^(2n+1) - 1`, and no column of the linear one of a point `p` of the link than `(1+13v)^(4n+4) - 1` times
the larger of one and twice the length of the path plus the distance of the point from the origin of the link. -/
theorem C138_jacobians {rnd : ℝ → ℝ} {v : ℝ} (hv : 0 ≤ v) (hv1 : v ≤ 1 / 100) (hr : RelError rnd v) (c d : Chain ℝ) (h : c.WF)
    (hs : d.shape = c.shape) (hd : List.Forall₂ (NearLinkJ v) c.link d.link) (hrot : ∀ l ∈ c.link, l.org.att.IsRot ∧ l.joint.prp.WF) :
    ∃ c1 d1, c.updateFK = some c1 ∧ Rounded.updateFrame rnd d = some d1 ∧
      ∀ (path : List ℕ) (i : ℕ) (ms : List (Link ℝ)) (m : List (Vec3 ℝ)), IsPath c.shape (path ++ [i]) →
        (path ++ [i]).map (fun j => c.link[j]?) = ms.map some →
        (∀ J, Jacobi.wldAng c1 i m = some J → ∃ J', Rounded.wldAng rnd d1 i m = some J' ∧ ColError J' J ((1 + 13 * v) ^ (2 * ms.length + 1) - 1)) ∧
        ∀ p J, Jacobi.wldLin c1 i p m = some J → ∃ J', Rounded.wldLin rnd d1 i p m = some J' ∧
          ColError J' J (((1 + 13 * v) ^ (4 * ms.length + 4) - 1) * max 1 (2 * (ms.map extent).sum + len p)) := by
  obtain ⟨c1, d1, e1, e2, s1, s2, H⟩ := on_path hv hv1 hr c d h hs hd hrot
  refine ⟨c1, d1, e1, e2, fun path i ms m hp hms => ?_⟩
  have hu : 0 ≤ 13 * v := by linarith
  have H := H path i ms hp hms
  have hup := LTree.pathUp_eq hp h.nodup
  have hmem : ∀ j ∈ i :: path.reverse, j ∈ path ++ [i] := fun j hj => by simp at hj ⊢; tauto
  constructor
  · intro J hJ
    have hB : 0 ≤ (1 + 13 * v) ^ (2 * ms.length + 1) - 1 := pow_nonneg' hu _
    have hw := walk_near (B := (1 + 13 * v) ^ (2 * ms.length + 1) - 1) (f' := fun l m => colLoop opSet l (Rounded.angCol rnd l) m)
      (f := fun l m => colLoop opSet l (Jacobi.angCol l) m) (ls' := d1.link) (ls := c1.link) (i :: path.reverse) (fun j hj => by
        obtain ⟨l, l', hl, hl', hn, hjr, hI⟩ := H j (hmem j hj)
        refine ⟨l', l, hl', hl, fun m' m hm => colLoop_near (SameKind.size hn.kind) hn.offset (fun k => ?_) hm⟩
        have := (axes hv hv1 hr (one_le_pow₀ (by linarith)) hI.rot hI.att hjr hn.joint hn.kind k).1
        refine rel_imp (fun a b hab => ?_) this
        rw [pow_succ]; exact hab.2) (zero_near hB m)
    simp only [Jacobi.wldAng, s1, hup, Option.bind_some] at hJ
    rw [hJ] at hw
    simp only [Rounded.wldAng, s2, hup, Option.bind_some]
    generalize walk (fun l m => colLoop opSet l (Rounded.angCol rnd l) m) d1.link (i :: path.reverse) (zero m) = o at hw ⊢
    cases hw with
    | some hw => exact ⟨_, rfl, hw⟩
  · intro p J hJ
    obtain ⟨l0, l0', hl0, hl0', -, -, hI0⟩ := H i (by simp)
    obtain ⟨t1, t2⟩ := point_error hv hv1 hr hI0 (x' := p) (x := p) le_rfl (by rw [sub_self, len_zero]; exact mul_nonneg hu (len_nonneg _))
    have hB : 0 ≤ ((1 + 13 * v) ^ (4 * ms.length + 4) - 1) * max 1 (2 * (ms.map extent).sum + len p) :=
      mul_nonneg (pow_nonneg' hu _) (zero_le_one.trans (le_max_left _ _))
    have hw := walk_near (B := ((1 + 13 * v) ^ (4 * ms.length + 4) - 1) * max 1 (2 * (ms.map extent).sum + len p))
      (f' := fun l m => colLoop opSet l (Rounded.linCol rnd l (Rounded.xform rnd l0'.body.frame p)) m)
      (f := fun l m => colLoop opSet l (Jacobi.linCol l (l0.body.frame.xform p)) m) (ls' := d1.link) (ls := c1.link) (i :: path.reverse) (fun j hj => by
        obtain ⟨l, l', hl, hl', hn, hjr, hI⟩ := H j (hmem j hj)
        refine ⟨l', l, hl', hl, fun m' m hm => colLoop_near (SameKind.size hn.kind) hn.offset (fun k => ?_) hm⟩
        have := lin_col hv hv1 hr hn hjr hI (len_nonneg p) t1 t2 k
        rwa [show 2 * (2 * ms.length) + 4 = 4 * ms.length + 4 by ring] at this) (zero_near hB m)
    simp only [Jacobi.wldLin, s1, hup, hl0, Option.bind_eq_bind, Option.bind_some] at hJ
    rw [hJ] at hw
    simp only [Rounded.wldLin, s2, hup, hl0', Option.bind_eq_bind, Option.bind_some]
    generalize walk (fun l m => colLoop opSet l (Rounded.linCol rnd l (Rounded.xform rnd l0'.body.frame p)) m) d1.link (i :: path.reverse) (zero m) = o at hw ⊢
    cases hw with
    | some hw => exact ⟨_, rfl, hw⟩

/-- A Jacobian matrix with errors in its columns. -/
theorem Rounded.jacMul_error {B : ℝ} (hB : 0 ≤ B) {J' J : List (Vec3 ℝ)} (h : ColError J' J B) :
    ∀ q : List ℝ, len (jacMul J' q - jacMul J q) ≤ B * (q.map abs).sum := by
  have nn : ∀ q : List ℝ, 0 ≤ (q.map abs).sum := fun q => List.sum_nonneg fun x hx => by
    obtain ⟨y, -, rfl⟩ := List.mem_map.1 hx; exact abs_nonneg y
  induction h with
  | nil => intro q; simp only [jacMul, List.zipWith_nil_left, List.sum_nil, sub_self, len_zero]; exact mul_nonneg hB (nn q)
  | @cons a' a J' J h1 h2 ih =>
    intro q
    cases q with
    | nil => simp [jacMul, len_zero]
    | cons x q =>
      have e : jacMul (a' :: J') (x :: q) - jacMul (a :: J) (x :: q) = x • (a' - a) + (jacMul J' q - jacMul J q) := by
        simp only [jacMul, List.zipWith_cons_cons, List.sum_cons]; vec_ring
      rw [e]
      refine (len_add _ _).trans ?_
      rw [len_smul, List.map_cons, List.sum_cons, mul_add]
      have := mul_le_mul_of_nonneg_left h1 (abs_nonneg x)
      linarith [ih q]

/-- **C138** The velocities that a user finds from the computed matrices, for any joint velocity, are wrong by no more than these factors times the sum of the moduli
of the joint velocity. -/
theorem C138_velocity {rnd : ℝ → ℝ} {v : ℝ} (hv : 0 ≤ v) (hv1 : v ≤ 1 / 100) (hr : RelError rnd v) (c d : Chain ℝ) (h : c.WF)
    (hs : d.shape = c.shape) (hd : List.Forall₂ (NearLinkJ v) c.link d.link) (hrot : ∀ l ∈ c.link, l.org.att.IsRot ∧ l.joint.prp.WF)
    (ho : LinkArray.setOffset c.link = c.link) (c1 c2 : Chain ℝ) (g : Vec6 ℝ) (vel acc : List ℝ) (hq : vel.length = LinkArray.jointSize c.link)
    (h1 : c.updateFK = some c1) (h2 : c1.invDyn g vel acc = some c2) (m : List (Vec3 ℝ)) (hm : m.length = LinkArray.jointSize c.link) (path : List ℕ) (i : ℕ)
    (ms : List (Link ℝ)) (l : Link ℝ) (hp : IsPath c.shape (path ++ [i])) (hms : (path ++ [i]).map (fun j => c.link[j]?) = ms.map some)
    (hl : c2.link[i]? = some l) (p : Vec3 ℝ) :
    ∃ d1 J L, Rounded.updateFrame rnd d = some d1 ∧ Rounded.wldAng rnd d1 i m = some J ∧ Rounded.wldLin rnd d1 i p m = some L ∧
      J.length = m.length ∧ L.length = m.length ∧
      len (jacMul J vel - angVel l) ≤ ((1 + 13 * v) ^ (2 * ms.length + 1) - 1) * (vel.map abs).sum ∧
      len (jacMul L vel - pointVelocity l p) ≤
        ((1 + 13 * v) ^ (4 * ms.length + 4) - 1) * max 1 (2 * (ms.map extent).sum + len p) * (vel.map abs).sum := by
  obtain ⟨c1', d1, e1, e2, H⟩ := C138_jacobians hv hv1 hr c d h hs hd hrot
  rw [h1] at e1; cases e1
  obtain ⟨J, a1, a2, a3⟩ := C10_angular_jacobian c c1 c2 g vel acc h hrot ho hq h1 h2 m hm i l hl
  obtain ⟨L, b1, b2, b3⟩ := C11_linear_jacobian c c1 c2 g vel acc h hrot ho hq h1 h2 m hm i l hl p
  obtain ⟨HA, HL⟩ := H path i ms m hp hms
  obtain ⟨J', x1, x2⟩ := HA J a1
  obtain ⟨L', y1, y2⟩ := HL p L b1
  have hu : 0 ≤ 13 * v := by linarith
  refine ⟨d1, J', L', e2, x1, y1, x2.length_eq.trans a2, y2.length_eq.trans b2, ?_, ?_⟩
  · rw [← a3]; exact Rounded.jacMul_error (pow_nonneg' hu _) x2 vel
  · rw [← b3]; exact Rounded.jacMul_error (mul_nonneg (pow_nonneg' hu _) (zero_le_one.trans (le_max_left _ _))) y2 vel

theorem ColError.mono {J' J : List (Vec3 ℝ)} {e f : ℝ} (h : ColError J' J e) (hf : e ≤ f) : ColError J' J f :=
  List.Forall₂.imp (fun _ _ h => h.trans hf) h

/-- **C138** In the arithmetic of `double`, without overflow and underflow, the columns of the angular Jacobian matrix of a link at the end of a path of `n` links are computed
with an error of at most `26 (2n+1) 2^-53` and those of the linear one with an error of at most `104 (n+1) 2^-53` times the larger of one and twice the length of the
path plus the distance of the point from the origin of the link, for paths of up to ten million million links. -/
theorem C138_robot (c d : Chain ℝ) (h : c.WF) (hs : d.shape = c.shape) (hd : List.Forall₂ (NearLinkJ (1 / 2 ^ 53)) c.link d.link)
    (hrot : ∀ l ∈ c.link, l.org.att.IsRot ∧ l.joint.prp.WF) :
    ∃ c1 d1, c.updateFK = some c1 ∧ Rounded.updateFrame nearest d = some d1 ∧
      ∀ (path : List ℕ) (i : ℕ) (ms : List (Link ℝ)) (m : List (Vec3 ℝ)), IsPath c.shape (path ++ [i]) →
        (path ++ [i]).map (fun j => c.link[j]?) = ms.map some → ms.length ≤ 10 ^ 13 →
        (∀ J, Jacobi.wldAng c1 i m = some J → ∃ J', Rounded.wldAng nearest d1 i m = some J' ∧ ColError J' J (26 * (2 * ms.length + 1) / 2 ^ 53)) ∧
        ∀ p J, Jacobi.wldLin c1 i p m = some J → ∃ J', Rounded.wldLin nearest d1 i p m = some J' ∧
          ColError J' J (104 * (ms.length + 1) / 2 ^ 53 * max 1 (2 * (ms.map extent).sum + len p)) := by
  obtain ⟨c1, d1, e1, e2, H⟩ := C138_jacobians (rnd := nearest) (v := 1 / 2 ^ 53) (by positivity) (by norm_num) C127_double c d h hs hd hrot
  refine ⟨c1, d1, e1, e2, fun path i ms m hp hms hn => ?_⟩
  obtain ⟨HA, HL⟩ := H path i ms m hp hms
  have hn' : (ms.length : ℝ) ≤ 10 ^ 13 := by exact_mod_cast hn
  have k1 := Rounded.pow_linear (x := 13 * (1 / 2 ^ 53)) (by positivity) (2 * ms.length + 1) (by
    push_cast
    have : 2 * ((2 * (ms.length : ℝ) + 1) * (13 * (1 / 2 ^ 53))) = 26 * (2 * ms.length + 1) / 2 ^ 53 := by ring
    rw [this, div_le_one (by positivity)]
    linarith)
  have k2 := Rounded.pow_linear (x := 13 * (1 / 2 ^ 53)) (by positivity) (4 * ms.length + 4) (by
    push_cast
    have : 2 * ((4 * (ms.length : ℝ) + 4) * (13 * (1 / 2 ^ 53))) = 104 * (ms.length + 1) / 2 ^ 53 := by ring
    rw [this, div_le_one (by positivity)]
    linarith)
  have f1 : 2 * (((2 * ms.length + 1 : ℕ) : ℝ) * (13 * (1 / 2 ^ 53))) = 26 * (2 * ms.length + 1) / 2 ^ 53 := by push_cast; ring
  have f2 : 2 * (((4 * ms.length + 4 : ℕ) : ℝ) * (13 * (1 / 2 ^ 53))) = 104 * (ms.length + 1) / 2 ^ 53 := by push_cast; ring
  rw [f1] at k1
  rw [f2] at k2
  constructor
  · intro J hJ
    obtain ⟨J', x1, x2⟩ := HA J hJ
    exact ⟨J', x1, ColError.mono x2 k1⟩
  · intro p J hJ
    obtain ⟨J', x1, x2⟩ := HL p J hJ
    exact ⟨J', x1, ColError.mono x2 (mul_le_mul_of_nonneg_right k2 (zero_le_one.trans (le_max_left _ _)))⟩

/-- The sample chain, a tree of four links, with the rounded values of its joints being the exact ones. -/
example : (Sample.chain (K := ℝ)).WF ∧ List.Forall₂ (NearLinkJ (1 / 2 ^ 53)) (Sample.chain (K := ℝ)).link Sample.chain.link ∧
    IsPath (Sample.chain (K := ℝ)).shape [0, 2, 3] := by
  refine ⟨Sample.chain_wf, List.forall₂_same.2 fun l _ => ⟨⟨rfl, rfl, ?_, ?_⟩, ?_, rfl⟩, ?_⟩
  · exact (AttError.refl _).mono (by positivity)
  · rw [sub_self, len_zero]; exact mul_nonneg (by positivity) (len_nonneg _)
  · cases l.joint.prp <;> trivial
  · exact .child (.sibl (.child (.here _ _ _)))

/-- A turning joint that stores the rounded sine and cosine of its angle. -/
example (l : Link ℝ) (d : Dof1 ℝ) (hd : d.s * d.s + d.c * d.c = 1) (hl : l.joint.prp = .revol d) :
    NearLinkJ (1 / 2 ^ 53) l { l with joint := { l.joint with prp := .revol { d with s := nearest d.s, c := nearest d.c } } } := by
  refine ⟨⟨rfl, rfl, ?_⟩, ?_, rfl⟩
  · rw [hl]; exact (C127_stored (by positivity) C127_double d hd).1
  · rw [hl]; trivial

end Roki
