import Verif.Spec.Reach
import Verif.Props.Gradient
import Verif.Props.JointLimits
set_option autoImplicit false

/-!
# Reach of a robot

C124.
-/

namespace Roki
open Spec LinkArray

theorem sqrNorm_nonneg' (v : Vec3 ℝ) : 0 ≤ sqrNorm v := by
  simp only [sqrNorm, dot]; nlinarith [sq_nonneg v.x, sq_nonneg v.y, sq_nonneg v.z]

theorem len_nonneg (v : Vec3 ℝ) : 0 ≤ len v := Real.sqrt_nonneg _

theorem len_sq (v : Vec3 ℝ) : len v ^ 2 = sqrNorm v := Real.sq_sqrt (sqrNorm_nonneg' v)

theorem len_le {v : Vec3 ℝ} {r : ℝ} (hr : 0 ≤ r) (h : sqrNorm v ≤ r ^ 2) : len v ≤ r :=
  (Real.sqrt_le_sqrt h).trans (by rw [Real.sqrt_sq hr])

theorem dot_le_len (v w : Vec3 ℝ) : dot v w ≤ len v * len w := by
  refine (le_abs_self _).trans ?_
  rw [len, len, ← Real.sqrt_mul (sqrNorm_nonneg' v)]
  refine Real.abs_le_sqrt ?_
  have : sqrNorm v * sqrNorm w - dot v w ^ 2 = sqrNorm (cross v w) := by simp only [sqrNorm, dot, cross]; ring
  linarith [sqrNorm_nonneg' (cross v w)]

theorem len_add (v w : Vec3 ℝ) : len (v + w) ≤ len v + len w := by
  refine len_le (add_nonneg (len_nonneg v) (len_nonneg w)) ?_
  have e : sqrNorm (v + w) = sqrNorm v + sqrNorm w + 2 * dot v w := by
    simp only [sqrNorm, dot, Vec3.add_x, Vec3.add_y, Vec3.add_z]; ring
  rw [e, add_sq, len_sq, len_sq]
  linarith [dot_le_len v w]

theorem len_zero : len 0 = 0 := by simp [len, sqrNorm, dot]

theorem len_sub_comm (v w : Vec3 ℝ) : len (v - w) = len (w - v) := by
  simp only [len, sqrNorm, dot, Vec3.sub_x, Vec3.sub_y, Vec3.sub_z]; congr 1; ring

theorem len_rot {R : Mat3 ℝ} (h : R.IsRot) (v : Vec3 ℝ) : len (R.mulVec v) = len v := by
  rw [len, len, sqrNorm, sqrNorm, h.dot_mulVec_mulVec]

theorem len_xform {F : Frame ℝ} (h : F.att.IsRot) (v : Vec3 ℝ) : len (F.xform v) ≤ len F.pos + len v := by
  have := len_add F.pos (F.att.mulVec v)
  rw [len_rot h] at this
  rwa [Frame.xform, add_comm]

theorem len_axis (z : ℝ) : len ⟨0, 0, z⟩ = |z| := by
  simp only [len, sqrNorm, dot]; rw [← Real.sqrt_sq_eq_abs]; congr 1; ring

/-- A point at the end of a path of frames. -/
theorem len_product : ∀ (fs : List (Frame ℝ)), (∀ f ∈ fs, f.att.IsRot) → ∀ p, len ((product fs).xform p) ≤ (fs.map fun f => len f.pos).sum + len p
  | [], _, p => by
    have : (product ([] : List (Frame ℝ))).xform p = p := by simp only [product]; vec_ring
    rw [this]; simp
  | f :: fs, h, p => by
    rw [product, Frame.cascade_xform, List.map_cons, List.sum_cons, add_assoc]
    exact (len_xform (h f (by simp)) _).trans (by linarith [len_product fs (fun g hg => h g (by simp [hg])) p])

theorem linkFrame_pos {l : Link ℝ} (h : l.org.att.IsRot) : len (linkFrame l).pos ≤ len l.org.pos + len (jointFrame l.joint.prp).pos := by
  have := len_add l.org.pos (l.org.att.mulVec (jointFrame l.joint.prp).pos)
  rwa [len_rot h] at this

section
variable [Zm ℝ] [LawfulZm ℝ]

theorem abs_le_of_within {l h x : ℝ} (hw : Within (some l) (some h) x) : |x| ≤ max |l| |h| := by
  obtain ⟨h1, h2⟩ := hw
  have h1 := h1 l rfl
  have h2 := h2 h rfl
  rw [abs_le]
  constructor
  · have := neg_abs_le l; have := le_max_left |l| |h|; linarith
  · have := le_abs_self h; have := le_max_right |l| |h|; linarith

theorem stroke_bound {p p' : Prp ℝ} {v : List ℝ} (hl : LimitsOrdered p) (h : p.setDis v = some p') {s : ℝ} (hs : stroke p = some s) :
    len (jointFrame p').pos ≤ s := by
  have hr := (C04_within_limits p p' v hl h).1
  cases p with
  | fixed => simp only [Prp.setDis, Option.some.injEq] at h; subst h; simp only [stroke, Option.some.injEq] at hs; subst hs; simp [jointFrame, len_zero]
  | revol q =>
    rcases v with _ | ⟨a, v⟩ <;> simp only [Prp.setDis, Option.some.injEq, reduceCtorEq] at h
    subst h; simp only [stroke, Option.some.injEq] at hs; subst hs; simp [jointFrame, len_zero]
  | prism q =>
    rcases v with _ | ⟨a, v⟩ <;> simp only [Prp.setDis, Option.some.injEq, reduceCtorEq] at h
    subst h
    simp only [stroke] at hs
    split at hs <;> simp only [Option.some.injEq, reduceCtorEq] at hs
    rename_i lo hi e1 e2
    subst hs
    simp only [jointFrame, len_axis]
    exact abs_le_of_within (hr 0 _ (some lo) (some hi) rfl (by simp [Prp.getMin, e1]) (by simp [Prp.getMax, e2]))
  | cylin q =>
    rcases v with _ | ⟨a, _ | ⟨b, v⟩⟩ <;> simp only [Prp.setDis, Option.some.injEq, reduceCtorEq] at h
    subst h
    simp only [stroke] at hs
    split at hs <;> simp only [Option.some.injEq, reduceCtorEq] at hs
    rename_i lo hi e1 e2
    subst hs
    simp only [jointFrame, len_axis]
    exact abs_le_of_within (hr 0 _ (some lo) (some hi) rfl (by simp [Prp.getMin, e1]) (by simp [Prp.getMax, e2]))
  | hooke q =>
    rcases v with _ | ⟨a, _ | ⟨b, v⟩⟩ <;> simp only [Prp.setDis, Option.some.injEq, reduceCtorEq] at h
    subst h; simp only [stroke, Option.some.injEq] at hs; subst hs; simp [jointFrame, len_zero]
  | spher q =>
    simp only [stroke, Option.some.injEq] at hs; subst hs
    rcases v with _ | ⟨a, _ | ⟨b, _ | ⟨c, v⟩⟩⟩ <;> simp only [Prp.setDis, Vec3.ofBuf, Option.some.injEq, Option.map_some, Option.map_none, reduceCtorEq] at h
    subst h; simp [jointFrame, len_zero]
  | float q => simp [stroke] at hs
  | brfloat q => simp [stroke] at hs

theorem forall2_get {α β : Type*} {R : α → β → Prop} {l : List α} {m : List β} (h : l.length = m.length)
    (hr : ∀ (k : ℕ) a b, l[k]? = some a → m[k]? = some b → R a b) : List.Forall₂ R l m :=
  List.forall₂_iff_get.2 ⟨h, fun k h1 h2 => hr k _ _ (by simp [h1]) (by simp [h2])⟩

theorem sum_le_forall2 {α β : Type*} {f : α → ℝ} {g : β → ℝ} {l : List α} {m : List β} (h : List.Forall₂ (fun a b => f a ≤ g b) l m) :
    (l.map f).sum ≤ (m.map g).sum := by
  induction h with
  | nil => simp
  | cons h _ ih => simp only [List.map_cons, List.sum_cons]; linarith

/-- **C124** Reach.  Whatever the displacements given to `rkChainFK`, no point of a link gets further from the origin of the world than the lengths
of the original offsets along the path from the root and the strokes that the limits of its joints allow add up to. -/
theorem C124_reach (c : Chain ℝ) (h : c.WF) (ho : setOffset c.link = c.link) (hr : ∀ l ∈ c.link, l.org.att.IsRot)
    (hlim : ∀ l ∈ c.link, LimitsOrdered l.joint.prp) (path : List ℕ) (i : ℕ) (hp : IsPath c.shape (path ++ [i]))
    (ms : List (Link ℝ)) (hms : (path ++ [i]).map (fun j => c.link[j]?) = ms.map some)
    (ds : List ℝ) (hds : ms.map (fun l => stroke l.joint.prp) = ds.map some) (q : List ℝ) (hq : q.length = jointSize c.link) (p : Vec3 ℝ) :
    ∃ x, pointAt c i p q = some x ∧ len x ≤ (ms.map fun l => len l.org.pos).sum + ds.sum + len p := by
  obtain ⟨ls, e⟩ := setJointAll_ok ho hq
  have hlen := (setJointAll_getElem e 0).2
  have hw : Chain.WF { c with link := ls } := h.with_link hlen
  obtain ⟨c1, e1, -, hmap, -, hpath⟩ := C06_fk_composition _ hw
  have hn : c1.link.length = ls.length := by simpa using congrArg List.length hmap
  have hi : i < c.link.length := h.mem.1 (hp.mem i (by simp))
  obtain ⟨l, hl⟩ : ∃ l, c1.link[i]? = some l := ⟨_, List.getElem?_eq_getElem (by omega)⟩
  obtain ⟨⟨ns, hns, hf⟩, -, -⟩ := hpath path i l hp hl
  refine ⟨l.body.frame.xform p, by simp [pointAt, Chain.fk, e, e1, hl], ?_⟩
  -- the links of the path before and after setting the displacements
  have hl1 : ns.length = ms.length := by
    have := congrArg List.length hns; have h2 := congrArg List.length hms
    simp only [List.length_map] at this h2; omega
  have hl2 : ds.length = ms.length := by
    have := congrArg List.length hds; simpa using this.symm
  have key : ∀ (k : ℕ) (n m : Link ℝ), ns[k]? = some n → ms[k]? = some m → n.org = m.org ∧ n.org.att.IsRot ∧ n.joint.prp.WF ∧
      ∀ s, stroke m.joint.prp = some s → len (jointFrame n.joint.prp).pos ≤ s := by
    intro k n m hn' hm'
    have g1 := congrArg (fun t => t[k]?) hns
    have g2 := congrArg (fun t => t[k]?) hms
    simp only [List.getElem?_map, hn', hm', Option.map_some, Option.map_eq_some_iff] at g1 g2
    obtain ⟨j, j1, j2⟩ := g1
    obtain ⟨j', j3, j4⟩ := g2
    rw [j1] at j3; cases j3
    have j5 := (setJointAll_getElem e j).1
    rw [j4, Option.bind_some, j2] at j5
    have hm : m ∈ c.link := List.mem_iff_getElem?.2 ⟨j, j4⟩
    simp only [Link.setAtOffset] at j5
    split_ifs at j5 with hoff
    · obtain ⟨p', hp', rfl⟩ := setWith_eq_some.1 j5
      exact ⟨rfl, hr m hm, setDis_WF _ _ _ hp', fun s hs => stroke_bound (hlim m hm) hp' hs⟩
    · simp only [Option.some.injEq] at j5
      subst j5
      have hz : ¬ 0 < m.joint.prp.size := fun hs => hoff (offset_nonneg ho hm hs)
      have hfx : m.joint.prp = .fixed := by cases hx : m.joint.prp <;> simp [hx, Prp.size] at hz <;> rfl
      refine ⟨rfl, hr m hm, by rw [hfx]; trivial, fun s hs => ?_⟩
      rw [hfx] at hs ⊢
      simp only [stroke, Option.some.injEq] at hs; subst hs; simp [jointFrame, len_zero]
  have hrot : ∀ f ∈ ns.map linkFrame, f.att.IsRot := by
    intro f hf'
    obtain ⟨n, hn', rfl⟩ := List.mem_map.1 hf'
    obtain ⟨k, hk⟩ := List.mem_iff_getElem?.1 hn'
    obtain ⟨m, hm⟩ : ∃ m, ms[k]? = some m := ⟨_, List.getElem?_eq_getElem (hl1 ▸ (List.getElem?_eq_some_iff.1 hk).1)⟩
    obtain ⟨-, k2, k3, -⟩ := key k n m hk hm
    exact isRot_linkFrame k2 k3
  rw [hf]
  refine (len_product _ hrot p).trans ?_
  have hz := sum_le_forall2 (f := fun n : Link ℝ => len (linkFrame n).pos) (g := fun x : Link ℝ × ℝ => len x.1.org.pos + x.2) (l := ns) (m := ms.zip ds)
    (forall2_get (by simp [hl1, hl2]) fun k n x hn' hx => by
      obtain ⟨m, s⟩ := x
      rw [List.getElem?_zip_eq_some] at hx
      obtain ⟨x1, x2⟩ := hx
      obtain ⟨k1, k2, k3, k4⟩ := key k n m hn' x1
      have hs : stroke m.joint.prp = some s := by
        have := congrArg (fun t => t[k]?) hds
        simpa [List.getElem?_map, x1, x2] using this
      have := linkFrame_pos (l := n) k2
      rw [k1] at this
      exact this.trans (by linarith [k4 s hs]))
  rw [List.map_map]
  have hsplit : ((ms.zip ds).map fun x => len x.1.org.pos + x.2).sum = (ms.map fun l => len l.org.pos).sum + ds.sum := by
    clear hz key hrot hf hns hms hds hl1
    induction ms generalizing ds with
    | nil => cases ds <;> simp_all
    | cons m ms ih =>
      cases ds with
      | nil => simp at hl2
      | cons d ds => 
        simp only [List.zip_cons_cons, List.map_cons, List.sum_cons]
        rw [ih ds (by simpa using hl2)]; ring
  rw [hsplit] at hz
  have : (ns.map ((fun f => len f.pos) ∘ linkFrame)).sum = (ns.map fun n => len (linkFrame n).pos).sum := rfl
  linarith
end

/-! ### Joints moved by displacements -/

theorem chord (a b : ℝ) : (Real.cos a - Real.cos b) ^ 2 + (Real.sin a - Real.sin b) ^ 2 ≤ (a - b) ^ 2 := by
  have h := Real.one_sub_sq_div_two_le_cos (x := a - b)
  rw [Real.cos_sub] at h
  nlinarith [Real.sin_sq_add_cos_sq a, Real.sin_sq_add_cos_sq b]

theorem rz_chord (a b : ℝ) (v : Vec3 ℝ) :
    len ((Rz (Real.sin a) (Real.cos a)).mulVec v - (Rz (Real.sin b) (Real.cos b)).mulVec v) ≤ |a - b| * len v := by
  refine len_le (mul_nonneg (abs_nonneg _) (len_nonneg _)) ?_
  rw [mul_pow, sq_abs, len_sq]
  have e : sqrNorm ((Rz (Real.sin a) (Real.cos a)).mulVec v - (Rz (Real.sin b) (Real.cos b)).mulVec v) =
      ((Real.cos a - Real.cos b) ^ 2 + (Real.sin a - Real.sin b) ^ 2) * (v.x ^ 2 + v.y ^ 2) := by
    simp only [sqrNorm, Rz]; vec_ring
  rw [e]
  have h1 := chord a b
  have h2 : v.x ^ 2 + v.y ^ 2 ≤ sqrNorm v := by simp only [sqrNorm, dot]; nlinarith [sq_nonneg v.z]
  exact mul_le_mul h1 h2 (by positivity) (by positivity)

theorem ry_chord (a b : ℝ) (v : Vec3 ℝ) :
    len ((Ry (Real.sin a) (Real.cos a)).mulVec v - (Ry (Real.sin b) (Real.cos b)).mulVec v) ≤ |a - b| * len v := by
  refine len_le (mul_nonneg (abs_nonneg _) (len_nonneg _)) ?_
  rw [mul_pow, sq_abs, len_sq]
  have e : sqrNorm ((Ry (Real.sin a) (Real.cos a)).mulVec v - (Ry (Real.sin b) (Real.cos b)).mulVec v) =
      ((Real.cos a - Real.cos b) ^ 2 + (Real.sin a - Real.sin b) ^ 2) * (v.x ^ 2 + v.z ^ 2) := by
    simp only [sqrNorm, Ry]; vec_ring
  rw [e]
  have h1 := chord a b
  have h2 : v.x ^ 2 + v.z ^ 2 ≤ sqrNorm v := by simp only [sqrNorm, dot]; nlinarith [sq_nonneg v.y]
  exact mul_le_mul h1 h2 (by positivity) (by positivity)



theorem rot_sub (R : Mat3 ℝ) (v w : Vec3 ℝ) : R.mulVec v - R.mulVec w = R.mulVec (v - w) := by vec_ring

theorem len_via (u v w : Vec3 ℝ) : len (u - w) ≤ len (u - v) + len (v - w) := by
  have := len_add (u - v) (v - w)
  have e : u - v + (v - w) = u - w := by vec_ring
  rwa [e] at this

theorem sc (x : ℝ) : Real.sin x * Real.sin x + Real.cos x * Real.cos x = 1 := by
  rw [← sq, ← sq]; exact Real.sin_sq_add_cos_sq x

theorem place_wf {p : Prp ℝ} (hp : Coord p) (o : ℕ) (q v a : List ℝ) : (place p o q v a).WF := by
  cases p <;> simp only [Coord] at hp <;> simp only [place, Prp.WF, sc, and_self]

/-- The joint of a link moves a point at most by its sway. -/
theorem joint_sway {l : Link ℝ} (hp : Coord l.joint.prp) (q q' : List ℝ) (y : Vec3 ℝ) {R : ℝ} (hR : len y ≤ R) :
    len ((jointFrame (place l.joint.prp l.offset.toNat q [] [])).xform y - (jointFrame (place l.joint.prp l.offset.toNat q' [] [])).xform y)
      ≤ sway R q q' l := by
  have hrot : ∀ d : ℝ, |d| * len y ≤ R * |d| := fun d => by
    rw [mul_comm]; exact mul_le_mul_of_nonneg_right hR (abs_nonneg _)
  cases h : l.joint.prp with
  | fixed => simp only [sway, h, place]; exact (len_le le_rfl (le_of_eq (by simp only [sqrNorm]; vec_ring))).trans le_rfl
  | revol d =>
    simp only [sway, h, place, jointFrame, add_zero]
    refine le_trans (le_of_eq ?_) ((rz_chord _ _ y).trans (hrot _))
    congr 1; simp only [Rz]; vec_ring
  | prism d =>
    simp only [sway, h, place, jointFrame, add_zero]
    refine le_of_eq ?_
    rw [← len_axis]
    congr 1; vec_ring
  | cylin d =>
    simp only [sway, h, place, jointFrame, add_zero]
    refine le_trans (le_of_eq ?_) ((len_add ⟨0, 0, q.getD l.offset.toNat 0 - q'.getD l.offset.toNat 0⟩ _).trans
      (add_le_add (le_of_eq (len_axis _)) ((rz_chord (q.getD (l.offset.toNat + 1) 0) (q'.getD (l.offset.toNat + 1) 0) y).trans (hrot _))))
    congr 1; simp only [Rz]; vec_ring
  | hooke d =>
    simp only [sway, h, place, jointFrame, add_zero]
    generalize q.getD l.offset.toNat 0 = a
    generalize q.getD (l.offset.toNat + 1) 0 = b
    generalize q'.getD l.offset.toNat 0 = a'
    generalize q'.getD (l.offset.toNat + 1) 0 = b'
    have e : ∀ M N : Mat3 ℝ, (⟨0, M⟩ : Frame ℝ).xform y - (⟨0, N⟩ : Frame ℝ).xform y = M.mulVec y - N.mulVec y := fun M N => by vec_ring
    rw [e, Mat3.mul_mulVec, Mat3.mul_mulVec]
    refine (len_via _ ((Rz (Real.sin a) (Real.cos a)).mulVec ((Ry (Real.sin b') (Real.cos b')).mulVec y)) _).trans ?_
    rw [rot_sub, len_rot (isRot_Rz (sc a)), mul_add, add_comm]
    refine add_le_add ?_ ((ry_chord _ _ y).trans (hrot _))
    refine (rz_chord _ _ _).trans ?_
    rw [len_rot (isRot_Ry (sc b'))]
    exact hrot _
  | spher _ => simp [h, Coord] at hp
  | float _ => simp [h, Coord] at hp
  | brfloat _ => simp [h, Coord] at hp

theorem joint_travel {l : Link ℝ} (hp : Coord l.joint.prp) (q : List ℝ) :
    len (jointFrame (place l.joint.prp l.offset.toNat q [] [])).pos = travel q l := by
  cases h : l.joint.prp <;> simp [h, Coord] at hp <;> simp [travel, h, place, jointFrame, len_zero, len_axis]

theorem pathFrame_cons (q : List ℝ) (l : Link ℝ) (ms : List (Link ℝ)) (p : Vec3 ℝ) :
    (pathFrame q (l :: ms)).xform p = l.org.xform ((jointFrame (place l.joint.prp l.offset.toNat q [] [])).xform ((pathFrame q ms).xform p)) := by
  rw [← Frame.cascade_xform, ← Frame.cascade_xform]; rfl

theorem travel_nonneg (q : List ℝ) (l : Link ℝ) : 0 ≤ travel q l := by
  unfold travel; split <;> simp

theorem pathFrame_reach (q : List ℝ) : ∀ (ms : List (Link ℝ)), (∀ l ∈ ms, l.org.att.IsRot) → (∀ l ∈ ms, Coord l.joint.prp) → ∀ p,
    len ((pathFrame q ms).xform p) ≤ (ms.map fun l => len l.org.pos + travel q l).sum + len p
  | [], _, _, p => by
    have : (pathFrame q []).xform p = p := by simp only [pathFrame, List.map_nil, product]; vec_ring
    rw [this]; simp
  | l :: ms, hr, hc, p => by
    rw [pathFrame_cons, List.map_cons, List.sum_cons]
    have h1 := len_xform (F := l.org) (hr l (by simp)) ((jointFrame (place l.joint.prp l.offset.toNat q [] [])).xform ((pathFrame q ms).xform p))
    have h2 := len_xform (isRot_jointFrame (place_wf (hc l (by simp)) l.offset.toNat q [] [])) ((pathFrame q ms).xform p)
    rw [joint_travel (hc l (by simp))] at h2
    have h3 := pathFrame_reach q ms (fun m hm => hr m (by simp [hm])) (fun m hm => hc m (by simp [hm])) p
    linarith

theorem pathFrame_sway (q q' : List ℝ) {R : ℝ} : ∀ (ms : List (Link ℝ)), (∀ l ∈ ms, l.org.att.IsRot) → (∀ l ∈ ms, Coord l.joint.prp) → ∀ p,
    (ms.map fun l => len l.org.pos + travel q' l).sum + len p ≤ R →
    len ((pathFrame q ms).xform p - (pathFrame q' ms).xform p) ≤ (ms.map (sway R q q')).sum
  | [], _, _, p, _ => by
    have : (pathFrame q []).xform p - (pathFrame q' []).xform p = 0 := by simp only [pathFrame, List.map_nil, product]; vec_ring
    rw [this]; simp [len_zero]
  | l :: ms, hr, hc, p, hR => by
    have hr' : ∀ m ∈ ms, m.org.att.IsRot := fun m hm => hr m (by simp [hm])
    have hc' : ∀ m ∈ ms, Coord m.joint.prp := fun m hm => hc m (by simp [hm])
    rw [List.map_cons, List.sum_cons] at hR
    have h0 := len_nonneg l.org.pos
    have h1 := travel_nonneg q' l
    have ih := pathFrame_sway q q' ms hr' hc' p (by linarith)
    have h2 := pathFrame_reach q' ms hr' hc' p
    rw [pathFrame_cons, pathFrame_cons, List.map_cons, List.sum_cons]
    generalize (pathFrame q ms).xform p = y at *
    generalize (pathFrame q' ms).xform p = y' at *
    have e : ∀ (F : Frame ℝ) (v w : Vec3 ℝ), F.xform v - F.xform w = F.att.mulVec (v - w) := fun F v w => by vec_ring
    rw [e, len_rot (hr l (by simp))]
    refine (len_via _ ((jointFrame (place l.joint.prp l.offset.toNat q [] [])).xform y') _).trans ?_
    rw [e, len_rot (isRot_jointFrame (place_wf (hc l (by simp)) _ _ _ _))]
    have h3 := joint_sway (hc l (by simp)) q q' y' (R := R) (by linarith)
    linarith

/-- The last link of a path. -/
theorem path_last {c : Chain ℝ} {path : List ℕ} {i : ℕ} {ms : List (Link ℝ)} (h : (path ++ [i]).map (fun j => c.link[j]?) = ms.map some) :
    ∃ m0 m, ms = m0 ++ [m] ∧ OnPath c path m0 ∧ c.link[i]? = some m := by
  rcases List.eq_nil_or_concat ms with rfl | ⟨m0, m, rfl⟩
  · simp at h
  · rw [List.map_append, List.concat_eq_append, List.map_append] at h
    obtain ⟨h1, h2⟩ := List.append_inj' h rfl
    exact ⟨m0, m, by simp, h1, by simpa using h2⟩

theorem place_turned {l : Link ℝ} {q q' : List ℝ} (hp : Coord l.joint.prp) (h : Turned q q' l) :
    jointFrame (place l.joint.prp l.offset.toNat q' [] []) = jointFrame (place l.joint.prp l.offset.toNat q [] []) := by
  cases e : l.joint.prp <;> simp [e, Coord] at hp <;> simp only [Turned, e, add_zero] at h <;> simp only [place, jointFrame]
  · obtain ⟨n, h⟩ := h; rw [h, Real.sin_add_int_mul_two_pi, Real.cos_add_int_mul_two_pi]
  · rw [h]
  · obtain ⟨h0, n, h⟩ := h; rw [h0, h, Real.sin_add_int_mul_two_pi, Real.cos_add_int_mul_two_pi]
  · obtain ⟨⟨m, h0⟩, n, h⟩ := h
    rw [h0, h, Real.sin_add_int_mul_two_pi, Real.cos_add_int_mul_two_pi, Real.sin_add_int_mul_two_pi, Real.cos_add_int_mul_two_pi]

section
variable [Zm ℝ] [LawfulZm ℝ] (hsin : ∀ x : ℝ, Zm.sin x = Real.sin x) (hcos : ∀ x : ℝ, Zm.cos x = Real.cos x)
  (c : Chain ℝ) (h : c.WF) (ho : setOffset c.link = c.link) (hr : ∀ l ∈ c.link, l.org.att.IsRot) (hj : ∀ l ∈ c.link, Coord l.joint.prp)

include hsin hcos h ho hr hj in
/-- **C124** Sensitivity of forward kinematics.  Between two sets of displacements within the limits, a point of a link moves by no more than
the sum over the joints on the path from the root of the distances that the joints slide and `R` times the angles that they turn, where `R` is
at least the lengths of the original offsets and of the slides on the path, and of the point in the frame of the link, together. -/
theorem C124_sensitivity (path : List ℕ) (i : ℕ) (hp : IsPath c.shape (path ++ [i])) (ms : List (Link ℝ))
    (hms : (path ++ [i]).map (fun j => c.link[j]?) = ms.map some) (q q' : List ℝ) (hq : q.length = jointSize c.link)
    (hq' : q'.length = jointSize c.link) (hl : OffLimits c q) (hl' : OffLimits c q') (p x x' : Vec3 ℝ) (R : ℝ)
    (hR : (ms.map fun l => len l.org.pos + travel q' l).sum + len p ≤ R) (hx : pointAt c i p q = some x) (hx' : pointAt c i p q' = some x') :
    len (x - x') ≤ (ms.map (sway R q q')).sum := by
  obtain ⟨m0, m, rfl, h1, h2⟩ := path_last hms
  have hA : Arm c := ⟨h, ho, hr, hj⟩
  have hmem := onPath_mem h1 h2
  rw [(hA.pointAt_eq hsin hcos hq hl hp h1 h2).1 p] at hx
  rw [(hA.pointAt_eq hsin hcos hq' hl' hp h1 h2).1 p] at hx'
  cases hx; cases hx'
  exact pathFrame_sway q q' _ (fun l hl => hr l (hmem l hl)) (fun l hl => hj l (hmem l hl)) p hR

include hsin hcos h ho hr hj in
/-- **C124** Full turns.  Displacements within the limits that differ by full turns of angles on the path from the root to a link put the link
at the same place in the same attitude. -/
theorem C124_full_turns (path : List ℕ) (i : ℕ) (hp : IsPath c.shape (path ++ [i])) (ms : List (Link ℝ))
    (hms : (path ++ [i]).map (fun j => c.link[j]?) = ms.map some) (q q' : List ℝ) (hq : q.length = jointSize c.link)
    (hq' : q'.length = jointSize c.link) (hl : OffLimits c q) (hl' : OffLimits c q') (ht : ∀ l ∈ ms, Turned q q' l) :
    (∀ p, pointAt c i p q' = pointAt c i p q) ∧ attAt c i q' = attAt c i q := by
  obtain ⟨m0, m, rfl, h1, h2⟩ := path_last hms
  have hA : Arm c := ⟨h, ho, hr, hj⟩
  have hmem := onPath_mem h1 h2
  have e : pathFrame q' (m0 ++ [m]) = pathFrame q (m0 ++ [m]) := by
    rw [pathFrame, pathFrame, List.map_map, List.map_map]
    congr 1
    refine List.map_congr_left fun l hl => ?_
    exact congrArg (Frame.cascade l.org) (place_turned (hj l (hmem l hl)) (ht l hl))
  obtain ⟨a1, a2⟩ := hA.pointAt_eq hsin hcos hq hl hp h1 h2
  obtain ⟨b1, b2⟩ := hA.pointAt_eq hsin hcos hq' hl' hp h1 h2
  exact ⟨fun p => by rw [a1, b1, e], by rw [a2, b2, e]⟩

include h ho hr in
/-- **C124** Rigidity.  Whatever the displacements given to `rkChainFK`, and whatever the joints, the distance between two points of a link is
the same. -/
theorem C124_rigid (i : ℕ) (q : List ℝ) (hq : q.length = jointSize c.link) (a b x y : Vec3 ℝ) (hx : pointAt c i a q = some x)
    (hy : pointAt c i b q = some y) : len (x - y) = len (a - b) := by
  obtain ⟨c1, e, hc⟩ := C06_fk_rotation_any c h ho q hq hr
  simp only [pointAt, e, Option.bind_some, Option.map_eq_some_iff] at hx hy
  obtain ⟨l, hl, rfl⟩ := hx
  obtain ⟨l', hl', rfl⟩ := hy
  rw [hl] at hl'; cases hl'
  rw [← len_rot (hc l (List.mem_iff_getElem?.2 ⟨i, hl⟩)).1 (a - b)]
  congr 1; vec_ring
end

namespace Sample
/-- A turntable with a lift on it, which goes from 0 to 1. -/
noncomputable def lifter : Chain ℝ :=
  { link :=
      [ { link "table" (.revol (dof1 0 0 0 0 1 none none)) mp1 Frame.ident with offset := 0 },
        { link "lift" (.prism (dof1 0 0 0 0 1 (some 0) (some 1))) mp1 ⟨⟨0, 0, 1⟩, 1⟩ with offset := 1 } ],
    shape := .node 0 (.node 1 .nil .nil) .nil,
    mass := 2, wldCOM := 0, comVel := 0, comAcc := 0 }
end Sample

/-- The hypotheses of C124 are met by a turntable with a lift, and the bound of its reach is attained. -/
example [Zm ℝ] [LawfulZm ℝ] (hsin : ∀ x : ℝ, Zm.sin x = Real.sin x) (hcos : ∀ x : ℝ, Zm.cos x = Real.cos x) :
    (∀ q, q.length = 2 → ∃ x, pointAt Sample.lifter 1 0 q = some x ∧ len x ≤ 2) ∧
    pointAt Sample.lifter 1 0 [0, 1] = some ⟨0, 0, 2⟩ ∧ len ⟨0, 0, 2⟩ = 2 ∧
    pointAt Sample.lifter 1 0 [0 + (1 : ℤ) * (2 * Real.pi), 1] = pointAt Sample.lifter 1 0 [0, 1] ∧
    (∀ t x x', pointAt Sample.lifter 1 ⟨1, 0, 0⟩ [t, 0] = some x → pointAt Sample.lifter 1 ⟨1, 0, 0⟩ [0, 0] = some x' → len (x - x') ≤ 2 * |t|) := by
  have hw : Sample.lifter.WF := ⟨⟨_, rfl⟩, by decide⟩
  have hmem : ∀ l ∈ Sample.lifter.link, l.org.att.IsRot ∧ LimitsOrdered l.joint.prp ∧ Coord l.joint.prp := by
    intro l hl
    simp only [Sample.lifter, List.mem_cons, List.not_mem_nil, or_false] at hl
    rcases hl with rfl | rfl
    · exact ⟨Mat3.isRot_one, by intro i a b ha hb; rcases i with _ | i <;> simp [Sample.link, Sample.dof1, Prp.getMin] at ha, trivial⟩
    · refine ⟨Mat3.isRot_one, ?_, trivial⟩
      intro i a b ha hb
      rcases i with _ | i <;> simp [Sample.link, Sample.dof1, Prp.getMin, Prp.getMax] at ha hb
      rw [← ha, ← hb]; exact zero_le_one
  have hA : Arm Sample.lifter := ⟨hw, rfl, fun l hl => (hmem l hl).1, fun l hl => (hmem l hl).2.2⟩
  have hp : IsPath Sample.lifter.shape ([0] ++ [1]) := .child (.here 1 _ _)
  have hz : jointSize Sample.lifter.link = 2 := rfl
  have hms : ([0] ++ [1]).map (fun j => Sample.lifter.link[j]?) = Sample.lifter.link.map some := rfl
  have hlim : ∀ x z : ℝ, 0 ≤ z → z ≤ 1 → OffLimits Sample.lifter [x, z] := by
    intro x z h0 h1 l hl
    simp only [Sample.lifter, List.mem_cons, List.not_mem_nil, or_false] at hl
    rcases hl with rfl | rfl <;> simp [Sample.link, Sample.dof1, limit]
    rw [min_eq_left h1, max_eq_left h0]
  have hl2 : len ⟨0, 0, 2⟩ = 2 := by rw [len_axis]; norm_num
  have ho1 : len ⟨0, 0, 1⟩ = 1 := by rw [len_axis]; norm_num
  have hx1 : len ⟨1, 0, 0⟩ = 1 := by norm_num [len, sqrNorm, dot]
  refine ⟨fun q hq => ?_, ?_, hl2, ?_, ?_⟩
  · obtain ⟨x, h1, h2⟩ := C124_reach Sample.lifter hw rfl hA.rot (fun l hl => (hmem l hl).2.1) [0] 1 hp _ hms [0, 1] (by
      simp [Sample.lifter, Sample.link, Sample.dof1, stroke]) q (by rw [hz, hq]) 0
    refine ⟨x, h1, h2.trans ?_⟩
    simp only [Sample.lifter, Sample.link, Frame.ident, List.map_cons, List.map_nil, List.sum_cons, List.sum_nil, len_zero, ho1]
    norm_num
  · rw [(hA.pointAt_eq hsin hcos (q := [0, 1]) rfl (hlim 0 1 zero_le_one le_rfl) (p := [0]) (i := 1) hp (ms := [_]) rfl rfl).1 0]
    simp only [pathFrame, List.map_cons, List.map_nil, List.cons_append, List.nil_append, placed, place, Sample.link, Sample.dof1, linkFrame, jointFrame, product,
      Frame.ident, List.getD_cons_zero, List.getD_cons_succ, Int.toNat, Rz, Real.sin_zero, Real.cos_zero]
    norm_num [Frame.cascade, Frame.xform, Mat3.mulVec, Mat3.mul, Vec3.ext_iff]
  · exact (C124_full_turns hsin hcos Sample.lifter hw rfl hA.rot hA.coord [0] 1 hp _ hms [0, 1] _ rfl rfl (hlim _ _ zero_le_one le_rfl)
      (hlim _ _ zero_le_one le_rfl) (by
        intro l hl
        simp only [Sample.lifter, List.mem_cons, List.not_mem_nil, or_false] at hl
        rcases hl with rfl | rfl
        · exact ⟨1, rfl⟩
        · rfl)).1 0
  · intro t x x' hx hx'
    have := C124_sensitivity hsin hcos Sample.lifter hw rfl hA.rot hA.coord [0] 1 hp _ hms [t, 0] [0, 0] rfl rfl (hlim _ _ le_rfl zero_le_one)
      (hlim _ _ le_rfl zero_le_one) ⟨1, 0, 0⟩ x x' 2 (by
        simp only [Sample.lifter, Sample.link, Frame.ident, List.map_cons, List.map_nil, List.sum_cons, List.sum_nil, len_zero, ho1, hx1, travel]
        norm_num [Sample.dof1]) hx hx'
    simpa [Sample.lifter, Sample.link, sway, Sample.dof1] using this

end Roki
