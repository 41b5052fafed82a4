import Verif.Props.RoundingDyn
import Verif.Props.Motion
set_option autoImplicit false

/-!
# Rounding errors of the quantities of the whole robot

C132.
-/

namespace Roki
open Spec

namespace Arith

variable {v : ℝ} {rnd : ℝ → ℝ}

/-- A loop over the links of three runs, which adds one rounding per link. -/
theorem fold3 {σ : Type*} {R : Link ℝ → Link ℝ → Link ℝ → Prop} (P : ℕ → σ → σ → σ → Prop) {f1 f2 f3 : σ → Link ℝ → σ}
    (hf : ∀ n s1 s2 s3 a b c, P n s1 s2 s3 → R a b c → P (n + 1) (f1 s1 a) (f2 s2 b) (f3 s3 c)) (A : List (Link ℝ)) :
    ∀ (B C : List (Link ℝ)) (n : ℕ) (s1 s2 s3 : σ), B.length = A.length → C.length = A.length →
      (∀ (i : ℕ) (a b c : Link ℝ), A[i]? = some a → B[i]? = some b → C[i]? = some c → R a b c) → P n s1 s2 s3 →
      P (n + A.length) (A.foldl f1 s1) (B.foldl f2 s2) (C.foldl f3 s3) := by
  induction A with
  | nil =>
    intro B C n s1 s2 s3 hB hC _ hP
    obtain rfl := List.length_eq_zero_iff.1 hB
    obtain rfl := List.length_eq_zero_iff.1 hC
    exact hP
  | cons a A ih =>
    intro B C n s1 s2 s3 hB hC hR hP
    obtain ⟨b, B, rfl⟩ := List.exists_cons_of_length_eq_add_one hB
    obtain ⟨c, C, rfl⟩ := List.exists_cons_of_length_eq_add_one hC
    simp only [List.length_cons, Nat.add_right_cancel_iff] at hB hC
    have := ih B C (n + 1) _ _ _ hB hC (fun i x y z hx hy hz => hR (i + 1) x y z hx hy hz)
      (hf n s1 s2 s3 a b c hP (hR 0 a b c rfl rfl rfl))
    rw [List.length_cons, show n + (A.length + 1) = n + 1 + A.length by ring]
    exact this

section
variable (hr : RelError rnd v) (hv : 0 ≤ v)
include hr hv

theorem Loaded.mass_err {N K : ℕ} {l' l L : Link ℝ} (h : Loaded v N K l' l L) : Err v 0 l'.body.mp.mass l.body.mp.mass L.body.mp.mass := by
  rw [h.mp, h.mpA]; exact .self hv 0 _

theorem Loaded.ke_err {N K : ℕ} {l' l L : Link ℝ} (h : Loaded v N K l' l L) :
    Err v (30 * N + 12) ((rounded rnd).bodyKE l'.body) (exact.bodyKE l.body) (uncancelled.bodyKE L.body) := by
  have hin : ErrM v 0 l'.body.mp.inertia l.body.mp.inertia L.body.mp.inertia := by rw [h.mp, h.mpA]; exact .self hv 0 _
  exact .mul (a := 30 * N + 11) (b := 0) hr hv (.add hr hv (.dot hr hv h.vel.ang (.mulVec hr hv hin h.vel.ang le_rfl) le_rfl)
    (.mul hr hv (h.mass_err hr hv) (.dot hr hv h.comVel h.comVel le_rfl) le_rfl) (by omega) (by omega)) (.const hv 0 (by norm_num)) (by omega)

theorem Loaded.am_err {N K : ℕ} {l' l L : Link ℝ} (h : Loaded v N K l' l L) (p : Vec3 ℝ) :
    Err3 v (39 * N + 15) ((rounded rnd).mulVec l'.body.frame.att ((rounded rnd).bodyAM l'.body ((rounded rnd).xformInv l'.body.frame p)))
      (exact.mulVec l.body.frame.att (exact.bodyAM l.body (exact.xformInv l.body.frame p)))
      (uncancelled.mulVec L.body.frame.att (uncancelled.bodyAM L.body (uncancelled.xformInv L.body.frame (abs3 p)))) := by
  have hin : ErrM v 0 l'.body.mp.inertia l.body.mp.inertia L.body.mp.inertia := by rw [h.mp, h.mpA]; exact .self hv 0 _
  have hcom : Err3 v 0 l'.body.mp.com l.body.mp.com L.body.mp.com := by rw [h.mp, h.mpA]; exact .self hv 0 _
  have t := Err3.xformInv (n := 16 * N + 4) hr hv h.frame (.self hv 0 p) (by omega)
  have u := Err3.vsub (n := 16 * N + 5) hr hv hcom t (by omega) (by omega)
  exact .mulVec hr hv h.frame.att (.vadd (n := 31 * N + 12) hr hv (.smul hr hv (h.mass_err hr hv) (.cross hr hv u h.comVel le_rfl) le_rfl)
    (.mulVec hr hv hin h.vel.ang le_rfl) (by omega) (by omega)) (by omega)

end

theorem exact_calcCOM (m : ℝ) (ls : List (Link ℝ)) : exact.calcCOM m ls = LinkArray.calcCOM m ls := by
  simp only [Arith.calcCOM, LinkArray.calcCOM]
  rw [show exact.div 1 m = m⁻¹ from one_div m]
  rfl

theorem exact_calcCOMVel (m : ℝ) (ls : List (Link ℝ)) : exact.calcCOMVel m ls = LinkArray.calcCOMVel m ls := rfl
theorem exact_calcCOMAcc (m : ℝ) (ls : List (Link ℝ)) : exact.calcCOMAcc m ls = LinkArray.calcCOMAcc m ls := rfl
theorem exact_chainAM (ls : List (Link ℝ)) (p : Vec3 ℝ) : exact.chainAM ls p = LinkArray.am ls p := rfl
theorem exact_chainKE (ls : List (Link ℝ)) : exact.chainKE ls = LinkArray.ke ls := rfl

end Arith

open Arith in
/-- **C132** Let every operation be rounded with a relative error of at most `v`.  Then for a robot of `N` links the pose of every link, the center of mass with its
velocity and acceleration, the angular momentum about any point and the kinetic energy are wrong by at most `(1+v)^k - 1` times the size of the terms they are
made of, with `k` in proportion to `N`. -/
theorem C132_robot {rnd : ℝ → ℝ} {v : ℝ} (hv : 0 ≤ v) (hr : RelError rnd v) (c : Chain ℝ) (h : c.WF) (g : Vec6 ℝ) (p : Vec3 ℝ) :
    ∃ c1 c2 d e, c.updateFK = some c1 ∧ c1.updateID g = some c2 ∧ (rounded rnd).invDyn g c = some d ∧ uncancelled.invDyn (abs6 g) (absChain c) = some e ∧
      (∀ (i : ℕ) (l l' L : Link ℝ), c2.link[i]? = some l → d.link[i]? = some l' → e.link[i]? = some L →
        Within3 ((1 + v) ^ (8 * c.link.length) - 1) l'.body.frame.pos l.body.frame.pos L.body.frame.pos ∧
        Within3 ((1 + v) ^ (8 * c.link.length) - 1) l'.body.frame.att.cx l.body.frame.att.cx L.body.frame.att.cx ∧
        Within3 ((1 + v) ^ (8 * c.link.length) - 1) l'.body.frame.att.cy l.body.frame.att.cy L.body.frame.att.cy ∧
        Within3 ((1 + v) ^ (8 * c.link.length) - 1) l'.body.frame.att.cz l.body.frame.att.cz L.body.frame.att.cz) ∧
      ((0 ≤ (uncancelled.calcCOM |c.mass| e.link).x ∧ 0 ≤ (uncancelled.calcCOM |c.mass| e.link).y ∧ 0 ≤ (uncancelled.calcCOM |c.mass| e.link).z) ∧
       Within3 ((1 + v) ^ (9 * c.link.length + 7) - 1) ((rounded rnd).calcCOM c.mass d.link) c2.wldCOM (uncancelled.calcCOM |c.mass| e.link)) ∧
      Within3 ((1 + v) ^ (24 * c.link.length + 8) - 1) ((rounded rnd).calcCOMVel c.mass d.link) c2.comVel (uncancelled.calcCOMVel |c.mass| e.link) ∧
      Within3 ((1 + v) ^ (39 * c.link.length + 11) - 1) ((rounded rnd).calcCOMAcc c.mass d.link) c2.comAcc (uncancelled.calcCOMAcc |c.mass| e.link) ∧
      Within3 ((1 + v) ^ (40 * c.link.length + 15) - 1) ((rounded rnd).chainAM d.link p) (LinkArray.am c2.link p) (uncancelled.chainAM e.link (abs3 p)) ∧
      |LinkArray.ke c2.link| ≤ uncancelled.chainKE e.link ∧ |(rounded rnd).chainKE d.link - LinkArray.ke c2.link| ≤ ((1 + v) ^ (31 * c.link.length + 12) - 1) * uncancelled.chainKE e.link := by
  obtain ⟨M, hM⟩ : ∃ M, ∀ l ∈ c.link, l.body.extw.length ≤ M := by
    refine ⟨(c.link.map fun l => l.body.extw.length).sum, fun l hl => ?_⟩
    exact List.single_le_sum (by simp) _ (List.mem_map_of_mem hl)
  obtain ⟨c1, c2, d, e, k1, k2, k3, k4, n1, n2, n3, H⟩ := Arith.runs hv hr c h g hM
  obtain ⟨wc, wm⟩ := updateID_wldCOM h k1 k2
  have wv : c2.comVel = LinkArray.calcCOMVel c2.mass c2.link ∧ c2.comAcc = LinkArray.calcCOMAcc c2.mass c2.link := by
    simp only [Chain.updateID, Chain.updateRate, Chain.updateWrench, bind, Option.bind_eq_some_iff,
      Option.map_eq_some_iff, pure, Option.some.injEq] at k2
    obtain ⟨_, ⟨l1, -, rfl⟩, _, ⟨l2, -, rfl⟩, rfl⟩ := k2
    exact ⟨rfl, rfl⟩
  have R : ∀ (i : ℕ) (l' l L : Link ℝ), d.link[i]? = some l' → c2.link[i]? = some l → e.link[i]? = some L →
      Loaded v c.link.length (46 * c.link.length + M) l' l L := fun i l' l L a b k => H i l l' L b a k
  have three : ∀ {k : ℕ} {a' a A : Vec3 ℝ}, Err3 v k a' a A → Within3 ((1 + v) ^ k - 1) a' a A := fun t => ⟨t.x.2, t.y.2, t.z.2⟩
  have q1 : c2.link.length = d.link.length := n1.trans n2.symm
  have q2 : e.link.length = d.link.length := n3.trans n2.symm
  refine ⟨c1, c2, d, e, k1, k2, k3, k4, ?_, ?_, ?_, ?_, ?_, ?_⟩
  · intro i l l' L hl hl' hL
    have t := (H i l l' L hl hl' hL).frame
    exact ⟨three t.pos, three t.att.cx, three t.att.cy, three t.att.cz⟩
  · have t := fold3 (R := Loaded v c.link.length (46 * c.link.length + M)) (fun n => Err3 v (8 * c.link.length + 5 + n))
      (f1 := fun p l => (rounded rnd).cat p l.body.mp.mass l.body.wldCOM) (f2 := fun p l => exact.cat p l.body.mp.mass l.body.wldCOM)
      (f3 := fun p l => uncancelled.cat p l.body.mp.mass l.body.wldCOM)
      (fun n s1 s2 s3 a b c hs hl => .vadd hr hv hs (.smul hr hv (hl.mass_err hr hv) hl.wldCOM le_rfl) (by omega) (by omega))
      d.link c2.link e.link 0 0 0 0 q1 q2 R (.zero _)
    rw [wc, wm, ← exact_calcCOM]
    have u := Err3.smul (n := 9 * c.link.length + 7) hr hv (.div hr hv c.mass (.const hv 0 zero_le_one) le_rfl) t (by omega)
    exact ⟨⟨u.x.nonneg, u.y.nonneg, u.z.nonneg⟩, three u⟩
  · have t := fold3 (R := Loaded v c.link.length (46 * c.link.length + M)) (fun n => Err3 v (23 * c.link.length + 8 + n))
      (f1 := fun p l => (rounded rnd).cat p ((rounded rnd).div l.body.mp.mass c.mass) ((rounded rnd).mulVec l.body.frame.att l.body.comVel))
      (f2 := fun p l => exact.cat p (exact.div l.body.mp.mass c.mass) (exact.mulVec l.body.frame.att l.body.comVel))
      (f3 := fun p l => uncancelled.cat p (uncancelled.div l.body.mp.mass |c.mass|) (uncancelled.mulVec l.body.frame.att l.body.comVel))
      (fun n s1 s2 s3 a b d hs hl => .vadd hr hv hs (.smul hr hv (.div hr hv c.mass (hl.mass_err hr hv) le_rfl) (.mulVec hr hv hl.frame.att hl.comVel le_rfl) le_rfl)
        (by omega) (by omega))
      d.link c2.link e.link 0 0 0 0 q1 q2 R (.zero _)
    rw [wv.1, wm, ← exact_calcCOMVel]
    exact three (t.mono hv (by omega))
  · have t := fold3 (R := Loaded v c.link.length (46 * c.link.length + M)) (fun n => Err3 v (38 * c.link.length + 11 + n))
      (f1 := fun p l => (rounded rnd).cat p ((rounded rnd).div l.body.mp.mass c.mass) ((rounded rnd).mulVec l.body.frame.att l.body.comAcc))
      (f2 := fun p l => exact.cat p (exact.div l.body.mp.mass c.mass) (exact.mulVec l.body.frame.att l.body.comAcc))
      (f3 := fun p l => uncancelled.cat p (uncancelled.div l.body.mp.mass |c.mass|) (uncancelled.mulVec l.body.frame.att l.body.comAcc))
      (fun n s1 s2 s3 a b d hs hl => .vadd hr hv hs (.smul hr hv (.div hr hv c.mass (hl.mass_err hr hv) le_rfl) (.mulVec hr hv hl.frame.att hl.comAcc le_rfl) le_rfl)
        (by omega) (by omega))
      d.link c2.link e.link 0 0 0 0 q1 q2 R (.zero _)
    rw [wv.2, wm, ← exact_calcCOMAcc]
    exact three (t.mono hv (by omega))
  · have t := fold3 (R := Loaded v c.link.length (46 * c.link.length + M)) (fun n => Err3 v (39 * c.link.length + 15 + n))
      (f1 := fun am l => (rounded rnd).vadd am ((rounded rnd).mulVec l.body.frame.att ((rounded rnd).bodyAM l.body ((rounded rnd).xformInv l.body.frame p))))
      (f2 := fun am l => exact.vadd am (exact.mulVec l.body.frame.att (exact.bodyAM l.body (exact.xformInv l.body.frame p))))
      (f3 := fun am l => uncancelled.vadd am (uncancelled.mulVec l.body.frame.att (uncancelled.bodyAM l.body (uncancelled.xformInv l.body.frame (abs3 p)))))
      (fun n s1 s2 s3 a b d hs hl => .vadd hr hv hs (hl.am_err hr hv p) (by omega) (by omega))
      d.link c2.link e.link 0 0 0 0 q1 q2 R (.zero _)
    rw [← exact_chainAM]
    exact three (t.mono hv (by omega))
  · have t := fold3 (R := Loaded v c.link.length (46 * c.link.length + M)) (fun n => Err v (30 * c.link.length + 12 + n))
      (f1 := fun e l => (rounded rnd).add e ((rounded rnd).bodyKE l.body)) (f2 := fun e l => exact.add e (exact.bodyKE l.body))
      (f3 := fun e l => uncancelled.add e (uncancelled.bodyKE l.body))
      (fun n s1 s2 s3 a b d hs hl => .add hr hv hs (hl.ke_err hr hv) (by omega) (by omega))
      d.link c2.link e.link 0 0 0 0 q1 q2 R (.zero _)
    rw [← exact_chainKE]
    exact t.mono hv (by omega)

open Arith in
/-- **C132** The same for the center of mass and the kinetic energy with numbers of 53 significant digits: the relative errors grow at most in proportion to the
number of links. -/
theorem C132_double (c : Chain ℝ) (h : c.WF) (g : Vec6 ℝ) (hN : c.link.length ≤ 10 ^ 13) :
    ∃ c1 c2 d e, c.updateFK = some c1 ∧ c1.updateID g = some c2 ∧ (rounded nearest).invDyn g c = some d ∧ uncancelled.invDyn (abs6 g) (absChain c) = some e ∧
      Within3 (2 * (9 * c.link.length + 7) / 2 ^ 53) ((rounded nearest).calcCOM c.mass d.link) c2.wldCOM (uncancelled.calcCOM |c.mass| e.link) ∧
      |(rounded nearest).chainKE d.link - LinkArray.ke c2.link| ≤ 2 * (31 * c.link.length + 12) / 2 ^ 53 * uncancelled.chainKE e.link := by
  obtain ⟨c1, c2, d, e, k1, k2, k3, k4, -, ⟨⟨p1, p2, p3⟩, a1, a2, a3⟩, -, -, -, k5, k6⟩ :=
    C132_robot (v := 1 / 2 ^ 53) (by positivity) C127_double c h g 0
  have hN' : (c.link.length : ℝ) ≤ 10 ^ 13 := by exact_mod_cast hN
  have lin : ∀ a b : ℕ, a ≤ 31 → b ≤ 12 → (1 + 1 / 2 ^ 53 : ℝ) ^ (a * c.link.length + b) - 1 ≤ 2 * (a * c.link.length + b) / 2 ^ 53 := by
    intro a b ha hb
    have ha' : (a : ℝ) ≤ 31 := by exact_mod_cast ha
    have hb' : (b : ℝ) ≤ 12 := by exact_mod_cast hb
    have q : (a : ℝ) * c.link.length ≤ 31 * 10 ^ 13 := mul_le_mul ha' hN' (by positivity) (by norm_num)
    have := Rounded.pow_linear (x := 1 / 2 ^ 53) (by positivity) (a * c.link.length + b) (by
      push_cast
      rw [mul_one_div, ← mul_div_assoc, div_le_one (by positivity)]
      linarith)
    refine this.trans (le_of_eq ?_)
    push_cast
    ring
  have e1 := lin 9 7 (by norm_num) (by norm_num)
  have e2 := lin 31 12 (by norm_num) (by norm_num)
  push_cast at e1 e2
  exact ⟨c1, c2, d, e, k1, k2, k3, k4, ⟨a1.trans (mul_le_mul_of_nonneg_right e1 p1), a2.trans (mul_le_mul_of_nonneg_right e1 p2),
    a3.trans (mul_le_mul_of_nonneg_right e1 p3)⟩, k6.trans (mul_le_mul_of_nonneg_right e2 ((abs_nonneg _).trans k5))⟩

/-- A branching robot meets the hypotheses of `C132_robot` and `C132_double`. -/
example (r : Chain ℝ) (l : Link ℝ) :
    let c : Chain ℝ := { r with link := [l, l, l], shape := .node 0 (.node 1 .nil (.node 2 .nil .nil)) .nil }
    c.WF ∧ c.link.length ≤ 10 ^ 13 ∧ RelError nearest (1 / 2 ^ 53) :=
  ⟨⟨⟨_, rfl⟩, by simp [LTree.toList, List.range_succ]⟩, by simp, C127_double⟩

end Roki
