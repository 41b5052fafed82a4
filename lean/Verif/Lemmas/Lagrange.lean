import Verif.Spec.Lagrange
import Verif.Props.Motion
set_option autoImplicit false

/-! # Lagrange's equations: derivatives along a path -/

namespace Roki
open Spec

/-- Derivative of a twist. -/
def Vec6Deriv (v : ℝ → Vec6 ℝ) (v' : Vec6 ℝ) (t : ℝ) : Prop :=
  VecDeriv (fun s => (v s).lin) v'.lin t ∧ VecDeriv (fun s => (v s).ang) v'.ang t

/-- The bracket of two twists. -/
noncomputable def br (x y : Vec6 ℝ) : Vec6 ℝ := ⟨cross x.ang y.lin + cross x.lin y.ang, cross x.ang y.ang⟩

theorem vec6Deriv_const (v : Vec6 ℝ) (t : ℝ) : Vec6Deriv (fun _ => v) 0 t := ⟨vecDeriv_const _ _, vecDeriv_const _ _⟩

theorem vec6Deriv_congr {v w : ℝ → Vec6 ℝ} {v' w' : Vec6 ℝ} {t : ℝ} (h : Vec6Deriv v v' t)
    (h1 : ∀ s, w s = v s) (h2 : w' = v') : Vec6Deriv w w' t := by
  have : w = v := funext h1
  subst this h2; exact h

theorem Vec6Deriv.add {v w : ℝ → Vec6 ℝ} {v' w' : Vec6 ℝ} {t : ℝ} (hv : Vec6Deriv v v' t)
    (hw : Vec6Deriv w w' t) : Vec6Deriv (fun s => v s + w s) (v' + w') t :=
  ⟨hv.1.add hw.1, hv.2.add hw.2⟩

theorem vec6Deriv_xform {G : ℝ → Frame ℝ} {w : Vec6 ℝ} {f : ℝ → Vec6 ℝ} {f' : Vec6 ℝ} {t : ℝ} (hR : (G t).att.IsRot)
    (h : PoseDeriv G w t) (hf : Vec6Deriv f f' t) :
    Vec6Deriv (fun s => (G s).xform6Lin (f s)) ((G t).xform6Lin f' - br w ((G t).xform6Lin (f t))) t := by
  have h1 := poseDeriv_mulVecT h (hf.1.add (hf.2.cross h.2))
  have h2 := poseDeriv_mulVecT h hf.2
  refine ⟨vecDeriv_congr h1 (fun s => rfl) ?_, vecDeriv_congr h2 (fun s => rfl) rfl⟩
  simp only [Frame.xform6Lin, Vec6.linShift, Mat3.mulVecT6, br, Vec6.sub_lin, Mat3.mulVecT_add, hR.mulVecT_cross,
    hR.mulVecT_mulVec]
  rw [cross_anticomm ((G t).att.mulVecT (f t).ang) w.lin]
  abel

theorem br_xform {F : Frame ℝ} (h : F.att.IsRot) (x y : Vec6 ℝ) : br (F.xform6Lin x) (F.xform6Lin y) = F.xform6Lin (br x y) := by
  simp only [br, Frame.xform6Lin, Vec6.linShift, Mat3.mulVecT6, ← h.mulVecT_cross, ← Mat3.mulVecT_add]
  congr 2
  generalize F.pos = p
  vec_ring

/-! ### Joints -/

/-- A joint with displacement, velocity and acceleration given by joint vectors from the component `o` on. -/
noncomputable def place (p : Prp ℝ) (o : ℕ) (q v a : List ℝ) : Prp ℝ :=
  match p with
  | .revol d => .revol { d with dis := q.getD o 0, s := Real.sin (q.getD o 0), c := Real.cos (q.getD o 0), vel := v.getD o 0, acc := a.getD o 0 }
  | .prism d => .prism { d with dis := q.getD o 0, vel := v.getD o 0, acc := a.getD o 0 }
  | .cylin d => .cylin { d with dis0 := q.getD o 0, dis1 := q.getD (o + 1) 0, s1 := Real.sin (q.getD (o + 1) 0), c1 := Real.cos (q.getD (o + 1) 0), vel0 := v.getD o 0, vel1 := v.getD (o + 1) 0, acc0 := a.getD o 0, acc1 := a.getD (o + 1) 0 }
  | .hooke d => .hooke { d with dis0 := q.getD o 0, dis1 := q.getD (o + 1) 0, s0 := Real.sin (q.getD o 0), c0 := Real.cos (q.getD o 0), s1 := Real.sin (q.getD (o + 1) 0), c1 := Real.cos (q.getD (o + 1) 0), vel0 := v.getD o 0, vel1 := v.getD (o + 1) 0, acc0 := a.getD o 0, acc1 := a.getD (o + 1) 0 }
  | p => p

/-- A link with its joint placed. -/
noncomputable def placed (q v a : List ℝ) (l : Link ℝ) : Link ℝ :=
  { l with joint := { l.joint with prp := place l.joint.prp l.offset.toNat q v a } }

/-- `v` is the rate of change of `q` at all times. -/
def Rate (q v : ℝ → List ℝ) : Prop := ∀ t k, HasDerivAt (fun s => (q s).getD k 0) ((v t).getD k 0) t

theorem place_motion {p : Prp ℝ} (hp : Coord p) (o : ℕ) {q v : ℝ → List ℝ} (h : Rate q v) (a : ℝ → List ℝ) :
    JointMotion fun s => place p o (q s) (v s) (a s) := by
  cases p with
  | fixed => exact .fixed
  | revol d => exact .revol _ fun t => ⟨rfl, rfl, h t o⟩
  | prism d => exact .prism _ fun t => h t o
  | cylin d => exact .cylin _ fun t => ⟨rfl, rfl, h t o, h t (o + 1)⟩
  | hooke d => exact .hooke _ fun t => ⟨rfl, rfl, rfl, rfl, h t o, h t (o + 1)⟩
  | spher d => exact hp.elim
  | float d => exact hp.elim
  | brfloat d => exact hp.elim

theorem place_acc {p : Prp ℝ} (hp : Coord p) (o : ℕ) (q : ℝ → List ℝ) {v a : ℝ → List ℝ} (h : Rate v a) :
    AccMotion fun s => place p o (q s) (v s) (a s) := by
  intro t k hk
  cases p with
  | fixed => simp [place, Prp.size] at hk
  | revol d => 
    simp only [place, Prp.size, Nat.lt_one_iff] at hk; subst hk
    simpa [place, Prp.getVel, Prp.getAcc] using h t o
  | prism d =>
    simp only [place, Prp.size, Nat.lt_one_iff] at hk; subst hk
    simpa [place, Prp.getVel, Prp.getAcc] using h t o
  | cylin d =>
    simp only [place, Prp.size] at hk
    interval_cases k
    · simpa [place, Prp.getVel, Prp.getAcc] using h t o
    · simpa [place, Prp.getVel, Prp.getAcc] using h t (o + 1)
  | hooke d =>
    simp only [place, Prp.size] at hk
    interval_cases k
    · simpa [place, Prp.getVel, Prp.getAcc] using h t o
    · simpa [place, Prp.getVel, Prp.getAcc] using h t (o + 1)
  | spher d => exact hp.elim
  | float d => exact hp.elim
  | brfloat d => exact hp.elim

theorem place_screw {p : Prp ℝ} (hp : Coord p) (o : ℕ) (q v a : List ℝ) : FloatScrew (place p o q v a) := by
  intro d hd
  cases p <;> simp [place, Coord] at hd hp

theorem place_frame (p : Prp ℝ) (o : ℕ) (q v a v' a' : List ℝ) :
    jointFrame (place p o q v a) = jointFrame (place p o q v' a') := by cases p <;> rfl

theorem place_twist (p : Prp ℝ) (o : ℕ) (q v a a' : List ℝ) :
    jointTwist (place p o q v a) = jointTwist (place p o q v a') := by cases p <;> rfl

theorem shift_getD {x u : List ℝ} (h : x.length = u.length) (e : ℝ) (k : ℕ) :
    (shift x e u).getD k 0 = x.getD k 0 + e * u.getD k 0 := by
  simp only [shift, List.getD_eq_getElem?_getD, List.getElem?_zipWith]
  by_cases hk : k < x.length
  · rw [List.getElem?_eq_getElem hk, List.getElem?_eq_getElem (h ▸ hk)]; rfl
  · rw [List.getElem?_eq_none (by omega), List.getElem?_eq_none (by omega)]; simp

theorem shift_zero {x u : List ℝ} (h : x.length = u.length) : shift x 0 u = x := by
  refine List.ext_getElem (by simp [shift, h]) fun i h1 h2 => ?_
  simp [shift]

theorem shift_length {x u : List ℝ} (h : x.length = u.length) (e : ℝ) : (shift x e u).length = x.length := by
  simp [shift, h]

theorem shift_rate {x u : List ℝ} (h : x.length = u.length) : Rate (fun e => shift x e u) fun _ => u := by
  intro t k
  simp only [shift_getD h]
  exact (((hasDerivAt_id t).mul_const _).const_add _).congr_deriv (by simp)

theorem place_linear {p : Prp ℝ} (hp : Coord p) (o : ℕ) (q : List ℝ) {v u : List ℝ} (h : v.length = u.length) (a : List ℝ) (e : ℝ) :
    jointTwist (place p o q (shift v e u) a) = jointTwist (place p o q v a) + e • jointTwist (place p o q u a) := by
  cases p with
  | spher d => exact hp.elim
  | float d => exact hp.elim
  | brfloat d => exact hp.elim
  | fixed => simp only [place, jointTwist, Prp.incVel]; vec_ring
  | revol d => simp only [place, jointTwist, Prp.incVel, shift_getD h]; vec_ring
  | prism d => simp only [place, jointTwist, Prp.incVel, shift_getD h]; vec_ring
  | cylin d => simp only [place, jointTwist, Prp.incVel, shift_getD h]; vec_ring
  | hooke d => simp only [place, jointTwist, Prp.incVel, shift_getD h]; vec_ring

/-- The twists of a joint in two directions: how one changes along the other. -/
theorem place_commute {p : Prp ℝ} (hp : Coord p) (o : ℕ) {q v : ℝ → List ℝ} (h : Rate q v) {u : List ℝ} {t : ℝ}
    (hl : (q t).length = u.length) (a b : List ℝ) :
    ∃ x y : Vec6 ℝ, Vec6Deriv (fun s => jointTwist (place p o (q s) u a)) x t ∧
      Vec6Deriv (fun e => jointTwist (place p o (shift (q t) e u) (v t) b)) y 0 ∧
      x = y - br (jointTwist (place p o (q t) (v t) b)) (jointTwist (place p o (q t) u a)) := by
  have hs := shift_rate hl
  cases p with
  | spher d => exact hp.elim
  | float d => exact hp.elim
  | brfloat d => exact hp.elim
  | fixed =>
    refine ⟨0, 0, vec6Deriv_congr (vec6Deriv_const (jointTwist (place (.fixed) o (q t) u a)) _) (fun _ => rfl) rfl,
      vec6Deriv_congr (vec6Deriv_const (jointTwist (place (.fixed) o (q t) (v t) b)) _) (fun _ => rfl) rfl, ?_⟩
    simp only [place, jointTwist, Prp.incVel, br]; vec_ring
  | revol d =>
    refine ⟨0, 0, vec6Deriv_congr (vec6Deriv_const (jointTwist (place (.revol d) o (q t) u a)) _) (fun _ => rfl) rfl,
      vec6Deriv_congr (vec6Deriv_const (jointTwist (place (.revol d) o (q t) (v t) b)) _) (fun _ => rfl) rfl, ?_⟩
    simp only [place, jointTwist, Prp.incVel, br]; vec_ring
  | prism d =>
    refine ⟨0, 0, vec6Deriv_congr (vec6Deriv_const (jointTwist (place (.prism d) o (q t) u a)) _) (fun _ => rfl) rfl,
      vec6Deriv_congr (vec6Deriv_const (jointTwist (place (.prism d) o (q t) (v t) b)) _) (fun _ => rfl) rfl, ?_⟩
    simp only [place, jointTwist, Prp.incVel, br]; vec_ring
  | cylin d =>
    refine ⟨0, 0, vec6Deriv_congr (vec6Deriv_const (jointTwist (place (.cylin d) o (q t) u a)) _) (fun _ => rfl) rfl,
      vec6Deriv_congr (vec6Deriv_const (jointTwist (place (.cylin d) o (q t) (v t) b)) _) (fun _ => rfl) rfl, ?_⟩
    simp only [place, jointTwist, Prp.incVel, br]; vec_ring
  | hooke d =>
    have key : ∀ (f : ℝ → List ℝ) (f' : ℝ → List ℝ) (t : ℝ) (w b : List ℝ), Rate f f' →
        Vec6Deriv (fun s => jointTwist (place (.hooke d) o (f s) w b))
          ⟨0, ⟨-Real.cos ((f t).getD (o + 1) 0) * (f' t).getD (o + 1) 0 * w.getD o 0, 0,
            -Real.sin ((f t).getD (o + 1) 0) * (f' t).getD (o + 1) 0 * w.getD o 0⟩⟩ t := by
      intro f f' t w b hf
      refine ⟨vecDeriv_const _ _, ?_, ?_, ?_⟩
      · simp only [place, jointTwist, Prp.incVel, Vec6.zero_ang, zero_add]
        exact ((hf t (o + 1)).sin.neg.mul_const (w.getD o 0)).congr_deriv (by ring)
      · simp only [place, jointTwist, Prp.incVel, Vec6.zero_ang, zero_add]
        exact hasDerivAt_const _ _
      · simp only [place, jointTwist, Prp.incVel, Vec6.zero_ang, zero_add]
        exact ((hf t (o + 1)).cos.mul_const (w.getD o 0)).congr_deriv (by ring)
    refine ⟨_, _, key q v t u a h, key _ _ 0 (v t) b hs, ?_⟩
    simp only [shift_zero hl]
    simp only [place, jointTwist, Prp.incVel, br]
    vec_ring

/-! ### Along a path -/

theorem placed_motion {l : Link ℝ} (hr : l.org.att.IsRot) (hp : Coord l.joint.prp) {q v : ℝ → List ℝ} (h : Rate q v)
    (a : ℝ → List ℝ) : LinkMotion fun s => placed (q s) (v s) (a s) l :=
  ⟨fun _ _ => rfl, fun _ => hr, place_motion hp _ h a⟩

theorem placed_frame (l : Link ℝ) (q v a v' a' : List ℝ) : linkFrame (placed q v a l) = linkFrame (placed q v' a' l) := by
  simp only [linkFrame, placed, place_frame _ _ q v a v' a']

theorem placed_step (l : Link ℝ) (q v a : List ℝ) (w : Vec6 ℝ) :
    stepVel w (placed q v a l) = (linkFrame (placed q v a l)).xform6Lin w + jointTwist (place l.joint.prp l.offset.toNat q v a) := by
  rw [stepVel, incVel_eq]; rfl

/-- Velocity at the end of a path. -/
noncomputable def pathVel (q v : List ℝ) (w : Vec6 ℝ) (ms : List (Link ℝ)) : Vec6 ℝ :=
  ms.foldl (fun w l => stepVel w (placed q v [] l)) w

theorem placed_step_acc (l : Link ℝ) (q v a a' : List ℝ) (w : Vec6 ℝ) :
    stepVel w (placed q v a l) = stepVel w (placed q v a' l) := by
  rw [placed_step, placed_step, placed_frame _ q v a v a', place_twist _ _ q v a a']

theorem foldl_placed (ms : List (Link ℝ)) (q v a : List ℝ) (w : Vec6 ℝ) :
    (ms.map (placed q v a)).foldl stepVel w = pathVel q v w ms := by
  induction ms generalizing w with
  | nil => rfl
  | cons l ms ih => rw [List.map_cons, List.foldl_cons, ih, placed_step_acc l q v a []]; rfl

/-- Velocities are linear in the joint velocities. -/
theorem pathVel_shift {ms : List (Link ℝ)} (hp : ∀ l ∈ ms, Coord l.joint.prp) (q : List ℝ) {v u : List ℝ}
    (h : v.length = u.length) (e : ℝ) (w w' : Vec6 ℝ) :
    pathVel q (shift v e u) (w + e • w') ms = pathVel q v w ms + e • pathVel q u w' ms := by
  induction ms generalizing w w' with
  | nil => rfl
  | cons l ms ih =>
    simp only [pathVel, List.foldl_cons] at ih ⊢
    rw [← ih (fun m hm => hp m (by simp [hm]))]
    congr 1
    rw [placed_step, placed_step, placed_step, place_linear (hp l (by simp)) _ _ h, placed_frame l q _ [] v [],
      placed_frame l q u [] v []]
    generalize linkFrame (placed q v [] l) = F
    generalize jointTwist (place l.joint.prp l.offset.toNat q v []) = x
    generalize jointTwist (place l.joint.prp l.offset.toNat q u []) = y
    vec_ring

/-- How the velocities of one direction change along another. -/
theorem path_commute {ms : List (Link ℝ)} (hr : ∀ l ∈ ms, l.org.att.IsRot) (hp : ∀ l ∈ ms, Coord l.joint.prp)
    {q v : ℝ → List ℝ} (h : Rate q v) {u : List ℝ} {t : ℝ} (hl : (q t).length = u.length)
    {D0 W0 : ℝ → Vec6 ℝ} {V0 x y : Vec6 ℝ} (hD : Vec6Deriv D0 x t) (hW : Vec6Deriv W0 y 0) (h0 : W0 0 = V0)
    (hxy : x = y - br V0 (D0 t)) :
    ∃ x y : Vec6 ℝ, Vec6Deriv (fun s => pathVel (q s) u (D0 s) ms) x t ∧
      Vec6Deriv (fun e => pathVel (shift (q t) e u) (v t) (W0 e) ms) y 0 ∧
      x = y - br (pathVel (q t) (v t) V0 ms) (pathVel (q t) u (D0 t) ms) := by
  induction ms generalizing D0 W0 V0 x y with
  | nil => exact ⟨x, y, hD, hW, hxy⟩
  | cons l ms ih =>
    have hc := hp l (by simp)
    have hR := hr l (by simp)
    obtain ⟨a, b, ha, hb, hab⟩ := place_commute hc l.offset.toNat h hl [] []
    have m1 := placed_motion hR hc h fun _ => []
    have m2 := placed_motion hR hc (shift_rate hl) fun _ => []
    have p1 := m1.pose t
    have p2 := m2.pose 0
    have r1 := m1.linkFrame_rot t
    have r2 := m2.linkFrame_rot 0
    have d1 := (vec6Deriv_xform r1 p1 hD).add ha
    have d2 := (vec6Deriv_xform r2 p2 hW).add hb
    have e1 : Vec6Deriv (fun s => stepVel (D0 s) (placed (q s) u [] l)) _ t :=
      vec6Deriv_congr d1 (fun s => by rw [placed_step, placed_frame l (q s) u [] (v s) []]) rfl
    have e2 : Vec6Deriv (fun e => stepVel (W0 e) (placed (shift (q t) e u) (v t) [] l)) _ 0 :=
      vec6Deriv_congr d2 (fun e => by rw [placed_step, placed_frame l _ (v t) [] u []]) rfl
    refine ih (fun m hm => hr m (by simp [hm])) (fun m hm => hp m (by simp [hm])) e1 e2
      (V0 := stepVel V0 (placed (q t) (v t) [] l)) (by simp only [shift_zero hl, h0]) ?_
    beta_reduce
    rw [placed_step, placed_step, hab, hxy]
    have f1 : linkFrame (placed (q t) u [] l) = linkFrame (placed (q t) (v t) [] l) := placed_frame l _ _ _ _ _
    simp only [shift_zero hl, f1, h0]
    have g1 := br_xform r1 V0 (D0 t)
    generalize linkFrame (placed (q t) (v t) [] l) = F at g1
    have hX : ∀ z w : Vec6 ℝ, F.xform6Lin (z - w) = F.xform6Lin z - F.xform6Lin w := fun z w => by vec_ring
    rw [hX, ← g1]
    show F.xform6Lin y - br (F.xform6Lin V0) (F.xform6Lin (D0 t)) - br (jointTwist (place l.joint.prp l.offset.toNat (q t) (v t) [])) (F.xform6Lin (D0 t)) + (b - br (jointTwist (place l.joint.prp l.offset.toNat (q t) (v t) [])) (jointTwist (place l.joint.prp l.offset.toNat (q t) u []))) = F.xform6Lin y - br (jointTwist (place l.joint.prp l.offset.toNat (q t) u [])) (F.xform6Lin V0) + b - _
    generalize F.xform6Lin y = y'
    generalize F.xform6Lin V0 = vv
    generalize F.xform6Lin (D0 t) = dd
    generalize jointTwist (place l.joint.prp l.offset.toNat (q t) (v t) []) = xi
    generalize jointTwist (place l.joint.prp l.offset.toNat (q t) u []) = eta
    simp only [br]
    vec_ring

end Roki
