import Verif.Props.VirtualWork
set_option autoImplicit false

/-! # Links whose velocities are linear and whose accelerations are quadratic in the joint velocities (C143)

A family of motions `t : ι` with joint velocities `x t` and other data `s t` (gravity, joint accelerations, loads). -/

namespace Roki.Coriolis
open Spec LinkArray
variable {K : Type*} [Field K] {ι σ : Type*}

/-- Linear in the joint velocities. -/
def Lin (n : ℕ) (x : ι → ℕ → K) (f : ι → K) : Prop := ∃ L : ℕ → K, ∀ t, f t = ∑ j ∈ Finset.range n, L j * x t j

/-- A quadratic form of the joint velocities, plus what does not depend on them. -/
def Quad (n : ℕ) (x : ι → ℕ → K) (s : ι → σ) (f : ι → K) : Prop :=
  ∃ (c : σ → K) (Q : ℕ → ℕ → K), ∀ t, f t = c (s t) + ∑ i ∈ Finset.range n, ∑ j ∈ Finset.range n, Q i j * (x t i * x t j)

section
variable {n : ℕ} {x : ι → ℕ → K} {s : ι → σ} {f g : ι → K}

theorem Lin.zero : Lin n x fun _ => 0 := ⟨fun _ => 0, fun _ => by simp⟩
theorem Lin.add (hf : Lin n x f) (hg : Lin n x g) : Lin n x fun t => f t + g t := by
  obtain ⟨L, h⟩ := hf; obtain ⟨M, k⟩ := hg
  exact ⟨fun j => L j + M j, fun t => by simp only [h, k, add_mul, Finset.sum_add_distrib]⟩
theorem Lin.cmul (a : K) (hf : Lin n x f) : Lin n x fun t => a * f t := by
  obtain ⟨L, h⟩ := hf
  exact ⟨fun j => a * L j, fun t => by simp only [h, Finset.mul_sum, mul_assoc]⟩
theorem Lin.mulc (a : K) (hf : Lin n x f) : Lin n x fun t => f t * a := by simpa only [mul_comm] using hf.cmul a
theorem Lin.neg (hf : Lin n x f) : Lin n x fun t => -f t := by simpa only [neg_one_mul] using hf.cmul (-1)
theorem Lin.sub (hf : Lin n x f) (hg : Lin n x g) : Lin n x fun t => f t - g t := by simpa only [sub_eq_add_neg] using hf.add hg.neg

theorem Quad.of (c : σ → K) : Quad n x s fun t => c (s t) := ⟨c, fun _ _ => 0, fun _ => by simp⟩
theorem Quad.const (a : K) : Quad n x s fun _ => a := Quad.of fun _ => a
theorem Quad.add (hf : Quad n x s f) (hg : Quad n x s g) : Quad n x s fun t => f t + g t := by
  obtain ⟨c, L, h⟩ := hf; obtain ⟨d, M, k⟩ := hg
  refine ⟨fun z => c z + d z, fun i j => L i j + M i j, fun t => ?_⟩
  simp only [h, k, add_mul, Finset.sum_add_distrib]; ring
theorem Quad.cmul (a : K) (hf : Quad n x s f) : Quad n x s fun t => a * f t := by
  obtain ⟨c, L, h⟩ := hf
  refine ⟨fun z => a * c z, fun i j => a * L i j, fun t => ?_⟩
  simp only [h, mul_add, Finset.mul_sum, mul_assoc]
theorem Quad.mulc (a : K) (hf : Quad n x s f) : Quad n x s fun t => f t * a := by simpa only [mul_comm] using hf.cmul a
theorem Quad.neg (hf : Quad n x s f) : Quad n x s fun t => -f t := by simpa only [neg_one_mul] using hf.cmul (-1)
theorem Quad.sub (hf : Quad n x s f) (hg : Quad n x s g) : Quad n x s fun t => f t - g t := by
  simpa only [sub_eq_add_neg] using hf.add hg.neg
theorem Lin.mul (hf : Lin n x f) (hg : Lin n x g) : Quad n x s fun t => f t * g t := by
  obtain ⟨L, h⟩ := hf; obtain ⟨M, k⟩ := hg
  refine ⟨fun _ => 0, fun i j => L i * M j, fun t => ?_⟩
  simp only [h, k]
  rw [Finset.sum_mul_sum, zero_add]
  exact Finset.sum_congr rfl fun i _ => Finset.sum_congr rfl fun j _ => by ring

theorem Quad.sum {m : ℕ} {F : ℕ → ι → K} (h : ∀ i < m, Quad n x s (F i)) : Quad n x s fun t => ∑ i ∈ Finset.range m, F i t := by
  induction m with
  | zero => simpa using Quad.const (0 : K)
  | succ m ih =>
    simp only [Finset.sum_range_succ]
    exact (ih fun i hi => h i (by omega)).add (h m (by omega))

end

syntax "quad" : tactic
macro_rules
  | `(tactic| quad) => `(tactic| first
      | with_reducible assumption
      | with_reducible exact Lin.zero
      | with_reducible exact Quad.const _
      | (with_reducible refine Lin.add ?_ ?_) <;> quad
      | (with_reducible refine Lin.sub ?_ ?_) <;> quad
      | (with_reducible refine Lin.neg ?_) <;> quad
      | (with_reducible refine Lin.cmul _ ?_) <;> quad
      | (with_reducible refine Lin.mulc _ ?_) <;> quad
      | (with_reducible refine Quad.add ?_ ?_) <;> quad
      | (with_reducible refine Quad.sub ?_ ?_) <;> quad
      | (with_reducible refine Quad.neg ?_) <;> quad
      | (with_reducible refine Quad.cmul _ ?_) <;> quad
      | (with_reducible refine Quad.mulc _ ?_) <;> quad
      | (with_reducible refine Lin.mul ?_ ?_) <;> quad)

def Lin3 (n : ℕ) (x : ι → ℕ → K) (f : ι → Vec3 K) : Prop :=
  Lin n x (fun t => (f t).x) ∧ Lin n x (fun t => (f t).y) ∧ Lin n x (fun t => (f t).z)
def Lin6 (n : ℕ) (x : ι → ℕ → K) (f : ι → Vec6 K) : Prop := Lin3 n x (fun t => (f t).lin) ∧ Lin3 n x (fun t => (f t).ang)
def Quad3 (n : ℕ) (x : ι → ℕ → K) (s : ι → σ) (f : ι → Vec3 K) : Prop :=
  Quad n x s (fun t => (f t).x) ∧ Quad n x s (fun t => (f t).y) ∧ Quad n x s (fun t => (f t).z)
def Quad6 (n : ℕ) (x : ι → ℕ → K) (s : ι → σ) (f : ι → Vec6 K) : Prop :=
  Quad3 n x s (fun t => (f t).lin) ∧ Quad3 n x s (fun t => (f t).ang)

/-- A joint with the rates `f` and `a`. -/
def rated (f a : ℕ → K) : Prp K → Prp K
  | .fixed => .fixed
  | .revol p => .revol { p with vel := f 0, acc := a 0 }
  | .prism p => .prism { p with vel := f 0, acc := a 0 }
  | .cylin p => .cylin { p with vel0 := f 0, vel1 := f 1, acc0 := a 0, acc1 := a 1 }
  | .hooke p => .hooke { p with vel0 := f 0, vel1 := f 1, acc0 := a 0, acc1 := a 1 }
  | .spher p => .spher { p with vel := ⟨f 0, f 1, f 2⟩, acc := ⟨a 0, a 1, a 2⟩ }
  | .float p => .float { p with vel := ⟨⟨f 0, f 1, f 2⟩, ⟨f 3, f 4, f 5⟩⟩, acc := ⟨⟨a 0, a 1, a 2⟩, ⟨a 3, a 4, a 5⟩⟩ }
  | .brfloat p => .brfloat { p with vel := ⟨⟨f 0, f 1, f 2⟩, ⟨f 3, f 4, f 5⟩⟩, acc := ⟨⟨a 0, a 1, a 2⟩, ⟨a 3, a 4, a 5⟩⟩ }

theorem rated_still (p : Prp K) :
    let q := rated (fun i => p.getVel.getD i 0) (fun i => p.getAcc.getD i 0) p.still
    twist q = twist p ∧ (∀ w, velAcc q w = velAcc p w) ∧ accTwist q = accTwist p := by
  cases p <;> exact ⟨rfl, fun _ => rfl, rfl⟩

variable {n : ℕ} {x : ι → ℕ → K} {s : ι → σ}

/-- A joint whose velocity is linear in the joint velocities and whose acceleration does not depend on them. -/
theorem joint (q : Prp K) (f a : ι → ℕ → K) (w : ι → Vec3 K) (hf : ∀ i, Lin n x fun t => f t i) (ha : ∀ i, Quad n x s fun t => a t i)
    (hw : Lin3 n x w) :
    Lin6 n x (fun t => twist (rated (f t) (a t) q)) ∧ Quad6 n x s (fun t => velAcc (rated (f t) (a t) q) (w t)) ∧
    Quad6 n x s (fun t => accTwist (rated (f t) (a t) q)) := by
  obtain ⟨w1, w2, w3⟩ := hw
  have f0 := hf 0; have f1 := hf 1; have f2 := hf 2; have f3 := hf 3; have f4 := hf 4; have f5 := hf 5
  have a0 := ha 0; have a1 := ha 1; have a2 := ha 2; have a3 := ha 3; have a4 := ha 4; have a5 := ha 5
  cases q <;> simp only [rated, twist, velAcc, accTwist, Prp.incVel, Prp.incAccOnVel, Prp.incAcc, Lin6, Lin3, Quad6, Quad3] <;> vec_unfold <;>
    refine ⟨⟨⟨?_, ?_, ?_⟩, ⟨?_, ?_, ?_⟩⟩, ⟨⟨?_, ?_, ?_⟩, ⟨?_, ?_, ?_⟩⟩, ⟨⟨?_, ?_, ?_⟩, ⟨?_, ?_, ?_⟩⟩⟩ <;> quad

/-- A family of states of a link before inverse dynamics. -/
structure Fam (n : ℕ) (x : ι → ℕ → K) (s : ι → σ) (l : ι → Link K) : Prop where
  stat : ∃ l0 : Link K, ∀ t, statics (l t) = statics l0
  vel : ∀ i, Lin n x fun t => (l t).joint.prp.getVel.getD i 0
  acc : ∀ i, Quad n x s fun t => (l t).joint.prp.getAcc.getD i 0

/-- A family of states of a link after inverse dynamics. -/
def Res (n : ℕ) (x : ι → ℕ → K) (s : ι → σ) (l : ι → Link K) : Prop :=
  Lin6 n x (fun t => (l t).body.vel) ∧ Quad6 n x s (fun t => (l t).body.acc)

theorem rate1 {l : ι → Link K} (h : Fam n x s l) {v a : ι → Vec6 K} (hv : Lin6 n x v) (ha : Quad6 n x s a) :
    Res n x s fun t => (l t).updateRate1 (v t) (a t) := by
  obtain ⟨l0, h0⟩ := h.stat
  have hs : ∀ t, (l t).joint.prp.still = l0.joint.prp.still := fun t => (statics_iff.1 (h0 t)).2.1
  have hd : ∀ t, (l t).adj = l0.adj := fun t => (statics_iff.1 (h0 t)).2.2.1
  generalize l0.joint.prp.still = q at hs
  generalize l0.adj = A at hd
  have hJ := fun w hw => joint q _ _ w h.vel h.acc hw
  have hr := fun t => rated_still (l t).joint.prp
  simp only [hs] at hr
  have e1 : ∀ t, ((l t).updateRate1 (v t) (a t)).body.vel = A.xform6Lin (v t) + twist (l t).joint.prp := fun t => by
    rw [(updateRate1_eq _ _ _).1, hd]
  have e2 : ∀ t, ((l t).updateRate1 (v t) (a t)).body.acc = A.xform6Lin (a t) +
      A.att.mulVecT6 ⟨cross (v t).ang (cross (v t).ang A.pos), 0⟩ +
      velAcc (l t).joint.prp (A.xform6Lin (v t) + twist (l t).joint.prp).ang + accTwist (l t).joint.prp := fun t => by
    rw [(updateRate1_eq _ _ _).2, e1, hd]
  have z := hJ (fun _ => 0) ⟨Lin.zero, Lin.zero, Lin.zero⟩
  have hV : Lin6 n x fun t => A.xform6Lin (v t) + twist (l t).joint.prp := by
    have T := z.1
    simp only [(hr _).1] at T
    obtain ⟨⟨v1, v2, v3⟩, ⟨v4, v5, v6⟩⟩ := hv
    obtain ⟨⟨T1, T2, T3⟩, ⟨T4, T5, T6⟩⟩ := T
    simp only [Lin6, Lin3]
    vec_unfold
    refine ⟨⟨?_, ?_, ?_⟩, ⟨?_, ?_, ?_⟩⟩ <;> quad
  refine ⟨by simpa only [e1] using hV, ?_⟩
  simp only [e2]
  have W := (hJ (fun t => (A.xform6Lin (v t) + twist (l t).joint.prp).ang) hV.2).2.1
  have U := z.2.2
  simp only [(hr _).2.1] at W
  simp only [(hr _).2.2] at U
  obtain ⟨⟨W1, W2, W3⟩, ⟨W4, W5, W6⟩⟩ := W
  obtain ⟨⟨U1, U2, U3⟩, ⟨U4, U5, U6⟩⟩ := U
  obtain ⟨⟨v1, v2, v3⟩, ⟨v4, v5, v6⟩⟩ := hv
  obtain ⟨⟨a1, a2, a3⟩, ⟨a4, a5, a6⟩⟩ := ha
  have B : Quad6 n x s fun t => A.xform6Lin (a t) + A.att.mulVecT6 ⟨cross (v t).ang (cross (v t).ang A.pos), 0⟩ := by
    simp only [Quad6, Quad3]
    vec_unfold
    refine ⟨⟨?_, ?_, ?_⟩, ⟨?_, ?_, ?_⟩⟩ <;> quad
  obtain ⟨⟨B1, B2, B3⟩, ⟨B4, B5, B6⟩⟩ := B
  exact ⟨⟨(B1.add W1).add U1, (B2.add W2).add U2, (B3.add W3).add U3⟩, ⟨(B4.add W4).add U4, (B5.add W5).add U5, (B6.add W6).add U6⟩⟩

/-- Families of trees of the same shape. -/
def AllF (P : (ι → Link K) → Prop) : LTree ℕ → (ι → LTree (Link K)) → Prop
  | .nil, F => ∀ t, F t = .nil
  | .node _ c r, F => ∃ l C R, (∀ t, F t = .node (l t) (C t) (R t)) ∧ P l ∧ AllF P c C ∧ AllF P r R

theorem all_of_gather {P : (ι → Link K) → Prop} {S : LTree ℕ} {ls : ι → List (Link K)} {T : ι → LTree (Link K)}
    (h : ∀ t, Chain.gather (ls t) S = some (T t)) (hP : ∀ (i : ℕ) (l : ι → Link K), (∀ t, (ls t)[i]? = some (l t)) → P l) : AllF P S T := by
  induction S generalizing T with
  | nil => intro t; have := h t; simp only [Chain.gather, Option.some.injEq] at this; exact this.symm
  | node i c r ihc ihr =>
    choose l C R h1 h2 h3 h4 using fun t => Chain.gather_node.1 (h t)
    exact ⟨l, C, R, h4, hP i l h1, ihc h2, ihr h3⟩

theorem gather_all {P : (ι → Link K) → Prop} {S : LTree ℕ} {ls : ι → List (Link K)} {T : ι → LTree (Link K)}
    (h : ∀ t, Chain.gather (ls t) S = some (T t)) (hT : AllF P S T) {i : ℕ} (hi : i ∈ S.toList) {l : ι → Link K}
    (hl : ∀ t, (ls t)[i]? = some (l t)) : P l := by
  induction S generalizing T with
  | nil => simp [LTree.toList] at hi
  | node j c r ihc ihr =>
    obtain ⟨m, C, R, e, hm, hC, hR⟩ := hT
    have k : ∀ t, (ls t)[j]? = some (m t) ∧ Chain.gather (ls t) c = some (C t) ∧ Chain.gather (ls t) r = some (R t) := by
      intro t
      obtain ⟨_, _, _, h1, h2, h3, h4⟩ := Chain.gather_node.1 (h t)
      rw [e t] at h4
      cases h4
      exact ⟨h1, h2, h3⟩
    simp only [LTree.toList, List.mem_cons, List.mem_append] at hi
    rcases hi with rfl | hi | hi
    · have : l = m := funext fun t => Option.some.inj ((hl t).symm.trans (k t).1)
      rw [this]; exact hm
    · exact ihc (fun t => (k t).2.1) hC hi
    · exact ihr (fun t => (k t).2.2) hR hi

/-- A link with its joint wrench and torque. -/
def done (l : Link K) (c : LTree (Link K)) : Link K :=
  let w0 := l.body.netWrench.angShift l.body.mp.com
  let w1 := LTree.addChildWrench w0 c
  let w2 := w1 - l.body.calcExtWrench
  { l with joint := ⟨l.joint.prp.calcTrq w2, w2⟩ }

theorem all_rate {S : LTree ℕ} {T : ι → LTree (Link K)} (h : AllF (Fam n x s) S T) {v a : ι → Vec6 K} (hv : Lin6 n x v)
    (ha : Quad6 n x s a) : AllF (Res n x s) S fun t => ((T t).updateRate (v t) (a t)).updateWrench := by
  induction S generalizing T v a with
  | nil => intro t; show ((T t).updateRate (v t) (a t)).updateWrench = _; rw [show T t = .nil from h t]; rfl
  | node i c r ihc ihr =>
    obtain ⟨l, C, R, e, hl, hC, hR⟩ := h
    have k := rate1 hl hv ha
    refine ⟨fun t => done ((l t).updateRate1 (v t) (a t)) ((C t).updateRate ((l t).updateRate1 (v t) (a t)).body.vel
      ((l t).updateRate1 (v t) (a t)).body.acc).updateWrench, _, _, fun t => ?_, k, ihc hC k.1 k.2, ihr hR hv ha⟩
    show ((T t).updateRate (v t) (a t)).updateWrench = _
    rw [e t]; rfl

theorem aux {a b d : ι → Vec3 K} (M : K) (C W : Vec3 K) (I : Mat3 K) (A : Quad3 n x s a) (B : Quad3 n x s b) (D : Lin3 n x d) :
    Quad n x s fun t => M * dot (a t) C + dot W (I.mulVec (b t) + cross (d t) (I.mulVec (d t))) := by
  obtain ⟨a1, a2, a3⟩ := A
  obtain ⟨b1, b2, b3⟩ := B
  obtain ⟨d1, d2, d3⟩ := D
  vec_unfold
  quad

theorem inertia_work {l : ι → Link K} (h : Res n x s l) {l0 : Link K} (h0 : ∀ t, statics (l t) = statics l0) (m : Link K) :
    Quad n x s fun t => inertialWork (l t) m := by
  have hf : ∀ t, (l t).body.frame = l0.body.frame := fun t => (statics_iff.1 (h0 t)).2.2.2.1
  have hp : ∀ t, (l t).body.mp = l0.body.mp := fun t => (statics_iff.1 (h0 t)).2.2.2.2
  obtain ⟨⟨⟨v1, v2, v3⟩, ⟨v4, v5, v6⟩⟩, ⟨⟨a1, a2, a3⟩, ⟨a4, a5, a6⟩⟩⟩ := h
  simp only [inertialWork, Spec.mass, Spec.comAcc, angAcc, angVel, worldInertia, hf, hp]
  generalize l0.body.frame.att = R
  generalize (R.mul l0.body.mp.inertia).mul R.tr = I
  generalize l0.body.mp.com = c
  generalize l0.body.mp.mass = M
  generalize Spec.comVel m = C
  generalize m.body.frame.att.mulVec m.body.vel.ang = W
  have A : Quad3 n x s fun t => R.mulVec ((l t).body.acc.lin + cross (l t).body.acc.ang c + cross (l t).body.vel.ang (cross (l t).body.vel.ang c)) := by
    simp only [Quad3]; vec_unfold; refine ⟨?_, ?_, ?_⟩ <;> quad
  have B : Quad3 n x s fun t => R.mulVec (l t).body.acc.ang := by simp only [Quad3]; vec_unfold; refine ⟨?_, ?_, ?_⟩ <;> quad
  have D : Lin3 n x fun t => R.mulVec (l t).body.vel.ang := by simp only [Lin3]; vec_unfold; refine ⟨?_, ?_, ?_⟩ <;> quad
  exact aux M C W I A B D

end Roki.Coriolis
