import Verif.Lemmas.ZmReal
import Verif.Spec.Samples
import Verif.Lemmas.Vec
import Mathlib.Analysis.Real.Pi.Bounds

/-!
# C04, C05: joint limits and the continuous displacement update
-/

namespace Roki
variable {K : Type*}

/-! ## Specification -/

namespace Spec
/-- A value respects a minimum and a maximum, either of which may be absent. -/
def Within [LE K] (lo hi : Option K) (x : K) : Prop :=
  (∀ l, lo = some l → l ≤ x) ∧ (∀ h, hi = some h → x ≤ h)

/-- The minimum does not exceed the maximum, for every degree of freedom. -/
def LimitsOrdered [LE K] (p : Prp K) : Prop :=
  ∀ (i : ℕ) (l h : K), p.getMin[i]? = some (some l) → p.getMax[i]? = some (some h) → l ≤ h

/-- Every degree of freedom respects its limits. -/
def Respects [LE K] (p : Prp K) (v : List K) : Prop :=
  ∀ (i : ℕ) (x : K) (lo hi : Option K), v[i]? = some x → p.getMin[i]? = some lo →
    p.getMax[i]? = some hi → Within lo hi x

/-- The joints that have limits. -/
def Limited : Prp K → Prop
  | .revol _ => True
  | .prism _ => True
  | .cylin _ => True
  | .hooke _ => True
  | _ => False

/-- The degrees of freedom that are angles, which are normalised to one turn. -/
def IsAngle : Prp K → ℕ → Prop
  | .revol _, 0 => True
  | .cylin _, 1 => True
  | .hooke _, 0 => True
  | .hooke _, 1 => True
  | _, _ => False
end Spec

open Spec

/-! ## Lemmas -/

section
variable [LinearOrder K]

theorem limit_within (v : K) (lo hi : Option K)
    (h : ∀ l u, lo = some l → hi = some u → l ≤ u) : Within lo hi (limit v lo hi) := by
  rcases lo with _ | l <;> rcases hi with _ | u <;> simp only [limit, Within]
  · simp
  · simp
  · simp
  · refine ⟨?_, ?_⟩
    · intro a ha; cases ha; exact le_max_right _ _
    · intro a ha; cases ha; exact max_le (min_le_right _ _) (h _ _ rfl rfl)

theorem limit_eq_self {v : K} {lo hi : Option K} (h : Within lo hi v) : limit v lo hi = v := by
  obtain ⟨h1, h2⟩ := h
  rcases lo with _ | l <;> rcases hi with _ | u <;> simp only [limit]
  · exact min_eq_left (h2 _ rfl)
  · exact max_eq_left (h1 _ rfl)
  · rw [min_eq_left (h2 _ rfl), max_eq_left (h1 _ rfl)]

theorem limit_phase [Field K] [IsStrictOrderedRing K] [Zm K] [LawfulZm K] (v : K) (lo hi : Option K)
    (h : ∀ l u, lo = some l → hi = some u → l ≤ u) :
    limit (Zm.phaseNormalize (limit (Zm.phaseNormalize v) lo hi)) lo hi =
      limit (Zm.phaseNormalize v) lo hi := by
  have hw := limit_within (Zm.phaseNormalize v) lo hi h
  set d := limit (Zm.phaseNormalize v) lo hi with hd
  have g := LawfulZm.phase_gt v
  have l := LawfulZm.phase_le v
  have gd := LawfulZm.phase_gt d
  have ld := LawfulZm.phase_le d
  by_cases h1 : -Zm.pi < d
  · by_cases h2 : d ≤ Zm.pi
    · rw [LawfulZm.phase_id _ h1 h2]; exact limit_eq_self hw
    · -- `d` is the lower limit, beyond half a turn
      push Not at h2
      have : lo = some d := by
        rcases lo with _ | a <;> rcases hi with _ | b <;> simp only [limit] at hd
        · exact absurd h2 (by rw [hd]; exact not_lt.2 l)
        · exact absurd h2 (by rw [hd]; exact not_lt.2 ((min_le_left _ _).trans l))
        · rcases max_choice (Zm.phaseNormalize v) a with e | e <;> rw [e] at hd
          · exact absurd h2 (by rw [hd]; exact not_lt.2 l)
          · rw [hd]
        · rcases max_choice (min (Zm.phaseNormalize v) b) a with e | e <;> rw [e] at hd
          · exact absurd h2 (by rw [hd]; exact not_lt.2 ((min_le_left _ _).trans l))
          · rw [hd]
      rw [this]
      have hlt : Zm.phaseNormalize d ≤ d := ld.trans h2.le
      rcases hi with _ | b <;> simp only [limit]
      · exact max_eq_right hlt
      · exact max_eq_right ((min_le_left _ _).trans hlt)
  · push Not at h1
    have : hi = some d ∧ (∀ a, lo = some a → a = d ∨ a ≤ d) := by
      refine ⟨?_, fun a ha => Or.inr (hw.1 a ha)⟩
      rcases hi with _ | b
      · exfalso
        rcases lo with _ | a <;> simp only [limit] at hd
        · rw [hd] at h1; exact absurd g (not_lt.2 h1)
        · have := le_max_left (Zm.phaseNormalize v) a
          rw [← hd] at this; exact absurd g (not_lt.2 (this.trans h1))
      · have hb : d ≤ b := hw.2 b rfl
        congr 1
        apply le_antisymm _ hb
        have hm : min (Zm.phaseNormalize v) b ≤ d := by
          rcases lo with _ | a <;> simp only [limit] at hd
          · exact hd.ge
          · rw [hd]; exact le_max_left _ _
        rcases min_choice (Zm.phaseNormalize v) b with e | e <;> rw [e] at hm
        · exact absurd g (not_lt.2 (hm.trans h1))
        · exact hm
    obtain ⟨this, _⟩ := this
    rw [this]
    have hlt : d ≤ Zm.phaseNormalize d := h1.trans gd.le
    rcases lo with _ | a <;> simp only [limit]
    · exact min_eq_right hlt
    · rw [min_eq_right hlt]; exact max_eq_left (hw.1 _ rfl)
end

/-! ## C04 -/

section
variable [Field K] [LinearOrder K] [Zm K]

/-- **C04** Whatever displacement is requested, the displacement stored by `rkJointSetDis` respects
the limits of the joint, provided no minimum exceeds its maximum; the limits are unchanged. -/
theorem C04_within_limits (p p' : Prp K) (val : List K) (hl : LimitsOrdered p)
    (h : p.setDis val = some p') :
    Respects p p'.getDis ∧ p'.getMin = p.getMin ∧ p'.getMax = p.getMax := by
  cases p with
  | fixed => simp [Prp.setDis] at h; subst h; simp [Respects, Prp.getDis]
  | revol q =>
    rcases val with _ | ⟨v, val⟩ <;> simp [Prp.setDis] at h
    subst h
    refine ⟨?_, rfl, rfl⟩
    intro i x lo hi hx h1 h2
    rcases i with _ | i <;> simp [Prp.getDis, Prp.getMin, Prp.getMax] at hx h1 h2
    subst hx h1 h2
    exact limit_within _ _ _ fun l u e1 e2 => hl 0 l u (by simp [Prp.getMin, e1]) (by simp [Prp.getMax, e2])
  | prism q =>
    rcases val with _ | ⟨v, val⟩ <;> simp [Prp.setDis] at h
    subst h
    refine ⟨?_, rfl, rfl⟩
    intro i x lo hi hx h1 h2
    rcases i with _ | i <;> simp [Prp.getDis, Prp.getMin, Prp.getMax] at hx h1 h2
    subst hx h1 h2
    exact limit_within _ _ _ fun l u e1 e2 => hl 0 l u (by simp [Prp.getMin, e1]) (by simp [Prp.getMax, e2])
  | cylin q =>
    rcases val with _ | ⟨v, _ | ⟨w, val⟩⟩ <;> simp [Prp.setDis] at h
    subst h
    refine ⟨?_, rfl, rfl⟩
    intro i x lo hi hx h1 h2
    rcases i with _ | _ | i <;> simp [Prp.getDis, Prp.getMin, Prp.getMax] at hx h1 h2 <;>
      subst hx h1 h2
    · exact limit_within _ _ _ fun l u e1 e2 => hl 0 l u (by simp [Prp.getMin, e1]) (by simp [Prp.getMax, e2])
    · exact limit_within _ _ _ fun l u e1 e2 => hl 1 l u (by simp [Prp.getMin, e1]) (by simp [Prp.getMax, e2])
  | hooke q =>
    rcases val with _ | ⟨v, _ | ⟨w, val⟩⟩ <;> simp [Prp.setDis] at h
    subst h
    refine ⟨?_, rfl, rfl⟩
    intro i x lo hi hx h1 h2
    rcases i with _ | _ | i <;> simp [Prp.getDis, Prp.getMin, Prp.getMax] at hx h1 h2 <;>
      subst hx h1 h2
    · exact limit_within _ _ _ fun l u e1 e2 => hl 0 l u (by simp [Prp.getMin, e1]) (by simp [Prp.getMax, e2])
    · exact limit_within _ _ _ fun l u e1 e2 => hl 1 l u (by simp [Prp.getMin, e1]) (by simp [Prp.getMax, e2])
  | spher q =>
    simp only [Prp.setDis, Option.map_eq_some_iff] at h
    obtain ⟨v, -, rfl⟩ := h
    refine ⟨?_, rfl, rfl⟩
    intro i x lo hi hx h1 h2
    rcases i with _ | _ | _ | i <;> simp [Prp.getMin, Prp.getMax] at h1 h2 <;>
      subst h1 h2 <;> exact ⟨by simp, by simp⟩
  | float q =>
    simp only [Prp.setDis, Option.map_eq_some_iff] at h
    obtain ⟨v, -, rfl⟩ := h
    refine ⟨?_, rfl, rfl⟩
    intro i x lo hi hx h1 h2
    rcases i with _ | _ | _ | _ | _ | _ | i <;> simp [Prp.getMin, Prp.getMax] at h1 h2 <;>
      subst h1 h2 <;> exact ⟨by simp, by simp⟩
  | brfloat q =>
    simp only [Prp.setDis, Option.map_eq_some_iff] at h
    obtain ⟨v, -, rfl⟩ := h
    refine ⟨?_, rfl, rfl⟩
    intro i x lo hi hx h1 h2
    rcases i with _ | _ | _ | _ | _ | _ | i <;> simp [Prp.getMin, Prp.getMax] at h1 h2 <;>
      subst h1 h2 <;> exact ⟨by simp, by simp⟩

/-- **C04** The continuous update stores the same displacement, hence respects the same limits. -/
theorem C04_within_limits_cnt (p p' : Prp K) (val : List K) (dt : K) (hl : LimitsOrdered p)
    (h : p.setDisCNT val dt = some p') :
    Respects p p'.getDis ∧ ∃ p'', p.setDis val = some p'' ∧ p''.getDis = p'.getDis := by
  have key : ∃ p'', p.setDis val = some p'' ∧ p''.getDis = p'.getDis := by
    cases p <;> rcases val with _ | ⟨a, _ | ⟨b, _ | ⟨c, _ | ⟨d, _ | ⟨e, _ | ⟨f, val⟩⟩⟩⟩⟩⟩ <;>
      simp [Prp.setDisCNT, Vec3.ofBuf, Vec6.ofBuf] at h <;> subst h <;> exact ⟨_, rfl, rfl⟩
  refine ⟨?_, key⟩
  obtain ⟨p'', h1, h2⟩ := key
  rw [← h2]; exact (C04_within_limits p p'' val hl h1).1

variable [IsStrictOrderedRing K] [LawfulZm K]

/-- **C04** Setting the stored displacement again changes nothing. -/
theorem C04_idempotent (p p' : Prp K) (val : List K) (hl : LimitsOrdered p)
    (h : p.setDis val = some p') : p'.setDis p'.getDis = some p' := by
  cases p with
  | fixed => simp [Prp.setDis] at h; subst h; rfl
  | revol q =>
    rcases val with _ | ⟨v, val⟩ <;> simp [Prp.setDis] at h
    subst h
    have := limit_phase v q.lo q.hi fun l u e1 e2 =>
      hl 0 l u (by simp [Prp.getMin, e1]) (by simp [Prp.getMax, e2])
    simp only [Prp.setDis, Prp.getDis, this]
  | prism q =>
    rcases val with _ | ⟨v, val⟩ <;> simp [Prp.setDis] at h
    subst h
    have := limit_eq_self (limit_within v q.lo q.hi fun l u e1 e2 =>
      hl 0 l u (by simp [Prp.getMin, e1]) (by simp [Prp.getMax, e2]))
    simp only [Prp.setDis, Prp.getDis, this]
  | cylin q =>
    rcases val with _ | ⟨v, _ | ⟨w, val⟩⟩ <;> simp [Prp.setDis] at h
    subst h
    have h0 := limit_eq_self (limit_within v q.lo0 q.hi0 fun l u e1 e2 =>
      hl 0 l u (by simp [Prp.getMin, e1]) (by simp [Prp.getMax, e2]))
    have h1 := limit_phase w q.lo1 q.hi1 fun l u e1 e2 =>
      hl 1 l u (by simp [Prp.getMin, e1]) (by simp [Prp.getMax, e2])
    simp only [Prp.setDis, Prp.getDis, h0, h1]
  | hooke q =>
    rcases val with _ | ⟨v, _ | ⟨w, val⟩⟩ <;> simp [Prp.setDis] at h
    subst h
    have h0 := limit_phase v q.lo0 q.hi0 fun l u e1 e2 =>
      hl 0 l u (by simp [Prp.getMin, e1]) (by simp [Prp.getMax, e2])
    have h1 := limit_phase w q.lo1 q.hi1 fun l u e1 e2 =>
      hl 1 l u (by simp [Prp.getMin, e1]) (by simp [Prp.getMax, e2])
    simp only [Prp.setDis, Prp.getDis, h0, h1]
  | spher q =>
    simp only [Prp.setDis, Option.map_eq_some_iff] at h
    obtain ⟨v, -, rfl⟩ := h
    rfl
  | float q =>
    simp only [Prp.setDis, Option.map_eq_some_iff] at h
    obtain ⟨v, -, rfl⟩ := h
    rfl
  | brfloat q =>
    simp only [Prp.setDis, Option.map_eq_some_iff] at h
    obtain ⟨v, -, rfl⟩ := h
    rfl

/-- **C04** (partial) A displacement that respects the limits is stored as given, provided each
angle is within half a turn.  Without the last hypothesis the claim is false, see
`C04_stored_as_given_fails`. -/
theorem C04_stored_as_given_partial (p : Prp K) (val : List K) (hv : val.length = p.size)
    (hr : Respects p val)
    (ha : ∀ (i : ℕ) (x : K), val[i]? = some x → IsAngle p i → -Zm.pi < x ∧ x ≤ Zm.pi) :
    ∃ p', p.setDis val = some p' ∧ p'.getDis = val := by
  cases p with
  | fixed =>
    rcases val with _ | ⟨a, val⟩ <;> simp [Prp.size] at hv
    exact ⟨_, rfl, rfl⟩
  | revol q =>
    rcases val with _ | ⟨a, _ | ⟨b, val⟩⟩ <;> simp [Prp.size] at hv
    refine ⟨_, rfl, ?_⟩
    obtain ⟨h1, h2⟩ := ha 0 a rfl trivial
    simp [Prp.getDis, LawfulZm.phase_id _ h1 h2, limit_eq_self (hr 0 a q.lo q.hi rfl rfl rfl)]
  | prism q =>
    rcases val with _ | ⟨a, _ | ⟨b, val⟩⟩ <;> simp [Prp.size] at hv
    refine ⟨_, rfl, ?_⟩
    simp [Prp.getDis, limit_eq_self (hr 0 a q.lo q.hi rfl rfl rfl)]
  | cylin q =>
    rcases val with _ | ⟨a, _ | ⟨b, _ | ⟨c, val⟩⟩⟩ <;> simp [Prp.size] at hv
    refine ⟨_, rfl, ?_⟩
    obtain ⟨h1, h2⟩ := ha 1 b rfl trivial
    simp [Prp.getDis, LawfulZm.phase_id _ h1 h2, limit_eq_self (hr 0 a q.lo0 q.hi0 rfl rfl rfl),
      limit_eq_self (hr 1 b q.lo1 q.hi1 rfl rfl rfl)]
  | hooke q =>
    rcases val with _ | ⟨a, _ | ⟨b, _ | ⟨c, val⟩⟩⟩ <;> simp [Prp.size] at hv
    refine ⟨_, rfl, ?_⟩
    obtain ⟨h1, h2⟩ := ha 1 b rfl trivial
    obtain ⟨h3, h4⟩ := ha 0 a rfl trivial
    simp [Prp.getDis, LawfulZm.phase_id _ h1 h2, LawfulZm.phase_id _ h3 h4,
      limit_eq_self (hr 0 a q.lo0 q.hi0 rfl rfl rfl),
      limit_eq_self (hr 1 b q.lo1 q.hi1 rfl rfl rfl)]
  | spher q =>
    rcases val with _ | ⟨a, _ | ⟨b, _ | ⟨c, _ | ⟨d, val⟩⟩⟩⟩ <;> simp [Prp.size] at hv
    exact ⟨_, rfl, rfl⟩
  | float q =>
    rcases val with _ | ⟨a, _ | ⟨b, _ | ⟨c, _ | ⟨d, _ | ⟨e, _ | ⟨f, _ | ⟨g, val⟩⟩⟩⟩⟩⟩⟩ <;>
      simp [Prp.size] at hv
    exact ⟨_, rfl, rfl⟩
  | brfloat q =>
    rcases val with _ | ⟨a, _ | ⟨b, _ | ⟨c, _ | ⟨d, _ | ⟨e, _ | ⟨f, _ | ⟨g, val⟩⟩⟩⟩⟩⟩⟩ <;>
      simp [Prp.size] at hv
    exact ⟨_, rfl, rfl⟩
end

/-- A revolute joint with limits 0 and 5 set to 4, over the real numbers. -/
noncomputable def Sample.wideRevol : Prp ℝ := .revol (Sample.dof1 0 0 0 0 1 (some 0) (some 5))

/-- **C04** fails as stated: a revolute joint with limits 0 and 5 that is asked for 4, which
respects the limits, does not store 4 (normalisation makes it negative and it is then raised
to 0). -/
theorem C04_stored_as_given_fails :
    LimitsOrdered Sample.wideRevol ∧ Respects Sample.wideRevol [4] ∧
    ∃ p', Sample.wideRevol.setDis [4] = some p' ∧ p'.getDis ≠ [4] := by
  refine ⟨?_, ?_, _, rfl, ?_⟩
  · intro i l h h1 h2
    rcases i with _ | i <;> simp [Sample.wideRevol, Sample.dof1, Prp.getMin, Prp.getMax] at h1 h2
    subst h1 h2; norm_num
  · intro i x lo hi hx h1 h2
    rcases i with _ | i <;> simp [Sample.wideRevol, Sample.dof1, Prp.getMin, Prp.getMax] at hx h1 h2
    subst hx h1 h2
    constructor <;> intro a ha <;> cases ha <;> norm_num
  · intro h
    simp only [Prp.getDis, Sample.dof1, limit, List.cons.injEq, and_true] at h
    have hp : Zm.phaseNormalize (4 : ℝ) < 4 :=
      (LawfulZm.phase_le (4 : ℝ)).trans_lt (by
        have := Real.pi_lt_d2
        show Real.pi < 4
        linarith)
    rcases max_choice (min (Zm.phaseNormalize (4 : ℝ)) 5) 0 with e | e <;> rw [e] at h
    · have := min_le_left (Zm.phaseNormalize (4 : ℝ)) 5
      linarith
    · norm_num at h

/-- The hypotheses of the positive theorems are met: a prismatic joint with limits -1 and 1. -/
example : LimitsOrdered (.prism (Sample.dof1 0 0 0 0 1 (some (-1)) (some 1)) : Prp ℝ) ∧
    ∃ p', (.prism (Sample.dof1 0 0 0 0 1 (some (-1)) (some 1)) : Prp ℝ).setDis [7] = some p' ∧
      p'.getDis = [1] := by
  refine ⟨?_, _, rfl, ?_⟩
  · intro i l h h1 h2
    rcases i with _ | i <;> simp [Sample.dof1, Prp.getMin, Prp.getMax] at h1 h2
    subst h1 h2; norm_num
  · simp [Prp.getDis, Sample.dof1, limit]

/-! ## C05 -/

namespace Spec
/-- The velocity differentiates the displacement: difference quotient for the joints whose
displacement is a vector of scalars, and for rotations the angular velocity that carries the old
attitude to the new one in time `dt`. -/
def VelDifferentiates [Field K] [Zm K] (p p' : Prp K) (dt : K) : Prop :=
  match p, p' with
  | .fixed, .fixed => True
  | .spher p, .spher p' => (Zm.fromAA (dt • p'.vel)).mul p.att = p'.att
  | .float p, .float p' =>
    p.dis.lin + dt • p'.vel.lin = p'.dis.lin ∧ (Zm.fromAA (dt • p'.vel.ang)).mul p.att = p'.att
  | .brfloat p, .brfloat p' =>
    p.dis.lin + dt • p'.vel.lin = p'.dis.lin ∧ (Zm.fromAA (dt • p'.vel.ang)).mul p.att = p'.att
  | p, p' => p'.getVel = List.zipWith (fun new old => (new - old) / dt) p'.getDis p.getDis

/-- The acceleration is the difference quotient of the velocity. -/
def AccDifferentiates [Field K] (p p' : Prp K) (dt : K) : Prop :=
  p'.getAcc = List.zipWith (fun new old => (new - old) / dt) p'.getVel p.getVel
end Spec

section
variable [Field K] [LinearOrder K] [IsStrictOrderedRing K] [Zm K] [LawfulZm K]

theorem fromAA_error {dt : K} (hdt : dt ≠ 0) (a b : Mat3 K) (ha : a.IsRot) (hb : b.IsRot) :
    (Zm.fromAA (dt • dt⁻¹ • mat3Error a b)).mul b = a := by
  rw [smul_smul, mul_inv_cancel₀ hdt, one_smul]
  unfold mat3Error
  rw [LawfulZm.fromAA_toAA _ (ha.mul hb.tr), Mat3.mul_assoc', hb.tr_mul_self, Mat3.mul_one']

omit [IsStrictOrderedRing K] [LawfulZm K] in
/-- **C05** Acceleration: for every joint type and every request. -/
theorem C05_acceleration (p p' : Prp K) (val : List K) (dt : K)
    (h : p.setDisCNT val dt = some p') : AccDifferentiates p p' dt := by
  cases p <;> rcases val with _ | ⟨a, _ | ⟨b, _ | ⟨c, _ | ⟨d, _ | ⟨e, _ | ⟨f, val⟩⟩⟩⟩⟩⟩ <;>
    simp [Prp.setDisCNT, Vec3.ofBuf, Vec6.ofBuf] at h <;> subst h <;>
    simp [AccDifferentiates, Prp.getAcc, Prp.getVel, Vec3.toBuf, Vec6.toBuf, div_eq_inv_mul]

/-- **C05** (partial) Velocity: whenever the requested displacement needs no normalisation and no
limiting, and always for the joints without limits.  Without the hypothesis `hlim` the claim is
false for the joints with limits, see `C05_velocity_fails`. -/
theorem C05_velocity_partial (p p' : Prp K) (val : List K) (dt : K) (hdt : dt ≠ 0) (hp : p.WF)
    (hlim : Limited p → p.limDis val = some (val.take p.size))
    (h : p.setDisCNT val dt = some p') : VelDifferentiates p p' dt := by
  cases p with
  | fixed => simp [Prp.setDisCNT] at h; subst h; trivial
  | revol q =>
    rcases val with _ | ⟨v, val⟩ <;> simp [Prp.setDisCNT] at h
    subst h
    have := hlim trivial
    simp [Prp.limDis, Prp.size] at this
    simp [VelDifferentiates, Prp.getVel, Prp.getDis, this]
  | prism q =>
    rcases val with _ | ⟨v, val⟩ <;> simp [Prp.setDisCNT] at h
    subst h
    have := hlim trivial
    simp [Prp.limDis, Prp.size] at this
    simp [VelDifferentiates, Prp.getVel, Prp.getDis, this]
  | cylin q =>
    rcases val with _ | ⟨v, _ | ⟨w, val⟩⟩ <;> simp [Prp.setDisCNT] at h
    subst h
    have := hlim trivial
    simp [Prp.limDis, Prp.size] at this
    simp [VelDifferentiates, Prp.getVel, Prp.getDis, this]
  | hooke q =>
    rcases val with _ | ⟨v, _ | ⟨w, val⟩⟩ <;> simp [Prp.setDisCNT] at h
    subst h
    have := hlim trivial
    simp [Prp.limDis, Prp.size] at this
    simp [VelDifferentiates, Prp.getVel, Prp.getDis, this]
  | spher q =>
    simp only [Prp.setDisCNT, Option.map_eq_some_iff] at h
    obtain ⟨v, -, rfl⟩ := h
    exact fromAA_error hdt _ _ (LawfulZm.fromAA_isRot _) hp
  | float q =>
    simp only [Prp.setDisCNT, Option.map_eq_some_iff] at h
    obtain ⟨v, -, rfl⟩ := h
    refine ⟨?_, fromAA_error hdt _ _ (LawfulZm.fromAA_isRot _) hp⟩
    simp only
    rw [smul_smul, mul_inv_cancel₀ hdt, one_smul]; abel
  | brfloat q =>
    simp only [Prp.setDisCNT, Option.map_eq_some_iff] at h
    obtain ⟨v, -, rfl⟩ := h
    refine ⟨?_, fromAA_error hdt _ _ (LawfulZm.fromAA_isRot _) hp⟩
    simp only
    rw [smul_smul, mul_inv_cancel₀ hdt, one_smul]; abel
end

/-- **C05** fails as stated: a prismatic joint with limits -1 and 1 at rest at 0 that is asked for 2
in unit time stops at 1 and reports velocity 2. -/
theorem C05_velocity_fails :
    ∃ p', (.prism (Sample.dof1 0 0 0 0 1 (some (-1)) (some 1)) : Prp ℝ).setDisCNT [2] 1 = some p' ∧
      p'.getDis = [1] ∧ p'.getVel = [2] ∧
      ¬ VelDifferentiates (.prism (Sample.dof1 0 0 0 0 1 (some (-1)) (some 1)) : Prp ℝ) p' 1 := by
  have e : limit (2 : ℝ) (some (-1)) (some 1) = 1 := by norm_num [limit]
  refine ⟨_, rfl, ?_, ?_, ?_⟩
  · simp [Prp.getDis, Sample.dof1, e]
  · simp [Prp.getVel, Sample.dof1]
  · simp [VelDifferentiates, Prp.getDis, Prp.getVel, Sample.dof1, e]

/-- The hypotheses of the partial theorem are met by a moving prismatic joint. -/
example : (.prism (Sample.dof1 0 1 0 0 1 (some (-1)) (some 1)) : Prp ℝ).WF ∧
    (.prism (Sample.dof1 0 1 0 0 1 (some (-1)) (some 1)) : Prp ℝ).limDis [1 / 2] =
      some (([1 / 2] : List ℝ).take 1) := by
  refine ⟨trivial, ?_⟩
  norm_num [Prp.limDis, Sample.dof1, limit]

end Roki
