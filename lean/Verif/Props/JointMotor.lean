import Verif.Model.JointMotor
import Verif.Lemmas.ZmRat
import Verif.Props.ABIFails
set_option autoImplicit false

/-!
# C144: what a joint reports of its motor
-/

namespace Roki
open Spec

namespace Spec
variable {K : Type*}

/-- The motor of a joint resists motion: the admittance of a DC motor is not negative. -/
def Passive [Field K] [LinearOrder K] (p : Prp K) : Prop :=
  ∀ d, p.getMotor = some (.dc d) → 0 ≤ d.admit

end Spec

variable {K : Type*} [Field K]

theorem Prp.zeroFront_putFirst {n : ℕ} {x : K} {val r : List K} (hn : 0 < n)
    (h : (Prp.zeroFront n val).bind (Prp.putFirst x) = some r) :
    n ≤ val.length ∧ r = x :: (List.replicate (n - 1) 0 ++ val.drop n) := by
  obtain ⟨m, rfl⟩ : ∃ m, n = m + 1 := ⟨n - 1, by omega⟩
  unfold Prp.zeroFront at h
  split at h
  · next hl =>
    simp only [Option.bind_some, List.replicate_succ, List.cons_append, Prp.putFirst, Option.some.injEq] at h
    exact ⟨hl, by simpa using h.symm⟩
  · simp at h

/-- Each query of a joint about its motor writes exactly as many elements as the joint has components
(the square of it for the inertia), leaves the rest of the buffer alone, and is undefined on a shorter
buffer. -/
theorem C144_size (p : Prp K) (val : List K) :
    (∀ q ∈ [p.motorInputTrqBuf val, p.motorResistanceBuf val, p.motorDrivingTrqBuf val],
      (q.isSome ↔ p.size ≤ val.length) ∧
      ∀ r, q = some r → r.length = val.length ∧ r.drop p.size = val.drop p.size) ∧
    (((p.motorInertiaBuf val).isSome ↔ p.size * p.size ≤ val.length) ∧
      ∀ r, p.motorInertiaBuf val = some r →
        r.length = val.length ∧ r.drop (p.size * p.size) = val.drop (p.size * p.size)) := by
  have z : ∀ n, ((Prp.zeroFront n val).isSome ↔ n ≤ val.length) ∧
      ∀ r, Prp.zeroFront n val = some r → r.length = val.length ∧ r.drop n = val.drop n := by
    intro n
    unfold Prp.zeroFront
    split
    · next h =>
      refine ⟨by simpa using h, ?_⟩
      rintro r ⟨⟩
      constructor
      · simp; omega
      · simp
    · next h => exact ⟨by simpa using h, by simp⟩
  have f : ∀ (n : ℕ) (x : K), 0 < n → (((Prp.zeroFront n val).bind (Prp.putFirst x)).isSome ↔ n ≤ val.length) ∧
      ∀ r, (Prp.zeroFront n val).bind (Prp.putFirst x) = some r →
        r.length = val.length ∧ r.drop n = val.drop n := by
    intro n x hn
    obtain ⟨m, rfl⟩ : ∃ m, n = m + 1 := ⟨n - 1, by omega⟩
    unfold Prp.zeroFront
    split
    · next h =>
      refine ⟨by simpa [List.replicate_succ, Prp.putFirst] using h, ?_⟩
      intro r hr
      simp only [Option.bind_some, List.replicate_succ, List.cons_append, Prp.putFirst, Option.some.injEq] at hr
      subst hr
      constructor
      · simp; omega
      · simp
    · next h => exact ⟨by simpa using h, by simp⟩
  have s : ((some val : Option (List K)).isSome ↔ 0 ≤ val.length) ∧
      ∀ r, some val = some r → r.length = val.length ∧ r.drop 0 = val.drop 0 := by
    refine ⟨by simp, ?_⟩
    rintro r ⟨⟩
    exact ⟨rfl, rfl⟩
  simp only [List.forall_mem_cons, List.not_mem_nil, false_implies, implies_true, and_true]
  cases p with
  | fixed => exact ⟨⟨s, s, s⟩, s⟩
  | revol p => exact ⟨⟨f 1 _ (by decide), f 1 _ (by decide), f 1 _ (by decide)⟩, f 1 _ (by decide)⟩
  | prism p => exact ⟨⟨f 1 _ (by decide), f 1 _ (by decide), f 1 _ (by decide)⟩, f 1 _ (by decide)⟩
  | cylin p => exact ⟨⟨f 2 _ (by decide), f 2 _ (by decide), f 2 _ (by decide)⟩, f 4 _ (by decide)⟩
  | hooke p => exact ⟨⟨f 2 _ (by decide), f 2 _ (by decide), f 2 _ (by decide)⟩, f 4 _ (by decide)⟩
  | spher p => exact ⟨⟨f 3 _ (by decide), f 3 _ (by decide), f 3 _ (by decide)⟩, f 9 _ (by decide)⟩
  | float p => exact ⟨⟨z 6, z 6, z 6⟩, z 36⟩
  | brfloat p => exact ⟨⟨z 6, z 6, z 6⟩, z 36⟩

/-- The driving torque of a motor is its input torque less resistance and inertia times acceleration. -/
theorem Motor.drivingTrq_eq (m : Motor K) (v a : K) :
    m.drivingTrq v a = m.inputTrq - m.resistance v - m.inertia * a := by
  cases m <;> simp [Motor.drivingTrq, Motor.inputTrq, Motor.resistance, Motor.inertia]

/-- The driving torque a joint reports is the input torque it reports, less the resistance, less the
reported inertia matrix times the acceleration of the joint, component by component, for every type of
joint and of motor and whatever was in the buffers. -/
theorem C144_balance (p : Prp K) (b1 b2 b3 b4 ti tr td h : List K)
    (e1 : p.motorInputTrqBuf b1 = some ti) (e2 : p.motorResistanceBuf b2 = some tr)
    (e3 : p.motorDrivingTrqBuf b3 = some td) (e4 : p.motorInertiaBuf b4 = some h) :
    ∀ i < p.size, td.getD i 0 = ti.getD i 0 - tr.getD i 0 -
      ∑ j ∈ Finset.range p.size, h.getD (i * p.size + j) 0 * p.getAcc.getD j 0 := by
  have key : ∀ (n : ℕ) (m : Motor K) (v : K) (acc : List K), 0 < n →
      ti = m.inputTrq :: (List.replicate (n - 1) 0 ++ b1.drop n) →
      tr = m.resistance v :: (List.replicate (n - 1) 0 ++ b2.drop n) →
      td = m.drivingTrq v (acc.getD 0 0) :: (List.replicate (n - 1) 0 ++ b3.drop n) →
      h = m.inertia :: (List.replicate (n * n - 1) 0 ++ b4.drop (n * n)) →
      ∀ i < n, td.getD i 0 = ti.getD i 0 - tr.getD i 0 -
        ∑ j ∈ Finset.range n, h.getD (i * n + j) 0 * acc.getD j 0 := by
    intro n m v acc hn h1 h2 h3 h4 i hi
    have fr : ∀ (N : ℕ) (x : K) (t : List K), ∀ k < N,
        (x :: (List.replicate (N - 1) 0 ++ t)).getD k 0 = if k = 0 then x else 0 := by
      intro N x t k hk
      cases k with
      | zero => simp
      | succ k =>
        have : k < N - 1 := by omega
        simp [List.getD, List.getElem?_append_left, this]
    have lt : ∀ j ∈ Finset.range n, i * n + j < n * n := by
      intro j hj
      have := Finset.mem_range.1 hj
      nlinarith
    subst h1 h2 h3 h4
    rw [fr n _ _ i hi, fr n _ _ i hi, fr n _ _ i hi,
      Finset.sum_congr rfl (fun j hj => by rw [fr (n * n) _ _ _ (lt j hj)])]
    by_cases h0 : i = 0
    · subst h0
      simp [Motor.drivingTrq_eq, hn]
    · simp only [if_neg h0]
      rw [Finset.sum_eq_zero fun j _ => ?_]
      · simp
      · rw [if_neg, zero_mul]
        have : 0 < i * n := Nat.mul_pos (by omega) hn
        omega
  have zer : ∀ (acc : List K), Prp.zeroFront 6 b1 = some ti → Prp.zeroFront 6 b2 = some tr →
      Prp.zeroFront 6 b3 = some td → Prp.zeroFront 36 b4 = some h →
      ∀ i < 6, td.getD i 0 = ti.getD i 0 - tr.getD i 0 -
        ∑ j ∈ Finset.range 6, h.getD (i * 6 + j) 0 * acc.getD j 0 := by
    have fr : ∀ (N : ℕ) (b r : List K), Prp.zeroFront N b = some r → ∀ k < N, r.getD k 0 = 0 := by
      intro N b r hr k hk
      unfold Prp.zeroFront at hr
      split at hr
      · simp only [Option.some.injEq] at hr
        subst hr
        simp [List.getD, List.getElem?_append_left, hk]
      · simp at hr
    intro acc h1 h2 h3 h4 i hi
    rw [fr 6 _ _ h1 i hi, fr 6 _ _ h2 i hi, fr 6 _ _ h3 i hi, Finset.sum_eq_zero fun j hj => ?_]
    · simp
    · rw [fr 36 _ _ h4 _ (by have := Finset.mem_range.1 hj; omega), zero_mul]
  cases p with
  | fixed => intro i hi; simp [Prp.size] at hi
  | revol p =>
    exact key 1 p.motor p.vel [p.acc] (by decide) (Prp.zeroFront_putFirst (by decide) e1).2
      (Prp.zeroFront_putFirst (by decide) e2).2 (Prp.zeroFront_putFirst (by decide) e3).2
      (Prp.zeroFront_putFirst (by decide) e4).2
  | prism p =>
    exact key 1 p.motor p.vel [p.acc] (by decide) (Prp.zeroFront_putFirst (by decide) e1).2
      (Prp.zeroFront_putFirst (by decide) e2).2 (Prp.zeroFront_putFirst (by decide) e3).2
      (Prp.zeroFront_putFirst (by decide) e4).2
  | cylin p =>
    exact key 2 p.motor p.vel0 [p.acc0, p.acc1] (by decide) (Prp.zeroFront_putFirst (by decide) e1).2
      (Prp.zeroFront_putFirst (by decide) e2).2 (Prp.zeroFront_putFirst (by decide) e3).2
      (Prp.zeroFront_putFirst (by decide) e4).2
  | hooke p =>
    exact key 2 p.motor p.vel0 [p.acc0, p.acc1] (by decide) (Prp.zeroFront_putFirst (by decide) e1).2
      (Prp.zeroFront_putFirst (by decide) e2).2 (Prp.zeroFront_putFirst (by decide) e3).2
      (Prp.zeroFront_putFirst (by decide) e4).2
  | spher p =>
    exact key 3 p.motor p.vel.x p.acc.toBuf (by decide) (Prp.zeroFront_putFirst (by decide) e1).2
      (Prp.zeroFront_putFirst (by decide) e2).2 (Prp.zeroFront_putFirst (by decide) e3).2
      (Prp.zeroFront_putFirst (by decide) e4).2
  | float p => exact zer p.acc.toBuf e1 e2 e3 e4
  | brfloat p => exact zer p.acc.toBuf e1 e2 e3 e4

/-- A motor drives the first component of its joint only: in the other components, and in all components
of a joint without a motor, the reported input torque, resistance and driving torque are zero. -/
theorem C144_first (p : Prp K) (val r : List K)
    (e : p.motorInputTrqBuf val = some r ∨ p.motorResistanceBuf val = some r ∨
      p.motorDrivingTrqBuf val = some r) :
    ∀ i < p.size, (i ≠ 0 ∨ p.getMotor = none ∨ p.getMotor = some .none) → r.getD i 0 = 0 := by
  have key : ∀ (n : ℕ) (x : K), 0 < n → (Prp.zeroFront n val).bind (Prp.putFirst x) = some r →
      ∀ i < n, (i ≠ 0 ∨ x = 0) → r.getD i 0 = 0 := by
    intro n x hn hr i hi h0
    rw [(Prp.zeroFront_putFirst hn hr).2]
    cases i with
    | zero => simpa using h0
    | succ k =>
      have : k < n - 1 := by omega
      simp [List.getD, List.getElem?_append_left, this]
  have zer : ∀ (n : ℕ), Prp.zeroFront n val = some r → ∀ i < n, r.getD i 0 = 0 := by
    intro n hr i hi
    unfold Prp.zeroFront at hr
    split at hr
    · simp only [Option.some.injEq] at hr
      subst hr
      simp [List.getD, List.getElem?_append_left, hi]
    · simp at hr
  have mot : ∀ (m : Motor K) (n : ℕ) (v a : K), 0 < n →
      ((Prp.zeroFront n val).bind (Prp.putFirst m.inputTrq) = some r ∨
        (Prp.zeroFront n val).bind (Prp.putFirst (m.resistance v)) = some r ∨
        (Prp.zeroFront n val).bind (Prp.putFirst (m.drivingTrq v a)) = some r) →
      ∀ i < n, (i ≠ 0 ∨ (some m : Option (Motor K)) = none ∨ some m = some Motor.none) → r.getD i 0 = 0 := by
    intro m n v a hn h i hi h0
    have h0' : ∀ x : K, (m = .none → x = 0) → i ≠ 0 ∨ x = 0 := by
      intro x hx
      rcases h0 with h0 | h0 | h0
      · exact .inl h0
      · simp at h0
      · exact .inr (hx (Option.some.inj h0))
    rcases h with h | h | h
    · exact key n _ hn h i hi (h0' _ (by rintro rfl; rfl))
    · exact key n _ hn h i hi (h0' _ (by rintro rfl; rfl))
    · exact key n _ hn h i hi (h0' _ (by rintro rfl; rfl))
  cases p with
  | fixed => intro i hi; simp [Prp.size] at hi
  | revol p => exact mot p.motor 1 p.vel p.acc (by decide) e
  | prism p => exact mot p.motor 1 p.vel p.acc (by decide) e
  | cylin p => exact mot p.motor 2 p.vel0 p.acc0 (by decide) e
  | hooke p => exact mot p.motor 2 p.vel0 p.acc0 (by decide) e
  | spher p => exact mot p.motor 3 p.vel.x p.acc.x (by decide) e
  | float p => exact fun i hi _ => zer 6 (by rcases e with e | e | e <;> exact e) i hi
  | brfloat p => exact fun i hi _ => zer 6 (by rcases e with e | e | e <;> exact e) i hi

/-- What a joint reports in its first component is what its motor reports for the first component of the
velocity and the acceleration of the joint. -/
theorem C144_motor (p : Prp K) (m : Motor K) (hm : p.getMotor = some m) (b ti tr td h : List K)
    (e1 : p.motorInputTrqBuf b = some ti) (e2 : p.motorResistanceBuf b = some tr)
    (e3 : p.motorDrivingTrqBuf b = some td) (e4 : p.motorInertiaBuf b = some h) :
    ∃ v a, p.getVel[0]? = some v ∧ p.getAcc[0]? = some a ∧ ti[0]? = some m.inputTrq ∧
      tr[0]? = some (m.resistance v) ∧ td[0]? = some (m.drivingTrq v a) ∧ h[0]? = some m.inertia := by
  have key : ∀ (n : ℕ) (x : K) (r : List K), 0 < n → (Prp.zeroFront n b).bind (Prp.putFirst x) = some r →
      r[0]? = some x := by
    intro n x r hn hr
    rw [(Prp.zeroFront_putFirst hn hr).2]
    rfl
  cases p with
  | fixed => simp [Prp.getMotor] at hm
  | float p => simp [Prp.getMotor] at hm
  | brfloat p => simp [Prp.getMotor] at hm
  | _ p =>
    obtain rfl : p.motor = m := Option.some.inj hm
    exact ⟨_, _, rfl, rfl, key _ _ _ (by decide) e1, key _ _ _ (by decide) e2, key _ _ _ (by decide) e3,
      key _ _ _ (by decide) e4⟩

/-- Commanding the motor of a joint changes the reported input torque only: resistance and inertia stay as
they are, and the driving torque changes by as much as the input torque. -/
theorem C144_command [LinearOrder K] (p : Prp K) (v : K) (b : List K) :
    (p.motorSetInput v).motorResistanceBuf b = p.motorResistanceBuf b ∧
    (p.motorSetInput v).motorInertiaBuf b = p.motorInertiaBuf b ∧
    ∀ ti ti' td td', p.motorInputTrqBuf b = some ti → (p.motorSetInput v).motorInputTrqBuf b = some ti' →
      p.motorDrivingTrqBuf b = some td → (p.motorSetInput v).motorDrivingTrqBuf b = some td' →
      ∀ i < p.size, td'.getD i 0 - td.getD i 0 = ti'.getD i 0 - ti.getD i 0 := by
  have hR : (p.motorSetInput v).motorResistanceBuf b = p.motorResistanceBuf b := by
    have : ∀ (m : Motor K) (x : K), (m.setInput v).resistance x = m.resistance x := by
      intro m x; cases m <;> rfl
    cases p <;> simp [Prp.motorSetInput, Prp.motorResistanceBuf, this]
  have hI : ∀ b, (p.motorSetInput v).motorInertiaBuf b = p.motorInertiaBuf b := by
    intro b
    have : ∀ (m : Motor K), (m.setInput v).inertia = m.inertia := by
      intro m; cases m <;> rfl
    cases p <;> simp [Prp.motorSetInput, Prp.motorInertiaBuf, this]
  refine ⟨hR, hI b, ?_⟩
  intro ti ti' td td' e1 e2 e3 e4 i hi
  have hs : (p.motorSetInput v).size = p.size := by cases p <;> rfl
  have ha : (p.motorSetInput v).getAcc = p.getAcc := by cases p <;> rfl
  have hlen : p.size ≤ b.length := ((C144_size p b).1 (p.motorInputTrqBuf b) (by simp)).1.1 (by simp [e1])
  obtain ⟨tr, e5⟩ := Option.isSome_iff_exists.1
    ((((C144_size p b).1 (p.motorResistanceBuf b) (by simp)).1).2 hlen)
  obtain ⟨h, e6⟩ := Option.isSome_iff_exists.1
    ((C144_size p (List.replicate (p.size * p.size) 0)).2.1.2 (by simp))
  rw [C144_balance p b b b _ ti tr td h e1 e5 e3 e6 i hi,
    C144_balance _ b b b _ ti' tr td' h e2 (by rw [hR]; exact e5) e4 (by rw [hI]; exact e6) i (hs ▸ hi), hs, ha]
  ring

/-- The resistance a motor reports never drives the joint: its power against the velocity of the joint
is not negative. -/
theorem C144_resists [LinearOrder K] [IsStrictOrderedRing K] (p : Prp K) (hp : Passive p) (b r : List K)
    (e : p.motorResistanceBuf b = some r) :
    0 ≤ ∑ i ∈ Finset.range p.size, r.getD i 0 * p.getVel.getD i 0 := by
  by_cases hs : p.size = 0
  · simp [hs]
  have hz := C144_first p b r (.inr (.inl e))
  rw [Finset.sum_eq_single_of_mem 0 (Finset.mem_range.2 (by omega))
    (fun i hi h0 => by rw [hz i (Finset.mem_range.1 hi) (.inl h0), zero_mul])]
  have mot : ∀ (m : Motor K) (v : K), (∀ d, m = .dc d → 0 ≤ d.admit) → 0 ≤ m.resistance v * v := by
    intro m v hm
    cases m with
    | none => simp [Motor.resistance]
    | trq d => simp [Motor.resistance]
    | dc d =>
      have := hm d rfl
      have : d.admit * (d.decratio * d.k * (d.decratio * d.k)) * v * v =
        d.admit * (d.decratio * d.k * v) ^ 2 := by ring
      simp only [Motor.resistance]
      rw [this]
      positivity
  cases p with
  | fixed => simp [Prp.size] at hs
  | revol p =>
    rw [(Prp.zeroFront_putFirst (by decide) e).2]
    exact mot p.motor p.vel fun d hd => hp d (by rw [← hd]; rfl)
  | prism p =>
    rw [(Prp.zeroFront_putFirst (by decide) e).2]
    exact mot p.motor p.vel fun d hd => hp d (by rw [← hd]; rfl)
  | cylin p =>
    rw [(Prp.zeroFront_putFirst (by decide) e).2]
    exact mot p.motor p.vel0 fun d hd => hp d (by rw [← hd]; rfl)
  | hooke p =>
    rw [(Prp.zeroFront_putFirst (by decide) e).2]
    exact mot p.motor p.vel0 fun d hd => hp d (by rw [← hd]; rfl)
  | spher p =>
    rw [(Prp.zeroFront_putFirst (by decide) e).2]
    exact mot p.motor p.vel.x fun d hd => hp d (by rw [← hd]; rfl)
  | float p => rw [hz 0 (by simp [Prp.size]) (.inr (.inl rfl)), zero_mul]
  | brfloat p => rw [hz 0 (by simp [Prp.size]) (.inr (.inl rfl)), zero_mul]

/-- Forward dynamics keeps the types of the joints. -/
theorem forward_types [LinearOrder K] [IsStrictOrderedRing K] [Zm K] [LawfulZm K]
    {c c1 : Chain K} {fx : Bool} {dis vel acc acc' : List K} (h : c.WF)
    (ho : LinkArray.setOffset c.link = c.link)
    (hm : ∀ l ∈ c.link, l.abi.m = Link.abiInertia l.body.mp ∧ l.body.mp.inertia.Symm ∧ l.abi.wlist = [])
    (hroot : ∀ l, c.link[0]? = some l → l.joint.prp.ABIRootGood)
    (hgood : ∀ (i : ℕ) (l : Link K), c.link[i + 1]? = some l → l.joint.prp.ABIGood)
    (e : c.abi fx dis vel acc = some (c1, some acc'))
    (hr : ∀ l ∈ c1.link, AxisRegular l) : ∀ l ∈ c1.link, l.joint.prp.ABIRootGood := by
  obtain ⟨U, gU, w1, hd, hF, hV, hI, hmU, hfix, ho1, hva⟩ := abi_state h ho (fun l hl => ⟨(hm l hl).1, (hm l hl).2.1⟩)
    hroot hgood e hr
  refine forall_of_map_eq Link.fixedPart (fun x => x.2.2.2.2.2) hfix ?_
  intro y hy
  obtain ⟨i, hi⟩ := List.mem_iff_getElem?.1 hy
  rcases i with _ | i
  · exact hroot y hi
  · have : y.joint.prp.ABIGood := hgood i y hi
    show y.joint.prp.ABIRootGood
    cases hp : y.joint.prp <;> simp_all [Prp.ABIRootGood, Prp.ABIGood]

/-- After forward dynamics, inverse dynamics with the accelerations found reports in every component of
every joint the driving torque the joint reports for its motor plus the friction it reports.

Missing from the full property: what is missing from `C26_inverse_of_forward_partial`.  The hypotheses are
those of that theorem, met by `arm_meets`. -/
theorem C144_forward_partial [LinearOrder K] [IsStrictOrderedRing K] [Zm K] [LawfulZm K]
    (c c1 : Chain K) (fx : Bool) (dis vel acc acc' : List K) (h : c.WF)
    (ho : LinkArray.setOffset c.link = c.link) (hv : vel.length = LinkArray.jointSize c.link)
    (ha : acc.length = LinkArray.jointSize c.link)
    (hm : ∀ l ∈ c.link, l.abi.m = Link.abiInertia l.body.mp ∧ l.body.mp.inertia.Symm ∧ l.abi.wlist = [])
    (hroot : ∀ l, c.link[0]? = some l → l.joint.prp.ABIRootGood)
    (hgood : ∀ (i : ℕ) (l : Link K), c.link[i + 1]? = some l → l.joint.prp.ABIGood)
    (e : c.abi fx dis vel acc = some (c1, some acc'))
    (hr : ∀ l ∈ c1.link, AxisRegular l)
    (hfx : fx = true → ∀ l ∈ c1.link, ∀ d, l.joint.prp ≠ .brfloat d)
    (hf : ∀ l ∈ c1.link, ∀ d, l.joint.prp = .float d ∨ l.joint.prp = .brfloat d →
      cross d.vel.lin d.vel.ang = 0) :
    ∃ c2, c1.invDyn ⟨⟨0, 0, rkG⟩, 0⟩ vel acc' = some c2 ∧
      ∀ (i : ℕ) (l1 l2 : Link K), c1.link[i]? = some l1 → c2.link[i]? = some l2 →
        ∀ b td, l1.joint.prp.motorDrivingTrqBuf b = some td → ∀ k < l1.joint.prp.size,
          l2.joint.prp.getTrq[k]? = some (td.getD k 0 + l1.joint.prp.getFriction.getD k 0) := by
  obtain ⟨c2, e2, hl⟩ := C26_inverse_of_forward_partial c c1 fx dis vel acc acc' h ho hv ha hm hroot hgood e hr hfx hf
  refine ⟨c2, e2, ?_⟩
  intro i l1 l2 h1 h2 b td et k hk
  rw [(hl i l1 l2 h1 h2).1]
  have gl := forward_types h ho hm hroot hgood e hr l1 (List.mem_of_getElem? h1)
  have one : ∀ {x y : K} {b td : List K}, (Prp.zeroFront 1 b).bind (Prp.putFirst x) = some td → ∀ k < 1,
      [x + y][k]? = some (td.getD k 0 + [y].getD k 0) := by
    intro x y b td ht k hk
    rw [(Prp.zeroFront_putFirst (by decide) ht).2]
    obtain rfl : k = 0 := by omega
    rfl
  have six : (∀ i < 6, td.getD i 0 = 0) → ∀ k < 6,
      ([0, 0, 0, 0, 0, 0] : List K)[k]? = some (td.getD k 0 + ([] : List K).getD k 0) := by
    intro hz k hk
    rw [hz k hk]
    rcases k with _ | _ | _ | _ | _ | _ | k <;> first | omega | simp
  have hz := C144_first l1.joint.prp b td (.inr (.inr et))
  revert et hk gl hz
  generalize l1.joint.prp = p
  intro et hk gl hz
  cases p with
  | fixed => simp [Prp.size] at hk
  | revol d => exact one et k hk
  | prism d => exact one et k hk
  | float d => exact six (fun i hi => hz i hi (.inr (.inl rfl))) k hk
  | brfloat d => exact six (fun i hi => hz i hi (.inr (.inl rfl))) k hk
  | cylin d => exact absurd gl (by simp [Prp.ABIGood, Prp.ABIRootGood])
  | hooke d => exact absurd gl (by simp [Prp.ABIGood, Prp.ABIRootGood])
  | spher d => exact absurd gl (by simp [Prp.ABIGood, Prp.ABIRootGood])

namespace Sample
/-- A DC motor with unit constants and a gear of 3. -/
def gearMotor : Motor ℚ :=
  .dc { e := 2, k := 1, admit := 1, maxvol := some 24, minvol := some (-24), decratio := 3, inertia := 1,
        inertiaGear := 1 }

/-- A Hooke joint in motion with a motor. -/
def drivenHooke : Prp ℚ := match universal with
  | .hooke p => .hooke { p with motor := gearMotor, vel0 := 1, vel1 := 5, acc0 := 1 / 2, acc1 := 7 }
  | p => p
end Sample

/-- A Hooke joint driven by a geared DC motor, with dirty buffers. -/
theorem C144_sample : Passive Sample.drivenHooke ∧
    Sample.drivenHooke.motorInputTrqBuf [7, 7, 7] = some [6, 0, 7] ∧
    Sample.drivenHooke.motorResistanceBuf [7, 7, 7] = some [9, 0, 7] ∧
    Sample.drivenHooke.motorInertiaBuf [7, 7, 7, 7, 7] = some [18, 0, 0, 0, 7] ∧
    Sample.drivenHooke.motorDrivingTrqBuf [7, 7, 7] = some [-12, 0, 7] ∧
    (Sample.drivenHooke.motorSetInput 100).motorInputTrqBuf [0, 0] = some [72, 0] := by
  refine ⟨?_, by decide +kernel, by decide +kernel, by decide +kernel, by decide +kernel, by decide +kernel⟩
  rintro d ⟨⟩
  norm_num

end Roki
