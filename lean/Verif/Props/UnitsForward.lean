import Verif.Props.Units
import Verif.Props.ABIFails
import Verif.Lemmas.History2
set_option autoImplicit false

/-! # C139: forward dynamics in other units -/

namespace Roki
set_option linter.unusedSectionVars false
open Spec LinkArray
variable {K : Type*} [Field K] {u : UnitSys K}

/-- **C139, partial**: `rkChainABI` in other units reports the same joint accelerations and leaves the robot in the same state, provided that the
number of the acceleration of gravity is the same in both systems, that the robot has no prismatic joints or the unit of mass is kept, and that
tests against zero give the same in both systems (`C139_fine`).  The full statement drops these three conditions; it is false, as the next theorems show. -/
theorem C139_forward_partial [LinearOrder K] [IsStrictOrderedRing K] [Zm K] (u : UnitSys K) (hu : u.Proper) (hg : u.len * (u.rate * u.rate) = 1)
    (hz : u.Fine) (c : Chain K) (hs : u.Slides c) (ho : setOffset c.link = c.link) (fx : Bool) (dis dis' vel vel' buf buf' : List K)
    (hd : UnitSys.Values u.len 1 c dis dis') (hv : UnitSys.Values (u.len * u.rate) u.rate c vel vel')
    (hb : buf.length = jointSize c.link) (hb' : buf'.length = jointSize c.link) (hj : jointSize c.link ≠ 0) :
    (c.abi fx dis vel buf = none ∧ (u.chain c).abi fx dis' vel' buf' = none) ∨
    ∃ c1 acc acc', c.abi fx dis vel buf = some (c1, some acc) ∧ (u.chain c).abi fx dis' vel' buf' = some (u.chain c1, some acc') ∧
      acc.length = jointSize c.link ∧ acc'.length = jointSize c.link ∧
      UnitSys.Values (u.len * (u.rate * u.rate)) (u.rate * u.rate) c acc acc' := by
  have run : ∀ (d : Chain K) (q v b : List K), jointSize d.link ≠ 0 → d.abi fx q v b =
      (runActs [.setDis q, .setVel v, .updateFK, .updateVel, .updateABI fx true] d).bind fun d' =>
        (getJointAll Prp.getAcc d'.link b).map fun a => (d', some a) := by
    intro d q v b h
    simp only [Chain.abi, if_neg h, runActs, Act.run]
    cases setJointAll Prp.setDis q d.link with
    | none => rfl
    | some ls =>
      simp only [Option.map_some, Option.bind_eq_bind, Option.bind_some]
      cases setJointAll Prp.setVel v ls with
      | none => rfl
      | some ls' =>
        simp only [Option.map_some, Option.bind_some]
        cases Chain.updateFK { d with link := ls' } with
        | none => rfl
        | some d1 =>
          simp only [Option.bind_some]
          cases d1.updateVel with
          | none => rfl
          | some d2 =>
            simp only [Option.bind_some]
            cases d2.abiUpdate fx true with
            | none => rfl
            | some d3 =>
              simp only [Option.bind_some]
              cases getJointAll Prp.getAcc d3.link b <;> rfl
  have acts : List.Forall₂ (u.SameAct c) [.setDis dis, .setVel vel, .updateFK, .updateVel, .updateABI fx true]
      [.setDis dis', .setVel vel', .updateFK, .updateVel, .updateABI fx true] :=
    .cons (.setDis hd) (.cons (.setVel hv) (.cons .updateFK (.cons .updateVel (.cons (.updateABI fx true hg hz hs) .nil))))
  obtain ⟨h1, h2⟩ := UnitSys.acts hu acts c rfl
  rw [run c _ _ _ hj, run (u.chain c) _ _ _ (by exact fun h => hj ((Units139.jointSize_link _).symm.trans h)), h1]
  cases e : runActs [.setDis dis, .setVel vel, .updateFK, .updateVel, .updateABI fx true] c with
  | none => exact .inl ⟨rfl, rfl⟩
  | some c1 =>
    right
    have hp := h2 c1 e
    have hq : ∀ xs ys : List (Link K), xs.map UnitSys.place = ys.map UnitSys.place → xs.map Link.place = ys.map Link.place := by
      intro xs
      induction xs with
      | nil => intro ys h; cases ys <;> simp_all
      | cons x xs ih =>
        intro ys h
        rcases ys with _ | ⟨y, ys⟩
        · simp at h
        · simp only [List.map_cons, List.cons.injEq, UnitSys.place, Prod.mk.injEq] at h
          simp only [List.map_cons, Link.place, ih ys h.2, h.1.1, (UnitSys.factors_typeStr 1 1 h.1.2).2]
    obtain ⟨ho1, hs1⟩ := Twins.offs (hq _ _ hp) ho
    have hj1 : jointSize c1.link = jointSize c.link := by rw [jointSize_eq, jointSize_eq, hs1]
    obtain ⟨v, w, e1, e2, n1, n2, hw⟩ := (C139_values u c1 ho1).1 (Prp.getAcc, u.len * (u.rate * u.rate), u.rate * u.rate) (by simp) buf buf'
      (hb.trans hj1.symm) (hb'.trans hj1.symm)
    refine ⟨c1, v, w, ?_, ?_, n1.trans hj1, n2.trans hj1, UnitSys.values_congr hp.symm hw⟩
    · show (getJointAll Prp.getAcc c1.link buf).map _ = _
      rw [e1]; rfl
    · show (getJointAll Prp.getAcc (u.chain c1).link buf').map _ = _
      rw [e2]; rfl

/-- External routines over the real numbers whose tests against zero are exact. -/
noncomputable def ZmReal.exact : Zm ℝ := { (inferInstance : Zm ℝ) with tiny := fun x => decide (x = 0) }

/-- They meet the assumptions of the model. -/
theorem ZmReal.exact_lawful : @LawfulZm ℝ _ _ _ ZmReal.exact :=
  have L : LawfulZm ℝ := inferInstance
  letI := ZmReal.exact
  { sin_sq_add_cos_sq := L.sin_sq_add_cos_sq, sin_zero := L.sin_zero, cos_zero := L.cos_zero
    pi_pos := L.pi_pos, phase_gt := L.phase_gt, phase_le := L.phase_le
    phase_id := L.phase_id, sin_phase := L.sin_phase, cos_phase := L.cos_phase
    fromAA_isRot := L.fromAA_isRot, fromAA_zero := L.fromAA_zero, fromAA_toAA := L.fromAA_toAA
    toAA_one := L.toAA_one, tiny_zero := decide_eq_true rfl, sgn_mul_self := L.sgn_mul_self
    matInv_right := L.matInv_right }

/-- They have no tolerance, as `C139_forward_partial` assumes. -/
theorem C139_exact : @UnitSys.Blind ℝ _ _ ZmReal.exact := by
  letI := ZmReal.exact
  constructor
  · intro k x hk
    show decide (k * x = 0) = decide (x = 0)
    simp [hk.ne']
  · intro n k w h hk hw
    have key : (Matrix.of fun a b : Fin n => k * (w a * w b) * h a b)⁻¹ = Matrix.of fun a b : Fin n =>
        (k * (w a * w b))⁻¹ * (Matrix.of fun a b : Fin n => h a b)⁻¹ a b := by
      have hd : Matrix.diagonal (fun a : Fin n => w a) * Matrix.diagonal (fun a : Fin n => (w a)⁻¹) = 1 := by
        rw [Matrix.diagonal_mul_diagonal, ← Matrix.diagonal_one]
        congr 1
        funext a
        exact mul_inv_cancel₀ (hw a).ne'
      have hd' : Matrix.diagonal (fun a : Fin n => k * w a) * Matrix.diagonal (fun a : Fin n => (k * w a)⁻¹) = 1 := by
        rw [Matrix.diagonal_mul_diagonal, ← Matrix.diagonal_one]
        congr 1
        funext a
        exact mul_inv_cancel₀ (mul_pos hk (hw a)).ne'
      have e : (Matrix.of fun a b : Fin n => k * (w a * w b) * h a b) =
          Matrix.diagonal (fun a : Fin n => k * w a) * (Matrix.of fun a b : Fin n => h a b) * Matrix.diagonal (fun a : Fin n => w a) := by
        ext a b
        rw [Matrix.mul_diagonal, Matrix.diagonal_mul]
        simp only [Matrix.of_apply]
        ring
      rw [e, Matrix.mul_inv_rev, Matrix.mul_inv_rev, Matrix.inv_eq_right_inv hd, Matrix.inv_eq_right_inv hd']
      ext a b
      rw [← Matrix.mul_assoc, Matrix.mul_diagonal, Matrix.diagonal_mul]
      simp only [Matrix.of_apply, mul_inv]
      ring
    funext i j
    show (if H : i < n ∧ j < n then _ else _) = _ * (if H : i < n ∧ j < n then _ else _)
    by_cases H : i < n ∧ j < n
    · rw [dif_pos H, dif_pos H]
      exact congrFun (congrFun key ⟨i, H.1⟩) ⟨j, H.2⟩
    · rw [dif_neg H, dif_neg H, mul_zero]

/-- Without tolerances, tests against zero and inverses of matrices give the same in all units; with any tolerances they do if the units of length and
mass are kept. -/
theorem C139_fine [LinearOrder K] [IsStrictOrderedRing K] [Zm K] (u : UnitSys K) (hu : u.Proper)
    (h : UnitSys.Blind K ∨ u.len = 1 ∧ u.mass = 1) : u.Fine := by
  rcases h with hz | ⟨hl, hm⟩
  · exact ⟨fun x => hz.tiny _ x hu.mass, fun x => hz.tiny _ x (mul_pos hu.mass (mul_pos hu.len hu.len)),
      fun n p h => hz.matInv n u.mass (u.arm p) h hu.mass (UnitSys.arm_pos hu p)⟩
  · have ha : ∀ (p : Prp K) i, u.arm p i = 1 := by
      intro p i
      have : ∀ x ∈ UnitSys.factors 1 u.len p, x = 1 := by cases p <;> simp [UnitSys.factors, hl]
      simp only [UnitSys.arm]
      cases e : (UnitSys.factors 1 u.len p)[i]? with
      | some x => exact this x (List.mem_of_getElem? e)
      | none =>
        cases e' : (UnitSys.factors 1 u.len p).getLast? with
        | some x => exact this x (List.mem_of_getLast? e')
        | none => rfl
    have h1 : ∀ p h, u.joint2 p h = h := fun p h => by funext i j; simp [UnitSys.joint2, ha, hm]
    have h2 : ∀ p h, u.joint2Inv p h = h := fun p h => by funext i j; simp [UnitSys.joint2Inv, ha, hm]
    exact ⟨fun x => by rw [hm, one_mul], fun x => by rw [hm, hl, one_mul, one_mul, one_mul], fun n p h => by rw [h1, h2]⟩

namespace Sample

/-- The joint accelerations that forward dynamics reports for a robot at rest in the position zero. -/
noncomputable def falls (c : Chain ℚ) : Option (List ℚ) :=
  (c.abi false (List.replicate (jointSize c.link) 0) (List.replicate (jointSize c.link) 0) (List.replicate (jointSize c.link) 0)).bind (·.2)

/-- An arm that hangs on a horizontal axis, held out. -/
def hung : Chain ℚ := serial [(turn, mpx, side)]
/-- A body on a vertical slide. -/
def elevator : Chain ℚ := serial [(slide, mp0, Frame.ident)]
/-- Two bodies that slide along the vertical on each other. -/
def telescope : Chain ℚ := serial [(slide, mp0, Frame.ident), (slide, mp0, Frame.ident)]

end Sample

/-- **C139 fails** in forward dynamics when the unit of length changes: a body that falls freely with 9.8 in metres per second squared falls with 9.8
in millimetres per second squared too. -/
theorem C139_gravity_fails : (⟨1000, 1, 1⟩ : UnitSys ℚ).Proper ∧ (⟨1000, 1, 1⟩ : UnitSys ℚ).Slides Sample.elevator ∧
    Sample.falls Sample.elevator = some [-rkG] ∧ Sample.falls ((⟨1000, 1, 1⟩ : UnitSys ℚ).chain Sample.elevator) = some [-rkG] ∧
    (1000 : ℚ) * -rkG ≠ -rkG :=
  ⟨⟨by decide +kernel, by decide +kernel, by decide +kernel⟩, .inl rfl, by decide +kernel, by decide +kernel, by decide +kernel⟩

/-- **C139 fails** in forward dynamics of a prismatic joint that is mounted on a moving link when the unit of mass changes: in grams, two bodies on
each other fall in another way than in kilograms. -/
theorem C139_prism_fails : (⟨1, 1000, 1⟩ : UnitSys ℚ).Proper ∧ (1 : ℚ) * (1 * 1) = 1 ∧
    (Sample.falls Sample.telescope).isSome ∧ (Sample.falls ((⟨1, 1000, 1⟩ : UnitSys ℚ).chain Sample.telescope)).isSome ∧
    Sample.falls ((⟨1, 1000, 1⟩ : UnitSys ℚ).chain Sample.telescope) ≠ Sample.falls Sample.telescope :=
  ⟨⟨by decide +kernel, by decide +kernel, by decide +kernel⟩, by decide +kernel, by decide +kernel, by decide +kernel, by decide +kernel⟩

/-- **C139 fails** in forward dynamics because of the tolerance: an arm that falls does not move at all when its mass is given in a unit so large that
its inertia counts as zero. -/
theorem C139_tolerance_fails : (⟨1, 1 / 10 ^ 15, 1⟩ : UnitSys ℚ).Proper ∧ (1 : ℚ) * (1 * 1) = 1 ∧
    (⟨1, 1 / 10 ^ 15, 1⟩ : UnitSys ℚ).Slides Sample.hung ∧
    Sample.falls Sample.hung = some [-rkG / 2] ∧ Sample.falls ((⟨1, 1 / 10 ^ 15, 1⟩ : UnitSys ℚ).chain Sample.hung) = some [0] := by
  refine ⟨⟨by decide +kernel, by decide +kernel, by decide +kernel⟩, by decide +kernel, Or.inr fun l hl p => ?_, by decide +kernel, by decide +kernel⟩
  obtain ⟨i, hi⟩ := List.mem_iff_getElem?.1 hl
  rcases i with _ | i
  · cases hi; exact nofun
  · cases hi

namespace Sample

/-- An arm with a horizontal axis, driven by a DC motor. -/
noncomputable def driven : Chain ℝ :=
  Chain.abiAlloc
  { link := setOffset [link "l" (.revol { dof1 0 0 0 0 1 none none with motor := .dc ⟨3, 2, 5, some 24, some (-24), 50, 1 / 100, 1 / 200⟩ })
      ⟨2, ⟨1, 0, 0⟩, 1⟩ ⟨⟨1, 0, 0⟩, ⟨⟨1, 0, 0⟩, ⟨0, 0, 1⟩, ⟨0, -1, 0⟩⟩⟩]
    shape := .node 0 .nil .nil, mass := 2, wldCOM := 0, comVel := 0, comAcc := 0 }

/-- Quarters of a metre, grams and half seconds turned into numbers: the acceleration of gravity has the same number. -/
noncomputable def quarter : UnitSys ℝ := ⟨4, 1000, 1 / 2⟩

end Sample

/-- An arm with a motor and a history with voltages, loads, forward dynamics and additional forces meet the hypotheses of `C139_history` and
`C139_forward_partial`. -/
theorem C139_forward_sample : letI := ZmReal.exact; let u := Sample.quarter; let c := Sample.driven
    u.Proper ∧ u.len * (u.rate * u.rate) = 1 ∧ u.Fine ∧ u.Slides c ∧ setOffset c.link = c.link ∧ jointSize c.link = 1 ∧
    UnitSys.Values u.len 1 c [1] [1] ∧ UnitSys.Values (u.len * u.rate) u.rate c [2] [1] ∧
    List.Forall₂ (u.SameAct c)
      [.setDis [1], .setVel [2], .input 0 12, .updateFK, .updateVel, .updateABI false true, .load 0 ⟨⟨⟨1, 2, 3⟩, ⟨4, 5, 6⟩⟩, ⟨0, 1, 0⟩⟩, .addForces false true]
      [.setDis [1], .setVel [1], .input 0 (u.moment * 12), .updateFK, .updateVel, .updateABI false true,
        .load 0 (u.load ⟨⟨⟨1, 2, 3⟩, ⟨4, 5, 6⟩⟩, ⟨0, 1, 0⟩⟩), .addForces false true] := by
  letI := ZmReal.exact
  intro u c
  have hp : u.Proper := ⟨by norm_num [u, Sample.quarter], by norm_num [u, Sample.quarter], by norm_num [u, Sample.quarter]⟩
  have hg : u.len * (u.rate * u.rate) = 1 := by norm_num [u, Sample.quarter]
  have h0 : 0 < c.link.length := Nat.one_pos
  have mem : ∀ l ∈ c.link, c.link[0]? = some l := by
    intro l hl
    obtain ⟨i, hi⟩ := List.mem_iff_getElem?.1 hl
    rcases i with _ | i
    · exact hi
    · cases hi
  have hs : u.Slides c := Or.inr fun l hl p => by cases mem l hl; exact nofun
  have hv : ∀ s t x y : ℝ, y = t * x → UnitSys.Values s t c [x] [y] := by
    intro s t x y e l hl
    cases mem l hl
    show [y] = [t * x]
    rw [e]
  have h1 := hv u.len 1 1 1 (by norm_num)
  have h2 := hv (u.len * u.rate) u.rate 2 1 (by norm_num [u, Sample.quarter])
  have hz : u.Fine := C139_fine u hp (.inl C139_exact)
  exact ⟨hp, hg, hz, hs, rfl, rfl, h1, h2,
    .cons (.setDis h1) (.cons (.setVel h2) (.cons (.input (l := c.link[0]) (12 : ℝ) rfl) (.cons .updateFK (.cons .updateVel (.cons (.updateABI _ _ hg hz hs)
      (.cons (.load _ _) (.cons (.addForces _ _ hs) .nil)))))))⟩

end Roki
