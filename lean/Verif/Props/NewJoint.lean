import Verif.Model.Clone
import Verif.Lemmas.ZmRat
import Verif.Lemmas.Vec
import Verif.Spec.Kinematics
import Verif.Spec.Samples
set_option autoImplicit false

/-!
# C67: newly assigned joints
-/

namespace Roki
open Spec
variable {K : Type*} [Field K] [LinearOrder K] [IsStrictOrderedRing K] [Zm K] [LawfulZm K]

namespace Spec

/-- The names of the joint types, with the number of degrees of freedom. -/
def jointTypeTable : List (String × ℕ) :=
  [("fixed", 0), ("revolute", 1), ("prismatic", 1), ("cylindrical", 2), ("hooke", 2), ("spherical", 3), ("float", 6),
   ("breakablefloat", 6)]

/-- A joint as it is before anybody has changed it: it holds zero displacement, velocity, acceleration, torque and friction
in every degree of freedom, friction pivots at zero, no limit, no motor; it does not displace the link, and it moves neither with velocity nor
acceleration. -/
structure Untouched (p : Prp K) : Prop where
  dis : p.getDis = List.replicate p.size 0
  vel : p.getVel = List.replicate p.size 0
  acc : p.getAcc = List.replicate p.size 0
  trq : p.getTrq = List.replicate p.size 0
  noLimit : (∀ b ∈ p.getMin, b = none) ∧ ∀ b ∈ p.getMax, b = none
  friction : (∀ f ∈ p.getFriction, f = 0) ∧ (∀ f ∈ p.getSFriction, f = 0) ∧ ∀ f ∈ p.getKFriction, f = 0
  pivot : (∀ d : Dof1 K, p = .revol d ∨ p = .prism d → d.fp = ⟨0, 0, 0⟩) ∧
    ∀ d : Dof2 K, p = .cylin d ∨ p = .hooke d → d.fp0 = ⟨0, 0, 0⟩ ∧ d.fp1 = ⟨0, 0, 0⟩
  motor : ∀ m, p.getMotor = some m → m = Motor.none
  frame : ∀ f : Frame K, p.xform f = f
  still : ∀ v : Vec6 K, p.incVel v = v ∧ p.incAcc v = v
  neutral : p.isNeutral = true
  cached : p.WF

end Spec

theorem restTrq_zero : Prp.restTrq (0 : K) 0 0 0 0 = 0 := by simp [Prp.restTrq]

omit [IsStrictOrderedRing K] [LawfulZm K] in
theorem phase_zero [IsStrictOrderedRing K] [LawfulZm K] : Zm.phaseNormalize (0 : K) = 0 :=
  LawfulZm.phase_id 0 (by have := LawfulZm.pi_pos (K := K); linarith) LawfulZm.pi_pos.le

theorem assign_untouched (j : Joint K) (p : Prp K) :
    ∃ q, j.assign p = some { j with prp := q } ∧ q.typeStr = p.typeStr ∧ q.size = p.size ∧ Untouched q := by
  have hz : Zm.phaseNormalize (0 : K) = 0 := phase_zero
  have hs := LawfulZm.sin_zero (K := K)
  have hc := LawfulZm.cos_zero (K := K)
  have ht := LawfulZm.tiny_zero (K := K)
  have h1 : (⟨⟨1, 0, 0⟩, ⟨0, 1, 0⟩, ⟨0, 0, 1⟩⟩ : Mat3 K) = 1 := rfl
  have ha : (Zm.fromAA (⟨0, 0, 0⟩ : Vec3 K)) = 1 := LawfulZm.fromAA_zero
  have hr := Mat3.isRot_one (K := K)
  rcases p with _ | q | q | q | q | q | q | q
  all_goals
    simp only [Joint.assign, Prp.fresh, Prp.neutral, Prp.setDis, Vec3.ofBuf, Vec6.ofBuf, hz, hs, hc, ha, Dof1.fresh,
      Dof2.fresh, limit, Option.map_some]
    refine ⟨_, rfl, rfl, rfl, ?_⟩
    constructor
  all_goals
    first
    | rfl
    | (simp [Prp.getMin, Prp.getMax, Prp.getFriction, Prp.getSFriction, Prp.getKFriction, restTrq_zero, Prp.getMotor,
        Prp.isNeutral, Prp.getDis, Prp.size, Vec3.toBuf, Vec6.toBuf, ht, Prp.WF, hr]; done)
    | (intro f
       first
       | rfl
       | (simp only [Prp.xform, Prp.rotZ, Prp.zyMat]; vec_ring; done)
       | (simp only [Prp.incVel, Prp.incAcc]; constructor <;> vec_ring; done))

/-- **C67** Assigning a joint type by name.  The names known are those of the eight types; with one of them the joint gets
that type with its number of degrees of freedom and is untouched, whatever the joint was before, and nothing but its
properties changes.  With any other name nothing is assigned. -/
theorem C67_new_joint (j : Joint K) (str : String) :
    (∀ n, (str, n) ∈ jointTypeTable → ∃ q, j.queryAssign str = some (some { j with prp := q }) ∧ q.typeStr = str ∧
      q.size = n ∧ Untouched q) ∧
    ((∀ n, (str, n) ∉ jointTypeTable) → j.queryAssign str = some none) := by
  constructor
  · intro n hn
    have main : ∀ p : Prp K, (Prp.comArray (K := K)).find? (fun p => p.typeStr == str) = some p → p.typeStr = str →
        p.size = n → ∃ q, j.queryAssign str = some (some { j with prp := q }) ∧ q.typeStr = str ∧ q.size = n ∧
          Untouched q := by
      intro p hp ht hn
      obtain ⟨q, h1, h2, h3, h4⟩ := assign_untouched j p
      exact ⟨q, by rw [Joint.queryAssign, hp]; simp only [h1, Option.map_some], h2.trans ht, h3.trans hn, h4⟩
    simp only [jointTypeTable, List.mem_cons, Prod.mk.injEq, List.not_mem_nil, or_false] at hn
    rcases hn with ⟨rfl, rfl⟩ | ⟨rfl, rfl⟩ | ⟨rfl, rfl⟩ | ⟨rfl, rfl⟩ | ⟨rfl, rfl⟩ | ⟨rfl, rfl⟩ | ⟨rfl, rfl⟩ | ⟨rfl, rfl⟩
    all_goals exact main _ (by simp [Prp.comArray, List.find?, Prp.typeStr]; rfl) rfl rfl
  · intro h
    have : (Prp.comArray (K := K)).find? (fun p => p.typeStr == str) = none := by
      rw [List.find?_eq_none]
      intro p hp hs
      have hs : p.typeStr = str := by simpa using hs
      refine h p.size ?_
      rw [← hs]
      simp only [Prp.comArray, List.mem_cons, List.not_mem_nil, or_false] at hp
      rcases hp with rfl | rfl | rfl | rfl | rfl | rfl | rfl | rfl <;> simp [jointTypeTable, Prp.typeStr, Prp.size]
    rw [Joint.queryAssign, this]

/-- A revolute joint of a chain, displaced and with limits, is made a fresh cylindrical one; `"helical"` is no joint. -/
example : ∃ q, ({ prp := .revol (Sample.dof1 1 2 3 0 1 (some (-2)) (some 2)), wrench := ⟨⟨1, 2, 3⟩, 0⟩ } : Joint ℚ).queryAssign "cylindrical" =
      some (some { prp := q, wrench := ⟨⟨1, 2, 3⟩, 0⟩ }) ∧ q.size = 2 ∧ Untouched q ∧
    ({ prp := .fixed, wrench := ⟨⟨1, 2, 3⟩, 0⟩ } : Joint ℚ).queryAssign "helical" = some none := by
  obtain ⟨q, h1, _, h3, h4⟩ := (C67_new_joint ({ prp := .revol (Sample.dof1 1 2 3 0 1 (some (-2)) (some 2)), wrench := ⟨⟨1, 2, 3⟩, 0⟩ } : Joint ℚ)
    "cylindrical").1 2 (by simp [jointTypeTable])
  exact ⟨q, h1, h3, h4, (C67_new_joint _ _).2 (by simp [jointTypeTable])⟩

end Roki
