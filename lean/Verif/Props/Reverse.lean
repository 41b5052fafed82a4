import Verif.Spec.Reverse
import Verif.Props.UnitsForward
import Verif.Props.Galilei
set_option autoImplicit false

/-! # C142: a motion played backward needs the same forces -/

namespace Roki
set_option linter.unusedSectionVars false
open Spec LinkArray
variable {K : Type*} [Field K]

namespace Reverse
/-- A clock that runs backward. -/
def clock : UnitSys K := ⟨1, 1, -1⟩

theorem proper [LinearOrder K] [IsStrictOrderedRing K] : (clock (K := K)).Proper := ⟨one_pos, one_pos, neg_ne_zero.2 one_ne_zero⟩

theorem len : (clock (K := K)).len = 1 := rfl
theorem mass : (clock (K := K)).mass = 1 := rfl

theorem vec3 (v : Vec3 K) : (1 : K) • v = v := by vec_ring
theorem vec3n (v : Vec3 K) : (-1 : K) • v = -v := by vec_ring
theorem mat3 (m : Mat3 K) : (1 : K) • m = m := by vec_ring

theorem force : (clock (K := K)).force = 1 := by simp [clock, UnitSys.force]
theorem moment : (clock (K := K)).moment = 1 := by rw [UnitSys.moment, force]; simp [clock]

theorem vel (v : Vec6 K) : clock.vel v = -v := by simp only [UnitSys.vel, clock]; vec_ring
theorem acc (v : Vec6 K) : clock.acc v = v := by simp only [UnitSys.acc, clock]; vec_ring
theorem dis (v : Vec6 K) : clock.dis v = v := by simp only [UnitSys.dis, clock]; vec_ring
theorem wrench (v : Vec6 K) : clock.wrench v = v := by simp only [UnitSys.wrench, force, moment]; vec_ring
theorem frame (f : Frame K) : clock.frame f = f := by simp only [UnitSys.frame, clock]; vec_ring
theorem load (w : Wrench K) : clock.load w = w := by simp only [UnitSys.load, wrench, len, vec3]
theorem mp (m : MP K) : clock.mp m = m := by simp only [UnitSys.mp, clock, vec3, one_mul, mat3]
theorem mat6 (m : Mat6 K) : clock.mat6 m = m := by simp only [UnitSys.mat6, clock, one_mul, mat3]
theorem opt (o : Option K) : o.map (1 * ·) = o := by cases o <;> simp

theorem motor (m : Motor K) : UnitSys.motor 1 (-1) 1 m = reverseMotor m := by
  cases m <;> simp [UnitSys.motor, reverseMotor, opt]

theorem turn (m : Motor K) : clock.turn m = reverseMotor m := by
  rw [UnitSys.turn, moment]; simpa [clock] using motor m
theorem slide (m : Motor K) : clock.slide m = reverseMotor m := by
  rw [UnitSys.slide, force]; simpa [clock] using motor m

theorem prp (p : Prp K) : clock.prp p = reversePrp p := by
  cases p <;> simp only [UnitSys.prp, reversePrp, turn, slide, moment, force, vel, acc, dis, wrench] <;>
    simp [clock, opt, vec3, vec3n]

theorem arm (p : Prp K) (i : ℕ) : clock.arm p i = 1 := by
  have : ∀ x ∈ UnitSys.factors (1 : K) (clock (K := K)).len p, x = 1 := by cases p <;> simp [UnitSys.factors, clock]
  simp only [UnitSys.arm]
  cases e : (UnitSys.factors 1 (clock (K := K)).len p)[i]? with
  | some x => exact this x (List.mem_of_getElem? e)
  | none =>
    cases e' : (UnitSys.factors 1 (clock (K := K)).len p).getLast? with
    | some x => exact this x (List.mem_of_getLast? e')
    | none => rfl

theorem loads (l : List (Wrench K)) : l.map clock.load = l := by simp [funext load]

theorem abi (p : Prp K) (a : ABIPrp K) : clock.abi p a = a := by
  have h1 : ∀ h : ℕ → ℕ → K, clock.joint2 p h = h := fun h => by funext i j; simp [UnitSys.joint2, arm, mass]
  have h2 : ∀ h : ℕ → ℕ → K, clock.joint2Inv p h = h := fun h => by funext i j; simp [UnitSys.joint2Inv, arm, mass]
  simp only [UnitSys.abi, mat6, wrench, acc, loads, h1, h2]

theorem link (l : Link K) : clock.link l = reverseLink l := by
  simp only [UnitSys.link, reverseLink, prp, wrench, frame, abi, UnitSys.body, mp, vel, acc, loads]
  simp [clock, vec3, vec3n]

theorem chain (c : Chain K) : clock.chain c = reverseChain c := by
  simp only [UnitSys.chain, reverseChain, funext link]
  simp [clock, vec3, vec3n]

theorem getAll (get : Prp K → List K) (hg : ∀ p, get (reversePrp p) = get p) (c : Chain K) (buf : List K) :
    getJointAll get (reverseChain c).link buf = getJointAll get c.link buf := by
  apply Galilei.getAll_congr
  simp [reverseChain, reverseLink, hg]

theorem zip (a : K) : ∀ (n : ℕ) (l : List K), l.length ≤ n → List.zipWith (· * ·) (List.replicate n a) l = l.map (a * ·) := by
  intro n
  induction n with
  | zero => intro l h; cases l with
    | nil => rfl
    | cons x l => simp at h
  | succ n ih =>
    intro l h
    cases l with
    | nil => rfl
    | cons x l => simp only [List.replicate_succ, List.zipWith_cons_cons, List.map_cons, ih l (by simpa using h)]

theorem values (c : Chain K) (v : List K) : UnitSys.Values (1 * -1) (-1) c v (v.map (- ·)) := by
  intro l _
  have h : UnitSys.factors (1 * -1 : K) (-1) l.joint.prp = List.replicate l.size (-1) := by
    simp only [Link.size, one_mul]
    cases l.joint.prp <;> rfl
  rw [h, zip _ _ _ (by simp only [slice, Link.size, List.length_take]; exact min_le_left _ _)]
  simp [slice, List.map_take, List.map_drop]

theorem same (c : Chain K) (v : List K) : UnitSys.Values 1 1 c v v := by
  intro l _
  have h : UnitSys.factors (1 : K) 1 l.joint.prp = List.replicate l.size 1 := by
    simp only [Link.size]
    cases l.joint.prp <;> rfl
  rw [h, zip _ _ _ (by simp only [slice, Link.size, List.length_take]; exact min_le_left _ _)]
  simp [slice, List.map_take, List.map_drop]
end Reverse
open Reverse

/-! ## Histories -/

/-- **C142** Reverse all velocities of a robot, and play its history with reversed velocities, whatever it is: displacements and
rates set to the joints, with or without continuity, kinematics, inverse and forward dynamics, external wrenches, inputs of motors.  Then the robot is at every time
in the state that it has in the original history, with its velocities reversed; the frames, the accelerations and the forces are the same. -/
theorem C142_history [LinearOrder K] [IsStrictOrderedRing K] [Zm K] (c : Chain K) (as : List (Act K))
    (hi : ∀ i x, Act.input i x ∈ as → i < c.link.length) :
    runActs (as.map reverseAct) (reverseChain c) = (runActs as c).map reverseChain := by
  have hs : (clock (K := K)).Slides c := .inl rfl
  have hz : (clock (K := K)).Fine := C139_fine _ proper (.inr ⟨rfl, rfl⟩)
  have h : List.Forall₂ (clock.SameAct c) as (as.map reverseAct) := by
    induction as with
    | nil => exact .nil
    | cons a as ih =>
      refine .cons ?_ (ih fun i x hx => hi i x (List.mem_cons_of_mem _ hx))
      cases a with
      | setDis v => exact .setDis (same c v)
      | setVel v => exact .setVel (values c v)
      | setDisCNT v dt =>
        have := UnitSys.SameAct.setDisCNT (u := clock) dt (same c v)
        rwa [show dt / (clock (K := K)).rate = -dt from by simp [clock, div_neg]] at this
      | setRate v a =>
        refine .setRate (values c v) ?_
        have := same c a
        simpa [clock] using this
      | updateFK => exact .updateFK
      | updateVel => exact .updateVel
      | updateID g => have := UnitSys.SameAct.updateID (u := clock) (c := c) g; rwa [acc] at this
      | calcMass => exact .calcMass
      | push i w => have := UnitSys.SameAct.push (u := clock) (c := c) i w; rwa [load] at this
      | clear => exact .clear
      | input i x =>
        have hl := List.getElem?_eq_getElem (hi i x List.mem_cons_self)
        have := UnitSys.SameAct.input (u := clock) x hl
        rwa [show clock.drive _ x = x from by
          generalize (c.link[i]'_).joint.prp = p
          cases p <;> simp [UnitSys.drive, force, moment]] at this
      | alloc => exact .alloc
      | updateABI fx wr => exact .updateABI fx wr (by simp [clock]) hz hs
      | load i w => have := UnitSys.SameAct.load (u := clock) (c := c) i w; rwa [load] at this
      | unload i => exact .unload i
      | addForces fx wr => exact .addForces fx wr hs
      | save => exact .save
      | restore => exact .restore
  rw [← chain, C139_history clock proper c as _ h, funext chain]

/-- **C142** A robot without motors of direct current is described by the same data when its velocities are reversed: only the velocities differ. -/
theorem C142_same (c : Chain K) (hb : NoBrake c) (i : ℕ) (l m : Link K) (hl : c.link[i]? = some l) (hm : (reverseChain c).link[i]? = some m) :
    m.joint.prp.getMotor = l.joint.prp.getMotor ∧ m.joint.prp.getDis = l.joint.prp.getDis ∧ m.joint.prp.getVel = l.joint.prp.getVel.map (- ·) ∧
    m.joint.prp.getAcc = l.joint.prp.getAcc ∧ m.joint.prp.getTrq = l.joint.prp.getTrq ∧ m.joint.wrench = l.joint.wrench ∧
    m.body.mp = l.body.mp ∧ m.body.frame = l.body.frame ∧ m.body.acc = l.body.acc ∧ m.body.vel = -l.body.vel ∧ m.body.comVel = -l.body.comVel ∧
    m.body.extw = l.body.extw ∧ m.org = l.org := by
  simp only [reverseChain, List.getElem?_map, hl, Option.map_some, Option.some.injEq] at hm
  subst hm
  have h := hb l (List.mem_of_getElem? hl)
  refine ⟨?_, ?_, ?_, ?_, ?_, rfl, rfl, rfl, rfl, rfl, rfl, rfl, rfl⟩
  · simp only [reverseLink]
    generalize l.joint.prp = p at h
    have key : ∀ m : Motor K, (∀ p, some m ≠ some (.dc p)) → some (reverseMotor m) = some m := by
      intro m hm
      cases m <;> first | rfl | exact absurd rfl (hm _)
    cases p <;> first | rfl | exact key _ h
  · simp only [reverseLink]; cases l.joint.prp <;> rfl
  · simp only [reverseLink]; cases l.joint.prp <;> rfl
  · simp only [reverseLink]; cases l.joint.prp <;> rfl
  · simp only [reverseLink]; cases l.joint.prp <;> rfl

/-! ## Calls -/

/-- **C142** `rkChainID` with reversed velocities and the same accelerations asks for the same joint forces. -/
theorem C142_inverse [LinearOrder K] [IsStrictOrderedRing K] [Zm K] (c : Chain K) (g : Vec6 K) (vel acc : List K) :
    (reverseChain c).invDyn g (vel.map (- ·)) acc = (c.invDyn g vel acc).map reverseChain ∧
    ∀ buf, getJointAll Prp.getTrq (reverseChain c).link buf = getJointAll Prp.getTrq c.link buf := by
  have run : ∀ (d : Chain K) (v a : List K), d.invDyn g v a = runActs [.setRate v a, .updateID g] d := by
    intro d v a
    simp only [Chain.invDyn, runActs, Act.run, Option.bind_eq_bind]
    cases setJointRateAll v a d.link with
    | none => rfl
    | some ls => simp only [Option.map_some, Option.bind_some]; cases Chain.updateID g { d with link := ls } <;> rfl
  refine ⟨?_, getAll _ (fun p => by cases p <;> rfl) c⟩
  rw [run, run, ← C142_history c _ (fun i x h => by simp at h)]
  rfl

/-- **C142** `rkChainABI` with reversed velocities reports the same joint accelerations, or fails in the same cases. -/
theorem C142_forward [LinearOrder K] [IsStrictOrderedRing K] [Zm K] (c : Chain K) (fx : Bool) (dis vel buf : List K) :
    (reverseChain c).abi fx dis (vel.map (- ·)) buf = (c.abi fx dis vel buf).map fun r => (reverseChain r.1, r.2) := by
  have hj : jointSize (reverseChain c).link = jointSize c.link := by rw [← chain]; exact Units139.jointSize_link _
  by_cases h : jointSize c.link = 0
  · simp only [Chain.abi, hj, if_pos h, Option.map_some, Option.some.injEq, Prod.mk.injEq, and_true]
    have hn : -(0 : Vec6 K) = 0 := neg_zero
    simp [Chain.abiZeroLinkRate, reverseChain, reverseLink, Body.zeroRate, hn]
  have run : ∀ (d : Chain K) (q v b : List K), jointSize d.link ≠ 0 → d.abi fx q v b =
      (runActs [.setDis q, .setVel v, .updateFK, .updateVel, .updateABI fx true] d).bind fun d' =>
        (getJointAll Prp.getAcc d'.link b).map fun a => (d', some a) := by
    intro d q v b h
    simp only [Chain.abi, if_neg h, runActs, Act.run]
    cases setJointAll Prp.setDis q d.link with
    | none => rfl
    | some ls =>
      simp only [Option.map_some, Option.bind_eq_bind, Option.bind_some]
      cases setJointAll Prp.setVel v ls with
      | none => rfl
      | some ls' =>
        simp only [Option.map_some, Option.bind_some]
        cases Chain.updateFK { d with link := ls' } with
        | none => rfl
        | some d1 =>
          simp only [Option.bind_some]
          cases d1.updateVel with
          | none => rfl
          | some d2 =>
            simp only [Option.bind_some]
            cases d2.abiUpdate fx true with
            | none => rfl
            | some d3 =>
              simp only [Option.bind_some]
              cases getJointAll Prp.getAcc d3.link b <;> rfl
  rw [run c _ _ _ h, run _ _ _ _ (hj.trans_ne h)]
  have e := C142_history c [.setDis dis, .setVel vel, .updateFK, .updateVel, .updateABI fx true] (fun i x h => by simp at h)
  simp only [List.map_cons, List.map_nil, reverseAct] at e
  rw [e]
  cases runActs [.setDis dis, .setVel vel, .updateFK, .updateVel, .updateABI fx true] c with
  | none => rfl
  | some d =>
    simp only [Option.map_some, Option.bind_some, getAll Prp.getAcc (fun p => by cases p <;> rfl) d buf]
    cases getJointAll Prp.getAcc d.link buf <;> rfl

/-- **C142** The kinetic energy of the reversed motion is the same, the angular momentum and the velocity of the centre of mass are reversed. -/
theorem C142_energy [LinearOrder K] [IsStrictOrderedRing K] [Zm K] (c : Chain K) (ho : setOffset c.link = c.link) :
    ke (reverseChain c).link = ke c.link ∧ (∀ p, am (reverseChain c).link p = -am c.link p) ∧
    calcCOMVel c.mass (reverseChain c).link = -calcCOMVel c.mass c.link := by
  have h := C139_values clock c ho
  rw [chain] at h
  refine ⟨?_, fun p => ?_, ?_⟩
  · rw [h.2.1, moment, one_mul]
  · have := h.2.2.1 p
    simp only [clock, vec3] at this
    rw [this]; vec_ring
  · have := UnitSys.calcCOMVel (u := clock) one_ne_zero c.mass c.link
    rw [funext link] at this
    simp only [clock, one_mul, vec3n] at this
    exact this

namespace Sample

/-- A floating body that moves and spins, with two bodies that turn on it, the last one by a universal joint. -/
def tumbling : Chain ℚ := serial [(.float { flt 0 with vel := ⟨⟨1, 2, 3⟩, ⟨0, 0, 1⟩⟩ }, mpx, side), (turn, mpx, side), (universal, mpx, side)]

/-- An arm with a motor of direct current. -/
def braked : Chain ℚ := serial [(.revol { dof1 0 0 0 0 1 none none with motor := .dc ⟨3, 2, 5, some 24, some (-24), 50, 1 / 100, 1 / 200⟩ }, mpx, side)]

end Sample

/-- **C142** The motor of direct current has to be excepted: an arm with such a motor has another acceleration when its velocity is reversed, because the
motor brakes it. -/
theorem C142_brake : ∃ a b, Sample.braked.abi true [0] [1] [0] = some a ∧ Sample.braked.abi true [0] [-1] [0] = some b ∧ a.2 ≠ b.2 := by
  refine ⟨_, _, rfl, rfl, ?_⟩
  decide +kernel

/-- A robot without motors of direct current and a history with forward and inverse dynamics meet the hypotheses of C142, and both are carried out. -/
theorem C142_sample : let c := Sample.tumbling
    let as : List (Act ℚ) := [.updateFK, .setVel [1, 2, 3, 1, 0, 1, 1, 2, 3], .updateVel, .updateABI true true, .updateID 0, .setDisCNT [0, 0, 0, 0, 0, 0, 0, 0, 0] 1]
    NoBrake c ∧ setOffset c.link = c.link ∧ (∀ i x, Act.input i x ∈ as → i < c.link.length) ∧ (runActs as c).isSome ∧
    (c.abi true [0, 0, 0, 0, 0, 0, 0, 0, 0] [1, 2, 3, 1, 0, 1, 1, 2, 3] [0, 0, 0, 0, 0, 0, 0, 0, 0]).isSome ∧
    (c.invDyn 0 [1, 2, 3, 1, 0, 1, 1, 2, 3] [1, 0, 0, 1, 0, 1, 2, 1, 1]).isSome := by
  refine ⟨?_, rfl, ?_, ?_, ?_, ?_⟩
  · intro l hl p
    obtain ⟨i, hi⟩ := List.mem_iff_getElem?.1 hl
    rcases i with _ | _ | _ | i
    · cases hi; exact nofun
    · cases hi; exact nofun
    · cases hi; exact nofun
    · cases hi
  · simp
  · decide +kernel
  · decide +kernel
  · decide +kernel

end Roki
