import Verif.Lemmas.UnitsJacobi
import Verif.Lemmas.UnitsAct
import Verif.Lemmas.ZmReal
import Verif.Lemmas.ZmRat
set_option autoImplicit false

/-! # C139: results do not depend on the units of length, mass and time -/

namespace Roki
set_option linter.unusedSectionVars false
open Spec LinkArray
variable {K : Type*} [Field K] {u : UnitSys K}

namespace Units139

theorem get_values [LinearOrder K] [Zm K] {get : Prp K → List K} (hlen : ∀ p : Prp K, (get p).length = p.size) {s t : K}
    (hg : ∀ p : Prp K, get (u.prp p) = List.zipWith (· * ·) (UnitSys.factors s t p) (get p)) (c : Chain K) (ho : setOffset c.link = c.link)
    {v w : List K} (hv : ∀ l ∈ c.link, 0 < l.joint.prp.size → slice v l = get l.joint.prp)
    (hw : ∀ l ∈ (u.chain c).link, 0 < l.joint.prp.size → slice w l = get l.joint.prp) : UnitSys.Values s t c v w := by
  intro l hl
  have hs : (u.prp l.joint.prp).size = l.joint.prp.size := by cases l.joint.prp <;> rfl
  by_cases h0 : 0 < l.joint.prp.size
  · have e : slice w l = slice w (u.link l) := by
      simp only [slice]
      rw [show (u.link l).offset = l.offset from rfl, show (u.link l).joint.prp = u.prp l.joint.prp from rfl, hs]
    rw [hv l hl h0, e, hw (u.link l) (List.mem_map_of_mem hl) (by rw [show (u.link l).joint.prp = u.prp l.joint.prp from rfl, hs]; exact h0)]
    exact hg _
  · have e : l.joint.prp.size = 0 := by omega
    simp [slice, e]

theorem setOffset_link (ls : List (Link K)) : setOffset (ls.map u.link) = (setOffset ls).map u.link := by
  have hs : ∀ l : Link K, (u.link l).size = l.size := by intro l; simp only [Link.size, UnitSys.link]; cases l.joint.prp <;> rfl
  have : ∀ n, setOffsetFrom n (ls.map u.link) = (setOffsetFrom n ls).map u.link := by
    induction ls with
    | nil => intro n; rfl
    | cons l ls ih =>
      intro n
      simp only [List.map_cons, setOffsetFrom, hs]
      split_ifs
      · simp only [List.map_cons, ih]; rfl
      · simp only [List.map_cons, ih]; rfl
  exact this 0

theorem jointSize_link (ls : List (Link K)) : jointSize (ls.map u.link) = jointSize ls := by
  have hs : ∀ l : Link K, (u.link l).joint.prp.size = l.joint.prp.size := by intro l; simp only [UnitSys.link]; cases l.joint.prp <;> rfl
  rw [jointSize_eq, jointSize_eq]
  simp only [sizes, List.map_map, Function.comp_def, Link.size, hs]

theorem sum_smul {α : Type*} (k : K) (f g : α → Vec3 K) (ls : List α) (h : ∀ l ∈ ls, g l = k • f l) :
    (ls.map g).sum = k • (ls.map f).sum := by
  induction ls with
  | nil => simp only [List.map_nil, List.sum_nil]; vec_ring
  | cons l ls ih =>
    simp only [List.map_cons, List.sum_cons]
    rw [h l (by simp), ih fun l hl => h l (by simp [hl])]
    vec_ring

end Units139

/-- **C139** A robot described in other units of length, mass and time behaves the same: whatever sequence of settings of the joints, external
wrenches, motor inputs, updates of kinematics, velocities, inverse and forward dynamics and additional forces it goes through, with the arguments
converted, its state after it is the state of the original robot, converted; and where one of them runs into undefined behaviour, so does the other.
For forward dynamics `UnitSys.SameAct` has conditions, which Props/UnitsForward.lean shows to be needed. -/
theorem C139_history [LinearOrder K] [IsStrictOrderedRing K] [Zm K] (u : UnitSys K) (hu : u.Proper) (c : Chain K) (as bs : List (Act K))
    (h : List.Forall₂ (u.SameAct c) as bs) : runActs bs (u.chain c) = (runActs as c).map u.chain :=
  (UnitSys.acts hu h c rfl).1

/-- **C139** What the robot reports is the same in other units: joint displacements, velocities, accelerations and torques, kinetic energy, angular
momentum, velocity and acceleration of a point of a link. -/
theorem C139_values [LinearOrder K] [Zm K] (u : UnitSys K) (c : Chain K) (ho : setOffset c.link = c.link) :
    (∀ x ∈ [(Prp.getDis, u.len, 1), (Prp.getVel, u.len * u.rate, u.rate), (Prp.getAcc, u.len * (u.rate * u.rate), u.rate * u.rate),
        (Prp.getTrq, u.force, u.moment)], ∀ buf buf' : List K, buf.length = jointSize c.link → buf'.length = jointSize c.link →
      ∃ v w, getJointAll x.1 c.link buf = some v ∧ getJointAll x.1 (u.chain c).link buf' = some w ∧ v.length = jointSize c.link ∧
        w.length = jointSize c.link ∧ UnitSys.Values x.2.1 x.2.2 c v w) ∧
    LinkArray.ke (u.chain c).link = u.moment * LinkArray.ke c.link ∧
    (∀ p, LinkArray.am (u.chain c).link (u.len • p) = (u.mass * (u.len * u.len) * u.rate) • LinkArray.am c.link p) ∧
    (∀ (l : Link K) p, (u.link l).pointVel (u.len • p) = (u.len * u.rate) • l.pointVel p ∧
      (u.link l).pointAcc (u.len • p) = (u.len * (u.rate * u.rate)) • l.pointAcc p) := by
  have hl : (u.chain c).link = c.link.map u.link := rfl
  refine ⟨?_, ?_, ?_, ?_⟩
  · intro x hx buf buf' hb hb'
    have ho' : setOffset (u.chain c).link = (u.chain c).link := by rw [hl, Units139.setOffset_link, ho]
    have hj : jointSize (u.chain c).link = jointSize c.link := Units139.jointSize_link _
    have hm : x.1 ∈ [Prp.getDis, Prp.getVel, Prp.getAcc, Prp.getTrq (K := K)] := by
      simp only [List.mem_cons, List.not_mem_nil, or_false] at hx
      rcases hx with rfl | rfl | rfl | rfl <;> simp
    obtain ⟨v, e, n, hv⟩ := C02_get_slices c.link buf ho hb _ hm
    obtain ⟨w, e', n', hw⟩ := C02_get_slices (u.chain c).link buf' ho' (hb'.trans hj.symm) _ hm
    refine ⟨v, w, e, e', n, n'.trans hj, ?_⟩
    simp only [List.mem_cons, List.not_mem_nil, or_false] at hx
    rcases hx with rfl | rfl | rfl | rfl
    · refine Units139.get_values getDis_length (fun p => ?_) c ho hv hw
      cases p <;> simp [UnitSys.prp, Prp.getDis, UnitSys.factors, Vec6.toBuf, Vec3.toBuf, UnitSys.dis] <;> exact ⟨rfl, rfl, rfl⟩
    · refine Units139.get_values getVel_length (fun p => ?_) c ho hv hw
      cases p <;> rfl
    · refine Units139.get_values getAcc_length (fun p => ?_) c ho hv hw
      cases p <;> rfl
    · refine Units139.get_values getTrq_length (fun p => ?_) c ho hv hw
      cases p <;> rfl
  · have : ∀ (ls : List (Link K)) (e : K), (ls.map u.link).foldl (fun e l => e + l.body.ke) (u.moment * e) =
        u.moment * ls.foldl (fun e l => e + l.body.ke) e := by
      intro ls
      induction ls with
      | nil => intro e; rfl
      | cons l ls ih =>
        intro e
        simp only [List.map_cons, List.foldl_cons]
        rw [← ih]
        congr 1
        have : (u.link l).body.ke = u.moment * l.body.ke := by
          simp only [Body.ke, UnitSys.link, UnitSys.body, UnitSys.mp, UnitSys.vel, UnitSys.moment, UnitSys.force]
          vec_unfold
          ring
        rw [this]; ring
    have h := this c.link 0
    rw [mul_zero] at h
    exact h
  · intro p
    simp only [hl, LinkArray.am, foldl_add_eq, zero_add, List.map_map]
    refine Units139.sum_smul _ _ _ _ fun l _ => ?_
    simp only [Function.comp, Body.am, UnitSys.link, UnitSys.body, UnitSys.mp, UnitSys.vel, UnitSys.frame]
    vec_ring
  · intro l p
    simp only [Link.pointVel, Link.pointAcc, UnitSys.link, UnitSys.body, UnitSys.vel, UnitSys.acc]
    constructor <;> vec_ring

/-- **C139** Jacobian matrices in other units: the angular ones are the same; of the linear ones, the columns of slides are the same and those of
turns are lengths; those of the angular momentum are its derivatives by velocities and angular velocities.  Where one of them runs into undefined
behaviour, so does the other. -/
theorem C139_jacobians [LinearOrder K] [IsStrictOrderedRing K] (u : UnitSys K) (hu : u.Proper) (c : Chain K) (ho : setOffset c.link = c.link)
    (m m' : Jacobi.Mat K) (hm : m.length = jointSize c.link) (hm' : m'.length = jointSize c.link) (i j : ℕ) (p : Vec3 K) :
    Jacobi.wldAng (u.chain c) i m' = Jacobi.wldAng c i m ∧
    Jacobi.linkToLinkAng (u.chain c) i j m' = Jacobi.linkToLinkAng c i j m ∧
    Jacobi.wldLin (u.chain c) i (u.len • p) m' = (Jacobi.wldLin c i p m).map (UnitSys.scale (UnitSys.cols 1 u.len c.link)) ∧
    Jacobi.linkToLinkLin (u.chain c) i j (u.len • p) m' = (Jacobi.linkToLinkLin c i j p m).map (UnitSys.scale (UnitSys.cols 1 u.len c.link)) ∧
    Jacobi.com (u.chain c) m' = (Jacobi.com c m).map (UnitSys.scale (UnitSys.cols 1 u.len c.link)) ∧
    Jacobi.linkAM (u.chain c) i (u.len • p) m' =
      (Jacobi.linkAM c i p m).map (UnitSys.scale (UnitSys.cols (u.mass * u.len) (u.mass * (u.len * u.len)) c.link)) ∧
    Jacobi.am (u.chain c) (u.len • p) m' =
      (Jacobi.am c p m).map (UnitSys.scale (UnitSys.cols (u.mass * u.len) (u.mass * (u.len * u.len)) c.link)) ∧
    Jacobi.amCOM (u.chain c) m' =
      (Jacobi.amCOM c m).map (UnitSys.scale (UnitSys.cols (u.mass * u.len) (u.mass * (u.len * u.len)) c.link)) := by
  have hmass := hu.mass.ne'
  have hl : (u.chain c).link = c.link.map u.link := rfl
  have hsh : (u.chain c).shape = c.shape := rfl
  have len : ∀ s t : K, m.length = (UnitSys.cols s t c.link).length := fun s t => hm.trans (UnitSys.cols_length s t _).symm
  have len0 : ∀ s t : K, (Jacobi.zero m).length = (UnitSys.cols s t c.link).length := fun s t => by rw [Jacobi.zero, List.length_map]; exact len s t
  have z : ∀ s t : K, Jacobi.zero m' = UnitSys.scale (UnitSys.cols s t c.link) (Jacobi.zero m) := fun s t =>
    UnitSys.scale_zero _ _ _ (len s t) (hm'.trans (UnitSys.cols_length s t _).symm)
  have one : ∀ {r : Option (Jacobi.Mat K)}, (∀ x, r = some x → x.length = (UnitSys.cols (1 : K) 1 c.link).length) →
      r.map (UnitSys.scale (UnitSys.cols 1 1 c.link)) = r := by
    intro r h
    cases r with
    | none => rfl
    | some x => rw [Option.map_some, UnitSys.scale_ones x ((h x rfl).trans (UnitSys.cols_length _ _ _))]
  have ang : ∀ (op : Vec3 K → Vec3 K → Vec3 K) (l : Link K), l ∈ c.link →
      UnitSys.Step (UnitSys.cols 1 1 c.link) (fun m => Jacobi.colLoop op l (Jacobi.angCol l) m)
        (fun m => Jacobi.colLoop op (u.link l) (Jacobi.angCol (u.link l)) m) := fun op l h =>
    UnitSys.step_ang ho (fun v a => by rw [show (1 : K) • v = v by vec_ring, show (1 : K) • op v a = op v a by vec_ring]) h
  have amStep : ∀ (q : Vec3 K) (i : ℕ), UnitSys.Step (UnitSys.cols (u.mass * u.len) (u.mass * (u.len * u.len)) c.link)
      (fun m => Jacobi.linkAM' c q m i) (fun m => Jacobi.linkAM' (u.chain c) (u.len • q) m i) := by
    intro q i m hm
    simp only [Jacobi.linkAM', hl, hsh, UnitSys.map_get]
    cases hi : c.link[i]? with
    | none => exact ⟨rfl, fun m' q => by cases q⟩
    | some li =>
      simp only [Option.map_some, Option.bind_eq_bind, Option.bind_some]
      cases c.shape.pathUp i with
      | none => exact ⟨rfl, fun m' q => by cases q⟩
      | some path =>
        have eI : (u.link li).wldInertia = (u.mass * (u.len * u.len)) • li.wldInertia := by
          simp only [Link.wldInertia, UnitSys.link, UnitSys.body, UnitSys.mp, UnitSys.frame]; vec_ring
        simp only [Option.bind_some, eI]
        exact UnitSys.step_walk (fun l h => UnitSys.step_am ho li.wldInertia li.body.mp.mass li.body.wldCOM q h) path m hm
  have amAll : ∀ q : Vec3 K, Jacobi.am (u.chain c) (u.len • q) m' =
      (Jacobi.am c q m).map (UnitSys.scale (UnitSys.cols (u.mass * u.len) (u.mass * (u.len * u.len)) c.link)) := by
    intro q
    simp only [Jacobi.am, hl, List.length_map]
    rw [z (u.mass * u.len) (u.mass * (u.len * u.len))]
    exact (UnitSys.Step.foldlM _ (fun i _ => amStep q i) _ (len0 _ _)).1
  refine ⟨?_, ?_, ?_, ?_, ?_, ?_, amAll p, amAll c.wldCOM⟩
  · simp only [Jacobi.wldAng, hsh, hl]
    cases c.shape.pathUp i with
    | none => rfl
    | some path =>
      simp only [Option.bind_some]
      obtain ⟨e, n⟩ := UnitSys.step_walk (u := u) (f := fun l m => Jacobi.colLoop Jacobi.opSet l (Jacobi.angCol l) m) (f' := fun l m => Jacobi.colLoop Jacobi.opSet l (Jacobi.angCol l) m)
        (ang Jacobi.opSet) path (Jacobi.zero m) (len0 1 1)
      rw [z 1 1]
      exact e.trans (one n)
  · simp only [Jacobi.linkToLinkAng, hsh, hl]
    cases c.shape.pathUp j with
    | none => rfl
    | some path =>
      simp only [Option.bind_some]
      obtain ⟨e, n⟩ := UnitSys.walkAngTo (u := u) (f := fun l m => Jacobi.colLoop Jacobi.opSet l (Jacobi.angCol l) m) (f' := fun l m => Jacobi.colLoop Jacobi.opSet l (Jacobi.angCol l) m)
        (ang Jacobi.opSet) i path (Jacobi.zero m) (len0 1 1)
      rw [z 1 1, e]
      cases hw : Jacobi.walkAngTo (fun l m => Jacobi.colLoop Jacobi.opSet l (Jacobi.angCol l) m) i c.link path (Jacobi.zero m) with
      | none => rfl
      | some r =>
        obtain ⟨b, m1⟩ := r
        have n1 := n _ hw
        simp only [Option.map_some, Option.bind_eq_bind, Option.bind_some]
        cases b with
        | true =>
          simp only [if_true]
          exact one (r := some m1) fun x q => by cases q; exact n1
        | false =>
          simp only [Bool.false_eq_true, if_false]
          cases c.shape.pathUp i with
          | none => rfl
          | some path' =>
            simp only [Option.bind_some]
            obtain ⟨e, n⟩ := UnitSys.step_walkBelow (u := u) (f := fun l m => Jacobi.colLoop Jacobi.opSub l (Jacobi.angCol l) m) (f' := fun l m => Jacobi.colLoop Jacobi.opSub l (Jacobi.angCol l) m)
              (ang Jacobi.opSub) path' m1 n1
            exact e.trans (one n)
  · simp only [Jacobi.wldLin, hsh, hl, UnitSys.map_get]
    cases c.link[i]? with
    | none => rfl
    | some l =>
      simp only [Option.map_some, Option.bind_eq_bind, Option.bind_some]
      cases c.shape.pathUp i with
      | none => rfl
      | some path =>
        have ex : (u.link l).body.frame.xform (u.len • p) = u.len • l.body.frame.xform p := by
          simp only [UnitSys.link, UnitSys.body, UnitSys.frame]; vec_ring
        simp only [Option.bind_some, ex]
        rw [z 1 u.len]
        exact (UnitSys.step_walk (u := u) (fun l h => UnitSys.step_lin ho (op := Jacobi.opSet) (fun _ _ _ => rfl) _ h) path (Jacobi.zero m) (len0 _ _)).1
  · simp only [Jacobi.linkToLinkLin, hsh, hl, UnitSys.map_get]
    cases c.link[j]? with
    | none => rfl
    | some l =>
      simp only [Option.map_some, Option.bind_eq_bind, Option.bind_some]
      cases c.shape.pathUp j with
      | none => rfl
      | some path =>
        have ex : (u.link l).body.frame.xform (u.len • p) = u.len • l.body.frame.xform p := by
          simp only [UnitSys.link, UnitSys.body, UnitSys.frame]; vec_ring
        simp only [Option.bind_some, ex]
        generalize l.body.frame.xform p = tp
        obtain ⟨e, n⟩ := UnitSys.walkLinTo (u := u) (f := fun l m => Jacobi.colLoop Jacobi.opSet l (Jacobi.linCol l tp) m)
          (f' := fun l m => Jacobi.colLoop Jacobi.opSet l (Jacobi.linCol l (u.len • tp)) m) (fun l h => UnitSys.step_lin ho (op := Jacobi.opSet) (fun _ _ _ => rfl) tp h) i path
          (Jacobi.zero m) (len0 1 u.len)
        rw [z 1 u.len, e]
        cases hw : Jacobi.walkLinTo (fun l m => Jacobi.colLoop Jacobi.opSet l (Jacobi.linCol l tp) m) i c.link path (Jacobi.zero m) with
        | none => rfl
        | some r =>
          obtain ⟨b, m1⟩ := r
          have n1 := n _ hw
          simp only [Option.map_some, Option.bind_some]
          cases b with
          | true => rfl
          | false =>
            simp only [Bool.false_eq_true, if_false]
            cases c.shape.pathUp i with
            | none => rfl
            | some path' =>
              simp only [Option.bind_some]
              exact (UnitSys.step_walk (u := u) (fun l h => UnitSys.step_lin ho (op := Jacobi.opSub)
                (fun x v a => by simp only [Jacobi.opSub]; vec_ring) tp h) path' m1 n1).1
  · simp only [Jacobi.com, hl, List.length_map]
    rw [z 1 u.len]
    refine (UnitSys.Step.foldlM _ (fun i _ => ?_) _ (len0 _ _)).1
    intro m hm
    simp only [Jacobi.comLink, hl, hsh, UnitSys.map_get]
    cases c.link[i]? with
    | none => exact ⟨rfl, fun m' q => by cases q⟩
    | some li =>
      simp only [Option.map_some, Option.bind_eq_bind, Option.bind_some]
      have e0 : (u.link li).body.mp.mass = u.mass * li.body.mp.mass := rfl
      have e1 : (u.chain c).mass = u.mass * c.mass := rfl
      simp only [e0, e1, mul_div_mul_left _ _ hmass, mul_eq_zero, hmass, false_or]
      by_cases h0 : li.body.mp.mass = 0
      · simp only [if_pos h0]; exact ⟨rfl, fun m' q => by cases q; exact hm⟩
      · simp only [if_neg h0]
        cases c.shape.pathUp i with
        | none => exact ⟨rfl, fun m' q => by cases q⟩
        | some path =>
          simp only [Option.bind_some]
          exact UnitSys.step_walk (u := u) (fun l h => UnitSys.step_lin ho (op := Jacobi.opCat (li.body.mp.mass / c.mass))
            (fun x v a => by simp only [Jacobi.opCat]; vec_ring) li.body.wldCOM h) path m hm
  · simp only [Jacobi.linkAM]
    rw [z (u.mass * u.len) (u.mass * (u.len * u.len))]
    exact (amStep p i _ (len0 _ _)).1

/-- **C139** The zero moment point and the total external wrench are the same in other units as long as the tolerance tests, which compare a force
or a moment with a fixed number, have the same outcome. -/
theorem C139_tested_partial [LinearOrder K] [IsStrictOrderedRing K] [Zm K] (u : UnitSys K) (hu : u.Proper) (c : Chain K) (r : Link K) (z : K) :
    (Zm.tiny (u.force * dot (gravityDir r) r.joint.wrench.lin) = Zm.tiny (dot (gravityDir r) r.joint.wrench.lin) →
      zmp (u.link r) (u.len * z) = (zmp r z).map (u.len • ·)) ∧
    ((∀ l ∈ c.link, tiny6 (u.wrench l.body.calcExtWrench) = tiny6 l.body.calcExtWrench) →
      LinkArray.calcExtWrench (u.chain c).link = u.wrench (LinkArray.calcExtWrench c.link)) := by
  have hf : u.force ≠ 0 := by
    have := hu.len.ne'; have := hu.mass.ne'; have := hu.rate
    simp only [UnitSys.force, ne_eq, mul_eq_zero, not_or]
    exact ⟨‹_›, ‹_›, ‹_›, ‹_›⟩
  constructor
  · intro ht
    have e : dot (gravityDir (u.link r)) (u.link r).joint.wrench.lin = u.force * dot (gravityDir r) r.joint.wrench.lin := by
      simp only [gravityDir, UnitSys.link, UnitSys.body, UnitSys.frame, UnitSys.wrench]; vec_ring
    simp only [zmp]
    rw [e, ht]
    generalize dot (gravityDir r) r.joint.wrench.lin = f at *
    cases Zm.tiny f with
    | true => rfl
    | false =>
      simp only [Bool.false_eq_true, if_false, Option.map_some, Option.some.injEq]
      have e2 : cat (cross (gravityDir (u.link r)) (u.link r).joint.wrench.ang) (u.len * z - (u.link r).body.frame.pos.z) (u.link r).joint.wrench.lin =
          u.moment • cat (cross (gravityDir r) r.joint.wrench.ang) (z - r.body.frame.pos.z) r.joint.wrench.lin := by
        simp only [gravityDir, UnitSys.link, UnitSys.body, UnitSys.frame, UnitSys.wrench, UnitSys.moment]; vec_ring
      rw [e2]
      generalize cat (cross (gravityDir r) r.joint.wrench.ang) (z - r.body.frame.pos.z) r.joint.wrench.lin = q
      have e3 : (u.force * f)⁻¹ • (u.moment • q) = u.len • (f⁻¹ • q) := by
        have : ∀ x : K, (u.force * f)⁻¹ * (u.moment * x) = u.len * (f⁻¹ * x) := by
          intro x; rw [mul_inv, UnitSys.moment]; field_simp
        exact Vec3.ext (this _) (this _) (this _)
      rw [e3]
      simp only [UnitSys.link, UnitSys.body, UnitSys.frame]
      vec_ring
  · intro ht
    have : ∀ (ls : List (Link K)), (∀ l ∈ ls, tiny6 (u.wrench l.body.calcExtWrench) = tiny6 l.body.calcExtWrench) → ∀ w : Vec6 K,
        (ls.map u.link).foldl (fun w l => if tiny6 l.body.calcExtWrench then w else
          w + (l.body.frame.att.mulVec6 l.body.calcExtWrench).angShift l.body.frame.pos) (u.wrench w) =
        u.wrench (ls.foldl (fun w l => if tiny6 l.body.calcExtWrench then w else
          w + (l.body.frame.att.mulVec6 l.body.calcExtWrench).angShift l.body.frame.pos) w) := by
      intro ls
      induction ls with
      | nil => intro _ w; rfl
      | cons l ls ih =>
        intro h w
        simp only [List.map_cons, List.foldl_cons]
        rw [← ih fun l hl => h l (by simp [hl])]
        congr 1
        rw [show (u.link l).body.calcExtWrench = u.wrench l.body.calcExtWrench from UnitSys.net _, h l (by simp)]
        split_ifs
        · rfl
        · rw [UnitSys.wrench_add]
          congr 1
          exact UnitSys.xform6Ang _ _
    have h := this c.link ht 0
    rw [show u.wrench 0 = 0 by simp only [UnitSys.wrench]; vec_ring] at h
    exact h

/-- **C139** fails for the zero moment point: the test compares a force with a fixed number.  As soon as small numbers count as zero, every robot,
however hard it presses on the ground, has a description in which the zero moment point is refused. -/
theorem C139_zmp_fails [LinearOrder K] [IsStrictOrderedRing K] [Zm K] (tol : K) (ht : 0 < tol) (hz : ∀ x : K, |x| < tol → Zm.tiny x = true)
    (r : Link K) : ∃ u : UnitSys K, u.Proper ∧ ∀ z, zmp (u.link r) z = none := by
  set f := dot (gravityDir r) r.joint.wrench.lin with hf
  have h1 : 0 < |f| + 1 := by positivity
  refine ⟨⟨1, tol / (2 * (|f| + 1)), 1⟩, ⟨one_pos, by positivity, one_ne_zero⟩, fun z => ?_⟩
  have e : ∀ u : UnitSys K, dot (gravityDir (u.link r)) (u.link r).joint.wrench.lin = u.force * f := by
    intro u
    rw [hf]
    simp only [gravityDir, UnitSys.link, UnitSys.body, UnitSys.frame, UnitSys.wrench]; vec_ring
  simp only [zmp]
  rw [e, hz, if_pos rfl]
  simp only [UnitSys.force, mul_one, abs_mul]
  rw [abs_of_pos (by positivity), div_mul_eq_mul_div, div_lt_iff₀ (by positivity)]
  nlinarith [abs_nonneg f]

/-- **C139** `rkChainYawTorque` is not a torque: in other units its value changes as a force does. -/
theorem C139_yaw [LinearOrder K] [IsStrictOrderedRing K] (u : UnitSys K) (hu : u.Proper) (r : Link K) :
    yawTorque (u.link r) = u.force * yawTorque r := by
  have hf : u.force ≠ 0 := by
    have := hu.len.ne'; have := hu.mass.ne'; have := hu.rate
    simp only [UnitSys.force, ne_eq, mul_eq_zero, not_or]
    exact ⟨‹_›, ‹_›, ‹_›, ‹_›⟩
  have hm : u.moment ≠ 0 := mul_ne_zero hf hu.len.ne'
  have e1 : dot (u.link r).joint.wrench.ang (u.link r).joint.wrench.lin = u.moment * (u.force * dot r.joint.wrench.ang r.joint.wrench.lin) := by
    simp only [UnitSys.link, UnitSys.wrench]; vec_ring
  have e2 : dot (u.link r).joint.wrench.ang (gravityDir (u.link r)) = u.moment * dot r.joint.wrench.ang (gravityDir r) := by
    simp only [gravityDir, UnitSys.link, UnitSys.body, UnitSys.frame, UnitSys.wrench]; vec_ring
  simp only [yawTorque]
  rw [e1, e2, mul_div_mul_left _ _ hm, mul_div_assoc]

/-- **C139** Mass properties: `rkMPgmm2kgm` is the conversion of grams and millimetres to kilograms and metres; to move, to combine and to refer mass
properties to the origin gives the same in other units. -/
theorem C139_mass_properties (u : UnitSys K) (hm : u.mass ≠ 0) (m n : MP K) (f : Frame K) :
    m.gmm2kgm = (UnitSys.mk (1 / 1000) (1 / 1000) u.rate).mp m ∧
    (u.mp m).xform (u.frame f) = u.mp (m.xform f) ∧
    (u.mp m).xformInv (u.frame f) = u.mp (m.xformInv f) ∧
    MP.combine (u.mp m) (u.mp n) = u.mp (MP.combine m n) ∧
    (u.mp m).orgInertia = (u.mass * (u.len * u.len)) • m.orgInertia := by
  refine ⟨?_, ?_, ?_, ?_, ?_⟩
  · simp only [MP.gmm2kgm, UnitSys.mp, MP.mk.injEq]
    refine ⟨mul_comm _ _, trivial, ?_⟩
    rw [show (1 / 1000000000 : K) = 1 / 1000 * (1 / 1000 * (1 / 1000)) by
      rw [div_mul_div_comm, div_mul_div_comm, mul_one, mul_one, show (1000 * (1000 * 1000) : K) = 1000000000 by norm_num]]
  · simp only [MP.xform, UnitSys.mp, UnitSys.frame, MP.mk.injEq, true_and]
    constructor <;> vec_ring
  · simp only [MP.xformInv, UnitSys.mp, UnitSys.frame, MP.mk.injEq, true_and]
    constructor <;> vec_ring
  · have d : ∀ a b : K, u.mass * a / (u.mass * b) = a / b := fun a b => mul_div_mul_left _ _ hm
    simp only [MP.combine, UnitSys.mp, ← mul_add, d, MP.mk.injEq, true_and]
    generalize m.mass / (m.mass + n.mass) = x
    generalize n.mass / (m.mass + n.mass) = y
    have e : x • (u.len • m.com) + y • (u.len • n.com) = u.len • (x • m.com + y • n.com) := by vec_ring
    rw [e]
    refine ⟨rfl, ?_⟩
    generalize x • m.com + y • n.com = z
    simp only [MP.shiftInertia]
    vec_ring
  · simp only [MP.orgInertia, MP.shiftInertia, UnitSys.mp]
    vec_ring

/-! ## The hypotheses are met -/

namespace Sample

/-- A slide between two stops that carries a turning arm. -/
def slideArm : Chain ℚ :=
  { link := LinkArray.setOffset [link "slide" (.prism (dof1 0 0 0 0 1 (some 0) (some 2))) mp1 Frame.ident,
      link "arm" (.revol (dof1 0 0 0 0 1 none none)) mp1 ⟨⟨1, 0, 0⟩, 1⟩]
    shape := .node 0 (.node 1 .nil .nil) .nil
    mass := 2, wldCOM := 0, comVel := 0, comAcc := 0 }

/-- Metres, kilograms and seconds to millimetres, grams and half seconds. -/
def milli : UnitSys ℚ := ⟨1000, 1000, 1 / 2⟩

/-- The slide is sent beyond its stop; then the robot moves, pushed at the arm. -/
def slideHist : List (Act ℚ) :=
  [.setDisCNT [3, 0] (1 / 10), .updateFK, .setRate [1, 2] [3, 4], .push 1 ⟨⟨⟨1, 2, 3⟩, ⟨4, 5, 6⟩⟩, ⟨0, 1, 0⟩⟩, .updateID ⟨⟨0, 0, 9⟩, 0⟩]

/-- The same in the other units. -/
def slideHist' : List (Act ℚ) :=
  [.setDisCNT [3000, 0] (1 / 10 / (1 / 2)), .updateFK, .setRate [500, 1] [750, 1],
    .push 1 (milli.load ⟨⟨⟨1, 2, 3⟩, ⟨4, 5, 6⟩⟩, ⟨0, 1, 0⟩⟩), .updateID (milli.acc ⟨⟨0, 0, 9⟩, 0⟩)]

end Sample

/-- A slide with stops and an arm, and a history with settings beyond the stops and inverse dynamics, meet the hypotheses of `C139_history` and
`C139_values`; the load of 1 N is 250000 g mm per half second squared. -/
theorem C139_sample : Sample.milli.Proper ∧ setOffset Sample.slideArm.link = Sample.slideArm.link ∧
    List.Forall₂ (Sample.milli.SameAct Sample.slideArm) Sample.slideHist Sample.slideHist' ∧
    (Sample.milli.load ⟨⟨⟨1, 2, 3⟩, ⟨4, 5, 6⟩⟩, ⟨0, 1, 0⟩⟩ : Wrench ℚ).w.lin.x = 250000 := by
  refine ⟨⟨by decide +kernel, by decide +kernel, by decide +kernel⟩, rfl, ?_, by decide +kernel⟩
  have hv : ∀ (s t : ℚ) (v w : List ℚ), w = List.zipWith (· * ·) [s, t] v → v.length = 2 → UnitSys.Values s t Sample.slideArm v w := by
    intro s t v w h hl l hm
    obtain ⟨a, b, rfl⟩ := List.length_eq_two.1 hl
    subst h
    obtain ⟨i, hi⟩ := List.mem_iff_getElem?.1 hm
    rcases i with _ | _ | i
    · cases hi; rfl
    · cases hi; rfl
    · cases hi
  exact .cons (.setDisCNT _ (hv _ _ _ _ (by decide +kernel) rfl)) (.cons .updateFK (.cons (.setRate (hv _ _ _ _ (by decide +kernel) rfl)
    (hv _ _ _ _ (by decide +kernel) rfl)) (.cons (.push _ _) (.cons (.updateID _) .nil))))

/-- A Jacobian matrix of the arm of `C139_sample`: one slide and one turn, whose columns get the factors 1 and 1000. -/
example : UnitSys.cols 1 Sample.milli.len Sample.slideArm.link = [1, 1000] ∧ jointSize Sample.slideArm.link = 2 ∧
    Jacobi.wldLin (Sample.milli.chain Sample.slideArm) 1 ⟨1000, 2000, 0⟩ [0, 0] =
      (Jacobi.wldLin Sample.slideArm 1 ⟨1, 2, 0⟩ [0, 0]).map (UnitSys.scale [1, 1000]) ∧
    Jacobi.wldLin Sample.slideArm 1 ⟨1, 2, 0⟩ [0, 0] = some [⟨0, 0, 1⟩, ⟨-2, 1, 0⟩] := by
  refine ⟨by decide +kernel, by decide +kernel, by decide +kernel, by decide +kernel⟩

/-- The tolerance test of the real numbers meets the hypotheses of `C139_zmp_fails`. -/
example : ∃ tol : ℝ, 0 < tol ∧ ∀ x : ℝ, |x| < tol → Zm.tiny x = true :=
  ⟨1 / 1000000000000, by norm_num, fun x hx => by simpa [Zm.tiny] using hx.le⟩

end Roki
