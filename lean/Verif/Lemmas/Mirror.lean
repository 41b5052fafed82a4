import Verif.Spec.Mirror
import Verif.Lemmas.Units
import Verif.Lemmas.IKStep
import Verif.Lemmas.ChainFile5
set_option autoImplicit false

/-! # Lemmas: the mirror image of a robot (C140) -/

namespace Roki
set_option linter.unusedSectionVars false
open Spec LinkArray
namespace Spec.Mirror
variable {K : Type*} [Field K]

/-! ## Kinds of joints -/

theorem signs_typeStr {p q : Prp K} (h : p.typeStr = q.typeStr) : signs p = signs q ∧ p.size = q.size := by
  cases p <;> cases q <;> first | exact ⟨rfl, rfl⟩ | exact absurd h (by simp [Prp.typeStr])

theorem joint2_congr {p q : Prp K} (h : p.typeStr = q.typeStr) (m : ℕ → ℕ → K) : joint2 p m = joint2 q m := by
  funext i j
  simp only [joint2, sign, (signs_typeStr h).1]

theorem abi_congr {p q : Prp K} (h : p.typeStr = q.typeStr) (a : ABIPrp K) : abi p a = abi q a := by
  simp only [abi, joint2_congr h]

theorem calcTrq_typeStr (p : Prp K) (w : Vec6 K) : (p.calcTrq w).typeStr = p.typeStr := by cases p <;> rfl

/-! ## Passes over the tree -/

theorem map_get (ls : List (Link K)) (i : ℕ) : (ls.map link)[i]? = ls[i]?.map link := by simp

theorem map_set (ls : List (Link K)) (i : ℕ) (l : Link K) : (ls.map link).set i (link l) = (ls.set i l).map link := by
  rw [List.map_set]

theorem down {St : Type*} {f : St → Link K → Link K} {g : Link K → St} {ρ : St → St}
    (hf : ∀ v l, f (ρ v) (link l) = link (f v l)) (hg : ∀ l, g (link l) = ρ (g l))
    (t : LTree ℕ) : ∀ (par : Option ℕ) (v : St) (ls : List (Link K)),
      Chain.downAt f g par t (ρ v) (ls.map link) = (Chain.downAt f g par t v ls).map (·.map link) := by
  induction t with
  | nil => intro par v ls; rfl
  | node i c s ihc ihs =>
    intro par v ls
    simp only [Chain.downAt, map_get]
    cases ls[i]? with
    | none => rfl
    | some l =>
      simp only [Option.map_some, Option.bind_eq_bind, Option.bind_some]
      rw [hf, hg, map_set, ihc]
      cases Chain.downAt f g (some i) c (g (f v l)) (ls.set i (f v l)) with
      | none => rfl
      | some ls1 =>
        simp only [Option.map_some, Option.bind_some]
        split
        · rfl
        · cases par with
          | none => rfl
          | some p =>
            simp only [map_get]
            cases ls1[p]? with
            | none => rfl
            | some pl =>
              simp only [Option.map_some]
              rw [hg, ihs]

theorem xform6Ang (f : Frame K) (w : Vec6 K) : (frame f).xform6Ang (vec6 w) = vec6 (f.xform6Ang w) := by
  simp only [frame, vec6, pol, axi, mat]
  vec_ring

theorem wrench_add (v w : Vec6 K) : vec6 (v + w) = vec6 v + vec6 w := by
  simp only [vec6, pol, axi]; vec_ring

theorem wrench_sub (v w : Vec6 K) : vec6 (v - w) = vec6 v - vec6 w := by
  simp only [vec6, pol, axi]; vec_ring

theorem child (t : LTree ℕ) : ∀ (w : Vec6 K) (ls : List (Link K)),
    Chain.addChildWrenchAt (vec6 w) (ls.map link) t = (Chain.addChildWrenchAt w ls t).map vec6 := by
  induction t with
  | nil => intro w ls; rfl
  | node i c s _ ihs =>
    intro w ls
    simp only [Chain.addChildWrenchAt, map_get]
    cases ls[i]? with
    | none => rfl
    | some l =>
      simp only [Option.map_some]
      rw [show (link l).adj.xform6Ang (link l).joint.wrench = vec6 (l.adj.xform6Ang l.joint.wrench) from xform6Ang _ _,
        ← wrench_add, ihs]

theorem netWrench (b : Body K) : (body b).netWrench.angShift (body b).mp.com = vec6 (b.netWrench.angShift b.mp.com) := by
  simp only [body, Body.netWrench, vec6, mp, pol, axi, mat]
  vec_ring

theorem net (l : WrenchList K) : WrenchList.net (l.map load) = vec6 (WrenchList.net l) := by
  have z : vec6 (0 : Vec6 K) = 0 := by simp only [vec6, pol, axi]; vec_ring
  have : ∀ w : Vec6 K, (l.map load).foldl (fun w c => w + c.shift) (vec6 w) = vec6 (l.foldl (fun w c => w + c.shift) w) := by
    induction l with
    | nil => intro w; rfl
    | cons c l ih =>
      intro w
      simp only [List.map_cons, List.foldl_cons]
      rw [← ih, wrench_add]
      congr 2
      simp only [Wrench.shift, load, vec6, pol, axi]
      vec_ring
  have h := this 0
  rw [z] at h
  exact h

theorem calcTrq (p : Prp K) (w : Vec6 K) : (prp p).calcTrq (vec6 w) = prp (p.calcTrq w) := by
  cases p with
  | fixed => rfl
  | revol p => rfl
  | prism p => rfl
  | cylin p => rfl
  | hooke p =>
    simp only [prp, Prp.calcTrq, vec6, axi, Prp.hooke.injEq, Dof2.ext_iff, true_and, and_true]
    ring_nf
  | spher p =>
    simp only [prp, Prp.calcTrq, vec6, axi, mat, pol, Prp.spher.injEq, SpherPrp.ext_iff, true_and, and_true]
    vec_ring
  | float p =>
    simp only [prp, Prp.calcTrq, vec6, axi, mat, pol, Prp.float.injEq, FloatPrp.ext_iff, true_and, and_true]
    vec_ring
  | brfloat p =>
    simp only [prp, Prp.calcTrq, vec6, axi, mat, pol, Prp.brfloat.injEq, FloatPrp.ext_iff, true_and, and_true]
    vec_ring

theorem wrenchAt (t : LTree ℕ) : ∀ (ls : List (Link K)),
    Chain.updateWrenchAt t (ls.map link) = (Chain.updateWrenchAt t ls).map (·.map link) := by
  induction t with
  | nil => intro ls; rfl
  | node i c s ihc ihs =>
    intro ls
    simp only [Chain.updateWrenchAt, map_get]
    cases ls[i]? with
    | none => rfl
    | some l =>
      simp only [Option.map_some, Option.bind_eq_bind, Option.bind_some]
      rw [show ({ link l with joint := { (link l).joint with
          wrench := (link l).body.netWrench.angShift (link l).body.mp.com } } : Link K) =
        link { l with joint := { l.joint with wrench := l.body.netWrench.angShift l.body.mp.com } } from by
          rw [show (link l).body = body l.body from rfl, netWrench]; rfl,
        map_set, ihc]
      cases Chain.updateWrenchAt c (ls.set i { l with joint := { l.joint with wrench := l.body.netWrench.angShift l.body.mp.com } }) with
      | none => rfl
      | some ls1 =>
        simp only [Option.map_some, Option.bind_some, map_get]
        cases ls1[i]? with
        | none => rfl
        | some l1 =>
          simp only [Option.map_some, Option.bind_some]
          rw [show (link l1).joint.wrench = vec6 l1.joint.wrench from rfl, child]
          cases Chain.addChildWrenchAt l1.joint.wrench ls1 c with
          | none => rfl
          | some w =>
            simp only [Option.map_some, Option.bind_some]
            rw [← ihs, ← map_set]
            congr 2
            rw [show (link l1).body.calcExtWrench = vec6 l1.body.calcExtWrench from net _, ← wrench_sub,
              show (link l1).joint.prp = prp l1.joint.prp from rfl, calcTrq]
            simp only [link, abi_congr (calcTrq_typeStr l1.joint.prp _)]

/-! ## One link -/

theorem cascade (f g : Frame K) : (frame f).cascade (frame g) = frame (f.cascade g) := by
  simp only [frame, pol, mat]; vec_ring

theorem prpXform (p : Prp K) (f : Frame K) : (prp p).xform (frame f) = frame (p.xform f) := by
  cases p <;> simp only [prp, Prp.xform, frame, vec6, Prp.rotZ, Prp.zyMat, pol, axi, mat] <;> vec_ring

theorem frame1 (f : Frame K) (l : Link K) : (link l).updateFrame1 (frame f) = link (l.updateFrame1 f) := by
  simp only [Link.updateFrame1, Body.updateCOM]
  rw [show (link l).joint.prp.xform (link l).org = frame (l.joint.prp.xform l.org) from prpXform _ _, cascade]
  simp only [link, body, Link.mk.injEq, Body.mk.injEq, true_and, and_true]
  simp only [frame, mp, pol, mat]
  vec_ring

theorem vel_xform (f : Frame K) (v : Vec6 K) : (frame f).xform6Lin (vec6 v) = vec6 (f.xform6Lin v) := by
  simp only [frame, vec6, pol, axi, mat]; vec_ring

theorem incVel (p : Prp K) (v : Vec6 K) : (prp p).incVel (vec6 v) = vec6 (p.incVel v) := by
  cases p <;> simp only [prp, Prp.incVel, vec6, pol, axi, mat] <;> vec_ring

theorem vel1 (v : Vec6 K) (l : Link K) : (link l).updateVel1 (vec6 v) = link (l.updateVel1 v) := by
  simp only [Link.updateVel1, Body.updateCOMVel]
  rw [show (link l).adj = frame l.adj from rfl, vel_xform, show (link l).joint.prp = prp l.joint.prp from rfl, incVel]
  simp only [link, body, Link.mk.injEq, Body.mk.injEq, true_and, and_true]
  simp only [vec6, mp, pol, axi]
  vec_ring

theorem incAccOnVel (p : Prp K) (w : Vec3 K) (a : Vec6 K) :
    (prp p).incAccOnVel (axi w) (vec6 a) = vec6 (p.incAccOnVel w a) := by
  cases p <;> simp only [prp, Prp.incAccOnVel, vec6, pol, axi, mat] <;> vec_ring

theorem incAcc (p : Prp K) (a : Vec6 K) : (prp p).incAcc (vec6 a) = vec6 (p.incAcc a) := by
  cases p <;> simp only [prp, Prp.incAcc, vec6, pol, axi, mat] <;> vec_ring

theorem shiftAcc (f : Frame K) (v a : Vec6 K) :
    (frame f).att.mulVecT6 (⟨((vec6 a).linShift (frame f).pos).lin + cross (vec6 v).ang (cross (vec6 v).ang (frame f).pos),
      ((vec6 a).linShift (frame f).pos).ang⟩ : Vec6 K) =
      vec6 (f.att.mulVecT6 ⟨(a.linShift f.pos).lin + cross v.ang (cross v.ang f.pos), (a.linShift f.pos).ang⟩) := by
  simp only [frame, vec6, pol, axi, mat]; vec_ring

theorem acc1 (v a : Vec6 K) (l : Link K) : (link l).updateAcc1 (vec6 v) (vec6 a) = link (l.updateAcc1 v a) := by
  simp only [Link.updateAcc1, Body.updateCOMAcc]
  rw [show (link l).adj = frame l.adj from rfl, shiftAcc, show (link l).joint.prp = prp l.joint.prp from rfl,
    show (link l).body.vel.ang = axi l.body.vel.ang from rfl, incAccOnVel, incAcc]
  simp only [link, body, Link.mk.injEq, Body.mk.injEq, true_and, and_true]
  simp only [vec6, mp, pol, axi]
  vec_ring

theorem rate1 (v a : Vec6 K) (l : Link K) : (link l).updateRate1 (vec6 v) (vec6 a) = link (l.updateRate1 v a) := by
  simp only [Link.updateRate1]
  rw [vel1, acc1]

theorem rateAt (t : LTree ℕ) (v a : Vec6 K) (ls : List (Link K)) :
    Chain.updateRateAt none t (vec6 v, vec6 a) (ls.map link) = (Chain.updateRateAt none t (v, a) ls).map (·.map link) :=
  down (St := Vec6 K × Vec6 K) (ρ := fun v => (vec6 v.1, vec6 v.2)) (f := fun st l => l.updateRate1 st.1 st.2)
    (g := fun l => (l.body.vel, l.body.acc)) (fun v l => rate1 v.1 v.2 l) (fun _ => rfl) t none (v, a) ls

theorem sum_cat {α : Type*} (ls : List α) (k : α → K) (q q' : α → Vec3 K) (h : ∀ l, q' l = pol (q l)) :
    ls.foldl (fun p l => cat p (k l) (q' l)) 0 = pol (ls.foldl (fun p l => cat p (k l) (q l)) 0) := by
  have : ∀ p : Vec3 K, ls.foldl (fun p l => cat p (k l) (q' l)) (pol p) = pol (ls.foldl (fun p l => cat p (k l) (q l)) p) := by
    induction ls with
    | nil => intro p; rfl
    | cons l ls ih =>
      intro p
      simp only [List.foldl_cons]
      rw [← ih, h]
      congr 1
      simp only [pol]
      vec_ring
  have h := this 0
  rwa [show pol (0 : Vec3 K) = 0 by simp only [pol]; vec_ring] at h

theorem calcCOM (M : K) (ls : List (Link K)) : LinkArray.calcCOM M (ls.map link) = pol (LinkArray.calcCOM M ls) := by
  simp only [LinkArray.calcCOM, List.foldl_map]
  rw [sum_cat ls (fun l => (link l).body.mp.mass) (fun l => l.body.wldCOM) (fun l => (link l).body.wldCOM) (fun _ => rfl)]
  simp only [pol]
  vec_ring

theorem mulVec (m : Mat3 K) (v : Vec3 K) : (mat m).mulVec (pol v) = pol (m.mulVec v) := by
  simp only [mat, pol]; vec_ring

theorem calcCOMVel (M : K) (ls : List (Link K)) : LinkArray.calcCOMVel M (ls.map link) = pol (LinkArray.calcCOMVel M ls) := by
  simp only [LinkArray.calcCOMVel, List.foldl_map]
  exact sum_cat ls (fun l => l.body.mp.mass / M) (fun l => l.body.frame.att.mulVec l.body.comVel) _ (fun l => mulVec _ _)

theorem calcCOMAcc (M : K) (ls : List (Link K)) : LinkArray.calcCOMAcc M (ls.map link) = pol (LinkArray.calcCOMAcc M ls) := by
  simp only [LinkArray.calcCOMAcc, List.foldl_map]
  exact sum_cat ls (fun l => l.body.mp.mass / M) (fun l => l.body.frame.att.mulVec l.body.comAcc) _ (fun l => mulVec _ _)

theorem calcMass (ls : List (Link K)) : LinkArray.calcMass (ls.map link) = LinkArray.calcMass ls := by
  simp only [LinkArray.calcMass, List.foldl_map]
  rfl

/-! ## Joint vectors -/

/-- The limits of the turns that are seen in reverse and of their motors. -/
def lims : Prp K → (Option K × Option K) × (Option K × Option K)
  | .revol p => ((p.lo, p.hi), inputLimits p.motor)
  | .cylin p => ((p.lo1, p.hi1), (none, none))
  | .hooke p => ((p.lo0, p.hi0), inputLimits p.motor)
  | _ => ((none, none), (none, none))

/-- The place of a link in the joint vectors, the type of its joint and its limits. -/
def place (l : Link K) : ℤ × String × ((Option K × Option K) × (Option K × Option K)) := (l.offset, l.joint.prp.typeStr, lims l.joint.prp)

theorem values_congr {c d : Chain K} (h : d.link.map place = c.link.map place) {v w : List K} (hv : Values c v w) : Values d v w := by
  intro l hl
  have : place l ∈ d.link.map place := List.mem_map_of_mem hl
  rw [h] at this
  obtain ⟨m, hm, e⟩ := List.mem_map.1 this
  simp only [place, Prod.mk.injEq] at e
  obtain ⟨e1, e2⟩ := signs_typeStr e.2.1
  have := hv m hm
  rwa [e1, slice, slice, e2, e.1] at this

variable [LinearOrder K] [IsStrictOrderedRing K] [Zm K]

theorem inOrder_iff (p : Prp K) : InOrder p ↔
    (∀ a ∈ (lims p).1.1, ∀ b ∈ (lims p).1.2, a ≤ b) ∧ ∀ a ∈ (lims p).2.1, ∀ b ∈ (lims p).2.2, a ≤ b := by
  cases p <;> simp [InOrder, lims]

theorem inOrder_congr {c d : Chain K} (h : d.link.map place = c.link.map place) (hc : ∀ l ∈ c.link, InOrder l.joint.prp) :
    ∀ l ∈ d.link, InOrder l.joint.prp := by
  intro l hl
  have : place l ∈ d.link.map place := List.mem_map_of_mem hl
  rw [h] at this
  obtain ⟨m, hm, e⟩ := List.mem_map.1 this
  simp only [place, Prod.mk.injEq] at e
  have := hc m hm
  rw [inOrder_iff] at this ⊢
  rwa [← e.2.2]

theorem limit_neg (v : K) (lo hi : Option K) (h : ∀ a ∈ lo, ∀ b ∈ hi, a ≤ b) :
    limit (-v) (hi.map (- ·)) (lo.map (- ·)) = -limit v lo hi := by
  cases lo <;> cases hi <;> simp only [limit, Option.map_some, Option.map_none]
  · rw [max_neg_neg]
  · rw [min_neg_neg]
  · rename_i a b
    have hab : a ≤ b := h a rfl b rfl
    rw [min_neg_neg, max_neg_neg, max_min_distrib_right, max_eq_left hab]

/-- A setter and the same setter in the mirror. -/
def Commutes (ok : Prp K → List K → Prop) (f : Prp K → List K → Option (Prp K)) : Prop :=
  ∀ (p : Prp K) (buf buf' : List K), ok p buf → buf'.take p.size = List.zipWith (· * ·) (signs p) (buf.take p.size) →
    f (prp p) buf' = (f p buf).map prp

theorem take3 {buf buf' : List K} (h : buf'.take 3 = List.zipWith (· * ·) [-1, 1, -1] (buf.take 3)) :
    Vec3.ofBuf buf' = (Vec3.ofBuf buf).map axi := by
  rcases buf with _ | ⟨a, _ | ⟨b, _ | ⟨c, r⟩⟩⟩ <;> rcases buf' with _ | ⟨a', _ | ⟨b', _ | ⟨c', r'⟩⟩⟩ <;> simp at h <;> try rfl
  obtain ⟨rfl, rfl, rfl⟩ := h
  rfl

theorem take6 {buf buf' : List K} (h : buf'.take 6 = List.zipWith (· * ·) [1, -1, 1, -1, 1, -1] (buf.take 6)) :
    Vec6.ofBuf buf' = (Vec6.ofBuf buf).map vec6 := by
  have hl := congrArg List.length h
  simp only [List.length_take, List.length_zipWith, List.length_cons, List.length_nil] at hl
  by_cases hb : 6 ≤ buf.length
  · have hb' : 6 ≤ buf'.length := by omega
    obtain ⟨a, b, c, d, e, f, r, rfl⟩ : ∃ a b c d e f r, buf = a :: b :: c :: d :: e :: f :: r := by
      rcases buf with _ | ⟨a, _ | ⟨b, _ | ⟨c, _ | ⟨d, _ | ⟨e, _ | ⟨f, r⟩⟩⟩⟩⟩⟩ <;> first | exact ⟨_, _, _, _, _, _, _, rfl⟩ | simp at hb
    obtain ⟨a', b', c', d', e', f', r', rfl⟩ : ∃ a b c d e f r, buf' = a :: b :: c :: d :: e :: f :: r := by
      rcases buf' with _ | ⟨a, _ | ⟨b, _ | ⟨c, _ | ⟨d, _ | ⟨e, _ | ⟨f, r⟩⟩⟩⟩⟩⟩ <;> first | exact ⟨_, _, _, _, _, _, _, rfl⟩ | simp at hb'
    simp at h
    obtain ⟨rfl, rfl, rfl, rfl, rfl, rfl⟩ := h
    rfl
  · have hb' : ¬6 ≤ buf'.length := by omega
    have none : ∀ b : List K, ¬6 ≤ b.length → Vec6.ofBuf b = none := by
      intro b hb
      rcases b with _ | ⟨a, _ | ⟨b, _ | ⟨c, _ | ⟨d, _ | ⟨e, _ | ⟨f, r⟩⟩⟩⟩⟩⟩ <;> first | rfl | (simp at hb)
    rw [none _ hb, none _ hb']
    rfl

theorem short2 {f : Prp K → List K → Option (Prp K)} {p : Prp K} {b b' : List K} (h : b.length < 2) (h' : b'.length < 2)
    (hf : ∀ q ∈ [p, prp p], f q [] = none ∧ ∀ a, f q [a] = none) : f (prp p) b' = (f p b).map prp := by
  have h1 := hf p (by simp)
  have h2 := hf (prp p) (by simp)
  rcases UnitSys.short2 h with rfl | ⟨_, rfl⟩ <;> rcases UnitSys.short2 h' with rfl | ⟨_, rfl⟩ <;> simp only [h1, h2, Option.map_none]

theorem commutes_vel : Commutes (K := K) (fun _ _ => True) Prp.setVel := by
  intro p buf buf' _ h
  cases p with
  | fixed => rfl
  | revol p =>
    rcases UnitSys.take1 h with ⟨rfl, rfl⟩ | ⟨a, r, r', rfl, rfl⟩
    · rfl
    · simp only [prp, Prp.setVel, neg_one_mul, Option.map_some]
  | prism p =>
    rcases UnitSys.take1 h with ⟨rfl, rfl⟩ | ⟨a, r, r', rfl, rfl⟩
    · rfl
    · simp only [prp, Prp.setVel, one_mul, Option.map_some]
  | cylin p =>
    rcases UnitSys.take2 h with ⟨h1, h2⟩ | ⟨a, b, r, r', rfl, rfl⟩
    · exact short2 h1 h2 (by simp [prp, Prp.setVel])
    · simp only [prp, Prp.setVel, one_mul, neg_one_mul, Option.map_some]
  | hooke p =>
    rcases UnitSys.take2 h with ⟨h1, h2⟩ | ⟨a, b, r, r', rfl, rfl⟩
    · exact short2 h1 h2 (by simp [prp, Prp.setVel])
    · simp only [prp, Prp.setVel, one_mul, neg_one_mul, Option.map_some]
  | spher p => simp only [prp, Prp.setVel, take3 h, Option.map_map]; rfl
  | float p => simp only [prp, Prp.setVel, take6 h, Option.map_map]; rfl
  | brfloat p => simp only [prp, Prp.setVel, take6 h, Option.map_map]; rfl

theorem commutes_acc : Commutes (K := K) (fun _ _ => True) Prp.setAcc := by
  intro p buf buf' _ h
  cases p with
  | fixed => rfl
  | revol p =>
    rcases UnitSys.take1 h with ⟨rfl, rfl⟩ | ⟨a, r, r', rfl, rfl⟩
    · rfl
    · simp only [prp, Prp.setAcc, neg_one_mul, Option.map_some]
  | prism p =>
    rcases UnitSys.take1 h with ⟨rfl, rfl⟩ | ⟨a, r, r', rfl, rfl⟩
    · rfl
    · simp only [prp, Prp.setAcc, one_mul, Option.map_some]
  | cylin p =>
    rcases UnitSys.take2 h with ⟨h1, h2⟩ | ⟨a, b, r, r', rfl, rfl⟩
    · exact short2 h1 h2 (by simp [prp, Prp.setAcc])
    · simp only [prp, Prp.setAcc, one_mul, neg_one_mul, Option.map_some]
  | hooke p =>
    rcases UnitSys.take2 h with ⟨h1, h2⟩ | ⟨a, b, r, r', rfl, rfl⟩
    · exact short2 h1 h2 (by simp [prp, Prp.setAcc])
    · simp only [prp, Prp.setAcc, one_mul, neg_one_mul, Option.map_some]
  | spher p => simp only [prp, Prp.setAcc, take3 h, Option.map_map]; rfl
  | float p => simp only [prp, Prp.setAcc, take6 h, Option.map_map]; rfl
  | brfloat p => simp only [prp, Prp.setAcc, take6 h, Option.map_map]; rfl

theorem commutes_dis [Fair K] : Commutes (K := K) (fun p v => InOrder p ∧ ∀ x ∈ v, Zm.phaseNormalize x ≠ Zm.pi) Prp.setDis := by
  intro p buf buf' hok h
  obtain ⟨hio, hn⟩ := hok
  cases p with
  | fixed => rfl
  | revol p =>
    rcases UnitSys.take1 h with ⟨rfl, rfl⟩ | ⟨a, r, r', rfl, rfl⟩
    · rfl
    · simp only [prp, Prp.setDis, neg_one_mul, Option.map_some, Fair.phase a (hn a (by simp)), limit_neg _ _ _ hio.1, Fair.sin, Fair.cos]
  | prism p =>
    rcases UnitSys.take1 h with ⟨rfl, rfl⟩ | ⟨a, r, r', rfl, rfl⟩
    · rfl
    · simp only [prp, Prp.setDis, one_mul, Option.map_some]
  | cylin p =>
    rcases UnitSys.take2 h with ⟨h1, h2⟩ | ⟨a, b, r, r', rfl, rfl⟩
    · exact short2 h1 h2 (by simp [prp, Prp.setDis])
    · simp only [prp, Prp.setDis, one_mul, neg_one_mul, Option.map_some, Fair.phase b (hn b (by simp)), limit_neg _ _ _ hio, Fair.sin, Fair.cos]
  | hooke p =>
    rcases UnitSys.take2 h with ⟨h1, h2⟩ | ⟨a, b, r, r', rfl, rfl⟩
    · exact short2 h1 h2 (by simp [prp, Prp.setDis])
    · simp only [prp, Prp.setDis, one_mul, neg_one_mul, Option.map_some, Fair.phase a (hn a (by simp)), limit_neg _ _ _ hio.1, Fair.sin, Fair.cos]
  | spher p =>
    simp only [prp, Prp.setDis, take3 h, Option.map_map, Function.comp_def, Fair.fromAA]
  | float p => simp only [prp, Prp.setDis, take6 h, Option.map_map, Function.comp_def, vec6, Fair.fromAA]
  | brfloat p => simp only [prp, Prp.setDis, take6 h, Option.map_map, Function.comp_def, vec6, Fair.fromAA]

theorem setWith_place {f : Prp K → List K → Option (Prp K)} (hf : ∀ p buf p', f p buf = some p' → p'.typeStr = p.typeStr ∧ lims p' = lims p)
    (l l' : Link K) (buf : List K) (h : l.setWith f buf = some l') : place l' = place l := by
  obtain ⟨p, hp, rfl⟩ := setWith_eq_some.1 h
  simp only [place, (hf _ _ _ hp).1, (hf _ _ _ hp).2]

theorem type_dis (p : Prp K) (buf : List K) (p' : Prp K) (h : p.setDis buf = some p') : p'.typeStr = p.typeStr ∧ lims p' = lims p := by
  cases p <;> rcases buf with _ | ⟨a, _ | ⟨b, _ | ⟨c, _ | ⟨d, _ | ⟨e, _ | ⟨f, buf⟩⟩⟩⟩⟩⟩ <;>
    simp [Prp.setDis, Vec3.ofBuf, Vec6.ofBuf] at h <;> subst h <;> exact ⟨rfl, rfl⟩

theorem type_vel (p : Prp K) (buf : List K) (p' : Prp K) (h : p.setVel buf = some p') : p'.typeStr = p.typeStr ∧ lims p' = lims p := by
  cases p <;> rcases buf with _ | ⟨a, _ | ⟨b, _ | ⟨c, _ | ⟨d, _ | ⟨e, _ | ⟨f, buf⟩⟩⟩⟩⟩⟩ <;>
    simp [Prp.setVel, Vec3.ofBuf, Vec6.ofBuf] at h <;> subst h <;> exact ⟨rfl, rfl⟩

theorem type_acc (p : Prp K) (buf : List K) (p' : Prp K) (h : p.setAcc buf = some p') : p'.typeStr = p.typeStr ∧ lims p' = lims p := by
  cases p <;> rcases buf with _ | ⟨a, _ | ⟨b, _ | ⟨c, _ | ⟨d, _ | ⟨e, _ | ⟨f, buf⟩⟩⟩⟩⟩⟩ <;>
    simp [Prp.setAcc, Vec3.ofBuf, Vec6.ofBuf] at h <;> subst h <;> exact ⟨rfl, rfl⟩

theorem type_trq (p : Prp K) (w : Vec6 K) : (p.calcTrq w).typeStr = p.typeStr ∧ lims (p.calcTrq w) = lims p := by cases p <;> exact ⟨rfl, rfl⟩

theorem setAt {ok : Prp K → List K → Prop} {f : Prp K → List K → Option (Prp K)} (hc : Commutes ok f)
    (ht : ∀ p buf p', f p buf = some p' → p'.typeStr = p.typeStr ∧ lims p' = lims p) {v w : List K} (l : Link K)
    (ho : ok l.joint.prp (v.drop l.offset.toNat)) (h : slice w l = List.zipWith (· * ·) (signs l.joint.prp) (slice v l)) :
    (link l).setAtOffset f w = (l.setAtOffset f v).map link := by
  simp only [Link.setAtOffset]
  rw [show (link l).offset = l.offset from rfl]
  by_cases h0 : 0 ≤ l.offset
  · rw [if_pos h0, if_pos h0]
    simp only [Link.setWith]
    rw [show (link l).joint.prp = prp l.joint.prp from rfl, hc _ _ _ ho h, Option.map_map, Option.map_map]
    cases e : f l.joint.prp (v.drop l.offset.toNat) with
    | none => rfl
    | some q =>
      simp only [Option.map_some, Function.comp, link, abi_congr (ht _ _ _ e).1]
  · rw [if_neg h0, if_neg h0]
    rfl

theorem setAll {ok : Prp K → List K → Prop} {f : Prp K → List K → Option (Prp K)} (hc : Commutes ok f)
    (ht : ∀ p buf p', f p buf = some p' → p'.typeStr = p.typeStr ∧ lims p' = lims p) {v w : List K} (ls : List (Link K))
    (ho : ∀ l ∈ ls, ok l.joint.prp (v.drop l.offset.toNat))
    (h : ∀ l ∈ ls, slice w l = List.zipWith (· * ·) (signs l.joint.prp) (slice v l)) :
    setJointAll f w (ls.map link) = (setJointAll f v ls).map (·.map link) := by
  induction ls with
  | nil => rfl
  | cons l ls ih =>
    simp only [List.map_cons, setJointAll]
    rw [setAt hc ht l (ho l (by simp)) (h l (by simp)), ih (fun l hl => ho l (by simp [hl])) fun l hl => h l (by simp [hl])]
    cases l.setAtOffset f v with
    | none => rfl
    | some l' => cases setJointAll f v ls <;> rfl

theorem modify (ls : List (Link K)) (i : ℕ) {f f' : Link K → Link K} (hf : ∀ l, f' (link l) = link (f l)) :
    (ls.map link).modify i f' = (ls.modify i f).map link := by
  apply List.ext_getElem?
  intro j
  simp only [List.getElem?_modify, List.getElem?_map]
  by_cases e : i = j
  · simp only [if_pos e]
    cases ls[j]? with
    | none => rfl
    | some l => exact congrArg some (hf _)
  · simp only [if_neg e]
    cases ls[j]? <;> rfl

theorem rate1_place (v a : Vec6 K) (l : Link K) : place (l.updateRate1 v a) = place l := by
  simp only [Link.updateRate1, Link.updateAcc1, Link.updateVel1, place]

end Spec.Mirror
end Roki
