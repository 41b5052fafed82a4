import Verif.Spec.Units
import Verif.Lemmas.IKStep
import Verif.Lemmas.ChainFile5
set_option autoImplicit false

/-! # Lemmas: other units of length, mass and time (C139) -/

namespace Roki
set_option linter.unusedSectionVars false
open Spec LinkArray
namespace Spec.UnitSys
variable {K : Type*} [Field K] {u : UnitSys K}

theorem factors_typeStr (s t : K) {p q : Prp K} (h : p.typeStr = q.typeStr) : factors s t p = factors s t q ∧ p.size = q.size := by
  cases p <;> cases q <;> first | exact ⟨rfl, rfl⟩ | exact absurd h (by simp [Prp.typeStr])

theorem abi_congr {p q : Prp K} (h : p.typeStr = q.typeStr) (a : ABIPrp K) : u.abi p a = u.abi q a := by
  have e : ∀ i, u.arm p i = u.arm q i := fun i => by simp only [arm, (factors_typeStr 1 u.len h).1]
  have e1 : u.joint2 p = u.joint2 q := by funext h i j; simp only [joint2, e]
  have e2 : u.joint2Inv p = u.joint2Inv q := by funext h i j; simp only [joint2Inv, e]
  simp only [abi, e1, e2]

theorem calcTrq_typeStr (p : Prp K) (w : Vec6 K) : (p.calcTrq w).typeStr = p.typeStr := by cases p <;> rfl

/-! ## Passes over the tree -/

theorem map_get (ls : List (Link K)) (i : ℕ) : (ls.map u.link)[i]? = ls[i]?.map u.link := by simp

theorem map_set (ls : List (Link K)) (i : ℕ) (l : Link K) : (ls.map u.link).set i (u.link l) = (ls.set i l).map u.link := by
  rw [List.map_set]

theorem down {St : Type*} {f : St → Link K → Link K} {g : Link K → St} {ρ : St → St}
    (hf : ∀ v l, f (ρ v) (u.link l) = u.link (f v l)) (hg : ∀ l, g (u.link l) = ρ (g l))
    (t : LTree ℕ) : ∀ (par : Option ℕ) (v : St) (ls : List (Link K)),
      Chain.downAt f g par t (ρ v) (ls.map u.link) = (Chain.downAt f g par t v ls).map (·.map u.link) := by
  induction t with
  | nil => intro par v ls; rfl
  | node i c s ihc ihs =>
    intro par v ls
    simp only [Chain.downAt, map_get]
    cases ls[i]? with
    | none => rfl
    | some l =>
      simp only [Option.map_some, Option.bind_eq_bind, Option.bind_some]
      rw [hf, hg, map_set, ihc]
      cases Chain.downAt f g (some i) c (g (f v l)) (ls.set i (f v l)) with
      | none => rfl
      | some ls1 =>
        simp only [Option.map_some, Option.bind_some]
        split
        · rfl
        · cases par with
          | none => rfl
          | some p =>
            simp only [map_get]
            cases ls1[p]? with
            | none => rfl
            | some pl =>
              simp only [Option.map_some]
              rw [hg, ihs]

theorem xform6Ang (f : Frame K) (w : Vec6 K) : (u.frame f).xform6Ang (u.wrench w) = u.wrench (f.xform6Ang w) := by
  simp only [frame, wrench, moment]
  vec_ring

theorem wrench_add (v w : Vec6 K) : u.wrench (v + w) = u.wrench v + u.wrench w := by
  simp only [wrench]; vec_ring

theorem wrench_sub (v w : Vec6 K) : u.wrench (v - w) = u.wrench v - u.wrench w := by
  simp only [wrench]; vec_ring

theorem child (t : LTree ℕ) : ∀ (w : Vec6 K) (ls : List (Link K)),
    Chain.addChildWrenchAt (u.wrench w) (ls.map u.link) t = (Chain.addChildWrenchAt w ls t).map u.wrench := by
  induction t with
  | nil => intro w ls; rfl
  | node i c s _ ihs =>
    intro w ls
    simp only [Chain.addChildWrenchAt, map_get]
    cases ls[i]? with
    | none => rfl
    | some l =>
      simp only [Option.map_some]
      rw [show (u.link l).adj.xform6Ang (u.link l).joint.wrench = u.wrench (l.adj.xform6Ang l.joint.wrench) from xform6Ang _ _,
        ← wrench_add, ihs]

theorem netWrench (b : Body K) : (u.body b).netWrench.angShift (u.body b).mp.com = u.wrench (b.netWrench.angShift b.mp.com) := by
  simp only [body, Body.netWrench, wrench, moment, force, mp, vel, acc]
  vec_ring

theorem net (l : WrenchList K) : WrenchList.net (l.map u.load) = u.wrench (WrenchList.net l) := by
  have z : u.wrench 0 = 0 := by simp only [wrench]; vec_ring
  have : ∀ w : Vec6 K, (l.map u.load).foldl (fun w c => w + c.shift) (u.wrench w) = u.wrench (l.foldl (fun w c => w + c.shift) w) := by
    induction l with
    | nil => intro w; rfl
    | cons c l ih =>
      intro w
      simp only [List.map_cons, List.foldl_cons]
      rw [← ih, wrench_add]
      congr 2
      simp only [Wrench.shift, load, wrench, moment]
      vec_ring
  have h := this 0
  rw [z] at h
  exact h

theorem calcTrq (p : Prp K) (w : Vec6 K) : (u.prp p).calcTrq (u.wrench w) = u.prp (p.calcTrq w) := by
  cases p with
  | fixed => rfl
  | revol p => rfl
  | prism p => rfl
  | cylin p => rfl
  | hooke p =>
    simp only [prp, Prp.calcTrq, wrench, Prp.hooke.injEq, Dof2.ext_iff, true_and, and_true]
    refine ⟨?_, rfl⟩
    simp only [HSMul.hSMul, SMul.smul]
    ring
  | spher p =>
    simp only [prp, Prp.calcTrq, wrench, Prp.spher.injEq, SpherPrp.ext_iff, true_and, and_true]
    vec_ring
  | float p =>
    simp only [prp, Prp.calcTrq, wrench, Prp.float.injEq, FloatPrp.ext_iff, true_and, and_true]
    vec_ring
  | brfloat p =>
    simp only [prp, Prp.calcTrq, wrench, Prp.brfloat.injEq, FloatPrp.ext_iff, true_and, and_true]
    vec_ring

theorem wrenchAt (t : LTree ℕ) : ∀ (ls : List (Link K)),
    Chain.updateWrenchAt t (ls.map u.link) = (Chain.updateWrenchAt t ls).map (·.map u.link) := by
  induction t with
  | nil => intro ls; rfl
  | node i c s ihc ihs =>
    intro ls
    simp only [Chain.updateWrenchAt, map_get]
    cases ls[i]? with
    | none => rfl
    | some l =>
      simp only [Option.map_some, Option.bind_eq_bind, Option.bind_some]
      rw [show ({ u.link l with joint := { (u.link l).joint with
          wrench := (u.link l).body.netWrench.angShift (u.link l).body.mp.com } } : Link K) =
        u.link { l with joint := { l.joint with wrench := l.body.netWrench.angShift l.body.mp.com } } from by
          rw [show (u.link l).body = u.body l.body from rfl, netWrench]; rfl,
        map_set, ihc]
      cases Chain.updateWrenchAt c (ls.set i { l with joint := { l.joint with wrench := l.body.netWrench.angShift l.body.mp.com } }) with
      | none => rfl
      | some ls1 =>
        simp only [Option.map_some, Option.bind_some, map_get]
        cases ls1[i]? with
        | none => rfl
        | some l1 =>
          simp only [Option.map_some, Option.bind_some]
          rw [show (u.link l1).joint.wrench = u.wrench l1.joint.wrench from rfl, child]
          cases Chain.addChildWrenchAt l1.joint.wrench ls1 c with
          | none => rfl
          | some w =>
            simp only [Option.map_some, Option.bind_some]
            rw [← ihs, ← map_set]
            congr 2
            rw [show (u.link l1).body.calcExtWrench = u.wrench l1.body.calcExtWrench from net _, ← wrench_sub,
              show (u.link l1).joint.prp = u.prp l1.joint.prp from rfl, calcTrq]
            simp only [link, abi_congr (calcTrq_typeStr l1.joint.prp _)]

/-! ## One link -/

theorem cascade (f g : Frame K) : (u.frame f).cascade (u.frame g) = u.frame (f.cascade g) := by
  simp only [frame]; vec_ring

theorem prpXform (p : Prp K) (f : Frame K) : (u.prp p).xform (u.frame f) = u.frame (p.xform f) := by
  cases p <;> simp only [prp, Prp.xform, frame, dis, Prp.rotZ, Prp.zyMat] <;> vec_ring

theorem frame1 (f : Frame K) (l : Link K) : (u.link l).updateFrame1 (u.frame f) = u.link (l.updateFrame1 f) := by
  simp only [Link.updateFrame1, Body.updateCOM]
  rw [show (u.link l).joint.prp.xform (u.link l).org = u.frame (l.joint.prp.xform l.org) from prpXform _ _, cascade]
  simp only [link, body, Link.mk.injEq, Body.mk.injEq, true_and, and_true]
  simp only [frame, mp]
  vec_ring

theorem vel_xform (f : Frame K) (v : Vec6 K) : (u.frame f).xform6Lin (u.vel v) = u.vel (f.xform6Lin v) := by
  simp only [frame, vel]; vec_ring

theorem incVel (p : Prp K) (v : Vec6 K) : (u.prp p).incVel (u.vel v) = u.vel (p.incVel v) := by
  cases p <;> simp only [prp, Prp.incVel, vel] <;> vec_ring

theorem vel1 (v : Vec6 K) (l : Link K) : (u.link l).updateVel1 (u.vel v) = u.link (l.updateVel1 v) := by
  simp only [Link.updateVel1, Body.updateCOMVel]
  rw [show (u.link l).adj = u.frame l.adj from rfl, vel_xform, show (u.link l).joint.prp = u.prp l.joint.prp from rfl, incVel]
  simp only [link, body, Link.mk.injEq, Body.mk.injEq, true_and, and_true]
  simp only [vel, mp]
  vec_ring

theorem incAccOnVel (p : Prp K) (w : Vec3 K) (a : Vec6 K) :
    (u.prp p).incAccOnVel (u.rate • w) (u.acc a) = u.acc (p.incAccOnVel w a) := by
  cases p <;> simp only [prp, Prp.incAccOnVel, acc, vel] <;> vec_ring

theorem incAcc (p : Prp K) (a : Vec6 K) : (u.prp p).incAcc (u.acc a) = u.acc (p.incAcc a) := by
  cases p <;> simp only [prp, Prp.incAcc, acc] <;> vec_ring

theorem shiftAcc (f : Frame K) (v a : Vec6 K) :
    (u.frame f).att.mulVecT6 (⟨((u.acc a).linShift (u.frame f).pos).lin + cross (u.vel v).ang (cross (u.vel v).ang (u.frame f).pos),
      ((u.acc a).linShift (u.frame f).pos).ang⟩ : Vec6 K) =
      u.acc (f.att.mulVecT6 ⟨(a.linShift f.pos).lin + cross v.ang (cross v.ang f.pos), (a.linShift f.pos).ang⟩) := by
  simp only [frame, acc, vel]; vec_ring

theorem acc1 (v a : Vec6 K) (l : Link K) : (u.link l).updateAcc1 (u.vel v) (u.acc a) = u.link (l.updateAcc1 v a) := by
  simp only [Link.updateAcc1, Body.updateCOMAcc]
  rw [show (u.link l).adj = u.frame l.adj from rfl, shiftAcc, show (u.link l).joint.prp = u.prp l.joint.prp from rfl,
    show (u.link l).body.vel.ang = u.rate • l.body.vel.ang from rfl, incAccOnVel, incAcc]
  simp only [link, body, Link.mk.injEq, Body.mk.injEq, true_and, and_true]
  simp only [vel, acc, mp]
  vec_ring

theorem rate1 (v a : Vec6 K) (l : Link K) : (u.link l).updateRate1 (u.vel v) (u.acc a) = u.link (l.updateRate1 v a) := by
  simp only [Link.updateRate1]
  rw [vel1, acc1]

theorem rateAt (t : LTree ℕ) (v a : Vec6 K) (ls : List (Link K)) :
    Chain.updateRateAt none t (u.vel v, u.acc a) (ls.map u.link) = (Chain.updateRateAt none t (v, a) ls).map (·.map u.link) :=
  down (St := Vec6 K × Vec6 K) (u := u) (ρ := fun v => (u.vel v.1, u.acc v.2)) (f := fun st l => l.updateRate1 st.1 st.2)
    (g := fun l => (l.body.vel, l.body.acc)) (fun v l => rate1 v.1 v.2 l) (fun _ => rfl) t none (v, a) ls

theorem sum_pos (ls : List (Link K)) :
    (ls.map u.link).foldl (fun p l => cat p l.body.mp.mass l.body.wldCOM) 0 =
      (u.mass * u.len) • ls.foldl (fun p l => cat p l.body.mp.mass l.body.wldCOM) 0 := by
  have : ∀ p : Vec3 K, (ls.map u.link).foldl (fun p l => cat p l.body.mp.mass l.body.wldCOM) ((u.mass * u.len) • p) =
      (u.mass * u.len) • ls.foldl (fun p l => cat p l.body.mp.mass l.body.wldCOM) p := by
    induction ls with
    | nil => intro p; rfl
    | cons l ls ih =>
      intro p
      simp only [List.map_cons, List.foldl_cons]
      rw [← ih]
      congr 1
      simp only [link, body, mp]
      vec_ring
  have h := this 0
  rwa [show (u.mass * u.len) • (0 : Vec3 K) = 0 by vec_ring] at h

theorem sum_rate (hm : u.mass ≠ 0) (M k : K) (q : Link K → Vec3 K) (hq : ∀ l, q (u.link l) = k • q l) (ls : List (Link K)) :
    (ls.map u.link).foldl (fun p l => cat p (l.body.mp.mass / (u.mass * M)) (l.body.frame.att.mulVec (q l))) 0 =
      k • ls.foldl (fun p l => cat p (l.body.mp.mass / M) (l.body.frame.att.mulVec (q l))) 0 := by
  have : ∀ p : Vec3 K, (ls.map u.link).foldl (fun p l => cat p (l.body.mp.mass / (u.mass * M)) (l.body.frame.att.mulVec (q l))) (k • p) =
      k • ls.foldl (fun p l => cat p (l.body.mp.mass / M) (l.body.frame.att.mulVec (q l))) p := by
    induction ls with
    | nil => intro p; rfl
    | cons l ls ih =>
      intro p
      simp only [List.map_cons, List.foldl_cons]
      rw [← ih, hq]
      congr 1
      rw [show (u.link l).body.mp.mass = u.mass * l.body.mp.mass from rfl, mul_div_mul_left _ _ hm,
        show (u.link l).body.frame.att = l.body.frame.att from rfl]
      vec_ring
  have h := this 0
  rwa [show k • (0 : Vec3 K) = 0 by vec_ring] at h

theorem calcCOM (hm : u.mass ≠ 0) (M : K) (ls : List (Link K)) :
    LinkArray.calcCOM (u.mass * M) (ls.map u.link) = u.len • LinkArray.calcCOM M ls := by
  simp only [LinkArray.calcCOM]
  rw [sum_pos, mul_inv]
  generalize ls.foldl (fun p l => cat p l.body.mp.mass l.body.wldCOM) 0 = s
  have e : ∀ x : K, u.mass⁻¹ * M⁻¹ * (u.mass * u.len * x) = u.len * (M⁻¹ * x) := by intro x; field_simp
  exact Vec3.ext (e _) (e _) (e _)

theorem calcCOMVel (hm : u.mass ≠ 0) (M : K) (ls : List (Link K)) :
    LinkArray.calcCOMVel (u.mass * M) (ls.map u.link) = (u.len * u.rate) • LinkArray.calcCOMVel M ls :=
  sum_rate hm M (u.len * u.rate) (fun l => l.body.comVel) (fun _ => rfl) ls

theorem calcCOMAcc (hm : u.mass ≠ 0) (M : K) (ls : List (Link K)) :
    LinkArray.calcCOMAcc (u.mass * M) (ls.map u.link) = (u.len * (u.rate * u.rate)) • LinkArray.calcCOMAcc M ls :=
  sum_rate hm M (u.len * (u.rate * u.rate)) (fun l => l.body.comAcc) (fun _ => rfl) ls

theorem calcMass (ls : List (Link K)) : LinkArray.calcMass (ls.map u.link) = u.mass * LinkArray.calcMass ls := by
  have : ∀ m : K, (ls.map u.link).foldl (fun m l => m + l.body.mp.mass) (u.mass * m) = u.mass * ls.foldl (fun m l => m + l.body.mp.mass) m := by
    induction ls with
    | nil => intro p; rfl
    | cons l ls ih =>
      intro p
      simp only [List.map_cons, List.foldl_cons]
      rw [← ih, mul_add]
      rfl
  have h := this 0
  rwa [mul_zero] at h

/-! ## Joint vectors -/

/-- The place of a link in the joint vectors and the type of its joint. -/
def place (l : Link K) : ℤ × String := (l.offset, l.joint.prp.typeStr)

theorem values_congr {s t : K} {c d : Chain K} (h : d.link.map place = c.link.map place) {v w : List K} (hv : Values s t c v w) :
    Values s t d v w := by
  intro l hl
  have : place l ∈ d.link.map place := List.mem_map_of_mem hl
  rw [h] at this
  obtain ⟨m, hm, e⟩ := List.mem_map.1 this
  simp only [place, Prod.mk.injEq] at e
  obtain ⟨e1, e2⟩ := factors_typeStr s t e.2
  have := hv m hm
  rwa [e1, slice, slice, e2, e.1] at this

variable [LinearOrder K] [IsStrictOrderedRing K] [Zm K]

theorem limit_len (h : 0 < u.len) (v : K) (lo hi : Option K) :
    limit (u.len * v) (lo.map (u.len * ·)) (hi.map (u.len * ·)) = u.len * limit v lo hi := by
  cases lo <;> cases hi <;> simp only [limit, Option.map_some, Option.map_none]
  · rw [mul_min_of_nonneg _ _ h.le]
  · rw [mul_max_of_nonneg _ _ h.le]
  · rw [mul_max_of_nonneg _ _ h.le, mul_min_of_nonneg _ _ h.le]

/-- A setter and the setter of the same quantity in other units. -/
def Commutes (u : UnitSys K) (s t : K) (f f' : Prp K → List K → Option (Prp K)) : Prop :=
  ∀ (p : Prp K) (buf buf' : List K), buf'.take p.size = List.zipWith (· * ·) (factors s t p) (buf.take p.size) →
    f' (u.prp p) buf' = (f p buf).map u.prp

theorem take1 {s : K} {buf buf' : List K} (h : buf'.take 1 = List.zipWith (· * ·) [s] (buf.take 1)) :
    (buf = [] ∧ buf' = []) ∨ ∃ a r r', buf = a :: r ∧ buf' = s * a :: r' := by
  rcases buf with _ | ⟨a, r⟩ <;> rcases buf' with _ | ⟨a', r'⟩ <;> simp at h ⊢
  exact h

theorem take2 {s t : K} {buf buf' : List K} (h : buf'.take 2 = List.zipWith (· * ·) [s, t] (buf.take 2)) :
    (buf.length < 2 ∧ buf'.length < 2) ∨ ∃ a b r r', buf = a :: b :: r ∧ buf' = s * a :: t * b :: r' := by
  rcases buf with _ | ⟨a, _ | ⟨b, r⟩⟩ <;> rcases buf' with _ | ⟨a', _ | ⟨b', r'⟩⟩ <;> simp at h ⊢
  exact h

theorem take3 {s : K} {buf buf' : List K} (h : buf'.take 3 = List.zipWith (· * ·) [s, s, s] (buf.take 3)) :
    Vec3.ofBuf buf' = (Vec3.ofBuf buf).map (s • ·) := by
  rcases buf with _ | ⟨a, _ | ⟨b, _ | ⟨c, r⟩⟩⟩ <;> rcases buf' with _ | ⟨a', _ | ⟨b', _ | ⟨c', r'⟩⟩⟩ <;> simp at h <;> try rfl
  obtain ⟨rfl, rfl, rfl⟩ := h
  rfl

theorem take6 {s t : K} {buf buf' : List K} (h : buf'.take 6 = List.zipWith (· * ·) [s, s, s, t, t, t] (buf.take 6)) :
    Vec6.ofBuf buf' = (Vec6.ofBuf buf).map fun v => ⟨s • v.lin, t • v.ang⟩ := by
  have hl := congrArg List.length h
  simp only [List.length_take, List.length_zipWith, List.length_cons, List.length_nil] at hl
  by_cases hb : 6 ≤ buf.length
  · have hb' : 6 ≤ buf'.length := by omega
    obtain ⟨a, b, c, d, e, f, r, rfl⟩ : ∃ a b c d e f r, buf = a :: b :: c :: d :: e :: f :: r := by
      rcases buf with _ | ⟨a, _ | ⟨b, _ | ⟨c, _ | ⟨d, _ | ⟨e, _ | ⟨f, r⟩⟩⟩⟩⟩⟩ <;> first | exact ⟨_, _, _, _, _, _, _, rfl⟩ | simp at hb
    obtain ⟨a', b', c', d', e', f', r', rfl⟩ : ∃ a b c d e f r, buf' = a :: b :: c :: d :: e :: f :: r := by
      rcases buf' with _ | ⟨a, _ | ⟨b, _ | ⟨c, _ | ⟨d, _ | ⟨e, _ | ⟨f, r⟩⟩⟩⟩⟩⟩ <;> first | exact ⟨_, _, _, _, _, _, _, rfl⟩ | simp at hb'
    simp at h
    obtain ⟨rfl, rfl, rfl, rfl, rfl, rfl⟩ := h
    rfl
  · have hb' : ¬6 ≤ buf'.length := by omega
    have none : ∀ b : List K, ¬6 ≤ b.length → Vec6.ofBuf b = none := by
      intro b hb
      rcases b with _ | ⟨a, _ | ⟨b, _ | ⟨c, _ | ⟨d, _ | ⟨e, _ | ⟨f, r⟩⟩⟩⟩⟩⟩ <;> first | rfl | (simp at hb)
    rw [none _ hb, none _ hb']
    rfl

theorem short2 {b : List K} (h : b.length < 2) : b = [] ∨ ∃ a, b = [a] := by
  rcases b with _ | ⟨a, _ | ⟨b, r⟩⟩
  · exact .inl rfl
  · exact .inr ⟨a, rfl⟩
  · simp at h

theorem commutes_vel : Commutes u (u.len * u.rate) u.rate Prp.setVel Prp.setVel := by
  intro p buf buf' h
  cases p with
  | fixed => rfl
  | revol p =>
    rcases take1 h with ⟨rfl, rfl⟩ | ⟨a, r, r', rfl, rfl⟩ <;> rfl
  | prism p =>
    rcases take1 h with ⟨rfl, rfl⟩ | ⟨a, r, r', rfl, rfl⟩ <;> rfl
  | cylin p =>
    rcases take2 h with ⟨h1, h2⟩ | ⟨a, b, r, r', rfl, rfl⟩
    · rcases short2 h1 with rfl | ⟨_, rfl⟩ <;> rcases short2 h2 with rfl | ⟨_, rfl⟩ <;> rfl
    · rfl
  | hooke p =>
    rcases take2 h with ⟨h1, h2⟩ | ⟨a, b, r, r', rfl, rfl⟩
    · rcases short2 h1 with rfl | ⟨_, rfl⟩ <;> rcases short2 h2 with rfl | ⟨_, rfl⟩ <;> rfl
    · rfl
  | spher p => simp only [prp, Prp.setVel, take3 h, Option.map_map]; rfl
  | float p => simp only [prp, Prp.setVel, take6 h, Option.map_map]; rfl
  | brfloat p => simp only [prp, Prp.setVel, take6 h, Option.map_map]; rfl

theorem commutes_acc : Commutes u (u.len * (u.rate * u.rate)) (u.rate * u.rate) Prp.setAcc Prp.setAcc := by
  intro p buf buf' h
  cases p with
  | fixed => rfl
  | revol p =>
    rcases take1 h with ⟨rfl, rfl⟩ | ⟨a, r, r', rfl, rfl⟩ <;> rfl
  | prism p =>
    rcases take1 h with ⟨rfl, rfl⟩ | ⟨a, r, r', rfl, rfl⟩ <;> rfl
  | cylin p =>
    rcases take2 h with ⟨h1, h2⟩ | ⟨a, b, r, r', rfl, rfl⟩
    · rcases short2 h1 with rfl | ⟨_, rfl⟩ <;> rcases short2 h2 with rfl | ⟨_, rfl⟩ <;> rfl
    · rfl
  | hooke p =>
    rcases take2 h with ⟨h1, h2⟩ | ⟨a, b, r, r', rfl, rfl⟩
    · rcases short2 h1 with rfl | ⟨_, rfl⟩ <;> rcases short2 h2 with rfl | ⟨_, rfl⟩ <;> rfl
    · rfl
  | spher p => simp only [prp, Prp.setAcc, take3 h, Option.map_map]; rfl
  | float p => simp only [prp, Prp.setAcc, take6 h, Option.map_map]; rfl
  | brfloat p => simp only [prp, Prp.setAcc, take6 h, Option.map_map]; rfl

theorem one_smul3 (v : Vec3 K) : (1 : K) • v = v := by vec_ring

theorem commutes_dis (hl : 0 < u.len) : Commutes u u.len 1 Prp.setDis Prp.setDis := by
  intro p buf buf' h
  cases p with
  | fixed => rfl
  | revol p =>
    rcases take1 h with ⟨rfl, rfl⟩ | ⟨a, r, r', rfl, rfl⟩
    · rfl
    · simp only [prp, Prp.setDis, one_mul, Option.map_some]
  | prism p =>
    rcases take1 h with ⟨rfl, rfl⟩ | ⟨a, r, r', rfl, rfl⟩
    · rfl
    · simp only [prp, Prp.setDis, limit_len hl, Option.map_some]
  | cylin p =>
    rcases take2 h with ⟨h1, h2⟩ | ⟨a, b, r, r', rfl, rfl⟩
    · rcases short2 h1 with rfl | ⟨_, rfl⟩ <;> rcases short2 h2 with rfl | ⟨_, rfl⟩ <;> rfl
    · simp only [prp, Prp.setDis, limit_len hl, one_mul, Option.map_some]
  | hooke p =>
    rcases take2 h with ⟨h1, h2⟩ | ⟨a, b, r, r', rfl, rfl⟩
    · rcases short2 h1 with rfl | ⟨_, rfl⟩ <;> rcases short2 h2 with rfl | ⟨_, rfl⟩ <;> rfl
    · simp only [prp, Prp.setDis, one_mul, Option.map_some]
  | spher p =>
    simp only [prp, Prp.setDis, take3 h, Option.map_map, Function.comp_def, one_smul3]
  | float p => simp only [prp, Prp.setDis, take6 h, Option.map_map, Function.comp_def, one_smul3, dis]
  | brfloat p => simp only [prp, Prp.setDis, take6 h, Option.map_map, Function.comp_def, one_smul3, dis]

theorem cntd (x dt : K) : x / (dt / u.rate) = u.rate * (x / dt) := by
  rw [div_div_eq_mul_div]; ring

theorem cntv (k dt : K) (x y : Vec3 K) : (dt / u.rate)⁻¹ • (k • x - k • y) = (k * u.rate) • (dt⁻¹ • (x - y)) := by
  rw [inv_div, div_eq_mul_inv]; vec_ring

theorem cntv' (dt : K) (x : Vec3 K) : (dt / u.rate)⁻¹ • x = u.rate • (dt⁻¹ • x) := by
  rw [inv_div, div_eq_mul_inv]; vec_ring

theorem cntw' (dt : K) (x y : Vec3 K) : (dt / u.rate)⁻¹ • (u.rate • x - u.rate • y) = (u.rate * u.rate) • (dt⁻¹ • (x - y)) := by
  rw [inv_div, div_eq_mul_inv]; vec_ring

theorem cnt6 (dt : K) (x y : Vec6 K) : (dt / u.rate)⁻¹ • (u.vel x - u.vel y) = u.acc (dt⁻¹ • (x - y)) := by
  rw [inv_div, div_eq_mul_inv]
  simp only [vel, acc]
  vec_ring

theorem commutes_cnt (hl : 0 < u.len) (dt : K) :
    Commutes u u.len 1 (fun p v => p.setDisCNT v dt) (fun p v => p.setDisCNT v (dt / u.rate)) := by
  intro p buf buf' h
  cases p with
  | fixed => rfl
  | revol p =>
    rcases take1 h with ⟨rfl, rfl⟩ | ⟨a, r, r', rfl, rfl⟩
    · rfl
    · simp only [prp, Prp.setDisCNT, limit_len hl, one_mul, Option.map_some, cntd, Option.some.injEq, Prp.revol.injEq, Dof1.mk.injEq,
        true_and, and_true]
      repeat' constructor
      all_goals ring
  | prism p =>
    rcases take1 h with ⟨rfl, rfl⟩ | ⟨a, r, r', rfl, rfl⟩
    · rfl
    · simp only [prp, Prp.setDisCNT, limit_len hl, one_mul, Option.map_some, cntd, Option.some.injEq, Prp.prism.injEq, Dof1.mk.injEq,
        true_and, and_true]
      repeat' constructor
      all_goals ring
  | cylin p =>
    rcases take2 h with ⟨h1, h2⟩ | ⟨a, b, r, r', rfl, rfl⟩
    · rcases short2 h1 with rfl | ⟨_, rfl⟩ <;> rcases short2 h2 with rfl | ⟨_, rfl⟩ <;> rfl
    · simp only [prp, Prp.setDisCNT, limit_len hl, one_mul, Option.map_some, cntd, Option.some.injEq, Prp.cylin.injEq, Dof2.mk.injEq,
        true_and, and_true]
      repeat' constructor
      all_goals ring
  | hooke p =>
    rcases take2 h with ⟨h1, h2⟩ | ⟨a, b, r, r', rfl, rfl⟩
    · rcases short2 h1 with rfl | ⟨_, rfl⟩ <;> rcases short2 h2 with rfl | ⟨_, rfl⟩ <;> rfl
    · simp only [prp, Prp.setDisCNT, limit_len hl, one_mul, Option.map_some, cntd, Option.some.injEq, Prp.hooke.injEq, Dof2.mk.injEq,
        true_and, and_true]
      repeat' constructor
      all_goals ring
  | spher p =>
    simp only [prp, Prp.setDisCNT, take3 h, Option.map_map, Function.comp_def, one_smul3]
    congr 1; funext v
    simp only [Prp.spher.injEq, SpherPrp.ext_iff, and_true, true_and]
    exact ⟨cntv' _ _, by rw [← cntw' (u := u) dt (dt⁻¹ • mat3Error (Zm.fromAA v) p.att) p.vel, cntv' (u := u) dt (mat3Error (Zm.fromAA v) p.att)]⟩
  | float p =>
    simp only [prp, Prp.setDisCNT, take6 h, Option.map_map, Function.comp_def, one_smul3]
    congr 1; funext v
    simp only [Prp.float.injEq, FloatPrp.ext_iff, and_true, true_and]
    refine ⟨rfl, ?_, ?_⟩
    · simp only [dis, vel]; rw [cntv, cntv']
    · rw [← cnt6]; congr 2; simp only [dis, vel]; rw [cntv, cntv']
  | brfloat p =>
    simp only [prp, Prp.setDisCNT, take6 h, Option.map_map, Function.comp_def, one_smul3]
    congr 1; funext v
    simp only [Prp.brfloat.injEq, FloatPrp.ext_iff, and_true, true_and]
    refine ⟨rfl, ?_, ?_⟩
    · simp only [dis, vel]; rw [cntv, cntv']
    · rw [← cnt6]; congr 2; simp only [dis, vel]; rw [cntv, cntv']

theorem setAt {s t : K} {f f' : Prp K → List K → Option (Prp K)} (hc : Commutes u s t f f')
    (ht : ∀ p buf p', f p buf = some p' → p'.typeStr = p.typeStr) {v w : List K} (l : Link K)
    (h : slice w l = List.zipWith (· * ·) (factors s t l.joint.prp) (slice v l)) :
    (u.link l).setAtOffset f' w = (l.setAtOffset f v).map u.link := by
  simp only [Link.setAtOffset]
  rw [show (u.link l).offset = l.offset from rfl]
  by_cases ho : 0 ≤ l.offset
  · rw [if_pos ho, if_pos ho]
    simp only [Link.setWith]
    rw [show (u.link l).joint.prp = u.prp l.joint.prp from rfl, hc _ _ _ h, Option.map_map, Option.map_map]
    cases e : f l.joint.prp (v.drop l.offset.toNat) with
    | none => rfl
    | some q => simp only [Option.map_some, Function.comp, link, abi_congr (ht _ _ _ e)]
  · rw [if_neg ho, if_neg ho]
    rfl

theorem setAll {s t : K} {f f' : Prp K → List K → Option (Prp K)} (hc : Commutes u s t f f')
    (ht : ∀ p buf p', f p buf = some p' → p'.typeStr = p.typeStr) {v w : List K} (ls : List (Link K))
    (h : ∀ l ∈ ls, slice w l = List.zipWith (· * ·) (factors s t l.joint.prp) (slice v l)) :
    setJointAll f' w (ls.map u.link) = (setJointAll f v ls).map (·.map u.link) := by
  induction ls with
  | nil => rfl
  | cons l ls ih =>
    simp only [List.map_cons, setJointAll]
    rw [setAt hc ht l (h l (by simp)), ih fun l hl => h l (by simp [hl])]
    cases l.setAtOffset f v with
    | none => rfl
    | some l' => cases setJointAll f v ls <;> rfl

theorem setWith_place {f : Prp K → List K → Option (Prp K)} (hf : ∀ p buf p', f p buf = some p' → p'.typeStr = p.typeStr)
    (l l' : Link K) (buf : List K) (h : l.setWith f buf = some l') : place l' = place l := by
  obtain ⟨p, hp, rfl⟩ := setWith_eq_some.1 h
  simp only [place, hf _ _ _ hp]

theorem type_dis (p : Prp K) (buf : List K) (p' : Prp K) (h : p.setDis buf = some p') : p'.typeStr = p.typeStr := by
  cases p <;> rcases buf with _ | ⟨a, _ | ⟨b, _ | ⟨c, _ | ⟨d, _ | ⟨e, _ | ⟨f, buf⟩⟩⟩⟩⟩⟩ <;>
    simp [Prp.setDis, Vec3.ofBuf, Vec6.ofBuf] at h <;> subst h <;> rfl

theorem type_vel (p : Prp K) (buf : List K) (p' : Prp K) (h : p.setVel buf = some p') : p'.typeStr = p.typeStr := by
  cases p <;> rcases buf with _ | ⟨a, _ | ⟨b, _ | ⟨c, _ | ⟨d, _ | ⟨e, _ | ⟨f, buf⟩⟩⟩⟩⟩⟩ <;>
    simp [Prp.setVel, Vec3.ofBuf, Vec6.ofBuf] at h <;> subst h <;> rfl

theorem type_acc (p : Prp K) (buf : List K) (p' : Prp K) (h : p.setAcc buf = some p') : p'.typeStr = p.typeStr := by
  cases p <;> rcases buf with _ | ⟨a, _ | ⟨b, _ | ⟨c, _ | ⟨d, _ | ⟨e, _ | ⟨f, buf⟩⟩⟩⟩⟩⟩ <;>
    simp [Prp.setAcc, Vec3.ofBuf, Vec6.ofBuf] at h <;> subst h <;> rfl

theorem type_cnt (dt : K) (p : Prp K) (buf : List K) (p' : Prp K) (h : p.setDisCNT buf dt = some p') : p'.typeStr = p.typeStr := by
  cases p <;> rcases buf with _ | ⟨a, _ | ⟨b, _ | ⟨c, _ | ⟨d, _ | ⟨e, _ | ⟨f, buf⟩⟩⟩⟩⟩⟩ <;>
    simp [Prp.setDisCNT, Vec3.ofBuf, Vec6.ofBuf] at h <;> subst h <;> rfl

theorem type_trq (p : Prp K) (w : Vec6 K) : (p.calcTrq w).typeStr = p.typeStr := by cases p <;> rfl

theorem modify (ls : List (Link K)) (i : ℕ) {f f' : Link K → Link K} (hf : ∀ l, f' (u.link l) = u.link (f l)) :
    (ls.map u.link).modify i f' = (ls.modify i f).map u.link := by
  apply List.ext_getElem?
  intro j
  simp only [List.getElem?_modify, List.getElem?_map]
  by_cases e : i = j
  · simp only [if_pos e]
    cases ls[j]? with
    | none => rfl
    | some l => exact congrArg some (hf _)
  · simp only [if_neg e]
    cases ls[j]? <;> rfl

theorem rate1_place (v a : Vec6 K) (l : Link K) : place (l.updateRate1 v a) = place l := by
  simp only [Link.updateRate1, Link.updateAcc1, Link.updateVel1, place]

end Spec.UnitSys
end Roki
