import Verif.Lemmas.ABIDyn
import Verif.Lemmas.VirtualWork3
import Verif.Lemmas.ABIPos
import Verif.Spec.Recip

/-! # Runs of forward dynamics that differ in the additional forces only -/

namespace Roki
set_option autoImplicit false
set_option linter.unusedSectionVars false
open Spec LinkArray
variable {K : Type*} [Field K]

/-- The four runs compared: without loads, with the first, with the second, with a combination of both. -/
inductive Run | o | a | b | d

/-- Trees of the same shape, one for each run, with related elements. -/
inductive Fam {α : Type*} (R : (Run → α) → Prop) : (Run → LTree α) → Prop
  | nil : Fam R fun _ => .nil
  | node {l : Run → α} {c s : Run → LTree α} : R l → Fam R c → Fam R s → Fam R fun k => .node (l k) (c k) (s k)

theorem fam_of_gather {R : (Run → Link K) → Prop} {t : LTree ℕ} {ls : Run → List (Link K)} {T : Run → LTree (Link K)}
    (h : ∀ k, Chain.gather (ls k) t = some (T k))
    (hR : ∀ (i : ℕ) (l : Run → Link K), i ∈ t.toList → (∀ k, (ls k)[i]? = some (l k)) → R l) : Fam R T := by
  induction t generalizing T with
  | nil =>
    have : T = fun _ => .nil := by
      funext k; have := h k; simp only [Chain.gather, Option.some.injEq] at this; exact this.symm
    rw [this]; exact .nil
  | node i c s ihc ihs =>
    have h' := fun k => Chain.gather_node.1 (h k)
    choose l c' s' h1 h2 h3 h4 using h'
    have : T = fun k => .node (l k) (c' k) (s' k) := funext h4
    rw [this]
    exact .node (hR i l (by simp [LTree.toList]) h1) (ihc h2 fun j m hj => hR j m (by simp [LTree.toList, hj]))
      (ihs h3 fun j m hj => hR j m (by simp [LTree.toList, hj]))

theorem gather_fam {R : (Run → Link K) → Prop} {t : LTree ℕ} {ls : Run → List (Link K)} {T : Run → LTree (Link K)}
    (h : ∀ k, Chain.gather (ls k) t = some (T k)) (hF : Fam R T) {i : ℕ} (hi : i ∈ t.toList) {l : Run → Link K}
    (hl : ∀ k, (ls k)[i]? = some (l k)) : R l := by
  induction t generalizing T with
  | nil => simp [LTree.toList] at hi
  | node j c s ihc ihs =>
    have h' := fun k => Chain.gather_node.1 (h k)
    choose m c' s' h1 h2 h3 h4 using h'
    have : T = fun k => .node (m k) (c' k) (s' k) := funext h4
    subst this
    generalize hT : (fun k => LTree.node (m k) (c' k) (s' k)) = T at hF
    cases hF with
    | nil => have := congrFun hT .o; simp at this
    | node r fc fs =>
      have e := fun k => congrFun hT k
      simp only [LTree.node.injEq] at e
      have e1 : m = _ := funext fun k => (e k).1
      have e2 : c' = _ := funext fun k => (e k).2.1
      have e3 : s' = _ := funext fun k => (e k).2.2
      subst e1 e2 e3
      simp only [LTree.toList, List.mem_cons, List.mem_append] at hi
      rcases hi with rfl | hi | hi
      · have : m = l := funext fun k => by have := (h1 k).symm.trans (hl k); simpa using this
        rw [← this]; exact r
      · exact ihc h2 fc hi
      · exact ihs h3 fs hi

theorem Fam.imp {α : Type*} {R Q : (Run → α) → Prop} {T : Run → LTree α} (h : Fam R T) (hq : ∀ l, R l → Q l) : Fam Q T := by
  induction h with
  | nil => exact .nil
  | node r _ _ ihc ihs => exact .node (hq _ r) ihc ihs

theorem Fam.and {α : Type*} {R Q : (Run → α) → Prop} {T : Run → LTree α} (h : Fam R T) (hq : Fam Q T) :
    Fam (fun l => R l ∧ Q l) T := by
  induction h with
  | nil => exact .nil
  | node r _ _ ihc ihs =>
    rename_i l c s _ _
    generalize hT : (fun k => LTree.node (l k) (c k) (s k)) = T at hq
    cases hq with
    | nil => have := congrFun hT .o; simp at this
    | node r' fc fs =>
      have e := fun k => congrFun hT k
      simp only [LTree.node.injEq] at e
      have e1 : l = _ := funext fun k => (e k).1
      have e2 : c = _ := funext fun k => (e k).2.1
      have e3 : s = _ := funext fun k => (e k).2.2
      subst e1 e2 e3
      exact .node ⟨r, r'⟩ (ihc fc) (ihs fs)

/-- The answers of the four runs, combined. -/
def Aff6 (x y : K) (v : Run → Vec6 K) : Prop := v .d = comb6 x y (v .o) (v .a) (v .b)

theorem aff6_const (x y : K) (v : Vec6 K) : Aff6 x y fun _ => v := by
  simp only [Aff6, comb6]; vec_ring

theorem Aff6.add {x y : K} {v w : Run → Vec6 K} (h : Aff6 x y v) (g : Aff6 x y w) : Aff6 x y fun k => v k + w k := by
  simp only [Aff6, comb6] at *; rw [h, g]; vec_ring

theorem Aff6.sub {x y : K} {v w : Run → Vec6 K} (h : Aff6 x y v) (g : Aff6 x y w) : Aff6 x y fun k => v k - w k := by
  simp only [Aff6, comb6] at *; rw [h, g]; vec_ring

theorem Aff6.mulVec {x y : K} {v : Run → Vec6 K} (h : Aff6 x y v) (m : Mat6 K) : Aff6 x y fun k => m.mulVec (v k) := by
  simp only [Aff6, comb6] at *; rw [h]; vec_ring

theorem Aff6.xformLin {x y : K} {v : Run → Vec6 K} (h : Aff6 x y v) (f : Frame K) :
    Aff6 x y fun k => f.att.mulVecT6 ((v k).linShift f.pos) := by
  simp only [Aff6, comb6] at *; rw [h]; vec_ring

theorem Aff6.xformAng {x y : K} {v : Run → Vec6 K} (h : Aff6 x y v) (f : Frame K) :
    Aff6 x y fun k => f.xform6Ang (v k) := by
  simp only [Aff6, comb6] at *; rw [h]; vec_ring

theorem Aff6.bias {x y : K} {v : Run → Vec6 K} (h : Aff6 x y v) (fx : Bool) (p : Prp K) (m : Mat6 K) (f : Frame K)
    (ih : ℕ → ℕ → K) : Aff6 x y fun k => p.abiBias fx m (v k) f ih := by
  cases p with
  | fixed => exact h.xformAng f
  | revol p =>
    refine Aff6.xformAng (v := fun k => v k - (p.u - (v k).ang.z) • (-ih 0 0) • m.colZA) ?_ f
    simp only [Aff6, comb6] at *; rw [h]; vec_ring
  | prism p =>
    refine Aff6.xformAng (v := fun k => v k - (p.u - (v k).lin.z) • m.colZ) ?_ f
    simp only [Aff6, comb6] at *; rw [h]; vec_ring
  | cylin p =>
    refine Aff6.xformAng (v := fun k => v k + ((p.u0 - (v k).lin.z) * ih 0 0 + (p.u1 - (v k).ang.z) * ih 0 1) • m.colZ +
      ((p.u0 - (v k).lin.z) * ih 1 0 + (p.u1 - (v k).ang.z) * ih 1 1) • m.colZA) ?_ f
    simp only [Aff6, comb6] at *; rw [h]; vec_ring
  | hooke p => exact aff6_const x y 0
  | spher p => exact aff6_const x y 0
  | float p => exact aff6_const x y 0
  | brfloat p =>
    cases fx with
    | true => exact h.xformAng f
    | false => exact aff6_const x y 0

/-- The joint state without what forward dynamics computes. -/
def Prp.core : Prp K → Prp K
  | .revol p => .revol { p with acc := 0, u := 0 }
  | .prism p => .prism { p with acc := 0, u := 0 }
  | .cylin p => .cylin { p with acc0 := 0, acc1 := 0, u0 := 0, u1 := 0 }
  | .float p => .float { p with acc := 0 }
  | .brfloat p => .brfloat { p with acc := 0 }
  | p => p

theorem Prp.core_qacc (fx : Bool) (p : Prp K) (m : Mat6 K) (b j : Vec6 K) (ih : ℕ → ℕ → K) (a : Vec6 K) :
    (p.abiQAcc fx m b j ih a).1.core = p.core := by
  cases p <;> cases fx <;> simp [Prp.abiQAcc, Prp.core]

theorem Prp.core_drive (p : Prp K) : p.abiDrivingTorque.core = p.core := by
  cases p <;> simp [Prp.abiDrivingTorque, Prp.core]

/-- **The acceleration of a link** and of its joint, combined. -/
theorem aff_qacc {x y : K} (fx : Bool) (p : Prp K) (m : Mat6 K) (ih : ℕ → ℕ → K) (a : Vec6 K) {b j : Run → Vec6 K}
    (hb : Aff6 x y b) (hj : Aff6 x y j) :
    Aff6 x y (fun k => (p.abiQAcc fx m (b k) (j k) ih a).2) ∧
      (p.abiQAcc fx m (b .d) (j .d) ih a).1.getAcc = List.zipWith3 (comb x y) (p.abiQAcc fx m (b .o) (j .o) ih a).1.getAcc
        (p.abiQAcc fx m (b .a) (j .a) ih a).1.getAcc (p.abiQAcc fx m (b .b) (j .b) ih a).1.getAcc := by
  have fl : Aff6 x y fun k => Prp.floatAcc ih (b k) := by
    have lin : ∀ u v w : Vec6 K, Prp.floatAcc ih (comb6 x y u v w) =
        comb6 x y (Prp.floatAcc ih u) (Prp.floatAcc ih v) (Prp.floatAcc ih w) := by
      intro u v w; simp only [Prp.floatAcc, Vec6.ofFn, comb6]; vec_ring
    simp only [Aff6] at *; rw [hb, lin]
  have flq : ∀ R : Mat3 K, (R.mulVec6 (Prp.floatAcc ih (b .d) - j .d)).toBuf = List.zipWith3 (comb x y)
      (R.mulVec6 (Prp.floatAcc ih (b .o) - j .o)).toBuf (R.mulVec6 (Prp.floatAcc ih (b .a) - j .a)).toBuf
      (R.mulVec6 (Prp.floatAcc ih (b .b) - j .b)).toBuf := by
    intro R
    have := fl.sub hj
    simp only [Aff6] at this
    rw [this]
    generalize Prp.floatAcc ih (b .o) - j .o = u
    generalize Prp.floatAcc ih (b .a) - j .a = v
    generalize Prp.floatAcc ih (b .b) - j .b = w
    simp only [Vec6.toBuf, Vec3.toBuf, List.cons_append, List.nil_append, List.zipWith3, comb, comb6, List.cons.injEq]
    vec_ring
  cases p with
  | fixed => exact ⟨hj, rfl⟩
  | revol p =>
    simp only [Prp.abiQAcc, Prp.getAcc, List.zipWith3, comb, Aff6] at *
    rw [hb, hj]
    refine ⟨?_, ?_⟩
    · simp only [comb6]; vec_ring
    · simp only [comb6, List.cons.injEq, and_true]; vec_ring
  | prism p =>
    simp only [Prp.abiQAcc, Prp.getAcc, List.zipWith3, comb, Aff6] at *
    rw [hb, hj]
    refine ⟨?_, ?_⟩
    · simp only [comb6]; vec_ring
    · simp only [comb6, List.cons.injEq, and_true]; vec_ring
  | cylin p =>
    simp only [Prp.abiQAcc, Prp.getAcc, List.zipWith3, comb, Aff6] at *
    rw [hb, hj]
    refine ⟨?_, ?_⟩
    · simp only [comb6]; vec_ring
    · simp only [comb6, List.cons.injEq, and_true]; vec_ring
  | hooke p =>
    refine ⟨aff6_const x y a, ?_⟩
    simp only [Prp.abiQAcc, Prp.getAcc, List.zipWith3, comb, sub_self, mul_zero, add_zero]
  | spher p =>
    refine ⟨aff6_const x y a, ?_⟩
    simp only [Prp.abiQAcc, Prp.getAcc, Vec3.toBuf, List.zipWith3, comb, sub_self, mul_zero, add_zero]
  | float p => exact ⟨fl, flq p.att⟩
  | brfloat p =>
    cases fx with
    | true =>
      refine ⟨hj, ?_⟩
      simp only [Prp.abiQAcc, Prp.getAcc, Vec6.toBuf, Vec3.toBuf, if_true, List.cons_append, List.nil_append, List.zipWith3, comb, sub_self, mul_zero, add_zero]
    | false => exact ⟨fl, flq p.att⟩

/-! ## The passes -/

/-- What the runs share before the forward pass. -/
def Link.base (l : Link K) := (l.joint.prp, l.adj, l.body, l.abi.m, l.abi.i, l.abi.c, l.abi.f, l.abi.axi, l.abi.iaxi)

/-- The runs share everything but loads and biases, and these combine. -/
structure Runs (x y : K) (l : Run → Link K) : Prop where
  base : ∀ k, (l k).base = (l .o).base
  bias : Aff6 x y fun k => (l k).abi.b
  load : Aff6 x y fun k => (l k).abi.w
  net : ∀ k, (l k).abi.w - (l .o).abi.w = (l k).abi.wlist.net - (l .o).abi.wlist.net

/-- Before the first pass. -/
structure Start (x y : K) (l : Run → Link K) : Prop where
  base : ∀ k, { l k with abi := { (l k).abi with wlist := [] } } = { l .o with abi := { (l .o).abi with wlist := [] } }
  load : Aff6 x y fun k => (l k).abi.wlist.net

theorem start_init {x y : K} {l : Run → Link K} (h : Start x y l) (v : Vec6 K) :
    Runs x y (fun k => (l k).abiUpdateInit v) ∧ ∀ k, ((l k).abiUpdateInit v).body.vel = ((l .o).abiUpdateInit v).body.vel := by
  have e : ∀ k, (l k).joint = (l .o).joint ∧ (l k).adj = (l .o).adj ∧ (l k).body = (l .o).body ∧ (l k).abi.m = (l .o).abi.m ∧
      (l k).abi.axi = (l .o).abi.axi ∧ (l k).abi.iaxi = (l .o).abi.iaxi := by
    intro k
    have := h.base k
    simp only [Link.mk.injEq, ABIPrp.mk.injEq] at this
    tauto
  refine ⟨⟨?_, ?_, ?_, ?_⟩, ?_⟩
  · intro k
    obtain ⟨e1, e2, e3, e4, e5, e6⟩ := e k
    simp only [Link.base, Link.abiUpdateInit, e1, e2, e3, e4, e5, e6]
  · have : (fun k => ((l k).abiUpdateInit v).abi.b) = fun _ => ((l .o).abiUpdateInit v).abi.b := by
      funext k
      obtain ⟨e1, e2, e3, e4, e5, e6⟩ := e k
      simp only [Link.abiUpdateInit, e3, e4]
    rw [this]; exact aff6_const _ _ _
  · have : (fun k => ((l k).abiUpdateInit v).abi.w) = fun k => (l k).abi.wlist.net + ((l .o).abiUpdateInit v).abi.w0 := by
      funext k
      obtain ⟨e1, e2, e3, e4, e5, e6⟩ := e k
      simp only [Link.abiUpdateInit, e3]
    rw [this]; exact h.load.add (aff6_const _ _ _)
  · intro k
    obtain ⟨e1, e2, e3, e4, e5, e6⟩ := e k
    simp only [Link.abiUpdateInit, e3]
    abel
  · intro k
    exact congrArg Body.vel (e k).2.2.1

theorem fam_init {x y : K} {T : Run → LTree (Link K)} (h : Fam (Start x y) T) (v : Vec6 K) :
    Fam (Runs x y) fun k => (T k).abiInit v := by
  induction h generalizing v with
  | nil => exact .nil
  | node r _ _ ihc ihs =>
    rename_i l c s _ _
    obtain ⟨r1, r2⟩ := start_init r v
    have : (fun k => (LTree.node (l k) (c k) (s k)).abiInit v) = fun k => .node ((l k).abiUpdateInit v)
        ((c k).abiInit ((l .o).abiUpdateInit v).body.vel) ((s k).abiInit v) := by
      funext k
      rw [← r2 k]; rfl
    rw [this]
    exact .node r1 (ihc _) (ihs v)

section
variable [Zm K]

theorem fam_back {x y : K} (fx : Bool) {T : Run → LTree (Link K)} (h : Fam (Runs x y) T) :
    Fam (Runs x y) (fun k => ((T k).abiBack fx).1) ∧ (∀ k, ((T k).abiBack fx).2.1 = ((T .o).abiBack fx).2.1) ∧
      Aff6 x y fun k => ((T k).abiBack fx).2.2 := by
  induction h with
  | nil => exact ⟨.nil, fun _ => rfl, aff6_const x y 0⟩
  | node r _ _ ihc ihs =>
    rename_i l c s _ _
    obtain ⟨fc, ic, bc⟩ := ihc
    obtain ⟨fs, is, bs⟩ := ihs
    have e : ∀ k, (l k).joint.prp = (l .o).joint.prp ∧ (l k).adj = (l .o).adj ∧ (l k).body = (l .o).body ∧
        (l k).abi.m = (l .o).abi.m ∧ (l k).abi.i = (l .o).abi.i ∧ (l k).abi.c = (l .o).abi.c ∧ (l k).abi.f = (l .o).abi.f ∧
        (l k).abi.axi = (l .o).abi.axi ∧ (l k).abi.iaxi = (l .o).abi.iaxi := by
      intro k
      have := r.base k
      simpa only [Link.base, Prod.mk.injEq] using this
    have rl : Runs x y fun k => ((l k).abiAdd ((c k).abiBack fx).2).abiBackward fx := by
      refine ⟨?_, ?_, r.load, r.net⟩
      · intro k
        obtain ⟨e1, e2, e3, e4, e5, e6, e7, e8, e9⟩ := e k
        simp only [Link.base, Link.abiBackward, Link.abiAdd, e1, e2, e3, e4, e5, e6, e7, e8, e9, ic k]
      · exact (r.bias.add bc).sub r.load
    refine ⟨.node rl fc fs, ?_, ?_⟩
    · intro k
      have e' := rl.base k
      simp only [Link.base, Prod.mk.injEq] at e'
      obtain ⟨e1, e2, e3, e4, e5, e6, e7, e8, e9⟩ := e'
      simp only [LTree.abiBack, Prod.fst_add, Link.abiToParentI, e1, e2, e5, e9, is k]
    · have e' : ∀ k, (((l k).abiAdd ((c k).abiBack fx).2).abiBackward fx).abiToParentB fx =
          (((l .o).abiAdd ((c .o).abiBack fx).2).abiBackward fx).joint.prp.abiBias fx
            (((l .o).abiAdd ((c .o).abiBack fx).2).abiBackward fx).abi.i
            ((((l .o).abiAdd ((c .o).abiBack fx).2).abiBackward fx).abi.i.mulVec
              (((l .o).abiAdd ((c .o).abiBack fx).2).abiBackward fx).abi.c +
              (((l k).abiAdd ((c k).abiBack fx).2).abiBackward fx).abi.b)
            (((l .o).abiAdd ((c .o).abiBack fx).2).abiBackward fx).adj
            (((l .o).abiAdd ((c .o).abiBack fx).2).abiBackward fx).abi.iaxi := by
        intro k
        have e' := rl.base k
        simp only [Link.base, Prod.mk.injEq] at e'
        obtain ⟨e1, e2, e3, e4, e5, e6, e7, e8, e9⟩ := e'
        simp only [Link.abiToParentB, e1, e2, e5, e6, e9]
      have : (fun k => ((LTree.node (l k) (c k) (s k)).abiBack fx).2.2) = fun k => ((s k).abiBack fx).2.2 +
          (((l k).abiAdd ((c k).abiBack fx).2).abiBackward fx).abiToParentB fx := rfl
      rw [this]
      refine bs.add ?_
      simp only [e']
      exact Aff6.bias ((aff6_const _ _ _).add rl.bias) _ _ _ _ _
end

/-- What the runs share after the forward pass. -/
def Link.frozen (l : Link K) := (l.joint.prp.core, l.adj, l.body.vel, l.body.mp, l.abi.m, l.abi.c, l.abi.f, l.abi.axi)

/-- After the forward pass: accelerations combine. -/
structure Done (wr : Bool) (x y : K) (l : Run → Link K) : Prop where
  frozen : ∀ k, (l k).frozen = (l .o).frozen
  load : Aff6 x y fun k => (l k).abi.w
  net : ∀ k, (l k).abi.w - (l .o).abi.w = (l k).abi.wlist.net - (l .o).abi.wlist.net
  acc : Aff6 x y fun k => (l k).body.acc
  jacc : (l .d).joint.prp.getAcc = List.zipWith3 (comb x y) (l .o).joint.prp.getAcc (l .a).joint.prp.getAcc
    (l .b).joint.prp.getAcc
  wrench : wr = true → Aff6 x y fun k => (l k).joint.wrench

theorem runs_step {x y : K} (fx wr : Bool) {l : Run → Link K} (h : Runs x y l) {pa : Run → Vec6 K} (hp : Aff6 x y pa) :
    Done wr x y fun k => LTree.abiStep fx wr (pa k) (l k) := by
  have e : ∀ k, (l k).joint.prp = (l .o).joint.prp ∧ (l k).adj = (l .o).adj ∧ (l k).body = (l .o).body ∧
      (l k).abi.m = (l .o).abi.m ∧ (l k).abi.i = (l .o).abi.i ∧ (l k).abi.c = (l .o).abi.c ∧ (l k).abi.f = (l .o).abi.f ∧
      (l k).abi.axi = (l .o).abi.axi ∧ (l k).abi.iaxi = (l .o).abi.iaxi := by
    intro k
    have := h.base k
    simpa only [Link.base, Prod.mk.injEq] using this
  have hj : Aff6 x y fun k => (l .o).adj.att.mulVecT6 ((pa k).linShift (l .o).adj.pos) + (l .o).abi.c :=
    (hp.xformLin _).add (aff6_const _ _ _)
  obtain ⟨q1, q2⟩ := aff_qacc fx (l .o).joint.prp (l .o).abi.i (l .o).abi.iaxi (l .o).body.acc h.bias hj
  have b1 : ∀ k, (LTree.abiStep fx wr (pa k) (l k)).body.acc = ((l .o).joint.prp.abiQAcc fx (l .o).abi.i (l k).abi.b
      ((l .o).adj.att.mulVecT6 ((pa k).linShift (l .o).adj.pos) + (l .o).abi.c) (l .o).abi.iaxi (l .o).body.acc).2 := by
    intro k
    obtain ⟨e1, e2, e3, e4, e5, e6, e7, e8, e9⟩ := e k
    cases wr <;> simp only [LTree.abiStep, if_true, Bool.false_eq_true, if_false, Link.abiWrench, Link.abiForward, e1, e2, e3, e5, e6, e9]
  have b2 : ∀ k, (LTree.abiStep fx wr (pa k) (l k)).joint.prp = ((l .o).joint.prp.abiQAcc fx (l .o).abi.i (l k).abi.b
      ((l .o).adj.att.mulVecT6 ((pa k).linShift (l .o).adj.pos) + (l .o).abi.c) (l .o).abi.iaxi (l .o).body.acc).1 := by
    intro k
    obtain ⟨e1, e2, e3, e4, e5, e6, e7, e8, e9⟩ := e k
    cases wr <;> simp only [LTree.abiStep, if_true, Bool.false_eq_true, if_false, Link.abiWrench, Link.abiForward, e1, e2, e3, e5, e6, e9]
  have b3 : ∀ k, (LTree.abiStep fx wr (pa k) (l k)).abi = (l k).abi ∧ (LTree.abiStep fx wr (pa k) (l k)).adj = (l k).adj ∧
      (LTree.abiStep fx wr (pa k) (l k)).body.vel = (l k).body.vel ∧ (LTree.abiStep fx wr (pa k) (l k)).body.mp = (l k).body.mp := by
    intro k; cases wr <;> exact ⟨rfl, rfl, rfl, rfl⟩
  refine ⟨?_, ?_, ?_, ?_, ?_, ?_⟩
  · intro k
    obtain ⟨e1, e2, e3, e4, e5, e6, e7, e8, e9⟩ := e k
    simp only [Link.frozen, b2, Prp.core_qacc, (b3 _).1, (b3 _).2.1, (b3 _).2.2.1, (b3 _).2.2.2, e2, e3, e4, e6, e7, e8]
  · simp only [(b3 _).1]; exact h.load
  · intro k; simp only [(b3 _).1]; exact h.net k
  · simp only [b1]; exact q1
  · simp only [b2]; exact q2
  · rintro rfl
    have : ∀ k, (LTree.abiStep fx true (pa k) (l k)).joint.wrench =
        (l .o).abi.i.mulVec (LTree.abiStep fx true (pa k) (l k)).body.acc + (l k).abi.b := by
      intro k; rw [← (e k).2.2.2.2.1]; rfl
    simp only [this, b1]
    exact (q1.mulVec _).add h.bias

theorem fam_fwd {x y : K} (fx wr : Bool) {T : Run → LTree (Link K)} (h : Fam (Runs x y) T) {pa : Run → Vec6 K}
    (hp : Aff6 x y pa) : Fam (Done wr x y) fun k => (T k).abiFwd fx wr (pa k) := by
  induction h generalizing pa with
  | nil => exact .nil
  | node r _ _ ihc ihs =>
    have hd := runs_step fx wr r hp
    exact .node hd (ihc hd.acc) (ihs hp)

end Roki
