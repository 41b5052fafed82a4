import Verif.Props.Jacobi
import Verif.Spec.VirtualWork

/-! # Virtual work: lemmas -/

namespace Roki
set_option autoImplicit false
set_option linter.unusedSectionVars false
open Spec LinkArray
variable {K : Type*} [Field K]

/-- A joint with its rates, torques and driving torques erased. -/
def Prp.still : Prp K → Prp K
  | .fixed => .fixed
  | .revol p => .revol { p with vel := 0, acc := 0, trq := 0, u := 0 }
  | .prism p => .prism { p with vel := 0, acc := 0, trq := 0, u := 0 }
  | .cylin p => .cylin { p with vel0 := 0, acc0 := 0, trq0 := 0, vel1 := 0, acc1 := 0, trq1 := 0, u0 := 0, u1 := 0 }
  | .hooke p => .hooke { p with vel0 := 0, acc0 := 0, trq0 := 0, vel1 := 0, acc1 := 0, trq1 := 0 }
  | .spher p => .spher { p with vel := 0, acc := 0, trq := 0 }
  | .float p => .float { p with vel := 0, acc := 0, trq := 0 }
  | .brfloat p => .brfloat { p with vel := 0, acc := 0, trq := 0 }

theorem still_setVel {p p' : Prp K} {v : List K} (h : p.setVel v = some p') : p'.still = p.still := by
  cases p <;> simp only [Prp.setVel] at h
  case fixed => simp at h; rw [← h]
  case spher => rw [Option.map_eq_some_iff] at h; obtain ⟨_, -, rfl⟩ := h; rfl
  case float => rw [Option.map_eq_some_iff] at h; obtain ⟨_, -, rfl⟩ := h; rfl
  case brfloat => rw [Option.map_eq_some_iff] at h; obtain ⟨_, -, rfl⟩ := h; rfl
  all_goals
    split at h
    · simp only [Option.some.injEq] at h; rw [← h]; rfl
    · simp at h

theorem still_setAcc {p p' : Prp K} {v : List K} (h : p.setAcc v = some p') : p'.still = p.still := by
  cases p <;> simp only [Prp.setAcc] at h
  case fixed => simp at h; rw [← h]
  case spher => rw [Option.map_eq_some_iff] at h; obtain ⟨_, -, rfl⟩ := h; rfl
  case float => rw [Option.map_eq_some_iff] at h; obtain ⟨_, -, rfl⟩ := h; rfl
  case brfloat => rw [Option.map_eq_some_iff] at h; obtain ⟨_, -, rfl⟩ := h; rfl
  all_goals
    split at h
    · simp only [Option.some.injEq] at h; rw [← h]; rfl
    · simp at h

theorem still_calcTrq (p : Prp K) (f : Vec6 K) : (p.calcTrq f).still = p.still := by
  cases p <;> rfl

theorem size_still (p : Prp K) : p.still.size = p.size := by cases p <;> rfl

/-- What `rkChainID` leaves unchanged and inverse dynamics depends on. -/
def statics (l : Link K) : ℤ × Prp K × Frame K × Frame K × MP K :=
  (l.offset, l.joint.prp.still, l.adj, l.body.frame, l.body.mp)

theorem statics_iff {l m : Link K} : statics l = statics m ↔ l.offset = m.offset ∧
    l.joint.prp.still = m.joint.prp.still ∧ l.adj = m.adj ∧ l.body.frame = m.body.frame ∧
    l.body.mp = m.body.mp := by
  simp [statics]

theorem vec3_toBuf_inj {a b : Vec3 K} (h : a.toBuf = b.toBuf) : a = b := by
  simp only [Vec3.toBuf, List.cons.injEq, and_true] at h
  exact Vec3.ext h.1 h.2.1 h.2.2

theorem vec6_toBuf_inj {a b : Vec6 K} (h : a.toBuf = b.toBuf) : a = b := by
  simp only [Vec6.toBuf, Vec3.toBuf, List.cons_append, List.nil_append, List.cons.injEq, and_true] at h
  exact Vec6.ext (Vec3.ext h.1 h.2.1 h.2.2.1) (Vec3.ext h.2.2.2.1 h.2.2.2.2.1 h.2.2.2.2.2)

/-- The duality of torque projection and velocity map, for two states of one joint. -/
theorem jointWork_eq {p q : Prp K} (h : p.still = q.still) (f v : Vec6 K) :
    work (p.calcTrq f).getTrq q.getVel = f.dot6 (q.incVel v - v) := by
  rw [← jointPower_eq, work]
  congr 2
  cases p <;> cases q <;> simp only [Prp.still, Prp.revol.injEq, Prp.prism.injEq, Prp.cylin.injEq,
    Prp.hooke.injEq, Prp.spher.injEq, Prp.float.injEq, Prp.brfloat.injEq, reduceCtorEq] at h <;>
    simp_all [Prp.calcTrq, Prp.getTrq]

/-- Work of a link on a virtual motion in the coordinates of the link. -/
def localWork (l m : Link K) : K :=
  (l.body.netWrench.angShift l.body.mp.com - l.body.calcExtWrench).dot6 m.body.vel

/-- Work of the joint torques. -/
def jointWork (l m : Link K) : K := work l.joint.prp.getTrq m.joint.prp.getVel

theorem LTree.toList_length_of_map {α : Type*} {k : Link K → α} {T U : LTree (Link K)}
    (h : T.map k = U.map k) : T.toList.length = U.toList.length := by
  have := congrArg (fun t => t.toList.length) h
  simpa [LTree.toList_map] using this

theorem LTree.updateWrench_length (T : LTree (Link K)) :
    T.updateWrench.toList.length = T.toList.length := by
  exact LTree.toList_length_of_map (LTree.updateWrench_body T)

/-- **Virtual work of a subtree.** -/
theorem virtual_work_tree (T U : LTree (Link K)) (pv : Vec6 K) (hs : T.map statics = U.map statics)
    (hV : U.VelOK pv) :
    (List.zipWith jointWork T.updateWrench.toList U.toList).sum =
      (List.zipWith localWork T.toList U.toList).sum -
        (T.updateWrench.addChildWrench 0).dot6 pv := by
  induction T generalizing U pv with
  | nil =>
    simp only [LTree.updateWrench, LTree.addChildWrench, LTree.toList, List.zipWith_nil_left,
      List.sum_nil]
    vec_ring
  | node l c s ihc ihs =>
    rcases U with _ | ⟨m, c', s'⟩
    · simp [LTree.map] at hs
    simp only [LTree.map, LTree.node.injEq] at hs
    obtain ⟨h1, h2, h3⟩ := hs
    obtain ⟨-, hst, hadj, -, -⟩ := statics_iff.1 h1
    have e1 := ihc c' m.body.vel h2 hV.2.1
    have e2 := ihs s' pv h3 hV.2.2
    simp only [LTree.updateWrench, LTree.addChildWrench, LTree.toList, List.zipWith_cons_cons,
      List.sum_cons]
    rw [List.zipWith_append (by rw [LTree.updateWrench_length, LTree.toList_length_of_map h2]),
      List.zipWith_append (by rw [LTree.toList_length_of_map h2]), List.sum_append, List.sum_append,
      e1, e2, LTree.addChildWrench_eq]
    have hj : ∀ w : Vec6 K, jointWork { l with joint := ⟨l.joint.prp.calcTrq w, w⟩ } m =
        w.dot6 (m.body.vel - l.adj.xform6Lin pv) := by
      intro w
      rw [hV.1, hadj]
      exact jointWork_eq hst w _
    rw [hj]
    have h2 : ∀ w : Vec6 K, (l.adj.xform6Ang w).dot6 pv = w.dot6 (l.adj.xform6Lin pv) := by
      intro w
      rw [Vec6.dot6_comm, ← Frame.dot6_xform6Lin, Vec6.dot6_comm]
    have e3 : ∀ w : Vec6 K, (s.updateWrench.addChildWrench (0 + w)).dot6 pv =
        w.dot6 pv + (s.updateWrench.addChildWrench 0).dot6 pv := by
      intro w
      rw [zero_add, LTree.addChildWrench_eq, Vec6.dot6_add_left]
    rw [e3, h2]
    have hd : ∀ a b c d v : Vec6 K, (a + b - c).dot6 (d - v) =
        (a - c).dot6 d + b.dot6 d - (a + b - c).dot6 v := by
      intro a b c d v
      simp only [Vec6.dot6, dot]
      simp
      ring
    rw [hd, localWork]
    ring

end Roki
