import Verif.Spec.Lock
import Verif.Props.Machine
import Verif.Lemmas.VirtualWork3
set_option autoImplicit false

/-!
# Joints at rest and fixed joints

C129: a joint that neither moves nor accelerates may be replaced by a fixed joint.
-/

namespace Roki
set_option linter.unusedSectionVars false
open Spec LinkArray Machine
variable {K : Type*} [Field K]

/-! ## Helpers -/

theorem atRest_inc {p : Prp K} (h : AtRest p) (v w : Vec6 K) (u : Vec3 K) : p.incVel v = v ∧ p.incAccOnVel u w = w ∧ p.incAcc w = w := by
  obtain ⟨h1, h2⟩ := h
  cases p <;> simp only [Prp.getVel, Prp.getAcc, Vec3.toBuf, Vec6.toBuf, List.mem_cons, List.not_mem_nil, or_false, forall_eq_or_imp, forall_eq,
    List.cons_append, List.nil_append, List.append_eq, List.mem_append, false_imp_iff, implies_true] at h1 h2
  · exact ⟨rfl, rfl, rfl⟩
  all_goals simp only [Prp.incVel, Prp.incAccOnVel, Prp.incAcc, cat]
  all_goals vec_unfold
  all_goals simp [*]

theorem linkFrame_lock (l : Link K) : linkFrame (lock l) = linkFrame l := by
  show (linkFrame l).cascade Frame.ident = _
  exact Frame.cascade_ident _

/-- A link, and the link that replaces it. -/
def Lk (l m : Link K) : Prop := m = l ∨ (AtRest l.joint.prp ∧ m = lock l)

/-- The same results, except for the joint of a link whose joint is fixed. -/
structure LkRes (l m : Link K) : Prop where
  body : m.body = l.body
  adj : m.adj = l.adj
  wrench : m.joint.wrench = l.joint.wrench
  prp : m.joint.prp = l.joint.prp ∨ m.joint.prp = .fixed

theorem done_stuff (l : Link K) (c s : LTree (Link K)) (X : Frame K) (v a : Vec6 K) {z : Link K} {c' s' : LTree (Link K)}
    (h : run X v a (.node l c s) = .node z c' s') : z.body.stuff = l.body.stuff := by
  unfold run at h
  simp only [LTree.updateFrame, LTree.updateRate, LTree.updateWrench, LTree.node.injEq] at h
  rw [← h.1]
  rfl

theorem run_lock {T U : LTree (Link K)} (h : T.All3 (fun l _ m => Lk l m) T U) (X : Frame K) (v a : Vec6 K) :
    (run X v a T).All3 (fun l _ m => LkRes l m) (run X v a T) (run X v a U) ∧ (run X v a T).addChildWrench 0 = (run X v a U).addChildWrench 0 := by
  induction T generalizing U X v a with
  | nil => cases U with
    | nil => exact ⟨trivial, rfl⟩
    | node _ _ _ => exact h.elim
  | node l c s ihc ihs => cases U with
    | nil => exact h.elim
    | node m d t =>
      obtain ⟨h0, hc, hs⟩ := h
      have eF : linkFrame m = linkFrame l := by
        rcases h0 with rfl | ⟨_, rfl⟩
        · rfl
        · exact linkFrame_lock l
      have eV : V m v = V l v := by
        rcases h0 with rfl | ⟨r, rfl⟩
        · rfl
        · rw [V, eF, V, (atRest_inc r _ 0 0).1]; rfl
      have eA : A m v a = A l v a := by
        rcases h0 with rfl | ⟨r, rfl⟩
        · rfl
        · rw [A, A, eF, (atRest_inc r 0 _ 0).2.2, (atRest_inc r 0 _ _).2.1]; rfl
      have eL : loadOf m = loadOf l := by rcases h0 with rfl | ⟨_, rfl⟩ <;> rfl
      obtain ⟨z, ez, dz⟩ := run_node l c s X v a
      obtain ⟨y, ey, dy⟩ := run_node m d t X v a
      rw [eF, eV, eA] at ey dy
      obtain ⟨c1, c2⟩ := ihc hc (X.cascade (linkFrame l)) (V l v) (A l v a)
      obtain ⟨s1, s2⟩ := ihs hs X v a
      have hw : y.joint.wrench = z.joint.wrench := by rw [dy.wrench, dz.wrench, eL, eV, eA, c2]
      have kz : Kept z := run_kept (.node l c s) X v a z (by rw [ez]; simp [LTree.toList])
      have ky : Kept y := run_kept (.node m d t) X v a y (by rw [ey]; simp [LTree.toList])
      have lzy : loadOf y = loadOf z := by rw [dy.load, dz.load, eL]
      have hm : y.body.mp = z.body.mp := congrArg Prod.fst lzy
      have hx : y.body.extw = z.body.extw := congrArg Prod.snd lzy
      have hf : y.body.frame = z.body.frame := by rw [dy.frame, dz.frame, eF]
      have hv : y.body.vel = z.body.vel := by rw [dy.vel, dz.vel, eV]
      have ha : y.body.acc = z.body.acc := by rw [dy.acc, dz.acc, eA]
      have hadj : y.adj = z.adj := by rw [dy.adj, dz.adj, eF]
      have hst : y.body.stuff = z.body.stuff := by
        rw [done_stuff m d t X v a ey, done_stuff l c s X v a ez]
        rcases h0 with rfl | ⟨_, rfl⟩ <;> rfl
      have hr : LkRes z y := by
        refine ⟨?_, hadj, hw, ?_⟩
        · ext1
          · exact hm
          · exact hf
          · exact hv
          · exact ha
          · rw [kz.com, ky.com, hf, hm]
          · rw [kz.vel, ky.vel, lzy, hv]
          · rw [kz.acc, ky.acc, lzy, hv, ha]
          · exact hx
          · exact hst
        · rcases h0 with rfl | ⟨_, rfl⟩
          · left; rw [dy.prp, dz.prp, hw]
          · right; rw [dy.prp]; rfl
      rw [ez, ey]
      refine ⟨⟨hr, c1, s1⟩, ?_⟩
      simp only [LTree.addChildWrench]
      rw [LTree.addChildWrench_eq, s2, hadj, hw]
      conv_rhs => rw [LTree.addChildWrench_eq]

theorem lockJoints_get (S : List ℕ) (c : Chain K) (i : ℕ) : (lockJoints S c).link[i]? = (c.link[i]?).map fun l => if i ∈ S then lock l else l := by
  simp [lockJoints]

/-- Forward kinematics and inverse dynamics: the tree of links, and what the chain stores. -/
theorem run_stored {c : Chain K} (hc : c.WF) (g : Vec6 K) :
    ∃ T c1 c2, Chain.gather c.link c.shape = some T ∧ c.updateFK = some c1 ∧ c1.updateID g = some c2 ∧
      Chain.gather c2.link c2.shape = some (run Frame.ident 0 g T) ∧ c2.shape = c.shape ∧ c2.WF ∧ c2.link.length = c.link.length ∧ c2.mass = c.mass ∧
      c1.wldCOM = c2.wldCOM ∧ c2.wldCOM = LinkArray.calcCOM c2.mass c2.link ∧ c2.comVel = LinkArray.calcCOMVel c2.mass c2.link ∧
      c2.comAcc = LinkArray.calcCOMAcc c2.mass c2.link := by
  obtain ⟨c1, e1, -⟩ := C06_fk_composition c hc
  obtain ⟨T, t1, t1', w1, s1, n1, m1⟩ := hc.updateFK e1
  obtain ⟨c2, e2⟩ := updateID_total w1 g
  obtain ⟨T2, t2, t2', w2, s2, n2, m2⟩ := w1.updateID e2
  rw [t1', Option.some.injEq] at t2
  subst t2
  obtain ⟨i1, i2, i3⟩ := ZTK.updateID_map (fun l : Link K => (l.body.mp, l.body.wldCOM)) (fun _ _ _ => rfl) (fun _ _ => rfl) (fun _ _ => rfl) e2
  refine ⟨T, c1, c2, t1, e1, e2, t2', s2.trans s1, w2, n2.trans n1, m2.trans m1, i3.symm, ?_, ?_, ?_⟩
  · have e : c1.wldCOM = LinkArray.calcCOM c1.mass c1.link := by
      simp only [Chain.updateFK, Option.map_eq_some_iff] at e1
      obtain ⟨x, -, rfl⟩ := e1
      rfl
    rw [i3, e, i2]
    simp only [LinkArray.calcCOM]
    congr 1
    have fold : ∀ (ls : List (Link K)) (p : Vec3 K), ls.foldl (fun p l => cat p l.body.mp.mass l.body.wldCOM) p =
        (ls.map fun l => (l.body.mp, l.body.wldCOM)).foldl (fun p x => cat p x.1.mass x.2) p := by
      intro ls p; rw [List.foldl_map]
    rw [fold, fold, i1]
  all_goals
    simp only [Chain.updateID, bind, Option.bind_eq_some_iff, pure, Option.some.injEq] at e2
    obtain ⟨x, -, y, -, rfl⟩ := e2
    rfl

/-- What is computed from the bodies alone. -/
theorem of_bodies {L M : List (Link K)} (h : L.map Link.body = M.map Link.body) (m : K) :
    LinkArray.calcCOM m L = LinkArray.calcCOM m M ∧ LinkArray.calcCOMVel m L = LinkArray.calcCOMVel m M ∧
    LinkArray.calcCOMAcc m L = LinkArray.calcCOMAcc m M ∧ LinkArray.ke L = LinkArray.ke M ∧ ∀ p, LinkArray.am L p = LinkArray.am M p := by
  have fold : ∀ {β : Type _} (f : β → Body K → β) (b : β), L.foldl (fun x l => f x l.body) b = M.foldl (fun x l => f x l.body) b := by
    intro β f b
    have := congrArg (List.foldl f b) h
    rwa [List.foldl_map, List.foldl_map] at this
  refine ⟨?_, ?_, ?_, ?_, fun p => ?_⟩
  · exact congrArg (fun x => m⁻¹ • x) (fold (fun p b => cat p b.mp.mass b.wldCOM) 0)
  · exact fold (fun p b => cat p (b.mp.mass / m) (b.frame.att.mulVec b.comVel)) 0
  · exact fold (fun p b => cat p (b.mp.mass / m) (b.frame.att.mulVec b.comAcc)) 0
  · exact fold (fun p b => p + b.ke) 0
  · exact fold (fun q b => q + b.frame.att.mulVec (b.am (b.frame.xformInv p))) 0

theorem fixed_kept {c c1 c2 : Chain K} {g : Vec6 K} (e1 : c.updateFK = some c1) (e2 : c1.updateID g = some c2) {i : ℕ} {l z : Link K}
    (hl : c.link[i]? = some l) (hz : c2.link[i]? = some z) : z.joint.prp = .fixed ↔ l.joint.prp = .fixed := by
  have f := (ZTK.updateFK_map (fun l : Link K => l.joint.prp = .fixed) (fun _ _ => rfl) e1).1
  have k := (ZTK.updateID_map (fun l : Link K => l.joint.prp = .fixed) (fun _ _ _ => rfl) (fun _ _ => rfl)
    (fun l w => by cases h : l.joint.prp <;> simp [Prp.calcTrq]) e2).1
  have := congrArg (fun x => x[i]?) (k.trans f)
  simp only [List.getElem?_map, hl, hz, Option.map_some, Option.some.injEq] at this
  exact this.to_iff

/-! ## C129 -/

/-- **C129** Let some joints of a chain neither move nor accelerate, and let them be replaced by fixed joints that hold their links where they are.  Then forward
kinematics and inverse dynamics complete on the chain before and after the replacement, and they leave the same results: every link has the same body (place,
velocity, acceleration, center of mass) and the same wrench on its joint, the joints that were not replaced are the same and have the same
torques, and the chain has the same center of mass, the same velocity and acceleration of it, the same kinetic energy and the same angular
momentum about every point. -/
theorem C129_lock (c : Chain K) (hc : c.WF) (S : List ℕ) (hS : ∀ i ∈ S, ∀ l, c.link[i]? = some l → AtRest l.joint.prp) (g : Vec6 K) :
    ∃ c1 c2 d1 d2, c.updateFK = some c1 ∧ c1.updateID g = some c2 ∧ (lockJoints S c).updateFK = some d1 ∧ d1.updateID g = some d2 ∧
      (∀ (i : ℕ) (l m : Link K), c2.link[i]? = some l → d2.link[i]? = some m →
        m.body = l.body ∧ m.joint.wrench = l.joint.wrench ∧ (i ∉ S → m.joint = l.joint)) ∧
      d2.link.length = c2.link.length ∧ c1.wldCOM = d1.wldCOM ∧ c2.wldCOM = d2.wldCOM ∧ c2.comVel = d2.comVel ∧ c2.comAcc = d2.comAcc ∧
      LinkArray.ke c2.link = LinkArray.ke d2.link ∧ ∀ p, LinkArray.am c2.link p = LinkArray.am d2.link p := by
  have hd : (lockJoints S c).WF := hc.with_link (by simp)
  obtain ⟨T, c1, c2, gT, a1, a2, a3, as, aw, an, am, aq, ar, av, aa⟩ := run_stored hc g
  obtain ⟨U, d1, d2, gU, b1, b2, b3, bs, bw, bn, bm, bq, br, bv, ba⟩ := run_stored hd g
  have hrel : T.All3 (fun l _ m => Lk l m) T U := by
    refine all3_of_gather gT gT (t := c.shape) gU ?_
    intro i l _ m hl _ hm
    rw [lockJoints_get, hl] at hm
    simp only [Option.map_some, Option.some.injEq] at hm
    subst hm
    by_cases hi : i ∈ S
    · rw [if_pos hi]; exact .inr ⟨hS i hi l hl, rfl⟩
    · rw [if_neg hi]; exact .inl rfl
  obtain ⟨hres, -⟩ := run_lock hrel Frame.ident 0 g
  have bs' : d2.shape = c2.shape := bs.trans as.symm
  rw [bs'] at b3
  have hlen : d2.link.length = c2.link.length := by rw [bn, an]; simp [lockJoints]
  have key : ∀ (i : ℕ) (l m : Link K), c2.link[i]? = some l → d2.link[i]? = some m → LkRes l m := by
    intro i l m hl hm
    have hi : i ∈ c2.shape.toList := by
      rw [aw.perm.mem_iff, List.mem_range]
      exact (List.getElem?_eq_some_iff.1 hl).1
    exact gather_all3 a3 a3 b3 hres hi hl hl hm
  have hb : c2.link.map Link.body = d2.link.map Link.body := by
    apply List.ext_getElem (by simp [hlen])
    intro i h1 h2
    simp only [List.getElem_map]
    simp only [List.length_map] at h1 h2
    exact (key i _ _ (List.getElem?_eq_getElem h1) (List.getElem?_eq_getElem h2)).body.symm
  have hm : d2.mass = c2.mass := by rw [bm, am]; rfl
  obtain ⟨o1, o2, o3, o4, o5⟩ := of_bodies hb c2.mass
  have hcom : c2.wldCOM = d2.wldCOM := by rw [ar, br, hm, o1]
  refine ⟨c1, c2, d1, d2, a1, a2, b1, b2, ?_, hlen, by rw [aq, bq, hcom], hcom, by rw [av, bv, hm, o2], by rw [aa, ba, hm, o3], o4, o5⟩
  intro i l m hl hm
  obtain ⟨k1, -, k3, k4⟩ := key i l m hl hm
  refine ⟨k1, k3, fun hi => ?_⟩
  have hp : m.joint.prp = l.joint.prp := by
    rcases k4 with k4 | k4
    · exact k4
    obtain ⟨l0, hl0⟩ : ∃ l0, c.link[i]? = some l0 :=
      ⟨_, List.getElem?_eq_getElem (by rw [← an]; exact (List.getElem?_eq_some_iff.1 hl).1)⟩
    have hm0 : (lockJoints S c).link[i]? = some l0 := by rw [lockJoints_get, hl0]; simp [hi]
    rw [k4, eq_comm, fixed_kept a1 a2 hl0 hl, ← fixed_kept b1 b2 hm0 hm, k4]
  cases hlj : l.joint; cases hmj : m.joint
  simp_all

/-! ## A concrete case

An arm held at rest on a displaced cylindrical joint, with a moving wrist on a universal joint. -/

namespace LockSample
open MachineSample

def still : Dof2 ℚ := { cyl with vel0 := 0, vel1 := 0, acc0 := 0, acc1 := 0 }
def held : Link ℚ := Sample.link "arm" (.cylin still) Sample.mp1 ⟨⟨1, 0, 0⟩, 1⟩
def c : Chain ℚ := { Sample.chain with link := [base, held, wrist], shape := .node 0 (.node 1 (.node 2 .nil .nil) .nil) .nil }

end LockSample

open LockSample MachineSample in
/-- The hypotheses of C129 are met by a concrete chain with a joint at rest out of its neutral position; its other joint moves, and the torques of the
two joints that a fixed joint replaces are not zero. -/
example : LockSample.c.WF ∧ (∀ i ∈ [1], ∀ l, LockSample.c.link[i]? = some l → AtRest l.joint.prp) ∧ linkFrame held ≠ held.org ∧
    (torquesOf (run Frame.ident 0 (⟨⟨0, 0, 10⟩, 0⟩ : Vec6 ℚ) (.node base (.node held (.node wrist .nil .nil) .nil) .nil))).length = 4 ∧
    (0 : ℚ) ∉ torquesOf (run Frame.ident 0 (⟨⟨0, 0, 10⟩, 0⟩ : Vec6 ℚ) (.node base (.node held (.node wrist .nil .nil) .nil) .nil)) ∧
    (torquesOf (run Frame.ident 0 (⟨⟨0, 0, 10⟩, 0⟩ : Vec6 ℚ) (.node base (.node (lock held) (.node wrist .nil .nil) .nil) .nil))).length = 2 := by
  refine ⟨⟨⟨_, rfl⟩, .refl _⟩, ?_, by decide +kernel, by decide +kernel, by decide +kernel, by decide +kernel⟩
  intro i hi l hl
  simp only [List.mem_singleton] at hi
  subst hi
  have : l = held := by
    have h : LockSample.c.link[1]? = some held := rfl
    rw [h] at hl
    exact (Option.some.inj hl).symm
  subst this
  constructor <;> decide +kernel

end Roki
