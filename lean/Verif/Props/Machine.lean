import Verif.Lemmas.Machine2
import Verif.Lemmas.ChainFile5
import Verif.Props.FK
import Verif.Props.Apps
import Verif.Spec.Samples
set_option autoImplicit false

/-!
# One mechanism described by different links and joints

C128: dividing a mechanism into links and joints in another way changes neither its motion nor its joint torques.
-/

namespace Roki
set_option linter.unusedSectionVars false
open Spec LinkArray Machine
variable {K : Type*} [Field K]

/-! ## Helpers -/

theorem gather_of_hasTree {c : Chain K} {T : LTree (Link K)} (h : HasTree c T) : Chain.gather c.link c.shape = some T := by
  unfold HasTree at h
  generalize c.shape = t at h
  induction t generalizing T with
  | nil => cases T with
    | nil => rfl
    | node _ _ _ => simp [LTree.map] at h
  | node i a b iha ihb => cases T with
    | nil => simp [LTree.map] at h
    | node l x y =>
      simp only [LTree.map, LTree.node.injEq] at h
      exact Chain.gather_node.2 ⟨l, x, y, h.1.symm, iha h.2.1, ihb h.2.2, rfl⟩

/-- Forward kinematics and inverse dynamics on the tree of links. -/
theorem run_chain {c : Chain K} (hc : c.WF) {T : LTree (Link K)} (hT : HasTree c T) (g : Vec6 K) :
    ∃ c1 c2, c.updateFK = some c1 ∧ c1.updateID g = some c2 ∧ HasTree c2 (run Frame.ident 0 g T) ∧
      (run Frame.ident 0 g T).toList.Perm c2.link := by
  obtain ⟨c1, e1, -⟩ := C06_fk_composition c hc
  obtain ⟨T1, t1, t1', w1, s1, -⟩ := hc.updateFK e1
  obtain ⟨c2, e2⟩ := updateID_total w1 g
  obtain ⟨T2, t2, t2', w2, s2, -⟩ := w1.updateID e2
  rw [gather_of_hasTree hT, Option.some.injEq] at t1
  subst t1
  rw [t1', Option.some.injEq] at t2
  subst t2
  exact ⟨c1, c2, e1, e2, Chain.gather_map t2', Chain.gather_perm t2' w2.perm⟩

/-- Values kept beside the motion of a link. -/
structure Kept (z : Link K) : Prop where
  com : z.body.wldCOM = z.body.frame.xform z.body.mp.com
  vel : z.body.comVel = comV (loadOf z) z.body.vel
  acc : z.body.comAcc = comA (loadOf z) z.body.vel z.body.acc

theorem run_kept (T : LTree (Link K)) : ∀ (X : Frame K) (v a : Vec6 K), ∀ z ∈ (run X v a T).toList, Kept z := by
  induction T with
  | nil => intro X v a z hz; simp [run, LTree.updateFrame, LTree.updateRate, LTree.updateWrench, LTree.toList] at hz
  | node l c s ihc ihs =>
    intro X v a z hz
    unfold run at hz ihc ihs
    simp only [LTree.updateFrame, LTree.updateRate, LTree.updateWrench, LTree.toList, List.mem_cons, List.mem_append] at hz
    rcases hz with rfl | hz | hz
    · exact ⟨rfl, rfl, rfl⟩
    · exact ihc _ _ _ z hz
    · exact ihs _ _ _ z hz

theorem sum_tree {N : Type*} [AddCommGroup N] (φ : Load K → Frame K → Vec6 K → Vec6 K → N) (f : Link K → N) {T : LTree (Link K)} {X : Frame K} {v a : Vec6 K}
    {ls : List (Link K)} (hp : (run X v a T).toList.Perm ls) (hf : ∀ z : Link K, Kept z → f z = φ (loadOf z) z.body.frame z.body.vel z.body.acc) :
    (ls.map f).sum = over φ (run X v a T) := by
  rw [← (hp.map f).sum_eq]
  unfold over
  congr 1
  exact List.map_congr_left fun z hz => hf z (run_kept T X v a z hz)

theorem sum_com {c : Chain K} {T : LTree (Link K)} {X : Frame K} {v a : Vec6 K} (hp : (run X v a T).toList.Perm c.link) :
    LinkArray.calcMass c.link = over phiMass (run X v a T) ∧ LinkArray.calcCOM c.mass c.link = c.mass⁻¹ • over phiFirst (run X v a T) ∧
    LinkArray.calcCOMVel c.mass c.link = c.mass⁻¹ • over phiMom (run X v a T) ∧
    LinkArray.calcCOMAcc c.mass c.link = c.mass⁻¹ • over phiAcc (run X v a T) ∧
    LinkArray.ke c.link = over phiKE (run X v a T) ∧ ∀ p, LinkArray.am c.link p = over (phiAM p) (run X v a T) := by
  refine ⟨?_, ?_, ?_, ?_, ?_, ?_⟩
  · rw [← sum_tree phiMass (fun l => l.body.mp.mass) hp (fun _ _ => rfl)]
    simpa [LinkArray.calcMass] using foldl_add_eq (fun l : Link K => l.body.mp.mass) 0 c.link
  · rw [← sum_tree phiFirst (fun l => l.body.mp.mass • l.body.wldCOM) hp (fun z h => by rw [h.com]; rfl)]
    have := foldl_add_eq (fun l : Link K => l.body.mp.mass • l.body.wldCOM) 0 c.link
    rw [zero_add] at this
    rw [← this]; rfl
  · rw [← sum_tree phiMom (fun l => l.body.mp.mass • l.body.frame.att.mulVec l.body.comVel) hp (fun z h => by rw [h.vel]; rfl), smul_sum']
    have := foldl_add_eq (fun l : Link K => (l.body.mp.mass / c.mass) • l.body.frame.att.mulVec l.body.comVel) 0 c.link
    rw [zero_add] at this
    simp only [smul_smul]
    simp only [div_eq_inv_mul] at this
    rw [← this]
    simp only [LinkArray.calcCOMVel, cat, div_eq_inv_mul]
  · rw [← sum_tree phiAcc (fun l => l.body.mp.mass • l.body.frame.att.mulVec l.body.comAcc) hp (fun z h => by rw [h.acc]; rfl), smul_sum']
    have := foldl_add_eq (fun l : Link K => (l.body.mp.mass / c.mass) • l.body.frame.att.mulVec l.body.comAcc) 0 c.link
    rw [zero_add] at this
    simp only [smul_smul]
    simp only [div_eq_inv_mul] at this
    rw [← this]
    simp only [LinkArray.calcCOMAcc, cat, div_eq_inv_mul]
  · rw [← sum_tree phiKE (fun l => l.body.ke) hp (fun z h => by simp only [Body.ke, h.vel]; rfl)]
    simpa [LinkArray.ke] using foldl_add_eq (fun l : Link K => l.body.ke) 0 c.link
  · intro p
    rw [← sum_tree (phiAM p) (fun l => l.body.frame.att.mulVec (l.body.am (l.body.frame.xformInv p))) hp
      (fun z h => by simp only [Body.am, h.vel]; rfl)]
    simpa [LinkArray.am] using foldl_add_eq (fun l : Link K => l.body.frame.att.mulVec (l.body.am (l.body.frame.xformInv p))) 0 c.link

/-! ## C128 -/

/-- **C128** Let two chains describe the same mechanism: one may have a cylindrical or a universal joint where the other has two simple joints in series, and
one may have a single link where the other has links fixed to one another, with the same total mass, moments and external forces.  Let them have the
same joint displacements, velocities and accelerations.  Then forward kinematics and inverse dynamics complete on both, every body is in the
same place and has the same velocity and acceleration in both, and the joint torques, taken from the root outwards, are the same. -/
theorem C128_same_machine (c d : Chain K) (hc : c.WF) (hd : d.WF) (hr : ∀ l ∈ d.link, l.org.att.IsRot ∧ l.joint.prp.WF)
    (T U : LTree (Link K)) (hT : HasTree c T) (hU : HasTree d U) (L : List (Load K)) (hs : Same (fun _ _ _ => True) Frame.ident L T U) (g : Vec6 K) :
    ∃ c1 c2 d1 d2, c.updateFK = some c1 ∧ c1.updateID g = some c2 ∧ d.updateFK = some d1 ∧ d1.updateID g = some d2 ∧
      ∃ T2 U2, HasTree c2 T2 ∧ HasTree d2 U2 ∧ Same SameMotion Frame.ident L T2 U2 ∧ torquesOf T2 = torquesOf U2 := by
  obtain ⟨c1, c2, a1, a2, a3, -⟩ := run_chain hc hT g
  obtain ⟨d1, d2, b1, b2, b3, -⟩ := run_chain hd hU g
  have hw : ∀ m ∈ U.toList, m.org.att.IsRot ∧ m.joint.prp.WF := fun m hm =>
    hr m ((Chain.gather_perm (gather_of_hasTree hU) hd.perm).mem_iff.1 hm)
  obtain ⟨s1, -, s3⟩ := simulation hs Frame.ident 0 g Mat3.isRot_one hw
  rw [Frame.cascade_ident, mvel_ident, macc_ident] at s1 s3
  exact ⟨c1, c2, d1, d2, a1, a2, b1, b2, _, _, a3, b3, s1, s3⟩

/-- **C128** If no link is fixed to the ground, the two chains also have the same total mass, and, if their stored masses are those, the same center of mass, the
same velocity and acceleration of it, the same kinetic energy and the same angular momentum about every point. -/
theorem C128_totals (c d : Chain K) (hc : c.WF) (hd : d.WF) (hr : ∀ l ∈ d.link, l.org.att.IsRot ∧ l.joint.prp.WF)
    (T U : LTree (Link K)) (hT : HasTree c T) (hU : HasTree d U) (hs : Same (fun _ _ _ => True) Frame.ident [] T U)
    (hmc : c.mass = (c.link.map fun l => l.body.mp.mass).sum) (hmd : d.mass = (d.link.map fun l => l.body.mp.mass).sum) (g : Vec6 K) :
    ∃ c1 c2 d1 d2, c.updateFK = some c1 ∧ c1.updateID g = some c2 ∧ d.updateFK = some d1 ∧ d1.updateID g = some d2 ∧
      c.mass = d.mass ∧ c1.wldCOM = d1.wldCOM ∧ c2.comVel = d2.comVel ∧ c2.comAcc = d2.comAcc ∧
      LinkArray.ke c2.link = LinkArray.ke d2.link ∧ ∀ p, LinkArray.am c2.link p = LinkArray.am d2.link p := by
  obtain ⟨c1, c2, a1, a2, -, a3⟩ := run_chain hc hT g
  obtain ⟨d1, d2, b1, b2, -, b3⟩ := run_chain hd hU g
  have hw : ∀ m ∈ U.toList, m.org.att.IsRot ∧ m.joint.prp.WF := fun m hm =>
    hr m ((Chain.gather_perm (gather_of_hasTree hU) hd.perm).mem_iff.1 hm)
  have key : ∀ {N : Type _} [AddCommGroup N] {φ : Load K → Frame K → Vec6 K → Vec6 K → N}, Sums φ →
      over φ (run Frame.ident 0 g T) = over φ (run Frame.ident 0 g U) := by
    intro N _ φ hφ
    have := sums hφ hs Frame.ident 0 g Mat3.isRot_one Mat3.isRot_one hw
    rw [Frame.cascade_ident, mvel_ident, macc_ident] at this
    simpa using this
  -- what a chain stores
  have stored : ∀ {c c1 c2 : Chain K}, c.updateFK = some c1 → c1.updateID g = some c2 → c.mass = (c.link.map fun l => l.body.mp.mass).sum →
      c2.mass = c.mass ∧ c.mass = LinkArray.calcMass c2.link ∧ c1.wldCOM = LinkArray.calcCOM c2.mass c2.link ∧
      c2.comVel = LinkArray.calcCOMVel c2.mass c2.link ∧ c2.comAcc = LinkArray.calcCOMAcc c2.mass c2.link := by
    intro c c1 c2 e1 e2 hm
    obtain ⟨f1, f2⟩ := ZTK.updateFK_map (fun l : Link K => l.body.mp) (fun _ _ => rfl) e1
    obtain ⟨i1, i2, -⟩ := ZTK.updateID_map (fun l : Link K => (l.body.mp, l.body.wldCOM)) (fun _ _ _ => rfl) (fun _ _ => rfl) (fun _ _ => rfl) e2
    have j1 : c2.link.map (fun l => l.body.mp) = c.link.map (fun l => l.body.mp) := by
      rw [← f1]
      have := congrArg (List.map Prod.fst) i1
      simpa [Function.comp_def] using this
    refine ⟨i2.trans f2, ?_, ?_, ?_, ?_⟩
    · rw [hm]
      have e := foldl_add_eq (fun l : Link K => l.body.mp.mass) 0 c2.link
      rw [zero_add] at e
      rw [LinkArray.calcMass, e]
      have := congrArg (fun z => (z.map MP.mass).sum) j1
      simpa [Function.comp_def] using this.symm
    · have e : c1.wldCOM = LinkArray.calcCOM c1.mass c1.link := by
        simp only [Chain.updateFK, Option.map_eq_some_iff] at e1
        obtain ⟨x, -, rfl⟩ := e1
        rfl
      rw [e, i2]
      simp only [LinkArray.calcCOM]
      congr 1
      have fold : ∀ (ls : List (Link K)) (p : Vec3 K), ls.foldl (fun p l => cat p l.body.mp.mass l.body.wldCOM) p =
          (ls.map fun l => (l.body.mp, l.body.wldCOM)).foldl (fun p x => cat p x.1.mass x.2) p := by
        intro ls p; rw [List.foldl_map]
      rw [fold, fold, i1]
    · simp only [Chain.updateID, bind, Option.bind_eq_some_iff, pure, Option.some.injEq] at e2
      obtain ⟨x, -, y, -, rfl⟩ := e2
      rfl
    · simp only [Chain.updateID, bind, Option.bind_eq_some_iff, pure, Option.some.injEq] at e2
      obtain ⟨x, -, y, -, rfl⟩ := e2
      rfl
  obtain ⟨p1, p2, p3, p4, p5⟩ := stored a1 a2 hmc
  obtain ⟨q1, q2, q3, q4, q5⟩ := stored b1 b2 hmd
  obtain ⟨x1, x2, x3, x4, x5, x6⟩ := sum_com a3
  obtain ⟨y1, y2, y3, y4, y5, y6⟩ := sum_com b3
  have hm : c.mass = d.mass := by rw [p2, q2, x1, y1, key sums_mass]
  refine ⟨c1, c2, d1, d2, a1, a2, b1, b2, hm, ?_, ?_, ?_, ?_, ?_⟩
  · rw [p3, q3, x2, y2, p1, q1, hm, key sums_first]
  · rw [p4, q4, x3, y3, p1, q1, hm, key sums_mom]
  · rw [p5, q5, x4, y4, p1, q1, hm, key sums_acc]
  · rw [x5, y5, key sums_ke]
  · intro p; rw [x6, y6, key (sums_am p)]

/-! ## A concrete case

An arm on a cylindrical joint with a wrist on a universal joint; in the other description, an arm on a prismatic and a revolute joint, a wrist on two
revolute joints, and a tool, pushed by a force, fixed to the wrist. -/

namespace MachineSample

def cyl : Dof2 ℚ := { Sample.dof2 1 2 0 1 (3/5) (4/5) with dis0 := 1, acc0 := 1, acc1 := 2 }
def hok : Dof2 ℚ := { Sample.dof2 3 1 (4/5) (3/5) (5/13) (12/13) with acc0 := 1, acc1 := -1 }
def ball : MP ℚ := ⟨1, 0, 1⟩
def push : Wrench ℚ := ⟨⟨⟨0, 0, 1⟩, 0⟩, 0⟩

def base : Link ℚ := Sample.link "base" .fixed Sample.mp1 Frame.ident
def arm : Link ℚ := Sample.link "arm" (.cylin cyl) Sample.mp1 ⟨⟨1, 0, 0⟩, 1⟩
def wrist : Link ℚ :=
  let l := Sample.link "wrist" (.hooke hok) ⟨2, ⟨0, 1, 0⟩, ⟨⟨4, 0, 0⟩, ⟨0, 2, 0⟩, ⟨0, 0, 4⟩⟩⟩ ⟨⟨0, 1, 1⟩, 1⟩
  { l with body := { l.body with extw := [⟨⟨⟨0, 1, 0⟩, 0⟩, ⟨0, 2, 0⟩⟩] } }
def slide : Link ℚ := Sample.link "slide" (.prism (Sample.dof1 1 1 1 0 1 none none)) ⟨0, 0, 0⟩ ⟨⟨1, 0, 0⟩, 1⟩
def turn : Link ℚ := Sample.link "turn" (.revol (Sample.dof1 0 2 2 (3/5) (4/5) none none)) Sample.mp1 Frame.ident
def yaw : Link ℚ := Sample.link "yaw" (.revol (Sample.dof1 0 3 1 (4/5) (3/5) none none)) ⟨0, 0, 0⟩ ⟨⟨0, 1, 1⟩, 1⟩
def pitch : Link ℚ := Sample.link "pitch" (.revol (Sample.dof1 0 1 (-1) (5/13) (12/13) none none)) ball turnX
def tool : Link ℚ :=
  let l := Sample.link "tool" .fixed ball ⟨⟨0, 0, 2⟩, 1⟩
  { l with body := { l.body with extw := [push] } }

def c : Chain ℚ := { Sample.chain with link := [base, arm, wrist], shape := .node 0 (.node 1 (.node 2 .nil .nil) .nil) .nil }
def d : Chain ℚ :=
  { Sample.chain with link := [base, slide, turn, yaw, pitch, tool],
                      shape := .node 0 (.node 1 (.node 2 (.node 3 (.node 4 (.node 5 .nil .nil) .nil) .nil) .nil) .nil) .nil }
def T : LTree (Link ℚ) := .node base (.node arm (.node wrist .nil .nil) .nil) .nil
def U : LTree (Link ℚ) := .node base (.node slide (.node turn (.node yaw (.node pitch (.node tool .nil .nil) .nil) .nil) .nil) .nil) .nil

theorem same : Same (fun _ _ _ => True) Frame.ident [] T U := by
  refine .link (M := []) ?_ rfl ?_ trivial ?_ (.nil _)
  · decide +kernel
  · constructor <;> decide +kernel
  refine .cylin (M := []) ?_ rfl ⟨_, _, _, rfl, rfl, rfl, ?_⟩ ?_ ?_ trivial ?_ (.nil _)
  · decide +kernel
  · decide +kernel
  · constructor <;> decide +kernel
  · constructor <;> decide +kernel
  refine .hooke (M := (loadOf tool).placed (turnX.cascade tool.org) :: ([] ++ [])) ?_ rfl ⟨_, _, _, rfl, rfl, rfl, ?_⟩ ?_ ?_ trivial ?_ (.nil _)
  · decide +kernel
  · decide +kernel
  · constructor <;> decide +kernel
  · constructor <;> decide +kernel
  exact .fixed (t := .nil) (u := .nil) rfl (.nil _) (.nil _)

end MachineSample

open MachineSample in
/-- The hypotheses of C128 are met by two concrete descriptions of a moving arm with four degrees of freedom, and its torques are not zero. -/
example : c.WF ∧ d.WF ∧ HasTree c T ∧ HasTree d U ∧ (∀ l ∈ d.link, l.org.att.IsRot ∧ l.joint.prp.WF) ∧
    Same (fun _ _ _ => True) Frame.ident [] T U ∧ c.mass = (c.link.map fun l => l.body.mp.mass).sum ∧
    d.mass = (d.link.map fun l => l.body.mp.mass).sum ∧
    torquesOf (run Frame.ident 0 (⟨⟨0, 0, 10⟩, 0⟩ : Vec6 ℚ) T) ≠ [0, 0, 0, 0] ∧
    (torquesOf (run Frame.ident 0 (⟨⟨0, 0, 10⟩, 0⟩ : Vec6 ℚ) U)).length = 4 := by
  refine ⟨⟨⟨_, rfl⟩, .refl _⟩, ⟨⟨_, rfl⟩, .refl _⟩, rfl, rfl, ?_, same, by decide +kernel, by decide +kernel, by decide +kernel, by decide +kernel⟩
  have h : ∀ l ∈ [base, slide, turn, yaw, pitch, tool], l.org.att.IsRot ∧ l.joint.prp.WF := by
    simp only [List.forall_mem_cons, List.forall_mem_nil, and_true]
    refine ⟨⟨Mat3.isRot_one, trivial⟩, ⟨Mat3.isRot_one, trivial⟩, ⟨Mat3.isRot_one, ?_⟩, ⟨Mat3.isRot_one, ?_⟩, ⟨isRot_turnX, ?_⟩, ⟨Mat3.isRot_one, trivial⟩, by simp⟩
    · show (3/5 : ℚ) * (3/5) + (4/5) * (4/5) = 1; norm_num
    · show (4/5 : ℚ) * (4/5) + (3/5) * (3/5) = 1; norm_num
    · show (5/13 : ℚ) * (5/13) + (12/13) * (12/13) = 1; norm_num
  exact h

end Roki
