import Verif.Lemmas.Machine
import Verif.Spec.MachineABI
import Verif.Lemmas.ABIDyn
set_option autoImplicit false

/-! # Forward dynamics of one mechanism described by different links -/

namespace Roki.Machine
set_option linter.unusedSectionVars false
open Spec
variable {K : Type*} [Field K] [LinearOrder K] [IsStrictOrderedRing K] [Zm K] [LawfulZm K]

/-- The opposite of gravity, seen from a frame. -/
def lift (X : Frame K) : Vec6 K := ⟨X.att.mulVecT ⟨0, 0, rkG⟩, 0⟩

theorem macc_lift (D X : Frame K) (v a : Vec6 K) : macc D v (a + lift X) = macc D v a + lift (X.cascade D) := by
  simp only [macc, lift, Frame.cascade_att, Mat3.mul_mulVecT, Mat3.mulVecT6, Vec6.add_lin, Vec6.add_ang, add_zero]
  simp only [Mat3.mulVecT_add]
  ext1
  · simp only [Vec6.add_lin]; abel
  · simp

/-- The acceleration of a link when its joint does not accelerate. -/
def jac (l : Link K) (v a : Vec6 K) : Vec6 K := macc (linkFrame l) v a + l.joint.prp.incAccOnVel ((linkFrame l).att.mulVecT v.ang) 0

/-- The state before the backward pass. -/
def pre (X : Frame K) (v : Vec6 K) (T : LTree (Link K)) : LTree (Link K) := ((T.updateFrame X).updateVel v).abiInit v

/-- A link before the backward pass. -/
structure Inited (l z : Link K) (X : Frame K) (v : Vec6 K) : Prop where
  org : z.org = l.org
  load : loadOf z = loadOf l
  adj : z.adj = linkFrame l
  frame : z.body.frame = X.cascade (linkFrame l)
  vel : z.body.vel = V l v
  prp : z.joint.prp = l.joint.prp
  i : z.abi.i = Link.abiInertia l.body.mp
  own : ∀ a, z.abi.i.mulVec a + (z.abi.b - z.abi.w) = own (loadOf l) (V l v) (a + lift (X.cascade (linkFrame l)))
  jac : ∀ a, z.adj.xform6Lin a + z.abi.c = jac l v a

theorem pre_node (l : Link K) (c s : LTree (Link K)) (X : Frame K) (v : Vec6 K) (h : Ready l) :
    ∃ z, pre X v (.node l c s) = .node z (pre (X.cascade (linkFrame l)) (V l v) c) (pre X v s) ∧ Inited l z X v := by
  have hadj : (l.updateFrame1 X).adj = linkFrame l := xform_eq _ _
  have hf : (l.updateFrame1 X).body.frame = X.cascade (linkFrame l) := updateFrame1_frame l X
  have hv : ((l.updateFrame1 X).updateVel1 v).body.vel = V l v := by
    show l.joint.prp.incVel ((l.updateFrame1 X).adj.xform6Lin v) = _
    rw [hadj]; rfl
  refine ⟨((l.updateFrame1 X).updateVel1 v).abiUpdateInit v, ?_, rfl, rfl, hadj, hf, hv, rfl, h.m, ?_, ?_⟩
  · unfold pre
    simp only [LTree.updateFrame, LTree.updateVel, LTree.abiInit, LTree.down, hf]
    have : (((l.updateFrame1 X).updateVel1 v).abiUpdateInit v).body.vel = V l v := hv
    rw [this, hv]
  · intro a
    have e1 : ((((l.updateFrame1 X).updateVel1 v).abiUpdateInit v).abi.i) = Link.abiInertia l.body.mp := h.m
    have e2 : ((((l.updateFrame1 X).updateVel1 v).abiUpdateInit v).abi.b) =
        ⟨l.body.mp.mass • triple (V l v).ang (V l v).ang l.body.mp.com, cross (V l v).ang ((Link.abiInertia l.body.mp).aa.mulVec (V l v).ang)⟩ := by
      rw [← hv, ← h.m]; rfl
    have e3 : ((((l.updateFrame1 X).updateVel1 v).abiUpdateInit v).abi.w) = WrenchList.net l.abi.wlist +
        ⟨(WrenchList.net l.body.extw).lin + (X.cascade (linkFrame l)).att.mulVecT ⟨0, 0, -rkG * l.body.mp.mass⟩, (WrenchList.net l.body.extw).ang +
          cross l.body.mp.com ((X.cascade (linkFrame l)).att.mulVecT ⟨0, 0, -rkG * l.body.mp.mass⟩)⟩ := by
      rw [← hf]; rfl
    have e4 : WrenchList.net l.abi.wlist = 0 := by rw [h.wlist]; rfl
    rw [e1, e2, e3, e4, net_resultant]
    simp only [own, lift, loadOf]
    have e5 : (X.cascade (linkFrame l)).att.mulVecT ⟨0, 0, -rkG * l.body.mp.mass⟩ =
        (-l.body.mp.mass) • (X.cascade (linkFrame l)).att.mulVecT ⟨0, 0, rkG⟩ := by vec_ring
    rw [e5]
    generalize (X.cascade (linkFrame l)).att.mulVecT ⟨0, 0, rkG⟩ = g
    generalize (resultant l.body.extw).1 = p
    generalize (resultant l.body.extw).2 = q
    generalize V l v = w
    simp only [Link.abiInertia, inertiaAbout, triple]
    vec_ring
  · intro a
    show (l.updateFrame1 X).adj.xform6Lin a + (⟨_, _⟩ : Vec6 K) = _
    have e : (((l.updateFrame1 X).updateVel1 v).abiUpdateInit v).abi.c =
        l.joint.prp.incAccOnVel ((linkFrame l).att.mulVecT v.ang) 0 + ⟨(linkFrame l).att.mulVecT (triple v.ang v.ang (linkFrame l).pos), 0⟩ := by
      rw [← hadj]
      ext1
      · rfl
      · simp only [Vec6.add_ang, add_zero]; rfl
    show (l.updateFrame1 X).adj.xform6Lin a + (((l.updateFrame1 X).updateVel1 v).abiUpdateInit v).abi.c = _
    rw [e, hadj]
    simp only [jac, macc, Frame.xform6Lin, Mat3.mulVecT6, Vec6.linShift, triple, Mat3.mulVecT_add]
    ext1
    · simp only [Vec6.add_lin]; abel
    · simp only [Vec6.add_ang]; abel

/-! ## What a joint passes to its parent -/

/-- The wrench that a joint passes on when its link would have acceleration `j` without acceleration of the joint. -/
def passed (fx : Bool) (p : Prp K) (i : Mat6 K) (b : Vec6 K) (ih : ℕ → ℕ → K) (j : Vec6 K) : Vec6 K :=
  match p with
  | .fixed => i.mulVec j + b
  | .revol p => i.mulVec j + b - (p.u - (i.mulVec j + b).ang.z) • (-ih 0 0) • i.colZA
  | .brfloat _ => if fx then i.mulVec j + b else 0
  | _ => 0

theorem rowZA_dot (m : Mat6 K) (v : Vec6 K) : m.rowZA.dot6 v = (m.mulVec v).ang.z := by vec_ring

theorem passed_eq (fx : Bool) (p : Prp K) (hp : p.ABIGood) (i : Mat6 K) (hi : i.Symm) (b c : Vec6 K) (f : Frame K) (ih : ℕ → ℕ → K) (a : Vec6 K) :
    (p.abiABI fx i f ih).mulVec a + p.abiBias fx i (i.mulVec c + b) f ih = f.xform6Ang (passed fx p i b ih (f.xform6Lin a + c)) := by
  cases p with
  | fixed =>
    simp only [Prp.abiABI, Prp.abiBias, passed, hi.xform_mulVec]
    rw [← Frame.xform6Ang_add, Mat6.mulVec_add, add_assoc]
  | revol p =>
    have hs : (Mat6.dyad ((-ih 0 0) • i.colZA) i.rowZA + i).Symm := by
      rw [hi.colZA]; exact Mat6.Symm.add (Mat6.Symm.dyad _ _) hi
    simp only [Prp.abiABI, Prp.abiBias, passed, hs.xform_mulVec]
    rw [← Frame.xform6Ang_add]
    congr 1
    rw [Mat6.add_mulVec, Mat6.dyad_mulVec, rowZA_dot, Mat6.mulVec_add]
    generalize i.colZA = k
    generalize i.mulVec (f.xform6Lin a) = x
    generalize i.mulVec c = y
    vec_ring
  | float p =>
    simp only [Prp.abiABI, Prp.abiBias, passed, Mat6.zero_mulVec]; simp
  | brfloat p =>
    simp only [Prp.abiABI, Prp.abiBias, passed]
    split_ifs
    · rw [hi.xform_mulVec, ← Frame.xform6Ang_add, Mat6.mulVec_add, add_assoc]
    · simp [Mat6.zero_mulVec]
  | prism p => exact hp.elim
  | cylin p => exact hp.elim
  | hooke p => exact hp.elim
  | spher p => exact hp.elim

/-- What the joint itself keeps of the former axis inertia does not matter. -/
theorem passed_axis (fx : Bool) (p : Prp K) (hp : p.ABIGood) (i : Mat6 K) (b : Vec6 K) (h ih h' ih' : ℕ → ℕ → K) (j : Vec6 K) :
    passed fx p.abiDrivingTorque i b (p.abiAxisInertia fx i h ih).2 j = passed fx p.abiDrivingTorque i b (p.abiAxisInertia fx i h' ih').2 j := by
  cases p <;> first | rfl | exact hp.elim

theorem qacc_axis (fx : Bool) (p : Prp K) (hp : p.ABIGood) (i : Mat6 K) (b : Vec6 K) (h ih h' ih' : ℕ → ℕ → K) (j a a' : Vec6 K) :
    p.abiDrivingTorque.abiQAcc fx i b j (p.abiAxisInertia fx i h ih).2 a = p.abiDrivingTorque.abiQAcc fx i b j (p.abiAxisInertia fx i h' ih').2 a' := by
  cases p <;> first | rfl | exact hp.elim | (cases fx <;> rfl)

theorem mat6_ext {m n : Mat6 K} {b c : Vec6 K} (h : ∀ a : Vec6 K, m.mulVec a + b = n.mulVec a + c) : m = n ∧ b = c := by
  have h0 := h 0
  rw [Mat6.mulVec_zero, Mat6.mulVec_zero, zero_add, zero_add] at h0
  subst h0
  refine ⟨?_, rfl⟩
  have e : ∀ a : Vec6 K, m.mulVec a = n.mulVec a := fun a => add_right_cancel (h a)
  have e1 := e ⟨⟨1, 0, 0⟩, 0⟩
  have e2 := e ⟨⟨0, 1, 0⟩, 0⟩
  have e3 := e ⟨⟨0, 0, 1⟩, 0⟩
  have e4 := e ⟨0, ⟨1, 0, 0⟩⟩
  have e5 := e ⟨0, ⟨0, 1, 0⟩⟩
  have e6 := e ⟨0, ⟨0, 0, 1⟩⟩
  revert e1 e2 e3 e4 e5 e6
  vec_unfold
  simp only [one_mul, zero_mul, add_zero, zero_add]
  intro e1 e2 e3 e4 e5 e6
  simp only [e1, e2, e3, e4, e5, e6, and_self]

/-! ## The backward pass -/

/-- What the subtrees of a level pass to the parent that has acceleration `a`. -/
def app (D : Mat6 K × Vec6 K) (a : Vec6 K) : Vec6 K := D.1.mulVec a + D.2

theorem app_add (D E : Mat6 K × Vec6 K) (a : Vec6 K) : app (D + E) a = app D a + app E a := by
  simp only [app, Prod.fst_add, Prod.snd_add, Mat6.add_mulVec]; abel

theorem app_zero (a : Vec6 K) : app (0 : Mat6 K × Vec6 K) a = 0 := by
  simp [app, Mat6.zero_mulVec]

def back (fx : Bool) (X : Frame K) (v : Vec6 K) (T : LTree (Link K)) := (pre X v T).abiBack fx

/-- A link after the backward pass; `D` is what its children passed. -/
structure Backed (fx : Bool) (l z : Link K) (X : Frame K) (v : Vec6 K) (D : Mat6 K × Vec6 K) : Prop where
  org : z.org = l.org
  load : loadOf z = loadOf l
  adj : z.adj = linkFrame l
  frame : z.body.frame = X.cascade (linkFrame l)
  vel : z.body.vel = V l v
  prp : z.joint.prp = l.joint.prp.abiDrivingTorque
  app : ∀ a, z.abi.i.mulVec a + z.abi.b = own (loadOf l) (V l v) (a + lift (X.cascade (linkFrame l))) + app D a
  jac : ∀ a, z.adj.xform6Lin a + z.abi.c = jac l v a
  symm : z.abi.i.Symm
  iaxi : ∃ h ih, z.abi.iaxi = (l.joint.prp.abiAxisInertia fx z.abi.i h ih).2

theorem pre_fit (T : LTree (Link K)) : ∀ (X : Frame K) (v : Vec6 K), (∀ l ∈ T.toList, Ready l) →
    ∀ z ∈ (pre X v T).toList, z.abi.i.Symm ∧ z.joint.prp.ABIGood := by
  induction T with
  | nil => intro X v _ z hz; simp [pre, LTree.updateFrame, LTree.updateVel, LTree.abiInit, LTree.down, LTree.toList] at hz
  | node l c s ihc ihs =>
    intro X v h z hz
    have hl := h l (by simp [LTree.toList])
    obtain ⟨y, e, hy⟩ := pre_node l c s X v hl
    rw [e] at hz
    simp only [LTree.toList, List.mem_cons, List.mem_append] at hz
    rcases hz with rfl | hz | hz
    · rw [hy.i, hy.prp]; exact ⟨Link.abiInertia_symm hl.symm, hl.good⟩
    · exact ihc _ _ (fun l hl => h l (by simp [LTree.toList, hl])) z hz
    · exact ihs _ _ (fun l hl => h l (by simp [LTree.toList, hl])) z hz

theorem back_node (fx : Bool) (l : Link K) (c s : LTree (Link K)) (X : Frame K) (v : Vec6 K) (h : ∀ m ∈ (LTree.node l c s).toList, Ready m) :
    ∃ z, (back fx X v (.node l c s)).1 = .node z (back fx (X.cascade (linkFrame l)) (V l v) c).1 (back fx X v s).1 ∧
      Backed fx l z X v (back fx (X.cascade (linkFrame l)) (V l v) c).2 ∧
      ∀ a, app (back fx X v (.node l c s)).2 a = app (back fx X v s).2 a +
        (linkFrame l).xform6Ang (passed fx z.joint.prp z.abi.i z.abi.b z.abi.iaxi (jac l v a)) := by
  have hl := h l (by simp [LTree.toList])
  obtain ⟨y, e, hy⟩ := pre_node l c s X v hl
  have hpc := pre_fit c (X.cascade (linkFrame l)) (V l v) (fun l hl => h l (by simp [LTree.toList, hl]))
  have hsc := LTree.abiBack_symm fx (pre (X.cascade (linkFrame l)) (V l v) c) (fun l hl => (hpc l hl).1) (fun l hl => (hpc l hl).2)
  let D := (back fx (X.cascade (linkFrame l)) (V l v) c).2
  have hs : ((y.abiAdd D).abiBackward fx).abi.i.Symm := by
    show (y.abi.i + D.1).Symm
    rw [hy.i]
    exact Mat6.Symm.add (Link.abiInertia_symm hl.symm) hsc
  have hp : ((y.abiAdd D).abiBackward fx).joint.prp = l.joint.prp.abiDrivingTorque := by
    show y.joint.prp.abiDrivingTorque = _
    rw [hy.prp]
  refine ⟨(y.abiAdd D).abiBackward fx, by unfold back; rw [e]; rfl,
    ⟨hy.org, hy.load, hy.adj, hy.frame, hy.vel, hp, ?_, hy.jac, hs, ?_⟩, ?_⟩
  · intro a
    show (y.abi.i + D.1).mulVec a + (y.abi.b + D.2 - y.abi.w) = _
    rw [← hy.own, Mat6.add_mulVec, app]
    abel
  · exact ⟨y.abi.axi, y.abi.iaxi, by rw [← hy.prp]; rfl⟩
  · intro a
    have e2 : (back fx X v (.node l c s)).2 = (back fx X v s).2 + (((y.abiAdd D).abiBackward fx).abiToParentI fx, ((y.abiAdd D).abiBackward fx).abiToParentB fx) := by
      unfold back; rw [e]; rfl
    rw [e2, app_add]
    congr 1
    rw [app, Link.abiToParentI, Link.abiToParentB, passed_eq fx _ (by rw [hp]; exact LTree.abiGood_drive.2 hl.good) _ hs]
    have ea : ((y.abiAdd D).abiBackward fx).adj = linkFrame l := hy.adj
    have ej : ((y.abiAdd D).abiBackward fx).adj.xform6Lin a + ((y.abiAdd D).abiBackward fx).abi.c = jac l v a := hy.jac a
    rw [ej, ea]

theorem back_nil (fx : Bool) (X : Frame K) (v : Vec6 K) : back fx X v .nil = (.nil, 0) := rfl

theorem back_beside (fx : Bool) (X : Frame K) (v : Vec6 K) (t u : LTree (Link K)) (h : ∀ m ∈ (beside t u).toList, Ready m) :
    (back fx X v (beside t u)).1 = beside (back fx X v t).1 (back fx X v u).1 ∧
      ∀ a, app (back fx X v (beside t u)).2 a = app (back fx X v t).2 a + app (back fx X v u).2 a := by
  induction t with
  | nil => exact ⟨rfl, fun a => by rw [back_nil, app_zero, zero_add]; rfl⟩
  | node l c s _ ih =>
    obtain ⟨z, e1, -, e3⟩ := back_node fx l c (beside s u) X v h
    have ht : ∀ m ∈ (LTree.node l c s).toList, Ready m := by
      intro m hm
      refine h m ?_
      rw [toList_beside]
      exact List.mem_append_left _ hm
    obtain ⟨z', f1, -, f3⟩ := back_node fx l c s X v ht
    obtain ⟨i1, i2⟩ := ih (fun m hm => h m (by simp [beside, LTree.toList, hm]))
    have hz : z = z' := by
      have g1 : (back fx X v (.node l c (beside s u))).1 = _ := e1
      unfold back pre at g1 f1
      simp only [LTree.updateFrame, LTree.updateVel, LTree.abiInit, LTree.down, LTree.abiBack, LTree.node.injEq] at g1 f1
      exact g1.1.symm.trans f1.1
    subst hz
    refine ⟨?_, fun a => ?_⟩
    · show (back fx X v (.node l c (beside s u))).1 = _
      rw [e1, f1, i1]; rfl
    · show app (back fx X v (.node l c (beside s u))).2 a = _
      rw [e3, f3, i2]; abel

/-- The same joint on bases that are the same body. -/
theorem same_joint {F : Frame K} (hF : F.att.IsRot) {l m : Link K} (ho : l.org = F.cascade m.org) (hp : l.joint.prp = m.joint.prp) (v a : Vec6 K) :
    linkFrame l = F.cascade (linkFrame m) ∧ V l v = V m (mvel F v) ∧ jac l v a = jac m (mvel F v) (macc F v a) := by
  have hlf : linkFrame l = F.cascade (linkFrame m) := by simp only [linkFrame, ho, hp, Frame.cascade_assoc]
  refine ⟨hlf, by simp only [V, hlf, hp, mvel_cascade hF], ?_⟩
  have : (mvel F v).ang = F.att.mulVecT v.ang := rfl
  simp only [jac, hlf, hp, macc_cascade hF, Frame.cascade_att, Mat3.mul_mulVecT, this]

/-- A link on a fixed joint moves with its base. -/
theorem fixed_joint {m : Link K} (hp : m.joint.prp = .fixed) (v a : Vec6 K) :
    linkFrame m = m.org ∧ V m v = mvel m.org v ∧ jac m v a = macc m.org v a := by
  have hlf : linkFrame m = m.org := by
    simp only [linkFrame, hp, jointFrame]; exact Frame.cascade_ident _
  refine ⟨hlf, by simp only [V, hlf, hp, Prp.incVel], ?_⟩
  simp only [jac, hlf, hp, Prp.incAccOnVel, add_zero]

theorem back_same (fx : Bool) {R : Frame K → Link K → Link K → Prop} {F : Frame K} {L : List (Load K)} {t u : LTree (Link K)} (h : Same R F L t u) :
    ∀ (X : Frame K) (v a : Vec6 K), F.att.IsRot → (∀ m ∈ u.toList, m.org.att.IsRot ∧ m.joint.prp.WF ∧ Ready m) → (∀ l ∈ t.toList, Ready l) →
      app (back fx X v t).2 a + loads L v (a + lift X) = F.xform6Ang (app (back fx (X.cascade F) (mvel F v) u).2 (macc F v a)) := by
  induction h with
  | nil F =>
    intro X v a _ _ _
    rw [back_nil, back_nil, app_zero, app_zero]
    show (0 : Vec6 K) + 0 = F.xform6Ang 0
    simp
  | @link F L M l m c s c' s' ho hp ht _ _ _ ihc ihs =>
    intro X v a hF hu hw
    obtain ⟨hlf, hV, hJ⟩ := same_joint hF ho hp v a
    obtain ⟨z, -, dz, ez⟩ := back_node fx l c s X v hw
    obtain ⟨y, -, dy, ey⟩ := back_node fx m c' s' (X.cascade F) (mvel F v) (fun m hm => (hu m hm).2.2)
    have ic := fun b => ihc (X.cascade (linkFrame l)) (V l v) b Mat3.isRot_one (fun m hm => hu m (by simp [LTree.toList, hm]))
      (fun m hm => hw m (by simp [LTree.toList, hm]))
    have is := ihs X v a hF (fun m hm => hu m (by simp [LTree.toList, hm])) (fun m hm => hw m (by simp [LTree.toList, hm]))
    simp only [Frame.cascade_ident, mvel_ident, macc_ident, Frame.ident_xform6Ang] at ic
    rw [Frame.cascade_assoc, ← hlf, ← hV] at dy
    have hib : z.abi.i = y.abi.i ∧ z.abi.b = y.abi.b := by
      refine mat6_ext fun b => ?_
      rw [dz.app, dy.app, Frame.cascade_assoc, ← hlf, ← hV, ← ic b, own_totals ht]
      simp only [List.map_cons, List.sum_cons, loads]
      abel
    rw [ez, ey, Frame.xform6Ang_add, ← is, ← hJ, hlf, Frame.cascade_xform6Ang hF]
    have hg := (hw l (by simp [LTree.toList])).good
    obtain ⟨h1, i1, q1⟩ := dz.iaxi
    obtain ⟨h2, i2, q2⟩ := dy.iaxi
    rw [dz.prp, dy.prp, q1, q2, hib.1, hib.2, hp, passed_axis fx m.joint.prp (hp ▸ hg) y.abi.i y.abi.b h1 i1 h2 i2]
    abel
  | @cylin F L M l q m c s c' s' ho hmo hp hb ht _ _ _ ihc ihs =>
    intro X v a hF hu hw
    have := (hw l (by simp [LTree.toList])).good
    obtain ⟨_, _, _, e, -⟩ := hp
    rw [e] at this
    exact this.elim
  | @hooke F L M l q m c s c' s' ho hmo hp hb ht _ _ _ ihc ihs =>
    intro X v a hF hu hw
    have := (hw l (by simp [LTree.toList])).good
    obtain ⟨_, _, _, e, -⟩ := hp
    rw [e] at this
    exact this.elim
  | @fixed F L M m t u c' s' hp _ _ ihc ihs =>
    intro X v a hF hu hw
    have hm := hu m (by simp [LTree.toList])
    obtain ⟨hlf, hV, hJ⟩ := fixed_joint hp (mvel F v) (macc F v a)
    have hE : (F.cascade m.org).att.IsRot := hF.mul hm.1
    obtain ⟨y, -, dy, ey⟩ := back_node fx m c' s' (X.cascade F) (mvel F v) (fun m hm => (hu m hm).2.2)
    have ic := ihc X v a hE (fun m hm => hu m (by simp [LTree.toList, hm])) (fun m hm => hw m (by rw [toList_beside]; simp [hm]))
    have is := ihs X v a hF (fun m hm => hu m (by simp [LTree.toList, hm])) (fun m hm => hw m (by rw [toList_beside]; simp [hm]))
    rw [(back_beside fx X v t u hw).2, ey, Frame.xform6Ang_add, ← is, hlf, ← Frame.cascade_xform6Ang hF]
    have hpass : passed fx y.joint.prp y.abi.i y.abi.b y.abi.iaxi (jac m (mvel F v) (macc F v a)) =
        y.abi.i.mulVec (jac m (mvel F v) (macc F v a)) + y.abi.b := by
      rw [dy.prp, hp]; rfl
    rw [hpass, dy.app, hJ, hV, hlf, Frame.cascade_assoc, ← mvel_cascade hF, ← macc_cascade hF, Frame.xform6Ang_add, ← ic, ← macc_lift, ← own_placed hE]
    simp only [loads, List.map_cons, List.map_append, List.sum_cons, List.sum_append]
    abel

/-! ## The forward pass -/

theorem fwd_beside (fx wr : Bool) (a : Vec6 K) (t u : LTree (Link K)) :
    (beside t u).abiFwd fx wr a = beside (t.abiFwd fx wr a) (u.abiFwd fx wr a) := by
  induction t with
  | nil => rfl
  | node l c s _ ih => simp only [beside, LTree.abiFwd_node, ih]

/-- A link after the forward pass. -/
theorem step_facts (fx wr : Bool) (a : Vec6 K) (z : Link K) :
    (LTree.abiStep fx wr a z).org = z.org ∧ loadOf (LTree.abiStep fx wr a z) = loadOf z ∧ (LTree.abiStep fx wr a z).body.frame = z.body.frame ∧
    (LTree.abiStep fx wr a z).body.vel = z.body.vel ∧
    (LTree.abiStep fx wr a z).joint.prp = (z.joint.prp.abiQAcc fx z.abi.i z.abi.b (z.adj.xform6Lin a + z.abi.c) z.abi.iaxi z.body.acc).1 ∧
    (LTree.abiStep fx wr a z).body.acc = (z.joint.prp.abiQAcc fx z.abi.i z.abi.b (z.adj.xform6Lin a + z.abi.c) z.abi.iaxi z.body.acc).2 := by
  cases wr <;> exact ⟨rfl, rfl, rfl, rfl, rfl, rfl⟩

theorem fwd_same (fx wr : Bool) {R : Frame K → Link K → Link K → Prop} {F : Frame K} {L : List (Load K)} {t u : LTree (Link K)} (h : Same R F L t u) :
    ∀ (X : Frame K) (v a : Vec6 K), F.att.IsRot → (∀ m ∈ u.toList, m.org.att.IsRot ∧ m.joint.prp.WF ∧ Ready m) → (∀ l ∈ t.toList, Ready l) →
      Same SameMotion F L ((back fx X v t).1.abiFwd fx wr a) ((back fx (X.cascade F) (mvel F v) u).1.abiFwd fx wr (macc F v a)) := by
  induction h with
  | nil F => intro X v a _ _ _; exact .nil _
  | @link F L M l m c s c' s' ho hp ht _ hc _ ihc ihs =>
    intro X v a hF hu hw
    obtain ⟨hlf, hV, hJ⟩ := same_joint hF ho hp v a
    obtain ⟨z, ez, dz, -⟩ := back_node fx l c s X v hw
    obtain ⟨y, ey, dy, -⟩ := back_node fx m c' s' (X.cascade F) (mvel F v) (fun m hm => (hu m hm).2.2)
    have bc := fun b => back_same fx hc (X.cascade (linkFrame l)) (V l v) b Mat3.isRot_one (fun m hm => hu m (by simp [LTree.toList, hm]))
      (fun m hm => hw m (by simp [LTree.toList, hm]))
    have ic := fun b => ihc (X.cascade (linkFrame l)) (V l v) b Mat3.isRot_one (fun m hm => hu m (by simp [LTree.toList, hm]))
      (fun m hm => hw m (by simp [LTree.toList, hm]))
    have is := ihs X v a hF (fun m hm => hu m (by simp [LTree.toList, hm])) (fun m hm => hw m (by simp [LTree.toList, hm]))
    simp only [Frame.cascade_ident, mvel_ident, macc_ident, Frame.ident_xform6Ang] at ic bc
    rw [Frame.cascade_assoc, ← hlf, ← hV] at dy ey
    have hib : z.abi.i = y.abi.i ∧ z.abi.b = y.abi.b := by
      refine mat6_ext fun b => ?_
      rw [dz.app, dy.app, Frame.cascade_assoc, ← hlf, ← hV, ← bc b, own_totals ht]
      simp only [List.map_cons, List.sum_cons, loads]
      abel
    obtain ⟨s1, s2, s3, s4, s5, s6⟩ := step_facts fx wr a z
    obtain ⟨r1, r2, r3, r4, r5, r6⟩ := step_facts fx wr (macc F v a) y
    have hg := (hw l (by simp [LTree.toList])).good
    obtain ⟨h1, i1, q1⟩ := dz.iaxi
    obtain ⟨h2, i2, q2⟩ := dy.iaxi
    have hq : z.joint.prp.abiQAcc fx z.abi.i z.abi.b (z.adj.xform6Lin a + z.abi.c) z.abi.iaxi z.body.acc =
        y.joint.prp.abiQAcc fx y.abi.i y.abi.b (y.adj.xform6Lin (macc F v a) + y.abi.c) y.abi.iaxi y.body.acc := by
      rw [dz.jac, dy.jac, hJ, dz.prp, dy.prp, q1, q2, hib.1, hib.2, hp]
      exact qacc_axis fx m.joint.prp (hp ▸ hg) _ _ _ _ _ _ _ _ _
    rw [ez, ey, LTree.abiFwd_node, LTree.abiFwd_node]
    have hacc : (LTree.abiStep fx wr a z).body.acc = (LTree.abiStep fx wr (macc F v a) y).body.acc := by rw [s6, r6, hq]
    refine .link (by rw [s1, r1, dz.org, dy.org, ho]) (by rw [s5, r5, hq]) (by rw [s2, r2, dz.load, dy.load]; exact ht) ?_ ?_ is
    · refine sameMotion_of ?_ ?_ ?_
      · rw [s3, r3, dz.frame, dy.frame, Frame.cascade_ident, hlf, Frame.cascade_assoc]
      · rw [s4, r4, dz.vel, dy.vel, mvel_ident, hV]
      · rw [macc_ident, hacc]
    · rw [← hacc]; exact ic _
  | @cylin F L M l q m c s c' s' ho hmo hp hb ht _ _ _ ihc ihs =>
    intro X v a hF hu hw
    have := (hw l (by simp [LTree.toList])).good
    obtain ⟨_, _, _, e, -⟩ := hp
    rw [e] at this
    exact this.elim
  | @hooke F L M l q m c s c' s' ho hmo hp hb ht _ _ _ ihc ihs =>
    intro X v a hF hu hw
    have := (hw l (by simp [LTree.toList])).good
    obtain ⟨_, _, _, e, -⟩ := hp
    rw [e] at this
    exact this.elim
  | @fixed F L M m t u c' s' hp _ _ ihc ihs =>
    intro X v a hF hu hw
    have hm := hu m (by simp [LTree.toList])
    obtain ⟨hlf, hV, hJ⟩ := fixed_joint hp (mvel F v) (macc F v a)
    have hE : (F.cascade m.org).att.IsRot := hF.mul hm.1
    obtain ⟨y, ey, dy, -⟩ := back_node fx m c' s' (X.cascade F) (mvel F v) (fun m hm => (hu m hm).2.2)
    have ic := ihc X v a hE (fun m hm => hu m (by simp [LTree.toList, hm])) (fun m hm => hw m (by rw [toList_beside]; simp [hm]))
    have is := ihs X v a hF (fun m hm => hu m (by simp [LTree.toList, hm])) (fun m hm => hw m (by rw [toList_beside]; simp [hm]))
    obtain ⟨r1, r2, r3, r4, r5, r6⟩ := step_facts fx wr (macc F v a) y
    have hyp : y.joint.prp = .fixed := by rw [dy.prp, hp]; rfl
    have hy5 : (LTree.abiStep fx wr (macc F v a) y).joint.prp = .fixed := by rw [r5, hyp]; rfl
    have hy6 : (LTree.abiStep fx wr (macc F v a) y).body.acc = macc (F.cascade m.org) v a := by
      rw [r6, hyp, macc_cascade hF, ← hJ, ← dy.jac]; rfl
    rw [(back_beside fx X v t u hw).1, fwd_beside, ey, LTree.abiFwd_node, hy6, hV, hlf, Frame.cascade_assoc, ← mvel_cascade hF]
    have hl : loadOf m = loadOf (LTree.abiStep fx wr (macc F v a) y) := by rw [r2, dy.load]
    have ho : m.org = (LTree.abiStep fx wr (macc F v a) y).org := by rw [r1, dy.org]
    rw [hl, ho]
    rw [ho] at ic
    exact .fixed hy5 ic is

theorem accs_node (l : Link K) (c s : LTree (Link K)) : accsOf (.node l c s) = l.joint.prp.getAcc ++ (accsOf c ++ accsOf s) := by
  simp [accsOf, LTree.toList]

theorem accs_beside (t u : LTree (Link K)) : accsOf (beside t u) = accsOf t ++ accsOf u := by
  simp [accsOf, toList_beside]

theorem accs_same {R : Frame K → Link K → Link K → Prop} {F : Frame K} {L : List (Load K)} {t u : LTree (Link K)} (h : Same R F L t u) :
    accsOf t = accsOf u := by
  induction h with
  | nil F => rfl
  | link ho hp ht _ _ _ ihc ihs => rw [accs_node, accs_node, hp, ihc, ihs]
  | cylin ho hmo hp hb ht _ _ _ ihc ihs =>
    rw [accs_node, accs_node, accs_node, ihc, ihs]
    obtain ⟨_, _, _, e1, e2, e3, h1, h2, h3, h4, h5, h6, h7⟩ := hp
    rw [e1, e2, e3]
    simp [Prp.getAcc, h3, h7, accsOf, LTree.toList]
  | hooke ho hmo hp hb ht _ _ _ ihc ihs =>
    rw [accs_node, accs_node, accs_node, ihc, ihs]
    obtain ⟨_, _, _, e1, e2, e3, h1, h2, h3, h4, h5, h6, h7, h8⟩ := hp
    rw [e1, e2, e3]
    simp [Prp.getAcc, h4, h8, accsOf, LTree.toList]
  | fixed hp _ _ ihc ihs =>
    rw [accs_beside, accs_node, ihc, ihs, hp]; rfl

end Roki.Machine
