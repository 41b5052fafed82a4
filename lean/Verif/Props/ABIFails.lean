import Verif.Props.ABIDyn
import Verif.Lemmas.ZmRat
import Verif.Spec.Samples
set_option autoImplicit false

/-! # Forward dynamics: where the code and the equations of motion disagree (C26) -/

namespace Roki
open Spec LinkArray

/-- The torques that come out of `rkChainID` when it is given the result of `rkChainABI`. -/
noncomputable def torquesBack (c : Chain ℚ) (dis vel acc : List ℚ) : Option (List (List ℚ)) :=
  (c.abi false dis vel acc).bind fun r => r.2.bind fun a =>
    (r.1.invDyn ⟨⟨0, 0, rkG⟩, 0⟩ vel a).map fun c2 => c2.link.map fun l => l.joint.prp.getTrq

namespace Sample
/-- A body with unit mass at its origin and unit inertia. -/
def mp0 : MP ℚ := ⟨1, 0, 1⟩

/-- A body with unit mass at (1,0,0) and unit inertia. -/
def mpx : MP ℚ := ⟨1, ⟨1, 0, 0⟩, 1⟩

/-- A chain in which each link is the child of the one before, prepared for forward dynamics. -/
def serial (ps : List (Prp ℚ × MP ℚ × Frame ℚ)) : Chain ℚ :=
  Chain.abiAlloc
  { link := setOffset (ps.map fun p => link "l" p.1 p.2.1 p.2.2),
    shape := (List.range ps.length).foldr (fun i t => .node i t .nil) .nil,
    mass := ps.length, wldCOM := 0, comVel := 0, comAcc := 0 }

def slide : Prp ℚ := .prism (dof1 0 0 0 0 1 none none)
def turn : Prp ℚ := .revol (dof1 0 0 0 0 1 none none)
def turnSlide : Prp ℚ := .cylin (dof2 0 0 0 1 0 1)
def universal : Prp ℚ := .hooke (dof2 0 0 0 1 0 1)
def ball : Prp ℚ := .spher (sph 0)
def free : Prp ℚ := .float (flt 0)

/-- A frame away from the origin whose z-axis is horizontal. -/
def side : Frame ℚ := ⟨⟨1, 0, 0⟩, ⟨⟨1, 0, 0⟩, ⟨0, 0, 1⟩, ⟨0, -1, 0⟩⟩⟩
end Sample

/-- **C26, violated** by a prismatic joint that is not at the root.  Two bodies slide along the vertical
on each other, with no motor, friction or external force.  Inverse dynamics needs a force of twice the
weight at the lower joint to produce the accelerations that forward dynamics reports
(src/rk_joint_prism.c:214-225 leaves the inverse axis inertia out of the bias). -/
theorem C26_prism_fails : torquesBack
    (Sample.serial [(Sample.slide, Sample.mp0, Frame.ident), (Sample.slide, Sample.mp0, Frame.ident)])
    [0, 0] [0, 0] [0, 0] = some [[-2 * rkG], [0]] := by decide +kernel

/-- **C26, violated** by a cylindrical joint, even alone: the body falls upwards
(src/rk_joint_cylin.c:270-285 adds the bias where the others subtract it). -/
theorem C26_cylin_fails : torquesBack (Sample.serial [(Sample.turnSlide, Sample.mp0, Frame.ident)])
    [0, 0] [0, 0] [0, 0] = some [[2 * rkG, 0]] := by decide +kernel

/-- **C26, violated** by a hooke joint: forward dynamics leaves its acceleration as it was, here at rest,
although nothing holds the body (src/rk_joint_hooke.c:269). -/
theorem C26_hooke_fails : torquesBack (Sample.serial [(Sample.universal, Sample.mpx, Frame.ident)])
    [0, 0] [0, 0] [0, 0] = some [[0, -rkG]] := by decide +kernel

/-- **C26, violated** by a spherical joint in the same way (src/rk_joint_spher.c:231). -/
theorem C26_spher_fails : torquesBack (Sample.serial [(Sample.ball, Sample.mpx, Frame.ident)])
    [0, 0, 0] [0, 0, 0] [0, 0, 0] = some [[0, -rkG, 0]] := by decide +kernel

/-- **C26, violated** by a floating joint whose linear and angular velocities are not parallel: forward and
inverse dynamics take different accelerations for the same joint rate, so a free body in free fall needs a
force (src/rk_joint_float.c:121-130 is given the angular velocity of the parent by src/rk_abi.c:114 and that of
the link itself by src/rk_link.c:160-162). -/
theorem C26_float_fails : torquesBack (Sample.serial [(Sample.free, Sample.mp0, Frame.ident)])
    [0, 0, 0, 0, 0, 0] [1, 0, 0, 0, 0, 1] [0, 0, 0, 0, 0, 0] = some [[0, 2, 0, 0, 0, 0]] := by
  decide +kernel

namespace Sample
/-- A turning link about a horizontal axis, a link fixed to it and a turning link with another axis. -/
def arm : Chain ℚ := serial [(turn, mpx, side), (.fixed, mpx, ⟨⟨1, 0, 0⟩, 1⟩), (turn, mpx, side)]

theorem forall_of_map {α β : Type*} {f : α → β} {P : β → Prop} {xs : List α} {ys : List β}
    (e : xs.map f = ys) (h : ∀ y ∈ ys, P y) : ∀ x ∈ xs, P (f x) :=
  fun x hx => h _ (e ▸ List.mem_map_of_mem hx)

theorem arm_wf : arm.WF := ⟨⟨_, rfl⟩, .refl _⟩
end Sample

/-- The chain `Sample.arm` in motion meets every hypothesis of `C26_inverse_of_forward_partial`; the
accelerations are not zero. -/
theorem arm_meets : ∃ (c1 : Chain ℚ) (acc' : List ℚ),
    Sample.arm.WF ∧ setOffset Sample.arm.link = Sample.arm.link ∧ [1, 2].length = jointSize Sample.arm.link ∧
    (∀ l ∈ Sample.arm.link, l.abi.m = Link.abiInertia l.body.mp ∧ l.body.mp.inertia.Symm ∧ l.abi.wlist = []) ∧
    (∀ l, Sample.arm.link[0]? = some l → l.joint.prp.ABIRootGood) ∧
    (∀ (i : ℕ) (l : Link ℚ), Sample.arm.link[i + 1]? = some l → l.joint.prp.ABIGood) ∧
    Sample.arm.abi false [0, 0] [1, 2] [0, 0] = some (c1, some acc') ∧ (∀ l ∈ c1.link, AxisRegular l) ∧
    (∀ l ∈ c1.link, ∀ d, l.joint.prp = .float d ∨ l.joint.prp = .brfloat d → cross d.vel.lin d.vel.ang = 0) ∧
    acc' = [-7354989 / 2125000, 0] := by
  have key : (Sample.arm.abi false [0, 0] [1, 2] [0, 0]).map (fun r => (r.2, r.1.link.map fun l =>
      (l.joint.prp.typeStr, Zm.tiny (l.abi.axi 0 0)))) =
      some (some [-7354989 / 2125000, 0], [("revolute", false), ("fixed", true), ("revolute", false)]) := by
    decide +kernel
  rw [Option.map_eq_some_iff] at key
  obtain ⟨⟨c1, a⟩, e, hk⟩ := key
  simp only [Prod.mk.injEq] at hk
  obtain ⟨rfl, hk⟩ := hk
  have hl : ∀ l ∈ c1.link, (l.joint.prp.typeStr = "revolute" ∧ Zm.tiny (l.abi.axi 0 0) = false) ∨
      l.joint.prp.typeStr = "fixed" := by
    refine Sample.forall_of_map (f := fun l : Link ℚ => (l.joint.prp.typeStr, Zm.tiny (l.abi.axi 0 0)))
      (P := fun x => (x.1 = "revolute" ∧ x.2 = false) ∨ x.1 = "fixed") hk ?_
    intro y hy
    simp only [List.mem_cons, List.not_mem_nil, or_false] at hy
    rcases hy with rfl | rfl | rfl <;> simp
  refine ⟨c1, _, Sample.arm_wf, rfl, rfl, ?_, ?_, ?_, e, ?_, ?_, rfl⟩
  · intro l hl
    simp only [Sample.arm, Sample.serial, Chain.abiAlloc, List.mem_map] at hl
    obtain ⟨m, hm, rfl⟩ := hl
    refine ⟨rfl, ?_, rfl⟩
    have : ∀ m ∈ setOffset ([(Sample.turn, Sample.mpx, Sample.side), (.fixed, Sample.mpx, ⟨⟨1, 0, 0⟩, 1⟩),
        (Sample.turn, Sample.mpx, Sample.side)].map fun p : Prp ℚ × MP ℚ × Frame ℚ => Sample.link "l" p.1 p.2.1 p.2.2),
        m.body.mp = Sample.mpx := by
      refine Sample.forall_of_map (f := fun m : Link ℚ => m.body.mp) (P := fun x => x = Sample.mpx)
        (ys := [Sample.mpx, Sample.mpx, Sample.mpx]) rfl ?_
      simp
    show (Link.abiAlloc m).body.mp.inertia.Symm
    have h2 : (Link.abiAlloc m).body.mp = Sample.mpx := this m hm
    rw [h2]
    rfl
  · rintro l ⟨⟩; trivial
  · intro i l hi
    rcases i with _ | _ | i
    · cases hi; trivial
    · cases hi; trivial
    · simp [Sample.arm, Sample.serial, Chain.abiAlloc, setOffset, setOffsetFrom, Sample.link, Link.size,
        Prp.size, Sample.turn] at hi
  · intro l hl'
    rcases hl l hl' with ⟨h1, h2⟩ | h1 <;> cases hp : l.joint.prp <;> simp_all [Prp.typeStr, AxisRegular]
  · intro l hl' d hd
    rcases hl l hl' with ⟨h1, -⟩ | h1 <;> rcases hd with hp | hp <;> simp [hp, Prp.typeStr] at h1
section
variable {K : Type*} [Field K] [Zm K]

/-- **C26**: a revolute or prismatic joint whose inertia about its axis counts as zero gets the acceleration zero, and moves its link
and loads its parent with inertia as a fixed joint does. -/
theorem C26_degenerate (fx : Bool) (p : Prp K) (m : Mat6 K) (b jac acc : Vec6 K) (f : Frame K) (h ih : ℕ → ℕ → K)
    (hp : (∃ d, p = .revol d) ∨ ∃ d, p = .prism d) (ht : Zm.tiny ((p.abiAxisInertia fx m h ih).1 0 0) = true) :
    let ih' := (p.abiAxisInertia fx m h ih).2
    (p.abiQAcc fx m b jac ih' acc).1.getAcc = [0] ∧
    (p.abiQAcc fx m b jac ih' acc).2 = ((.fixed : Prp K).abiQAcc fx m b jac ih' acc).2 ∧
    p.abiABI fx m f ih' = (.fixed : Prp K).abiABI fx m f ih' := by
  have hd : ∀ w : Vec6 K, Mat6.dyad 0 w + m = m := by
    intro w
    rcases m with ⟨⟨⟨_, _, _⟩, ⟨_, _, _⟩, ⟨_, _, _⟩⟩, ⟨⟨_, _, _⟩, ⟨_, _, _⟩, ⟨_, _, _⟩⟩, ⟨⟨_, _, _⟩, ⟨_, _, _⟩, ⟨_, _, _⟩⟩,
      ⟨⟨_, _, _⟩, ⟨_, _, _⟩, ⟨_, _, _⟩⟩⟩
    vec_unfold
    simp
  rcases hp with ⟨d, rfl⟩ | ⟨d, rfl⟩ <;>
    simp only [Prp.abiAxisInertia] at ht <;>
    simp [Prp.abiAxisInertia, Prp.abiQAcc, Prp.abiABI, Prp.invAxis, ht, Prp.getAcc] <;> rw [hd]
end

example : Zm.tiny (((Prp.revol (Sample.dof1 0 0 0 0 1 none none) : Prp ℚ).abiAxisInertia false 0 (fun _ _ => 1) fun _ _ => 1).1 0 0) =
    true := by decide +kernel

end Roki
