import Verif.Props.ABIFails
import Verif.Props.Mass
set_option autoImplicit false

/-! # C29, C55: gravity and spatial inertia in forward dynamics -/

namespace Roki
open Spec LinkArray
set_option linter.unusedSectionVars false
variable {K : Type*} [Field K]

namespace Spec
/-- Linear momentum and angular momentum about the origin of particles (mass, position) that move with
a rigid body with the velocity `t` at the origin. -/
def particleMomentum (ps : List (K × Vec3 K)) (t : Vec6 K) : Vec6 K :=
  (ps.map fun p =>
    let v := t.lin + cross t.ang p.2
    (⟨p.1 • v, cross p.2 (p.1 • v)⟩ : Vec6 K)).sum

/-- `mp` are the mass properties of particles: mass, first moment and second moment. -/
structure MassOf (mp : MP K) (ps : List (K × Vec3 K)) : Prop where
  mass : mp.mass = (ps.map fun p => p.1).sum
  com : mp.mass • mp.com = (ps.map fun p => p.1 • p.2).sum
  inertia : inertiaAbout mp 0 = (ps.map fun p => p.1 • (dot p.2 p.2 • (1 : Mat3 K) - Mat3.dyad p.2 p.2)).sum
end Spec

theorem abiInertia_mulVec (mp : MP K) (v : Vec6 K) : (Link.abiInertia mp).mulVec v =
    ⟨mp.mass • v.lin + cross v.ang (mp.mass • mp.com),
      cross (mp.mass • mp.com) v.lin + (inertiaAbout mp 0).mulVec v.ang⟩ := by
  simp only [Link.abiInertia, Mat6.mulVec, inertiaAbout]
  vec_ring

/-- **C55.**  The inertia prepared for forward dynamics, applied to the velocity of a link at its origin,
is the linear momentum of the link and its angular momentum about the origin. -/
theorem C55_momentum (mp : MP K) (t : Vec6 K) :
    let p := mp.mass • (t.lin + cross t.ang mp.com)
    (Link.abiInertia mp).mulVec t = ⟨p, mp.inertia.mulVec t.ang + cross mp.com p⟩ := by
  simp only [Link.abiInertia, Mat6.mulVec]
  vec_ring

/-- **C55.**  The same momentum as the particles of which the link consists. -/
theorem C55_particles (mp : MP K) (ps : List (K × Vec3 K)) (h : MassOf mp ps) (t : Vec6 K) :
    (Link.abiInertia mp).mulVec t = particleMomentum ps t := by
  rw [abiInertia_mulVec, h.com, h.mass, h.inertia]
  clear h
  unfold particleMomentum
  induction ps with
  | nil => simp only [List.map_nil, List.sum_nil]; vec_ring
  | cons p ps ih =>
    simp only [List.map_cons, List.sum_cons]
    rw [← ih]
    generalize (ps.map fun p => p.1).sum = a
    generalize (ps.map fun p => p.1 • p.2).sum = b
    generalize (ps.map fun p => p.1 • (dot p.2 p.2 • (1 : Mat3 K) - Mat3.dyad p.2 p.2)).sum = c
    simp only [Vec6.ext_iff, Vec6.add_lin, Vec6.add_ang, Mat3.add_mulVec, Mat3.smul_mulVec, Mat3.sub_mulVec,
      Mat3.dyad_mulVec, Mat3.one_mulVec, cross_add_left, cross_add_right, add_smul]
    constructor
    · vec_ring
    · have : p.1 • (dot p.2 p.2 • t.ang - dot p.2 t.ang • p.2) = p.1 • cross p.2 (cross t.ang p.2) := by vec_ring
      rw [this, smul_add, cross_add_right, cross_smul_left, cross_smul_right, cross_smul_right]
      abel

/-- **C55.**  Moving an inertia to another frame keeps it symmetric and keeps the energy of every motion;
momentum is transformed like a wrench. -/
theorem C55_transfer (m : Mat6 K) (hm : m.Symm) (f : Frame K) (t : Vec6 K) :
    (m.xform f).Symm ∧
    (m.xform f).mulVec t = f.xform6Ang (m.mulVec (f.xform6Lin t)) ∧
    t.dot6 ((m.xform f).mulVec t) = (f.xform6Lin t).dot6 (m.mulVec (f.xform6Lin t)) :=
  ⟨hm.xform f, hm.xform_mulVec f t, by rw [hm.xform_mulVec, Frame.dot6_xform6Lin]⟩

/-- **C55.**  Moving the inertia of a body to another frame gives the inertia of the moved body. -/
theorem C55_moved_body (mp : MP K) (hs : mp.inertia.Symm) (f : Frame K) (hf : f.att.IsRot) (t : Vec6 K) :
    ((Link.abiInertia mp).xform f).mulVec t = (Link.abiInertia (mp.xform f)).mulVec t := by
  rw [(Link.abiInertia_symm hs).xform_mulVec, C55_momentum, C55_momentum]
  simp only [Frame.xform6Lin, Frame.xform6Ang, Mat3.mulVecT6, Mat3.mulVec6, Vec6.linShift, Vec6.angShift,
    MP.xform, Frame.xform, Vec6.ext_iff, Mat3.rot_mulVec, Mat3.mulVec_add, Mat3.mulVec_smul, hf.mulVec_cross,
    hf.mulVec_mulVecT, cross_add_right, cross_add_left, cross_smul_right, smul_add]
  constructor <;> abel

/-- **C55.**  The inertia of two bodies joined rigidly is the sum of their inertias. -/
theorem C55_combine (a b : MP K) (h : a.mass + b.mass ≠ 0) (t : Vec6 K) :
    (Link.abiInertia (MP.combine a b)).mulVec t =
      (Link.abiInertia a).mulVec t + (Link.abiInertia b).mulVec t := by
  obtain ⟨h1, h2, h3⟩ := C16_combine_moments a b h 0
  rw [abiInertia_mulVec, abiInertia_mulVec, abiInertia_mulVec, h2, h3, h1]
  simp only [Vec6.ext_iff, Vec6.add_lin, Vec6.add_ang, Mat3.add_mulVec, cross_add_left, cross_add_right, add_smul]
  constructor <;> abel

/-- The mass properties of two unit particles on the x-axis. -/
example : MassOf (⟨2, ⟨1, 0, 0⟩, ⟨⟨0, 0, 0⟩, ⟨0, 2, 0⟩, ⟨0, 0, 2⟩⟩⟩ : MP ℚ)
    [(1, ⟨0, 0, 0⟩), (1, ⟨2, 0, 0⟩)] := ⟨by decide +kernel, by decide +kernel, by decide +kernel⟩

/-! ## C29 -/

/-- `rkGravitySet(g)`, include/roki/rk_g3d.h:24: the value of the global gravity vector afterwards. -/
def gravitySet (g : K) : Vec6 K := ⟨⟨0, 0, g⟩, 0⟩

/-- **C29.**  With the default gravity, forward and inverse dynamics use the same gravity: under the
hypotheses of `C26_inverse_of_forward_partial`, inverse dynamics gives back the applied torques.
Missing: any other gravity, see `C29_fails`. -/
theorem C29_default_gravity_partial [LinearOrder K] [IsStrictOrderedRing K] [Zm K] [LawfulZm K]
    (c c1 : Chain K) (fx : Bool) (dis vel acc acc' : List K) (h : c.WF)
    (ho : setOffset c.link = c.link) (hv : vel.length = jointSize c.link)
    (ha : acc.length = jointSize c.link)
    (hm : ∀ l ∈ c.link, l.abi.m = Link.abiInertia l.body.mp ∧ l.body.mp.inertia.Symm ∧ l.abi.wlist = [])
    (hroot : ∀ l, c.link[0]? = some l → l.joint.prp.ABIRootGood)
    (hgood : ∀ (i : ℕ) (l : Link K), c.link[i + 1]? = some l → l.joint.prp.ABIGood)
    (e : c.abi fx dis vel acc = some (c1, some acc'))
    (hr : ∀ l ∈ c1.link, AxisRegular l)
    (hfx : fx = true → ∀ l ∈ c1.link, ∀ d, l.joint.prp ≠ .brfloat d)
    (hf : ∀ l ∈ c1.link, ∀ d, l.joint.prp = .float d ∨ l.joint.prp = .brfloat d →
      cross d.vel.lin d.vel.ang = 0) (g : K) (hg : g = rkG) :
    ∃ c2, c1.invDyn (gravitySet g) vel acc' = some c2 ∧
      ∀ (i : ℕ) (l1 l2 : Link K), c1.link[i]? = some l1 → c2.link[i]? = some l2 →
        l2.joint.prp.getTrq = appliedTrq l1.joint.prp := by
  subst hg
  obtain ⟨c2, e2, h2⟩ := C26_inverse_of_forward_partial c c1 fx dis vel acc acc' h ho hv ha hm hroot hgood e hr hfx hf
  exact ⟨c2, e2, fun i l1 l2 a b => (h2 i l1 l2 a b).1⟩

/-- **C29, violated.**  After `rkGravitySet(0)` a body on a vertical slide, with no motor, friction or
external force, still falls in forward dynamics (src/rk_abi.c:105 uses the constant `RK_G`), and inverse
dynamics needs a force to explain it. -/
theorem C29_fails :
    ((Sample.serial [(Sample.slide, Sample.mp0, Frame.ident)]).abi false [0] [0] [0]).bind (fun r => r.2.bind fun a =>
      (r.1.invDyn (gravitySet 0) [0] a).map fun c2 => (a, c2.link.map fun l => l.joint.prp.getTrq)) =
    some ([-rkG], [[-rkG]]) := by decide +kernel

end Roki
