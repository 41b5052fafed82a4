import Verif.Model.ChainTree

/-! # Concrete joints and links used in the examples beside the theorems -/

namespace Roki.Sample
variable {K : Type*} [Field K]

/-- A one-degree-of-freedom property block at displacement `q`, velocity `v`, acceleration `a`, with
cached sine and cosine. -/
def dof1 (q v a s c : K) (lo hi : Option K) : Dof1 K :=
  { dis := q, vel := v, acc := a, trq := 0, lo := lo, hi := hi, stiffness := 0, viscosity := 0,
    coulomb := 0, s := s, c := c, tf := 0, sf := 0, motor := Motor.none, fp := ⟨0, 0, 0⟩, u := 0 }

/-- A two-degree-of-freedom property block. -/
def dof2 (v0 v1 s0 c0 s1 c1 : K) : Dof2 K :=
  { dis0 := 0, dis1 := 0, vel0 := v0, vel1 := v1, acc0 := 0, acc1 := 0, trq0 := 0, trq1 := 0,
    lo0 := none, lo1 := none, hi0 := none, hi1 := none, stiffness0 := 0, stiffness1 := 0,
    viscosity0 := 0, viscosity1 := 0, coulomb0 := 0, coulomb1 := 0, s0 := s0, s1 := s1, c0 := c0,
    c1 := c1, tf0 := 0, tf1 := 0, sf0 := 0, sf1 := 0, motor := Motor.none, fp0 := ⟨0, 0, 0⟩,
    fp1 := ⟨0, 0, 0⟩, u0 := 0, u1 := 0 }

/-- A floating property block at the origin. -/
def flt (v : Vec6 K) : FloatPrp K :=
  { dis := 0, vel := v, acc := 0, trq := 0, att := 1, epf := none, ept := none }

/-- A spherical property block at the origin. -/
def sph (v : Vec3 K) : SpherPrp K :=
  { aa := 0, vel := v, acc := 0, trq := 0, att := 1, motor := Motor.none }

/-- A zero workspace of forward dynamics. -/
def abi : ABIPrp K :=
  { m := 0, i := 0, f := 0, b := 0, c := 0, wlist := [], w := 0, w0 := 0, b0 := 0, a0 := 0,
    path := false, axi := fun _ _ => 0, iaxi := fun _ _ => 0 }

/-- A link with the given name, joint, mass properties and original frame. -/
def link (name : String) (p : Prp K) (mp : MP K) (org : Frame K) : Link K :=
  { name := name, joint := ⟨p, 0⟩, body := { (Body.init : Body K) with mp := mp }, offset := -1,
    org := org, adj := Frame.ident, abi := abi }

/-- A unit mass at (0,0,1) with unit inertia. -/
def mp1 : MP K := ⟨1, ⟨0, 0, 1⟩, 1⟩

/-- Four links with a floating, a fixed, a revolute and a hooke joint. -/
def links : List (Link K) :=
  [ link "base" (.float (flt 0)) mp1 Frame.ident,
    link "fixed" .fixed mp1 Frame.ident,
    link "arm" (.revol (dof1 0 0 0 0 1 none none)) mp1 ⟨⟨1, 0, 0⟩, 1⟩,
    link "wrist" (.hooke (dof2 0 0 0 1 0 1)) mp1 ⟨⟨0, 1, 0⟩, 1⟩ ]

/-- A chain of the four links: link 0 has the children 1 and 2, link 2 has the child 3. -/
def chain : Chain K :=
  { link := LinkArray.setOffset links,
    shape := .node 0 (.node 1 .nil (.node 2 (.node 3 .nil .nil) .nil)) .nil,
    mass := 4, wldCOM := 0, comVel := 0, comAcc := 0 }

theorem chain_wf : (chain (K := K)).WF := ⟨⟨_, rfl⟩, .refl _⟩

end Roki.Sample
