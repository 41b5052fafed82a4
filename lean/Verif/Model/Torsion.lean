import Verif.Model.ChainTree
import Verif.Model.IK
set_option autoImplicit false

/-!
# Joint torsion and configurations of links

`rkJointTorsion` (src/rk_joint.c:105-135 and the joint files), `rkLinkConfToJointDis` (src/rk_link.c:213-232),
`rkChainGetConf` and `rkChainSetConf` (src/rk_chain.c:327-344).
-/

namespace Roki

/-- `atan2` of libm. -/
class ZAtan (K : Type*) where
  atan2 : K → K → K

variable {K : Type*} [Field K] [LinearOrder K] [Zm K] [ZSqrt K] [ZAtan K]

/-- `zVec3DAngle(v1,v2,n)` (Zeo): the angle from `v1` to `v2`, with the sign given by the direction `n`. -/
def vec3Angle (v1 v2 n : Vec3 K) : K :=
  let d := cross v1 v2
  let s := ZSqrt.sqrt (sqrNorm d)
  ZAtan.atan2 (if dot d n < 0 then -s else s) (dot v1 v2)

/-- `rkJointRevolTorsionDis`: src/rk_joint.c:106-124; gives the displacement and the angular torsion.  `none` where the
code divides by zero (line 116): `l` is zero though the angle is not. -/
def revolTorsionDis (dev : Frame K) : Option (K × Vec3 K) :=
  let aa0 : Vec3 K := ⟨-dev.att.cz.y, dev.att.cz.x, 0⟩
  let l := ZSqrt.sqrt (aa0.x * aa0.x + aa0.y * aa0.y)
  let angle := ZAtan.atan2 l dev.att.cz.z
  (if Zm.tiny angle then some 0 else if l = 0 then none else some ((angle / l) • aa0)).map fun aa =>
    let rm : Mat3 K := Zm.fromAA aa
    (1 / 2 * (vec3Angle rm.cx dev.att.cx rm.cz + vec3Angle rm.cy dev.att.cy rm.cz), dev.att.mulVecT aa)

/-- `rkJointPrismTorsionDis`: src/rk_joint.c:126-135; gives the displacement and the linear torsion. -/
def prismTorsionDis (dev : Frame K) : K × Vec3 K :=
  let lin := dev.att.mulVecT dev.pos
  (lin.z, ⟨lin.x, lin.y, 0⟩)

/-- `rkJointTorsion`: src/rk_joint_fixed.c:40-44, rk_joint_revol.c:132-135, rk_joint_prism.c:124-129,
rk_joint_cylin.c:145-148, rk_joint_hooke.c:153-165, rk_joint_spher.c:138-142, rk_joint_float.c:145-148,
rk_joint_brfloat.c:155-158; gives the torsion and the joint displacement.  The array of displacements of a fixed joint is
left as it is. -/
def Prp.torsion (p : Prp K) (dev : Frame K) : Option (Vec6 K × List K) :=
  let r := dev.att
  match p with
  | .fixed => some (r.mulVecT6 ⟨dev.pos, Zm.toAA r⟩, [])
  | .revol _ => (revolTorsionDis dev).map fun q => (⟨r.mulVecT dev.pos, q.2⟩, [q.1])
  | .prism _ =>
    let q := prismTorsionDis dev
    some (⟨q.2, r.mulVecT (Zm.toAA r)⟩, [q.1])
  | .cylin _ =>
    let d := prismTorsionDis dev
    (revolTorsionDis dev).map fun q => (⟨d.2, q.2⟩, [d.1, q.1])
  | .hooke _ =>
    let qx := ZAtan.atan2 r.cy.z r.cy.y
    let s := Zm.sin qx
    let c := Zm.cos qx
    let d0 := ZAtan.atan2 (-r.cy.x) (c * r.cy.y + s * r.cy.z)
    let c' := Zm.cos d0
    some (⟨r.mulVecT dev.pos, qx • r.tr.cx⟩, [d0, ZAtan.atan2 (c' * r.cz.x) (c' * r.cx.x)])
  | .spher _ => some (⟨r.mulVecT dev.pos, 0⟩, (Zm.toAA r).toBuf)
  | .float _ => some (0, dev.pos.toBuf ++ (Zm.toAA r).toBuf)
  | .brfloat _ => some (0, dev.pos.toBuf ++ (Zm.toAA r).toBuf)

namespace Chain

/-- One link of `rkLinkConfToJointDis`: src/rk_link.c:219-226.  `par` is the parent pointer. -/
def confLink (par : Option ℕ) (i : ℕ) (ls : List (Link K)) : Option (List (Link K)) := do
  let l : Link K ← ls[i]?
  let org : Frame K ← match par with
    | some p => (ls[p]?).map fun pl => pl.body.frame.cascade l.org
    | none => some l.org
  let (_, dis) ← l.joint.prp.torsion (org.xformF l.body.frame)
  let prp ← l.joint.prp.setDis dis
  some (ls.set i { l with joint := { l.joint with prp := prp } })

/-- `rkLinkConfToJointDis`: src/rk_link.c:213-232. -/
def confAt (par : Option ℕ) : LTree ℕ → List (Link K) → Option (List (Link K))
  | .nil, ls => some ls
  | .node i c s, ls => do
    let ls1 ← confLink par i ls
    let ls2 ← confAt (some i) c ls1
    confAt par s ls2

/-- `rkChainGetConf`: src/rk_chain.c:327-334, with `zFrame3DToArrayAA` (Zeo): position, then angle-axis vector. -/
def getConf (c : Chain K) : List K :=
  c.link.flatMap fun l => l.body.frame.pos.toBuf ++ (Zm.toAA l.body.frame.att).toBuf

/-- The loop of `rkChainSetConf`, src/rk_chain.c:341-342, with `zArrayToFrame3DAA` (Zeo). -/
def setConfFrames : List K → List (Link K) → Option (List (Link K))
  | _, [] => some []
  | v, l :: ls => (Vec6.ofBuf v).bind fun x => (setConfFrames (v.drop 6) ls).map
      ({ l with body := { l.body with frame := ⟨x.lin, Zm.fromAA x.ang⟩ } } :: ·)

/-- `rkChainSetConf`: src/rk_chain.c:337-344. -/
def setConf (conf : List K) (c : Chain K) : Option (Chain K) :=
  (setConfFrames conf c.link).bind fun ls => (confAt none c.shape ls).map fun ls' => { c with link := ls' }

end Chain
end Roki
