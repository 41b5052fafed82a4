import Verif.Model.ChainTree
import Verif.Spec.Tree

/-!
# Specification of the kinematics of a chain

The transformation made by a joint, written from textbook rotation matrices and independently of
the update functions of the model.
-/

namespace Roki.Spec
variable {K : Type*} [Field K]

/-- Rotation about the z-axis by the angle with the given sine and cosine. -/
def Rz (s c : K) : Mat3 K := ⟨⟨c, s, 0⟩, ⟨-s, c, 0⟩, ⟨0, 0, 1⟩⟩
/-- Rotation about the y-axis. -/
def Ry (s c : K) : Mat3 K := ⟨⟨c, 0, -s⟩, ⟨0, 1, 0⟩, ⟨s, 0, c⟩⟩

/-- The relative frame a joint makes: rotation about z, translation along z, both, rotation about z
then y, free rotation, free motion. -/
def jointFrame : Prp K → Frame K
  | .fixed => ⟨0, 1⟩
  | .revol p => ⟨0, Rz p.s p.c⟩
  | .prism p => ⟨⟨0, 0, p.dis⟩, 1⟩
  | .cylin p => ⟨⟨0, 0, p.dis0⟩, Rz p.s1 p.c1⟩
  | .hooke p => ⟨0, (Rz p.s0 p.c0).mul (Ry p.s1 p.c1)⟩
  | .spher p => ⟨0, p.att⟩
  | .float p => ⟨p.dis.lin, p.att⟩
  | .brfloat p => ⟨p.dis.lin, p.att⟩

/-- The frame of a link with respect to its parent: original frame, then the joint. -/
def linkFrame (l : Link K) : Frame K := l.org.cascade (jointFrame l.joint.prp)

/-- Ordered product of frames. -/
def product : List (Frame K) → Frame K
  | [] => ⟨0, 1⟩
  | f :: fs => f.cascade (product fs)

/-- A link with what forward kinematics computes erased. -/
def eraseFK (l : Link K) : Link K :=
  { l with adj := Frame.ident, body := { l.body with frame := Frame.ident, wldCOM := 0 } }

/-- What forward kinematics computes for a link. -/
def fkResult (l : Link K) : List K × Frame K × Frame K × Vec3 K :=
  (l.joint.prp.getDis, l.adj, l.body.frame, l.body.wldCOM)

/-- The constant data of a joint that forward kinematics may depend on: its type and its limits. -/
def jointConst (p : Prp K) : String × List (Option K) × List (Option K) :=
  (p.typeStr, p.getMin, p.getMax)

/-- The constant data of a link that forward kinematics may depend on. -/
def fkConst (l : Link K) : (String × List (Option K) × List (Option K)) × ℤ × Frame K × MP K :=
  (jointConst l.joint.prp, l.offset, l.org, l.body.mp)

end Roki.Spec
