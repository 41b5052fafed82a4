import Verif.Spec.Placed
import Verif.Spec.History
set_option autoImplicit false

/-! # Specification: a robot carried elsewhere with its whole state, and the same history there (C114) -/

namespace Roki.Spec
variable {K : Type*} [Field K]

/-- A link carried along by the motion `X`: what is given in the world moves, what is given in the axes of the link stays.  The root is
attached to the world, so that its original frame and its frame relative to the world move too. -/
def carryLink (X : Frame K) (root : Bool) (l : Link K) : Link K :=
  { l with
    org := if root then X.cascade l.org else l.org
    adj := if root then X.cascade l.adj else l.adj
    body := { l.body with frame := X.cascade l.body.frame, wldCOM := X.xform l.body.wldCOM } }

/-- The robot `c`, in its state, carried along by the motion `X`. -/
def carried (X : Frame K) (c : Chain K) : Chain K :=
  { c with
    link := c.link.mapIdx fun i l => carryLink X (i == 0) l
    wldCOM := X.xform c.wldCOM
    comVel := X.att.mulVec c.comVel
    comAcc := X.att.mulVec c.comAcc }

/-- The same action at the other place: the gravity given to inverse dynamics is turned along, the rest is the same. -/
def carryAct (X : Frame K) : Act K → Act K
  | .updateID g => .updateID (turned X g)
  | a => a

/-- What a motion has to satisfy for an action: inverse dynamics wants a gravity without angular part; forward dynamics uses a gravity along the
vertical of the world, whatever the gravity that is set, so that the motion must keep the vertical. -/
def Act.allows (X : Frame K) : Act K → Prop
  | .updateID g => g.ang = 0
  | .updateABI _ _ => X.att.mulVec ⟨0, 0, 1⟩ = ⟨0, 0, 1⟩
  | _ => True

end Roki.Spec
