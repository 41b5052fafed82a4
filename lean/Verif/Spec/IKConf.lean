import Verif.Spec.IK
import Verif.Model.ChainFile
set_option autoImplicit false

/-! # Configuration files of the inverse kinematics solver: what a file says, and the calls it stands for -/

namespace Roki.Spec

/-- The kinds of constraints. -/
inductive ConfKind where
  | worldPos | worldAtt | l2lPos | l2lAtt | com | am | amcom

/-- The name of a kind of constraints in a file. -/
def ConfKind.name : ConfKind → String
  | worldPos => "world_pos" | worldAtt => "world_att" | l2lPos => "l2l_pos" | l2lAtt => "l2l_att"
  | com => "com" | am => "am" | amcom => "amcom"

/-- An argument of a constraint: a link, the attention point, the weight, the mode that ignores the priority of the error. -/
inductive ConfArg (K : Type*) where
  | link (i : ℕ) | point (v : Vec3 K) | weight (v : Vec3 K) | force

/-- A line of a file: register all joints; register the joint of link `i`; put the joint of link `i` at a displacement; register
a constraint. -/
inductive ConfLine (K : Type*) where
  | all (w : Option K) | joint (i : ℕ) (w : Option K) | pose (i : ℕ) (v : List K)
  | constraint (k : ConfKind) (args : List (ConfArg K))

section
variable {K : Type*} [Field K] [LinearOrder K] [Zm K]

/-- How an argument is written; `nm i` is the name of link `i`. -/
def ConfArg.toks (nm : ℕ → String) : ConfArg K → List (ZTK.Tok K)
  | .link i => [.str (nm i)]
  | .point v => [.str "at", .num v.x, .num v.y, .num v.z]
  | .weight v => [.str "w", .num v.x, .num v.y, .num v.z]
  | .force => [.str "f"]

/-- How a line is written. -/
def ConfLine.fld (nm : ℕ → String) : ConfLine K → ZTK.Fld K
  | .all w => ⟨"joint", .str "all" :: w.toList.map .num⟩
  | .joint i w => ⟨"joint", .str (nm i) :: w.toList.map .num⟩
  | .pose i v => ⟨"joint", .str (nm i) :: .num 0 :: v.map .num⟩
  | .constraint k args => ⟨"constraint", .str k.name :: args.flatMap (ConfArg.toks nm)⟩

/-- Displacements in files are in metres and degrees; the displacements of spherical and free joints are angle-axis vectors. -/
def siDis (p : Prp K) (v : List K) : List K :=
  match p, v with
  | .revol _, [x] => [x * Zm.pi / 180]
  | .cylin _, [x, y] => [x, y * Zm.pi / 180]
  | .hooke _, [x, y] => [x * Zm.pi / 180, y * Zm.pi / 180]
  | _, v => v

/-- The links, points and weights among arguments, in order. -/
def ConfArg.links : List (ConfArg K) → List ℕ := List.filterMap fun | .link i => some i | _ => none
def ConfArg.points : List (ConfArg K) → List (Vec3 K) := List.filterMap fun | .point v => some v | _ => none
def ConfArg.weights : List (ConfArg K) → List (Vec3 K) := List.filterMap fun | .weight v => some v | _ => none

/-- What the arguments of a constraint say: the first link is the one that is constrained, the last further link the one it is seen
from; the last point and the last weight count. -/
def confAttr (args : List (ConfArg K)) : IKAttr K :=
  { id := (ConfArg.links args).head?.getD 0, idSub := (ConfArg.links args).tail.getLast?.getD 0,
    ap := (ConfArg.points args).getLast?.getD 0, xon := false, yon := false, zon := false, force := false,
    w := (ConfArg.weights args).getLast?.getD ⟨1, 1, 1⟩ }

/-- The functions of a kind of constraints. -/
def ConfKind.fns (acm : IKAcm K → Vec3 K → IKAcm K × Vec3 K) : ConfKind → IKFns K
  | worldPos => IKFns.wldPos | worldAtt => IKFns.wldAtt acm | l2lPos => IKFns.l2lPos | l2lAtt => IKFns.l2lAtt acm
  | com => IKFns.com | am => IKFns.am acm | amcom => IKFns.amCOM acm

/-- The call that a line stands for; a new constraint gets the address `ptr`.  `ls` are the links of the chain. -/
def ConfLine.op (acm : IKAcm K → Vec3 K → IKAcm K × Vec3 K) (ls : List (Link K)) (ptr : ℕ) : ConfLine K → IK.Op K
  | .all w => .jointRegAll (w.getD (1 / 1000))
  | .joint i w => .jointReg i (w.getD (1 / 1000))
  | .pose i v => .chain (.setDis [i] ((ls[i]?.map fun l => siDis l.joint.prp v).getD []))
  | .constraint k args => .cellReg ptr (some (confAttr args))
      ⟨true, true, true, args.any fun | .force => true | _ => false, true⟩ (k.fns acm)

/-- The lines of joints. -/
def ConfLine.isJoint : ConfLine K → Bool
  | .constraint _ _ => false
  | _ => true

/-- The calls that lines stand for. -/
def confOps (acm : IKAcm K → Vec3 K → IKAcm K × Vec3 K) (ls : List (Link K)) : ℕ → List (ConfLine K) → List (IK.Op K)
  | _, [] => []
  | ptr, l :: lines => l.op acm ls ptr :: confOps acm ls (if l.isJoint then ptr else ptr + 1) lines

/-- The order of the lines: as in the file, or joints first. -/
def confOrder (o : ZTK.Order) (lines : List (ConfLine K)) : List (ConfLine K) :=
  match o with
  | .file => lines
  | .table => lines.filter ConfLine.isJoint ++ lines.filter fun l => !l.isJoint

/-- A line that makes sense for a chain: joints that are named are movable, a weight of a joint is not zero, a displacement has as
many components as the joint, and links exist. -/
def ConfLine.Valid (ls : List (Link K)) : ConfLine K → Prop
  | .all _ => True
  | .joint i w => Movable ls i ∧ w ≠ some 0
  | .pose i v => ∃ l, ls[i]? = some l ∧ 0 < l.joint.prp.size ∧ v.length = l.joint.prp.size
  | .constraint _ args => ∀ i ∈ ConfArg.links args, i < ls.length

/-- Names that can be used in a file: different, and not words of the file format. -/
def Nameable (ls : List (Link K)) : Prop :=
  (ls.map fun l => l.name).Nodup ∧ ∀ l ∈ ls, l.name ∉ ["all", "at", "w", "f"]

/-- The name of a link. -/
def linkName (ls : List (Link K)) (i : ℕ) : String := (ls[i]?.map fun l => l.name).getD ""

/-- A line that does not make sense for a chain: a joint of a link that does not exist, a fixed joint, an unknown kind of
constraints, a constraint on a link that does not exist. -/
inductive ConfBad (ls : List (Link K)) : ZTK.Fld K → Prop
  | noJoint (n : String) (w : Option K) : n ≠ "all" → n ∉ ls.map (fun l => l.name) →
      ConfBad ls ⟨"joint", .str n :: w.toList.map .num⟩
  | fixed (i : ℕ) (l : Link K) (w : Option K) : ls[i]? = some l → l.joint.prp.size = 0 → w ≠ some 0 →
      ConfBad ls ⟨"joint", .str l.name :: w.toList.map .num⟩
  | noKind (n : String) (ts : List (ZTK.Tok K)) : (∀ k : ConfKind, k.name ≠ n) → ConfBad ls ⟨"constraint", .str n :: ts⟩
  | noLink (k : ConfKind) (n : String) (args : List (ConfArg K)) (ts : List (ZTK.Tok K)) :
      (∀ i ∈ ConfArg.links args, i < ls.length) → n ∉ ["at", "w", "f"] → n ∉ ls.map (fun l => l.name) →
      ConfBad ls ⟨"constraint", .str k.name :: args.flatMap (ConfArg.toks (linkName ls)) ++ .str n :: ts⟩

end
end Roki.Spec
