import Verif.Model.IK
import Verif.Model.ChainFile
set_option autoImplicit false

/-!
# Configuration files of the inverse kinematics solver: src/rk_ik.c:409-531

The file format and the functions of ZEDA are as in `Verif/Model/ChainFile.lean`.  A token that is a number where a name is
expected, and missing tokens, are outside the model (`Res.ub`).
-/

namespace Roki.ZTK
variable {K : Type*} [Field K] [LinearOrder K] [Zm K]

/-- `__rk_ik_lookup`, src/rk_ik.c:410-422, with the registration functions 373-407; `acm` is `rkIKAcmAtt`. -/
def ikLookup (acm : IKAcm K → Vec3 K → IKAcm K × Vec3 K) : List (String × IKFns K) :=
  [("world_pos", IKFns.wldPos), ("world_att", IKFns.wldAtt acm), ("l2l_pos", IKFns.l2lPos), ("l2l_att", IKFns.l2lAtt acm),
   ("com", IKFns.com), ("am", IKFns.am acm), ("amcom", IKFns.amCOM acm)]

/-- The solver and the address that the allocator gives to the next constraint; addresses increase.  A simplification of `zAlloc`
at src/rk_ik.c:185. -/
abbrev IKSt (K : Type*) := IK K × ℕ

/-- The number of the link with a name, `zArrayFindName` (ZEDA), src/rk_ik.c:446 and 483. -/
def ikLink (ik : IK K) (n : String) : Option ℕ := (ik.chain.link.map fun l => l.name).findIdx? fun m => m == n

/-- The weight of a line `joint`, src/rk_ik.c:441-442, and the tokens after it; `RK_IK_JOINT_WEIGHT_DEFAULT` is 0.001
(include/roki/rk_ik.h:230). -/
def ikWeight : List (Tok K) → Option (K × List (Tok K))
  | [] => some (1 / 1000, [])
  | .num w :: ts => some (w, ts)
  | _ => none

/-- The result of a registration as that of a reading function, src/rk_ik.c:444 and 455. -/
def ikRes (s : IKSt K) : Option (Bool × IK K) → Res (IKSt K)
  | none => .ub
  | some (true, ik) => .ok (ik, s.2)
  | some (false, ik) => .null (ik, s.2)

/-- `_rkIKJointFromZTK`, src/rk_ik.c:436-456. -/
def ikJointRead (s : IKSt K) : List (Tok K) → Res (IKSt K)
  | .str n :: ts => match ikWeight ts with
    | none => .ub
    | some (w, ts) =>
      if n = "all" then ikRes s (s.1.jointRegAll w)
      else match ikLink s.1 n with
        | none => .null s
        | some i => match s.1.chain.link[i]? with
          | none => .ub
          | some l =>
            if w = 0 then match disRead l.joint.prp ts with
              | none => .ub
              | some p => .ok ({ s.1 with chain := { s.1.chain with
                  link := s.1.chain.link.set i { l with joint := { l.joint with prp := p } } } }, s.2)
            else if l.size = 0 then .null s
            else ikRes s (s.1.jointReg i w)
  | _ => .ub

/-- The local variables of `_rkIKConstraintFromZTK`, src/rk_ik.c:459-462. -/
structure ConsVars (K : Type*) where
  attr : IKAttr K
  mask : IKMask
  linknum : ℕ

/-- The loop of `_rkIKConstraintFromZTK`, src/rk_ik.c:466-496. -/
def ikConsArgs (ik : IK K) : List (Tok K) → ConsVars K → Res (ConsVars K)
  | [], v => .ok v
  | .str n :: ts, v =>
    if n = "at" then match vecTok ts with
      | some x => ikConsArgs ik (ts.drop 3) { v with attr := { v.attr with ap := x }, mask := { v.mask with ap := true } }
      | none => .ub
    else if n = "w" then match vecTok ts with
      | some x => ikConsArgs ik (ts.drop 3) { v with attr := { v.attr with w := x }, mask := { v.mask with weight := true } }
      | none => .ub
    else if n = "f" then ikConsArgs ik ts { v with mask := { v.mask with force := true } }
    else match ikLink ik n with
      | none => .null v
      | some i =>
        if v.linknum = 0 then
          ikConsArgs ik ts { attr := { v.attr with id := i }, mask := { v.mask with id := true }, linknum := v.linknum + 1 }
        else
          ikConsArgs ik ts { attr := { v.attr with idSub := i }, mask := { v.mask with idSub := true }, linknum := v.linknum + 1 }
  | _ :: _, _ => .ub
termination_by ts => ts.length
decreasing_by all_goals (simp only [List.length_drop, List.length_cons]; omega)

/-- `_rkIKConstraintFromZTK`, src/rk_ik.c:457-498; `junk` is what the uninitialised variable `attr` holds.  `RK_IK_CELL_ATTR_NONE`
is the empty mask. -/
def ikConsRead (acm : IKAcm K → Vec3 K → IKAcm K × Vec3 K) (junk : IKAttr K) (s : IKSt K) : List (Tok K) → Res (IKSt K)
  | .str n :: ts => match (ikLookup acm).find? fun e => e.1 == n with
    | none => .null s
    | some e => match ikConsArgs s.1 ts ⟨junk, ⟨false, false, false, false, false⟩, 0⟩ with
      | .ub => .ub
      | .null _ => .null s
      | .ok v => match s.1.cellReg s.2 (some v.attr) v.mask e.2 with
        | none => .ub
        | some ik => .ok (ik, s.2 + 1)
  | _ => .ub

/-- `__ztk_prp_rkik`, src/rk_ik.c:500-503. -/
def ikTab (acm : IKAcm K → Vec3 K → IKAcm K × Vec3 K) (junk : IKAttr K) : List (Row (IKSt K) K) :=
  [ { key := "joint", rd := ikJointRead, pr := none },
    { key := "constraint", rd := ikConsRead acm junk, pr := none } ]

/-- `rkIKConfFromZTK`, src/rk_ik.c:514-518, with `_rkIKFromZTK`, 505-509, and the tag `ik` (include/roki/rk_ik.h:234).  The
flag is true if the result is not the null pointer: the result of `ZTKEvalTag` is not looked at. -/
def ikConf (o : Order) (acm : IKAcm K → Vec3 K → IKAcm K × Vec3 K) (junk : IKAttr K) (f : File K) (s : IKSt K) :
    Option (Bool × IKSt K) :=
  match evalTag (fun s _ sec => evalKeys o (ikTab acm junk) sec s) 0 (secs "ik" f) s with
  | .ub => none
  | .null s | .ok s => some (true, s)

/-- `rkIKConfReadZTK`, src/rk_ik.c:520-531, on a file that can be opened and parsed. -/
def ikConfRead (o : Order) (acm : IKAcm K → Vec3 K → IKAcm K × Vec3 K) (junk : IKAttr K) (c : Chain K)
    (jv : List (List K) → List K → List K → List K → List K → ℕ → K) (f : File K) : Option (Bool × IKSt K) :=
  ikConf o acm junk f (IK.create c jv, 0)

end Roki.ZTK
