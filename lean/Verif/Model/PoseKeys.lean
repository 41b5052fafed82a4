import Verif.Model.PoseFile
set_option autoImplicit false

/-!
# The keys that place a link

The keys `rot`, `frame` and `DH` of a section of a link and the key `frame` of the pose, which `Verif/Model/ChainFile.lean` leaves
out since they are not printed.  The functions of Zeo that read the values are parameters.
-/

namespace Roki.ZTK
variable {K : Type*} [Field K] [LinearOrder K] [Zm K]

/-- What Zeo makes of the values of the keys: `zAAFromZTK` (src/rk_link.c:277), `zFrame3DFromZTK` (282) and `zFrame3DDHFromZTK`
(286); `none` where the values are not enough. -/
structure PoseZeo (K : Type*) where
  aa : List (Tok K) → Option (Vec3 K)
  frame : List (Tok K) → Option (Frame K)
  dh : List (Tok K) → Option (Frame K)

/-- The row `rot`, src/rk_link.c:343 with 275-280: `zMat3DRotDRC` multiplies by the rotation from the left. -/
def rotRow (z : PoseZeo K) : Row (FLink K) K where
  key := "rot"
  rd := fun s ts => match z.aa ts with
    | some a => .ok { s with link := { s.link with org := { s.link.org with att := (Zm.fromAA a).mul s.link.org.att } } }
    | none => .ub
  pr := none

/-- The row `frame`, src/rk_link.c:344 with 281-284. -/
def frameRow (z : PoseZeo K) : Row (FLink K) K where
  key := "frame"
  rd := fun s ts => match z.frame ts with
    | some f => .ok { s with link := { s.link with org := f } }
    | none => .ub
  pr := none

/-- The row `DH`, src/rk_link.c:345 with 285-288. -/
def dhRow (z : PoseZeo K) : Row (FLink K) K where
  key := "DH"
  rd := fun s ts => match z.dh ts with
    | some f => .ok { s with link := { s.link with org := f } }
    | none => .ub
  pr := none

/-- `__ztk_prp_rklink`, src/rk_link.c:334-347, with all rows. -/
def linkTabZ (z : PoseZeo K) (names shapes : List String) : List (Row (FLink K) K) :=
  linkTab none names ++ [rotRow z, frameRow z, dhRow z, shapeRow shapes]

/-- `rkLinkFromZTK`, src/rk_link.c:353-364, with all keys. -/
def linkReadZ (z : PoseZeo K) (o : Order) (noname : String) (names shapes : List String) (motors : List (NMotor K))
    (sec : List (Fld K)) : Res (FLink K) :=
  (evalKeys o (linkTabZ z names shapes) sec (linkInit noname)).andThen fun s =>
    (jointRead o motors sec ⟨s.link.joint.prp, s.mname⟩).ignore.bind (fun _ => .ub) fun j =>
      .ok { s with link := { s.link with joint := { s.link.joint with prp := j.prp } }, com := true, mname := j.mname }

/-- `_rkChainLinkFromZTK`, src/rk_chain.c:601-606, with all keys. -/
def rdLinkZ (z : PoseZeo K) (o : Order) (noname : String) (r : Robot K) (i : ℕ) (sec : List (Fld K)) : Res (Robot K) :=
  let r0 := { r with link := r.link.set i (linkInit noname) }
  (linkReadZ z o noname r0.names r.shapes r.motors sec).bind
    (fun l => .null { r with link := r.link.set i l }) fun l => .ok { r with link := r.link.set i l }

/-- The row `frame` of the pose, src/rk_chain.c:650 with 624-627. -/
def initFrameRow (z : PoseZeo K) : Row (Robot K) K where
  key := "frame"
  rd := fun r ts => match z.frame ts with
    | some f => modOrg r fun _ => f
    | none => .ub
  pr := none

/-- `__ztk_prp_rkchain_initkey`, src/rk_chain.c:647-652, with all rows. -/
def initTabZ (z : PoseZeo K) : List (Row (Robot K) K) := initTab ++ [initFrameRow z, initJointRow]

/-- The sections of the file, as `readParts`: src/rk_chain.c:718-723 with 703-717, with all keys. -/
def readPartsZ (z : PoseZeo K) (o : Order) (noname : String) (f : File K) : Option (Robot K) :=
  let nm := (secs "motor" f).length
  let nl := (secs "link" f).length
  ((secs "shape" f).mapM shapeName).bind fun shapes =>
    match evalTag (rdMotor o noname) 0 (secs "motor" f) (List.replicate nm ⟨noname, none⟩) with
    | .ub => none
    | .null ms | .ok ms =>
      let r0 : Robot K := { name := noname, motors := ms, shapes := shapes,
                            link := List.replicate nl (linkInit noname), node := LinkHeap.init nl }
      match evalTag (rdLinkZ z o noname) 0 (secs "link" f) r0 with
      | .ub => none
      | .null r | .ok r => match evalTag (rdParent o r.names) 0 (secs "link" f) r.node with
        | .ub => none
        | .null h | .ok h =>
          match evalTag (fun r _ sec => evalKeys o chainTab sec r) 0 (secs "chain" f) { r with node := h } with
          | .ub => none
          | .null r | .ok r => match evalTag (fun r _ sec => evalKeys o (initTabZ z) sec r) 0 (secs "init" f) r with
            | .ub => none
            | .null r | .ok r => some r

/-- `rkChainReadZTK`, src/rk_chain.c:752-773, with `rkChainFromZTK`, 699-730, as `read`, with all keys. -/
def readZ (z : PoseZeo K) (o : Order) (noname : String) (g : Vec6 K) (f : File K) : Option (Option (Robot K × Chain K)) :=
  if secs "link" f = [] then some none
  else (readPartsZ z o noname f).bind fun r =>
    if r.link.any fun l => !l.com then none
    else (toTree r.node (r.node.length + 1) (some 0)).bind fun t =>
      (r.chain t).updateFK.bind fun c => (c.updateID g).map fun c => some (r, c)

/-- `rkChainInitFromZTK`, src/rk_chain.c:790-796, as `poseRead`, with all keys. -/
def poseReadZ (z : PoseZeo K) (o : Order) (g : Vec6 K) (f : File K) (c : Chain K) : Option (Chain K) :=
  match evalTag (fun r _ sec => evalKeys o (initTabZ z) sec r) 0 (secs "init" f) (poseView c) with
  | .ub => none
  | .null r | .ok r => ({ c with link := r.link.map fun l => l.link } : Chain K).updateFK.bind fun c => c.updateID g

end Roki.ZTK
