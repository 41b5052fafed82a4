import Verif.Model.ChainFile
set_option autoImplicit false

/-!
# Pose files

The part of a chain file that gives the pose, in a file of its own.
-/

namespace Roki.ZTK
variable {K : Type*} [Field K] [LinearOrder K] [Zm K]

/-- The chain as the functions of `Verif/Model/ChainFile.lean` for the tag `init` see it: only the array of links is used by
src/rk_chain.c:616-672. -/
def poseView (c : Chain K) : Robot K :=
  { name := "", motors := [], shapes := [], link := c.link.map fun l => ⟨l, true, "", []⟩, node := [] }

/-- `rkChainInitFPrintZTK`, src/rk_chain.c:798-802, with the table 786-788; also `rkChainInitWriteZTK`, 815-823, if the file can
be opened. -/
def posePrint (c : Chain K) : Option (File K) := (initPrint (poseView c)).map fun d => [("init", d)]

/-- `rkChainInitFromZTK`, src/rk_chain.c:790-796; also `rkChainInitReadZTK`, 804-813.  The result of `ZTKEvalTag` is not looked
at. -/
def poseRead (o : Order) (g : Vec6 K) (f : File K) (c : Chain K) : Option (Chain K) :=
  match evalTag (fun r _ sec => evalKeys o initTabAll sec r) 0 (secs "init" f) (poseView c) with
  | .ub => none
  | .null r | .ok r => ({ c with link := r.link.map fun l => l.link } : Chain K).updateFK.bind fun c => c.updateID g

end Roki.ZTK
