import Verif.Model.Cad2ztk
import Verif.Model.PoseKeys
set_option autoImplicit false

/-!
# The ZTK file that `cad2ztk` writes, line by line

`Verif/Model/Cad2ztk.lean` says what is written; here it is put into sections and fields, so that it can be read again.
-/

namespace Roki.Cad
open ZTK
variable {K : Type*} [Field K]

/-- The lines of a section `[link]`: app/cad2ztk.c:417-431, with `rkMPFPrint`, src/rk_body.c:99-106, and
`cad2ztk_output_ztk_link_shape`, app/cad2ztk.c:395-405.  `tf` is what `zFrame3DFPrint` (Zeo) prints. -/
def linkLines (tf : Frame K → List (Tok K)) (l : OutLink K) : List (Fld K) :=
  [⟨"name", [.str l.name]⟩, ⟨"jointtype", [.str l.jointtype]⟩, ⟨"frame", tf l.frame⟩, ⟨"mass", [.num l.mp.mass]⟩,
    ⟨"COM", tokVec l.mp.com⟩, ⟨"inertia", tokMat l.mp.inertia⟩] ++ (l.shapes.map fun n => ⟨"shape", [.str n]⟩) ++
    l.parent.toList.map fun n => ⟨"parent", [.str n]⟩

/-- `cad2ztk_output_ztk`: app/cad2ztk.c:436-458, with 381-393 and 407-434.  Of the sections of the shapes only the names are kept,
as in `shapeName`; the section of the optical properties has only its name. -/
def ztkFile (tf : Frame K → List (Tok K)) (name : String) (shapes : List (String × String)) (links : List (OutLink K)) : File K :=
  ("chain", [⟨"name", [.str name]⟩]) :: ("optic", [⟨"name", [.str "white"]⟩]) ::
    ((shapes.map fun s => ("shape", [⟨"name", [.str s.1]⟩])) ++ links.map fun l => ("link", linkLines tf l))

end Roki.Cad
