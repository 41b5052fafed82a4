import Verif.Model.Contact
import Verif.Model.PoseFile
import Verif.Model.Torsion
set_option autoImplicit false

/-!
# The tools `rk_ground`, `zvs2zkcs` and `zvs2zkci`

A sequence is a list of steps as in `Verif/Model/Apps.lean`: a duration and a vector, the oldest step first.  `zSeqDequeue`
removes the oldest step, `zSeqJump` counts from it.  Numbers are printed exactly.
-/

namespace Roki.Tools
variable {K : Type*} [Field K]

section ground
variable [Zm K] [ZSqrt K]

/-- How a run of a tool ends. -/
inductive Run (α : Type*)
  /-- The tool has printed something and succeeded. -/
  | out (a : α)
  /-- It has printed a message and stopped: the usage or an error. -/
  | refused
  /-- The behaviour is undefined. -/
  | undef
deriving DecidableEq

/-- The entry that `rk_ground` makes, app/rk_ground.c:31-34; `g` is `RK_G` (include/roki/rk_g.h:21).  `zStrClone` gives a null
pointer for a null pointer, so that both keys are null. -/
def groundInfo (g mass depth zeta ms mu : K) : CI K :=
  let k := mass * g / depth
  ⟨none, none, .elastic, k, 2 * zeta * ZSqrt.sqrt (k * mass), ms, mu⟩

/-- `main` of `rk_ground`, app/rk_ground.c:14-37, on the numbers given on the command line (`argc` is one more than their
number).  `argv[argc]` is a null pointer, for which `atof` is undefined.  Arguments after the fifth are not looked at.
The result is the text of line 35. -/
def rkGround (g : K) (rnd : K → K) : List K → Run (List (CIKey K))
  | mass :: depth :: zeta :: ms :: mu :: _ =>
    if Zm.tiny depth then .refused
    else match CI.print rnd (groundInfo g mass depth zeta ms mu) with
      | some ks => .out ks
      | none => .undef
  | [_, _, _, _] => .undef
  | _ => .refused

end ground

variable [LinearOrder K] [Zm K]

/-- The loop of `zvs2zkcs`, app/zvs2zkcs.c:39-46: a line has the duration of a step and the frames of the links. -/
def zkcsLoop : List (K × List K) → Chain K → Option (List (K × List K))
  | [], _ => some []
  | s :: seq, c => do
    let c' ← c.fk s.2
    let os ← zkcsLoop seq c'
    pure ((s.1, c'.getConf) :: os)

/-- `main` of `zvs2zkcs`, app/zvs2zkcs.c:25-50.  `file` is the contents before of the file that is given for the output, `none`
inside if there is no such file; the result are the lines that appear on the standard output and the file afterwards.  The file
is opened with mode `"r"` (line 32): this fails if it does not exist, and printing to it has no effect. -/
def zvs2zkcs (file : Option (Option (List (K × List K)))) (seq : List (K × List K)) (c : Chain K) :
    Run (List (K × List K) × Option (List (K × List K))) :=
  match file with
  | some none => .refused
  | some (some old) => match zkcsLoop seq c with
    | some _ => .out ([], some old)
    | none => .undef
  | none => match zkcsLoop seq c with
    | some ls => .out (ls, none)
    | none => .undef

/-- Which step `zvs2zkci` takes, app/zvs2zkci.c:24-30. -/
inductive Which
  /-- no argument -/
  | head
  /-- `last` -/
  | last
  /-- a number -/
  | nth (n : ℕ)

/-- app/zvs2zkci.c:24-30; `none` if there is no such step: the head and the tail of an empty list are its root, which has no
vector (lines 26 and 30); what `zSeqJump` does beyond the end is not specified here. -/
def pick (seq : List (K × List K)) : Which → Option (K × List K)
  | .head => seq.head?
  | .last => seq.getLast?
  | .nth n => seq[n]?

/-- `main` of `zvs2zkci`, app/zvs2zkci.c:22-34; `init` is the file of argument 4 if it is given. -/
def zvs2zkci (o : ZTK.Order) (g : Vec6 K) (init : Option (ZTK.File K)) (w : Which) (seq : List (K × List K)) (c : Chain K) :
    Option (ZTK.File K) := do
  let s ← pick seq w
  let c0 ← match init with
    | none => some c
    | some f => ZTK.poseRead o g f c
  let c1 ← c0.fk s.2
  ZTK.posePrint c1

end Roki.Tools
