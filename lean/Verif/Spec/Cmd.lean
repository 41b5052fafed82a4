import Verif.Model.Cmd
set_option autoImplicit false

/-!
# Specification of the command lines (C112)
-/

namespace Roki.Spec.Cmd
open Roki.Cmd
variable {C S P V : Type*}

/-- The first argument that is given: on its place, or by its option. -/
def given (pos : List String) (n : ℕ) (opt : Option String) (f : String) : Prop := pos[n]? = some f ∨ (pos.length ≤ n ∧ opt = some f)

/-- The argument is not given. -/
def notGiven (pos : List String) (n : ℕ) (opt : Option String) : Prop := pos.length ≤ n ∧ opt = none

/-- The sequence `s` is that of the file that is given as argument `n`, or that of the standard input, and the logs are named after it. -/
def SeqFrom (w : World C S P V) (dflt : String) (pos : List String) (n : ℕ) (opt : Option String) (s : S) (b : String) : Prop :=
  (∃ f, given pos n opt f ∧ w.seq f = some s ∧ b = w.base f) ∨ (notGiven pos n opt ∧ w.stdin = some s ∧ b = w.base dflt)

/-- The chain `c'` is `c` in the pose of the file that is given, if one is given. -/
def PoseFrom (w : World C S P V) (opt : Option String) (c c' : C) : Prop :=
  (opt = none ∧ c' = c) ∨ ∃ f p, opt = some f ∧ w.init f = some p ∧ c' = w.pose p c

/-- The first link with the name. -/
def Named (w : World C S P V) (c : C) (n : String) (i : ℕ) : Prop := (w.names c)[i]? = some n ∧ ∀ j < i, (w.names c)[j]? ≠ some n

/-- The file of the pose can be read, if one is given. -/
def InitOK (w : World C S P V) (opt : Option String) : Prop := ∀ f, opt = some f → w.init f ≠ none

end Roki.Spec.Cmd
