import Mathlib.Data.List.Basic
set_option autoImplicit false

/-!
# The command lines of `rk_fk`, `rk_id`, `rk_mp` and `rk_ik`

What the tools do between their start and the computation: which files they read, which they open for their results, and
whether they go on.  The contents of files are those of the readers of the library, which are modelled elsewhere; a reader
that refuses is `none`.  Options are given as `zOptionRead` (ZEDA) leaves them: the argument of each option that is on the
command line.  The other arguments are `pos`; `zStrListGetPtr` (ZEDA) gives the first of them and null pointers when there are
no more.  `argc <= 1` is the case of no arguments at all, in which `pos` is empty and there are no options.
-/

namespace Roki.Cmd

/-- The world of a tool: what is read from a file of each kind, the standard input, the files that can be opened for writing, the
names of the links of a chain, `rkChainInitReadZTK` for a file that is read (`pose`) and for one that is not (`still`: the pose
stays, src/rk_chain.c:804-813 with 791-797), and `zGetBasename` (ZEDA). -/
structure World (C S P V : Type*) where
  chain : String → Option C
  seq : String → Option S
  stdin : Option S
  init : String → Option P
  vec : String → Option V
  canWrite : String → Bool
  names : C → List String
  pose : P → C → C
  still : C → C
  fk : V → C → C
  base : String → String

/-- How a tool starts. -/
inductive Start (α : Type*)
  /-- It prints how it is used and stops. -/
  | usage
  /-- It stops with an error; the files have been opened for writing, and so emptied. -/
  | error (opened : List String)
  /-- It goes on to compute with `a`; the files have been opened for writing. -/
  | go (a : α) (opened : List String)
deriving DecidableEq

variable {C S P V : Type*}

/-- `rkChainInitReadZTK`: src/rk_chain.c:804-813.  The result of `ZTKParse` is not looked at, and the chain is returned. -/
def initRead (w : World C S P V) (c : C) (file : String) : Option C :=
  match w.init file with
  | some p => some (w.pose p c)
  | none => some (w.still c)

/-- Options of `rk_fk` and `rk_id`: app/rk_fk.c:18-25, app/rk_id.c:28-34 (which has no `link`). -/
structure Opts where
  chain : Option String := none
  seq : Option String := none
  init : Option String := none
  link : Option String := none
  help : Bool := false

/-- `rk_fkLoadSequence` and `rk_idLoadSequence`: app/rk_fk.c:34-46, app/rk_id.c:43-55.  The sequence and the base of the names of the
logs; `dflt` is `fk.out` or `id.out`. -/
def loadSeq (w : World C S P V) (dflt : String) : Option String → Option (S × String)
  | some f => (w.seq f).map fun s => (s, w.base f)
  | none => w.stdin.map fun s => (s, w.base dflt)

/-- `rkChainInitReadZTK` for the option `init`: app/rk_fk.c:98-102, app/rk_id.c:98-102. -/
def initOpt (w : World C S P V) (c : C) : Option String → Option C
  | none => some c
  | some f => initRead w c f

/-- `rk_fkCommandArgs`: app/rk_fk.c:59-106.  The computation gets the chain, the place of the link and the sequence. -/
def rkFk (w : World C S P V) (o : Opts) (pos : List String) : Start (C × ℕ × S) :=
  if o.help then .usage
  else match pos[0]? with
  | none => .usage
  | some chainfile =>
    match pos[1]? with
    | none => .usage
    | some linkname =>
      match w.chain chainfile with
      | none => .error []
      | some c =>
        match (w.names c).findIdx? (fun n => n == linkname) with
        | none => .error []
        | some i =>
          match loadSeq w "fk.out" (pos[2]? <|> o.seq) with
          | none => .error []
          | some (s, b) =>
            if w.canWrite (b ++ "." ++ linkname) then
              match initOpt w c o.init with
              | none => .error [b ++ "." ++ linkname]
              | some c' => .go (c', i, s) [b ++ "." ++ linkname]
            else .error []

/-- The suffixes of the logs of `rk_id`: app/rk_id.c:61. -/
def idTypes : List String := ["com", "comv", "coma", "zmp", "att", "am", "trq"]

/-- `rk_idOpenLogfile`: app/rk_id.c:57-71.  The files that have been opened, and whether all have. -/
def openLogs (canWrite : String → Bool) (b : String) : List String → List String × Bool
  | [] => ([], true)
  | t :: ts =>
    if canWrite (b ++ "." ++ t) then
      ((b ++ "." ++ t) :: (openLogs canWrite b ts).1, (openLogs canWrite b ts).2)
    else ([], false)

/-- `rk_idCommandArgs`: app/rk_id.c:73-106. -/
def rkId (w : World C S P V) (o : Opts) (pos : List String) : Start (C × S) :=
  if o.help then .usage
  else match pos[0]? with
  | none => .usage
  | some chainfile =>
    match w.chain chainfile with
    | none => .error []
    | some c =>
      match loadSeq w "id.out" (pos[1]? <|> o.seq) with
      | none => .error []
      | some (s, b) =>
        if (openLogs w.canWrite b idTypes).2 then
          match initOpt w c o.init with
          | none => .error (openLogs w.canWrite b idTypes).1
          | some c' => .go (c', s) (openLogs w.canWrite b idTypes).1
        else .error (openLogs w.canWrite b idTypes).1

/-- Options of `rk_mp`: app/rk_mp.c:11-16. -/
structure MPOpts where
  model : Option String := none
  vec : Option String := none
  help : Bool := false

/-- `rk_mpCommandArgs` and the first line of `main`: app/rk_mp.c:45-72 and 164.  The function is of type `bool` and returns 1, that is, true,
where a file cannot be read, so that `main` goes on.  The chain is static: `zero` is the one with all bytes zero, which remains if the
model is not read.  `rk_mpInitFK`: lines 26-43. -/
def rkMp (w : World C S P V) (zero : C) (o : MPOpts) (pos : List String) : Start C :=
  if o.help then .usage
  else match pos[0]? <|> o.model with
  | none => if o.vec.isNone then .usage else .error []
  | some mfile =>
    match w.chain mfile with
    | none => .go zero []
    | some c =>
      match pos[1]? <|> o.vec with
      | none => .go c []
      | some vfile =>
        match w.vec vfile with
        | none => .go c []
        | some v => .go (w.fk v c) []

end Roki.Cmd
