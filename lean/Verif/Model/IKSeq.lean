import Verif.Model.IK
import Mathlib.Algebra.Order.Field.Rat
import Mathlib.Data.Rat.Floor
import Mathlib.Data.Int.Log
set_option autoImplicit false

/-!
# Sequences of references for the inverse kinematics solver

Model of src/rk_ik_seq.c.  A file is a list of tokens; the characters of a token are not modelled.  The number in a
token written with `%.10g` is a function `fmt` of the number that was printed.
-/

namespace Roki

/-- `rkIKEntry`, include/roki/rk_ik_seq.h:15-19. -/
structure IKEntry (K : Type*) where
  id : ℤ
  w : Vec3 K
  val : Vec3 K
deriving DecidableEq

/-- `rkIKSeqCell`, include/roki/rk_ik_seq.h:22-26; `nc` is the length of the array of entries. -/
structure IKSeqCell (K : Type*) where
  dt : K
  entry : List (IKEntry K)
deriving DecidableEq

/-- A token of a file: a number printed with `%d` or with `%.10g`. -/
inductive IKTok (K : Type*) where
  | int (n : ℤ)
  | real (x : K)
deriving DecidableEq

namespace IKSeq
variable {K : Type*}

/-- The format of an entry, src/rk_ik_seq.c:119-126. -/
def printEntry (fmt : K → K) (e : IKEntry K) : List (IKTok K) :=
  [.int e.id, .real (fmt e.w.x), .real (fmt e.w.y), .real (fmt e.w.z),
   .real (fmt e.val.x), .real (fmt e.val.y), .real (fmt e.val.z)]

/-- The body of the loop of `rkIKSeqFPrint`, src/rk_ik_seq.c:116-127. -/
def printCell (fmt : K → K) (c : IKSeqCell K) : List (IKTok K) :=
  .real (fmt c.dt) :: .int c.entry.length :: c.entry.flatMap (printEntry fmt)

/-- `rkIKSeqFPrint`, src/rk_ik_seq.c:110-129.  The list of cells is in the order of `zListForEach`, which goes from the
tail; `zListForEachRew` is the opposite order. -/
def print (fmt : K → K) (seq : List (IKSeqCell K)) : List (IKTok K) := seq.reverse.flatMap (printCell fmt)

/-- `zFDouble`: the next token; `none` at the end of the file (not modelled). -/
def getReal : List (IKTok K) → Option (K × List (IKTok K))
  | .real x :: r => some (x, r)
  | _ => none

/-- `zFInt`: the next token; `none` at the end of the file or if the token is not an integer (not modelled). -/
def getInt : List (IKTok K) → Option (ℤ × List (IKTok K))
  | .int n :: r => some (n, r)
  | _ => none

/-- The body of the inner loop of `rkIKSeqFScan`, src/rk_ik_seq.c:78-84. -/
def getEntry (s : List (IKTok K)) : Option (IKEntry K × List (IKTok K)) := do
  let (id, s) ← getInt s
  let (w0, s) ← getReal s
  let (w1, s) ← getReal s
  let (w2, s) ← getReal s
  let (v0, s) ← getReal s
  let (v1, s) ← getReal s
  let (v2, s) ← getReal s
  pure (⟨id, ⟨w0, w1, w2⟩, ⟨v0, v1, v2⟩⟩, s)

/-- The inner loop of `rkIKSeqFScan`, src/rk_ik_seq.c:77-85. -/
def getEntries : ℕ → List (IKTok K) → Option (List (IKEntry K) × List (IKTok K))
  | 0, s => some ([], s)
  | n + 1, s => (getEntry s).bind fun p => (getEntries n p.2).map fun q => (p.1 :: q.1, q.2)

/-- The loop of `rkIKSeqFScan`, src/rk_ik_seq.c:64-87; the first argument bounds the number of rounds (each round takes
two tokens at least, so that the number of tokens is enough).  `zAlloc` of no entry gives a pointer or the null pointer,
depending on the C library: `alloc0`.  `zQueueEnqueue` inserts at the tail. -/
def scanLoop (alloc0 : Bool) : ℕ → List (IKTok K) → List (IKSeqCell K) → Option (List (IKSeqCell K))
  | 0, _, seq => some seq
  | _ + 1, [], seq => some seq
  | k + 1, s, seq =>
    (getReal s).bind fun d => (getInt d.2).bind fun n =>
      if n.1 < 0 ∨ (n.1 = 0 ∧ alloc0 = false) then some seq
      else (getEntries n.1.toNat n.2).bind fun e => scanLoop alloc0 k e.2 (⟨d.1, e.1⟩ :: seq)

/-- `rkIKSeqFScan`, src/rk_ik_seq.c:58-89. -/
def scan (alloc0 : Bool) (s : List (IKTok K)) : Option (List (IKSeqCell K)) := scanLoop alloc0 s.length s []

/-- The number in a token written with `%.10g`: the nearest number with ten significant digits (ties upwards;
the C library depends on the rounding mode).  `e` is the decimal
exponent of `x`. -/
def round10At (e : ℤ) (x : ℚ) : ℚ := (round (x * 10 ^ (9 - e)) : ℚ) / 10 ^ (9 - e)

/-- Conversion with `%.10g` and back (C library): the decimal exponent of `x` is the one with
`10^e ≤ |x| < 10^(e+1)`. -/
def round10 (x : ℚ) : ℚ := if x = 0 then 0 else round10At (Int.log 10 |x|) x

end IKSeq

namespace IK
variable {K : Type*}

/-- The body of the loop of `rkIKSeqCellSet`, src/rk_ik_seq.c:17-23: the search of `rkIKFindCell`, then
`rkIKCellSetWeight` and `rkIKCellSetRef` on the cell found. -/
def setEntry (ik : IK K) (e : IKEntry K) : IK K :=
  if e.id < 0 then ik
  else
    match ik.findCell e.id.toNat with
    | none => ik
    | some c => ik.modifyCell c.ptr fun x => (x.setWeight e.w).setRef e.val.x e.val.y e.val.z

/-- `rkIKSeqCellSet`, src/rk_ik_seq.c:10-25. -/
def seqCellSet (ik : IK K) (c : IKSeqCell K) : IK K := c.entry.foldl setEntry ik

end IK
end Roki
