import Verif.Model.IKSeq
import Verif.Model.Zm
set_option autoImplicit false

/-!
# The tools `rk_fk`, `rk_id`, `rk_ik` and `rk_ikcell_merge`

The treatment of the command line and of the files is not modelled, except for the numbers that are read and printed.
A sequence (`zSeq`, library ZM) is the list of its steps, each a duration and a vector, the oldest step first:
`zSeqScan` enqueues at the tail, `zListHead` is the oldest step, and `zListForEachRew` goes from the oldest to the latest.
-/

namespace Roki.Apps
variable {K : Type*} [Field K]

/-- A line of the log of `rk_fk`, app/rk_fk.c:114-115. -/
structure FKLine (K : Type*) where
  t : K
  pos : Vec3 K
  zyx : Vec3 K
deriving DecidableEq

/-- `rk_fkOutput`, app/rk_fk.c:108-116; `i` is the number of the link that was found by its name, `zyx` the function
`zMat3DToZYX` of ZEO.  `none` is an access outside the array of links. -/
def fkOutput (zyx : Mat3 K → Vec3 K) (i : ℕ) (t : K) (c : Chain K) : Option (FKLine K) :=
  c.link[i]?.map fun l => ⟨t, l.body.frame.pos, zyx l.body.frame.att⟩

section
variable [LinearOrder K] [Zm K]

/-- The loop of `main`, app/rk_fk.c:132-138. -/
def fkLoop (zyx : Mat3 K → Vec3 K) (i : ℕ) : List (K × List K) → K → Chain K → Option (List (FKLine K))
  | [], _, _ => some []
  | s :: seq, t, c => do
    let c' ← c.fk s.2
    let o ← fkOutput zyx i t c'
    let os ← fkLoop zyx i seq (t + s.1) c'
    pure (o :: os)

/-- `main`, app/rk_fk.c:131-138; `none` also for the head of an empty sequence (line 131). -/
def rkFk (zyx : Mat3 K → Vec3 K) (i : ℕ) (seq : List (K × List K)) (c : Chain K) : Option (List (FKLine K)) := do
  let s ← seq.head?
  let c' ← c.fk s.2
  fkLoop zyx i seq 0 c'

/-- A line of each of the logs of `rk_id`, app/rk_id.c:129-135.  `zmp` is `none` if `rkChainZMP` finds no zero moment point:
then the tool prints a variable that it has not initialised (line 124). -/
structure IDLine (K : Type*) where
  t : K
  com : Vec3 K
  comVel : Vec3 K
  comAcc : Vec3 K
  zmp : Option (Vec3 K)
  zyx : Vec3 K
  am : Vec3 K
  trq : List K
deriving DecidableEq

/-- `rk_idOutput`, app/rk_id.c:119-136.  `g` is `RK_GRAVITY6D`; `z` is the height of the floor; `trq` is the vector that is
used for every line.  `none` is an access outside the array of links or the vector. -/
def idOutput (zyx : Mat3 K → Vec3 K) (z : K) (g : Vec6 K) (t : K) (c : Chain K) (trq : List K) :
    Option (IDLine K × List K) := do
  let root : Link K ← c.link[0]?
  let trq' ← LinkArray.getJointAll Prp.getTrq c.link trq
  pure (⟨t, c.wldCOM, c.comVel, c.comAcc - g.lin, LinkArray.zmp root z, zyx root.body.frame.att,
    LinkArray.am c.link c.wldCOM, trq'⟩, trq')

/-- The loop of `main`, app/rk_id.c:155-161. -/
def idLoop (zyx : Mat3 K → Vec3 K) (z : K) (g : Vec6 K) :
    List (K × List K) → K → Chain K → List K → Option (List (IDLine K))
  | [], _, _, _ => some []
  | s :: seq, t, c, trq => do
    let c' ← c.fkCNT g s.2 s.1
    let (o, trq') ← idOutput zyx z g t c' trq
    let os ← idLoop zyx z g seq (t + s.1) c' trq'
    pure (o :: os)

/-- `main`, app/rk_id.c:147-161; `none` also for the head of an empty sequence (line 154).  `zVecAlloc` (line 148) gives a
vector of zeros. -/
def rkId (zyx : Mat3 K → Vec3 K) (z : K) (g : Vec6 K) (seq : List (K × List K)) (c : Chain K) :
    Option (List (IDLine K)) := do
  let s ← seq.head?
  let c' ← c.fk s.2
  idLoop zyx z g seq 0 c' (List.replicate (LinkArray.jointSize c.link) 0)

variable [ZSqrt K]

/-- The loop of `rk_ik_solve`, app/rk_ik.c:121-133.  The cells are in the order in which they are dequeued. -/
def ikLoop (maxIter : ℕ) (tol : K) (iter : ℤ) : List (IKSeqCell K) → IK K → List K → Option (List (K × List K))
  | [], _, _ => some []
  | s :: seq, ik, v => do
    let b ← ik.deactivate.bind
    let (_, ik', v') ← (b.seqCellSet s).solve maxIter v tol iter
    let os ← ikLoop maxIter tol iter seq ik' v'
    pure ((s.dt, v') :: os)

/-- `rk_ik_solve`, app/rk_ik.c:107-135: what is printed for each step.  `zQueueDequeue` takes the cell at the head, that
is the last one in the order of `zListForEach` (see `IKSeq.scan`). -/
def rkIk (maxIter : ℕ) (tol : K) (iter : ℤ) (seq : List (IKSeqCell K)) (ik : IK K) : Option (List (K × List K)) :=
  ikLoop maxIter tol iter seq.reverse ik (List.replicate (LinkArray.jointSize ik.chain.link) 0)
end

/-- An entry that `rk_ikcell_merge` copies, app/rk_ikcell_merge.c:57-62. -/
structure MergeEntry (K : Type*) where
  entry : ℤ
  w : K
  v : Vec3 K
deriving DecidableEq

/-- `zFInt` and `zFDouble` (ZEDA) on a list of tokens; a token that is printed with `%d` can be read as a floating point
number, and one that is printed with `%.10g` as an integer if it is one (`toInt`).  `none` at the end of the file
and for other tokens: what the functions leave in the variable is not modelled. -/
def getD (s : List (IKTok K)) : Option (K × List (IKTok K)) :=
  match s with
  | .int n :: r => some ((n : K), r)
  | .real x :: r => some (x, r)
  | [] => none

/-- `zFInt`, see `getD`. -/
def getI (toInt : K → Option ℤ) (s : List (IKTok K)) : Option (ℤ × List (IKTok K)) :=
  match s with
  | .int n :: r => some (n, r)
  | .real x :: r => (toInt x).map fun n => (n, r)
  | [] => none

/-- The body of the innermost loop, app/rk_ikcell_merge.c:57-62. -/
def mergeEntry (toInt : K → Option ℤ) (s : List (IKTok K)) : Option (MergeEntry K × List (IKTok K)) := do
  let (e, s) ← getI toInt s
  let (w, s) ← getD s
  let (x, s) ← getD s
  let (y, s) ← getD s
  let (z, s) ← getD s
  pure (⟨e, w, ⟨x, y, z⟩⟩, s)

/-- The loop over the entries of one file, app/rk_ikcell_merge.c:56-63. -/
def mergeEntries (toInt : K → Option ℤ) : ℕ → List (IKTok K) → Option (List (MergeEntry K) × List (IKTok K))
  | 0, s => some ([], s)
  | n + 1, s => do
    let (e, s) ← mergeEntry toInt s
    let (es, s) ← mergeEntries toInt n s
    pure (e :: es, s)

/-- The first loop, app/rk_ikcell_merge.c:49-53: the numbers of entries and what remains of the files.  The inner `none` is
the return at the end of a file. -/
def mergeNums (toInt : K → Option ℤ) : List (List (IKTok K)) → Option (Option (List (ℤ × List (IKTok K))))
  | [] => some (some [])
  | [] :: _ => some none
  | f :: fs => do
    let n ← getI toInt f
    (mergeNums toInt fs).map fun r => r.map fun ns => n :: ns

/-- The loop over the files, app/rk_ikcell_merge.c:55-63. -/
def mergeFiles (toInt : K → Option ℤ) : List (ℤ × List (IKTok K)) → Option (List (MergeEntry K) × List (List (IKTok K)))
  | [] => some ([], [])
  | f :: fs => do
    let (es, s) ← mergeEntries toInt f.1.toNat f.2
    let (es', ss) ← mergeFiles toInt fs
    pure (es ++ es', s :: ss)

/-- The output for an entry, app/rk_ikcell_merge.c:62; `fmt` as in `IKSeq.printEntry`. -/
def printMerge (fmt : K → K) (e : MergeEntry K) : List (IKTok K) :=
  [.int e.entry, .real (fmt e.w), .real (fmt e.v.x), .real (fmt e.v.y), .real (fmt e.v.z)]

/-- `ikcell_merge_exec`, app/rk_ikcell_merge.c:42-66, with `n` rounds at most: what is printed.  A round takes a token from
each file at least, so that the number of tokens of the first file, and one, are enough. -/
def mergeLoop (toInt : K → Option ℤ) (fmt : K → K) : ℕ → List (List (IKTok K)) → Option (List (IKTok K))
  | 0, _ => some []
  | n + 1, fs => do
    let r ← mergeNums toInt fs
    match r with
    | none => some []
    | some ns =>
      let (es, ss) ← mergeFiles toInt ns
      let out ← mergeLoop toInt fmt n ss
      pure (.int (ns.map Prod.fst).sum :: es.flatMap (printMerge fmt) ++ out)

/-- `ikcell_merge_exec` on one file at least (`main` gives the usage otherwise, app/rk_ikcell_merge.c:73). -/
def merge (toInt : K → Option ℤ) (fmt : K → K) (fs : List (List (IKTok K))) : Option (List (IKTok K)) :=
  mergeLoop toInt fmt ((fs.head?.getD []).length + 1) fs

end Roki.Apps
