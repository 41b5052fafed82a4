import Mathlib.Algebra.Field.Basic
set_option autoImplicit false

/-!
# Contact information (`src/rk_contact.c`, `include/roki/rk_contact.h`)
-/

namespace Roki
variable {K : Type*} [Field K]

/-- `rkContactType`: include/roki/rk_contact.h:16. -/
inductive CIType
  | rigid
  | elastic
  deriving DecidableEq, Repr

/-- `rkContactInfo`: include/roki/rk_contact.h:25-40.  A key is `none` while the pointer is null.  `p0` and `p1` are the
two doubles of the union: compensation and relaxation, or elasticity and viscosity. -/
structure CI (K : Type*) where
  k0 : Option String
  k1 : Option String
  type : CIType
  p0 : K
  p1 : K
  sf : K
  kf : K
  deriving DecidableEq

namespace CI

/-- `rkContactInfoInit`: include/roki/rk_contact.h:79 (all bytes zero; so are the cells of `zArrayAlloc`). -/
def init : CI K := ⟨none, none, .rigid, 0, 0, 0, 0⟩

/-- `rkContactInfoRigidCreate`: src/rk_contact.c:15-25. -/
def rigidCreate (k l sf kf : K) (s t : String) : CI K := ⟨some s, some t, .rigid, k, l, sf, kf⟩

/-- `rkContactInfoElasticCreate`: src/rk_contact.c:28-38. -/
def elasticCreate (e v sf kf : K) (s t : String) : CI K := ⟨some s, some t, .elastic, e, v, sf, kf⟩

/-- `strcmp( ci->__stf[i], stf ) == 0` in src/rk_contact.c:43-44; undefined for a null pointer. -/
def same (k : Option String) (s : String) : Option Bool := k.map (· == s)

/-- `a && b`, evaluating the second operand only when needed, src/rk_contact.c:43-44. -/
def andThen (a b : Option Bool) : Option Bool := a.bind fun x => if x then b else some false

/-- `rkContactInfoAssoc`: src/rk_contact.c:41-47; true for a non-null result. -/
def assoc (c : CI K) (s t : String) : Option Bool :=
  (andThen (same c.k0 s) (same c.k1 t)).bind fun x => if x then some true else andThen (same c.k0 t) (same c.k1 s)

/-- The loop of `rkContactInfoArrayAssoc`: src/rk_contact.c:149-152, with the index of the current entry; gives the index
of the entry found. -/
def findAssoc (s t : String) : ℕ → List (CI K) → Option (Option ℕ)
  | _, [] => some none
  | i, c :: cs => (c.assoc s t).bind fun x => if x then some (some i) else findAssoc s t (i + 1) cs

/-- `rkContactInfoArrayAssoc`: src/rk_contact.c:144-153; `none` stands for a null key. -/
def arrayAssoc (a : List (CI K)) : Option String → Option String → Option (Option ℕ)
  | some s, some t => findAssoc s t 0 a
  | _, _ => some none

/-- The loop of `rkContactInfoArrayAssocType`: src/rk_contact.c:162-165. -/
def findAssocType (s t : String) (ty : CIType) : ℕ → List (CI K) → Option (Option ℕ)
  | _, [] => some none
  | i, c :: cs => (if c.type = ty then c.assoc s t else some false).bind fun x =>
      if x then some (some i) else findAssocType s t ty (i + 1) cs

/-- `rkContactInfoArrayAssocType`: src/rk_contact.c:156-166. -/
def arrayAssocType (a : List (CI K)) (ty : CIType) : Option String → Option String → Option (Option ℕ)
  | some s, some t => findAssocType s t ty 0 a
  | _, _ => some none

end CI

/-- A key of a contact section of a ZTK file with its value: src/rk_contact.c:91-99. -/
inductive CIKey (K : Type*)
  | bind (s t : String)
  | sf (x : K)
  | kf (x : K)
  | k (x : K)
  | l (x : K)
  | e (x : K)
  | v (x : K)
  deriving DecidableEq

/-- The effect of a key on the entry being read: `_rkContactInfo*FromZTK`, src/rk_contact.c:51-89. -/
def CIKey.apply : CIKey K → CI K → CI K
  | .bind s t, c => { c with k0 := some s, k1 := some t }
  | .sf x, c => { c with sf := x }
  | .kf x, c => { c with kf := x }
  | .k x, c => { c with p0 := x, type := .rigid }
  | .l x, c => { c with p1 := x, type := .rigid }
  | .e x, c => { c with p0 := x, type := .elastic }
  | .v x, c => { c with p1 := x, type := .elastic }

/-- The array being read and the warnings `RK_WARN_CONTACT_DUPKEY` so far. -/
abbrev CIRead (K : Type*) := List (CI K) × List (String × String)

namespace CI

/-- One key of section `i`: src/rk_contact.c:51-89; the key `bind` looks its own pair up in the array, lines 58-59. -/
def readKey (i : ℕ) (st : CIRead K) (key : CIKey K) : Option (CIRead K) :=
  let a := st.1.modify i key.apply
  match key with
  | .bind s t => (arrayAssoc a (some s) (some t)).map fun r => (a, if r = some i then st.2 else st.2 ++ [(s, t)])
  | _ => some (a, st.2)

/-- All keys of section `i`, in the order of the file: `_rkContactInfoFromZTK`, src/rk_contact.c:101-105. -/
def readSec (i : ℕ) : List (CIKey K) → CIRead K → Option (CIRead K)
  | [], st => some st
  | key :: keys, st => (readKey i st key).bind (readSec i keys)

/-- All sections, in the order of the file: `ZTKEvalTag`, src/rk_contact.c:185. -/
def readSecs : ℕ → List (List (CIKey K)) → CIRead K → Option (CIRead K)
  | _, [], st => some st
  | i, sec :: secs, st => (readSec i sec st).bind (readSecs (i + 1) secs)

/-- `rkContactInfoArrayFromZTK`: src/rk_contact.c:175-187, for a file with at least one contact section (without any, the
result is null). -/
def fromZTK (secs : List (List (CIKey K))) : Option (CIRead K) :=
  readSecs 0 secs (List.replicate secs.length init, [])

/-- `rkContactInfoFPrintZTK`: src/rk_contact.c:108-126, as the keys printed; `rnd` is what is left of a number after
printing it with `%.10g`.  Undefined for null keys. -/
def print (rnd : K → K) (c : CI K) : Option (List (CIKey K)) :=
  match c.k0, c.k1 with
  | some s, some t => some (.bind s t :: (match c.type with
      | .rigid => [.k (rnd c.p0), .l (rnd c.p1)]
      | .elastic => [.e (rnd c.p0), .v (rnd c.p1)]) ++ [.sf (rnd c.sf), .kf (rnd c.kf)])
  | _, _ => none

/-- `rkContactInfoArrayFPrintZTK`: src/rk_contact.c:190-198. -/
def printAll (rnd : K → K) : List (CI K) → Option (List (List (CIKey K)))
  | [] => some []
  | c :: cs => (c.print rnd).bind fun x => (printAll rnd cs).map (x :: ·)

/-- The name of the file `rkContactInfoArrayWriteZTK` opens: src/rk_contact.c:213-221.  The local array `name` is passed to
`zOpenZTKFile`, without having been given a value; `garbage` is what it happens to contain. -/
def writePath (garbage _filename : String) : String := garbage

end CI
end Roki
