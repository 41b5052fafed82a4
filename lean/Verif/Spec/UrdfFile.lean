import Verif.Model.UrdfFile
import Verif.Spec.ChainFile
set_option autoImplicit false

/-!
# Specification of URDF documents
-/

namespace Roki.Spec.UrdfDoc
open Roki.ZTK Roki.Urdf.Doc Roki.Spec.File
variable {K : Type*}

/-- The elements of an element that have a tag. -/
def elems (e : Elem K) (tag : String) : List (Elem K) := e.kids.filter fun k => k.tag = tag

/-- The value of an attribute of an element; if it is given several times, which XML does not allow, the last one. -/
def attr (e : Elem K) (k : String) : Option (List (Tok K)) := ((e.attrs.filter fun a => a.1 = k).map Prod.snd).getLast?

/-- The value of an attribute of an element of `e`; if it is given several times, the last one. -/
def given (e : Elem K) (tag k : String) : Option (List (Tok K)) :=
  ((elems e tag).flatMap fun n => (n.attrs.filter fun a => a.1 = k).map Prod.snd).getLast?

/-- A number that is given. -/
def num : Option (List (Tok K)) → Option K
  | some (.num x :: _) => some x
  | _ => none

/-- The attribute, if given, is a number. -/
def IsNum (v : Option (List (Tok K))) : Prop := ∀ ts, v = some ts → ∃ x r, ts = .num x :: r

/-- The element `e` has one element with the tag, and this one names the link `n`. -/
def Names (e : Elem K) (tag n : String) : Prop := ∃ p, elems e tag = [p] ∧ p.find "link" = some [.str n]

/-- A URDF document that describes a robot with the links `links`, of which link `i` is attached to link `pars[i]`. -/
structure Describes (doc : Elem K) (links : List String) (pars : List (Option ℕ)) : Prop where
  /-- the robot has a name -/
  name : ∃ n, doc.find "name" = some [.str n]
  /-- the elements of the links, with their names, which are distinct -/
  named : (elems doc "link").map (fun e => e.find "name") = links.map fun n => some [.str n]
  nodup : links.Nodup
  /-- a joint has a type, and connects two of the links -/
  joints : ∀ e ∈ elems doc "joint", (∃ t, attr e "type" = some [.str t]) ∧
    ∃ np nc, Names e "parent" np ∧ Names e "child" nc ∧ np ∈ links ∧ nc ∈ links
  /-- no two joints have the same child -/
  once : (elems doc "joint").Pairwise fun e e' => ∀ n, Names e "child" n → ¬ Names e' "child" n
  /-- the parents are those of the joints -/
  size : pars.length = links.length
  parents : ∀ (i p : ℕ) (ni np : String), links[i]? = some ni → links[p]? = some np →
    (pars[i]? = some (some p) ↔ ∃ e ∈ elems doc "joint", Names e "child" ni ∧ Names e "parent" np)
  below : ∀ i p : ℕ, pars[i]? = some (some p) → p < links.length

/-- The numbers of a joint are numbers. -/
structure Numbers (e : Elem K) : Prop where
  lower : IsNum (given e "limit" "lower")
  upper : IsNum (given e "limit" "upper")
  damping : IsNum (given e "dynamic" "damping")
  friction : IsNum (given e "dynamic" "friction")

/-- The parameters of a joint of one degree of freedom are those of the element. -/
structure Params [Zero K] (e : Elem K) (d : Dof1 K) : Prop where
  dis : d.dis = 0
  lo : d.lo = num (given e "limit" "lower")
  hi : d.hi = num (given e "limit" "upper")
  viscosity : d.viscosity = (num (given e "dynamic" "damping")).getD 0
  coulomb : d.coulomb = (num (given e "dynamic" "friction")).getD 0
  stiffness : d.stiffness = 0
  static : d.sf = 0
  motor : d.motor = .none

/-- The joint that the element stands for. -/
def IsJoint [Zero K] (e : Elem K) (p : Prp K) : Prop :=
  ∀ t, attr e "type" = some [.str t] →
    if t = "revolute" ∨ t = "continuous" then ∃ d, p = .revol d ∧ Params e d
    else if t = "prismatic" then ∃ d, p = .prism d ∧ Params e d
    else if t = "float" then ∃ d, p = .float d ∧ d.dis = 0
    else p = .fixed

/-- The masses of a link that are given, one after the other. -/
def masses (e : Elem K) : List (List (Tok K)) :=
  (elems e "inertial").flatMap fun n => (elems n "mass").filterMap fun m => m.find "value"

/-- The names of the shapes of a link, of which `n` are known already; a shape without a name is called after the link and its
number. -/
def shapeNames (link : String) : ℕ → List (Elem K) → List String
  | _, [] => []
  | n, v :: vs => (match v.find "name" with
      | some [.str s] => s
      | _ => link ++ "_" ++ toString n) :: shapeNames link (n + 1) vs

/-- Every shape has a geometry. -/
def Shaped (e : Elem K) : Prop := ∀ v ∈ elems e "visual", ∃ g ∈ elems v "geometry",
  ∃ t ∈ (["box", "sphere", "cylinder", "mesh"] : List String), elems g t ≠ []

/-- The robot is the one that the document describes, but for the places of its links. -/
structure Built [Field K] (doc : Elem K) (links : List String) (pars : List (Option ℕ)) (r : Robot K) : Prop where
  name : doc.find "name" = some [.str r.name]
  names : r.names = links
  parents : (r.node.map fun x => x.parent) = pars
  mass : ∀ (i : ℕ) (e : Elem K) (l : FLink K), (elems doc "link")[i]? = some e → r.link[i]? = some l →
    l.link.body.mp.mass = (num (masses e).getLast?).getD 0
  shapes : ∀ (i : ℕ) (e : Elem K) (l : FLink K), (elems doc "link")[i]? = some e → r.link[i]? = some l →
    l.shapes = shapeNames l.link.name 0 (elems e "visual") ∧ ∀ s ∈ l.shapes, s ∈ r.shapes
  joint : ∀ l ∈ r.link, ∀ e ∈ elems doc "joint", Names e "child" l.link.name → IsJoint e l.link.joint.prp
  fixed : ∀ l ∈ r.link, (∀ e ∈ elems doc "joint", ¬ Names e "child" l.link.name) → l.link.joint.prp = .fixed

end Roki.Spec.UrdfDoc
