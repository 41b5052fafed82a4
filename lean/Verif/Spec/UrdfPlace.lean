import Verif.Spec.UrdfFile
set_option autoImplicit false

/-!
# Specification of the places in URDF documents
-/

namespace Roki.Spec.UrdfDoc
open Roki.ZTK Roki.Urdf.Doc
variable {K : Type*} [Field K]

/-- Three numbers. -/
def three : List (Tok K) → Option (Vec3 K)
  | [.num x, .num y, .num z] => some ⟨x, y, z⟩
  | _ => none

/-- The frame that the origin of an element stands for: `xyz` is its position, `rpy` the angles of roll, pitch and yaw. -/
def origin (zyx : K → K → K → Mat3 K) (e : Elem K) : Frame K where
  pos := ((given e "origin" "xyz").bind three).getD 0
  att := (((given e "origin" "rpy").bind three).map fun a => zyx a.z a.y a.x).getD 1

/-- The axis of a joint. -/
def axisOf (e : Elem K) : Vec3 K := ((((elems e "axis").filterMap fun a => a.find "xyz").getLast?).bind three).getD ⟨1, 0, 0⟩

/-- What is given of an origin is three numbers. -/
def OriginOk (e : Elem K) : Prop :=
  ∀ n ∈ elems e "origin", ∀ a ∈ n.attrs, a.1 = "xyz" ∨ a.1 = "rpy" → ∃ v, three a.2 = some v

/-- What is given of an axis is three numbers. -/
def AxisOk (e : Elem K) : Prop := ∀ n ∈ elems e "axis", ∀ ts, n.find "xyz" = some ts → ∃ v, three ts = some v

/-- The frame of a link in the frame of the root, by the origins of the joints, all of them at zero. -/
inductive At (zyx : K → K → K → Mat3 K) (doc : Elem K) : String → Frame K → Prop
  | root (n : String) : (∀ e ∈ elems doc "joint", ¬ Names e "child" n) → At zyx doc n Frame.ident
  | joint (e : Elem K) (np n : String) (f : Frame K) : e ∈ elems doc "joint" → Names e "parent" np → Names e "child" n →
      At zyx doc np f → At zyx doc n (f.cascade (origin zyx e))

/-- The joint of a link has an axis. -/
def Turns (e : Elem K) : Prop := ∃ t, attr e "type" = some [.str t] ∧ (t = "revolute" ∨ t = "continuous" ∨ t = "prismatic")

/-- The frame `g` that the program gives to a link with the frame `f`: if the joint has an axis, `rot axis` turns it. -/
def Put (rot : Vec3 K → Mat3 K) (doc : Elem K) (n : String) (f g : Frame K) : Prop :=
  (∃ e ∈ elems doc "joint", Names e "child" n ∧ Turns e ∧ g = ⟨f.pos, (rot (axisOf e)).mul f.att⟩) ∨
    (∀ e ∈ elems doc "joint", Names e "child" n → ¬ Turns e) ∧ g = f

/-- The inertia tensor of an element. -/
def tensor (e : Elem K) : Mat3 K :=
  let c := fun k => (num (given e "inertia" k)).getD 0
  ⟨⟨c "ixx", c "ixy", c "ixz"⟩, ⟨c "ixy", c "iyy", c "iyz"⟩, ⟨c "ixz", c "iyz", c "izz"⟩⟩

/-- The link has one element with mass properties, with one mass and one inertia tensor: these are the mass properties in the frame
of the link. -/
def IsMass (zyx : K → K → K → Mat3 K) (e : Elem K) (m : MP K) : Prop :=
  ∃ n a b x, elems e "inertial" = [n] ∧ OriginOk n ∧ elems n "mass" = [a] ∧ a.find "value" = some [.num x] ∧
    elems n "inertia" = [b] ∧ m = ⟨x, (origin zyx n).pos, (origin zyx n).att.rot (tensor n)⟩

variable [Zm K]

/-- No number is so small that the program takes it for zero, other than zero. -/
def Crisp (f : Frame K) : Prop :=
  ∀ a ∈ [f.pos.x, f.pos.y, f.pos.z, f.att.cx.x - 1, f.att.cx.y, f.att.cx.z, f.att.cy.x, f.att.cy.y - 1, f.att.cy.z,
    f.att.cz.x, f.att.cz.y, f.att.cz.z - 1], Zm.tiny a = true → a = 0

/-- This holds for the frames of all links with respect to their parents, as the program puts them. -/
def AllCrisp (rot : Vec3 K → Mat3 K) (zyx : K → K → K → Mat3 K) (doc : Elem K) : Prop :=
  ∀ e ∈ elems doc "joint", ∀ np n fp gp f g, Names e "parent" np → Names e "child" n → At zyx doc np fp → Put rot doc np fp gp →
    At zyx doc n f → Put rot doc n f g → Crisp (gp.xformF g)

end Roki.Spec.UrdfDoc
