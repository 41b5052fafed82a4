import Verif.Model.Urdf
import Verif.Spec.Tree
import Verif.Spec.Kinematics
import Verif.Lemmas.Vec
import Verif.Lemmas.FK
import Verif.Lemmas.Tree
import Mathlib.Tactic.FieldSimp
set_option autoImplicit false

/-!
# C52: the tool `urdf2ztk`
-/

namespace Roki
open Spec Urdf
variable {K : Type*} [Field K]

namespace Spec

/-- The frame, in the world, of the link at the end of a chain of joints that starts at the root link. -/
def urdfFrame (p : List (Urdf.Joint K)) : Frame K := product (p.map (·.fl))

/-- The shapes of the link at the end of a chain of joints, with their poses in the world. -/
def urdfShapes (p : List (Urdf.Joint K)) (j : Urdf.Joint K) : List (String × Frame K) :=
  j.shapes.map fun s => (s.name, (urdfFrame (p ++ [j])).cascade s.fl)

/-- The mass properties, in the world, of the link at the end of a chain of joints. -/
def urdfMass (p : List (Urdf.Joint K)) (j : Urdf.Joint K) : MP K := j.mp.xform (urdfFrame (p ++ [j]))

/-- The joint has an axis. -/
def HasAxis (j : Urdf.Joint K) : Prop := j.type = "revolute" ∨ j.type = "continuous" ∨ j.type = "prismatic"

/-- `rot a` is a rotation for every `a`. -/
def Rotations (rot : Vec3 K → Mat3 K) : Prop := ∀ a, (rot a).IsRot

/-- Every frame of a joint of the tree has a rotation matrix. -/
def UrdfRot (T : LTree (Urdf.Joint K)) : Prop := ∀ j ∈ T.toList, j.fl.att.IsRot

/-- What the conversion does keep: the joints and their types along the chain, the origin of the link, its shapes in the
world, its mass. -/
structure Kept (p : List (Urdf.Joint K)) (j : Urdf.Joint K) (q : List (Urdf.Joint K)) (j' : Urdf.Joint K) : Prop where
  names : (q ++ [j']).map (fun k => (k.name, k.type)) = (p ++ [j]).map fun k => (k.name, k.type)
  origin : (urdfFrame (q ++ [j'])).pos = (urdfFrame (p ++ [j])).pos
  shapes : urdfShapes q j' = urdfShapes p j
  mass : j'.mp.mass = j.mp.mass

end Spec

namespace Urdf

/-- What becomes of a joint. -/
def conv (rot : Vec3 K → Mat3 K) (par par' : Option (Frame K)) (j : Joint K) : Joint K :=
  xformInv1 par' (realign rot (xform1 par j))

/-- The frame of a parent link. -/
def wf (par : Option (Frame K)) : Frame K := par.getD Frame.ident

/-- What becomes of a chain of joints. -/
inductive Rel (rot : Vec3 K → Mat3 K) : Option (Frame K) → Option (Frame K) → List (Joint K) → List (Joint K) → Prop
  | one (par par' : Option (Frame K)) (j : Joint K) : Rel rot par par' [j] [conv rot par par' j]
  | cons {par par' : Option (Frame K)} {j : Joint K} {p q : List (Joint K)} :
      Rel rot (some (xform1 par j).fw) (some (realign rot (xform1 par j)).fw) p q →
      Rel rot par par' (j :: p) (conv rot par par' j :: q)

theorem rel_of_result {rot : Vec3 K → Mat3 K} {T : LTree (Joint K)} {par par' : Option (Frame K)} {q : List (Joint K)}
    (h : IsPath (xformInv par' ((xform par T).map (realign rot))) q) : ∃ p, IsPath T p ∧ Rel rot par par' p q := by
  induction T generalizing par par' q with
  | nil => cases h
  | node j c s ihc ihs =>
    simp only [xform, LTree.map, xformInv] at h
    cases h with
    | here => exact ⟨_, .here _ _ _, .one _ _ _⟩
    | child h =>
      obtain ⟨p, hp, hr⟩ := ihc h
      exact ⟨_, .child hp, .cons hr⟩
    | sibl h =>
      obtain ⟨p, hp, hr⟩ := ihs h
      exact ⟨_, .sibl hp, hr⟩

theorem rel_of_source {rot : Vec3 K → Mat3 K} {T : LTree (Joint K)} {par par' : Option (Frame K)} {p : List (Joint K)}
    (h : IsPath T p) : ∃ q, IsPath (xformInv par' ((xform par T).map (realign rot))) q ∧ Rel rot par par' p q := by
  induction h generalizing par par' with
  | here j c s => exact ⟨_, .here _ _ _, .one _ _ _⟩
  | child h ih =>
    obtain ⟨q, hq, hr⟩ := ih
    exact ⟨_, .child hq, .cons hr⟩
  | sibl h ih =>
    obtain ⟨q, hq, hr⟩ := ih
    exact ⟨_, .sibl hq, hr⟩

theorem xform1_fw (par : Option (Frame K)) (j : Joint K) : (xform1 par j).fw = (wf par).cascade j.fl := by
  cases par <;> simp [xform1, wf]

theorem conv_fl {rot : Vec3 K → Mat3 K} {par par' : Option (Frame K)} (j : Joint K) (hp : (wf par').att.IsRot) :
    (wf par').cascade (conv rot par par' j).fl = (realign rot (xform1 par j)).fw := by
  cases par' with
  | none => simp [wf, conv, xformInv1]
  | some f => exact Frame.cascade_xformF hp _

theorem isRot_realign {rot : Vec3 K → Mat3 K} (hr : Rotations rot) {j : Joint K} (h : j.fw.att.IsRot) :
    (realign rot j).fw.att.IsRot := by
  rw [realign]
  split_ifs
  · exact (hr _).mul h
  · exact h

/-- Along related chains: the last joints, and the frames of their links. -/
theorem Rel.last {rot : Vec3 K → Mat3 K} (hrot : Rotations rot) {par par' : Option (Frame K)} {p q : List (Joint K)}
    (h : Rel rot par par' p q) (h1 : (wf par).att.IsRot) (h2 : (wf par').att.IsRot) (hp : ∀ j ∈ p, j.fl.att.IsRot) :
    ∃ (r r' : List (Joint K)) (j : Joint K) (pa pa' : Option (Frame K)), p = r ++ [j] ∧ q = r' ++ [conv rot pa pa' j] ∧
      (wf pa).att.IsRot ∧ (wf pa').att.IsRot ∧ j.fl.att.IsRot ∧
      wf pa = (wf par).cascade (product (r.map (·.fl))) ∧ wf pa' = (wf par').cascade (product (r'.map (·.fl))) ∧
      r'.map (fun k => (k.name, k.type)) = r.map (fun k => (k.name, k.type)) := by
  induction h with
  | one par par' j =>
    exact ⟨[], [], j, par, par', rfl, rfl, h1, h2, hp j (by simp), by simp [product, ← Frame.ident.eq_1],
      by simp [product, ← Frame.ident.eq_1], rfl⟩
  | @cons par par' k p q _ ih =>
    have e1 : (wf (some (xform1 par k).fw)).att.IsRot := by
      show (xform1 par k).fw.att.IsRot
      rw [xform1_fw]
      exact h1.mul (hp k (by simp))
    have e2 : (wf (some (realign rot (xform1 par k)).fw)).att.IsRot := isRot_realign hrot e1
    obtain ⟨r, r', j, pa, pa', e, e', a1, a2, a3, b1, b2, b3⟩ := ih e1 e2 fun j hj => hp j (by simp [hj])
    refine ⟨k :: r, conv rot par par' k :: r', j, pa, pa', by rw [e]; rfl, by rw [e']; rfl, a1, a2, a3, ?_, ?_, ?_⟩
    · rw [b1, List.map_cons, product, ← Frame.cascade_assoc, ← xform1_fw]
      rfl
    · rw [b2, List.map_cons, product, ← Frame.cascade_assoc, conv_fl k h2]
      rfl
    · rw [List.map_cons, List.map_cons, b3]
      congr 1
      simp only [conv, xformInv1, realign]
      split_ifs <;> rfl

theorem conv_shapes {rot : Vec3 K → Mat3 K} (hrot : Rotations rot) {par par' : Option (Frame K)} (j : Joint K)
    (h1 : (wf par).att.IsRot) (h2 : (wf par').att.IsRot) (h3 : j.fl.att.IsRot) :
    (conv rot par par' j).shapes.map (fun s => (s.name, ((wf par').cascade (conv rot par par' j).fl).cascade s.fl)) =
      j.shapes.map fun s => (s.name, ((wf par).cascade j.fl).cascade s.fl) := by
  rw [conv_fl j h2]
  have hr : (realign rot (xform1 par j)).fw.att.IsRot := isRot_realign hrot (by rw [xform1_fw]; exact h1.mul h3)
  have hs : (realign rot (xform1 par j)).shapes = (xform1 par j).shapes := by
    rw [realign]
    split_ifs <;> rfl
  simp only [conv, xformInv1, List.map_map, hs]
  have hx : (xform1 par j).shapes = j.shapes.map fun s => { s with fw := ((wf par).cascade j.fl).cascade s.fl } := by
    rw [← xform1_fw]
    rfl
  rw [hx, List.map_map]
  refine List.map_congr_left fun s _ => ?_
  simp only [Function.comp_apply]
  rw [Frame.cascade_xformF hr]

end Urdf

/-- The chain of joints above a joint of the result, and that of the given robot that it comes from. -/
theorem Urdf.related {rot : Vec3 K → Mat3 K} (hrot : Rotations rot) {T : LTree (Urdf.Joint K)} (hT : UrdfRot T)
    {p q : List (Urdf.Joint K)} (hp : IsPath T p) (h : Rel rot none none p q) :
    ∃ (r r' : List (Urdf.Joint K)) (j : Urdf.Joint K) (pa pa' : Option (Frame K)), p = r ++ [j] ∧
      q = r' ++ [conv rot pa pa' j] ∧ (wf pa).att.IsRot ∧ (wf pa').att.IsRot ∧ j.fl.att.IsRot ∧
      wf pa = urdfFrame r ∧ wf pa' = urdfFrame r' ∧
      r'.map (fun k => (k.name, k.type)) = r.map (fun k => (k.name, k.type)) := by
  have hi : (wf (none : Option (Frame K))).att.IsRot := Mat3.isRot_one
  obtain ⟨r, r', j, pa, pa', e1, e2, a1, a2, a3, b1, b2, b3⟩ := h.last hrot hi hi fun j hj => hT j (hp.mem j hj)
  refine ⟨r, r', j, pa, pa', e1, e2, a1, a2, a3, ?_, ?_, b3⟩
  · rw [b1]; exact Frame.ident_cascade _
  · rw [b2]; exact Frame.ident_cascade _

theorem urdfFrame_snoc (r : List (Urdf.Joint K)) (j : Urdf.Joint K) :
    urdfFrame (r ++ [j]) = (urdfFrame r).cascade j.fl := by
  rw [urdfFrame, List.map_append, List.map_cons, List.map_nil, product_append, product, product, ← Frame.ident.eq_1,
    Frame.cascade_ident]
  rfl

theorem hasAxis_iff (j : Urdf.Joint K) : HasAxis j ↔ (isRevol j || isPrism j) = true := by
  simp [HasAxis, isRevol, isPrism, or_assoc]

theorem Urdf.kept {rot : Vec3 K → Mat3 K} (hrot : Rotations rot) {r r' : List (Urdf.Joint K)} {j : Urdf.Joint K}
    {pa pa' : Option (Frame K)} (a1 : (wf pa).att.IsRot) (a2 : (wf pa').att.IsRot) (a3 : j.fl.att.IsRot)
    (b1 : wf pa = urdfFrame r) (b2 : wf pa' = urdfFrame r')
    (b3 : r'.map (fun k => (k.name, k.type)) = r.map (fun k => (k.name, k.type))) :
    Kept r j r' (conv rot pa pa' j) := by
  have hn : (realign rot (xform1 pa j)).name = j.name ∧ (realign rot (xform1 pa j)).type = j.type ∧
      (realign rot (xform1 pa j)).mp.mass = j.mp.mass ∧ (realign rot (xform1 pa j)).fw.pos = (xform1 pa j).fw.pos := by
    rw [realign]
    split_ifs <;> exact ⟨rfl, rfl, rfl, rfl⟩
  refine ⟨?_, ?_, ?_, hn.2.2.1⟩
  · simp only [List.map_append, b3, List.map_cons, List.map_nil]
    rw [show (conv rot pa pa' j).name = j.name from hn.1, show (conv rot pa pa' j).type = j.type from hn.2.1]
  · rw [urdfFrame_snoc, urdfFrame_snoc, ← b1, ← b2, conv_fl j a2, hn.2.2.2, xform1_fw]
  · rw [urdfShapes, urdfShapes, urdfFrame_snoc, urdfFrame_snoc, ← b1, ← b2]
    exact conv_shapes hrot j a1 a2 a3

/-- C52, geometry: for every tree of joints, the joints of the converted robot are those of the given one, in the same
tree; every link has its origin where it was in the world, and every shape is where it was in the world, whatever rotations
the axes ask for.  Missing: the mass properties and the axes, see below. -/
theorem C52_shapes_partial {rot : Vec3 K → Mat3 K} (hrot : Rotations rot) {T : LTree (Urdf.Joint K)} (hT : UrdfRot T) :
    (∀ q j', IsPath (correctFrame rot T) (q ++ [j']) → ∃ p j, IsPath T (p ++ [j]) ∧ Kept p j q j') ∧
    (∀ p j, IsPath T (p ++ [j]) → ∃ q j', IsPath (correctFrame rot T) (q ++ [j']) ∧ Kept p j q j') := by
  constructor
  · intro q j' hq
    obtain ⟨p, hp, hr⟩ := rel_of_result hq
    obtain ⟨r, r', j, pa, pa', e1, e2, a1, a2, a3, b1, b2, b3⟩ := related hrot hT hp hr
    obtain ⟨rfl, e⟩ := List.append_inj' e2 rfl
    obtain rfl := List.singleton_inj.1 e
    exact ⟨r, j, e1 ▸ hp, kept hrot a1 a2 a3 b1 b2 b3⟩
  · intro p j hp
    obtain ⟨q, hq, hr⟩ := rel_of_source (rot := rot) (par := none) (par' := none) hp
    obtain ⟨r, r', k, pa, pa', e1, e2, a1, a2, a3, b1, b2, b3⟩ := related hrot hT hp hr
    obtain ⟨rfl, e⟩ := List.append_inj' e1 rfl
    obtain rfl := List.singleton_inj.1 e
    exact ⟨r', _, e2 ▸ hq, kept hrot a1 a2 a3 b1 b2 b3⟩

/-- C52, axis: a joint with an axis whose frame is parallel to the world in the given robot has its axis, in the world, along
the z axis of the converted frame.  Missing: joints whose frame is not parallel to the world, for which it is wrong. -/
theorem C52_axis_partial [LinearOrder K] {rot : Vec3 K → Mat3 K} (hrot : Rotations rot)
    (halign : ∀ a : Vec3 K, a.x ≠ 0 ∨ a.y ≠ 0 ∨ 0 < a.z → ∃ k : K, 0 < k ∧ a = k • (rot a).cz)
    {T : LTree (Urdf.Joint K)} (hT : UrdfRot T) {p : List (Urdf.Joint K)} {j : Urdf.Joint K} (hp : IsPath T (p ++ [j]))
    (hj : HasAxis j) (ha : j.axis.x ≠ 0 ∨ j.axis.y ≠ 0 ∨ 0 < j.axis.z) (h1 : (urdfFrame (p ++ [j])).att = 1) :
    ∃ q j', IsPath (correctFrame rot T) (q ++ [j']) ∧ Kept p j q j' ∧
      ∃ k : K, 0 < k ∧ (urdfFrame (p ++ [j])).att.mulVec j.axis = k • (urdfFrame (q ++ [j'])).att.cz := by
  obtain ⟨q, hq, hr⟩ := rel_of_source (rot := rot) (par := none) (par' := none) hp
  obtain ⟨r, r', k, pa, pa', e1, e2, a1, a2, a3, b1, b2, b3⟩ := related hrot hT hp hr
  obtain ⟨rfl, e⟩ := List.append_inj' e1 rfl
  obtain rfl := List.singleton_inj.1 e
  refine ⟨r', _, e2 ▸ hq, kept hrot a1 a2 a3 b1 b2 b3, ?_⟩
  obtain ⟨c, hc, hc'⟩ := halign j.axis ha
  refine ⟨c, hc, ?_⟩
  have hx : (xform1 pa j).fw = urdfFrame (p ++ [j]) := by rw [xform1_fw, b1, urdfFrame_snoc]
  have hm : (isRevol (xform1 pa j) || isPrism (xform1 pa j)) = true := (hasAxis_iff j).1 hj
  rw [urdfFrame_snoc r', ← b2, conv_fl j a2, realign, if_pos hm, h1]
  simp only [hx, h1]
  rw [Mat3.one_mulVec, Mat3.mul_one']
  exact hc'

/-- C52, mass properties: a link whose joint is not realigned keeps its centre of mass in the world; and also its inertia
tensor, if the frame of its parent link in the converted robot is parallel to the world.  Missing: links whose joint is
realigned, and links below a frame that is not parallel to the world; for both it is wrong. -/
theorem C52_mass_partial {rot : Vec3 K → Mat3 K} (hrot : Rotations rot) {T : LTree (Urdf.Joint K)} (hT : UrdfRot T)
    {p : List (Urdf.Joint K)} {j : Urdf.Joint K} (hp : IsPath T (p ++ [j])) (hj : HasAxis j → rot j.axis = 1) :
    ∃ q j', IsPath (correctFrame rot T) (q ++ [j']) ∧ Kept p j q j' ∧ (urdfMass q j').com = (urdfMass p j).com ∧
      ((urdfFrame q).att = 1 → urdfMass q j' = urdfMass p j) := by
  obtain ⟨q, hq, hr⟩ := rel_of_source (rot := rot) (par := none) (par' := none) hp
  obtain ⟨r, r', k, pa, pa', e1, e2, a1, a2, a3, b1, b2, b3⟩ := related hrot hT hp hr
  obtain ⟨rfl, e⟩ := List.append_inj' e1 rfl
  obtain rfl := List.singleton_inj.1 e
  refine ⟨r', _, e2 ▸ hq, kept hrot a1 a2 a3 b1 b2 b3, ?_⟩
  have hre : realign rot (xform1 pa j) = xform1 pa j := by
    rw [realign]
    split_ifs with h
    · have : rot (xform1 pa j).axis = 1 := hj ((hasAxis_iff j).2 h)
      rw [this, Mat3.one_mul']
    · rfl
  have hf : urdfFrame (r' ++ [conv rot pa pa' j]) = urdfFrame (p ++ [j]) := by
    rw [urdfFrame_snoc, ← b2, conv_fl j a2, hre, xform1_fw, b1, urdfFrame_snoc]
  have hc : (conv rot pa pa' j).mp.com = j.mp.com := by
    simp only [conv, hre]; rfl
  have hm : (conv rot pa pa' j).mp.mass = j.mp.mass := by
    simp only [conv, hre]; rfl
  refine ⟨?_, fun h1 => ?_⟩
  · simp only [urdfMass, MP.xform, hf, hc]
  · have hfl : (conv rot pa pa' j).fl.att = (urdfFrame (p ++ [j])).att := by
      rw [← hf, urdfFrame_snoc, Frame.cascade_att, h1, Mat3.one_mul']
    have hw : (urdfFrame (p ++ [j])).att.IsRot := by
      rw [urdfFrame_snoc, ← b1]
      exact a1.mul a3
    have hi : (conv rot pa pa' j).mp.inertia = j.mp.inertia := by
      show (conv rot pa pa' j).fl.att.rotInv (realign rot (xform1 pa j)).iw = _
      rw [hfl, hre]
      show (urdfFrame (p ++ [j])).att.rotInv ((xform1 pa j).fw.att.rot j.mp.inertia) = _
      rw [xform1_fw, b1, ← urdfFrame_snoc, Mat3.rotInv_rot hw]
    simp only [urdfMass, MP.xform, hf, hc, hm, hi]

/-! ## What goes wrong -/

namespace Urdf

/-- A quarter turn about z. -/
def quarter : Mat3 ℚ := ⟨⟨0, 1, 0⟩, ⟨-1, 0, 0⟩, ⟨0, 0, 1⟩⟩

/-- A link of mass 1 with its centre of mass on its z axis and different moments of inertia, on a fixed joint turned by a
quarter about z. -/
def w1 : Joint ℚ :=
  { name := "a", type := "fixed", fl := ⟨0, quarter⟩, fw := Frame.ident, axis := ⟨1, 0, 0⟩,
    mp := ⟨1, ⟨0, 0, 1⟩, ⟨⟨1, 0, 0⟩, ⟨0, 2, 0⟩, ⟨0, 0, 2⟩⟩⟩, iw := 1, shapes := [⟨"s", Frame.ident, Frame.ident⟩] }

/-- The same on a fixed joint that is not turned. -/
def w2 : Joint ℚ := { w1 with name := "b", fl := ⟨⟨1, 0, 0⟩, 1⟩ }

/-- The same on a revolute joint about x. -/
def w3 : Joint ℚ := { w2 with name := "c", type := "revolute" }

/-- Rotations that bring z to an axis, for the axes used. -/
def turn (a : Vec3 ℚ) : Mat3 ℚ := if a = ⟨1, 0, 0⟩ then ⟨⟨0, 0, -1⟩, ⟨0, 1, 0⟩, ⟨1, 0, 0⟩⟩ else 1

theorem turn_rot : Rotations turn := by
  intro a
  rw [turn]
  split_ifs
  · constructor <;> decide +kernel
  · exact Mat3.isRot_one

theorem quarter_rot : quarter.IsRot := by constructor <;> decide +kernel

end Urdf

/-- C52 fails for the inertia tensor, whatever the rotations for the axes are: in a robot of two fixed joints, the first
turned by a quarter, the inertia tensor of the second link is not the same in the world after the conversion. -/
theorem C52_inertia_fails : ∃ T : LTree (Urdf.Joint ℚ), UrdfRot T ∧ (∀ j ∈ T.toList, j.type = "fixed") ∧
    ∃ p j, IsPath T (p ++ [j]) ∧ ∀ rot : Vec3 ℚ → Mat3 ℚ, ∀ q j', IsPath (correctFrame rot T) (q ++ [j']) →
      j'.name = j.name → (urdfMass q j').inertia ≠ (urdfMass p j).inertia := by
  refine ⟨.node w1 (.node w2 .nil .nil) .nil, ?_, ?_, [w1], w2, .child (.here _ _ _), fun rot q j' h hn => ?_⟩
  · intro j hj
    simp only [LTree.toList, List.append_nil, List.mem_cons, List.not_mem_nil, or_false] at hj
    rcases hj with rfl | rfl
    · exact quarter_rot
    · exact Mat3.isRot_one
  · intro j hj
    simp only [LTree.toList, List.append_nil, List.mem_cons, List.not_mem_nil, or_false] at hj
    rcases hj with rfl | rfl <;> rfl
  · have e : ∀ r : Vec3 ℚ → Mat3 ℚ, correctFrame r (.node w1 (.node w2 .nil .nil) .nil) =
        .node (conv (fun _ => 1) none none w1) (.node (conv (fun _ => 1) (some ⟨0, quarter⟩) (some ⟨0, quarter⟩) w2) .nil .nil)
          .nil := by
      intro r
      rfl
    rw [e] at h
    generalize hq : q ++ [j'] = l at h
    cases h with
    | here =>
      obtain ⟨rfl, rfl⟩ : q = [] ∧ j' = _ := by
        cases q with
        | nil => simpa using hq
        | cons a b => simp at hq
      exact absurd hn (by decide)
    | child h =>
      cases h with
      | here =>
        obtain ⟨rfl, rfl⟩ : q = [conv (fun _ => 1) none none w1] ∧ j' = _ := by
          have := List.append_inj' (show q ++ [j'] = [_] ++ [_] from hq) rfl
          exact ⟨this.1, List.singleton_inj.1 this.2⟩
        decide +kernel
      | child h => cases h
      | sibl h => cases h
    | sibl h => cases h

/-- C52 fails for the centre of mass, for all rotations that bring z to x: the link of a revolute joint about x, in a robot
of this joint only, does not keep the position of its centre of mass in the world. -/
theorem C52_com_fails : ∃ j : Urdf.Joint ℚ, j.fl.att = 1 ∧ HasAxis j ∧ ∀ rot : Vec3 ℚ → Mat3 ℚ, Rotations rot →
    (rot j.axis).cz = j.axis → ∀ q j', IsPath (correctFrame rot (.node j .nil .nil)) (q ++ [j']) →
      (urdfMass q j').com ≠ (urdfMass [] j).com := by
  refine ⟨w3, rfl, .inl rfl, fun rot hr hz q j' h => ?_⟩
  have e : correctFrame rot (.node w3 .nil .nil) = .node (conv rot none none w3) .nil .nil := rfl
  rw [e] at h
  generalize hq : q ++ [j'] = l at h
  cases h with
  | here =>
    obtain ⟨rfl, rfl⟩ : q = [] ∧ j' = _ := by
      cases q with
      | nil => simpa using hq
      | cons a b => simp at hq
    intro hc
    have h1 := congrArg Vec3.x hc
    have hz' : (rot ⟨1, 0, 0⟩).cz = ⟨1, 0, 0⟩ := hz
    have hm : (conv rot none none w3).mp.com = ⟨0, 0, 1⟩ := rfl
    have hf : (conv rot none none w3).fl = ⟨⟨1, 0, 0⟩, (rot ⟨1, 0, 0⟩).mul 1⟩ := rfl
    rw [Mat3.mul_one'] at hf
    simp only [urdfMass, MP.xform, urdfFrame_snoc, hm, hf] at h1
    rw [show urdfFrame ([] : List (Urdf.Joint ℚ)) = Frame.ident from rfl, Frame.ident_cascade, Frame.ident_cascade] at h1
    have hl : ((Frame.mk ⟨1, 0, 0⟩ (rot ⟨1, 0, 0⟩) : Frame ℚ).xform ⟨0, 0, 1⟩).x = (rot ⟨1, 0, 0⟩).cz.x + 1 := by
      simp [Frame.xform, Mat3.mulVec]
    rw [hl, hz'] at h1
    exact absurd h1 (by decide +kernel)
  | child h => cases h
  | sibl h => cases h

/-- C52 fails for the axis, for all rotations that bring z to x: a revolute joint about x below a fixed joint turned by a
quarter about z has, after the conversion, its z axis along the world's x, but the axis given is the world's y. -/
theorem C52_axis_fails : ∃ (k j : Urdf.Joint ℚ), k.fl.att.IsRot ∧ j.fl.att.IsRot ∧ HasAxis j ∧
    ∀ rot : Vec3 ℚ → Mat3 ℚ, (rot j.axis).cz = j.axis →
      ∀ q j', IsPath (correctFrame rot (.node k (.node j .nil .nil) .nil)) (q ++ [j']) → j'.name = j.name →
        (urdfFrame [k, j]).att.mulVec j.axis = ⟨0, 1, 0⟩ ∧ (urdfFrame (q ++ [j'])).att.cz = ⟨1, 0, 0⟩ := by
  refine ⟨w1, w3, quarter_rot, Mat3.isRot_one, .inl rfl, fun rot hz q j' h hn => ?_⟩
  have e : correctFrame rot (.node w1 (.node w3 .nil .nil) .nil) =
      .node (conv rot none none w1) (.node (conv rot (some ⟨0, quarter⟩) (some ⟨0, quarter⟩) w3) .nil .nil) .nil := rfl
  rw [e] at h
  generalize hq : q ++ [j'] = l at h
  cases h with
  | here =>
    obtain ⟨rfl, rfl⟩ : q = [] ∧ j' = _ := by
      cases q with
      | nil => simpa using hq
      | cons a b => simp at hq
    have hn' : (conv rot none none w1).name = "a" := rfl
    rw [hn'] at hn
    exact absurd hn (by decide)
  | child h =>
    cases h with
    | here =>
      refine ⟨by decide +kernel, ?_⟩
      rw [← hq]
      obtain ⟨rfl, rfl⟩ : q = [conv rot none none w1] ∧ j' = _ := by
        have := List.append_inj' (show q ++ [j'] = [_] ++ [_] from hq) rfl
        exact ⟨this.1, List.singleton_inj.1 this.2⟩
      have hw : urdfFrame [conv rot none none w1] = wf (some ⟨0, quarter⟩) := by
        rw [show urdfFrame [conv rot none none w1] = (conv rot none none w1).fl.cascade Frame.ident from rfl,
          Frame.cascade_ident]
        rfl
      rw [urdfFrame_snoc, hw, conv_fl (par' := some ⟨0, quarter⟩) _ quarter_rot]
      have hm : realign rot (xform1 (some ⟨0, quarter⟩) w3) =
        { xform1 (some ⟨0, quarter⟩) w3 with
          fw := ⟨(xform1 (some ⟨0, quarter⟩) w3).fw.pos, (rot ⟨1, 0, 0⟩).mul (quarter.mul 1)⟩ } := rfl
      rw [hm]
      have hz' : (rot ⟨1, 0, 0⟩).cz = ⟨1, 0, 0⟩ := hz
      rw [Mat3.mul_one']
      show (rot ⟨1, 0, 0⟩).mulVec quarter.cz = _
      rw [show quarter.cz = (⟨0, 0, 1⟩ : Vec3 ℚ) from rfl]
      refine Eq.trans ?_ hz'
      simp [Mat3.mulVec]
    | child h => cases h
    | sibl h => cases h
  | sibl h => cases h

/-- Concrete case for C52: a revolute joint about x on a link that is on a fixed joint turned by a quarter; the trees of the
theorems and of the failures meet the hypotheses, and `turn` is a choice of rotations for them. -/
example : Rotations turn ∧ (turn w3.axis).cz = w3.axis ∧ HasAxis w3 ∧ UrdfRot (.node w1 (.node w3 .nil .nil) .nil) ∧
    IsPath (.node w1 (.node w3 .nil .nil) .nil) ([w1] ++ [w3]) ∧ urdfShapes [w1] w3 = [("s", ⟨⟨0, 1, 0⟩, quarter⟩)] ∧
    (urdfFrame ([] ++ [w3])).att = 1 := by
  refine ⟨turn_rot, by decide +kernel, .inl rfl, ?_, .child (.here _ _ _), by decide +kernel, by decide +kernel⟩
  intro j hj
  simp only [LTree.toList, List.append_nil, List.mem_cons, List.not_mem_nil, or_false] at hj
  rcases hj with rfl | rfl
  · exact quarter_rot
  · exact Mat3.isRot_one

end Roki
