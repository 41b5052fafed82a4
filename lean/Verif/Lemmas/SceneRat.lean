import Verif.Spec.Scene
import Verif.Lemmas.Scene
import Mathlib.Algebra.Order.Field.Rat
import Mathlib.Tactic.NormNum
import Mathlib.Tactic.Linarith
set_option autoImplicit false

/-!
# A small geometry without preferred directions

A polyhedron is taken as the union of the unit balls at its vertices.  Oriented boxes have balls of radius 3/2; axis-aligned boxes
are compared coordinate by coordinate.
-/

namespace Roki.Scene
open Spec

/-- The squared distance. -/
def dist2 (a b : Vec3 ℚ) : ℚ := sqrNorm (a - b)

/-- Some vertices are not farther than the root of `m`. -/
def near (m : ℚ) (a b : PH ℚ) : Bool := a.vert.any fun u => b.vert.any fun v => decide (dist2 u v ≤ m)

/-- The extents along an axis overlap up to a margin of 3. -/
def over (g : Vec3 ℚ → ℚ) (a b : PH ℚ) : Bool :=
  (a.vert.any fun u => b.vert.any fun v => decide (g u ≤ g v + 3)) && (a.vert.any fun u => b.vert.any fun v => decide (g v ≤ g u + 3))

/-- The nearest of some points. -/
def nearest (x : Vec3 ℚ) : List (Vec3 ℚ) → Vec3 ℚ
  | [] => x
  | [v] => v
  | v :: vs => if dist2 v x ≤ dist2 (nearest x vs) x then v else nearest x vs

/-- The geometry. -/
def geo : CDGeo ℚ where
  Shape := PH ℚ
  Box := PH ℚ
  AABox := PH ℚ
  toPH s := if s.vert.isEmpty then none else some s
  bbOf ph := ph
  boxX b f := posed b f
  toAABB b := b
  boxPH b := b
  colAABB a b := over (·.x) a b && over (·.y) a b && over (·.z) a b
  colBox := near 9
  colPH := near 4
  inside ph v := ph.vert.any fun u => decide (dist2 u v ≤ 1)
  closest ph v := nearest v ph.vert
  tiny v := decide (sqrNorm v = 0)
  normalize v := (sqrNorm v)⁻¹ • v
  ortho v := (⟨-v.y, v.x, 0⟩, ⟨0, 0, 1⟩)
  intersect a b :=
    let c : PH ℚ := ⟨a.vert.filter fun u => b.vert.any fun v => decide (dist2 u v ≤ 4), []⟩
    if c.vert.isEmpty then none else some c

variable {X : Frame ℚ}

theorem sqrNorm_rot (hX : X.att.IsRot) (v : Vec3 ℚ) : sqrNorm (X.att.mulVec v) = sqrNorm v := by
  unfold sqrNorm; exact hX.dot_mulVec_mulVec v v

theorem dist2_move (hX : X.att.IsRot) (a b : Vec3 ℚ) : dist2 (X.xform a) (X.xform b) = dist2 a b := by
  rw [dist2, xform_sub, sqrNorm_rot hX, dist2]

theorem near_move (hX : X.att.IsRot) (m : ℚ) (a b : PH ℚ) : near m (posed a X) (posed b X) = near m a b := by
  simp only [near, posed, List.any_map, Function.comp_def, dist2_move hX]

theorem nearest_cons (x v w : Vec3 ℚ) (vs : List (Vec3 ℚ)) : nearest x (v :: w :: vs) =
    if dist2 v x ≤ dist2 (nearest x (w :: vs)) x then v else nearest x (w :: vs) := rfl

theorem nearest_move (hX : X.att.IsRot) (x : Vec3 ℚ) : ∀ l : List (Vec3 ℚ), nearest (X.xform x) (l.map X.xform) = X.xform (nearest x l)
  | [] => rfl
  | [v] => rfl
  | v :: w :: vs => by
    have ih := nearest_move hX x (w :: vs)
    rw [List.map_cons] at ih
    rw [List.map_cons, List.map_cons, nearest_cons, nearest_cons, ih, dist2_move hX, dist2_move hX, apply_ite X.xform]

theorem le_three {a b c : ℚ} (h : a * a + b * b + c * c ≤ 9) : a ≤ 3 ∧ -3 ≤ a := by
  constructor <;> nlinarith [mul_self_nonneg b, mul_self_nonneg c]

/-- The geometry does not depend on where things are. -/
theorem geo_spatial (hX : X.att.IsRot) : Spatial geo X where
  boxX b f := posed_posed b f X
  colBox := near_move hX 9
  colPH := near_move hX 4
  inside a x := by
    show ((a.vert.map X.xform).any fun u => decide (dist2 u (X.xform x) ≤ 1)) = _
    simp only [List.any_map, Function.comp_def, dist2_move hX]
    rfl
  closest a x := nearest_move hX x a.vert
  tiny v := by show decide (sqrNorm (X.att.mulVec v) = 0) = _; rw [sqrNorm_rot hX]; rfl
  normalize v := by
    show (sqrNorm (X.att.mulVec v))⁻¹ • X.att.mulVec v = X.att.mulVec ((sqrNorm v)⁻¹ • v)
    rw [sqrNorm_rot hX]; ext <;> simp [Mat3.mulVec] <;> ring
  intersect a b := by
    have e : ((posed a X).vert.filter fun u => (posed b X).vert.any fun v => decide (dist2 u v ≤ 4)) =
        (a.vert.filter fun u => b.vert.any fun v => decide (dist2 u v ≤ 4)).map X.xform := by
      simp only [posed, List.filter_map, List.any_map, Function.comp_def, dist2_move hX]
    show (if _ then none else some _) = Option.map _ (if _ then none else some _)
    simp only [e, List.isEmpty_map]
    split_ifs <;> rfl
  enclose a b h := by
    obtain ⟨u, hu, h⟩ := List.any_eq_true.1 (show near 9 a b = true from h)
    obtain ⟨v, hv, h⟩ := List.any_eq_true.1 h
    have h := of_decide_eq_true h
    have h : (u.x - v.x) * (u.x - v.x) + (u.y - v.y) * (u.y - v.y) + (u.z - v.z) * (u.z - v.z) ≤ 9 := by
      simpa [dist2, sqrNorm, dot] using h
    have hx := le_three h
    have hy := le_three (a := u.y - v.y) (b := u.x - v.x) (c := u.z - v.z) (by linarith)
    have hz := le_three (a := u.z - v.z) (b := u.x - v.x) (c := u.y - v.y) (by linarith)
    show (over _ a b && over _ a b && over _ a b) = true
    simp only [over, Bool.and_eq_true, List.any_eq_true, decide_eq_true_eq]
    exact ⟨⟨⟨⟨u, hu, v, hv, by linarith⟩, u, hu, v, hv, by linarith⟩, ⟨u, hu, v, hv, by linarith⟩, u, hu, v, hv, by linarith⟩,
      ⟨u, hu, v, hv, by linarith⟩, u, hu, v, hv, by linarith⟩

/-! ## A scene -/

/-- A rotation about z by the angle of the 3-4-5 triangle, and a shift. -/
def turn : Frame ℚ := ⟨⟨10, -20, 30⟩, ⟨⟨3 / 5, 4 / 5, 0⟩, ⟨-4 / 5, 3 / 5, 0⟩, ⟨0, 0, 1⟩⟩⟩

theorem turn_rot : turn.att.IsRot := by constructor <;> decide +kernel

/-- A bar of two vertices along x. -/
def bar : PH ℚ := ⟨[⟨0, 0, 0⟩, ⟨1, 0, 0⟩], [(0, 1, 0)]⟩

/-- Three links of two chains: `d` is where link 1 is along x, `h` where link 2 is along y. -/
def put (d h : ℚ) : ℕ → Frame ℚ
  | 1 => ⟨⟨d, 0, 0⟩, 1⟩
  | 2 => ⟨⟨0, h, 0⟩, 1⟩
  | _ => ⟨0, 1⟩

/-- A history with all kinds of calls. -/
def story : List (CD.Op ℚ geo) :=
  [.chainReg (put 9 9) 0 [(0, [bar]), (1, [bar])] false, .chainReg (put 9 9) 1 [(2, [bar]), (3, [⟨[], []⟩])] false,
   .pairUnreg 0 2, .pairReg 0 2, .fric .sf, .obb (put 3 9), .gjk (put 1 1), .gjkOnly (put 1 3), .vert (put (3 / 2) 9),
   .vert (put (5 / 4) 9), .vol (put (3 / 2) 1), .vert (put (3 / 2) (1 / 2)), .pairChainUnreg 0]

/-- What is seen of a detector: pairs with their marks and the number of contact vertices. -/
def view (cd : CD ℚ geo) : List (ℕ × ℕ × Bool × ℕ) × ℕ := (cd.pairs.map fun p => (p.c0, p.c1, p.isCol, p.vlist.length), cd.colnum)

end Roki.Scene
