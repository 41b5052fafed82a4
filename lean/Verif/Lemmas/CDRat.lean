import Verif.Spec.CD
import Mathlib.Algebra.Order.Field.Rat
import Mathlib.Tactic.NormNum
import Mathlib.Tactic.Linarith
set_option autoImplicit false

/-!
# A small geometry for examples

Bodies collide if their extents along the x axis overlap.  The oriented boxes are taken with a margin of one unit, the
axis-aligned boxes with a margin of two.
-/

namespace Roki.Sample

/-- The extents along x overlap, up to a margin. -/
def near (m : ℚ) (a b : PH ℚ) : Bool :=
  (a.vert.any fun u => b.vert.any fun v => decide (u.x ≤ v.x + m)) &&
  (a.vert.any fun u => b.vert.any fun v => decide (v.x ≤ u.x + m))

/-- The extent along x. -/
def lo (a : PH ℚ) : ℚ := (a.vert.map (·.x)).foldl min ((a.vert.head?.map (·.x)).getD 0)
@[inherit_doc lo] def hi (a : PH ℚ) : ℚ := (a.vert.map (·.x)).foldl max ((a.vert.head?.map (·.x)).getD 0)

/-- The geometry. -/
def geo : CDGeo ℚ where
  Shape := PH ℚ
  Box := PH ℚ
  AABox := PH ℚ
  toPH s := if s.vert.isEmpty then none else some s
  bbOf ph := ph
  boxX b f := Spec.posed b f
  toAABB b := b
  boxPH b := ⟨[⟨lo b - 1 / 2, 0, 0⟩, ⟨lo b - 1 / 2, 0, 1⟩, ⟨lo b - 1 / 2, 1, 0⟩, ⟨lo b - 1 / 2, 1, 1⟩,
    ⟨hi b + 1 / 2, 0, 0⟩, ⟨hi b + 1 / 2, 0, 1⟩, ⟨hi b + 1 / 2, 1, 0⟩, ⟨hi b + 1 / 2, 1, 1⟩], []⟩
  colAABB := near 2
  colBox := near 1
  colPH := near 0
  inside ph v := decide (lo ph ≤ v.x) && decide (v.x ≤ hi ph)
  closest ph v := if v.x - lo ph ≤ hi ph - v.x then ⟨lo ph, v.y, v.z⟩ else ⟨hi ph, v.y, v.z⟩
  tiny v := decide (v.x = 0) && decide (v.y = 0) && decide (v.z = 0)
  normalize v := if v.x < 0 then ⟨-1, 0, 0⟩ else ⟨1, 0, 0⟩
  ortho v := if v.x < 0 then (⟨0, 1, 0⟩, ⟨0, 0, -1⟩) else (⟨0, 1, 0⟩, ⟨0, 0, 1⟩)
  intersect a b := if near 0 a b then some ⟨[⟨max (lo a) (lo b), 0, 0⟩, ⟨min (hi a) (hi b), 0, 0⟩], []⟩ else none

theorem near_mono {m n : ℚ} (h : m ≤ n) {a b : PH ℚ} (hn : near m a b = true) : near n a b = true := by
  simp only [near, Bool.and_eq_true, List.any_eq_true, decide_eq_true_eq] at hn ⊢
  obtain ⟨⟨u, hu, v, hv, h1⟩, ⟨u', hu', v', hv', h2⟩⟩ := hn
  exact ⟨⟨u, hu, v, hv, by linarith⟩, ⟨u', hu', v', hv', by linarith⟩⟩

theorem geo_conservative : Spec.Conservative geo := by
  intro a b f g h
  exact ⟨near_mono (by norm_num) h, near_mono (by norm_num) h⟩

/-- A bar from the origin to `l` along x. -/
def bar (l : ℚ) : PH ℚ := ⟨[⟨0, 0, 0⟩, ⟨l, 0, 0⟩], []⟩

/-- A rod with nine vertices. -/
def rod : PH ℚ := ⟨(List.range 9).map fun i => ⟨(i : ℚ), 0, 0⟩, []⟩

/-- Link `i` is at `d i` along x. -/
def along (d : ℕ → ℚ) (i : ℕ) : Frame ℚ := ⟨⟨d i, 0, 0⟩, 1⟩

/-- The pairs with their marks. -/
def marks (cd : CD ℚ geo) : List (ℕ × ℕ × Bool) := cd.pairs.map fun p => (p.c0, p.c1, p.isCol)

/-- Two chains: the first with links 0 and 1, the second, static, with link 2. -/
def two (d : ℕ → ℚ) : List (CD.Op ℚ geo) :=
  [.chainReg (along d) 0 [(0, [bar 1]), (1, [bar 2])] false, .chainReg (along d) 1 [(2, [bar 1])] true]

end Roki.Sample
