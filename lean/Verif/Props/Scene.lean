import Verif.Lemmas.SceneRat
set_option autoImplicit false

/-!
# C118: collision detection does not depend on where the scene stands
-/

namespace Roki
open CD Spec Scene
variable {K : Type*} [Field K] {G : CDGeo K} {X : Frame K}

/-- Take any history of calls of the collision detector, and the same history with every link moved by one and the same rotation and
translation at every call.  If the geometric routines do not depend on where things are, both histories are defined and end alike:
the same cells are registered, moved; the same pairs are watched, in the same order, with the same marks; the same vertices are in
contact, with normals, projections and reference points that are moved; the collision volumes are moved; the counters are the same. -/
theorem C118_scene (hX : X.att.IsRot) (hG : Spatial G X) (ops : List (CD.Op K G)) (hp : ∀ op ∈ ops, op.Plain)
    (ha : ∀ op ∈ ops, Op.Aligned X op) :
    ∃ cd cd', (create : CD K G).runAll ops = some cd ∧ (create : CD K G).runAll (ops.map (moveOp X)) = some cd' ∧
      MovedCD X cd cd' := by
  obtain ⟨cd, cd', h, h', b⟩ := runAll_move hX hG hp ha (both_create X)
  exact ⟨cd, cd', h, h', b.moved⟩

/-- Marks, pairs and counters are the same. -/
theorem C118_marks (hX : X.att.IsRot) (hG : Spatial G X) (ops : List (CD.Op K G)) (hp : ∀ op ∈ ops, op.Plain)
    (ha : ∀ op ∈ ops, Op.Aligned X op) :
    ((create : CD K G).runAll (ops.map (moveOp X))).map (fun cd => (cd.pairs.map fun p => (p.c0, p.c1, p.isCol, p.vlist.length), cd.colnum))
      = ((create : CD K G).runAll ops).map fun cd => (cd.pairs.map fun p => (p.c0, p.c1, p.isCol, p.vlist.length), cd.colnum) := by
  obtain ⟨cd, cd', h, h', m⟩ := C118_scene hX hG ops hp ha
  rw [h, h']
  simp only [Option.map_some, Option.some.injEq, Prod.mk.injEq]
  refine ⟨?_, m.colnum⟩
  have := m.pairs
  generalize cd.pairs = ps at this
  generalize cd'.pairs = qs at this
  induction this with
  | nil => rfl
  | cons h _ ih => rw [List.map_cons, List.map_cons, ih, h.c0, h.c1, h.isCol, h.vlist.length_eq]

/-- A history of all kinds of calls in a geometry of balls, turned and shifted: it meets the hypotheses, and there are contacts. -/
theorem C118_sample : turn.att.IsRot ∧ Spatial geo turn ∧ (∀ op ∈ story, op.Plain) ∧ (∀ op ∈ story, Op.Aligned turn op) ∧
    ((create : CD ℚ geo).runAll story).map view = some ([(2, 3, true, 2), (1, 3, true, 4)], 8) := by
  refine ⟨turn_rot, geo_spatial turn_rot, ?_, ?_, by decide +kernel⟩
  · intro op h
    simp only [story, List.mem_cons, List.not_mem_nil, or_false] at h
    rcases h with rfl | rfl | rfl | rfl | rfl | rfl | rfl | rfl | rfl | rfl | rfl | rfl | rfl <;> trivial
  · intro op h
    simp only [story, List.mem_cons, List.not_mem_nil, or_false] at h
    rcases h with rfl | rfl | rfl | rfl | rfl | rfl | rfl | rfl | rfl | rfl | rfl | rfl | rfl <;> trivial

/-- Two points that are apart by (3,3,0). -/
def Scene.apart : ℕ → Frame ℚ
  | 1 => ⟨⟨3, 3, 0⟩, 1⟩
  | _ => ⟨0, 1⟩

/-- The history that registers two points and checks their axis-aligned boxes only. -/
def Scene.coarse : List (CD.Op ℚ geo) :=
  [.chainReg apart 0 [(0, [⟨[⟨0, 0, 0⟩], []⟩])] false, .chainReg apart 1 [(1, [⟨[⟨0, 0, 0⟩], []⟩])] false, .aabb apart]

/-- Not so for `rkCDColChkAABB` alone: which pairs it marks depends on how the scene is turned. -/
theorem C118_aabb_fails : turn.att.IsRot ∧ Spatial geo turn ∧ (∀ op ∈ coarse, op.Plain) ∧
    ((create : CD ℚ geo).runAll coarse).map view = some ([(1, 2, true, 0)], 0) ∧
    ((create : CD ℚ geo).runAll (coarse.map (moveOp turn))).map view = some ([(1, 2, false, 0)], 0) := by
  refine ⟨turn_rot, geo_spatial turn_rot, ?_, by decide +kernel, by decide +kernel⟩
  intro op h
  simp only [coarse, List.mem_cons, List.not_mem_nil, or_false] at h
  rcases h with rfl | rfl | rfl <;> trivial

/-- A link that turns by a quarter between two checks. -/
def Scene.turning (b : Bool) : ℕ → Frame ℚ
  | 1 => ⟨⟨1 / 2, 0, 0⟩, if b then ⟨⟨0, 1, 0⟩, ⟨-1, 0, 0⟩, ⟨0, 0, 1⟩⟩ else 1⟩
  | _ => ⟨0, 1⟩

/-- The history: two points that stay in contact while the second link turns. -/
def Scene.rolling : List (CD.Op ℚ geo) :=
  [.chainReg (turning false) 0 [(0, [⟨[⟨0, 0, 0⟩], []⟩])] false, .chainReg (turning false) 1 [(1, [⟨[⟨0, 0, 0⟩], []⟩])] false,
   .vert (turning false), .vert (turning true)]

/-- The first axes of the contact frames. -/
def Scene.axes (cd : CD ℚ geo) : List (Vec3 ℚ) := cd.pairs.flatMap fun p => p.vlist.map (·.axis0)

/-- Not so for the axes of the contacts, which are meant to be directions: if the same scene stands elsewhere, they are different,
although nothing is turned. -/
theorem C118_axes_fails : ∃ X : Frame ℚ, X.att = 1 ∧ Spatial geo X ∧ (∀ op ∈ rolling, op.Plain) ∧
    (((create : CD ℚ geo).runAll rolling).map axes).isSome = true ∧
    ((create : CD ℚ geo).runAll (rolling.map (moveOp X))).map axes ≠
      ((create : CD ℚ geo).runAll rolling).map axes := by
  refine ⟨⟨⟨1, 2, 3⟩, 1⟩, rfl, geo_spatial (by constructor <;> decide +kernel), ?_, by decide +kernel, by decide +kernel⟩
  intro op h
  simp only [rolling, List.mem_cons, List.not_mem_nil, or_false] at h
  rcases h with rfl | rfl | rfl | rfl <;> trivial

end Roki
