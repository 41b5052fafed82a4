import Verif.Model.CD
set_option autoImplicit false

/-!
# Histories of a collision detector, and what its results mean
-/

namespace Roki
variable {K : Type*} [Field K] {G : CDGeo K}

/-- One call of the interface of the collision detector.  Where a function reads the poses of the links, `W` gives their
frames at that moment. -/
inductive CD.Op (K : Type*) (G : CDGeo K) where
  | chainReg (W : ℕ → Frame K) (chain : ℕ) (links : List (ℕ × List G.Shape)) (stat : Bool)
  | chainUnreg (chain : ℕ)
  | pairReg (l1 l2 : ℕ)
  | pairUnreg (l1 l2 : ℕ)
  | pairChainUnreg (chain : ℕ)
  | fric (t : Fric)
  | aabb (W : ℕ → Frame K)
  | obb (W : ℕ → Frame K)
  | gjk (W : ℕ → Frame K)
  | gjkOnly (W : ℕ → Frame K)
  | vert (W : ℕ → Frame K)
  | obbVert (W : ℕ → Frame K)
  | vol (W : ℕ → Frame K)

namespace CD

/-- The effect of a call; `none` if it is undefined. -/
def run (cd : CD K G) : Op K G → Option (CD K G)
  | .chainReg W c l s => some (cd.chainReg W c l s).2
  | .chainUnreg c => cd.chainUnreg c
  | .pairReg a b => cd.pairReg a b
  | .pairUnreg a b => cd.pairUnreg a b
  | .pairChainUnreg c => cd.pairChainUnreg c
  | .fric t => some (cd.setDefaultFricType t)
  | .aabb W => cd.colChkAABB W
  | .obb W => cd.colChkOBB W
  | .gjk W => cd.colChkGJK W
  | .gjkOnly W => cd.colChkGJKOnly W
  | .vert W => cd.colChkVert W
  | .obbVert W => cd.colChkOBBVert W
  | .vol W => cd.colVol W

/-- The effect of a history. -/
def runAll (cd : CD K G) : List (Op K G) → Option (CD K G)
  | [] => some cd
  | op :: ops => (cd.run op).bind fun cd' => cd'.runAll ops

/-- The call is not `rkCDColChkOBBVert`. -/
def Op.Plain : Op K G → Prop
  | .obbVert _ => False
  | _ => True

/-- The call is a query: it neither registers nor unregisters anything. -/
def Op.Query : Op K G → Prop
  | .aabb _ | .obb _ | .gjk _ | .gjkOnly _ | .vert _ | .obbVert _ | .vol _ | .fric _ => True
  | _ => False

end CD

namespace Spec

/-- The polyhedron at the pose of a frame. -/
def posed (ph : PH K) (f : Frame K) : PH K := ⟨ph.vert.map f.xform, ph.face⟩

/-- The polyhedron of a cell that a query is to use: a static cell stays where it was registered, any other is at the
present pose of its link. -/
def seenPH (W : ℕ → Frame K) (c : CDCell K G) : PH K := if c.stat then c.ph else posed c.ph0 (W c.link)

/-- The oriented bounding box of a cell that a query is to use. -/
def seenBox (W : ℕ → Frame K) (c : CDCell K G) : G.Box := if c.stat then c.obb else G.boxX c.bb (W c.link)

/-- Bounding boxes are conservative: polyhedra that collide have boxes that collide, in both senses. -/
def Conservative (G : CDGeo K) : Prop :=
  ∀ (a b : PH K) (f g : Frame K), G.colPH (posed a f) (posed b g) = true →
    G.colBox (G.boxX (G.bbOf a) f) (G.boxX (G.bbOf b) g) = true ∧
    G.colAABB (G.toAABB (G.boxX (G.bbOf a) f)) (G.toAABB (G.boxX (G.bbOf b) g)) = true

/-- Two addresses name registered cells of which a relation holds. -/
def On (cd : CD K G) (R : CDCell K G → CDCell K G → Prop) (p : CDPair K) : Prop :=
  ∃ a ∈ cd.cells, ∃ b ∈ cd.cells, a.ptr = p.c0 ∧ b.ptr = p.c1 ∧ R a b

/-- The pair is of the same two cells, in either order. -/
def SamePair (p q : CDPair K) : Prop := (p.c0 = q.c0 ∧ p.c1 = q.c1) ∨ (p.c0 = q.c1 ∧ p.c1 = q.c0)

/-- A pair that is to be watched: the links differ, not both are static, and if they belong to the same chain the shapes
do not touch at the time of registration. -/
def Watched (a b : CDCell K G) : Prop :=
  ¬(a.stat = true ∧ b.stat = true) ∧ a.link ≠ b.link ∧
  (a.chain = b.chain → ¬(G.colAABB a.aabb b.aabb = true ∧ G.colBox a.obb b.obb = true ∧ G.colPH a.ph b.ph = true))

/-- Every explicit registration of a pair in the history names two different links that are not both static. -/
def Careful (cd : CD K G) : List (CD.Op K G) → Prop
  | [] => True
  | op :: ops =>
    (match op with
      | .pairReg l1 l2 => l1 ≠ l2 ∧ ∀ a ∈ cd.cells, ∀ b ∈ cd.cells, a.link = l1 → b.link = l2 →
          ¬(a.stat = true ∧ b.stat = true)
      | _ => True) ∧ ∀ cd', cd.run op = some cd' → Careful cd' ops

end Spec
end Roki
