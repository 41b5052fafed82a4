import Verif.Lemmas.CDVert
import Verif.Lemmas.CDRat
import Verif.Lemmas.Vec
import Mathlib.Tactic.FieldSimp
import Mathlib.Tactic.Linarith
import Mathlib.Tactic.Positivity
set_option autoImplicit false

/-!
# Contact vertices (C61)
-/

namespace Roki
variable {K : Type*} [Field K] {G : CDGeo K}
open CD Spec

namespace Spec

/-- What is stored of a contact vertex in the world agrees with what is stored in the frame of the other link. -/
structure Agrees (f : Frame K) (v : CDVert K) : Prop where
  norm : v.norm = f.att.mulVec v.norm'
  pro : v.pro = f.xform v.pro'
  ref : v.ref = f.xform v.ref'

/-- The contact vertex is vertex `v.idx`, at `x`, of one of the two cells, `a`, and the other is `b`. -/
def VertexOf (W : ℕ → Frame K) (v : CDVert K) (x : Vec3 K) (a b : CDCell K G) : Prop :=
  v.cell = a.ptr ∧ (seenPH W a).vert[v.idx]? = some x ∧ G.inside (seenPH W b) x = true

/-- The two boxes of both cells collide. -/
def BoxesCollide (W : ℕ → Frame K) (a b : CDCell K G) : Prop :=
  G.colAABB (G.toAABB (seenBox W a)) (G.toAABB (seenBox W b)) = true ∧ G.colBox (seenBox W a) (seenBox W b) = true

end Spec

private theorem resBoxes {W : ℕ → Frame K} {cd : CD K G} (hg : ∀ c ∈ cd.cells, Good c) {p : CDPair K}
    {a b : CDCell K G} (ha : deref cd.cells p.c0 = some a) (hb : deref cd.cells p.c1 = some b) :
    (resAABB W cd.cells p && resBox W cd.cells p) = true ↔ BoxesCollide W a b := by
  have e : ∀ c ∈ cd.cells, seenAABB W c = G.toAABB (seenBox W c) := fun c hc => by
    obtain ⟨f, -, h2⟩ := (hg c hc).obb
    unfold seenAABB seenBox; split_ifs
    · exact h2
    · rfl
  simp only [resAABB, resBox, withCells_eq ha hb, e a (deref_mem ha).1, e b (deref_mem hb).1, Bool.and_eq_true,
    BoxesCollide]

/-- The result of `rkCDColChkVert` for one pair. -/
private theorem vert_cases (ops : List (CD.Op K G)) (ho : ∀ op ∈ ops, op.Plain) {cd cd' : CD K G}
    (h : create.runAll ops = some cd) (W : ℕ → Frame K) (h' : cd.colChkVert W = some cd') (q : CDPair K)
    (hq : q ∈ cd'.pairs) : ∃ p ∈ cd.pairs, ∃ a ∈ cd.cells, ∃ b ∈ cd.cells, a.ptr = p.c0 ∧ b.ptr = p.c1 ∧
      q.c0 = p.c0 ∧ q.c1 = p.c1 ∧ a.ptr ≠ b.ptr ∧ (p.vlist.map vkey).Nodup ∧
      ((BoxesCollide W a b ∧ q.vlist = vertsIn W cd.defType p.vlist (seen W a) (seen W b) ++
          vertsIn W cd.defType p.vlist (seen W b) (seen W a)) ∨ (¬BoxesCollide W a b ∧ q.vlist = [])) := by
  obtain ⟨hi, hg⟩ := good_of_runAll ho h
  by_cases hp : cd.pairs = []
  · rw [(queries_nil W hp).2.2.2.2.1] at h'
    rw [← Option.some.inj h'] at hq
    simp [hp] at hq
  obtain ⟨S, T, e⟩ := colChkVert_eq W hi.ready (fun c hc => (hg c hc).fit) hp
  rw [e] at h'
  rw [← Option.some.inj h'] at hq
  obtain ⟨p, hp, rfl⟩ := List.mem_map.1 hq
  obtain ⟨a, b, ha, hb⟩ := hi.live p hp
  have ma := deref_mem ha
  have mb := deref_mem hb
  have hne : a.ptr ≠ b.ptr := by
    rw [ma.2, mb.2]; exact ne_of_lt (hi.pairs _ (List.mem_map_of_mem hp)).1
  have hn : (p.vlist.map vkey).Nodup := vlist_runAll (P := fun l => (l.map vkey).Nodup) (by simp)
    (fun W t p a b hab _ => pairVert_nodup W t p hab) ho h p hp
  refine ⟨p, hp, a, ma.1, b, mb.1, ma.2, mb.2, ?_⟩
  rw [withCells_eq ha hb]
  by_cases hc : (resAABB W cd.cells p && resBox W cd.cells p) = true
  · rw [if_pos hc]
    exact ⟨rfl, rfl, hne, hn, .inl ⟨(resBoxes hg ha hb).1 hc, rfl⟩⟩
  · rw [if_neg hc]
    exact ⟨rfl, rfl, hne, hn, .inr ⟨fun k => hc ((resBoxes hg ha hb).2 k), rfl⟩⟩

/-- C61: which vertices `rkCDColChkVert` lists.  Each is a vertex of one of the two cells that is inside the other, none
is listed twice, and if the boxes collide every vertex of one cell inside the other is listed, unless the nearest point
of the surface is at no distance. -/
theorem C61_listed (ops : List (CD.Op K G)) (ho : ∀ op ∈ ops, op.Plain) (cd : CD K G)
    (h : create.runAll ops = some cd) (W : ℕ → Frame K) : ∃ cd', cd.colChkVert W = some cd' ∧
      ∀ p ∈ cd'.pairs, p.vlist.Pairwise (fun u v => (u.cell, u.idx) ≠ (v.cell, v.idx)) ∧
        On cd (fun a b =>
          (∀ v ∈ p.vlist, BoxesCollide W a b ∧ ∃ x, VertexOf W v x a b ∨ VertexOf W v x b a) ∧
          (BoxesCollide W a b → ∀ c d, (c = a ∧ d = b) ∨ (c = b ∧ d = a) → ∀ i x, (seenPH W c).vert[i]? = some x →
            G.inside (seenPH W d) x = true →
            (∃ v ∈ p.vlist, v.cell = c.ptr ∧ v.idx = i) ∨ G.tiny (G.closest (seenPH W d) x - x) = true)) p := by
  obtain ⟨hi, hg⟩ := good_of_runAll ho h
  obtain ⟨cd', h', -⟩ := good_run hi hg (op := .vert W) trivial
  refine ⟨cd', h', fun q hq => ?_⟩
  obtain ⟨p, hp, a, ha, b, hb, ea, eb, k0, k1, hne, hn, hc⟩ := vert_cases ops ho h W h' q hq
  have single : ∀ (c d : CDCell K G) v, v ∈ vertsIn W cd.defType p.vlist (seen W c) (seen W d) →
      ∃ x, VertexOf W v x c d := by
    intro c d v hv
    obtain ⟨i, x, h1, h2, h3⟩ := mem_vertsIn.1 hv
    obtain ⟨e1, e2⟩ := Prod.mk.inj (vertReg_key h3)
    exact ⟨x, e1, by rw [e2]; exact h1, h2⟩
  have all : ∀ (c d : CDCell K G) i x, (seenPH W c).vert[i]? = some x → G.inside (seenPH W d) x = true →
      (∃ v ∈ vertsIn W cd.defType p.vlist (seen W c) (seen W d), v.cell = c.ptr ∧ v.idx = i) ∨
      G.tiny (G.closest (seenPH W d) x - x) = true := by
    intro c d i x h1 h2
    cases hr : vertReg W cd.defType p.vlist (seen W c) (seen W d) i x with
    | some v =>
      obtain ⟨e1, e2⟩ := Prod.mk.inj (vertReg_key hr)
      exact .inl ⟨v, mem_vertsIn.2 ⟨i, x, h1, h2, hr⟩, e1, e2⟩
    | none =>
      right
      unfold vertReg at hr
      split at hr
      · cases hr
      · simp only [vertNew] at hr
        split_ifs at hr with ht
        exact ht
  rcases hc with ⟨hbx, hv⟩ | ⟨hbx, hv⟩
  · refine ⟨?_, a, ha, b, hb, by rw [ea, k0], by rw [eb, k1], ?_, ?_⟩
    · have := pairVert_nodup W cd.defType p (a := seen W a) (b := seen W b) hne
      rw [hv]
      exact List.pairwise_map.1 this
    · intro v hv'
      rw [hv] at hv'
      refine ⟨hbx, ?_⟩
      rcases List.mem_append.1 hv' with hv' | hv'
      · obtain ⟨x, hx⟩ := single a b v hv'; exact ⟨x, .inl hx⟩
      · obtain ⟨x, hx⟩ := single b a v hv'; exact ⟨x, .inr hx⟩
    · intro _ c d hcd i x h1 h2
      rw [hv]
      rcases hcd with ⟨rfl, rfl⟩ | ⟨rfl, rfl⟩
      · rcases all c d i x h1 h2 with ⟨v, hv, k⟩ | k
        · exact .inl ⟨v, List.mem_append_left _ hv, k⟩
        · exact .inr k
      · rcases all c d i x h1 h2 with ⟨v, hv, k⟩ | k
        · exact .inl ⟨v, List.mem_append_right _ hv, k⟩
        · exact .inr k
  · exact ⟨by simp [hv], a, ha, b, hb, by rw [ea, k0], by rw [eb, k1], by simp [hv], fun k => absurd k hbx⟩

private theorem agrees_reg {W : ℕ → Frame K} {t : Fric} {old : List (CDVert K)} {c d : CDCell K G} {i : ℕ} {x : Vec3 K}
    {v : CDVert K} (hW : (W d.link).att.IsRot) (h : vertReg W t old c d i x = some v) : Agrees (W d.link) v := by
  unfold vertReg at h
  split at h
  · rw [← Option.some.inj h]; exact ⟨rfl, rfl, rfl⟩
  · simp only [vertNew] at h
    split_ifs at h
    rw [← Option.some.inj h]
    exact ⟨(hW.mulVec_mulVecT _).symm, (Frame.xform_xformInv hW _).symm, (Frame.xform_xformInv hW _).symm⟩

/-- C61: after `rkCDColChkVert`, the normal, the projection point and the reference point of every contact vertex are
those stored in the frame of the other link, at its present pose. -/
theorem C61_agrees (ops : List (CD.Op K G)) (ho : ∀ op ∈ ops, op.Plain) (cd cd' : CD K G)
    (h : create.runAll ops = some cd) (W : ℕ → Frame K) (hW : ∀ l, (W l).att.IsRot)
    (h' : cd.colChkVert W = some cd') : ∀ p ∈ cd'.pairs, ∀ v ∈ p.vlist,
      On cd (fun a b => (v.cell = a.ptr ∧ Agrees (W b.link) v) ∨ (v.cell = b.ptr ∧ Agrees (W a.link) v)) p := by
  intro q hq v hv'
  obtain ⟨p, hp, a, ha, b, hb, ea, eb, k0, k1, hne, hn, hc⟩ := vert_cases ops ho h W h' q hq
  rcases hc with ⟨hbx, hv⟩ | ⟨hbx, hv⟩
  · refine ⟨a, ha, b, hb, by rw [ea, k0], by rw [eb, k1], ?_⟩
    rw [hv] at hv'
    rcases List.mem_append.1 hv' with hv' | hv'
    · obtain ⟨i, x, -, -, hr⟩ := mem_vertsIn.1 hv'
      exact .inl ⟨(Prod.mk.inj (vertReg_key hr)).1, agrees_reg (d := seen W b) (hW _) hr⟩
    · obtain ⟨i, x, -, -, hr⟩ := mem_vertsIn.1 hv'
      exact .inr ⟨(Prod.mk.inj (vertReg_key hr)).1, agrees_reg (d := seen W a) (hW _) hr⟩
  · rw [hv] at hv'; simp at hv'

private theorem keep_reg {W : ℕ → Frame K} {t : Fric} {old : List (CDVert K)} (hn : (old.map vkey).Nodup)
    {c d : CDCell K G} {i : ℕ} {x : Vec3 K} {v u : CDVert K} (h : vertReg W t old c d i x = some v) (hu : u ∈ old)
    (hk : vkey u = vkey v) : v = vertKeep (W d.link) u x := by
  have e := vertReg_key h
  rw [e] at hk
  unfold vertReg at h
  have hf : u ∈ old.filter fun v => v.cell == c.ptr && v.idx == i := by
    obtain ⟨h1, h2⟩ := Prod.mk.inj hk
    exact List.mem_filter.2 ⟨hu, by simp [h1, h2]⟩
  cases hl : (old.filter fun v => v.cell == c.ptr && v.idx == i).getLast? with
  | none => rw [List.getLast?_eq_none_iff.1 hl] at hf; simp at hf
  | some w =>
    rw [hl] at h
    have hw := List.mem_filter.1 (List.mem_of_getLast? hl)
    simp only [Bool.and_eq_true, beq_iff_eq] at hw
    have : w = u := List.inj_on_of_nodup_map hn hw.1 hu (by rw [hk, vkey, hw.2.1, hw.2.2])
    rw [← Option.some.inj h, this]

/-- C61: a vertex that was in contact at the last check and still is keeps its reference point, its normal, its axes and its kind of
friction, relative to the other link. -/
theorem C61_keep (ops : List (CD.Op K G)) (ho : ∀ op ∈ ops, op.Plain) (cd cd' : CD K G)
    (h : create.runAll ops = some cd) (W : ℕ → Frame K) (h' : cd.colChkVert W = some cd') :
    ∀ p ∈ cd.pairs, ∀ q ∈ cd'.pairs, (q.c0, q.c1) = (p.c0, p.c1) → ∀ u ∈ p.vlist, ∀ v ∈ q.vlist,
      (v.cell, v.idx) = (u.cell, u.idx) → v.ref' = u.ref' ∧ v.norm' = u.norm' ∧ v.type = u.type ∧
        v.axis0' = u.axis0' ∧ v.axis1' = u.axis1' ∧ v.axis2' = u.axis2' := by
  intro p hp q hq hk u hu v hv' hvu
  obtain ⟨p', hp', a, ha, b, hb, ea, eb, k0, k1, hne, hn, hc⟩ := vert_cases ops ho h W h' q hq
  have hi := inv_runAll inv_create h
  have : p' = p := List.inj_on_of_nodup_map hi.nodup hp' hp (by
    rw [key, key, ← k0, ← k1]; exact hk)
  subst this
  rcases hc with ⟨hbx, hv⟩ | ⟨hbx, hv⟩
  · rw [hv] at hv'
    rcases List.mem_append.1 hv' with hv' | hv' <;>
    · obtain ⟨i, x, -, -, hr⟩ := mem_vertsIn.1 hv'
      rw [keep_reg hn hr hu hvu.symm]
      exact ⟨rfl, rfl, rfl, rfl, rfl, rfl⟩
  · rw [hv] at hv'; simp at hv'

/-- Contact axes that follow a frame as points do. -/
def AxesFollow (f : Frame K) (u v : CDVert K) : Prop :=
  v.axis0 = f.pos + f.att.mulVec u.axis0' ∧ v.axis1 = f.pos + f.att.mulVec u.axis1' ∧ v.axis2 = f.pos + f.att.mulVec u.axis2'

/-- C61, the part that holds for contact axes: those of a vertex that stays in contact are turned with the other link.  Missing: they are
also displaced with it, so that they are directions only if the other link is at the origin (`C61_axes_fails`). -/
theorem C61_axes_partial (ops : List (CD.Op K G)) (ho : ∀ op ∈ ops, op.Plain) (cd cd' : CD K G)
    (h : create.runAll ops = some cd) (W : ℕ → Frame K) (h' : cd.colChkVert W = some cd') :
    ∀ p ∈ cd.pairs, ∀ q ∈ cd'.pairs, (q.c0, q.c1) = (p.c0, p.c1) → ∀ u ∈ p.vlist, ∀ v ∈ q.vlist,
      (v.cell, v.idx) = (u.cell, u.idx) →
      On cd (fun a b => (v.cell = a.ptr ∧ AxesFollow (W b.link) u v) ∨ (v.cell = b.ptr ∧ AxesFollow (W a.link) u v)) q := by
  intro p hp q hq hk u hu v hv' hvu
  obtain ⟨p', hp', a, ha, b, hb, ea, eb, k0, k1, hne, hn, hc⟩ := vert_cases ops ho h W h' q hq
  have hi := inv_runAll inv_create h
  have : p' = p := List.inj_on_of_nodup_map hi.nodup hp' hp (by
    rw [key, key, ← k0, ← k1]; exact hk)
  subst this
  rcases hc with ⟨hbx, hv⟩ | ⟨hbx, hv⟩
  · refine ⟨a, ha, b, hb, by rw [ea, k0], by rw [eb, k1], ?_⟩
    rw [hv] at hv'
    rcases List.mem_append.1 hv' with hv' | hv'
    · obtain ⟨i, x, -, -, hr⟩ := mem_vertsIn.1 hv'
      refine .inl ⟨(Prod.mk.inj (vertReg_key hr)).1, ?_⟩
      rw [keep_reg hn hr hu hvu.symm]
      exact ⟨add_comm _ _, add_comm _ _, add_comm _ _⟩
    · obtain ⟨i, x, -, -, hr⟩ := mem_vertsIn.1 hv'
      refine .inr ⟨(Prod.mk.inj (vertReg_key hr)).1, ?_⟩
      rw [keep_reg hn hr hu hvu.symm]
      exact ⟨add_comm _ _, add_comm _ _, add_comm _ _⟩
  · rw [hv] at hv'; simp at hv'

/-- C61: a vertex that was not in contact at the last check starts with the projection point as its reference point, the
normal as the first contact axis, and the default kind of friction. -/
theorem C61_start (ops : List (CD.Op K G)) (ho : ∀ op ∈ ops, op.Plain) (cd cd' : CD K G)
    (h : create.runAll ops = some cd) (W : ℕ → Frame K) (h' : cd.colChkVert W = some cd') :
    ∀ p ∈ cd.pairs, ∀ q ∈ cd'.pairs, (q.c0, q.c1) = (p.c0, p.c1) → ∀ v ∈ q.vlist,
      (∀ u ∈ p.vlist, (v.cell, v.idx) ≠ (u.cell, u.idx)) →
      v.ref = v.pro ∧ v.ref' = v.pro' ∧ v.axis0 = v.norm ∧ v.type = cd.defType := by
  intro p hp q hq hk v hv' hnew
  obtain ⟨p', hp', a, ha, b, hb, ea, eb, k0, k1, hne, hn, hc⟩ := vert_cases ops ho h W h' q hq
  have hi := inv_runAll inv_create h
  have : p' = p := List.inj_on_of_nodup_map hi.nodup hp' hp (by
    rw [key, key, ← k0, ← k1]; exact hk)
  subst this
  have one : ∀ (c d : CDCell K G) i x, vertReg W cd.defType p'.vlist c d i x = some v →
      v.ref = v.pro ∧ v.ref' = v.pro' ∧ v.axis0 = v.norm ∧ v.type = cd.defType := by
    intro c d i x hr
    have e := vertReg_key hr
    unfold vertReg at hr
    cases hl : (p'.vlist.filter fun v => v.cell == c.ptr && v.idx == i).getLast? with
    | some w =>
      have hw := List.mem_filter.1 (List.mem_of_getLast? hl)
      simp only [Bool.and_eq_true, beq_iff_eq] at hw
      exact absurd (show (v.cell, v.idx) = (w.cell, w.idx) by rw [hw.2.1, hw.2.2]; exact e) (hnew w hw.1)
    | none =>
      rw [hl] at hr
      simp only [vertNew] at hr
      split_ifs at hr
      rw [← Option.some.inj hr]
      exact ⟨rfl, rfl, rfl, rfl⟩
  rcases hc with ⟨hbx, hv⟩ | ⟨hbx, hv⟩
  · rw [hv] at hv'
    rcases List.mem_append.1 hv' with hv' | hv' <;>
    · obtain ⟨i, x, -, -, hr⟩ := mem_vertsIn.1 hv'
      exact one _ _ i x hr
  · rw [hv] at hv'; simp at hv'

private theorem dot_proj [LinearOrder K] [IsStrictOrderedRing K] (s n : Vec3 K) : dot (proj s n) n = dot s n := by
  by_cases hn : sqrNorm n = 0
  · have hz : n = 0 := by
      have h : n.x * n.x + n.y * n.y + n.z * n.z = 0 := hn
      have hx := mul_self_nonneg n.x
      have hy := mul_self_nonneg n.y
      have hz := mul_self_nonneg n.z
      ext
      · exact mul_self_eq_zero.1 (by linarith)
      · exact mul_self_eq_zero.1 (by linarith)
      · exact mul_self_eq_zero.1 (by linarith)
    rw [hz]; simp
  · rw [proj, dot_smul_left, show dot n n = sqrNorm n from rfl]
    field_simp

/-- C61: after any history, the projection point of a contact vertex lies in the plane through its reference point
orthogonal to its normal. -/
theorem C61_plane [LinearOrder K] [IsStrictOrderedRing K] (ops : List (CD.Op K G)) (ho : ∀ op ∈ ops, op.Plain)
    (cd cd' : CD K G) (h : create.runAll ops = some cd) (W : ℕ → Frame K) (hW : ∀ l, (W l).att.IsRot)
    (h' : cd.colChkVert W = some cd') : ∀ p ∈ cd'.pairs, ∀ v ∈ p.vlist, dot (v.pro - v.ref) v.norm = 0 := by
  have hl : ∀ p ∈ cd'.pairs, ∀ v ∈ p.vlist, dot (v.pro' - v.ref') v.norm' = 0 := by
    have hops : create.runAll (ops ++ [.vert W]) = some cd' := by
      have : ∀ (ops : List (CD.Op K G)) (c0 : CD K G), c0.runAll ops = some cd →
          c0.runAll (ops ++ [.vert W]) = some cd' := by
        intro ops
        induction ops with
        | nil =>
          intro c0 h
          rw [Option.some.inj h]
          simp [runAll, CD.run, h']
        | cons op ops ih =>
          intro c0 h
          obtain ⟨c1, h1, h2⟩ := Option.bind_eq_some_iff.1 h
          rw [List.cons_append, runAll, h1, Option.bind_some]
          exact ih c1 h2
      exact this ops create h
    refine vlist_runAll (P := fun l => ∀ v ∈ l, dot (v.pro' - v.ref') v.norm' = 0) (by simp) ?_ (ops := ops ++ [.vert W])
      (by
        intro op hop
        rcases List.mem_append.1 hop with hop | hop
        · exact ho op hop
        · rw [List.mem_singleton.1 hop]; trivial) hops
    intro W t p a b _ hp v hv
    have one : ∀ (c d : CDCell K G) i x, vertReg W t p.vlist c d i x = some v →
        dot (v.pro' - v.ref') v.norm' = 0 := by
      intro c d i x hr
      unfold vertReg at hr
      cases hl : (p.vlist.filter fun v => v.cell == c.ptr && v.idx == i).getLast? with
      | some w =>
        rw [hl] at hr
        have hw := List.mem_filter.1 (List.mem_of_getLast? hl)
        have h0 := hp w hw.1
        rw [← Option.some.inj hr]
        simp only [vertKeep]
        rw [dot_sub_left, dot_add_left, dot_proj, dot_sub_left]
        rw [dot_sub_left] at h0
        rw [← h0]; ring
      | none =>
        rw [hl] at hr
        simp only [vertNew] at hr
        split_ifs at hr
        rw [← Option.some.inj hr]
        simp only [sub_self, dot_zero_left]
    rcases List.mem_append.1 hv with hv | hv <;>
    · obtain ⟨i, x, -, -, hr⟩ := mem_vertsIn.1 hv
      exact one _ _ i x hr
  intro p hp v hv
  obtain ⟨a, -, b, -, -, -, hc⟩ := C61_agrees ops ho cd cd' h W hW h' p hp v hv
  have fin : ∀ f : Frame K, f.att.IsRot → Agrees f v → dot (v.pro - v.ref) v.norm = 0 := by
    intro f hf ha
    rw [ha.pro, ha.ref, ha.norm, Frame.xform, Frame.xform, add_sub_add_right_eq_sub, ← Mat3.mulVec_sub,
      hf.dot_mulVec_mulVec]
    exact hl p hp v hv
  rcases hc with ⟨-, hc⟩ | ⟨-, hc⟩
  · exact fin _ (hW _) hc
  · exact fin _ (hW _) hc

/-- The positions of the contact vertices along x: projection, reference, first axis, normal. -/
private def xs (cd : CD ℚ Sample.geo) : List (List (ℕ × ℕ × ℚ × ℚ × ℚ × ℚ)) :=
  cd.pairs.map fun p => p.vlist.map fun v => (v.cell, v.idx, v.pro.x, v.ref.x, v.axis0.x, v.norm.x)

/-- C61 fails for the contact axes: they are transformed as points.  The vertex below stays in contact while the other
link moves by 3; its normal is still the unit vector, but the first contact axis is not. -/
theorem C61_axes_fails : ∃ (ops : List (CD.Op ℚ Sample.geo)) (cd : CD ℚ Sample.geo), (∀ op ∈ ops, op.Plain) ∧
    create.runAll ops = some cd ∧ ∃ p ∈ cd.pairs, ∃ v ∈ p.vlist, v.axis0 ≠ v.norm ∧ dot v.norm v.norm = 1 ∧
      dot v.axis0 v.axis0 ≠ 1 := by
  let ops : List (CD.Op ℚ Sample.geo) := [.chainReg (Sample.along fun i => 10 * i) 0 [(0, [Sample.bar 4]), (1, [Sample.bar 2])] false,
    .vert (Sample.along fun i => 1 + i), .vert (Sample.along fun i => 4 + i)]
  have ho : ∀ op ∈ ops, op.Plain := by
    intro op ho
    simp only [ops, List.mem_cons, List.not_mem_nil, or_false] at ho
    rcases ho with rfl | rfl | rfl <;> trivial
  obtain ⟨cd, h, -⟩ := good_runAll ho (inv_create (K := ℚ) (G := Sample.geo)) (by simp [create])
  have e : (create.runAll ops).map (fun cd => cd.pairs.any fun p => p.vlist.any fun v =>
      decide (v.axis0.x ≠ v.norm.x) && decide (dot v.norm v.norm = 1) && decide (dot v.axis0 v.axis0 ≠ 1)) = some true := by
    decide +kernel
  rw [h] at e
  simp only [Option.map_some, Option.some.injEq, List.any_eq_true, Bool.and_eq_true, decide_eq_true_eq] at e
  obtain ⟨p, hp, v, hv, ⟨h1, h2⟩, h3⟩ := e
  exact ⟨ops, cd, ho, h, p, hp, v, hv, fun k => h1 (by rw [k]), h2, h3⟩

set_option synthInstance.maxSize 1000 in
/-- A case for C61: two vertices of the second body are inside the first one; at the second check both bodies have moved
along together, and the vertices keep their reference points relative to the first body. -/
example : (create.runAll ([.chainReg (Sample.along fun i => 10 * i) 0 [(0, [Sample.bar 4]), (1, [Sample.bar 2])] false,
      .vert (Sample.along fun i => 1 + i)] : List (CD.Op ℚ Sample.geo))).map xs =
    some [[(2, 0, 1, 1, -1, -1), (2, 1, 5, 5, 1, 1)]] ∧
  (create.runAll ([.chainReg (Sample.along fun i => 10 * i) 0 [(0, [Sample.bar 4]), (1, [Sample.bar 2])] false,
      .vert (Sample.along fun i => 1 + i), .vert (Sample.along fun i => 4 + i)] : List (CD.Op ℚ Sample.geo))).map xs =
    some [[(2, 0, 4, 4, 2, -1), (2, 1, 8, 8, 4, 1)]] := by decide +kernel

end Roki
