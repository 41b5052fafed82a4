import Verif.Lemmas.Torsion
import Verif.Props.FK
set_option autoImplicit false

/-!
# Configurations of links: lemmas
-/

namespace Roki
open Spec

namespace Torsion

theorem atan2_phase (q : ℝ) {r : ℝ} (hr : 0 < r) :
    ZAtan.atan2 (r * Real.sin q) (r * Real.cos q) = Zm.phaseNormalize q := by
  have h1 : Real.sin (Zm.phaseNormalize q) = Real.sin q := LawfulZm.sin_phase q
  have h2 : Real.cos (Zm.phaseNormalize q) = Real.cos q := LawfulZm.cos_phase q
  rw [← h1, ← h2]
  exact atan2_sin_cos hr (LawfulZm.phase_gt q) (LawfulZm.phase_le q)

theorem phase_phase (q : ℝ) : (Zm.phaseNormalize (Zm.phaseNormalize q) : ℝ) = Zm.phaseNormalize q :=
  LawfulZm.phase_id _ (LawfulZm.phase_gt q) (LawfulZm.phase_le q)

theorem revol_rz (pos : Vec3 ℝ) {s c : ℝ} :
    revolTorsionDis (⟨pos, Rz s c⟩ : Frame ℝ) = some (ZAtan.atan2 s c, 0) := by
  have e : (if Zm.tiny (ZAtan.atan2 (ZSqrt.sqrt (-(Rz s c).cz.y * -(Rz s c).cz.y + (Rz s c).cz.x * (Rz s c).cz.x))
      (Rz s c).cz.z : ℝ) = true then (some 0 : Option (Vec3 ℝ)) else none) = some 0 := by
    have h1 : (ZSqrt.sqrt (-(Rz s c).cz.y * -(Rz s c).cz.y + (Rz s c).cz.x * (Rz s c).cz.x) : ℝ) = 0 := by
      change Real.sqrt _ = 0
      simp [Rz]
    have h2 : (ZAtan.atan2 (0 : ℝ) (Rz s c).cz.z : ℝ) = 0 := Complex.arg_one
    rw [h1, h2, LawfulZm.tiny_zero]; rfl
  have e' : Zm.tiny (ZAtan.atan2 (ZSqrt.sqrt (-(Rz s c).cz.y * -(Rz s c).cz.y + (Rz s c).cz.x * (Rz s c).cz.x))
      (Rz s c).cz.z : ℝ) = true := by
    by_contra hh
    rw [if_neg hh] at e; simp at e
  unfold revolTorsionDis
  simp only [e', if_true, Option.map_some, LawfulZm.fromAA_zero]
  have hx := vec3Angle_x (Mat3.isRot_one (K := ℝ)) s c
  have hy := vec3Angle_y (Mat3.isRot_one (K := ℝ)) s c
  rw [Mat3.one_mul'] at hx hy
  rw [hx, hy]
  congr 1
  refine Prod.ext ?_ ?_
  · change 1 / 2 * (ZAtan.atan2 s c + ZAtan.atan2 s c) = _; ring
  · change (Rz s c).mulVecT 0 = 0; vec_ring

/-- A joint whose caches agree with its displacement: the displacement is found from the frame the joint makes. -/
theorem conf_joint {p : Prp ℝ} (h : p.setDis p.getDis = some p)
    (hh : ∀ q, p = .hooke q → 0 < Real.cos q.dis0) : ∃ t dis p', p.torsion (jointFrame p) = some (t, dis) ∧
      p.setDis dis = some p' ∧ (∀ f, p'.xform f = p.xform f) ∧ (p.size ≤ 2 → p'.getDis = p.getDis) := by
  cases p with
  | fixed => exact ⟨_, _, _, rfl, rfl, fun _ => rfl, fun _ => rfl⟩
  | revol q =>
    simp only [Prp.getDis, Prp.setDis, Option.some.injEq, Prp.revol.injEq] at h
    have hs : q.s = Real.sin q.dis := by
      have h1 := congrArg Dof1.s h
      have h2 := congrArg Dof1.dis h
      simp only at h1 h2
      rw [← h1]; rw [h2]; rfl
    have hc : q.c = Real.cos q.dis := by
      have h1 := congrArg Dof1.c h
      have h2 := congrArg Dof1.dis h
      simp only at h1 h2
      rw [← h1]; rw [h2]; rfl
    have e := revol_rz (0 : Vec3 ℝ) (s := q.s) (c := q.c)
    have e2 : ZAtan.atan2 q.s q.c = Zm.phaseNormalize q.dis := by
      have := atan2_phase q.dis one_pos
      rwa [one_mul, one_mul, ← hs, ← hc] at this
    refine ⟨_, [ZAtan.atan2 q.s q.c], .revol q, by simp only [Prp.torsion, jointFrame, e, Option.map_some]; rfl, ?_, fun _ => rfl, fun _ => rfl⟩
    rw [e2]
    simp only [Prp.setDis, phase_phase, h]
  | prism q =>
    simp only [Prp.getDis, Prp.setDis, Option.some.injEq, Prp.prism.injEq] at h
    have e : (prismTorsionDis (jointFrame (.prism q))).1 = q.dis := by
      simp only [prismTorsionDis, jointFrame]; vec_unfold; ring
    refine ⟨_, _, .prism q, rfl, ?_, fun _ => rfl, fun _ => rfl⟩
    simp only [e, Prp.setDis, h]
  | cylin q =>
    simp only [Prp.getDis, Prp.setDis, Option.some.injEq, Prp.cylin.injEq] at h
    have hs : q.s1 = Real.sin q.dis1 := by
      have h1 := congrArg Dof2.s1 h
      have h2 := congrArg Dof2.dis1 h
      simp only at h1 h2
      rw [← h1]; rw [h2]; rfl
    have hc : q.c1 = Real.cos q.dis1 := by
      have h1 := congrArg Dof2.c1 h
      have h2 := congrArg Dof2.dis1 h
      simp only at h1 h2
      rw [← h1]; rw [h2]; rfl
    have e := revol_rz (⟨0, 0, q.dis0⟩ : Vec3 ℝ) (s := q.s1) (c := q.c1)
    have e2 : ZAtan.atan2 q.s1 q.c1 = Zm.phaseNormalize q.dis1 := by
      have := atan2_phase q.dis1 one_pos
      rwa [one_mul, one_mul, ← hs, ← hc] at this
    have e3 : (prismTorsionDis (⟨⟨0, 0, q.dis0⟩, Rz q.s1 q.c1⟩ : Frame ℝ)).1 = q.dis0 := by
      simp only [prismTorsionDis, Rz]; vec_unfold; ring
    refine ⟨_, [q.dis0, ZAtan.atan2 q.s1 q.c1], .cylin q,
      by simp only [Prp.torsion, jointFrame, e, e3, Option.map_some]; rfl, ?_, fun _ => rfl, fun _ => rfl⟩
    rw [e2]
    simp only [Prp.setDis, phase_phase, h]
  | hooke q =>
    have hcos := hh q rfl
    simp only [Prp.getDis, Prp.setDis, Option.some.injEq, Prp.hooke.injEq] at h
    have d0 := congrArg Dof2.dis0 h
    have d1 := congrArg Dof2.dis1 h
    have hs0 : q.s0 = Real.sin q.dis0 := by
      have h1 := congrArg Dof2.s0 h
      simp only at h1 d0
      rw [← h1]; rw [d0]; rfl
    have hc0 : q.c0 = Real.cos q.dis0 := by
      have h1 := congrArg Dof2.c0 h
      simp only at h1 d0
      rw [← h1]; rw [d0]; rfl
    have hs1 : q.s1 = Real.sin q.dis1 := by
      have h1 := congrArg Dof2.s1 h
      simp only at h1 d1
      rw [← h1]; rw [d1]; rfl
    have hc1 : q.c1 = Real.cos q.dis1 := by
      have h1 := congrArg Dof2.c1 h
      simp only at h1 d1
      rw [← h1]; rw [d1]; rfl
    have m1 : ((Rz q.s0 q.c0).mul (Ry q.s1 q.c1)).cy = ⟨-q.s0, q.c0, 0⟩ := by simp only [Rz, Ry]; vec_ring
    have m2 : ((Rz q.s0 q.c0).mul (Ry q.s1 q.c1)).cz.x = q.c0 * q.s1 := by simp only [Rz, Ry]; vec_unfold; ring
    have m3 : ((Rz q.s0 q.c0).mul (Ry q.s1 q.c1)).cx.x = q.c0 * q.c1 := by simp only [Rz, Ry]; vec_unfold; ring
    have a1 : (ZAtan.atan2 (0 : ℝ) q.c0 : ℝ) = 0 := by
      rw [hc0]; exact Complex.arg_ofReal_of_nonneg hcos.le
    have z1 : (Zm.cos (0 : ℝ)) = 1 := LawfulZm.cos_zero
    have z2 : (Zm.sin (0 : ℝ)) = 0 := LawfulZm.sin_zero
    have a2 : (ZAtan.atan2 (- -q.s0) (1 * q.c0 + 0 * 0) : ℝ) = Zm.phaseNormalize q.dis0 := by
      have := atan2_phase q.dis0 one_pos
      rw [one_mul, one_mul, ← hs0, ← hc0] at this
      rw [← this]; congr 1 <;> ring
    have a3 : (Zm.cos (Zm.phaseNormalize q.dis0) : ℝ) = q.c0 := by rw [hc0]; exact LawfulZm.cos_phase _
    have a4 : (ZAtan.atan2 (q.c0 * (q.c0 * q.s1)) (q.c0 * (q.c0 * q.c1)) : ℝ) = Zm.phaseNormalize q.dis1 := by
      have := atan2_phase q.dis1 (mul_pos hcos hcos)
      rw [← this, hs1, hc1, hc0, mul_assoc, mul_assoc]
    refine ⟨_, [Zm.phaseNormalize q.dis0, Zm.phaseNormalize q.dis1], .hooke q, by
      simp only [Prp.torsion, jointFrame, m1, m2, m3, a1, z1, z2, a2, a3, a4]; rfl, ?_, fun _ => rfl, fun _ => rfl⟩
    simp only [Prp.setDis, phase_phase, h]
  | spher q =>
    have ha : q.att = Zm.fromAA q.aa := by
      simp only [Prp.getDis, Prp.setDis, Vec3.toBuf, Vec3.ofBuf, Option.map_some, Option.some.injEq,
        Prp.spher.injEq] at h
      exact (congrArg SpherPrp.att h).symm
    have hr : q.att.IsRot := by rw [ha]; exact LawfulZm.fromAA_isRot _
    refine ⟨_, _, _, rfl, rfl, fun f => ?_, fun hs => by simp [Prp.size] at hs⟩
    simp only [Prp.xform, jointFrame]
    congr 2
    exact LawfulZm.fromAA_toAA _ hr
  | float q =>
    have ha : q.att = Zm.fromAA q.dis.ang := by
      simp only [Prp.getDis, Prp.setDis, Vec6.toBuf, Vec3.toBuf, Vec6.ofBuf, List.cons_append, List.nil_append,
        Option.map_some, Option.some.injEq, Prp.float.injEq] at h
      exact (congrArg FloatPrp.att h).symm
    have hr : q.att.IsRot := by rw [ha]; exact LawfulZm.fromAA_isRot _
    refine ⟨_, _, _, rfl, rfl, fun f => ?_, fun hs => by simp [Prp.size] at hs⟩
    simp only [Prp.xform, jointFrame]
    congr 2
    exact LawfulZm.fromAA_toAA _ hr
  | brfloat q =>
    have ha : q.att = Zm.fromAA q.dis.ang := by
      simp only [Prp.getDis, Prp.setDis, Vec6.toBuf, Vec3.toBuf, Vec6.ofBuf, List.cons_append, List.nil_append,
        Option.map_some, Option.some.injEq, Prp.brfloat.injEq] at h
      exact (congrArg FloatPrp.att h).symm
    have hr : q.att.IsRot := by rw [ha]; exact LawfulZm.fromAA_isRot _
    refine ⟨_, _, _, rfl, rfl, fun f => ?_, fun hs => by simp [Prp.size] at hs⟩
    simp only [Prp.xform, jointFrame]
    congr 2
    exact LawfulZm.fromAA_toAA _ hr

theorem torsion_const {p q : Prp ℝ} (h : jointConst q = jointConst p) (dev : Frame ℝ) : q.torsion dev = p.torsion dev := by
  cases p <;> cases q <;> simp [jointConst, Prp.typeStr] at h <;> rfl

end Torsion

namespace Chain

/-- The frame that the joint of a link starts from, given the world frames of the links. -/
noncomputable def startFrame (F : ℕ → Frame ℝ) (par : Option ℕ) (org : Frame ℝ) : Frame ℝ :=
  match par with
  | some p => (F p).cascade org
  | none => org

theorem confLink_eq {F : ℕ → Frame ℝ} {par : Option ℕ} {ls : List (Link ℝ)} {i : ℕ} {l : Link ℝ} {x : Vec6 ℝ × List ℝ}
    {prp : Prp ℝ} (hF : ∀ i l, ls[i]? = some l → l.body.frame = F i) (hpar : ∀ p, par = some p → p < ls.length)
    (hl : ls[i]? = some l) (h1 : l.joint.prp.torsion ((startFrame F par l.org).xformF (F i)) = some x)
    (h2 : l.joint.prp.setDis x.2 = some prp) :
    confLink par i ls = some (ls.set i { l with joint := { l.joint with prp := prp } }) := by
  have hf := hF i l hl
  cases par with
  | none =>
    simp only [startFrame] at h1
    simp [confLink, hl, hf, h1, h2]
  | some p =>
    have hp := List.getElem?_eq_getElem (hpar p rfl)
    have hfp := hF p _ hp
    simp only [startFrame] at h1
    simp [confLink, hl, hp, hf, hfp, h1, h2]

theorem confAt_spec (F : ℕ → Frame ℝ) (Q : ℕ → Prp ℝ → Prop) (t : LTree ℕ) : ∀ (par : Option ℕ) (ls : List (Link ℝ)),
    t.toList.Nodup → (∀ i l, ls[i]? = some l → l.body.frame = F i) → (∀ p, par = some p → p < ls.length) →
    (∀ i ∈ t.toList, i < ls.length) →
    (∀ path i l, IsPath t (path ++ [i]) → ls[i]? = some l → ∃ x prp,
      l.joint.prp.torsion ((startFrame F (path.getLast?.or par) l.org).xformF (F i)) = some x ∧
      l.joint.prp.setDis x.2 = some prp ∧ Q i prp) →
    ∃ ls', confAt par t ls = some ls' ∧ ls'.length = ls.length ∧ (∀ i, i ∉ t.toList → ls'[i]? = ls[i]?) ∧
      ∀ i ∈ t.toList, ∀ l, ls[i]? = some l → ∃ prp, Q i prp ∧
        ls'[i]? = some { l with joint := { l.joint with prp := prp } } := by
  induction t with
  | nil => intro par ls _ _ _ _ _; exact ⟨ls, rfl, rfl, fun _ _ => rfl, by simp [LTree.toList]⟩
  | node i c s ihc ihs =>
    intro par ls hn hF hpar hlen hstep
    simp only [LTree.toList, List.nodup_cons, List.mem_append, not_or] at hn
    obtain ⟨⟨hic, his⟩, hcs⟩ := hn
    obtain ⟨hc, hs, hd⟩ := List.nodup_append.1 hcs
    have hi : i < ls.length := hlen i (by simp [LTree.toList])
    have hl : ls[i]? = some ls[i] := List.getElem?_eq_getElem hi
    set l := ls[i] with hlset
    obtain ⟨x, prp, h1, h2, h3⟩ := hstep [] i l (.here _ _ _) hl
    set l' : Link ℝ := { l with joint := { l.joint with prp := prp } } with hl'
    have e1 : confLink par i ls = some (ls.set i l') := by
      refine confLink_eq hF hpar hl ?_ h2
      simpa only [List.getLast?_nil, Option.none_or] using h1
    have hset : ∀ j, j ≠ i → (ls.set i l')[j]? = ls[j]? := fun j hj => List.getElem?_set_ne (Ne.symm hj)
    have hself : (ls.set i l')[i]? = some l' := List.getElem?_set_self hi
    have hF1 : ∀ j m, (ls.set i l')[j]? = some m → m.body.frame = F j := by
      intro j m hm
      by_cases hj : j = i
      · subst hj
        rw [hself, Option.some.injEq] at hm
        rw [← hm]; exact hF _ l hl
      · rw [hset j hj] at hm; exact hF _ _ hm
    obtain ⟨ls1, e2, n2, u2, v2⟩ := ihc (some i) (ls.set i l') hc hF1 (by
        intro p hp; rw [Option.some.injEq] at hp; rw [List.length_set]; omega)
      (by intro j hj; rw [List.length_set]; exact hlen j (by simp [LTree.toList, hj]))
      (by
        intro path j m hp hm
        have hj : j ∈ c.toList := hp.mem j (by simp)
        rw [hset j (fun e => hic (e ▸ hj))] at hm
        have := hstep (i :: path) j m (.child hp) hm
        have e : ((i :: path).getLast?.or par) = (path.getLast?.or (some i)) := by
          cases path with
          | nil => rfl
          | cons a b => rw [List.getLast?_cons_cons]; simp [List.getLast?_eq_some_getLast]
        rwa [e] at this)
    rw [List.length_set] at n2
    have hF2 : ∀ j m, ls1[j]? = some m → m.body.frame = F j := by
      intro j m hm
      by_cases hj : j ∈ c.toList
      · obtain ⟨k, hk⟩ : ∃ k, (ls.set i l')[j]? = some k := by
          have : j < (ls.set i l').length := by rw [List.length_set]; exact hlen j (by simp [LTree.toList, hj])
          exact ⟨_, List.getElem?_eq_getElem this⟩
        obtain ⟨prp', -, hm'⟩ := v2 j hj k hk
        rw [hm', Option.some.injEq] at hm
        rw [← hm]; exact hF1 j k hk
      · rw [u2 j hj] at hm; exact hF1 j m hm
    have same : ∀ j ∈ s.toList, ls1[j]? = ls[j]? := by
      intro j hj
      rw [u2 j (fun k => hd j k j hj rfl), hset j (fun e => his (e ▸ hj))]
    obtain ⟨ls2, e3, n3, u3, v3⟩ := ihs par ls1 hs hF2 (fun p hp => by rw [n2]; exact hpar p hp)
      (fun j hj => by rw [n2]; exact hlen j (by simp [LTree.toList, hj]))
      (by
        intro path j m hp hm
        have hj : j ∈ s.toList := hp.mem j (by simp)
        rw [same j hj] at hm
        exact hstep path j m (.sibl hp) hm)
    refine ⟨ls2, ?_, by rw [n3, n2], ?_, ?_⟩
    · simp only [confAt, e1, Option.bind_eq_bind, Option.bind_some, e2, e3]
    · intro j hj
      simp only [LTree.toList, List.mem_cons, List.mem_append, not_or] at hj
      rw [u3 j hj.2.2, u2 j hj.2.1, hset j hj.1]
    · intro j hj m hm
      simp only [LTree.toList, List.mem_cons, List.mem_append] at hj
      rcases hj with rfl | hj | hj
      · rw [hl, Option.some.injEq] at hm
        refine ⟨prp, h3, ?_⟩
        rw [u3 j his, u2 j hic, hself, ← hm]
      · have hji : j ≠ i := fun e => hic (e ▸ hj)
        rw [← hset j hji] at hm
        obtain ⟨prp', q, hv⟩ := v2 j hj m hm
        exact ⟨prp', q, by rw [u3 j (fun k => hd j hj j k rfl), hv]⟩
      · rw [← same j hj] at hm
        exact v3 j hj m hm

theorem setConfFrames_eq {fs : List (Link ℝ)} (hr : ∀ l ∈ fs, l.body.frame.att.IsRot) :
    ∀ (ls : List (Link ℝ)), ls.length = fs.length →
    setConfFrames (fs.flatMap fun l => l.body.frame.pos.toBuf ++ (Zm.toAA l.body.frame.att).toBuf) ls =
      some (List.zipWith (fun l f => { l with body := { l.body with frame := f.body.frame } }) ls fs) := by
  induction fs with
  | nil =>
    intro ls h
    rw [List.length_eq_zero_iff.1 h]; rfl
  | cons f fs ih =>
    intro ls h
    cases ls with
    | nil => simp at h
    | cons l ls =>
      have h1 := ih (fun l hl => hr l (by simp [hl])) ls (by simpa using h)
      have h2 : (Zm.fromAA (Zm.toAA f.body.frame.att) : Mat3 ℝ) = f.body.frame.att :=
        LawfulZm.fromAA_toAA _ (hr f (by simp))
      simp only [List.flatMap_cons, Vec3.toBuf, List.cons_append, List.nil_append, setConfFrames, Vec6.ofBuf,
        Option.bind_some, List.drop_succ_cons, List.drop_zero] at h1 ⊢
      rw [h1]
      simp only [Option.map_some, List.zipWith_cons_cons, Option.some.injEq, List.cons.injEq, and_true]
      congr 2
      exact Frame.ext rfl h2

end Chain
end Roki
