import Verif.Lemmas.IKStep
import Verif.Lemmas.ZmRat
import Verif.Spec.Samples
set_option autoImplicit false

/-!
# C65: arithmetic of joint displacement vectors
-/

namespace Roki
open Spec LinkArray
variable {K : Type*}

namespace Spec

/-- The part of a joint displacement vector that belongs to a link. -/
def blockOf (l : Link K) (v : List K) : List K := (v.drop l.offset.toNat).take l.size

variable [Field K] [Zm K]

/-- `d'` is the displacement `d` of a joint moved by `k` times `v`.  Angles and lengths are added; a rotation is followed by
the rotation of the vector `k v`. -/
def MovedBy (p : Prp K) (d : List K) (k : K) (v d' : List K) : Prop :=
  match p with
  | .fixed => d' = []
  | .revol _ | .prism _ => ∃ a u, d = [a] ∧ v = [u] ∧ d' = [a + k * u]
  | .cylin _ | .hooke _ => ∃ a b u w, d = [a, b] ∧ v = [u, w] ∧ d' = [a + k * u, b + k * w]
  | .spher _ => ∃ a u a' : Vec3 K, d = [a.x, a.y, a.z] ∧ v = [u.x, u.y, u.z] ∧ d' = [a'.x, a'.y, a'.z] ∧
      Zm.fromAA a' = (Zm.fromAA (k • u)).mul (Zm.fromAA a)
  | .float _ | .brfloat _ => ∃ (x a y u a' : Vec3 K), d = [x.x, x.y, x.z, a.x, a.y, a.z] ∧
      v = [y.x, y.y, y.z, u.x, u.y, u.z] ∧
      d' = [x.x + k * y.x, x.y + k * y.y, x.z + k * y.z, a'.x, a'.y, a'.z] ∧
      Zm.fromAA a' = (Zm.fromAA (k • u)).mul (Zm.fromAA a)

/-- `r` is the difference of the displacements `d` and `e` of a joint.  Angles and lengths are subtracted; the rotation of
`e` followed by that of `r` is that of `d`. -/
def DifferenceOf (p : Prp K) (d e r : List K) : Prop :=
  match p with
  | .fixed => r = []
  | .revol _ | .prism _ => ∃ a u, d = [a] ∧ e = [u] ∧ r = [a - u]
  | .cylin _ | .hooke _ => ∃ a b u w, d = [a, b] ∧ e = [u, w] ∧ r = [a - u, b - w]
  | .spher _ => ∃ a u r' : Vec3 K, d = [a.x, a.y, a.z] ∧ e = [u.x, u.y, u.z] ∧ r = [r'.x, r'.y, r'.z] ∧
      (Zm.fromAA r').mul (Zm.fromAA u) = Zm.fromAA a
  | .float _ | .brfloat _ => ∃ (x a y u r' : Vec3 K), d = [x.x, x.y, x.z, a.x, a.y, a.z] ∧
      e = [y.x, y.y, y.z, u.x, u.y, u.z] ∧
      r = [x.x - y.x, x.y - y.y, x.z - y.z, r'.x, r'.y, r'.z] ∧
      (Zm.fromAA r').mul (Zm.fromAA u) = Zm.fromAA a

/-- `d` and `e` are the same displacement of a joint: the same angles and lengths, and the same rotation. -/
def SameDis (p : Prp K) (d e : List K) : Prop :=
  match p with
  | .fixed | .revol _ | .prism _ | .cylin _ | .hooke _ => d = e
  | .spher _ => ∃ a b : Vec3 K, d = [a.x, a.y, a.z] ∧ e = [b.x, b.y, b.z] ∧ Zm.fromAA a = Zm.fromAA b
  | .float _ | .brfloat _ => ∃ (x a b : Vec3 K), d = [x.x, x.y, x.z, a.x, a.y, a.z] ∧
      e = [x.x, x.y, x.z, b.x, b.y, b.z] ∧ Zm.fromAA a = Zm.fromAA b

end Spec

/-! ## Blockwise updates -/

namespace LinkArray
variable [Field K] [Zm K]

/-- The common form of the two loops. -/
def updAll (f : Link K → List K → Option (List K)) : List (Link K) → List K → Option (List K)
  | [], dis => some dis
  | l :: ls, dis =>
    if 0 ≤ l.offset then do
      let d ← f l (dis.drop l.offset.toNat)
      let dis' ← writeAt dis l.offset.toNat d
      updAll f ls dis'
    else updAll f ls dis

theorem catJointDisAll_eq (k : K) (v : List K) (ls : List (Link K)) (dis : List K) :
    catJointDisAll k v ls dis = updAll (fun l d => l.joint.prp.catDis d k (v.drop l.offset.toNat)) ls dis := by
  induction ls generalizing dis with
  | nil => rfl
  | cons l ls ih => simp only [catJointDisAll, updAll, ih]

theorem subJointDisAll_eq (v : List K) (ls : List (Link K)) (dis : List K) :
    subJointDisAll v ls dis = updAll (fun l d => l.joint.prp.subDis d (v.drop l.offset.toNat)) ls dis := by
  induction ls generalizing dis with
  | nil => rfl
  | cons l ls ih => simp only [subJointDisAll, updAll, ih]

theorem updAll_spec (f : Link K → List K → Option (List K)) (ls : List (Link K)) :
    ∀ (s : ℕ) (dis : List K), OffsetsFrom s ls → s + sizes ls ≤ dis.length →
      (∀ l ∈ ls, 0 < l.size → ∀ buf : List K, l.size ≤ buf.length → ∃ d, f l buf = some d ∧ d.length = l.size ∧
        f l (buf.take l.size) = some d) →
      ∃ dis', updAll f ls dis = some dis' ∧ dis'.length = dis.length ∧ (∀ q < s, dis'[q]? = dis[q]?) ∧
        ∀ (i : ℕ) (l : Link K), ls[i]? = some l → 0 < l.size → f l (blockOf l dis) = some (blockOf l dis') := by
  induction ls with
  | nil =>
    intro s dis _ _ _
    exact ⟨dis, rfl, rfl, fun _ _ => rfl, fun i l hi => by simp at hi⟩
  | cons a ls ih =>
    intro s dis ho hlen hf
    obtain ⟨h1, h2⟩ := offsetsFrom_cons.1 ho
    rw [sizes_cons] at hlen
    by_cases hs : 0 < a.size
    · have e : a.offset = (s : ℤ) := by rw [h1, offsetAt, if_pos hs]
      obtain ⟨d, hd, hdl, hd'⟩ := hf a (by simp) hs (dis.drop s) (by rw [List.length_drop]; omega)
      have hw : ∃ dis1, writeAt dis s d = some dis1 := by
        simp only [writeAt]
        rw [if_pos (by omega)]
        exact ⟨_, rfl⟩
      obtain ⟨dis1, hw⟩ := hw
      have hlen1 := IK.writeAt_length hw
      obtain ⟨dis', g0, g1, g2, g3⟩ := ih (s + a.size) dis1 h2 (by omega) fun l hl => hf l (by simp [hl])
      refine ⟨dis', ?_, by omega, ?_, ?_⟩
      · simp only [updAll, e, Int.natCast_nonneg, if_true, Int.toNat_natCast, hd, Option.bind_eq_bind, Option.bind_some, hw,
          g0]
      · intro q hq
        rw [g2 q (by omega), writeAt_getElem? hw, if_neg (by omega)]
      · intro i l hi hl
        cases i with
        | zero =>
          simp only [List.getElem?_cons_zero, Option.some.injEq] at hi
          subst hi
          have hb : blockOf a dis' = d := by
            rw [blockOf, e, Int.toNat_natCast]
            apply List.ext_getElem?
            intro q
            by_cases hq : q < a.size
            · rw [List.getElem?_take_of_lt hq, List.getElem?_drop, g2 _ (by omega), writeAt_getElem? hw,
                if_pos (by omega)]
              congr 1; omega
            · rw [List.getElem?_eq_none (by simp; omega), List.getElem?_eq_none (by omega)]
          rw [hb, blockOf, e, Int.toNat_natCast]
          exact hd'
        | succ i =>
          simp only [List.getElem?_cons_succ] at hi
          rw [← g3 i l hi hl]
          congr 1
          have hgt : (s : ℤ) + a.size ≤ l.offset := by
            have := (offsets_order ho (i := 0) (j := i + 1) (by simp) (by simpa using hi) hs hl (by omega)).2
            rw [e] at this; exact this
          rw [blockOf, blockOf]
          congr 1
          apply List.ext_getElem?
          intro q
          rw [List.getElem?_drop, List.getElem?_drop, writeAt_getElem? hw, if_neg (by omega)]
    · have e : a.offset = -1 := by rw [h1, offsetAt, if_neg hs]
      obtain ⟨dis', g0, g1, g2, g3⟩ := ih (s + a.size) dis h2 (by omega) fun l hl => hf l (by simp [hl])
      refine ⟨dis', ?_, g1, fun q hq => g2 q (by omega), ?_⟩
      · simp only [updAll, e, Int.reduceNeg, Int.reduceLE, if_false, g0]
      · intro i l hi hl
        cases i with
        | zero =>
          simp only [List.getElem?_cons_zero, Option.some.injEq] at hi
          subst hi
          exact absurd hl hs
        | succ i => exact g3 i l (by simpa using hi) hl

theorem offset_bound {ls : List (Link K)} {s : ℕ} (ho : OffsetsFrom s ls) {i : ℕ} {l : Link K} (hi : ls[i]? = some l) :
    l.offset.toNat + l.size ≤ s + sizes ls := by
  induction ls generalizing s i with
  | nil => simp at hi
  | cons a ls ih =>
    obtain ⟨h1, h2⟩ := offsetsFrom_cons.1 ho
    rw [sizes_cons]
    cases i with
    | zero =>
      simp only [List.getElem?_cons_zero, Option.some.injEq] at hi
      subst hi
      rw [h1, offsetAt]
      split_ifs <;> simp <;> omega
    | succ i =>
      have := ih h2 (by simpa using hi)
      omega

end LinkArray

variable [Field K]

theorem catDis_ok [Zm K] (p : Prp K) (k : K) (d v : List K) (hd : p.size ≤ d.length) (hv : p.size ≤ v.length) :
    ∃ d', p.catDis d k v = some d' ∧ d'.length = p.size ∧ p.catDis (d.take p.size) k (v.take p.size) = some d' := by
  rcases p with _ | q | q | q | q | q | q | q
  · exact ⟨[], rfl, rfl, rfl⟩
  all_goals
    simp only [Prp.size] at hd hv
    rcases d with _ | ⟨a0, d⟩ <;> rcases v with _ | ⟨b0, v⟩ <;> simp at hd hv
  all_goals first
    | exact ⟨_, rfl, rfl, rfl⟩
    | (rcases d with _ | ⟨a1, d⟩ <;> rcases v with _ | ⟨b1, v⟩ <;> simp at hd hv
       first
        | exact ⟨_, rfl, rfl, rfl⟩
        | (rcases d with _ | ⟨a2, d⟩ <;> rcases v with _ | ⟨b2, v⟩ <;> simp at hd hv
           first
            | exact ⟨_, rfl, rfl, rfl⟩
            | (rcases d with _ | ⟨a3, d⟩ <;> rcases v with _ | ⟨b3, v⟩ <;> simp at hd hv
               rcases d with _ | ⟨a4, d⟩ <;> rcases v with _ | ⟨b4, v⟩ <;> simp at hd hv
               rcases d with _ | ⟨a5, d⟩ <;> rcases v with _ | ⟨b5, v⟩ <;> simp at hd hv
               exact ⟨_, rfl, rfl, rfl⟩)))

theorem subDis_ok [Zm K] (p : Prp K) (d v : List K) (hd : p.size ≤ d.length) (hv : p.size ≤ v.length) :
    ∃ d', p.subDis d v = some d' ∧ d'.length = p.size ∧ p.subDis (d.take p.size) (v.take p.size) = some d' := by
  rcases p with _ | q | q | q | q | q | q | q
  · exact ⟨[], rfl, rfl, rfl⟩
  all_goals
    simp only [Prp.size] at hd hv
    rcases d with _ | ⟨a0, d⟩ <;> rcases v with _ | ⟨b0, v⟩ <;> simp at hd hv
  all_goals first
    | exact ⟨_, rfl, rfl, rfl⟩
    | (rcases d with _ | ⟨a1, d⟩ <;> rcases v with _ | ⟨b1, v⟩ <;> simp at hd hv
       first
        | exact ⟨_, rfl, rfl, rfl⟩
        | (rcases d with _ | ⟨a2, d⟩ <;> rcases v with _ | ⟨b2, v⟩ <;> simp at hd hv
           first
            | exact ⟨_, rfl, rfl, rfl⟩
            | (rcases d with _ | ⟨a3, d⟩ <;> rcases v with _ | ⟨b3, v⟩ <;> simp at hd hv
               rcases d with _ | ⟨a4, d⟩ <;> rcases v with _ | ⟨b4, v⟩ <;> simp at hd hv
               rcases d with _ | ⟨a5, d⟩ <;> rcases v with _ | ⟨b5, v⟩ <;> simp at hd hv
               exact ⟨_, rfl, rfl, rfl⟩)))

section
variable [LinearOrder K] [IsStrictOrderedRing K] [Zm K] [LawfulZm K]

theorem list3 {d : List K} (h : d.length = 3) : ∃ a : Vec3 K, d = [a.x, a.y, a.z] := by
  rcases d with _ | ⟨a, _ | ⟨b, _ | ⟨c, _ | ⟨x, d⟩⟩⟩⟩ <;> simp at h
  exact ⟨⟨a, b, c⟩, rfl⟩

theorem list6 {d : List K} (h : d.length = 6) : ∃ x a : Vec3 K, d = [x.x, x.y, x.z, a.x, a.y, a.z] := by
  rcases d with _ | ⟨a, _ | ⟨b, _ | ⟨c, _ | ⟨x, _ | ⟨y, _ | ⟨z, _ | ⟨w, d⟩⟩⟩⟩⟩⟩⟩ <;> simp at h
  exact ⟨⟨a, b, c⟩, ⟨x, y, z⟩, rfl⟩

theorem fromAA_aaCascade (a d : Vec3 K) : Zm.fromAA (aaCascade a d) = (Zm.fromAA d).mul (Zm.fromAA a) :=
  LawfulZm.fromAA_toAA _ ((LawfulZm.fromAA_isRot d).mul (LawfulZm.fromAA_isRot a))

theorem fromAA_diff (a b : Vec3 K) :
    (Zm.fromAA (mat3Error (Zm.fromAA a) (Zm.fromAA b))).mul (Zm.fromAA b) = Zm.fromAA a := by
  have hb : (Zm.fromAA b : Mat3 K).IsRot := LawfulZm.fromAA_isRot b
  rw [mat3Error, LawfulZm.fromAA_toAA _ ((LawfulZm.fromAA_isRot a).mul hb.tr), Mat3.mul_assoc', hb.tr_mul_self,
    Mat3.mul_one']

theorem movedBy {p : Prp K} {d v d' : List K} {k : K} (hd : d.length = p.size) (hv : v.length = p.size)
    (h : p.catDis d k v = some d') : MovedBy p d k v d' := by
  rcases p with _ | q | q | q | q | q | q | q
  · simp only [Prp.catDis, Option.some.injEq] at h; exact h.symm
  · obtain ⟨a, rfl⟩ := List.length_eq_one_iff.1 hd
    obtain ⟨u, rfl⟩ := List.length_eq_one_iff.1 hv
    simp only [Prp.catDis, Option.some.injEq] at h
    exact ⟨a, u, rfl, rfl, h.symm⟩
  · obtain ⟨a, rfl⟩ := List.length_eq_one_iff.1 hd
    obtain ⟨u, rfl⟩ := List.length_eq_one_iff.1 hv
    simp only [Prp.catDis, Option.some.injEq] at h
    exact ⟨a, u, rfl, rfl, h.symm⟩
  · obtain ⟨a, b, rfl⟩ := List.length_eq_two.1 hd
    obtain ⟨u, w, rfl⟩ := List.length_eq_two.1 hv
    simp only [Prp.catDis, Option.some.injEq] at h
    exact ⟨a, b, u, w, rfl, rfl, by rw [← h, mul_comm u, mul_comm w]⟩
  · obtain ⟨a, b, rfl⟩ := List.length_eq_two.1 hd
    obtain ⟨u, w, rfl⟩ := List.length_eq_two.1 hv
    simp only [Prp.catDis, Option.some.injEq] at h
    exact ⟨a, b, u, w, rfl, rfl, by rw [← h, mul_comm u, mul_comm w]⟩
  · obtain ⟨a, rfl⟩ := list3 hd
    obtain ⟨u, rfl⟩ := list3 hv
    simp only [Prp.catDis, Vec3.ofBuf, Option.some.injEq] at h
    exact ⟨a, u, _, rfl, rfl, h.symm, fromAA_aaCascade _ _⟩
  · obtain ⟨x, a, rfl⟩ := list6 hd
    obtain ⟨y, u, rfl⟩ := list6 hv
    simp only [Prp.catDis, Vec6.ofBuf, Vec3.ofBuf, Option.some.injEq] at h
    exact ⟨x, a, y, u, _, rfl, rfl, h.symm, fromAA_aaCascade _ _⟩
  · obtain ⟨x, a, rfl⟩ := list6 hd
    obtain ⟨y, u, rfl⟩ := list6 hv
    simp only [Prp.catDis, Vec6.ofBuf, Vec3.ofBuf, Option.some.injEq] at h
    exact ⟨x, a, y, u, _, rfl, rfl, h.symm, fromAA_aaCascade _ _⟩

theorem differenceOf {p : Prp K} {d e r : List K} (hd : d.length = p.size) (hv : e.length = p.size)
    (h : p.subDis d e = some r) : DifferenceOf p d e r := by
  rcases p with _ | q | q | q | q | q | q | q
  · simp only [Prp.subDis, Option.some.injEq] at h; exact h.symm
  · obtain ⟨a, rfl⟩ := List.length_eq_one_iff.1 hd
    obtain ⟨u, rfl⟩ := List.length_eq_one_iff.1 hv
    simp only [Prp.subDis, Option.some.injEq] at h
    exact ⟨a, u, rfl, rfl, h.symm⟩
  · obtain ⟨a, rfl⟩ := List.length_eq_one_iff.1 hd
    obtain ⟨u, rfl⟩ := List.length_eq_one_iff.1 hv
    simp only [Prp.subDis, Option.some.injEq] at h
    exact ⟨a, u, rfl, rfl, h.symm⟩
  · obtain ⟨a, b, rfl⟩ := List.length_eq_two.1 hd
    obtain ⟨u, w, rfl⟩ := List.length_eq_two.1 hv
    simp only [Prp.subDis, Option.some.injEq] at h
    exact ⟨a, b, u, w, rfl, rfl, h.symm⟩
  · obtain ⟨a, b, rfl⟩ := List.length_eq_two.1 hd
    obtain ⟨u, w, rfl⟩ := List.length_eq_two.1 hv
    simp only [Prp.subDis, Option.some.injEq] at h
    exact ⟨a, b, u, w, rfl, rfl, h.symm⟩
  · obtain ⟨a, rfl⟩ := list3 hd
    obtain ⟨u, rfl⟩ := list3 hv
    simp only [Prp.subDis, Vec3.ofBuf, Option.some.injEq] at h
    exact ⟨a, u, _, rfl, rfl, h.symm, fromAA_diff _ _⟩
  · obtain ⟨x, a, rfl⟩ := list6 hd
    obtain ⟨y, u, rfl⟩ := list6 hv
    simp only [Prp.subDis, Vec6.ofBuf, Vec3.ofBuf, Option.some.injEq] at h
    exact ⟨x, a, y, u, _, rfl, rfl, h.symm, fromAA_diff _ _⟩
  · obtain ⟨x, a, rfl⟩ := list6 hd
    obtain ⟨y, u, rfl⟩ := list6 hv
    simp only [Prp.subDis, Vec6.ofBuf, Vec3.ofBuf, Option.some.injEq] at h
    exact ⟨x, a, y, u, _, rfl, rfl, h.symm, fromAA_diff _ _⟩

omit [LinearOrder K] [IsStrictOrderedRing K] [LawfulZm K] in
theorem list_inj3 {a b : Vec3 K} (h : [a.x, a.y, a.z] = [b.x, b.y, b.z]) : a = b := by
  simp at h; ext <;> simp [h]

omit [LinearOrder K] [IsStrictOrderedRing K] [LawfulZm K] in
theorem list_inj6 {a b c d : Vec3 K} (h : [a.x, a.y, a.z, b.x, b.y, b.z] = [c.x, c.y, c.z, d.x, d.y, d.z]) :
    a = c ∧ b = d := by
  simp at h; constructor <;> ext <;> simp [h]

/-- Moving `e` by the difference of `d` and `e` gives `d`. -/
theorem sameDis {p : Prp K} {d e r d' : List K} (h1 : DifferenceOf p d e r) (h2 : MovedBy p e 1 r d') (hd : d.length = p.size) :
    SameDis p d' d := by
  rcases p with _ | q | q | q | q | q | q | q
  · simp only [MovedBy] at h2
    simp only [SameDis, h2]
    exact (List.length_eq_zero_iff.1 hd).symm
  · obtain ⟨a, u, rfl, rfl, rfl⟩ := h1
    obtain ⟨a', u', e1, e2, rfl⟩ := h2
    simp only [List.cons.injEq, and_true] at e1 e2
    subst e1 e2
    simp [SameDis]
  · obtain ⟨a, u, rfl, rfl, rfl⟩ := h1
    obtain ⟨a', u', e1, e2, rfl⟩ := h2
    simp only [List.cons.injEq, and_true] at e1 e2
    subst e1 e2
    simp [SameDis]
  · obtain ⟨a, b, u, w, rfl, rfl, rfl⟩ := h1
    obtain ⟨a', b', u', w', e1, e2, rfl⟩ := h2
    simp only [List.cons.injEq, and_true] at e1 e2
    obtain ⟨rfl, rfl⟩ := e1
    obtain ⟨rfl, rfl⟩ := e2
    simp [SameDis]
  · obtain ⟨a, b, u, w, rfl, rfl, rfl⟩ := h1
    obtain ⟨a', b', u', w', e1, e2, rfl⟩ := h2
    simp only [List.cons.injEq, and_true] at e1 e2
    obtain ⟨rfl, rfl⟩ := e1
    obtain ⟨rfl, rfl⟩ := e2
    simp [SameDis]
  · obtain ⟨a, u, r', rfl, rfl, rfl, h⟩ := h1
    obtain ⟨a', u', d'', e1, e2, rfl, h'⟩ := h2
    obtain rfl := list_inj3 e1
    obtain rfl := list_inj3 e2
    exact ⟨d'', a, rfl, rfl, by rw [h', one_smul, h]⟩
  · obtain ⟨x, a, y, u, r', rfl, rfl, rfl, h⟩ := h1
    obtain ⟨x', a', y', u', d'', e1, e2, rfl, h'⟩ := h2
    obtain ⟨rfl, rfl⟩ := list_inj6 e1
    obtain ⟨rfl, rfl⟩ := list_inj6 (a := x - y) e2
    exact ⟨x, d'', a, by simp, rfl, by rw [h', one_smul, h]⟩
  · obtain ⟨x, a, y, u, r', rfl, rfl, rfl, h⟩ := h1
    obtain ⟨x', a', y', u', d'', e1, e2, rfl, h'⟩ := h2
    obtain ⟨rfl, rfl⟩ := list_inj6 e1
    obtain ⟨rfl, rfl⟩ := list_inj6 (a := x - y) e2
    exact ⟨x, d'', a, by simp, rfl, by rw [h', one_smul, h]⟩

omit [LinearOrder K] [IsStrictOrderedRing K] [LawfulZm K] in
theorem blockOf_length {ls : List (Link K)} (ho : setOffset ls = ls) {i : ℕ} {l : Link K} (hl : ls[i]? = some l)
    {v : List K} (hv : v.length = jointSize ls) : (blockOf l v).length = l.size := by
  have := offset_bound (s := 0) ho hl
  rw [jointSize_eq] at hv
  rw [blockOf, List.length_take, List.length_drop]
  omega

/-- **C65** `rkChainCatJointDisAll`: for every chain with the offsets of its links set, displacement vector, factor and rate
vector of the size of the joints, the result has that size and the displacement of every joint in it is the one before moved
by the factor times the rate of that joint. -/
theorem C65_cat (c : Chain K) (ho : setOffset c.link = c.link) (k : K) (dis v : List K)
    (hd : dis.length = jointSize c.link) (hv : v.length = jointSize c.link) :
    ∃ dis', catJointDisAll k v c.link dis = some dis' ∧ dis'.length = dis.length ∧
      ∀ (i : ℕ) (l : Link K), c.link[i]? = some l →
        MovedBy l.joint.prp (blockOf l dis) k (blockOf l v) (blockOf l dis') := by
  rw [catJointDisAll_eq]
  obtain ⟨dis', g0, g1, -, g3⟩ := updAll_spec (fun l d => l.joint.prp.catDis d k (v.drop l.offset.toNat)) c.link 0 dis ho
    (by rw [hd, jointSize_eq]; omega) (by
      intro l hl _ buf hb
      obtain ⟨i, hi⟩ := List.mem_iff_getElem?.1 hl
      have := offset_bound (s := 0) ho hi
      rw [jointSize_eq] at hv
      have hvl : l.size ≤ (v.drop l.offset.toNat).length := by rw [List.length_drop]; omega
      obtain ⟨d, h1, h2, h3⟩ := catDis_ok l.joint.prp k buf (v.drop l.offset.toNat) hb hvl
      refine ⟨d, h1, h2, ?_⟩
      obtain ⟨d2, h4, -, h5⟩ := catDis_ok l.joint.prp k (buf.take l.size) (v.drop l.offset.toNat)
        (by rw [List.length_take]; exact le_min le_rfl hb) hvl
      rw [h4, ← h5, List.take_take, min_self, h3])
  refine ⟨dis', g0, g1, fun i l hl => ?_⟩
  have hbd := blockOf_length ho hl hd
  have hbv := blockOf_length ho hl hv
  by_cases hs : 0 < l.size
  · have h1 := g3 i l hl hs
    have hvl : l.size ≤ (v.drop l.offset.toNat).length := by
      rw [blockOf, List.length_take] at hbv; omega
    obtain ⟨d2, h4, -, h5⟩ := catDis_ok l.joint.prp k (blockOf l dis) (v.drop l.offset.toNat) (by rw [hbd]) hvl
    rw [h1, Option.some.injEq] at h4
    rw [← h4, List.take_of_length_le (by rw [hbd])] at h5
    exact movedBy hbd hbv h5
  · have h0 : l.joint.prp.size = 0 := by simp only [Link.size] at hs; omega
    have hb : blockOf l dis' = [] := by rw [blockOf, show l.size = 0 from h0, List.take_zero]
    cases hp : l.joint.prp <;> rw [hp] at h0 <;> simp [Prp.size] at h0
    exact hb

/-- **C65** `rkChainSubJointDisAll`: the displacement of every joint in the result is the difference of those given. -/
theorem C65_sub (c : Chain K) (ho : setOffset c.link = c.link) (dis sdis : List K)
    (hd : dis.length = jointSize c.link) (hv : sdis.length = jointSize c.link) :
    ∃ dis', subJointDisAll sdis c.link dis = some dis' ∧ dis'.length = dis.length ∧
      ∀ (i : ℕ) (l : Link K), c.link[i]? = some l →
        DifferenceOf l.joint.prp (blockOf l dis) (blockOf l sdis) (blockOf l dis') := by
  rw [subJointDisAll_eq]
  obtain ⟨dis', g0, g1, -, g3⟩ := updAll_spec (fun l d => l.joint.prp.subDis d (sdis.drop l.offset.toNat)) c.link 0 dis ho
    (by rw [hd, jointSize_eq]; omega) (by
      intro l hl _ buf hb
      obtain ⟨i, hi⟩ := List.mem_iff_getElem?.1 hl
      have := offset_bound (s := 0) ho hi
      rw [jointSize_eq] at hv
      have hvl : l.size ≤ (sdis.drop l.offset.toNat).length := by rw [List.length_drop]; omega
      obtain ⟨d, h1, h2, h3⟩ := subDis_ok l.joint.prp buf (sdis.drop l.offset.toNat) hb hvl
      refine ⟨d, h1, h2, ?_⟩
      obtain ⟨d2, h4, -, h5⟩ := subDis_ok l.joint.prp (buf.take l.size) (sdis.drop l.offset.toNat)
        (by rw [List.length_take]; exact le_min le_rfl hb) hvl
      rw [h4, ← h5, List.take_take, min_self, h3])
  refine ⟨dis', g0, g1, fun i l hl => ?_⟩
  have hbd := blockOf_length ho hl hd
  have hbv := blockOf_length ho hl hv
  by_cases hs : 0 < l.size
  · have h1 := g3 i l hl hs
    have hvl : l.size ≤ (sdis.drop l.offset.toNat).length := by
      rw [blockOf, List.length_take] at hbv; omega
    obtain ⟨d2, h4, -, h5⟩ := subDis_ok l.joint.prp (blockOf l dis) (sdis.drop l.offset.toNat) (by rw [hbd]) hvl
    rw [h1, Option.some.injEq] at h4
    rw [← h4, List.take_of_length_le (by rw [hbd])] at h5
    exact differenceOf hbd hbv h5
  · have h0 : l.joint.prp.size = 0 := by simp only [Link.size] at hs; omega
    have hb : blockOf l dis' = [] := by rw [blockOf, show l.size = 0 from h0, List.take_zero]
    cases hp : l.joint.prp <;> rw [hp] at h0 <;> simp [Prp.size] at h0
    exact hb

/-- **C65** Subtracting `sdis` from `dis` and adding the difference to `sdis` gives `dis` again: the same angles and lengths,
and vectors of the same rotations. -/
theorem C65_round_trip (c : Chain K) (ho : setOffset c.link = c.link) (dis sdis : List K)
    (hd : dis.length = jointSize c.link) (hv : sdis.length = jointSize c.link) :
    ∃ r dis', subJointDisAll sdis c.link dis = some r ∧ catJointDisAll 1 r c.link sdis = some dis' ∧
      ∀ (i : ℕ) (l : Link K), c.link[i]? = some l → SameDis l.joint.prp (blockOf l dis') (blockOf l dis) := by
  obtain ⟨r, h1, h2, h3⟩ := C65_sub c ho dis sdis hd hv
  obtain ⟨dis', g1, g2, g3⟩ := C65_cat c ho 1 sdis r hv (h2.trans hd)
  exact ⟨r, dis', h1, g1, fun i l hl => sameDis (h3 i l hl) (g3 i l hl) (blockOf_length ho hl hd)⟩

end

/-- Concrete case for C65: the sample chain with floating, fixed, revolute and universal joints meets the hypotheses. -/
example : setOffset (Sample.chain : Chain ℚ).link = (Sample.chain : Chain ℚ).link ∧
    jointSize (Sample.chain : Chain ℚ).link = 9 ∧ (Sample.chain : Chain ℚ).link.length = 4 := ⟨rfl, rfl, rfl⟩

end Roki
