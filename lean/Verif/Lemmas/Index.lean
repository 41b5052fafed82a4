import Verif.Model.Chain
import Mathlib.Tactic.Linarith

/-! # Offsets and joint vectors (helper lemmas) -/

namespace Roki
namespace LinkArray
variable {K : Type*}

/-- Sum of the joint sizes. -/
def sizes (ls : List (Link K)) : ℕ := (ls.map Link.size).sum

@[simp] theorem sizes_nil : sizes ([] : List (Link K)) = 0 := rfl
@[simp] theorem sizes_cons (l : Link K) (ls : List (Link K)) : sizes (l :: ls) = l.size + sizes ls := by
  simp [sizes]
@[simp] theorem sizes_append (a b : List (Link K)) : sizes (a ++ b) = sizes a + sizes b := by
  simp [sizes]

theorem foldl_size (ls : List (Link K)) (n : ℕ) :
    ls.foldl (fun size l => size + l.size) n = n + sizes ls := by
  induction ls generalizing n with
  | nil => simp
  | cons l ls ih => simp [ih]; omega

theorem jointSize_eq (ls : List (Link K)) : jointSize ls = sizes ls := by
  simp [jointSize, foldl_size]

/-- The offset given to a link when `s` components precede it. -/
def offsetAt (l : Link K) (s : ℕ) : ℤ := if 0 < l.size then (s : ℤ) else -1

theorem setOffsetFrom_cons (s : ℕ) (l : Link K) (ls : List (Link K)) :
    setOffsetFrom s (l :: ls) = { l with offset := offsetAt l s } :: setOffsetFrom (s + l.size) ls := by
  simp only [setOffsetFrom, offsetAt]
  split_ifs with h
  · rfl
  · have : l.size = 0 := by omega
    rw [this]; rfl

theorem setOffsetFrom_getElem? (s : ℕ) (ls : List (Link K)) (i : ℕ) :
    (setOffsetFrom s ls)[i]? =
      ls[i]?.map fun l => { l with offset := offsetAt l (s + sizes (ls.take i)) } := by
  induction ls generalizing s i with
  | nil => simp [setOffsetFrom]
  | cons l ls ih =>
    rw [setOffsetFrom_cons]
    cases i with
    | zero => simp
    | succ i => simp [ih, Nat.add_assoc]

theorem setOffsetFrom_idem (s : ℕ) (ls : List (Link K)) :
    setOffsetFrom s (setOffsetFrom s ls) = setOffsetFrom s ls := by
  induction ls generalizing s with
  | nil => rfl
  | cons l ls ih =>
    rw [setOffsetFrom_cons, setOffsetFrom_cons]
    simp only [List.cons.injEq]
    exact ⟨rfl, ih _⟩

theorem setOffsetFrom_length (s : ℕ) (ls : List (Link K)) :
    (setOffsetFrom s ls).length = ls.length := by
  induction ls generalizing s with
  | nil => rfl
  | cons l ls ih => rw [setOffsetFrom_cons]; simp [ih]

theorem sizes_setOffsetFrom (s : ℕ) (ls : List (Link K)) : sizes (setOffsetFrom s ls) = sizes ls := by
  induction ls generalizing s with
  | nil => rfl
  | cons l ls ih => rw [setOffsetFrom_cons]; simp [ih]

/-- The offsets are those of `rkChainSetOffset` starting from `s`. -/
def OffsetsFrom (s : ℕ) (ls : List (Link K)) : Prop := setOffsetFrom s ls = ls

theorem offsetsFrom_cons {s : ℕ} {l : Link K} {ls : List (Link K)} :
    OffsetsFrom s (l :: ls) ↔ l.offset = offsetAt l s ∧ OffsetsFrom (s + l.size) ls := by
  unfold OffsetsFrom
  rw [setOffsetFrom_cons, List.cons.injEq]
  refine and_congr_left fun _ => ⟨fun h => ?_, fun h => ?_⟩
  · rw [← h]; rfl
  · rw [← h]

theorem OffsetsFrom.nil (s : ℕ) : OffsetsFrom s ([] : List (Link K)) := rfl

/-! ## Writing into a buffer -/

theorem writeAt_append (a b c v : List K) (h : v.length = b.length) :
    writeAt (a ++ b ++ c) a.length v = some (a ++ v ++ c) := by
  unfold writeAt
  rw [if_pos (by simp [h])]
  simp [h]

theorem writeAt_append' (a r v : List K) (n : ℕ) (hn : a.length = n) (h : v.length ≤ r.length) :
    writeAt (a ++ r) n v = some (a ++ v ++ r.drop v.length) := by
  subst hn
  unfold writeAt
  rw [if_pos (by simp; omega)]
  simp

/-- `get*All` concatenates what the joints hold, in link order. -/
theorem getJointAll_from (get : Prp K → List K) (hget : ∀ p : Prp K, (get p).length = p.size)
    (ls : List (Link K)) (s : ℕ) (h : OffsetsFrom s ls) (a r : List K) (ha : a.length = s)
    (hr : sizes ls ≤ r.length) :
    getJointAll get ls (a ++ r) =
      some (a ++ (ls.map fun l => get l.joint.prp).flatten ++ r.drop (sizes ls)) := by
  induction ls generalizing s a r with
  | nil => simp [getJointAll]
  | cons l ls ih =>
    obtain ⟨h1, h2⟩ := offsetsFrom_cons.1 h
    simp only [sizes_cons] at hr
    have hl := hget l.joint.prp
    by_cases hs : 0 < l.size
    · have ho : l.offset = (s : ℤ) := by rw [h1, offsetAt, if_pos hs]
      simp only [getJointAll, ho, Int.natCast_nonneg, if_true, Int.toNat_natCast]
      rw [writeAt_append' a r _ s ha (by rw [hl]; unfold Link.size at *; omega)]
      simp only [Option.bind_eq_bind, Option.bind_some]
      rw [ih (s + l.size) h2 (a ++ get l.joint.prp) _ (by simp [ha, hl])
        (by rw [hl, List.length_drop]; unfold Link.size at *; omega)]
      simp [hl, List.drop_drop]
    · have h0 : l.size = 0 := by omega
      have ho : l.offset = -1 := by rw [h1, offsetAt, if_neg hs]
      have hg : get l.joint.prp = [] := List.length_eq_zero_iff.1 (by rw [hl]; exact h0)
      simp only [getJointAll, ho]
      rw [if_neg (by omega), ih (s + l.size) h2 a r (by rw [ha, h0]; rfl) (by omega)]
      simp [hg, h0]

theorem getJointAll_eq (get : Prp K → List K) (hget : ∀ p : Prp K, (get p).length = p.size)
    (ls : List (Link K)) (h : setOffset ls = ls) (buf : List K) (hb : buf.length = jointSize ls) :
    getJointAll get ls buf = some (ls.map fun l => get l.joint.prp).flatten := by
  rw [jointSize_eq] at hb
  have := getJointAll_from get hget ls 0 h [] buf rfl hb.ge
  simpa [← hb] using this

/-! ## Setting -/

/-- What a joint setter guarantees. -/
structure IsSetter (set : Prp K → List K → Option (Prp K)) (get : Prp K → List K)
    (stored : Prp K → List K → List K) : Prop where
  ok : ∀ p buf, p.size ≤ buf.length → ∃ p', set p buf = some p'
  size : ∀ p buf p', set p buf = some p' → p'.size = p.size
  local_ : ∀ p buf buf', p.size ≤ buf.length → buf.take p.size = buf'.take p.size →
    set p buf = set p buf'
  got : ∀ p buf p', set p buf = some p' → get p' = stored p (buf.take p.size)

theorem setWith_eq_some {set : Prp K → List K → Option (Prp K)} {l l' : Link K} {buf : List K} :
    l.setWith set buf = some l' ↔
      ∃ p, set l.joint.prp buf = some p ∧ l' = { l with joint := { l.joint with prp := p } } := by
  simp only [Link.setWith, Option.map_eq_some_iff]
  exact ⟨fun ⟨p, h, e⟩ => ⟨p, h, e.symm⟩, fun ⟨p, h, e⟩ => ⟨p, h, e.symm⟩⟩

/-- The values stored by the joints, link by link. -/
def slicesFrom (stored : Prp K → List K → List K) (v : List K) : ℕ → List (Link K) → List (List K)
  | _, [] => []
  | s, l :: ls => stored l.joint.prp ((v.drop s).take l.size) :: slicesFrom stored v (s + l.size) ls

theorem setJointAll_from {set : Prp K → List K → Option (Prp K)} {get : Prp K → List K}
    {stored : Prp K → List K → List K} (hset : IsSetter set get stored)
    (h0 : ∀ p : Prp K, p.size = 0 → get p = [] ∧ stored p [] = [])
    (ls : List (Link K)) (s : ℕ) (h : OffsetsFrom s ls) (v : List K)
    (hv : s + sizes ls ≤ v.length) :
    ∃ ls', setJointAll set v ls = some ls' ∧ OffsetsFrom s ls' ∧ sizes ls' = sizes ls ∧
      ls'.length = ls.length ∧
      (ls'.map fun l => get l.joint.prp) = slicesFrom stored v s ls := by
  induction ls generalizing s with
  | nil => exact ⟨[], rfl, rfl, rfl, rfl, by simp [slicesFrom]⟩
  | cons l ls ih =>
    obtain ⟨h1, h2⟩ := offsetsFrom_cons.1 h
    simp only [sizes_cons] at hv
    obtain ⟨ls', e, o', z', n', g'⟩ := ih (s + l.size) h2 (by omega)
    by_cases hs : 0 < l.size
    · have ho : l.offset = (s : ℤ) := by rw [h1, offsetAt, if_pos hs]
      obtain ⟨p', hp'⟩ := hset.ok l.joint.prp (v.drop s) (by
        rw [List.length_drop]; unfold Link.size at *; omega)
      have hz := hset.size _ _ _ hp'
      refine ⟨{ l with joint := { l.joint with prp := p' } } :: ls', ?_, ?_, ?_, by simp [n'], ?_⟩
      · simp [setJointAll, Link.setAtOffset, ho, Link.setWith, hp', e]
      · rw [offsetsFrom_cons]
        refine ⟨?_, ?_⟩
        · simp only [offsetAt, Link.size, hz] at *
          rw [if_pos hs]; exact ho
        · simp only [Link.size, hz]; exact o'
      · simp [Link.size, hz, z']
      · simp only [List.map_cons, slicesFrom, g', List.cons.injEq, and_true]
        exact hset.got _ _ _ hp'
    · have hz0 : l.size = 0 := by omega
      have ho : l.offset = -1 := by rw [h1, offsetAt, if_neg hs]
      refine ⟨l :: ls', ?_, ?_, ?_, by simp [n'], ?_⟩
      · simp [setJointAll, Link.setAtOffset, ho, e]
      · rw [offsetsFrom_cons]; exact ⟨h1, o'⟩
      · simp [z']
      · simp only [List.map_cons, slicesFrom, g', List.cons.injEq, and_true]
        rw [(h0 l.joint.prp hz0).1, hz0, List.take_zero, (h0 l.joint.prp hz0).2]

theorem slicesFrom_id (v : List K) (ls : List (Link K)) (s : ℕ) (hv : s + sizes ls ≤ v.length) :
    (slicesFrom (fun _ x => x) v s ls).flatten = (v.drop s).take (sizes ls) := by
  induction ls generalizing s with
  | nil => simp [slicesFrom]
  | cons l ls ih =>
    simp only [sizes_cons] at hv
    simp only [slicesFrom, List.flatten_cons, sizes_cons]
    rw [ih (s + l.size) (by omega), List.take_add, List.drop_drop]

/-- Cut link `i`'s slice out of a concatenation. -/
theorem slice_flatten (ls : List (Link K)) (s : ℕ) (h : OffsetsFrom s ls)
    (xs : List (List K)) (hx : xs.length = ls.length)
    (hl : ∀ (i : ℕ) (l : Link K) (x : List K), ls[i]? = some l → xs[i]? = some x → x.length = l.size)
    (a : List K) (ha : a.length = s) (i : ℕ) (l : Link K) (hi : ls[i]? = some l) (hs : 0 < l.size)
    (x : List K) (hxi : xs[i]? = some x) :
    ((a ++ xs.flatten).drop l.offset.toNat).take l.size = x := by
  induction ls generalizing s xs a i with
  | nil => simp at hi
  | cons m ls ih =>
    obtain ⟨h1, h2⟩ := offsetsFrom_cons.1 h
    cases xs with
    | nil => simp at hx
    | cons y ys =>
      have hy := hl 0 m y rfl rfl
      cases i with
      | zero =>
        simp only [List.getElem?_cons_zero, Option.some.injEq] at hi hxi
        subst hi; subst hxi
        rw [h1, offsetAt, if_pos hs, Int.toNat_natCast, ← ha]
        simp [← hy]
      | succ i =>
        simp only [List.getElem?_cons_succ] at hi hxi
        have := ih (s + m.size) h2 ys (by simpa using hx)
          (fun i l x h h' => hl (i + 1) l x (by simpa using h) (by simpa using h'))
          (a ++ y) (by simp [ha, hy]) i hi hxi
        simpa using this

theorem slicesFrom_length (stored : Prp K → List K → List K) (v : List K) (s : ℕ)
    (ls : List (Link K)) : (slicesFrom stored v s ls).length = ls.length := by
  induction ls generalizing s with
  | nil => rfl
  | cons l ls ih => simp [slicesFrom, ih]

theorem slicesFrom_getElem? (stored : Prp K → List K → List K) (v : List K) (s : ℕ)
    (ls : List (Link K)) (h : OffsetsFrom s ls) (i : ℕ) (l : Link K) (hi : ls[i]? = some l)
    (hs : 0 < l.size) :
    (slicesFrom stored v s ls)[i]? = some (stored l.joint.prp ((v.drop l.offset.toNat).take l.size)) := by
  induction ls generalizing s i with
  | nil => simp at hi
  | cons m ls ih =>
    obtain ⟨h1, h2⟩ := offsetsFrom_cons.1 h
    cases i with
    | zero =>
      simp only [List.getElem?_cons_zero, Option.some.injEq] at hi
      subst hi
      rw [h1, offsetAt, if_pos hs]; simp [slicesFrom]
    | succ i =>
      simp only [List.getElem?_cons_succ] at hi
      simpa [slicesFrom] using ih (s + m.size) h2 i hi

/-! ## The joint setters -/

theorem getDis_length (p : Prp K) : p.getDis.length = p.size := by cases p <;> rfl
theorem getVel_length (p : Prp K) : p.getVel.length = p.size := by cases p <;> rfl
theorem getAcc_length (p : Prp K) : p.getAcc.length = p.size := by cases p <;> rfl
theorem getTrq_length (p : Prp K) : p.getTrq.length = p.size := by cases p <;> rfl

theorem isSetter_vel : IsSetter (K := K) Prp.setVel Prp.getVel (fun _ v => v) where
  ok p buf h := by
    cases p <;> rcases buf with _ | ⟨a, _ | ⟨b, _ | ⟨c, _ | ⟨d, _ | ⟨e, _ | ⟨f, buf⟩⟩⟩⟩⟩⟩ <;>
      first | exact ⟨_, rfl⟩ | (simp [Prp.size] at h)
  size p buf p' h := by
    cases p <;> rcases buf with _ | ⟨a, _ | ⟨b, _ | ⟨c, _ | ⟨d, _ | ⟨e, _ | ⟨f, buf⟩⟩⟩⟩⟩⟩ <;>
      simp [Prp.setVel, Vec3.ofBuf, Vec6.ofBuf] at h <;> subst h <;> rfl
  local_ p buf buf' h e := by
    cases p <;> rcases buf with _ | ⟨a, _ | ⟨b, _ | ⟨c, _ | ⟨d, _ | ⟨e, _ | ⟨f, buf⟩⟩⟩⟩⟩⟩ <;>
      simp only [Prp.size, List.length_nil, List.length_cons] at h e <;>
      (try (exfalso; omega)) <;>
      rcases buf' with _ | ⟨a, _ | ⟨b, _ | ⟨c, _ | ⟨d, _ | ⟨e', _ | ⟨f, buf'⟩⟩⟩⟩⟩⟩ <;>
      simp_all [Prp.setVel, Vec3.ofBuf, Vec6.ofBuf]
  got p buf p' h := by
    cases p <;> rcases buf with _ | ⟨a, _ | ⟨b, _ | ⟨c, _ | ⟨d, _ | ⟨e, _ | ⟨f, buf⟩⟩⟩⟩⟩⟩ <;>
      simp [Prp.setVel, Vec3.ofBuf, Vec6.ofBuf] at h <;> subst h <;>
      simp [Prp.getVel, Prp.size, Vec3.toBuf, Vec6.toBuf]

theorem isSetter_acc : IsSetter (K := K) Prp.setAcc Prp.getAcc (fun _ v => v) where
  ok p buf h := by
    cases p <;> rcases buf with _ | ⟨a, _ | ⟨b, _ | ⟨c, _ | ⟨d, _ | ⟨e, _ | ⟨f, buf⟩⟩⟩⟩⟩⟩ <;>
      first | exact ⟨_, rfl⟩ | (simp [Prp.size] at h)
  size p buf p' h := by
    cases p <;> rcases buf with _ | ⟨a, _ | ⟨b, _ | ⟨c, _ | ⟨d, _ | ⟨e, _ | ⟨f, buf⟩⟩⟩⟩⟩⟩ <;>
      simp [Prp.setAcc, Vec3.ofBuf, Vec6.ofBuf] at h <;> subst h <;> rfl
  local_ p buf buf' h e := by
    cases p <;> rcases buf with _ | ⟨a, _ | ⟨b, _ | ⟨c, _ | ⟨d, _ | ⟨e, _ | ⟨f, buf⟩⟩⟩⟩⟩⟩ <;>
      simp only [Prp.size, List.length_nil, List.length_cons] at h e <;>
      (try (exfalso; omega)) <;>
      rcases buf' with _ | ⟨a, _ | ⟨b, _ | ⟨c, _ | ⟨d, _ | ⟨e', _ | ⟨f, buf'⟩⟩⟩⟩⟩⟩ <;>
      simp_all [Prp.setAcc, Vec3.ofBuf, Vec6.ofBuf]
  got p buf p' h := by
    cases p <;> rcases buf with _ | ⟨a, _ | ⟨b, _ | ⟨c, _ | ⟨d, _ | ⟨e, _ | ⟨f, buf⟩⟩⟩⟩⟩⟩ <;>
      simp [Prp.setAcc, Vec3.ofBuf, Vec6.ofBuf] at h <;> subst h <;>
      simp [Prp.getAcc, Prp.size, Vec3.toBuf, Vec6.toBuf]

theorem isSetter_trq : IsSetter (K := K) Prp.setTrq Prp.getTrq (fun _ v => v) where
  ok p buf h := by
    cases p <;> rcases buf with _ | ⟨a, _ | ⟨b, _ | ⟨c, _ | ⟨d, _ | ⟨e, _ | ⟨f, buf⟩⟩⟩⟩⟩⟩ <;>
      first | exact ⟨_, rfl⟩ | (simp [Prp.size] at h)
  size p buf p' h := by
    cases p <;> rcases buf with _ | ⟨a, _ | ⟨b, _ | ⟨c, _ | ⟨d, _ | ⟨e, _ | ⟨f, buf⟩⟩⟩⟩⟩⟩ <;>
      simp [Prp.setTrq, Vec3.ofBuf, Vec6.ofBuf] at h <;> subst h <;> rfl
  local_ p buf buf' h e := by
    cases p <;> rcases buf with _ | ⟨a, _ | ⟨b, _ | ⟨c, _ | ⟨d, _ | ⟨e, _ | ⟨f, buf⟩⟩⟩⟩⟩⟩ <;>
      simp only [Prp.size, List.length_nil, List.length_cons] at h e <;>
      (try (exfalso; omega)) <;>
      rcases buf' with _ | ⟨a, _ | ⟨b, _ | ⟨c, _ | ⟨d, _ | ⟨e', _ | ⟨f, buf'⟩⟩⟩⟩⟩⟩ <;>
      simp_all [Prp.setTrq, Vec3.ofBuf, Vec6.ofBuf]
  got p buf p' h := by
    cases p <;> rcases buf with _ | ⟨a, _ | ⟨b, _ | ⟨c, _ | ⟨d, _ | ⟨e, _ | ⟨f, buf⟩⟩⟩⟩⟩⟩ <;>
      simp [Prp.setTrq, Vec3.ofBuf, Vec6.ofBuf] at h <;> subst h <;>
      simp [Prp.getTrq, Prp.size, Vec3.toBuf, Vec6.toBuf]

section
variable [LinearOrder K] [Zm K]
theorem isSetter_dis : IsSetter (K := K) Prp.setDis Prp.getDis
    (fun p v => (p.limDis v).getD []) where
  ok p buf h := by
    cases p <;> rcases buf with _ | ⟨a, _ | ⟨b, _ | ⟨c, _ | ⟨d, _ | ⟨e, _ | ⟨f, buf⟩⟩⟩⟩⟩⟩ <;>
      first | exact ⟨_, rfl⟩ | (simp [Prp.size] at h)
  size p buf p' h := by
    cases p <;> rcases buf with _ | ⟨a, _ | ⟨b, _ | ⟨c, _ | ⟨d, _ | ⟨e, _ | ⟨f, buf⟩⟩⟩⟩⟩⟩ <;>
      simp [Prp.setDis, Vec3.ofBuf, Vec6.ofBuf] at h <;> subst h <;> rfl
  local_ p buf buf' h e := by
    cases p <;> rcases buf with _ | ⟨a, _ | ⟨b, _ | ⟨c, _ | ⟨d, _ | ⟨e, _ | ⟨f, buf⟩⟩⟩⟩⟩⟩ <;>
      simp only [Prp.size, List.length_nil, List.length_cons] at h e <;>
      (try (exfalso; omega)) <;>
      rcases buf' with _ | ⟨a, _ | ⟨b, _ | ⟨c, _ | ⟨d, _ | ⟨e', _ | ⟨f, buf'⟩⟩⟩⟩⟩⟩ <;>
      simp_all [Prp.setDis, Vec3.ofBuf, Vec6.ofBuf]
  got p buf p' h := by
    cases p <;> rcases buf with _ | ⟨a, _ | ⟨b, _ | ⟨c, _ | ⟨d, _ | ⟨e, _ | ⟨f, buf⟩⟩⟩⟩⟩⟩ <;>
      simp [Prp.setDis, Vec3.ofBuf, Vec6.ofBuf] at h <;> subst h <;>
      simp [Prp.getDis, Prp.limDis, Prp.size, Vec3.toBuf, Vec6.toBuf, Vec3.ofBuf, Vec6.ofBuf]
end

/-! ## Indexed access -/

theorem setWith_size {set : Prp K → List K → Option (Prp K)}
    (hsize : ∀ p buf p', set p buf = some p' → p'.size = p.size) {l l' : Link K} {buf : List K}
    (h : l.setWith set buf = some l') : l'.size = l.size := by
  obtain ⟨p, hp, rfl⟩ := setWith_eq_some.1 h
  exact hsize _ _ _ hp

theorem setWith_offset {set : Prp K → List K → Option (Prp K)} {l l' : Link K} {buf : List K}
    (h : l.setWith set buf = some l') : l'.offset = l.offset := by
  obtain ⟨p, hp, rfl⟩ := setWith_eq_some.1 h
  rfl

theorem setJoint_default (set : Prp K → List K → Option (Prp K))
    (hsize : ∀ p buf p', set p buf = some p' → p'.size = p.size) (v : List K)
    (rest pre : List (Link K)) (s : ℕ) (h : OffsetsFrom s rest) :
    setJoint set (defaultJointIndexFrom pre.length rest) (v.drop s) (pre ++ rest) =
      (setJointAll set v rest).map (pre ++ ·) := by
  induction rest generalizing pre s with
  | nil => simp [defaultJointIndexFrom, setJoint, setJointAll]
  | cons l rest ih =>
    obtain ⟨h1, h2⟩ := offsetsFrom_cons.1 h
    by_cases hs : 0 < l.size
    · have ho : l.offset = (s : ℤ) := by rw [h1, offsetAt, if_pos hs]
      simp only [defaultJointIndexFrom, if_pos hs, setJoint, setJointAll, Link.setAtOffset, ho,
        Int.natCast_nonneg, if_true, Int.toNat_natCast, List.getElem?_append_right (le_refl _),
        Nat.sub_self, List.getElem?_cons_zero, Option.bind_eq_bind, Option.bind_some]
      cases hw : l.setWith set (v.drop s) with
      | none => simp
      | some l' =>
        simp only [Option.bind_some]
        rw [setWith_size hsize hw]
        have := ih (pre ++ [l']) (s + l.size) h2
        simp only [List.length_append, List.length_singleton, List.append_assoc,
          List.singleton_append] at this
        simp only [List.set_append_right _ _ (le_refl _), Nat.sub_self, List.set_cons_zero,
          List.drop_drop]
        rw [this]
        cases setJointAll set v rest <;> simp
    · have ho : l.offset = -1 := by rw [h1, offsetAt, if_neg hs]
      have hz : l.size = 0 := by omega
      simp only [defaultJointIndexFrom, if_neg hs, setJointAll, Link.setAtOffset, ho]
      have := ih (pre ++ [l]) s (by simpa [hz] using h2)
      simp only [List.length_append, List.length_singleton, List.append_assoc,
          List.singleton_append] at this
      rw [this]
      cases setJointAll set v rest <;> simp

theorem setJointRate_default (vel acc : List K)
    (rest pre : List (Link K)) (s : ℕ) (h : OffsetsFrom s rest) :
    setJointRate (defaultJointIndexFrom pre.length rest) (vel.drop s) (acc.drop s) (pre ++ rest) =
      (setJointRateAll vel acc rest).map (pre ++ ·) := by
  induction rest generalizing pre s with
  | nil => simp [defaultJointIndexFrom, setJointRate, setJointRateAll]
  | cons l rest ih =>
    obtain ⟨h1, h2⟩ := offsetsFrom_cons.1 h
    by_cases hs : 0 < l.size
    · have ho : l.offset = (s : ℤ) := by rw [h1, offsetAt, if_pos hs]
      simp only [defaultJointIndexFrom, if_pos hs, setJointRate, setJointRateAll, Link.setAtOffset,
        ho, Int.natCast_nonneg, if_true, Int.toNat_natCast, List.getElem?_append_right (le_refl _),
        Nat.sub_self, List.getElem?_cons_zero, Option.bind_eq_bind, Option.bind_some]
      cases hw : l.setWith Prp.setVel (vel.drop s) with
      | none => simp
      | some l' =>
        simp only [Option.bind_some, setWith_offset hw, ho, Int.natCast_nonneg, if_true,
          Int.toNat_natCast]
        cases hw' : l'.setWith Prp.setAcc (acc.drop s) with
        | none => simp
        | some l'' =>
        simp only [Option.bind_some]
        rw [setWith_size isSetter_acc.size hw', setWith_size isSetter_vel.size hw]
        have := ih (pre ++ [l'']) (s + l.size) h2
        simp only [List.length_append, List.length_singleton, List.append_assoc,
          List.singleton_append] at this
        simp only [List.set_append_right _ _ (le_refl _), Nat.sub_self, List.set_cons_zero,
          List.drop_drop]
        rw [this]
        cases setJointRateAll vel acc rest <;> simp
    · have ho : l.offset = -1 := by rw [h1, offsetAt, if_neg hs]
      have hz : l.size = 0 := by omega
      simp only [defaultJointIndexFrom, if_neg hs, setJointRateAll, Link.setAtOffset, ho]
      have := ih (pre ++ [l]) s (by simpa [hz] using h2)
      simp only [List.length_append, List.length_singleton, List.append_assoc,
          List.singleton_append] at this
      rw [this]
      simp only [Int.reduceNeg, Int.reduceLE, if_false, ho, Option.bind_eq_bind, Option.bind_some]
      cases setJointRateAll vel acc rest <;> simp

theorem getJoint_default (get : Prp K → List K) (rest pre : List (Link K)) (s : ℕ)
    (h : OffsetsFrom s rest) (buf : List K) :
    getJoint get (pre ++ rest) (defaultJointIndexFrom pre.length rest) s buf =
      getJointAll get rest buf := by
  induction rest generalizing pre s buf with
  | nil => simp [defaultJointIndexFrom, getJoint, getJointAll]
  | cons l rest ih =>
    obtain ⟨h1, h2⟩ := offsetsFrom_cons.1 h
    have ih' := ih (pre ++ [l]) (s + l.size) h2
    simp only [List.length_append, List.length_singleton, List.append_assoc,
          List.singleton_append] at ih'
    by_cases hs : 0 < l.size
    · have ho : l.offset = (s : ℤ) := by rw [h1, offsetAt, if_pos hs]
      simp only [defaultJointIndexFrom, if_pos hs, getJoint, getJointAll, ho,
        Int.natCast_nonneg, if_true, Int.toNat_natCast, List.getElem?_append_right (le_refl _),
        Nat.sub_self, List.getElem?_cons_zero, Option.bind_eq_bind, Option.bind_some]
      cases writeAt buf s (get l.joint.prp) with
      | none => simp
      | some b => simp only [Option.bind_some]; exact ih' b
    · have ho : l.offset = -1 := by rw [h1, offsetAt, if_neg hs]
      have hz : l.size = 0 := by omega
      simp only [defaultJointIndexFrom, if_neg hs, getJointAll, ho]
      rw [hz] at ih'
      simpa using ih' buf

theorem jointIndexSize_default (rest pre : List (Link K)) :
    jointIndexSize (pre ++ rest) (defaultJointIndexFrom pre.length rest) = some (sizes rest) := by
  induction rest generalizing pre with
  | nil => simp [defaultJointIndexFrom, jointIndexSize]
  | cons l rest ih =>
    have ih' := ih (pre ++ [l])
    simp only [List.length_append, List.length_singleton, List.append_assoc,
          List.singleton_append] at ih'
    by_cases hs : 0 < l.size
    · simp [defaultJointIndexFrom, if_pos hs, jointIndexSize, ih']
    · have hz : l.size = 0 := by omega
      simp [defaultJointIndexFrom, ih', hz]

theorem mem_defaultJointIndexFrom (ls : List (Link K)) (n i : ℕ) :
    i ∈ defaultJointIndexFrom n ls ↔ ∃ l, n ≤ i ∧ ls[i - n]? = some l ∧ 0 < l.size := by
  induction ls generalizing n with
  | nil => simp [defaultJointIndexFrom]
  | cons l ls ih =>
    by_cases hi : i = n
    · subst hi
      simp only [defaultJointIndexFrom]
      split_ifs with hs
      · simp [hs]
      · rw [ih]
        constructor
        · rintro ⟨l, h, _⟩; omega
        · rintro ⟨l', _, h, h'⟩
          simp at h; subst h; exact absurd h' hs
    · have key : i ∈ defaultJointIndexFrom n (l :: ls) ↔ i ∈ defaultJointIndexFrom (n + 1) ls := by
        simp only [defaultJointIndexFrom]
        split_ifs <;> simp [hi]
      rw [key, ih]
      constructor
      · rintro ⟨l', h1, h2, h3⟩
        refine ⟨l', by omega, ?_, h3⟩
        rw [show i - n = (i - (n + 1)) + 1 by omega]
        simpa using h2
      · rintro ⟨l', h1, h2, h3⟩
        refine ⟨l', by omega, ?_, h3⟩
        rw [show i - n = (i - (n + 1)) + 1 by omega] at h2
        simpa using h2

theorem defaultJointIndexFrom_sorted (ls : List (Link K)) (n : ℕ) :
    (defaultJointIndexFrom n ls).Pairwise (· < ·) := by
  induction ls generalizing n with
  | nil => simp [defaultJointIndexFrom]
  | cons l ls ih =>
    simp only [defaultJointIndexFrom]
    split_ifs
    · refine List.pairwise_cons.2 ⟨fun i hi => ?_, ih _⟩
      obtain ⟨_, h, _⟩ := (mem_defaultJointIndexFrom _ _ _).1 hi
      omega
    · exact ih _

theorem setJoint_frame (set : Prp K → List K → Option (Prp K)) (idx : List ℕ) (buf : List K)
    (ls ls' : List (Link K)) (h : setJoint set idx buf ls = some ls') (i : ℕ) (hi : i ∉ idx) :
    ls'[i]? = ls[i]? := by
  induction idx generalizing buf ls with
  | nil => simp only [setJoint, Option.some.injEq] at h; rw [h]
  | cons j idx ih =>
    simp only [List.mem_cons, not_or] at hi
    simp only [setJoint, Option.bind_eq_bind, Option.bind_eq_some_iff] at h
    obtain ⟨l, _, l', _, h⟩ := h
    rw [ih _ _ h hi.2, List.getElem?_set_ne (Ne.symm hi.1)]

theorem setJointRate_frame (idx : List ℕ) (vp ap : List K)
    (ls ls' : List (Link K)) (h : setJointRate idx vp ap ls = some ls') (i : ℕ) (hi : i ∉ idx) :
    ls'[i]? = ls[i]? := by
  induction idx generalizing vp ap ls with
  | nil => simp only [setJointRate, Option.some.injEq] at h; rw [h]
  | cons j idx ih =>
    simp only [List.mem_cons, not_or] at hi
    simp only [setJointRate, Option.bind_eq_bind, Option.bind_eq_some_iff] at h
    obtain ⟨l, _, l', _, l'', _, h⟩ := h
    rw [ih _ _ _ h hi.2, List.getElem?_set_ne (Ne.symm hi.1)]

/-- Set a whole vector, read it back. -/
theorem set_get_all {set : Prp K → List K → Option (Prp K)} {get : Prp K → List K}
    (hset : IsSetter set get (fun _ v => v)) (hget : ∀ p : Prp K, (get p).length = p.size)
    (ls : List (Link K)) (v buf : List K) (ho : setOffset ls = ls)
    (hv : v.length = jointSize ls) (hb : buf.length = jointSize ls) :
    ∃ ls', setJointAll set v ls = some ls' ∧ setOffset ls' = ls' ∧
      getJointAll get ls' buf = some v := by
  rw [jointSize_eq] at hv hb
  obtain ⟨ls', e, o, z, n, g⟩ := setJointAll_from hset
    (fun p h => ⟨List.length_eq_zero_iff.1 (by rw [hget, h]), rfl⟩) ls 0 ho v (by omega)
  refine ⟨ls', e, o, ?_⟩
  rw [getJointAll_eq get hget ls' o buf (by rw [jointSize_eq, z, hb]), g,
    slicesFrom_id v ls 0 (by omega)]
  simp [← hv]

theorem setJointRateAll_eq (v a : List K) (ls : List (Link K)) :
    setJointRateAll v a ls = (setJointAll Prp.setVel v ls).bind (setJointAll Prp.setAcc a) := by
  induction ls with
  | nil => rfl
  | cons l ls ih =>
    simp only [setJointRateAll, setJointAll, Option.bind_eq_bind, ih, Option.bind_assoc]
    cases l.setAtOffset Prp.setVel v with
    | none => rfl
    | some l' =>
      simp only [Option.bind_some]
      cases h1 : setJointAll Prp.setVel v ls with
      | none => cases h2 : l'.setAtOffset Prp.setAcc a <;> simp
      | some ls' => simp [setJointAll]

theorem setAcc_getVel (p p' : Prp K) (buf : List K) (h : p.setAcc buf = some p') :
    p'.getVel = p.getVel := by
  cases p <;> rcases buf with _ | ⟨a, _ | ⟨b, _ | ⟨c, _ | ⟨d, _ | ⟨e, _ | ⟨f, buf⟩⟩⟩⟩⟩⟩ <;>
    simp [Prp.setAcc, Vec3.ofBuf, Vec6.ofBuf] at h <;> subst h <;> rfl

theorem setJointAll_map {set : Prp K → List K → Option (Prp K)} {α : Type*} (get : Prp K → α)
    (h : ∀ p buf p', set p buf = some p' → get p' = get p) (v : List K) (ls ls' : List (Link K))
    (e : setJointAll set v ls = some ls') :
    (ls'.map fun l => get l.joint.prp) = ls.map fun l => get l.joint.prp := by
  induction ls generalizing ls' with
  | nil => simp only [setJointAll, Option.some.injEq] at e; rw [← e]
  | cons l ls ih =>
    simp only [setJointAll, Option.bind_eq_bind, Option.bind_eq_some_iff, Option.pure_def,
      Option.some.injEq] at e
    obtain ⟨l', h1, ls1, h2, rfl⟩ := e
    simp only [List.map_cons, ih _ h2, List.cons.injEq, and_true]
    simp only [Link.setAtOffset] at h1
    split_ifs at h1
    · obtain ⟨p, hp, rfl⟩ := setWith_eq_some.1 h1
      exact h _ _ _ hp
    · simp only [Option.some.injEq] at h1; rw [h1]

end LinkArray
end Roki
