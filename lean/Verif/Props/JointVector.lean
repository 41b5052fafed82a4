import Verif.Lemmas.Index
import Verif.Lemmas.ZmReal
import Verif.Spec.Samples

/-!
# C01, C02, C03: the joint vector of a chain
-/

namespace Roki
variable {K : Type*}
open LinkArray

/-! ## Specification -/

namespace Spec
/-- The component of the joint vector with number `k` belongs to link `i`. -/
def Owns (ls : List (Link K)) (i k : ℕ) : Prop :=
  ∃ l, ls[i]? = some l ∧ 0 < l.joint.prp.size ∧ l.offset ≤ k ∧ (k : ℤ) < l.offset + l.joint.prp.size

/-- The components of a joint vector that belong to a link. -/
def slice (v : List K) (l : Link K) : List K := (v.drop l.offset.toNat).take l.joint.prp.size
end Spec

/-! ## C01 -/

/-- **C01** Joint offsets tile the joint vector.  After `rkChainSetOffset`:
* the joint size of the chain is the sum of the joint sizes;
* the links are the same apart from the offset;
* a joint of size zero has offset -1;
* the slice of a movable joint lies inside the joint vector;
* slices are in link order without overlap;
* every component of the joint vector belongs to exactly one link. -/
theorem C01_offsets_tile (ls : List (Link K)) :
    jointSize ls = (ls.map fun l => l.joint.prp.size).sum ∧
    jointSize (setOffset ls) = jointSize ls ∧
    (setOffset ls).map (fun l : Link K => { l with offset := 0 }) = ls.map (fun l : Link K => { l with offset := 0 }) ∧
    (∀ l ∈ setOffset ls, l.joint.prp.size = 0 → l.offset = -1) ∧
    (∀ l ∈ setOffset ls, 0 < l.joint.prp.size →
      0 ≤ l.offset ∧ l.offset + l.joint.prp.size ≤ jointSize ls) ∧
    (∀ (i j : ℕ) (l m : Link K), i < j → (setOffset ls)[i]? = some l → (setOffset ls)[j]? = some m →
      0 < l.joint.prp.size → 0 < m.joint.prp.size → l.offset + l.joint.prp.size ≤ m.offset) ∧
    (∀ k < jointSize ls, ∃! i, Spec.Owns (setOffset ls) i k) := by
  have getE : ∀ i, (setOffset ls)[i]? =
      ls[i]?.map fun l : Link K => { l with offset := offsetAt l (sizes (ls.take i)) } := by
    intro i; simpa [setOffset] using setOffsetFrom_getElem? 0 ls i
  have splitE : ∀ i l, ls[i]? = some l → sizes (ls.take (i + 1)) = sizes (ls.take i) + l.size := by
    intro i l h
    rw [List.take_succ, h]; simp
  have mono : ∀ i j, i ≤ j → sizes (ls.take i) ≤ sizes (ls.take j) := by
    intro i j hij
    have : ls.take j = ls.take i ++ (ls.take j).drop i := by
      conv_lhs => rw [← List.take_append_drop i (ls.take j)]
      rw [List.take_take, Nat.min_eq_left hij]
    rw [this, sizes_append]; omega
  have total : ∀ i, sizes (ls.take i) ≤ sizes ls := by
    intro i
    have : sizes (ls.take i ++ ls.drop i) = sizes ls := by rw [List.take_append_drop]
    rw [sizes_append] at this; omega
  refine ⟨jointSize_eq ls, ?_, ?_, ?_, ?_, ?_, ?_⟩
  · rw [jointSize_eq, jointSize_eq]; exact sizes_setOffsetFrom 0 ls
  · apply List.ext_getElem?
    intro i
    simp only [List.getElem?_map, getE]
    cases ls[i]? <;> simp
  · intro l hl h0
    obtain ⟨i, hi⟩ := List.mem_iff_getElem?.1 hl
    rw [getE] at hi
    obtain ⟨m, hm, rfl⟩ := Option.map_eq_some_iff.1 hi
    have : ¬ 0 < m.size := by simp only [Link.size] at *; omega
    simp [offsetAt, this]
  · intro l hl h0
    obtain ⟨i, hi⟩ := List.mem_iff_getElem?.1 hl
    rw [getE] at hi
    obtain ⟨m, hm, rfl⟩ := Option.map_eq_some_iff.1 hi
    have hs : 0 < m.size := h0
    simp only [offsetAt, if_pos hs]
    have := splitE i m hm
    have := total (i + 1)
    rw [jointSize_eq]
    simp only [Link.size] at *
    omega
  · intro i j l m hij hl hm h1 h2
    rw [getE] at hl hm
    obtain ⟨l0, hl0, rfl⟩ := Option.map_eq_some_iff.1 hl
    obtain ⟨m0, hm0, rfl⟩ := Option.map_eq_some_iff.1 hm
    have hs1 : 0 < l0.size := h1
    have hs2 : 0 < m0.size := h2
    simp only [offsetAt, if_pos hs1, if_pos hs2]
    have := splitE i l0 hl0
    have := mono (i + 1) j hij
    simp only [Link.size] at *
    omega
  · intro k hk
    rw [jointSize_eq] at hk
    have ex : ∃ i l, ls[i]? = some l ∧ sizes (ls.take i) ≤ k ∧ k < sizes (ls.take i) + l.size := by
      clear getE splitE mono total
      induction ls generalizing k with
      | nil => simp at hk
      | cons l ls ih =>
        simp only [sizes_cons] at hk
        by_cases h : k < l.size
        · exact ⟨0, l, rfl, by simp, by simpa using h⟩
        · obtain ⟨i, m, h1, h2, h3⟩ := ih (k - l.size) (by omega)
          refine ⟨i + 1, m, by simpa using h1, ?_, ?_⟩ <;> simp <;> omega
    obtain ⟨i, l, h1, h2, h3⟩ := ex
    have hs : 0 < l.size := by omega
    refine ⟨i, ⟨{ l with offset := offsetAt l (sizes (ls.take i)) }, ?_, hs, ?_, ?_⟩, ?_⟩
    · rw [getE, h1]; rfl
    · simp only [offsetAt, if_pos hs]; omega
    · simp only [offsetAt, if_pos hs]; simp only [Link.size] at *; omega
    · rintro j ⟨m, hm, hms, ho1, ho2⟩
      rw [getE] at hm
      obtain ⟨m0, hm0, rfl⟩ := Option.map_eq_some_iff.1 hm
      have hs2 : 0 < m0.size := hms
      simp only [offsetAt, if_pos hs2] at ho1 ho2
      by_contra hne
      rcases Nat.lt_or_gt_of_ne hne with hlt | hgt
      · have := splitE j m0 hm0
        have := mono (j + 1) i hlt
        simp only [Link.size] at *
        omega
      · have := splitE i l h1
        have := mono (i + 1) j hgt
        simp only [Link.size] at *
        omega

/-- A chain of four links: floating, fixed, revolute, hooke. -/
example : (setOffset (Sample.links (K := ℚ))).map (·.offset) = [0, -1, 6, 7] ∧
    jointSize (Sample.links (K := ℚ)) = 9 := by
  constructor <;> rfl

/-! ## C02 -/

/-- **C02** (velocity) Setting the whole velocity vector and reading it back gives the vector. -/
theorem C02_vel_roundtrip (ls : List (Link K)) (v buf : List K) (ho : setOffset ls = ls)
    (hv : v.length = jointSize ls) (hb : buf.length = jointSize ls) :
    ∃ ls', setJointAll Prp.setVel v ls = some ls' ∧ getJointAll Prp.getVel ls' buf = some v := by
  obtain ⟨ls', h1, _, h2⟩ := set_get_all isSetter_vel getVel_length ls v buf ho hv hb
  exact ⟨ls', h1, h2⟩

/-- **C02** (velocity and acceleration) `rkChainSetJointRateAll` stores both vectors. -/
theorem C02_rate_roundtrip (ls : List (Link K)) (v a buf : List K) (ho : setOffset ls = ls)
    (hv : v.length = jointSize ls) (ha : a.length = jointSize ls) (hb : buf.length = jointSize ls) :
    ∃ ls', setJointRateAll v a ls = some ls' ∧ getJointAll Prp.getVel ls' buf = some v ∧
      getJointAll Prp.getAcc ls' buf = some a := by
  obtain ⟨l1, h1, o1, g1⟩ := set_get_all isSetter_vel getVel_length ls v buf ho hv hb
  have hz : jointSize l1 = jointSize ls := by
    have := setJointAll_map Prp.size isSetter_vel.size v ls l1 h1
    rw [jointSize_eq, jointSize_eq]; exact congrArg List.sum this
  obtain ⟨l2, h2, o2, g2⟩ := set_get_all isSetter_acc getAcc_length l1 a buf o1
    (by rw [hz, ha]) (by rw [hz, hb])
  have hz2 : jointSize l2 = jointSize l1 := by
    have := setJointAll_map Prp.size isSetter_acc.size a l1 l2 h2
    rw [jointSize_eq, jointSize_eq]; exact congrArg List.sum this
  refine ⟨l2, by rw [setJointRateAll_eq, h1]; exact h2, ?_, g2⟩
  rw [getJointAll_eq _ getVel_length l2 o2 buf (by rw [hz2, hz, hb]),
    setJointAll_map Prp.getVel (fun p b p' => setAcc_getVel p p' b) a l1 l2 h2,
    ← getJointAll_eq _ getVel_length l1 o1 buf (by rw [hz, hb]), g1]

/-- **C02** (displacement) Setting the whole displacement vector and reading it back gives, in the
slice of every movable joint, the limited value of that joint for that slice. -/
theorem C02_dis_roundtrip [LinearOrder K] [Zm K] (ls : List (Link K)) (v buf : List K)
    (ho : setOffset ls = ls) (hv : v.length = jointSize ls) (hb : buf.length = jointSize ls) :
    ∃ ls' w, setJointAll Prp.setDis v ls = some ls' ∧ getJointAll Prp.getDis ls' buf = some w ∧
      w.length = jointSize ls ∧
      ∀ l ∈ ls, 0 < l.joint.prp.size →
        l.joint.prp.limDis (Spec.slice v l) = some (Spec.slice w l) := by
  rw [jointSize_eq] at hv
  obtain ⟨ls', e, o, z, n, g⟩ := setJointAll_from isSetter_dis
    (fun p h => by cases p <;> simp_all [Prp.size, Prp.getDis, Prp.limDis]) ls 0 ho v (by omega)
  have hz : jointSize ls' = jointSize ls := by rw [jointSize_eq, jointSize_eq, z]
  refine ⟨ls', _, e, getJointAll_eq _ getDis_length ls' o buf (by rw [hb, hz]), ?_, ?_⟩
  · rw [List.length_flatten, List.map_map, jointSize_eq, ← z]
    simp [sizes, Function.comp_def, getDis_length]
  · intro l hl hs
    obtain ⟨i, hi⟩ := List.mem_iff_getElem?.1 hl
    have hslice : (Spec.slice v l).length = l.joint.prp.size := by
      obtain ⟨_, _, _, _, h5, _⟩ := C01_offsets_tile ls
      have := h5 l (by rw [ho]; exact hl) hs
      rw [jointSize_eq, ← hv] at this
      simp only [Spec.slice, List.length_take, List.length_drop]
      omega
    have hlim : ∃ x, l.joint.prp.limDis (Spec.slice v l) = some x ∧
        x.length = l.joint.prp.size := by
      generalize Spec.slice v l = u at hslice
      revert hslice
      cases l.joint.prp <;> intro hslice <;>
        rcases u with _ | ⟨a, _ | ⟨b, _ | ⟨c, _ | ⟨d, _ | ⟨e, _ | ⟨f, u⟩⟩⟩⟩⟩⟩ <;>
        simp [Prp.size] at hslice <;> exact ⟨_, rfl, rfl⟩
    obtain ⟨x, hx, hxl⟩ := hlim
    rw [hx]
    congr 1
    have hsl := slicesFrom_getElem? (fun p v => (p.limDis v).getD []) v 0 ls ho i l hi hs
    rw [g]
    have := slice_flatten ls 0 ho _ (slicesFrom_length _ v 0 ls)
      (fun j m y hj hy => by
        rw [← g] at hy
        rw [List.getElem?_map] at hy
        obtain ⟨m', hm', rfl⟩ := Option.map_eq_some_iff.1 hy
        rw [getDis_length]
        have := setJointAll_map Prp.size isSetter_dis.size v ls ls' e
        have := congrArg (fun t => t[j]?) this
        simp only [List.getElem?_map, hm', hj, Option.map_some, Option.some.injEq] at this
        exact this)
      [] rfl i l hi hs _ hsl
    simp only [List.nil_append] at this
    simp only [Spec.slice] at hx ⊢
    simp only [Link.size] at this
    rw [this, hx]; rfl

/-- **C02** (torque, and any other vector) `rkChainGetJoint*All` gives in the slice of every movable
joint what that joint holds. -/
theorem C02_get_slices (ls : List (Link K)) (buf : List K) (ho : setOffset ls = ls)
    (hb : buf.length = jointSize ls) :
    ∀ get ∈ [Prp.getDis, Prp.getVel, Prp.getAcc, Prp.getTrq],
      ∃ w, getJointAll get ls buf = some w ∧ w.length = jointSize ls ∧
        ∀ l ∈ ls, 0 < l.joint.prp.size → Spec.slice w l = get l.joint.prp := by
  intro get hg
  have hlen : ∀ p : Prp K, (get p).length = p.size := by
    simp only [List.mem_cons, List.not_mem_nil, or_false] at hg
    rcases hg with rfl | rfl | rfl | rfl
    exacts [getDis_length, getVel_length, getAcc_length, getTrq_length]
  refine ⟨_, getJointAll_eq get hlen ls ho buf hb, ?_, ?_⟩
  · rw [List.length_flatten, List.map_map, jointSize_eq]
    simp [sizes, Function.comp_def, hlen]
  · intro l hl hs
    obtain ⟨i, hi⟩ := List.mem_iff_getElem?.1 hl
    have := slice_flatten ls 0 ho (ls.map fun l => get l.joint.prp) (by simp)
      (fun j m y hj hy => by
        rw [List.getElem?_map, hj] at hy
        simp only [Option.map_some, Option.some.injEq] at hy
        rw [← hy, hlen]) [] rfl i l hi hs _ (by rw [List.getElem?_map, hi]; rfl)
    simpa [Spec.slice] using this

/-- The hypotheses are met by the sample chain and non-trivial vectors; the read-back is the vector
that was set. -/
example : ∃ ls', setJointAll Prp.setVel [1, 2, 3, 4, 5, 6, 7, 8, 9] (setOffset (Sample.links (K := ℚ)))
    = some ls' ∧ getJointAll Prp.getVel ls' (List.replicate 9 0) = some [1, 2, 3, 4, 5, 6, 7, 8, 9] :=
  C02_vel_roundtrip _ _ _ rfl rfl rfl

example : ∃ ls' w, setJointAll Prp.setDis [1, 2, 3, 4, 5, 6, 7, 8, 9] (setOffset (Sample.links (K := ℝ)))
    = some ls' ∧ getJointAll Prp.getDis ls' (List.replicate 9 0) = some w ∧
    w.length = jointSize (setOffset (Sample.links (K := ℝ))) ∧
    ∀ l ∈ setOffset (Sample.links (K := ℝ)), 0 < l.joint.prp.size →
      l.joint.prp.limDis (Spec.slice [1, 2, 3, 4, 5, 6, 7, 8, 9] l) = some (Spec.slice w l) :=
  C02_dis_roundtrip _ _ _ rfl rfl rfl

/-! ## C03 -/

/-- **C03** The default joint index lists exactly the links with a movable joint, in increasing
order, and its joint size is the joint size of the chain. -/
theorem C03_default_index (ls : List (Link K)) :
    (∀ i, i ∈ createDefaultJointIndex ls ↔ ∃ l, ls[i]? = some l ∧ 0 < l.joint.prp.size) ∧
    (createDefaultJointIndex ls).Pairwise (· < ·) ∧
    jointIndexSize ls (createDefaultJointIndex ls) = some (jointSize ls) := by
  refine ⟨fun i => ?_, defaultJointIndexFrom_sorted ls 0, ?_⟩
  · simp only [createDefaultJointIndex, mem_defaultJointIndexFrom]; simp
  · rw [jointSize_eq]; exact jointIndexSize_default ls []

/-- **C03** Setting and getting through the default index is the same as setting and getting the
whole vector, for displacement, continuous displacement, velocity, velocity with acceleration. -/
theorem C03_default_index_access [Field K] [LinearOrder K] [Zm K] (ls : List (Link K))
    (ho : setOffset ls = ls) (v a buf : List K) (dt : K) :
    setJoint Prp.setDis (createDefaultJointIndex ls) v ls = setJointAll Prp.setDis v ls ∧
    setJoint (fun p b => p.setDisCNT b dt) (createDefaultJointIndex ls) v ls =
      setJointAll (fun p b => p.setDisCNT b dt) v ls ∧
    setJoint Prp.setVel (createDefaultJointIndex ls) v ls = setJointAll Prp.setVel v ls ∧
    setJointRate (createDefaultJointIndex ls) v a ls = setJointRateAll v a ls ∧
    getJoint Prp.getDis ls (createDefaultJointIndex ls) 0 buf = getJointAll Prp.getDis ls buf ∧
    getJoint Prp.getVel ls (createDefaultJointIndex ls) 0 buf = getJointAll Prp.getVel ls buf ∧
    getJoint Prp.getAcc ls (createDefaultJointIndex ls) 0 buf = getJointAll Prp.getAcc ls buf := by
  have key : ∀ set : Prp K → List K → Option (Prp K),
      (∀ p buf p', set p buf = some p' → p'.size = p.size) →
      setJoint set (createDefaultJointIndex ls) v ls = setJointAll set v ls := by
    intro set hs
    have := setJoint_default set hs v ls [] 0 ho
    simpa [createDefaultJointIndex] using this
  refine ⟨key _ isSetter_dis.size, key _ ?_, key _ isSetter_vel.size, ?_, ?_, ?_, ?_⟩
  · intro p buf p' h
    cases p <;> rcases buf with _ | ⟨a, _ | ⟨b, _ | ⟨c, _ | ⟨d, _ | ⟨e, _ | ⟨f, buf⟩⟩⟩⟩⟩⟩ <;>
      simp [Prp.setDisCNT, Vec3.ofBuf, Vec6.ofBuf] at h <;> subst h <;> rfl
  · have := setJointRate_default v a ls [] 0 ho
    simpa [createDefaultJointIndex] using this
  all_goals exact getJoint_default _ ls [] 0 ho buf

/-- **C03** Setting through any index leaves the links that are not listed unchanged. -/
theorem C03_unlisted_unchanged [Field K] [LinearOrder K] [Zm K] (ls ls' : List (Link K))
    (idx : List ℕ) (v a : List K) (dt : K)
    (h : setJoint Prp.setDis idx v ls = some ls' ∨
      setJoint (fun p b => p.setDisCNT b dt) idx v ls = some ls' ∨
      setJoint Prp.setVel idx v ls = some ls' ∨ setJointRate idx v a ls = some ls')
    (i : ℕ) (hi : i ∉ idx) : ls'[i]? = ls[i]? := by
  rcases h with h | h | h | h
  · exact setJoint_frame _ _ _ _ _ h i hi
  · exact setJoint_frame _ _ _ _ _ h i hi
  · exact setJoint_frame _ _ _ _ _ h i hi
  · exact setJointRate_frame _ _ _ _ _ h i hi

example : createDefaultJointIndex (Sample.links (K := ℚ)) = [0, 2, 3] := rfl

example : ∃ ls', setJoint Prp.setVel [3, 2] [1, 2, 3] (Sample.links (K := ℚ)) = some ls' ∧
    ls'[1]? = (Sample.links (K := ℚ))[1]? := ⟨_, rfl, rfl⟩
end Roki
