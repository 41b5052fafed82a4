import Verif.Model.RkMP
import Verif.Props.Mass
import Verif.Props.FK
import Verif.Lemmas.ZmRat
set_option autoImplicit false

/-!
# C51: the tool `rk_mp`
-/

namespace Roki
open Spec RkMP
variable {K : Type*} [Field K]

namespace Spec

/-- Mass properties of a link in world coordinates. -/
def worldMP (l : Link K) : MP K := ⟨mass l, comPos l, worldInertia l⟩

/-- `mp` are the mass properties of the union of the bodies: total mass, mass-weighted mean of the centers of mass, and
the sum of the inertia tensors about the common center of mass. -/
def IsUnion (mps : List (MP K)) (mp : MP K) : Prop :=
  mp.mass = (mps.map (·.mass)).sum ∧ mp.mass • mp.com = (mps.map fun x => x.mass • x.com).sum ∧
    mp.inertia = (mps.map fun x => inertiaAbout x mp.com).sum

/-- A typed token that is a number and not negative. -/
def isID (i : Option ℤ) : Bool := decide (0 ≤ i.getD (-1))

/-- The numbers typed before the first that is negative or not a number. -/
def typed (input : List (Option ℤ)) : List ℕ :=
  (input.takeWhile isID).filterMap fun i => i.map Int.toNat

end Spec

namespace RkMP

theorem readIDs_eq (input : List (Option ℤ)) : readIDs input = typed input := by
  induction input with
  | nil => rfl
  | cons i rest ih =>
    cases i with
    | none => rfl
    | some i =>
      by_cases h : i < 0
      · rw [readIDs, if_pos h, typed, List.takeWhile_cons_of_neg (by simpa [isID] using h)]; rfl
      · rw [readIDs, if_neg h, typed, List.takeWhile_cons_of_pos (by simpa [isID] using h), ih]; rfl

theorem shift_eq (I : Mat3 K) (m : K) (s : Vec3 K) : RkMP.shiftInertia I m s = MP.shiftInertia I m s := rfl

theorem calcLoop_eq (c : Chain K) (hc : ∀ l ∈ c.link, l.body.wldCOM = comPos l) (index : List ℕ) (ls : List (Link K))
    (h : index.map (fun i => c.link[i]?) = ls.map some) (mp : MP K) :
    calcLoop c index mp = some ⟨mp.mass + (ls.map mass).sum, mp.com + (ls.map fun l => mass l • comPos l).sum,
      mp.inertia + (ls.map fun l => inertiaAbout (worldMP l) 0).sum⟩ := by
  induction index generalizing ls mp with
  | nil =>
    cases ls with
    | nil => simp [calcLoop]
    | cons => simp at h
  | cons i index ih =>
    cases ls with
    | nil => simp at h
    | cons l ls =>
      simp only [List.map_cons, List.cons.injEq] at h
      rw [calcLoop, h.1, Option.bind_some, ih ls h.2]
      have hw := hc l (List.mem_iff_getElem?.2 ⟨i, h.1⟩)
      have hi : catInertia l.body.mp.inertia l.body.frame.att l.body.mp.mass l.body.wldCOM mp.inertia =
          mp.inertia + inertiaAbout (worldMP l) 0 := by
        rw [catInertia, shift_eq, shiftInertia_eq, hw]
        simp only [inertiaAbout, worldMP, sub_zero]; rfl
      rw [hi, hw]
      simp only [cat, List.map_cons, List.sum_cons, add_assoc]
      rfl

theorem inertia_shift (mps : List (MP K)) (g : Vec3 K) :
    (mps.map fun x => inertiaAbout x g).sum = (mps.map fun x => inertiaAbout x 0).sum
      - (((2 : K) * dot ((mps.map fun x => x.mass • x.com).sum) g) • (1 : Mat3 K)
        - Mat3.dyad ((mps.map fun x => x.mass • x.com).sum) g - Mat3.dyad g ((mps.map fun x => x.mass • x.com).sum))
      + (mps.map (·.mass)).sum • (dot g g • (1 : Mat3 K) - Mat3.dyad g g) := by
  induction mps with
  | nil => simp only [List.map_nil, List.sum_nil]; vec_ring
  | cons a mps ih =>
    simp only [List.map_cons, List.sum_cons, ih]
    generalize (mps.map fun x => x.mass • x.com).sum = P
    generalize (mps.map (·.mass)).sum = M
    generalize (mps.map fun x => inertiaAbout x 0).sum = S
    simp only [inertiaAbout]
    vec_ring

end RkMP

/-- C51: `rk_mp` gives the mass properties of the union of the selected links, if the numbers typed are numbers of links
and the total mass is not tiny.  A link that is selected again counts again, see `C51_twice_fails`. -/
theorem C51_union_partial [Zm K] (c : Chain K) (hc : ∀ l ∈ c.link, l.body.wldCOM = comPos l) (input : List (Option ℤ))
    (ls : List (Link K)) (h : (typed input).map (fun i => c.link[i]?) = ls.map some) (h0 : ls ≠ [])
    (ht : Zm.tiny (ls.map mass).sum = false) (hm : (ls.map mass).sum ≠ 0) :
    ∃ mp, RkMP.main c input = some (some mp) ∧ IsUnion (ls.map worldMP) mp := by
  have e := calcLoop_eq c hc _ ls h ⟨0, 0, 0⟩
  simp only [zero_add] at e
  have hl : linkList input = some (typed input) := by
    rw [linkList, readIDs_eq]
    cases hty : typed input with
    | nil => rw [hty] at h; exact absurd (List.map_eq_nil_iff.1 h.symm) h0
    | cons => rfl
  set M := (ls.map mass).sum with hM
  set P := (ls.map fun l => mass l • comPos l).sum with hP
  refine ⟨⟨M, M⁻¹ • P, RkMP.shiftInertia ((ls.map fun l => inertiaAbout (worldMP l) 0).sum) (-M) (-(M⁻¹ • P))⟩,
    by simp [RkMP.main, hl, RkMP.calcMP, e, ht], ?_, ?_, ?_⟩
  · simp [hM, worldMP, Function.comp_def]
  · simp [hP, worldMP, Function.comp_def, smul_smul, mul_inv_cancel₀ hm]
  · have hg : M • (M⁻¹ • P) = P := by rw [smul_smul, mul_inv_cancel₀ hm, one_smul]
    change RkMP.shiftInertia _ _ _ = ((ls.map worldMP).map fun x => inertiaAbout x (M⁻¹ • P)).sum
    rw [inertia_shift]
    have e1 : ((ls.map worldMP).map fun x => x.mass • x.com).sum = P := by simp [hP, worldMP, Function.comp_def]
    have e2 : ((ls.map worldMP).map (·.mass)).sum = M := by simp [hM, worldMP, Function.comp_def]
    have e3 : ((ls.map worldMP).map fun x => inertiaAbout x 0).sum = (ls.map fun l => inertiaAbout (worldMP l) 0).sum := by
      simp [Function.comp_def]
    rw [e1, e2, e3, shift_eq, shiftInertia_eq]
    generalize (ls.map fun l => inertiaAbout (worldMP l) 0).sum = S
    generalize M⁻¹ • P = g at hg
    rw [← hg]
    clear_value M P
    vec_ring

/-- C51: the order in which the links are selected does not matter. -/
theorem C51_order [Zm K] (c : Chain K) (hc : ∀ l ∈ c.link, l.body.wldCOM = comPos l) (in1 in2 : List (Option ℤ))
    (hp : (typed in1).Perm (typed in2)) (hr : ∀ i ∈ typed in1, i < c.link.length) :
    RkMP.main c in1 = RkMP.main c in2 := by
  have key : ∀ index : List ℕ, (∀ i ∈ index, i < c.link.length) →
      index.map (fun i => c.link[i]?) = (index.map fun i => (c.link[i]?).getD (Sample.link "" .fixed Sample.mp1 Frame.ident)).map some := by
    intro index h
    rw [List.map_map]
    refine List.map_congr_left fun i hi => ?_
    simp [List.getElem?_eq_getElem (h i hi)]
  have hcalc : RkMP.calcMP c (typed in1) = RkMP.calcMP c (typed in2) := by
    rw [RkMP.calcMP, RkMP.calcMP, calcLoop_eq c hc _ _ (key _ hr),
      calcLoop_eq c hc _ _ (key _ fun i hi => hr i (hp.mem_iff.2 hi))]
    have h := fun {M : Type _} [AddCommMonoid M] (f : Link K → M) =>
      (((hp.map fun i => (c.link[i]?).getD (Sample.link "" .fixed Sample.mp1 Frame.ident)).map f).sum_eq)
    rw [h mass, h fun l => mass l • comPos l, h fun l => inertiaAbout (worldMP l) 0]
  have hl : ∀ i, linkList i = if typed i = [] then none else some (typed i) := by
    intro i
    rw [linkList, readIDs_eq]
    cases typed i <;> rfl
  have hnil : typed in1 = [] ↔ typed in2 = [] :=
    ⟨fun h => by rw [h] at hp; exact hp.nil_eq.symm, fun h => by rw [h] at hp; exact hp.eq_nil⟩
  simp only [RkMP.main, hl]
  by_cases h : typed in1 = []
  · simp [h, hnil.1 h]
  · have h' : ¬typed in2 = [] := fun k => h (hnil.2 k)
    simp only [h, h', if_false, hcalc]

/-- C51 fails if a link is selected twice: it is counted twice. -/
theorem C51_twice_fails : ∃ (c : Chain ℚ) (l : Link ℚ) (input : List (Option ℤ)) (mp : MP ℚ), c.link[0]? = some l ∧
    (∀ i, i ∈ typed input ↔ i = 0) ∧ RkMP.main c input = some (some mp) ∧ ¬IsUnion [worldMP l] mp := by
  refine ⟨Sample.chain, _, [some 0, some 0, none], _, rfl, ?_, rfl, ?_⟩
  · intro i
    rw [← readIDs_eq]
    have : readIDs [some 0, some 0, none] = [0, 0] := by decide
    simp [this]
  · rintro ⟨h, -⟩
    revert h
    decide +kernel

/-- C51 fails for a number that is not the number of a link: instead of being refused it makes the tool read memory
outside the array of links. -/
theorem C51_range_fails : ∃ (c : Chain ℚ) (input : List (Option ℤ)), c.WF ∧ RkMP.main c input = none :=
  ⟨Sample.chain, [some 4, none], Sample.chain_wf, rfl⟩

/-- A case for C51: two links of a chain of four, after forward kinematics. -/
example : ∃ (c : Chain ℚ) (ls : List (Link ℚ)), (∀ l ∈ c.link, l.body.wldCOM = comPos l) ∧
    (typed [some 2, some 0, some (-1), some 3]).map (fun i => c.link[i]?) = ls.map some ∧ ls.length = 2 ∧
    Zm.tiny (ls.map mass).sum = false ∧ (ls.map mass).sum ≠ 0 := by
  obtain ⟨c', e, -, hst, hpath, hall⟩ := C06_fk_composition (Sample.chain (K := ℚ)) Sample.chain_wf
  have hlen : c'.link.length = 4 := by
    have : c'.link.length = (Sample.chain (K := ℚ)).link.length := by simpa using congrArg List.length hst
    exact this
  have hm : c'.link.map mass = [1, 1, 1, 1] := by
    have := congrArg (fun x => x.map mass) hst
    simp only [List.map_map] at this
    exact this
  have h2 : c'.link[2]? = some (c'.link[2]'(by omega)) := List.getElem?_eq_getElem _
  have h0 : c'.link[0]? = some (c'.link[0]'(by omega)) := List.getElem?_eq_getElem _
  have m2 : mass (c'.link[2]'(by omega)) = 1 := by
    have := congrArg (fun x => x[2]?) hm
    simp only [List.getElem?_map, h2, Option.map_some] at this
    exact Option.some.inj this
  have m0 : mass (c'.link[0]'(by omega)) = 1 := by
    have := congrArg (fun x => x[0]?) hm
    simp only [List.getElem?_map, h0, Option.map_some] at this
    exact Option.some.inj this
  have ht : typed [some 2, some 0, some (-1), some 3] = [2, 0] := by decide
  refine ⟨c', [c'.link[2]'(by omega), c'.link[0]'(by omega)], ?_, by simp [ht], rfl, ?_, ?_⟩
  · intro l hl
    obtain ⟨i, hi⟩ := List.mem_iff_getElem?.1 hl
    obtain ⟨path, hp⟩ := hpath i (by rw [← show c'.link.length = Sample.chain.link.length from hlen]; exact (List.getElem?_eq_some_iff.1 hi).1)
    exact (hall path i l hp hi).2.2
  · simp only [List.map_cons, List.map_nil, m2, m0]; decide +kernel
  · simp only [List.map_cons, List.map_nil, m2, m0]; norm_num

end Roki
