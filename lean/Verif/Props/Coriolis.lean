import Verif.Lemmas.Coriolis
import Verif.Spec.Coriolis
import Verif.Props.ABIFails
set_option autoImplicit false

/-! # The velocities enter the joint torques by a quadratic form (C143) -/

namespace Roki
open Spec LinkArray
variable {K : Type*} [Field K]

namespace Coriolis

theorem getD_slice (v : List K) (l : Link K) (i : ℕ) :
    (slice v l).getD i 0 = if i < l.joint.prp.size then v.getD (l.offset.toNat + i) 0 else 0 := by
  simp only [slice, List.getD_eq_getElem?_getD, List.getElem?_take, List.getElem?_drop]
  split <;> rfl

theorem lin_slice {ι : Type*} {n : ℕ} (v : ι → List K) (hv : ∀ t, (v t).length = n) (l : Link K) (i : ℕ) :
    Lin n (fun t j => (v t).getD j 0) fun t => (slice (v t) l).getD i 0 := by
  simp only [getD_slice]
  by_cases h : i < l.joint.prp.size
  · simp only [if_pos h]
    by_cases hn : l.offset.toNat + i < n
    · refine ⟨fun j => if j = l.offset.toNat + i then 1 else 0, fun t => ?_⟩
      simp only [ite_mul, one_mul, zero_mul]
      rw [Finset.sum_ite_eq' (Finset.range n) (l.offset.toNat + i), if_pos (Finset.mem_range.2 hn)]
    · have : ∀ t, (v t).getD (l.offset.toNat + i) 0 = 0 := fun t => by
        rw [List.getD_eq_getElem?_getD, List.getElem?_eq_none (by rw [hv]; omega)]; rfl
      simp only [this]
      exact Lin.zero
  · simp only [if_neg h]; exact Lin.zero

end Coriolis

section
variable {c c1 : Chain K} (h : c.WF) (hr : ∀ l ∈ c.link, l.org.att.IsRot ∧ l.joint.prp.WF)
    (ho : setOffset c.link = c.link) (h1 : c.updateFK = some c1)
include h hr ho h1

open Coriolis in
theorem Coriolis.exists_form : ∃ (Γ : ℕ → ℕ → ℕ → K) (B : ℕ → Vec6 K × List K × (ℕ → WrenchList K) → K),
    ∀ (e : ℕ → WrenchList K) (g : Vec6 K) (vel acc : List K), vel.length = jointSize c.link → acc.length = jointSize c.link →
    ∃ τ, idTorque g vel acc (withExt e c1) = some τ ∧ τ.length = jointSize c.link ∧ ∀ k < jointSize c.link, τ.getD k 0 = B k (g, acc, e) +
      ∑ i ∈ Finset.range (jointSize c.link), ∑ j ∈ Finset.range (jointSize c.link), Γ k i j * (vel.getD i 0 * vel.getD j 0) := by
  obtain ⟨hp, hz⟩ := posed_of_fk h hr ho h1
  set n := jointSize c.link with hn
  let ι := {p : List K × (Vec6 K × List K × (ℕ → WrenchList K)) // p.1.length = n ∧ p.2.2.1.length = n}
  let x : ι → ℕ → K := fun t j => t.1.1.getD j 0
  let s : ι → Vec6 K × List K × (ℕ → WrenchList K) := fun t => t.1.2
  let t0 : ι := ⟨(List.replicate n 0, 0, List.replicate n 0, fun _ => []), by simp⟩
  have hzd : ∀ e : ℕ → WrenchList K, jointSize (withExt e c1).link = n := fun e => (jointSize_withExt e hp.off).trans hz
  have hst := fun e : ℕ → WrenchList K => statics_withExt e c1
  choose c2 ls T τ hid r eτ nτ wτ using fun t : ι => (hp.withExt t.1.2.2.2).work hp (g := t.1.2.1) (v := t.1.1) (a := t.1.2.2.1)
    (hst t.1.2.2.2) rfl (t.2.1.trans (hzd _).symm) (t.2.2.trans (hzd _).symm)
  have hlen : ∀ t, (c2 t).link.length = c1.link.length := fun t => by rw [(r t).len2]; simp [withExt]
  have hls : ∀ t, (ls t).length = c1.link.length := fun t => by rw [(r t).len]; simp [withExt]
  have F : AllF (Fam n x s) c1.shape T := by
    refine all_of_gather (ls := ls) (fun t => (r t).tree) ?_
    intro i l hl
    have hi : i < c1.link.length := by rw [← hls t0]; exact (List.getElem?_eq_some_iff.1 (hl t0)).1
    have h0 : c1.link[i]? = some c1.link[i] := List.getElem?_eq_getElem hi
    generalize c1.link[i] = l0 at h0
    have hs : ∀ t, statics (l t) = statics l0 := fun t => forall_zip_statics ((r t).stat.trans (hst _)) (hl t) h0
    refine ⟨⟨l0, hs⟩, fun i => ?_, fun i => ?_⟩
    · have : ∀ t, (l t).joint.prp.getVel = slice t.1.1 l0 := fun t => by
        rw [(r t).vel _ (List.mem_of_getElem? (hl t)), slice_congr _ (hs t)]
      simp only [this]
      exact lin_slice (fun t : ι => t.1.1) (fun t => t.2.1) l0 i
    · have : ∀ t, (l t).joint.prp.getAcc = slice t.1.2.2.1 l0 := fun t => by
        rw [(r t).acc _ (List.mem_of_getElem? (hl t)), slice_congr _ (hs t)]
      simp only [this]
      exact Quad.of fun z : Vec6 K × List K × (ℕ → WrenchList K) => (slice z.2.1 l0).getD i 0
  have R := all_rate F (v := fun _ => 0) (a := fun t => t.1.2.1) ⟨⟨Lin.zero, Lin.zero, Lin.zero⟩, ⟨Lin.zero, Lin.zero, Lin.zero⟩⟩
    ⟨⟨Quad.of fun z : Vec6 K × List K × (ℕ → WrenchList K) => z.1.lin.x, Quad.of fun z : Vec6 K × List K × (ℕ → WrenchList K) => z.1.lin.y,
      Quad.of fun z : Vec6 K × List K × (ℕ → WrenchList K) => z.1.lin.z⟩,
     ⟨Quad.of fun z : Vec6 K × List K × (ℕ → WrenchList K) => z.1.ang.x, Quad.of fun z : Vec6 K × List K × (ℕ → WrenchList K) => z.1.ang.y,
      Quad.of fun z : Vec6 K × List K × (ℕ → WrenchList K) => z.1.ang.z⟩⟩
  have key : ∀ k, k < n → Quad n x s fun t => (τ t).getD k 0 := by
    intro k hk
    have hul : (unitVec n k : List K).length = n := unitVec_length n k
    obtain ⟨u2, hu2⟩ := hp.invDyn 0 (hul.trans hz.symm) (hul.trans hz.symm)
    obtain ⟨lu, U, rU⟩ := hp.run (hul.trans hz.symm) (hul.trans hz.symm) hu2
    have e1 : ∀ t, (τ t).getD k 0 = (List.zipWith inertialWork (c2 t).link u2.link).sum -
        (List.zipWith extWork (withExt t.1.2.2.2 c1).link u2.link).sum := fun t => by
      rw [← work_unitVec ((nτ t).trans (hzd _)) hk, wτ t (hul.trans hz.symm) (hul.trans hz.symm) hu2,
        extWork_congr (r t).ext2 (r t).stat2]
    have e2 : ∀ t, (List.zipWith inertialWork (c2 t).link u2.link).sum = ∑ i ∈ Finset.range c1.link.length,
        (((c2 t).link[i]?).bind fun a => (u2.link[i]?).map fun b => inertialWork a b).getD 0 := fun t => by
      rw [zipWith_sum_range (F := fun i => (((c2 t).link[i]?).bind fun a => (u2.link[i]?).map fun b => inertialWork a b).getD 0)
        ((hlen t).trans rU.len2.symm) (fun i a b ha hb => by simp [ha, hb]), hlen]
    simp only [e1, e2]
    refine Quad.sub (Quad.sum fun i hi => ?_) (Quad.of fun z : Vec6 K × List K × (ℕ → WrenchList K) => (List.zipWith extWork (withExt z.2.2 c1).link u2.link).sum)
    have hb : u2.link[i]? = some (u2.link[i]'(by rw [rU.len2]; exact hi)) := List.getElem?_eq_getElem _
    have h0 : c1.link[i]? = some c1.link[i] := List.getElem?_eq_getElem hi
    have hl : ∀ t, (c2 t).link[i]? = some ((c2 t).link[i]'(by rw [hlen]; exact hi)) := fun t => List.getElem?_eq_getElem _
    have Rl := gather_all (ls := fun t => (c2 t).link) (fun t => (r t).tree2) R (hp.wf.mem.2 hi) hl
    have hs := fun t => forall_zip_statics ((r t).stat2.trans (hst _)) (hl t) h0
    simp only [hl, hb, Option.bind_some, Option.map_some, Option.getD_some]
    exact inertia_work Rl hs _
  choose! B Γ hB using key
  refine ⟨Γ, B, fun e g vel acc hv ha => ?_⟩
  let t : ι := ⟨(vel, g, acc, e), hv, ha⟩
  exact ⟨τ t, eτ t, (nτ t).trans (hzd _), fun k hk => hB k hk t⟩

open Coriolis in
/-- **C143** The joint torques depend on the joint velocities by a quadratic form: whatever the gravity, the joint accelerations and the external
wrenches, the torques for the velocities `vel` are those for zero velocities plus the products of the velocities times `coriolis`, which is found by
calls of `rkChainID` at the same pose, without gravity and accelerations. -/
theorem C143_velocity_forces [CharZero K] (e : ℕ → WrenchList K) (g : Vec6 K) (vel acc : List K) (hv : vel.length = jointSize c.link)
    (ha : acc.length = jointSize c.link) :
    ∃ τ β, idTorque g vel acc (withExt e c1) = some τ ∧ idTorque g (List.replicate (jointSize c.link) 0) acc (withExt e c1) = some β ∧
      τ.length = jointSize c.link ∧ β.length = jointSize c.link ∧
      ∀ k < jointSize c.link, τ.getD k 0 = β.getD k 0 + ∑ i ∈ Finset.range (jointSize c.link), ∑ j ∈ Finset.range (jointSize c.link),
        coriolis c1 k i j * (vel.getD i 0 * vel.getD j 0) := by
  obtain ⟨Γ, B, H⟩ := exists_form h hr ho h1
  have hz := (posed_of_fk h hr ho h1).2
  set n := jointSize c.link with hn
  have hzero : ∀ j, (List.replicate n (0 : K)).getD j 0 = 0 := fun j => by
    rw [List.getD_eq_getElem?_getD, List.getElem?_replicate]; split <;> rfl
  obtain ⟨τ, h2, n2, t2⟩ := H e g vel acc hv ha
  obtain ⟨β, h3, n3, t3⟩ := H e g (List.replicate n 0) acc (by simp) ha
  refine ⟨τ, β, h2, h3, n2, n3, fun k hk => ?_⟩
  let e0 : ℕ → WrenchList K := fun i => (c1.link[i]?.map fun l => l.body.extw).getD []
  have he0 : withExt e0 c1 = c1 := by
    simp only [withExt]
    congr 1
    refine List.ext_getElem (by simp) fun i hi hi' => ?_
    simp only [List.getElem_mapIdx, e0, List.getElem?_eq_getElem hi', Option.map_some, Option.getD_some]
  have tq : ∀ v : List K, v.length = n → torqueAt c1 v k = B k (0, List.replicate n 0, e0) +
      ∑ i ∈ Finset.range n, ∑ j ∈ Finset.range n, Γ k i j * (v.getD i 0 * v.getD j 0) := by
    intro v hv
    obtain ⟨ρ, h4, -, t4⟩ := H e0 0 v (List.replicate n 0) hv (by simp)
    rw [torqueAt, hz, ← t4 k hk, ← he0, h4]
    rfl
  have hc : ∀ i < n, ∀ j < n, coriolis c1 k i j = (Γ k i j + Γ k j i) / 2 := by
    intro i hi j hj
    have ls : ∀ i, (single n i : List K).length = n := fun i => by simp [single]
    have sd : ∀ i < n, ∀ a, (single n i : List K).getD a 0 = if a = i then 1 else 0 := fun i hi a => unitVec_getD n i a hi
    have sa : ∀ a, (List.zipWith (· + ·) (single n i : List K) (single n j)).getD a 0 = (single n i : List K).getD a 0 + (single n j : List K).getD a 0 := by
      intro a
      simp only [List.getD_eq_getElem?_getD, List.getElem?_zipWith]
      by_cases hl : a < n
      · rw [List.getElem?_eq_getElem (by rw [ls]; exact hl), List.getElem?_eq_getElem (by rw [ls]; exact hl)]; rfl
      · rw [List.getElem?_eq_none (by rw [ls]; omega), List.getElem?_eq_none (by rw [ls]; omega)]; simp
    have pick : ∀ i < n, ∀ j < n, ∑ a ∈ Finset.range n, ∑ b ∈ Finset.range n, Γ k a b * ((if a = i then 1 else 0) * (if b = j then 1 else 0)) = Γ k i j := by
      intro i hi j hj
      simp only [ite_mul, one_mul, zero_mul, mul_ite, mul_one, mul_zero]
      simp only [Finset.sum_ite_irrel, Finset.sum_const_zero, Finset.sum_ite_eq', Finset.mem_range, hi, hj, if_true]
    simp only [coriolis, hz]
    rw [tq _ (by simp [ls]), tq _ (ls i), tq _ (ls j), tq _ (by simp)]
    simp only [sa, sd i hi, sd j hj, hzero, mul_zero, Finset.sum_const_zero, add_mul, mul_add, Finset.sum_add_distrib, pick i hi j hj, pick j hj i hi,
      pick i hi i hi, pick j hj j hj]
    ring
  rw [t2 k hk, t3 k hk]
  simp only [hzero, mul_zero, Finset.sum_const_zero, add_zero]
  congr 1
  have hsw : ∑ i ∈ Finset.range n, ∑ j ∈ Finset.range n, Γ k j i * (vel.getD i 0 * vel.getD j 0) =
      ∑ i ∈ Finset.range n, ∑ j ∈ Finset.range n, Γ k i j * (vel.getD i 0 * vel.getD j 0) := by
    rw [Finset.sum_comm]
    exact Finset.sum_congr rfl fun i _ => Finset.sum_congr rfl fun j _ => by ring
  have : ∑ i ∈ Finset.range n, ∑ j ∈ Finset.range n, coriolis c1 k i j * (vel.getD i 0 * vel.getD j 0) =
      (∑ i ∈ Finset.range n, ∑ j ∈ Finset.range n, Γ k i j * (vel.getD i 0 * vel.getD j 0) +
        ∑ i ∈ Finset.range n, ∑ j ∈ Finset.range n, Γ k j i * (vel.getD i 0 * vel.getD j 0)) / 2 := by
    rw [← Finset.sum_add_distrib, div_eq_mul_inv, Finset.sum_mul]
    refine Finset.sum_congr rfl fun i hi => ?_
    rw [← Finset.sum_add_distrib, Finset.sum_mul]
    refine Finset.sum_congr rfl fun j hj => ?_
    rw [hc i (Finset.mem_range.1 hi) j (Finset.mem_range.1 hj)]
    ring
  rw [this, hsw]
  ring

end

/-- **C143** The coefficients do not depend on the order of the two velocities. -/
theorem C143_symmetric (c : Chain K) (k i j : ℕ) : coriolis c k i j = coriolis c k j i := by
  simp only [coriolis]
  rw [show List.zipWith (· + ·) (single (jointSize c.link) i : List K) (single (jointSize c.link) j) =
    List.zipWith (· + ·) (single (jointSize c.link) j : List K) (single (jointSize c.link) i) from List.zipWith_comm_of_comm fun a b => add_comm a b]
  ring

namespace Sample

/-- A turning beam with a body that slides along it, which carries another one by a universal joint. -/
def boom : Chain ℚ := serial [(turn, mpx, Frame.ident), (slide, mpx, ⟨⟨1, 0, 0⟩, ⟨⟨0, 1, 0⟩, ⟨0, 0, 1⟩, ⟨1, 0, 0⟩⟩⟩), (universal, mpx, side)]

end Sample

/-- A turning beam with a sliding body meets the hypotheses of C143.  A slide along the beam while it turns needs a torque of the beam (Coriolis), the turn
needs a force along the beam (centrifugal). -/
theorem C143_sample : let c := Sample.boom
    c.WF ∧ (∀ l ∈ c.link, l.org.att.IsRot ∧ l.joint.prp.WF) ∧ setOffset c.link = c.link ∧ jointSize c.link = 4 ∧
    ∃ c1, c.updateFK = some c1 ∧ coriolis c1 0 0 1 = 2 ∧ coriolis c1 1 0 0 = -2 := by
  refine ⟨⟨⟨_, rfl⟩, .refl _⟩, ?_, rfl, rfl, _, rfl, ?_, ?_⟩
  · intro l hl
    obtain ⟨i, hi⟩ := List.mem_iff_getElem?.1 hl
    rcases i with _ | _ | _ | i
    · cases hi; constructor
      · constructor <;> decide +kernel
      · show (0 : ℚ) * 0 + 1 * 1 = 1; norm_num
    · cases hi; constructor
      · constructor <;> decide +kernel
      · trivial
    · cases hi; constructor
      · constructor <;> decide +kernel
      · show (0 : ℚ) * 0 + 1 * 1 = 1 ∧ (0 : ℚ) * 0 + 1 * 1 = 1; norm_num
    · cases hi
  · decide +kernel
  · decide +kernel

end Roki
