import Verif.Props.ABIPos
set_option autoImplicit false

/-! # C96: forward dynamics returns the accelerations whose torques the joints were given -/

namespace Roki
open Spec LinkArray
variable {K : Type*} [Field K] [LinearOrder K] [IsStrictOrderedRing K] [Zm K] [LawfulZm K]

/-- **C96** The joints exert the torques that `rkChainID` computes for the accelerations `x`, in the state and under the external
wrenches of `rkChainABI`, exactly if `rkChainABI` returns `x`.  This is what computed torque control relies on: given the torques
of inverse dynamics, forward dynamics returns the accelerations asked for, and no other torques lead to them.

Missing from the full property: what is missing from `C96_equation_of_motion_partial`. -/
theorem C96_computed_torque_partial (c c1 : Chain K) (fx : Bool) (dis vel acc acc' : List K) (tol : K) (h : c.WF)
    (ho : setOffset c.link = c.link) (hv : vel.length = jointSize c.link) (ha : acc.length = jointSize c.link)
    (horg : ∀ l ∈ c.link, l.org.att.IsRot) (htol : ∀ x : K, tol < x → Zm.tiny x = false)
    (hm : ∀ l ∈ c.link, l.abi.m = Link.abiInertia l.body.mp ∧ Physical l.body.mp ∧ Heavy tol l ∧ l.abi.wlist = [])
    (hroot : ∀ l, c.link[0]? = some l → l.joint.prp.ABIRootGood)
    (hgood : ∀ (i : ℕ) (l : Link K), c.link[i + 1]? = some l → l.joint.prp.ABIGood)
    (hfx : fx = true → ∀ l ∈ c.link, ∀ p, l.joint.prp ≠ .brfloat p)
    (e : c.abi fx dis vel acc = some (c1, some acc'))
    (hf : ∀ l ∈ c1.link, ∀ d, l.joint.prp = .float d ∨ l.joint.prp = .brfloat d → cross d.vel.lin d.vel.ang = 0)
    (hmass : ∀ l ∈ c.link, 0 < mass l)
    (hI : ∀ l ∈ c.link, ∀ w : Vec3 K, w ≠ 0 → 0 < dot w (l.body.mp.inertia.mulVec w))
    (x : List K) (hx : x.length = jointSize c.link) :
    idTorque ⟨⟨0, 0, rkG⟩, 0⟩ vel x c1 = some (c1.link.map fun l => appliedTrq l.joint.prp).flatten ↔ x = acc' := by
  have hr := C96_regular c c1 fx dis vel acc acc' tol h htol (fun l hl => ⟨(hm l hl).1, (hm l hl).2.1, (hm l hl).2.2.1⟩)
    hroot hgood hfx e
  have hm' : ∀ l ∈ c.link, l.abi.m = Link.abiInertia l.body.mp ∧ l.body.mp.inertia.Symm ∧ l.abi.wlist = [] :=
    fun l hl => ⟨(hm l hl).1, (hm l hl).2.1.symm, (hm l hl).2.2.2⟩
  obtain ⟨U, -, w1, -⟩ := abi_state h ho (fun l hl => ⟨(hm' l hl).1, (hm' l hl).2.1⟩) hroot hgood e hr
  obtain ⟨d, d1, wd, rd, od, fd, zd, hp, st, sh⟩ := abi_posed h ho horg e w1
  constructor
  · intro ht
    obtain ⟨τ, β, e3, e4, -, -, key⟩ := inertia_affine wd rd od fd hp st sh ⟨⟨0, 0, rkG⟩, 0⟩ vel x
      (hv.trans zd.symm) (hx.trans zd.symm)
    rw [zd] at e4 key
    rw [ht, Option.some.injEq] at e3
    subst e3
    rw [← C96_unique_partial c c1 fx dis vel acc acc' tol h ho hv ha horg htol hm hroot hgood hfx e hf hmass hI β x e4 hx]
    intro k hk
    rw [key k hk]
    congr 1
    exact Finset.sum_congr rfl fun j _ => by rw [jointInertia_congr st sh]
  · rintro rfl
    obtain ⟨c2, e2, hl⟩ := C26_inverse_of_forward_partial c c1 fx dis vel acc x h ho hv ha hm' hroot hgood e hr
      (fun hx => forall_of_map_eq (fun l : Link K => ∀ p, l.joint.prp ≠ .brfloat p) (fun P => P) (abi_noBreak h e) (hfx hx)) hf
    have hz1 : jointSize c1.link = jointSize c.link := by
      obtain ⟨hpd, hzd⟩ := posed_of_fk wd rd od fd
      rw [← zd, ← hzd, jointSize_eq, jointSize_eq, (offsets_of_statics st 0 hpd.off).2]
    obtain ⟨ls, T, r⟩ := hp.run (hv.trans hz1.symm) (hx.trans hz1.symm) e2
    rw [idTorque, e2, Option.bind_some, (r.torques hp).1, Option.some.injEq]
    congr 1
    apply List.ext_getElem?
    intro i
    rw [List.getElem?_map, List.getElem?_map]
    cases h1 : c1.link[i]? with
    | none =>
      have : c2.link[i]? = none := List.getElem?_eq_none (by rw [r.len2]; exact List.getElem?_eq_none_iff.1 h1)
      rw [this]; rfl
    | some l1 =>
      have hi : i < c2.link.length := by rw [r.len2]; exact (List.getElem?_eq_some_iff.1 h1).1
      rw [List.getElem?_eq_getElem hi]
      simp only [Option.map_some, Option.some.injEq]
      exact (hl i l1 _ h1 (List.getElem?_eq_getElem hi)).1

theorem Sample.arm_physical : (∀ x : ℚ, 1 / 1000000000000 < x → Zm.tiny x = false) ∧
    (∀ l ∈ Sample.arm.link, Physical l.body.mp ∧ Heavy (1 / 1000000000000) l ∧ 0 < mass l ∧
      (∀ w : Vec3 ℚ, w ≠ 0 → 0 < dot w (l.body.mp.inertia.mulVec w)) ∧ ∀ p, l.joint.prp ≠ .brfloat p) := by
  have pd := Sample.mpx_definite
  refine ⟨fun x hx => ?_, ?_⟩
  · simp only [Zm.tiny, decide_eq_false_iff_not, not_le]
    exact lt_of_lt_of_le hx (le_abs_self x)
  · have key := Sample.arm_links
    intro l hl
    obtain ⟨h1, h2⟩ := key l hl
    refine ⟨?_, ?_, ?_, ?_, ?_⟩
    · rw [h1]
      refine ⟨by norm_num [Sample.mpx], fun w => ?_, rfl⟩
      by_cases hw : w = 0
      · rw [hw]; simp [dot]
      · exact (pd w hw).le
    · rcases h2 with h2 | h2
      · simp only [Heavy, h2, Sample.turn, h1]
        have : (Motor.none : Motor ℚ).inertia = 0 := rfl
        norm_num [Sample.dof1, this, momentZ, Sample.mpx]
      · simp only [Heavy, h2]
    · simp only [mass, h1]; norm_num [Sample.mpx]
    · rw [h1]; exact pd
    · intro p hp
      rcases h2 with h2 | h2 <;> simp [h2, Sample.turn] at hp

/-- `Sample.arm` in motion meets the hypotheses of `C96_computed_torque_partial`: two accelerations, of which only the first has
the torques that the joints exert. -/
example : ∃ c1 : Chain ℚ, Sample.arm.abi false [0, 0] [1, 2] [0, 0] = some (c1, some [-7354989 / 2125000, 0]) ∧
    idTorque ⟨⟨0, 0, rkG⟩, 0⟩ [1, 2] [-7354989 / 2125000, 0] c1 = some (c1.link.map fun l => appliedTrq l.joint.prp).flatten ∧
    idTorque ⟨⟨0, 0, rkG⟩, 0⟩ [1, 2] [1, 1] c1 ≠ some (c1.link.map fun l => appliedTrq l.joint.prp).flatten := by
  obtain ⟨c1, a, h1, h2, h3, h4, h5, h6, h7, h8, h9, rfl⟩ := arm_meets
  have horg : ∀ l ∈ Sample.arm.link, l.org.att.IsRot := by
    refine Sample.forall_of_map (f := fun l : Link ℚ => l.org) (P := fun f => f.att.IsRot)
      (ys := [Sample.side, ⟨⟨1, 0, 0⟩, 1⟩, Sample.side]) rfl ?_
    intro y hy
    simp only [List.mem_cons, List.not_mem_nil, or_false] at hy
    rcases hy with rfl | rfl | rfl <;> constructor <;> decide +kernel
  obtain ⟨ht, hP⟩ := Sample.arm_physical
  have key := C96_computed_torque_partial Sample.arm c1 false [0, 0] [1, 2] [0, 0] _ _ h1 h2 h3 h3 horg ht
    (fun l hl => ⟨(h4 l hl).1, (hP l hl).1, (hP l hl).2.1, (h4 l hl).2.2⟩) h5 h6 (by simp) h7 h9
    (fun l hl => (hP l hl).2.2.1) (fun l hl => (hP l hl).2.2.2.1)
  refine ⟨c1, h7, (key _ h3).2 rfl, fun hn => ?_⟩
  have := (key [1, 1] h3).1 hn
  norm_num at this

end Roki
