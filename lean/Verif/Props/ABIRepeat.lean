import Verif.Props.ABI
import Verif.Props.ABIFails
set_option autoImplicit false

/-! # Repeated updates of the forward dynamics for additional forces (C57) -/

namespace Roki
open Spec LinkArray

theorem SameMotion.symm {K : Type*} [Field K] {wr : Bool} {c d : Chain K} (h : SameMotion wr c d) :
    SameMotion wr d c :=
  ⟨h.1.symm, fun i l m hl hm =>
    let ⟨a, b, e⟩ := h.2 i m l hm hl
    ⟨a.symm, b.symm, fun w => (e w).symm⟩⟩

theorem SameMotion.trans {K : Type*} [Field K] {wr : Bool} {c d e : Chain K} (h : SameMotion wr c d)
    (k : SameMotion wr d e) : SameMotion wr c e := by
  refine ⟨h.1.trans k.1, fun i l m hl hm => ?_⟩
  have hi : i < d.link.length := by
    rw [← h.1]; exact (List.getElem?_eq_some_iff.1 hl).1
  obtain ⟨a, b, f⟩ := h.2 i l _ hl (List.getElem?_eq_getElem hi)
  obtain ⟨a', b', f'⟩ := k.2 i _ m (List.getElem?_eq_getElem hi) hm
  exact ⟨a.trans a', b.trans b', fun w => (f w).trans (f' w)⟩

namespace Sample
/-- A single body that turns about a vertical axis, with its centre of mass off the axis. -/
def door : Chain ℚ := serial [(turn, mpx, Frame.ident)]

/-- A unit force across the body, at its centre of mass. -/
def push : ℕ → WrenchList ℚ := fun _ => [⟨⟨⟨0, 1, 0⟩, 0⟩, ⟨1, 0, 0⟩⟩]
end Sample

/-- The joint accelerations of all links. -/
def jointAccs (c : Chain ℚ) : List (List ℚ) := c.link.map fun l => l.joint.prp.getAcc

/-- **C57, violated.**  The update for additional forces, made twice in a row for the same forces,
counts them twice.  A door is updated without forces, then pushed with a unit force: the acceleration
becomes 1/2, which is what the complete update with that force gives.  The same call again makes it 1
(src/rk_abi.c:301-314 subtracts the force from the bias force of the link, which only a link with a pushed
descendant recomputes first). -/
theorem C57_repeat_fails : ∃ c1 c2 c3 c4 : Chain ℚ, Sample.door.abiUpdate false false = some c1 ∧
    (c1.withForces Sample.push).abiUpdateAddEx false false = some c2 ∧
    c2.abiUpdateAddEx false false = some c3 ∧
    (Sample.door.withForces Sample.push).abiUpdate false false = some c4 ∧
    jointAccs c1 = [[0]] ∧ jointAccs c2 = [[1 / 2]] ∧ jointAccs c4 = [[1 / 2]] ∧ jointAccs c3 = [[1]] := by
  have key : ((Sample.door.abiUpdate false false).bind fun c1 =>
      ((c1.withForces Sample.push).abiUpdateAddEx false false).bind fun c2 =>
      (c2.abiUpdateAddEx false false).bind fun c3 =>
      ((Sample.door.withForces Sample.push).abiUpdate false false).map fun c4 =>
        [jointAccs c1, jointAccs c2, jointAccs c4, jointAccs c3]) =
      some [[[0]], [[1 / 2]], [[1 / 2]], [[1]]] := by decide +kernel
  rw [Option.bind_eq_some_iff] at key
  obtain ⟨c1, e1, key⟩ := key
  rw [Option.bind_eq_some_iff] at key
  obtain ⟨c2, e2, key⟩ := key
  rw [Option.bind_eq_some_iff] at key
  obtain ⟨c3, e3, key⟩ := key
  rw [Option.map_eq_some_iff] at key
  obtain ⟨c4, e4, key⟩ := key
  simp only [List.cons.injEq, and_true] at key
  exact ⟨c1, c2, c3, c4, e1, e2, e3, e4, key⟩

variable {K : Type*} [Field K]

/-- **C57**, with a pop in between.  After the update without forces and `rkChainABIPushPrpAccBias`, an
update for the forces `W` gives the same motion, and the same wrenches if they are asked for, when it is
made once (`c2`) and when it is made `n` times with `rkChainABIPopPrpAccBias` after each of them but the
last (`c4`).  Missing from the full property: repeating the update without the pop, which fails. -/
theorem C57_pop_partial [Zm K] (c : Chain K) (h : c.WF) (hw : ∀ l ∈ c.link, l.abi.wlist = [])
    (hs : LinkArray.jointSize c.link ≠ 0) (fx wr0 wr : Bool) (W : ℕ → WrenchList K) (n : ℕ) :
    ∃ c1 c2 c3 c4, c.abiUpdate fx wr0 = some c1 ∧
      (c1.abiPush.withForces W).abiUpdateAddEx fx wr = some c2 ∧
      (List.replicate n W).foldlM (fun d V => ((d.withForces V).abiUpdateAddEx fx wr).map Chain.abiPop)
        c1.abiPush = some c3 ∧
      (c3.withForces W).abiUpdateAddEx fx wr = some c4 ∧ SameMotion wr c2 c4 := by
  obtain ⟨c1, d, c2, z, e1, e2, e3, e4, s⟩ := C27_history c h hw hs fx wr0 wr [] W
  obtain ⟨c1', c3, c4, z', f1, f2, f3, f4, s'⟩ := C27_history c h hw hs fx wr0 wr (List.replicate n W) W
  obtain rfl : c1 = c1' := Option.some.inj (e1.symm.trans f1)
  obtain rfl : z = z' := Option.some.inj (e4.symm.trans f4)
  obtain rfl : c1.abiPush = d := Option.some.inj e2
  exact ⟨c1, c2, c3, c4, e1, e3, f2, f3, s.trans s'.symm⟩

/-- The door meets the hypotheses of `C57_pop_partial`. -/
example : Sample.door.WF ∧ (∀ l ∈ Sample.door.link, l.abi.wlist = []) ∧
    LinkArray.jointSize Sample.door.link ≠ 0 := by
  refine ⟨⟨⟨_, rfl⟩, .refl _⟩, ?_, by decide⟩
  intro l hl
  simp only [Sample.door, Sample.serial, Chain.abiAlloc, List.mem_map] at hl
  obtain ⟨m, _, rfl⟩ := hl
  rfl

end Roki
