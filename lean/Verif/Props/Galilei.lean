import Verif.Lemmas.Galilei
import Verif.Lemmas.IKStep
import Verif.Lemmas.Sum
import Verif.Props.FK
import Verif.Props.ABIFails
set_option autoImplicit false

/-! # C141: a uniform motion of a floating robot changes neither forces nor accelerations -/

namespace Roki
set_option linter.unusedSectionVars false
open Spec LinkArray
universe u
variable {K : Type u} [Field K]

namespace Galilei
theorem getAll_congr (get : Prp K → List K) : ∀ (xs ys : List (Link K)) (buf : List K),
    xs.map (fun l => (l.offset, get l.joint.prp)) = ys.map (fun l => (l.offset, get l.joint.prp)) → getJointAll get xs buf = getJointAll get ys buf := by
  intro xs
  induction xs with
  | nil => intro ys buf h; cases ys with
    | nil => rfl
    | cons y ys => simp at h
  | cons x xs ih =>
    intro ys buf h
    cases ys with
    | nil => simp at h
    | cons y ys =>
      simp only [List.map_cons, List.cons.injEq, Prod.mk.injEq] at h
      simp only [getJointAll, h.1.1, h.1.2]
      split_ifs
      · cases writeAt buf y.offset.toNat (get y.joint.prp) with
        | none => rfl
        | some b => exact ih ys b h.2
      · exact ih ys buf h.2

theorem getAll_move (get : Prp K → List K) (hg : ∀ (v : Vec3 K) p, get (drift v p) = get p) (V v : Vec3 K) (c : Chain K) (buf : List K) :
    getJointAll get (moveChain V v c).link buf = getJointAll get c.link buf := by
  apply getAll_congr
  apply List.ext_getElem (by simp [moveChain])
  intro i h1 h2
  simp [moveChain, moveLink, hg]

theorem floats_size {q : Prp K} (hf : Floats q) : q.size = 6 := by
  cases q <;> first | rfl | exact absurd hf not_false

/-- Writing displacements keeps what a link is. -/
theorem dis_root [LinearOrder K] [Zm K] {dis : List K} {ls ls' : List (Link K)} (e : setJointAll Prp.setDis dis ls = some ls') {l : Link K}
    (hl : ls[0]? = some l) (hf : Floats l.joint.prp) : ∃ l', ls'[0]? = some l' ∧ Floats l'.joint.prp ∧ l'.org = l.org := by
  have h1 := setJointAll_keep (fun l => l.org) (fun _ _ _ _ => rfl) e
  have h2 := setJointAll_keep (fun l => Floats l.joint.prp) (fun l buf p' hp => by
    generalize l.joint.prp = q at hp
    cases q <;> simp only [Prp.setDis] at hp <;> first
      | (obtain ⟨_, -, rfl⟩ := Option.map_eq_some_iff.1 hp; rfl)
      | (split at hp <;> first | (cases hp; rfl) | cases hp)
      | (cases hp; rfl)) e
  have g1 := congrArg (·[0]?) h1
  have g2 := congrArg (·[0]?) h2
  simp only [List.getElem?_map, hl, Option.map_some, Option.map_eq_some_iff] at g1 g2
  obtain ⟨a, ha, ea⟩ := g1
  obtain ⟨b, hb, eb⟩ := g2
  rw [ha] at hb; cases hb
  exact ⟨a, ha, eb ▸ hf, ea⟩

theorem vel_root {vel : List K} {ls ls' : List (Link K)} (e : setJointAll Prp.setVel vel ls = some ls') {l : Link K}
    (hl : ls[0]? = some l) (hf : Floats l.joint.prp) : ∃ l', ls'[0]? = some l' ∧ Floats l'.joint.prp ∧ l'.org = l.org := by
  have h1 := setJointAll_keep (fun l => l.org) (fun _ _ _ _ => rfl) e
  have h2 := setJointAll_keep (fun l => Floats l.joint.prp) (fun l buf p' hp => by
    generalize l.joint.prp = q at hp
    cases q <;> simp only [Prp.setVel] at hp <;> first
      | (obtain ⟨_, -, rfl⟩ := Option.map_eq_some_iff.1 hp; rfl)
      | (split at hp <;> first | (cases hp; rfl) | cases hp)
      | (cases hp; rfl)) e
  have g1 := congrArg (·[0]?) h1
  have g2 := congrArg (·[0]?) h2
  simp only [List.getElem?_map, hl, Option.map_some, Option.map_eq_some_iff] at g1 g2
  obtain ⟨a, ha, ea⟩ := g1
  obtain ⟨b, hb, eb⟩ := g2
  rw [ha] at hb; cases hb
  exact ⟨a, ha, eb ▸ hf, ea⟩
end Galilei
open Galilei

/-! ## Velocities -/

/-- **C141** Let the root of a robot float.  After forward kinematics, adding `v` to the first three joint velocities (those of the position of the
root) adds the same velocity, `v` seen from the world, to every point of every link, and changes no angular velocity. -/
theorem C141_velocity (v : Vec3 K) (c0 c : Chain K) (h : c0.WF) (e : c0.updateFK = some c)
    (hr : ∀ l ∈ c0.link, l.org.att.IsRot ∧ l.joint.prp.WF) (r : Link K) (hl : c0.link[0]? = some r) (hf : Floats r.joint.prp) (c1 d1 : Chain K)
    (e1 : c.updateVel = some c1) (e2 : (driftRoot v c).updateVel = some d1) (i : ℕ) (a b : Link K) (ha : c1.link[i]? = some a)
    (hb : d1.link[i]? = some b) :
    b.body.frame = a.body.frame ∧ angVel b = angVel a ∧ ∀ p, pointVelocity b p = pointVelocity a p + r.org.att.mulVec v := by
  have hR := (hr r (List.mem_iff_getElem?.2 ⟨0, hl⟩)).1
  have m := vel_move v h e hl hf hR
  rw [e1, e2] at m
  cases m
  simp only [moveChain, List.getElem?_mapIdx, ha, Option.map_some, Option.some.injEq] at hb
  subst hb
  have k : c1.link.map (fun l => l.body.frame) = c.link.map (fun l => l.body.frame) := by
    simp only [Chain.updateVel, Option.bind_eq_bind, Option.bind_eq_some_iff, Option.map_eq_some_iff, Option.pure_def, Option.some.injEq] at e1
    obtain ⟨ls, q, rfl⟩ := e1
    exact downAt_map (f := fun (v : Vec6 K) (l : Link K) => l.updateVel1 v) (g := fun l => l.body.vel) (fun l => l.body.frame) (fun _ _ => rfl) _ _ _ _ _ q
  have rot : a.body.frame.att.IsRot := by
    have g := congrArg (·[i]?) k
    simp only [List.getElem?_map, ha, Option.map_some] at g
    obtain ⟨a', ha', ea⟩ := Option.map_eq_some_iff.1 g.symm
    rw [← ea]
    exact (C06_fk_rotation c0 c h e hr a' (List.mem_iff_getElem?.2 ⟨i, ha'⟩)).1
  refine ⟨rfl, rfl, fun p => ?_⟩
  simp only [pointVelocity, moveLink]
  conv_rhs => rw [← rot.mulVec_mulVecT (r.org.att.mulVec v)]
  generalize a.body.frame.att.mulVecT _ = w
  vec_ring

/-! ## Energy and momentum -/

/-- **C141** In a robot all of whose links have the additional velocity `V`, as in `C141_velocity`, `rkChainKE`, `rkChainAM` and the momentum change as
in a change of the inertial frame: by `V · P + M |V|² / 2`, by `Σ m (c - p) × V` and by `M V`, where `P` is the momentum, `M` the mass and `c` the
centre of mass of a link. -/
theorem C141_energy [CharZero K] (V v : Vec3 K) (c : Chain K) (hr : ∀ l ∈ c.link, l.body.frame.att.IsRot) :
    ke (moveChain V v c).link = ke c.link + dot V (linearMomentum c.link) + calcMass c.link * sqrNorm V / 2 ∧
    linearMomentum (moveChain V v c).link = linearMomentum c.link + calcMass c.link • V ∧
    (∀ p, am (moveChain V v c).link p = am c.link p +
      (c.link.map fun l => l.body.mp.mass • cross (l.body.frame.xform l.body.mp.com - p) V).sum) := by
  have e1 : ∀ ls : List (Link K), ke ls = (ls.map fun l => l.body.ke).sum := fun ls => by
    simpa [ke] using foldl_add_eq (fun l : Link K => l.body.ke) 0 ls
  have e2 : ∀ ls : List (Link K), calcMass ls = (ls.map fun l => l.body.mp.mass).sum := fun ls => by
    simpa [calcMass] using foldl_add_eq (fun l : Link K => l.body.mp.mass) 0 ls
  have e3 : ∀ (ls : List (Link K)) p, am ls p = (ls.map fun l => l.body.frame.att.mulVec (l.body.am (l.body.frame.xformInv p))).sum := fun ls p => by
    simpa [am] using foldl_add_eq (fun l : Link K => l.body.frame.att.mulVec (l.body.am (l.body.frame.xformInv p))) 0 ls
  have idx : ∀ {M : Type u} (f : Link K → M), (∀ l u w, f (moveLink V u l) = f (moveLink V w l)) →
      (moveChain V v c).link.map f = c.link.map fun l => f (moveLink V 0 l) := by
    intro M f hf
    apply List.ext_getElem (by simp [moveChain])
    intro i h1 h2
    simp only [moveChain, List.getElem_map, List.getElem_mapIdx]
    exact hf _ _ _
  simp only [e1, e2, e3, linearMomentum]
  clear e1 e2 e3
  refine ⟨?_, ?_, fun p => ?_⟩
  · rw [idx _ fun _ _ _ => rfl]
    clear idx
    generalize c.link = ls at hr
    induction ls with
    | nil => simp only [List.map_nil, List.sum_nil]; vec_unfold; simp
    | cons l ls ih =>
      have ih := ih fun l hl => hr l (by simp [hl])
      have R := hr l (by simp)
      simp only [List.map_cons, List.sum_cons, ih]
      have q : (moveLink V 0 l).body.ke = l.body.ke + dot V (l.body.mp.mass • l.body.frame.att.mulVec l.body.comVel) + l.body.mp.mass * sqrNorm V / 2 := by
        have hm := R.mulVec_mulVecT V
        have hn : sqrNorm (l.body.frame.att.mulVecT V) = sqrNorm V := by
          have : sqrNorm (l.body.frame.att.mulVecT V) = dot V (l.body.frame.att.mulVec (l.body.frame.att.mulVecT V)) := by vec_ring
          rw [this, hm]; rfl
        have hd : dot V (l.body.frame.att.mulVec l.body.comVel) = dot (l.body.frame.att.mulVecT V) l.body.comVel := by vec_ring
        simp only [Body.ke, moveLink]
        have : dot V (l.body.mp.mass • l.body.frame.att.mulVec l.body.comVel) = l.body.mp.mass * dot (l.body.frame.att.mulVecT V) l.body.comVel := by
          rw [← hd]; vec_ring
        rw [this, ← hn]
        generalize l.body.frame.att.mulVecT V = w
        vec_unfold; ring
      rw [q]
      have add : ∀ x y : Vec3 K, dot V (x + y) = dot V x + dot V y := fun x y => by vec_ring
      rw [add]; ring
  · rw [idx _ fun _ _ _ => rfl]
    clear idx
    generalize c.link = ls at hr
    induction ls with
    | nil => simp only [List.map_nil, List.sum_nil]; vec_ring
    | cons l ls ih =>
      have ih := ih fun l hl => hr l (by simp [hl])
      have R := hr l (by simp)
      simp only [List.map_cons, List.sum_cons, ih]
      have q : l.body.frame.att.mulVec (moveLink V 0 l).body.comVel = l.body.frame.att.mulVec l.body.comVel + V := by
        conv_rhs => rw [← R.mulVec_mulVecT V]
        simp only [moveLink]
        generalize l.body.frame.att.mulVecT V = w
        vec_ring
      have : (moveLink V 0 l).body.frame = l.body.frame := rfl
      rw [this, q]
      have : (moveLink V 0 l).body.mp = l.body.mp := rfl
      rw [this]
      vec_ring
  · rw [idx _ fun _ _ _ => rfl]
    clear idx
    generalize c.link = ls at hr
    induction ls with
    | nil => simp only [List.map_nil, List.sum_nil]; vec_ring
    | cons l ls ih =>
      have ih := ih fun l hl => hr l (by simp [hl])
      have R := hr l (by simp)
      simp only [List.map_cons, List.sum_cons, ih]
      have q : l.body.frame.att.mulVec ((moveLink V 0 l).body.am (l.body.frame.xformInv p)) =
          l.body.frame.att.mulVec (l.body.am (l.body.frame.xformInv p)) + l.body.mp.mass • cross (l.body.frame.xform l.body.mp.com - p) V := by
        have hc : ∀ u w, l.body.frame.att.mulVec (cross u (l.body.frame.att.mulVecT w)) = cross (l.body.frame.att.mulVec u) w := fun u w => by
          rw [R.mulVec_cross, R.mulVec_mulVecT]
        have hx : l.body.frame.att.mulVec (l.body.mp.com - l.body.frame.xformInv p) = l.body.frame.xform l.body.mp.com - p := by
          have hp := R.mulVec_mulVecT (p - l.body.frame.pos)
          rw [Mat3.mulVec_sub]
          simp only [Frame.xformInv, Frame.xform, hp]
          vec_ring
        rw [← hx, ← hc]
        simp only [Body.am, moveLink]
        generalize l.body.frame.att.mulVecT V = w
        generalize l.body.frame.xformInv p = z
        vec_ring
      have : (moveLink V 0 l).body.frame = l.body.frame := rfl
      rw [this, q]
      generalize l.body.frame.att.mulVec _ = x
      generalize l.body.mp.mass • cross _ V = y
      vec_ring

/-- **C141** `rkChainCalcCOMVel` of such a robot grows by `V`, if its mass is that of its links and is not zero. -/
theorem C141_com [CharZero K] (V v : Vec3 K) (c : Chain K) (hr : ∀ l ∈ c.link, l.body.frame.att.IsRot) (hm : c.mass = calcMass c.link)
    (h0 : c.mass ≠ 0) : calcCOMVel c.mass (moveChain V v c).link = calcCOMVel c.mass c.link + V := by
  have e : ∀ ls : List (Link K), calcCOMVel c.mass ls = c.mass⁻¹ • linearMomentum ls := fun ls => by
    have := foldl_add_eq (fun l : Link K => (l.body.mp.mass / c.mass) • l.body.frame.att.mulVec l.body.comVel) 0 ls
    rw [zero_add] at this
    refine this.trans ?_
    clear this
    simp only [linearMomentum]
    induction ls with
    | nil => simp only [List.map_nil, List.sum_nil]; vec_ring
    | cons l ls ih => simp only [List.map_cons, List.sum_cons, ih]; vec_ring
  rw [e, e, (C141_energy V v c hr).2.1, ← hm]
  generalize linearMomentum c.link = P
  vec_unfold
  refine ⟨?_, ?_, ?_⟩ <;> field_simp

/-! ## Forward dynamics -/

/-- **C141** Let the root of a robot float.  `rkChainABI` with `v` added to the first three joint velocities (those of the position of the root)
reports the same joint accelerations, or fails in the same cases; the robot is left in the same state except that all of its links move with the
additional velocity. -/
theorem C141_forward [LinearOrder K] [Zm K] (v : Vec3 K) (c : Chain K) (h : c.WF) (ho : setOffset c.link = c.link) (r : Link K)
    (hl : c.link[0]? = some r) (hf : Floats r.joint.prp) (hr : r.org.att.IsRot) (fx : Bool) (dis vel buf : List K) :
    c.abi fx dis (addFirst v vel) buf = (c.abi fx dis vel buf).map fun x => (moveChain (r.org.att.mulVec v) v x.1, x.2) := by
  have size : ∀ (ls : List (Link K)) (m : Link K), ls[0]? = some m → Floats m.joint.prp → jointSize ls ≠ 0 := by
    intro ls m hm hq
    cases ls with
    | nil => cases hm
    | cons a ls =>
      cases hm
      rw [jointSize_eq]
      have : m.size = 6 := floats_size hq
      simp [sizes, this]
  simp only [Chain.abi, if_neg (size c.link r hl hf), Option.bind_eq_bind]
  cases ed : setJointAll Prp.setDis dis c.link with
  | none => rfl
  | some ls =>
    obtain ⟨r1, hl1, hf1, ho1⟩ := dis_root ed hl hf
    have ho' : setOffset ls = ls := setOffset_keys (setJointAll_keys isSetter_dis.size _ _ _ ed).symm ho
    simp only [Option.bind_some]
    rw [set_drift v vel ho' hl1 hf1]
    cases ev : setJointAll Prp.setVel vel ls with
    | none => rfl
    | some ms =>
      obtain ⟨r2, hl2, hf2, ho2⟩ := vel_root ev hl1 hf1
      simp only [Option.map_some, Option.bind_some]
      have hw : Chain.WF { c with link := ms } := h.with_link (by
        have k1 := congrArg List.length (setJointAll_keep (fun l => l.org) (fun _ _ _ _ => rfl) ed)
        have k2 := congrArg List.length (setJointAll_keep (fun l => l.org) (fun _ _ _ _ => rfl) ev)
        simp only [List.length_map] at k1 k2
        exact k2.trans k1)
      have f := fk_drift v hw
      simp only [driftRoot] at f
      rw [f]
      cases ef : Chain.updateFK { c with link := ms } with
      | none => rfl
      | some c1 =>
        simp only [Option.map_some, Option.bind_some]
        have horg : r2.org = r.org := ho2.trans ho1
        have g := vel_move v hw ef hl2 hf2 (horg ▸ hr)
        rw [g, horg]
        obtain ⟨T, hT, hg, hw1, hsh, hn, -⟩ := hw.updateFK ef
        cases eg : c1.updateVel with
        | none => rfl
        | some c2 =>
          simp only [Option.map_some, Option.bind_some]
          simp only [Chain.updateVel, Option.map_eq_some_iff] at eg
          obtain ⟨ks, eg, rfl⟩ := eg
          have k1 := downAt_map (f := fun (v : Vec6 K) (l : Link K) => l.updateVel1 v) (g := fun l => l.body.vel) (fun l => Floats l.joint.prp) (fun _ _ => rfl) _ _ _ _ _ eg
          simp only [Chain.updateFK, Chain.updateFrame, Option.map_eq_some_iff] at ef
          obtain ⟨_, ⟨js, ef, rfl⟩, rfl⟩ := ef
          have k2 := downAt_map (f := fun (v : Frame K) (l : Link K) => l.updateFrame1 v) (g := fun l => l.body.frame) (fun l => Floats l.joint.prp) (fun _ _ => rfl) _ _ _ _ _ ef
          have hw2 : Chain.WF _ := hw1.with_link (ls := ks) (by simpa using congrArg List.length k1)
          have hs2 : jointSize ks ≠ 0 := by
            have k := congrArg (·[0]?) (k1.trans k2)
            simp only [List.getElem?_map, hl2, Option.map_some, Option.map_eq_some_iff] at k
            obtain ⟨m, hm, em⟩ := k
            exact size ks m hm (em ▸ hf2)
          rw [abi_move _ _ hw2 fx true hs2]
          generalize Chain.abiUpdate (K := K) fx true _ = o
          cases o with
          | none => rfl
          | some c3 =>
            simp only [Option.map_some, Option.bind_some]
            rw [getAll_move Prp.getAcc (fun v p => by cases p <;> rfl)]
            cases getJointAll Prp.getAcc c3.link buf <;> rfl

/-! ## Inverse dynamics -/

/-- **C141, partial**: inverse dynamics needs the same joint forces and finds the same accelerations of all links after `v` has been added to the
velocity of a floating root, provided that the root does not spin or spins about the direction of `v`.  The full statement drops this condition; it
is false, as the next theorem shows. -/
theorem C141_inverse_partial (v : Vec3 K) (c0 c : Chain K) (h : c0.WF) (e : c0.updateFK = some c) (r : Link K) (hl : c0.link[0]? = some r)
    (hf : Floats r.joint.prp) (hr : r.org.att.IsRot) (hj : r.joint.prp.WF) (hs : cross (spin r.joint.prp) v = 0) (g : Vec6 K) (c1 d1 : Chain K)
    (e1 : c.updateID g = some c1) (e2 : (driftRoot v c).updateID g = some d1) (buf : List K) :
    getJointAll Prp.getTrq d1.link buf = getJointAll Prp.getTrq c1.link buf ∧
    ∀ (i : ℕ) (a b : Link K), c1.link[i]? = some a → d1.link[i]? = some b →
      b.body.acc = a.body.acc ∧ b.body.comAcc = a.body.comAcc ∧ b.wrench = a.wrench := by
  have m := id_move v h e hl hf hr hj hs g e1 e2
  rw [m]
  refine ⟨getAll_move Prp.getTrq (fun v p => by cases p <;> rfl) _ _ _ _, fun i a b ha hb => ?_⟩
  simp only [moveChain, List.getElem?_mapIdx, ha, Option.map_some, Option.some.injEq] at hb
  subst hb
  exact ⟨rfl, rfl, rfl⟩

/-- **C141, violated** by `rkChainID` of a floating body that spins about another axis than the direction of the additional velocity.  A body of unit
mass spins about the vertical through its centre of mass, with no acceleration.  No force is needed to let it spin in place; if it also moves along
the x-axis with unit velocity, a force of 2 along the y-axis is reported as needed. -/
theorem C141_inverse_fails :
    let c := Sample.serial [(Sample.free, Sample.mp0, Frame.ident)]
    ∃ c0 c1 d1 : Chain ℚ, c.updateFK = some c0 ∧ c0.invDyn 0 [0, 0, 0, 0, 0, 1] [0, 0, 0, 0, 0, 0] = some c1 ∧
      c0.invDyn 0 (addFirst ⟨1, 0, 0⟩ [0, 0, 0, 0, 0, 1]) [0, 0, 0, 0, 0, 0] = some d1 ∧
      getJointAll Prp.getTrq c1.link [0, 0, 0, 0, 0, 0] = some [0, 0, 0, 0, 0, 0] ∧
      getJointAll Prp.getTrq d1.link [0, 0, 0, 0, 0, 0] = some [0, 2, 0, 0, 0, 0] := by
  refine ⟨_, _, _, rfl, rfl, rfl, ?_, ?_⟩ <;> decide +kernel

/-- A floating body that moves and spins, with a body that turns on it, meets the hypotheses of C141. -/
theorem C141_sample : let c := Sample.serial [(.float { Sample.flt 0 with vel := ⟨⟨1, 2, 3⟩, ⟨0, 0, 1⟩⟩ }, Sample.mpx, Sample.side), (Sample.turn, Sample.mpx, Sample.side)]
    c.WF ∧ setOffset c.link = c.link ∧ ∃ r, c.link[0]? = some r ∧ Floats r.joint.prp ∧ r.org.att.IsRot ∧ r.joint.prp.WF ∧
      cross (spin r.joint.prp) ⟨0, 0, 4⟩ = 0 ∧ (c.abi true [0, 0, 0, 0, 0, 0, 0] (addFirst ⟨0, 0, 4⟩ [1, 2, 3, 0, 0, 1, 1]) [0, 0, 0, 0, 0, 0, 0]).isSome := by
  refine ⟨⟨⟨_, rfl⟩, .refl _⟩, rfl, _, rfl, trivial, ?_, ?_, ?_, ?_⟩
  · constructor <;> decide +kernel
  · constructor <;> decide +kernel
  · decide +kernel
  · decide +kernel

end Roki
