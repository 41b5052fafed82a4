import Verif.Lemmas.ABIDyn
set_option autoImplicit false

/-! # Inverse dynamics on the result of forward dynamics -/

namespace Roki
open Spec
variable {K : Type*} [Field K]

/-- What the passes of forward dynamics do not change and inverse dynamics depends on. -/
def Link.abiKey (l : Link K) :=
  (l.adj, l.body.frame, l.body.vel, l.body.mp, l.body.extw, l.abi.m, l.abi.f, l.abi.w, l.abi.c,
    (l.abi.wlist, l.joint.prp.incAccOnVel, l.joint.prp.incVel))

theorem Prp.key_drive (p : Prp K) :
    p.abiDrivingTorque.incAccOnVel = p.incAccOnVel ∧ p.abiDrivingTorque.incVel = p.incVel := by
  cases p <;> exact ⟨rfl, rfl⟩

theorem Prp.key_qacc (fx : Bool) (p : Prp K) (m : Mat6 K) (b j : Vec6 K) (ih : ℕ → ℕ → K) (a : Vec6 K) :
    (p.abiQAcc fx m b j ih a).1.incAccOnVel = p.incAccOnVel ∧
    (p.abiQAcc fx m b j ih a).1.incVel = p.incVel := by
  cases p <;> (try cases fx) <;> exact ⟨rfl, rfl⟩

theorem Link.abiKey_back [Zm K] (fx : Bool) (l : Link K) (d : Mat6 K × Vec6 K) :
    ((l.abiAdd d).abiBackward fx).abiKey = l.abiKey := by
  simp only [Link.abiKey, Link.abiBackward, Link.abiAdd, Prp.key_drive]

theorem Link.abiKey_step (fx wr : Bool) (pa : Vec6 K) (l : Link K) :
    (LTree.abiStep fx wr pa l).abiKey = l.abiKey := by
  cases wr <;> simp [Link.abiKey, LTree.abiStep, Link.abiForward, Link.abiWrench, Prp.key_qacc]

namespace LTree

theorem abiBack_map_inv [Zm K] {β : Type*} (fx : Bool) (h : Link K → β)
    (hh : ∀ (l : Link K) d, h ((l.abiAdd d).abiBackward fx) = h l) (T : LTree (Link K)) :
    (T.abiBack fx).1.map h = T.map h := by
  induction T with
  | nil => rfl
  | node l c s ihc ihs => simp only [abiBack, map, hh, ihc, ihs]

theorem abiKey_update [Zm K] (fx wr : Bool) (T : LTree (Link K)) (pa : Vec6 K) :
    ((T.abiBack fx).1.abiFwd fx wr pa).map Link.abiKey = T.map Link.abiKey := by
  rw [abiFwd, down_map_inv _ (fun _ _ => Link.abiKey_step fx wr _ _), abiBack_map_inv _ _ (Link.abiKey_back fx)]

/-- The data of the initialisation are those of the state. -/
def InitOK (pv : Vec6 K) : LTree (Link K) → Prop
  | nil => True
  | node l c s => (l.abi.f = (l.abiUpdateInit pv).abi.f ∧ l.abi.w = (l.abiUpdateInit pv).abi.w ∧
      l.abi.c = (l.abiUpdateInit pv).abi.c) ∧ InitOK l.body.vel c ∧ InitOK pv s

theorem initOK_abiInit (pv : Vec6 K) (T : LTree (Link K)) : InitOK pv (T.abiInit pv) := by
  induction T generalizing pv with
  | nil => trivial
  | node l c s ihc ihs => exact ⟨⟨rfl, rfl, rfl⟩, ihc _, ihs _⟩

theorem initOK_congr {pv : Vec6 K} {T U : LTree (Link K)} (h : T.map Link.abiKey = U.map Link.abiKey)
    (hT : InitOK pv T) : InitOK pv U := by
  induction T generalizing pv U with
  | nil => cases U <;> simp_all [map, InitOK]
  | node l c s ihc ihs =>
    rcases U with _ | ⟨l', c', s'⟩
    · simp [map] at h
    · simp only [map, node.injEq, Link.abiKey, Prod.mk.injEq] at h
      obtain ⟨⟨k1, k2, k3, k4, k5, k6, k7, k8, k9, k10, k11, k12⟩, hc, hs⟩ := h
      obtain ⟨⟨a1, a2, a3⟩, hc', hs'⟩ := hT
      refine ⟨?_, ?_, ihs hs hs'⟩
      · rw [← k7, ← k8, ← k9, a1, a2, a3]
        simp only [Link.abiUpdateInit, Body.calcExtWrench, k1, k2, k3, k4, k5, k6, k10, k11, and_self]
      · rw [← k3]; exact ihc hc hc'

theorem velOK_key {pv : Vec6 K} {T U : LTree (Link K)} (h : T.map Link.abiKey = U.map Link.abiKey)
    (hT : VelOK pv T) : VelOK pv U := by
  induction T generalizing pv U with
  | nil => cases U <;> simp_all [map, VelOK]
  | node l c s ihc ihs =>
    rcases U with _ | ⟨l', c', s'⟩
    · simp [map] at h
    · simp only [map, node.injEq, Link.abiKey, Prod.mk.injEq] at h
      obtain ⟨⟨k1, k2, k3, k4, k5, k6, k7, k8, k9, k10, k11, k12⟩, hc, hs⟩ := h
      obtain ⟨a1, hc', hs'⟩ := hT
      refine ⟨?_, ?_, ihs hs hs'⟩
      · rw [← k3, a1, k12, k1]
      · rw [← k3]; exact ihc hc hc'

theorem velOK_updateVel (pv : Vec6 K) (T : LTree (Link K)) : VelOK pv (T.updateVel pv) := by
  induction T generalizing pv with
  | nil => trivial
  | node l c s ihc ihs => exact ⟨rfl, ihc _, ihs _⟩

end LTree

/-! ## One link -/

theorem Prp.incAccOnVel_eq (p : Prp K) (w : Vec3 K) (a : Vec6 K) :
    p.incAccOnVel w a = a + p.incAccOnVel w 0 := by
  cases p <;> simp only [Prp.incAccOnVel] <;> vec_ring

theorem Prp.incAcc_add (p : Prp K) (a d : Vec6 K) : p.incAcc (a + d) = p.incAcc a + d := by
  cases p <;> simp only [Prp.incAcc] <;> vec_ring

/-- The velocity terms of the acceleration of a joint, from the angular velocity of the parent and
from that of the link. -/
theorem Prp.incAccOnVel_own (p : Prp K) (v : Vec6 K) (a : Vec6 K)
    (hf : ∀ d, p = .float d ∨ p = .brfloat d → d.att.IsRot ∧ cross d.vel.lin d.vel.ang = 0) :
    p.incAccOnVel (p.incVel v).ang a = p.incAccOnVel v.ang a := by
  have key : ∀ d : FloatPrp K, d.att.IsRot ∧ cross d.vel.lin d.vel.ang = 0 →
      (⟨cat a.lin 2 (cross (v + d.att.mulVecT6 d.vel).ang (d.att.mulVecT d.vel.lin)),
        a.ang + cross (v + d.att.mulVecT6 d.vel).ang (d.att.mulVecT d.vel.ang)⟩ : Vec6 K) =
      ⟨cat a.lin 2 (cross v.ang (d.att.mulVecT d.vel.lin)), a.ang + cross v.ang (d.att.mulVecT d.vel.ang)⟩ := by
    intro d ⟨hR, h0⟩
    simp only [Vec6.add_ang, Mat3.mulVecT6, cross_add_left, ← hR.mulVecT_cross, cross_self, Mat3.mulVecT_zero,
      add_zero, cross_anticomm d.vel.ang d.vel.lin, h0, neg_zero]
  cases p with
  | fixed => rfl
  | revol p => simp only [Prp.incAccOnVel, Prp.incVel]
  | prism p => simp only [Prp.incAccOnVel, Prp.incVel]
  | cylin p => simp only [Prp.incAccOnVel, Prp.incVel]
  | hooke p => simp only [Prp.incAccOnVel, Prp.incVel]; vec_ring
  | spher p => simp only [Prp.incAccOnVel, Prp.incVel, cross_add_left, cross_self, add_zero]
  | float d => simp only [Prp.incAccOnVel, Prp.incVel]; exact key d (hf d (.inl rfl))
  | brfloat d => simp only [Prp.incAccOnVel, Prp.incVel]; exact key d (hf d (.inr rfl))

/-- The inertial wrench of inverse dynamics is that of forward dynamics minus the weight. -/
theorem Body.netWrench_abi (mp : MP K) (w al a g : Vec3 K) :
    (⟨mp.mass • (triple w w mp.com + cross al mp.com + (a + g)),
      cross w (mp.inertia.mulVec w) + mp.inertia.mulVec al⟩ : Vec6 K).angShift mp.com =
    (Link.abiInertia mp).mulVec ⟨a, al⟩ +
      ⟨mp.mass • triple w w mp.com, cross w ((Link.abiInertia mp).aa.mulVec w)⟩ -
      ⟨-(mp.mass • g), cross mp.com (-(mp.mass • g))⟩ := by
  simp only [Link.abiInertia, Mat6.mulVec, Mat3.sub_mulVec, Mat3.neg_mulVec, Mat3.mul_mulVec, Mat3.skew_mulVec,
    Mat3.smul_mulVec, Mat3.one_mulVec, Vec6.angShift]
  vec_ring

/-- A link after the rates have been recomputed with gravity. -/
theorem Link.updateRate1_abi {fx : Bool} {l : Link K} {pv pa : Vec6 K} {pf : Frame K} {g : Vec3 K}
    (hfr : l.body.frame = pf.cascade l.adj) (hv : l.body.vel = l.joint.prp.incVel (l.adj.xform6Lin pv))
    (hc : l.abi.c = (l.abiUpdateInit pv).abi.c) (ha : LTree.AccEq fx pa l)
    (hfx : fx = true → ∀ d, l.joint.prp ≠ .brfloat d)
    (hf : ∀ d, l.joint.prp = .float d ∨ l.joint.prp = .brfloat d →
      d.att.IsRot ∧ cross d.vel.lin d.vel.ang = 0) :
    (l.updateRate1 pv (pa + ⟨pf.att.mulVecT g, 0⟩)).body.vel = l.body.vel ∧
    (l.updateRate1 pv (pa + ⟨pf.att.mulVecT g, 0⟩)).body.acc =
      l.body.acc + ⟨l.body.frame.att.mulVecT g, 0⟩ := by
  refine ⟨hv.symm, ?_⟩
  have ha' : l.body.acc = l.joint.prp.incAcc (l.adj.xform6Lin pa + l.abi.c) := by
    cases hp : l.joint.prp <;> simp only [LTree.AccEq, hp] at ha <;> try exact ha
    cases fx with
    | true => exact absurd hp (hfx rfl _)
    | false => simpa using ha
  rw [ha', ← Prp.incAcc_add]
  simp only [Link.updateRate1, Link.updateAcc1, Link.updateVel1, Body.updateCOMAcc, Body.updateCOMVel]
  congr 1
  rw [Prp.incAccOnVel_own _ _ _ hf, Prp.incAccOnVel_eq, hc, hfr]
  simp only [Link.abiUpdateInit, Frame.cascade_att, Mat3.mul_mulVecT]
  have e : (l.adj.xform6Lin pv).ang = l.adj.att.mulVecT pv.ang := rfl
  rw [e]
  generalize l.joint.prp.incAccOnVel (l.adj.att.mulVecT pv.ang) 0 = k
  simp only [Vec6.ext_iff, Frame.xform6Lin, Mat3.mulVecT6, Vec6.linShift, Vec6.add_lin, Vec6.add_ang, triple,
    add_zero, Mat3.mulVecT_add]
  refine ⟨by abel, trivial⟩

namespace LTree
variable [LinearOrder K] [IsStrictOrderedRing K] [Zm K]

theorem addChildWrench_congr {T U : LTree (Link K)}
    (h : T.map (fun l => (l.adj, l.joint.wrench)) = U.map fun l => (l.adj, l.joint.wrench)) (w : Vec6 K) :
    T.addChildWrench w = U.addChildWrench w := by
  induction T generalizing U w with
  | nil => cases U <;> simp_all [map, addChildWrench]
  | node l c s _ ihs =>
    rcases U with _ | ⟨l', c', s'⟩
    · simp [map] at h
    · simp only [map, node.injEq, Prod.mk.injEq] at h
      simp only [addChildWrench, h.1.1, h.1.2]
      exact ihs h.2.2 _

/-- **Inverse dynamics gives back the wrenches of forward dynamics.** -/
theorem dyn_updateWrench {fx : Bool} (g : K) (hg : g = rkG) (U : LTree (Link K)) (pf : Frame K) (pv pa : Vec6 K)
    (hd : U.Dyn fx pa) (hfr : U.FrameOK pf) (hv : U.VelOK pv) (hi : U.InitOK pv)
    (hm : ∀ l ∈ U.toList, l.abi.m = Link.abiInertia l.body.mp ∧ l.abi.wlist = [])
    (hfx : fx = true → ∀ l ∈ U.toList, ∀ d, l.joint.prp ≠ .brfloat d)
    (hf : ∀ l ∈ U.toList, ∀ d, l.joint.prp = .float d ∨ l.joint.prp = .brfloat d →
      d.att.IsRot ∧ cross d.vel.lin d.vel.ang = 0) :
    (U.updateRate pv (pa + ⟨pf.att.mulVecT ⟨0, 0, g⟩, 0⟩)).updateWrench.map (fun l => (l.adj, l.joint)) =
      U.map fun l => (l.adj, ⟨l.joint.prp.calcTrq l.joint.wrench, l.joint.wrench⟩) := by
  induction U generalizing pf pv pa with
  | nil => rfl
  | node l c s ihc ihs =>
    obtain ⟨hn, hdc, hds⟩ := hd
    obtain ⟨hl, hfc, hfs⟩ := hfr
    obtain ⟨hvl, hvc, hvs⟩ := hv
    obtain ⟨⟨i1, i2, i3⟩, hic, his⟩ := hi
    simp only [toList, List.mem_cons, List.mem_append] at hm hfx hf
    obtain ⟨v', a'⟩ := Link.updateRate1_abi (g := ⟨0, 0, g⟩) hl hvl i3 hn.acc (fun e => hfx e l (.inl rfl)) (hf l (.inl rfl))
    have es := ihs pf pv pa hds hfs hvs his (fun m hm' => hm m (.inr (.inr hm')))
      (fun e m hm' => hfx e m (.inr (.inr hm'))) (fun m hm' => hf m (.inr (.inr hm')))
    have ec := ihc l.body.frame l.body.vel l.body.acc hdc hfc hvc hic (fun m hm' => hm m (.inr (.inl hm')))
      (fun e m hm' => hfx e m (.inr (.inl hm'))) (fun m hm' => hf m (.inr (.inl hm')))
    simp only [updateRate, updateWrench, map, v', a', es, ec, node.injEq, and_true, Prod.mk.injEq]
    have ew : ∀ w, ((c.updateRate l.body.vel (l.body.acc + ⟨l.body.frame.att.mulVecT ⟨0, 0, g⟩, 0⟩)).updateWrench).addChildWrench w =
        c.addChildWrench w := by
      intro w
      refine addChildWrench_congr ?_ w
      have := congrArg (LTree.map fun x : Frame K × Joint K => (x.1, x.2.wrench)) ec
      rw [LTree.map_map, LTree.map_map] at this
      exact this
    rw [ew]
    have hw : (l.updateRate1 pv (pa + ⟨pf.att.mulVecT ⟨0, 0, g⟩, 0⟩)).body.netWrench.angShift
          (l.updateRate1 pv (pa + ⟨pf.att.mulVecT ⟨0, 0, g⟩, 0⟩)).body.mp.com -
        (l.updateRate1 pv (pa + ⟨pf.att.mulVecT ⟨0, 0, g⟩, 0⟩)).body.calcExtWrench =
        l.abi.m.mulVec l.body.acc + l.abi.f - l.abi.w := by
      have e1 : (l.updateRate1 pv (pa + ⟨pf.att.mulVecT ⟨0, 0, g⟩, 0⟩)).body.netWrench =
          ⟨l.body.mp.mass • (triple l.body.vel.ang l.body.vel.ang l.body.mp.com +
              cross l.body.acc.ang l.body.mp.com + (l.body.acc.lin + l.body.frame.att.mulVecT ⟨0, 0, g⟩)),
            cross l.body.vel.ang (l.body.mp.inertia.mulVec l.body.vel.ang) +
              l.body.mp.inertia.mulVec l.body.acc.ang⟩ := by
        have e0 : (l.updateRate1 pv (pa + ⟨pf.att.mulVecT ⟨0, 0, g⟩, 0⟩)).body.comAcc =
          triple (l.updateRate1 pv (pa + ⟨pf.att.mulVecT ⟨0, 0, g⟩, 0⟩)).body.vel.ang
            (l.updateRate1 pv (pa + ⟨pf.att.mulVecT ⟨0, 0, g⟩, 0⟩)).body.vel.ang l.body.mp.com +
          cross (l.updateRate1 pv (pa + ⟨pf.att.mulVecT ⟨0, 0, g⟩, 0⟩)).body.acc.ang l.body.mp.com +
          (l.updateRate1 pv (pa + ⟨pf.att.mulVecT ⟨0, 0, g⟩, 0⟩)).body.acc.lin := rfl
        have e00 : (l.updateRate1 pv (pa + ⟨pf.att.mulVecT ⟨0, 0, g⟩, 0⟩)).body.mp = l.body.mp := rfl
        simp only [Body.netWrench, e0, e00, v', a', Vec6.add_ang, Vec6.add_lin, add_zero]
      have e2 : (l.updateRate1 pv (pa + ⟨pf.att.mulVecT ⟨0, 0, g⟩, 0⟩)).body.mp.com = l.body.mp.com := rfl
      have e3 : (l.updateRate1 pv (pa + ⟨pf.att.mulVecT ⟨0, 0, g⟩, 0⟩)).body.calcExtWrench =
        l.body.calcExtWrench := rfl
      rw [e1, e2, e3, Body.netWrench_abi, i1, i2, (hm l (.inl rfl)).1]
      simp only [Link.abiUpdateInit, (hm l (.inl rfl)).1, (hm l (.inl rfl)).2, hg]
      have e4 : l.body.frame.att.mulVecT (⟨0, 0, -rkG * l.body.mp.mass⟩ : Vec3 K) =
          -(l.body.mp.mass • l.body.frame.att.mulVecT (⟨0, 0, rkG⟩ : Vec3 K)) := by
        rw [← Mat3.mulVecT_smul, ← Mat3.mulVecT_neg]
        congr 1
        vec_ring
      have e5 : WrenchList.net ([] : WrenchList K) = 0 := rfl
      rw [e4, e5, zero_add]
      generalize -(l.body.mp.mass • l.body.frame.att.mulVecT (⟨0, 0, rkG⟩ : Vec3 K)) = q
      simp only [Vec6.ext_iff, Vec6.sub_lin, Vec6.sub_ang, Vec6.add_lin, Vec6.add_ang]
      refine ⟨by abel, by abel⟩
    have hF : c.addChildWrench ((l.updateRate1 pv (pa + ⟨pf.att.mulVecT ⟨0, 0, g⟩, 0⟩)).body.netWrench.angShift
          (l.updateRate1 pv (pa + ⟨pf.att.mulVecT ⟨0, 0, g⟩, 0⟩)).body.mp.com) -
        (l.updateRate1 pv (pa + ⟨pf.att.mulVecT ⟨0, 0, g⟩, 0⟩)).body.calcExtWrench = l.joint.wrench := by
      rw [addChildWrench_eq, hn.balance, ← hw]; abel
    rw [hF]
    exact ⟨rfl, rfl⟩

end LTree
