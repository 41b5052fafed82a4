import Verif.Model.Apps
import Verif.Props.IKSeq
import Verif.Props.IKBind
import Verif.Lemmas.IKRat
set_option autoImplicit false

/-! # The tool `rk_ik` -/

namespace Roki
open LinkArray
variable {K : Type*} [Field K] [LinearOrder K] [Zm K] [ZSqrt K]

namespace IK

theorem runAll_snoc (o : IK.Op K) : ∀ (ops : List (IK.Op K)) {a : IK K},
    a.runAll (ops ++ [o]) = (a.runAll ops).bind fun b => o.run b
  | [], a => by simp [IK.runAll]
  | p :: ops, a => by
    rw [List.cons_append, IK.runAll, IK.runAll, Option.bind_assoc]
    cases p.run a with
    | none => rfl
    | some b => exact runAll_snoc (a := b) o ops

/-- Calls that register no joint and no constraint. -/
def Op.Plain : IK.Op K → Prop
  | .jointReg .. => False
  | .jointRegAll .. => False
  | .cellReg .. => False
  | _ => True

/-- The solver is reached by a history that has registered the joints of `ops` only, at fresh addresses. -/
def Reached (c : Chain K) (jv : List (List K) → List K → List K → List K → List K → ℕ → K) (ops : List (IK.Op K)) (ik : IK K) :
    Prop :=
  ∃ ops', Spec.FreshFrom [] ops' ∧ (IK.create c jv).runAll ops' = some ik ∧ ∀ i, Spec.ikEver ops' i → Spec.ikEver ops i

theorem freshFrom_snoc {o : IK.Op K} (ho : o.Plain) : ∀ (ops : List (IK.Op K)) (t : List (ℕ × ℕ)), Spec.FreshFrom t ops →
    Spec.FreshFrom t (ops ++ [o])
  | [], t, _ => ⟨fun ptr attr mask fns h => by rw [h] at ho; exact ho.elim, trivial⟩
  | p :: ops, t, h => ⟨h.1, freshFrom_snoc ho ops _ h.2⟩

theorem Reached.run {c : Chain K} {jv : List (List K) → List K → List K → List K → List K → ℕ → K} {ops : List (IK.Op K)}
    {ik ik' : IK K} (h : Reached c jv ops ik) {o : IK.Op K} (ho : o.Plain) (hr : o.run ik = some ik') :
    Reached c jv ops ik' := by
  obtain ⟨ops', h1, h2, h3⟩ := h
  refine ⟨ops' ++ [o], freshFrom_snoc ho _ _ h1, ?_, ?_⟩
  · rw [runAll_snoc (a := IK.create c jv), h2, Option.bind_some, hr]
  · rintro i ⟨w, hw⟩
    refine h3 i ⟨w, ?_⟩
    rcases hw with hw | hw <;> rcases List.mem_append.1 hw with hw | hw
    · exact Or.inl hw
    · rw [List.mem_singleton] at hw; rw [← hw] at ho; exact ho.elim
    · exact Or.inr hw
    · rw [List.mem_singleton] at hw; rw [← hw] at ho; exact ho.elim

theorem Reached.setEntry {c : Chain K} {jv : List (List K) → List K → List K → List K → List K → ℕ → K} {ops : List (IK.Op K)}
    {ik : IK K} (h : Reached c jv ops ik) (e : IKEntry K) : Reached c jv ops (ik.setEntry e) := by
  unfold IK.setEntry
  split_ifs
  · exact h
  · cases hf : ik.findCell e.id.toNat with
    | none => exact h
    | some x =>
      have h1 := h.run (o := .setWeight x.ptr e.w) trivial rfl
      have h2 := h1.run (o := .setRef x.ptr e.val.x e.val.y e.val.z) trivial rfl
      have : ((ik.modifyCell x.ptr fun c => c.setWeight e.w).modifyCell x.ptr fun c => c.setRef e.val.x e.val.y e.val.z) =
          ik.modifyCell x.ptr fun y => (y.setWeight e.w).setRef e.val.x e.val.y e.val.z := by
        simp only [IK.modifyCell, List.map_map]
        congr 1
        refine List.map_congr_left fun y _ => ?_
        simp only [Function.comp_apply]
        split_ifs with h1 h2
        · rfl
        · exact absurd h1 h2
        · rfl
      show Reached c jv ops (ik.modifyCell x.ptr fun y => (y.setWeight e.w).setRef e.val.x e.val.y e.val.z)
      rw [← this]; exact h2

theorem Reached.seqCellSet {c : Chain K} {jv : List (List K) → List K → List K → List K → List K → ℕ → K}
    {ops : List (IK.Op K)} (s : List (IKEntry K)) : ∀ {ik : IK K}, Reached c jv ops ik →
    Reached c jv ops (s.foldl IK.setEntry ik) := by
  induction s with
  | nil => intro ik h; exact h
  | cons e s ih => intro ik h; exact ih (h.setEntry e)
end IK

/-- What `rk_ik` should do with the steps `cs`, beginning with the solver `st 0`: for each step all constraints are first held
at the present pose (`rkIKDeactivate`, `rkIKBind`), then those named in the step, and only those, get its weights and
references (`Spec.applyEntries`); the solver starts from where the step before has left it; and the line has the duration
of the step and the vector the solver has computed. -/
def Spec.IKRun (maxIter : ℕ) (tol : K) (iter : ℤ) (cs : List (IKSeqCell K)) (out : List (K × List K)) (st : ℕ → IK K)
    (v : ℕ → List K) : Prop :=
  out.length = cs.length ∧ ∀ (k : ℕ) s, cs[k]? = some s → ∃ b r, (st k).deactivate.bind = some b ∧
    IK.solve maxIter { b with clist := b.clist.map (Spec.applyEntries s.entry) } (v k) tol iter =
      some (r, st (k + 1), v (k + 1)) ∧
    out[k]? = some (s.dt, v (k + 1))

/-- One step keeps the solver reached. -/
theorem IK.Reached.step {c : Chain K} {jv : List (List K) → List K → List K → List K → List K → ℕ → K} {ops : List (IK.Op K)}
    {a b a' : IK K} (ha : IK.Reached c jv ops a) (hb : a.deactivate.bind = some b) (s : IKSeqCell K) :
    b.seqCellSet s = { b with clist := b.clist.map (Spec.applyEntries s.entry) } ∧
    ∀ {maxIter : ℕ} {w w' : List K} {tol : K} {iter r : ℤ},
      (b.seqCellSet s).solve maxIter w tol iter = some (r, a', w') → IK.Reached c jv ops a' := by
  have ha1 : IK.Reached c jv ops b := (ha.run (o := .deactivate) trivial rfl).run (o := .bind) trivial hb
  have ha2 : IK.Reached c jv ops (b.seqCellSet s) := IK.Reached.seqCellSet s.entry ha1
  obtain ⟨ops', f1, f2, -⟩ := ha1
  refine ⟨C59_step c jv ops' b f1 f2 s, fun {maxIter w w' tol iter r} hs => ?_⟩
  exact ha2.run (o := .solve maxIter w tol iter) trivial (by simp only [IK.Op.run, hs, Option.map_some])

theorem IK.Reached.along {c : Chain K} {jv : List (List K) → List K → List K → List K → List K → ℕ → K}
    {ops : List (IK.Op K)} {maxIter : ℕ} {tol : K} {iter : ℤ} {cs : List (IKSeqCell K)} {out : List (K × List K)}
    {st : ℕ → IK K} {v : ℕ → List K} (h : Spec.IKRun maxIter tol iter cs out st v) (h0 : IK.Reached c jv ops (st 0)) :
    ∀ k ≤ cs.length, IK.Reached c jv ops (st k)
  | 0, _ => h0
  | k + 1, hk => by
    have ih := IK.Reached.along h h0 k (by omega)
    obtain ⟨b, r, hb, hs, -⟩ := h.2 k cs[k] (List.getElem?_eq_getElem (by omega))
    have := ih.step (a' := st (k + 1)) hb cs[k]
    exact this.2 (by rw [this.1]; exact hs)

/-- **C82** The output of `rk_ik`, for a sequence of any length after any history of calls on the solver: one line for each
step and in its order, and each step is done as `Spec.IKRun` says. -/
theorem C82_ik_log (c : Chain K) (jv : List (List K) → List K → List K → List K → List K → ℕ → K) (ops : List (IK.Op K))
    (ik : IK K) (hf : Spec.FreshFrom [] ops) (h : (IK.create c jv).runAll ops = some ik) (maxIter : ℕ) (tol : K) (iter : ℤ)
    (seq : List (IKSeqCell K)) (out : List (K × List K)) (ho : Apps.rkIk maxIter tol iter seq ik = some out) :
    ∃ (st : ℕ → IK K) (v : ℕ → List K), st 0 = ik ∧ v 0 = List.replicate (jointSize ik.chain.link) 0 ∧
      Spec.IKRun maxIter tol iter seq.reverse out st v := by
  have key : ∀ (cs : List (IKSeqCell K)) (a : IK K) (w : List K) (os : List (K × List K)), IK.Reached c jv ops a →
      Apps.ikLoop maxIter tol iter cs a w = some os → ∃ (st : ℕ → IK K) (v : ℕ → List K), st 0 = a ∧ v 0 = w ∧
        Spec.IKRun maxIter tol iter cs os st v := by
    intro cs
    induction cs with
    | nil =>
      intro a w os _ e
      simp only [Apps.ikLoop, Option.some.injEq] at e
      subst e
      exact ⟨fun _ => a, fun _ => w, rfl, rfl, rfl, by simp⟩
    | cons s cs ih =>
      intro a w os ha e
      simp only [Apps.ikLoop, bind, Option.bind_eq_some_iff, pure, Option.some.injEq] at e
      obtain ⟨b, hb, ⟨r, a', w'⟩, hs, os', hl, rfl⟩ := e
      have hstep := ha.step (a' := a') hb s
      obtain ⟨st, v, i1, i2, n, i3⟩ := ih a' w' os' (hstep.2 hs) hl
      refine ⟨fun k => match k with | 0 => a | k + 1 => st k, fun k => match k with | 0 => w | k + 1 => v k, rfl, rfl,
        by simp [n], ?_⟩
      rintro (_ | k) s' hk
      · simp only [List.getElem?_cons_zero, Option.some.injEq] at hk
        subst hk
        refine ⟨b, r, hb, ?_, ?_⟩
        · rw [← hstep.1]
          simp only [i1, i2, hs]
        · simp only [i2, List.getElem?_cons_zero]
      · obtain ⟨b', r', j1, j2, j3⟩ := i3 k s' (by simpa using hk)
        exact ⟨b', r', j1, j2, by simpa using j3⟩
  exact key seq.reverse ik _ out ⟨ops, hf, h, fun _ hi => hi⟩ ho

/-- **C82** In every step, a constraint that the step does not name is switched on with the weight it has, and its reference
is what it constrains as the step before has left it, with no error at the beginning.  Missing: the constraints
on the angular momentum, as in `C41_bind_partial`. -/
theorem C82_hold_partial [IsStrictOrderedRing K] [LawfulZm K] {maxIter : ℕ} {tol : K} {iter : ℤ} {cs : List (IKSeqCell K)}
    {out : List (K × List K)} {st : ℕ → IK K} {v : ℕ → List K} (h : Spec.IKRun maxIter tol iter cs out st v) (k : ℕ)
    (s : IKSeqCell K) (hk : cs[k]? = some s) (hr : ∀ l ∈ (st k).chain.link, l.body.frame.att.IsRot) :
    ∃ b r, (st k).deactivate.bind = some b ∧
      IK.solve maxIter { b with clist := b.clist.map (Spec.applyEntries s.entry) } (v k) tol iter =
        some (r, st (k + 1), v (k + 1)) ∧
      ∀ x ∈ b.clist, (∀ e ∈ s.entry, e.id ≠ (x.id : ℤ)) → Spec.applyEntries s.entry x = x ∧
        x.attr.xon = true ∧ x.attr.yon = true ∧ x.attr.zon = true ∧
        (Spec.Geometric x.fns → Spec.IkNow (st k).chain x.attr x.fns x.ref ∧
          x.fns.srv (st k).chain x.attr x.ref = some 0) := by
  obtain ⟨b, r, hb, hs, -⟩ := h.2 k s hk
  refine ⟨b, r, hb, hs, fun x hx he => ⟨?_, ?_⟩⟩
  · rw [Spec.applyEntries, List.filter_eq_nil_iff.2 (by simpa using he), List.foldl_nil]
  · obtain ⟨hc, hx'⟩ := C41_bind_partial (st k).deactivate b hb hr
    have := hx' x hx
    rw [hc] at this
    exact this

/-- **C82** A joint that was never registered is at the same place at every step of the tool, whatever the
sequence is. -/
theorem C82_unregistered [IsStrictOrderedRing K] [LawfulZm K] (c : Chain K) (jv : List (List K) → List K → List K → List K → List K → ℕ → K)
    (hof : setOffset c.link = c.link) (ops : List (IK.Op K)) (hf : Spec.FreshFrom [] ops) {maxIter : ℕ} {tol : K} {iter : ℤ}
    {cs : List (IKSeqCell K)} {out : List (K × List K)} {st : ℕ → IK K} {v : ℕ → List K}
    (h0 : (IK.create c jv).runAll ops = some (st 0)) (h : Spec.IKRun maxIter tol iter cs out st v) (i : ℕ)
    (hi : ¬ Spec.ikEver ops i) (l : Link K) (hl : (st 0).chain.link[i]? = some l) (hset : l.joint.prp.Settled)
    (hlim : Spec.Respects l.joint.prp l.joint.prp.getDis) :
    ∀ k ≤ cs.length, ∃ l', (st k).chain.link[i]? = some l' ∧ Spec.SamePlace l.joint.prp l'.joint.prp ∧
      l'.joint.prp.Settled ∧ Spec.Respects l'.joint.prp l'.joint.prp.getDis := by
  intro k
  induction k with
  | zero => exact fun _ => ⟨l, hl, ⟨rfl, fun _ => rfl, fun _ => rfl⟩, hset, hlim⟩
  | succ k ih =>
    intro hk
    obtain ⟨m, hm, hp, h1, h2⟩ := ih (by omega)
    have hR := IK.Reached.along h ⟨ops, hf, h0, fun _ hi => hi⟩ k (by omega)
    obtain ⟨b, r, hb, hs, -⟩ := h.2 k cs[k] (List.getElem?_eq_getElem (by omega))
    have hbc : b.chain = (st k).chain := by
      have hb' := hb
      simp only [IK.bind, Option.map_eq_some_iff] at hb'
      obtain ⟨_, _, rfl⟩ := hb'
      rfl
    have hstep := hR.step (a' := st (k + 1)) hb cs[k]
    obtain ⟨ops', f1, f2, f3⟩ := IK.Reached.seqCellSet cs[k].entry
      ((hR.run (o := .deactivate) trivial rfl).run (o := .bind) trivial hb)
    obtain ⟨ops'', -, g2, -⟩ := IK.Reached.along h ⟨ops, hf, h0, fun _ hi => hi⟩ (k + 1) hk
    change (IK.create c jv).runAll ops' = some (b.seqCellSet cs[k]) at f2
    have hk1 := (IK.runAll_joints ops' (IK.Joints.create c jv) f2).keys
    have hk2 := (IK.runAll_joints ops'' (IK.Joints.create c jv) g2).keys
    rw [hstep.1] at f2 hk1
    have hm' : b.chain.link[i]? = some m := by rw [hbc]; exact hm
    have hlen : i < (st (k + 1)).chain.link.length := by
      have e1 := keys_length hk1
      have e2 := keys_length hk2
      have := (List.getElem?_eq_some_iff.1 hm').1
      simp only at e1
      omega
    obtain ⟨j1, j2, j3⟩ := C38_unregistered_stays_partial c jv hof ops' _ _ f2 i (fun hi' => hi (f3 i hi')) maxIter _ _ tol
      iter r hs m _ hm' (List.getElem?_eq_getElem hlen) h1 h2
    exact ⟨_, List.getElem?_eq_getElem hlen, SamePlace.trans hp j1, j2, j3⟩

/-- Two steps on two sliders, the first of which is registered and constrained: the tool has two lines, in the order of the
steps, and the second slider stays. -/
example : (Sample.ik.runAll [.jointReg 0 1, Sample.regPos 5 0]).bind (Apps.rkIk 10 1 1
    [⟨2, [⟨0, ⟨1, 1, 1⟩, ⟨0, 0, 2⟩⟩]⟩, ⟨1, [⟨0, ⟨1, 1, 1⟩, ⟨0, 0, 1⟩⟩]⟩]) = some [(1, [1 / 3, 0]), (2, [88 / 129, 0])] := by
  decide +kernel

/-- The histories and the joint of the theorems above. -/
example : Spec.FreshFrom [] [.jointReg 0 1, Sample.regPos 5 0] ∧ ¬ Spec.ikEver [.jointReg 0 1, Sample.regPos 5 0] 1 ∧
    LinkArray.setOffset Sample.sliders.link = Sample.sliders.link := by
  refine ⟨?_, ?_, by rfl⟩
  · simp [Spec.FreshFrom, Spec.ikTableStep, Sample.regPos]
  · simp [Spec.ikEver, Sample.regPos]
end Roki
