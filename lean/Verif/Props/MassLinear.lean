import Verif.Lemmas.MassLinear2
import Verif.Props.VirtualWork
import Verif.Props.Mass
set_option autoImplicit false

/-!
# How the masses and loads of links enter the joint torques

C100 superposition of masses and loads, C101 what a joint moves and what it carries.
-/

namespace Roki
set_option linter.unusedSectionVars false
open Spec LinkArray
variable {K : Type*} [Field K]

/-! ## C100 -/

/-- **C100** At a pose reached by forward kinematics, let every link be given mass properties `p i`, `q i` or `r i` and external
wrenches `e i`, `f i` or `k i`, where mass, first moment, second moment and resultant wrench of the third are `a` times the first plus
`b` times the second.  Then inverse dynamics with the same joint velocities, accelerations and gravity gives: the same velocity and
acceleration of every link, joint wrenches and joint torques that are `a` times the first plus `b` times the second. -/
theorem C100_superposition (c c1 : Chain K) (h : c.WF) (hr : ∀ l ∈ c.link, l.org.att.IsRot ∧ l.joint.prp.WF)
    (ho : setOffset c.link = c.link) (h1 : c.updateFK = some c1) (g : Vec6 K) (vel acc : List K)
    (hv : vel.length = jointSize c.link) (ha : acc.length = jointSize c.link)
    (a b : K) (p q r : ℕ → MP K) (e f k : ℕ → WrenchList K)
    (hm : ∀ i < c.link.length, Blend a b (p i) (q i) (r i))
    (hf : ∀ i < c.link.length, (resultant (k i)).1 = a • (resultant (e i)).1 + b • (resultant (f i)).1)
    (hn : ∀ i < c.link.length, (resultant (k i)).2 = a • (resultant (e i)).2 + b • (resultant (f i)).2) :
    ∃ x2 y2 z2 : Chain K, (withLoad p e c1).invDyn g vel acc = some x2 ∧ (withLoad q f c1).invDyn g vel acc = some y2 ∧
      (withLoad r k c1).invDyn g vel acc = some z2 ∧
      (∀ (i : ℕ) (x y z : Link K), x2.link[i]? = some x → y2.link[i]? = some y → z2.link[i]? = some z →
        x.body.vel = z.body.vel ∧ x.body.acc = z.body.acc ∧
        z.joint.wrench = a • x.joint.wrench + b • y.joint.wrench) ∧
      ∃ τx τy τz, torques x2 = some τx ∧ torques y2 = some τy ∧ torques z2 = some τz ∧
        τx.length = jointSize c.link ∧ τy.length = jointSize c.link ∧
        τz = List.zipWith (fun s t => a * s + b * t) τx τy := by
  obtain ⟨hp, hz⟩ := posed_of_fk h hr ho h1
  have hlen : c1.link.length = c.link.length := by
    have := (ZTK.updateFK_map (fun l : Link K => l.offset) (fun _ _ => rfl) h1).1
    simpa using congrArg List.length this
  rw [← hz] at hv ha ⊢
  rw [← hlen] at hm hf hn
  have sx := jointSize_withLoad p e hp.off
  have sy := jointSize_withLoad q f hp.off
  have sz := jointSize_withLoad r k hp.off
  have px := hp.withLoad p e
  have py := hp.withLoad q f
  have pz := hp.withLoad r k
  obtain ⟨x2, ex⟩ := px.invDyn g (v := vel) (a := acc) (by rw [sx, hv]) (by rw [sx, ha])
  obtain ⟨y2, ey⟩ := py.invDyn g (v := vel) (a := acc) (by rw [sy, hv]) (by rw [sy, ha])
  obtain ⟨z2, ez⟩ := pz.invDyn g (v := vel) (a := acc) (by rw [sz, hv]) (by rw [sz, ha])
  obtain ⟨lx, X, rx⟩ := px.run (by rw [sx, hv]) (by rw [sx, ha]) ex
  obtain ⟨ly, Y, ry⟩ := py.run (by rw [sy, hv]) (by rw [sy, ha]) ey
  obtain ⟨lz, Z, rz⟩ := pz.run (by rw [sz, hv]) (by rw [sz, ha]) ez
  have key := superposition hp rx ry rz hm (by
    intro i hi
    rw [net_resultant, net_resultant, net_resultant, hf i hi, hn i hi]
    rfl)
  refine ⟨x2, y2, z2, ex, ey, ez, ?_, ?_⟩
  · intro i x y z hx hy hz'
    have hi : i ∈ (withLoad p e c1).shape.toList := by
      have := rx.wf.mem.2 (List.getElem?_eq_some_iff.1 hx).1
      rwa [rx.shape] at this
    obtain ⟨kv, ka⟩ := kin_tree 0 g rx.tree rz.tree rx.tree2 rz.tree2 (fun i _ x y hx hy => by
      obtain ⟨k1, k2, k3, k4⟩ := kin_of_runs rx rz hx hy
      exact ⟨k1, k2, k3, k4⟩) hi hx hz'
    exact ⟨kv, ka, (key i x y z hx hy hz').wr⟩
  · obtain ⟨tx, nx⟩ := rx.torques px
    obtain ⟨ty, ny⟩ := ry.torques py
    obtain ⟨tz, nz⟩ := rz.torques pz
    refine ⟨_, _, _, tx, ty, tz, by rw [nx, sx], by rw [ny, sy], ?_⟩
    refine flatten_zipWith a b ?_ ?_ ?_
    · intro i l m n hl hm' hn'
      refine ⟨(key i l m n hl hm' hn').trq, ?_⟩
      have h2 : ∀ {u : ℕ → MP K} {w : ℕ → WrenchList K} {d : Chain K} {ls : List (Link K)} {T : LTree (Link K)} {l : Link K},
          IDRun (withLoad u w c1) d g vel acc ls T → d.link[i]? = some l → ∀ m, c1.link[i]? = some m → l.joint.prp.size = m.joint.prp.size := by
        intro u w d ls T l r hl m hm
        have hl' : (withLoad u w c1).link[i]? = some { m with body := { m.body with mp := u i, extw := w i } } := by
          simp only [withLoad, List.getElem?_mapIdx, hm, Option.map_some]
        have := congrArg Prp.size (statics_iff.1 (forall_zip_statics r.stat2 hl hl')).2.1
        simpa [size_still] using this
      have hi : i < c1.link.length := by
        have := (List.getElem?_eq_some_iff.1 hl).1
        rw [rx.len2] at this
        simpa [withLoad] using this
      rw [h2 rx hl _ (List.getElem?_eq_getElem hi), h2 ry hm' _ (List.getElem?_eq_getElem hi)]
    · rw [rx.len2, rz.len2]; simp [withLoad]
    · rw [ry.len2, rz.len2]; simp [withLoad]

/-- **C100** Combining the mass properties `q i` with those `p i` of every link (`rkMPCombine`, nonzero total mass), and attaching both
lists of external wrenches, adds the joint torques. -/
theorem C100_combine (c c1 : Chain K) (h : c.WF) (hr : ∀ l ∈ c.link, l.org.att.IsRot ∧ l.joint.prp.WF)
    (ho : setOffset c.link = c.link) (h1 : c.updateFK = some c1) (g : Vec6 K) (vel acc : List K)
    (hv : vel.length = jointSize c.link) (ha : acc.length = jointSize c.link)
    (p q : ℕ → MP K) (e f : ℕ → WrenchList K) (hm : ∀ i < c.link.length, (p i).mass + (q i).mass ≠ 0) :
    ∃ τx τy, idTorque g vel acc (withLoad p e c1) = some τx ∧ idTorque g vel acc (withLoad q f c1) = some τy ∧
      τx.length = jointSize c.link ∧ τy.length = jointSize c.link ∧
      idTorque g vel acc (withLoad (fun i => MP.combine (p i) (q i)) (fun i => e i ++ f i) c1) = some (List.zipWith (· + ·) τx τy) := by
  obtain ⟨x2, y2, z2, ex, ey, ez, -, τx, τy, τz, tx, ty, tz, nx, ny, hz⟩ :=
    C100_superposition c c1 h hr ho h1 g vel acc hv ha 1 1 p q (fun i => MP.combine (p i) (q i)) e f (fun i => e i ++ f i)
      (fun i hi => by
        obtain ⟨m1, m2, m3⟩ := C16_combine_moments (p i) (q i) (hm i hi) 0
        refine ⟨by rw [m1]; ring, ?_, ?_⟩
        · rw [m2]; vec_ring
        · rw [m3]; generalize inertiaAbout (p i) 0 = I; generalize inertiaAbout (q i) 0 = J; vec_ring)
      (fun i _ => by
        simp only [resultant, List.map_append, List.sum_append]
        generalize ((e i).map fun w => w.w.lin).sum = x; generalize ((f i).map fun w => w.w.lin).sum = y; vec_ring)
      (fun i _ => by
        simp only [resultant, List.map_append, List.sum_append]
        generalize ((e i).map fun w => w.w.ang + cross w.p w.w.lin).sum = x
        generalize ((f i).map fun w => w.w.ang + cross w.p w.w.lin).sum = y; vec_ring)
  refine ⟨τx, τy, by simp [idTorque, ex, tx], by simp [idTorque, ey, ty], nx, ny, ?_⟩
  simp only [one_mul] at hz
  simp [idTorque, ez, tz, hz]

/-- **C100** Multiplying all masses, all inertia tensors and all external wrenches by `s` multiplies every joint torque by `s`. -/
theorem C100_scale (c c1 : Chain K) (h : c.WF) (hr : ∀ l ∈ c.link, l.org.att.IsRot ∧ l.joint.prp.WF)
    (ho : setOffset c.link = c.link) (h1 : c.updateFK = some c1) (g : Vec6 K) (vel acc : List K)
    (hv : vel.length = jointSize c.link) (ha : acc.length = jointSize c.link)
    (p : ℕ → MP K) (e : ℕ → WrenchList K) (s : K) :
    ∃ τ, idTorque g vel acc (withLoad p e c1) = some τ ∧ τ.length = jointSize c.link ∧
      idTorque g vel acc (withLoad (fun i => ⟨s * (p i).mass, (p i).com, s • (p i).inertia⟩)
        (fun i => (e i).map fun w => ⟨s • w.w, w.p⟩) c1) = some (τ.map (s * ·)) := by
  obtain ⟨x2, y2, z2, ex, ey, ez, -, τx, τy, τz, tx, ty, tz, nx, ny, hz⟩ :=
    C100_superposition c c1 h hr ho h1 g vel acc hv ha s 0 p p (fun i => ⟨s * (p i).mass, (p i).com, s • (p i).inertia⟩) e e
      (fun i => (e i).map fun w => ⟨s • w.w, w.p⟩)
      (fun i hi => by
        refine ⟨by dsimp only; ring, by vec_ring, ?_⟩
        simp only [inertiaAbout]
        vec_ring)
      (fun i _ => by
        simp only [resultant, List.map_map]
        induction e i with
        | nil => simp only [List.map_nil, List.sum_nil]; vec_ring
        | cons w t ih =>
          simp only [List.map_cons, List.sum_cons, ih, Function.comp_apply]
          generalize (t.map fun w => w.w.lin).sum = x; vec_ring)
      (fun i _ => by
        simp only [resultant, List.map_map]
        induction e i with
        | nil => simp only [List.map_nil, List.sum_nil]; vec_ring
        | cons w t ih =>
          simp only [List.map_cons, List.sum_cons, ih, Function.comp_apply]
          generalize (t.map fun w => w.w.ang + cross w.p w.w.lin).sum = x; vec_ring)
  rw [ex] at ey; cases ey
  rw [tx] at ty; cases ty
  refine ⟨τx, by simp [idTorque, ex, tx], nx, ?_⟩
  simp only [zero_mul, add_zero] at hz
  have : List.zipWith (fun x _ => s * x) τx τx = τx.map (s * ·) := by
    clear hz tx nx ny
    induction τx with
    | nil => rfl
    | cons a t ih => simp [ih]
  simp [idTorque, ez, tz, hz, this]

/-! ## C101 -/

/-- **C101** Two chains with the same tree: the frame of a link is the same if the original frames and the joints of the links that
carry it are the same. -/
theorem C101_frame_local (c d c1 d1 : Chain K) (h : c.WF) (hd : d.WF) (hs : d.shape = c.shape)
    (h1 : c.updateFK = some c1) (h2 : d.updateFK = some d1) (i : ℕ) {x y : Link K}
    (hx : c1.link[i]? = some x) (hy : d1.link[i]? = some y)
    (hj : ∀ j, Carries c j i → ∀ (l m : Link K), c.link[j]? = some l → d.link[j]? = some m → l.org = m.org ∧ l.joint.prp = m.joint.prp) :
    x.body.frame = y.body.frame := by
  obtain ⟨c1', e1, s1, er1, hp, hall⟩ := C06_fk_composition c h
  rw [h1] at e1; cases e1
  obtain ⟨d1', e2, s2, -, -, hall2⟩ := C06_fk_composition d hd
  rw [h2] at e2; cases e2
  have hi : i < c.link.length := by
    have := congrArg List.length er1
    simp only [List.length_map] at this
    rw [← this]; exact (List.getElem?_eq_some_iff.1 hx).1
  obtain ⟨path, hpath⟩ := hp i hi
  obtain ⟨⟨ms, hms, hf⟩, -⟩ := hall path i x hpath hx
  obtain ⟨⟨ns, hns, hg⟩, -⟩ := hall2 path i y (by rw [hs]; exact hpath) hy
  rw [hf, hg]
  have hall3 : ∀ j ∈ path ++ [i], ∀ (l m : Link K), c.link[j]? = some l → d.link[j]? = some m → linkFrame l = linkFrame m := by
    intro j hj' l m hl hm
    obtain ⟨e1, e2⟩ := hj j ⟨path, hpath, hj'⟩ l m hl hm
    rw [linkFrame, linkFrame, e1, e2]
  generalize path ++ [i] = P at hms hns hall3
  congr 1
  clear hf hg hpath
  induction P generalizing ms ns with
  | nil =>
    have a1 : ms = [] := by simpa using hms.symm
    have a2 : ns = [] := by simpa using hns.symm
    rw [a1, a2]
  | cons j P ih =>
    rcases ms with _ | ⟨m, ms⟩
    · simp at hms
    rcases ns with _ | ⟨n, ns⟩
    · simp at hns
    simp only [List.map_cons, List.cons.injEq] at hms hns ⊢
    exact ⟨hall3 j (by simp) m n hms.1 hns.1, ih ms ns hms.2 hns.2 fun k hk => hall3 k (by simp [hk])⟩

/-- **C101** Moving the joint of one link `j`, or changing its original frame, moves only the links that `j` carries. -/
theorem C101_only_carried_move (c d c1 d1 : Chain K) (h : c.WF) (hd : d.WF) (hs : d.shape = c.shape)
    (h1 : c.updateFK = some c1) (h2 : d.updateFK = some d1) (j : ℕ)
    (hj : ∀ k, k ≠ j → d.link[k]? = c.link[k]?)
    (i : ℕ) (hi : ¬ Carries c j i) {x y : Link K} (hx : c1.link[i]? = some x) (hy : d1.link[i]? = some y) :
    x.body.frame = y.body.frame := by
  refine C101_frame_local c d c1 d1 h hd hs h1 h2 i hx hy ?_
  intro k hk l m hl hm
  have : k ≠ j := fun e => hi (e ▸ hk)
  rw [hj k this, hl] at hm
  cases hm
  exact ⟨rfl, rfl⟩

/-- **C101** The wrench and the torque that inverse dynamics gives at the joint of a link `j` depend only on the mass properties and
external wrenches of the links that `j` carries: the loads of all other links may be changed at will. -/
theorem C101_load_local (c c1 : Chain K) (h : c.WF) (hr : ∀ l ∈ c.link, l.org.att.IsRot ∧ l.joint.prp.WF)
    (ho : setOffset c.link = c.link) (h1 : c.updateFK = some c1) (g : Vec6 K) (vel acc : List K)
    (hv : vel.length = jointSize c.link) (ha : acc.length = jointSize c.link)
    (p q : ℕ → MP K) (e f : ℕ → WrenchList K) (j : ℕ)
    (hm : ∀ i, Carries c j i → p i = q i ∧ resultant (e i) = resultant (f i)) :
    ∃ x2 y2 : Chain K, (withLoad p e c1).invDyn g vel acc = some x2 ∧ (withLoad q f c1).invDyn g vel acc = some y2 ∧
      ∀ x y : Link K, x2.link[j]? = some x → y2.link[j]? = some y →
        x.joint.wrench = y.joint.wrench ∧ x.joint.prp.getTrq = y.joint.prp.getTrq := by
  obtain ⟨hp, hz⟩ := posed_of_fk h hr ho h1
  rw [← hz] at hv ha
  have sx := jointSize_withLoad p e hp.off
  have sy := jointSize_withLoad q f hp.off
  have px := hp.withLoad p e
  have py := hp.withLoad q f
  obtain ⟨x2, ex⟩ := px.invDyn g (v := vel) (a := acc) (by rw [sx, hv]) (by rw [sx, ha])
  obtain ⟨y2, ey⟩ := py.invDyn g (v := vel) (a := acc) (by rw [sy, hv]) (by rw [sy, ha])
  obtain ⟨lx, X, rx⟩ := px.run (by rw [sx, hv]) (by rw [sx, ha]) ex
  obtain ⟨ly, Y, ry⟩ := py.run (by rw [sy, hv]) (by rw [sy, ha]) ey
  refine ⟨x2, y2, ex, ey, ?_⟩
  intro x y hx hy
  have hi : j ∈ (withLoad p e c1).shape.toList := by
    have := rx.wf.mem.2 (List.getElem?_eq_some_iff.1 hx).1
    rwa [rx.shape] at this
  refine local_tree 0 g rx.tree ry.tree rx.tree2 ry.tree2 (fun i x y hx hy => by
    obtain ⟨k1, k2, k3, k4⟩ := kin_of_runs rx ry hx hy
    exact ⟨k1, k2, k3, k4⟩) hi ?_ hx hy
  intro i hc x y hx hy
  obtain ⟨-, -, -, p1, e1, -⟩ := run_load rx hx
  obtain ⟨-, -, -, p2, e2, -⟩ := run_load ry hy
  have hs : (withLoad p e c1).shape = c.shape := by
    show c1.shape = c.shape
    obtain ⟨c1', e, s, -⟩ := C06_fk_composition c h
    rw [h1] at e; cases e; exact s
  obtain ⟨m1, m2⟩ := hm i (by rw [Carries, ← hs]; exact hc)
  refine ⟨by rw [p1, p2, m1], ?_⟩
  simp only [Body.calcExtWrench, e1, e2, net_resultant, m2]

/-! ## A case -/

namespace Sample
/-- Mass properties that differ from link to link. -/
def loadm (i : ℕ) : MP ℚ := ⟨1 + i, ⟨i, 1, 0⟩, 1⟩
/-- An external wrench on every link. -/
def loadw (i : ℕ) : WrenchList ℚ := [⟨⟨⟨1, i, 0⟩, ⟨0, 0, 2⟩⟩, ⟨0, 1, 3⟩⟩]
end Sample

/-- The sample chain with these loads: inverse dynamics under gravity gives torques that are not all zero, so the superposition of
C100 is not about zeros. -/
example : ∃ c1 : Chain ℚ, Sample.chain.updateFK = some c1 ∧
    (∀ i < 4, (Sample.loadm i).mass + (Sample.loadm (i + 1)).mass ≠ 0) ∧
    ((idTorque ⟨⟨0, 0, 10⟩, 0⟩ [0, 0, 0, 0, 0, 0, 1, 2, 3] [0, 0, 0, 0, 0, 0, 4, 5, 6] (withLoad Sample.loadm Sample.loadw c1)).bind
      fun τ => τ[0]?) = some (-290 : ℚ) := by
  refine ⟨_, rfl, ?_, ?_⟩
  · decide +kernel
  · decide +kernel

/-- In the sample chain link 2 carries itself and link 3, not its sister 1 and not its parent 0. -/
example : Carries (Sample.chain (K := ℚ)) 2 2 ∧ Carries (Sample.chain (K := ℚ)) 2 3 ∧ ¬ Carries (Sample.chain (K := ℚ)) 2 1 ∧
    ¬ Carries (Sample.chain (K := ℚ)) 2 0 := by
  have hn : (Sample.chain (K := ℚ)).shape.toList.Nodup := by decide
  have p2 : IsPath (Sample.chain (K := ℚ)).shape ([0] ++ [2]) := .child (.sibl (.here _ _ _))
  have p3 : IsPath (Sample.chain (K := ℚ)).shape ([0, 2] ++ [3]) := .child (.sibl (.child (.here _ _ _)))
  have p1 : IsPath (Sample.chain (K := ℚ)).shape ([0] ++ [1]) := .child (.here _ _ _)
  have p0 : IsPath (Sample.chain (K := ℚ)).shape ([] ++ [0]) := .here _ _ _
  refine ⟨⟨_, p2, by simp⟩, ⟨_, p3, by simp⟩, ?_, ?_⟩
  · rintro ⟨path, hp, h⟩
    rw [LTree.isPath_unique hn hp p1] at h
    simp at h
  · rintro ⟨path, hp, h⟩
    rw [LTree.isPath_unique hn hp p0] at h
    simp at h

end Roki
