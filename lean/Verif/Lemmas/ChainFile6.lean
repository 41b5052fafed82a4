import Verif.Lemmas.ChainFile5
set_option autoImplicit false

/-!
# Lemmas for chain files: parents do not matter for the rest of the file
-/

namespace Roki.ZTK
open Spec.File Spec.Forest Spec LinkHeap
variable {K : Type*}

section
variable {σ τ : Type*}

/-- Two outcomes of the same kind, with related objects. -/
inductive Res.Rel (R : σ → τ → Prop) : Res σ → Res τ → Prop
  | ub : Rel R .ub .ub
  | null {a b} : R a b → Rel R (.null a) (.null b)
  | ok {a b} : R a b → Rel R (.ok a) (.ok b)

/-- The object, unless the behaviour is undefined. -/
def Res.get : Res σ → Option σ
  | .ub => none
  | .null s => some s
  | .ok s => some s

theorem Res.Rel.andThen {R : σ → τ → Prop} {a : Res σ} {b : Res τ} (h : Res.Rel R a b) {f : σ → Res σ} {g : τ → Res τ}
    (hfg : ∀ s t, R s t → Res.Rel R (f s) (g t)) : Res.Rel R (a.andThen f) (b.andThen g) := by
  cases h with
  | ub => exact .ub
  | null h => exact .null h
  | ok h => exact hfg _ _ h

theorem rel_foldl {α : Type*} {R : σ → τ → Prop} {f : Res σ → α → Res σ} {g : Res τ → α → Res τ} : ∀ (l : List α),
    (∀ a b, ∀ x ∈ l, Res.Rel R a b → Res.Rel R (f a x) (g b x)) → ∀ {a : Res σ} {b : Res τ}, Res.Rel R a b →
    Res.Rel R (l.foldl f a) (l.foldl g b) := by
  intro l
  induction l with
  | nil => intro _ a b h; exact h
  | cons x l ih =>
    intro hfg a b h
    exact ih (fun a b y hy => hfg a b y (List.mem_cons_of_mem _ hy)) (hfg a b x (by simp) h)

theorem evalKeys_rel {R : σ → σ → Prop} (o : Order) {tab : List (Row σ K)}
    (hr : ∀ row ∈ tab, ∀ s s' v, R s s' → Res.Rel R (row.rd s v) (row.rd s' v)) (sec : List (Fld K)) {s s' : σ} (h : R s s') :
    Res.Rel R (evalKeys o tab sec s) (evalKeys o tab sec s') := by
  cases o with
  | file =>
    refine rel_foldl sec (fun a b f _ hab => hab.andThen fun s t hst => ?_) (.ok h)
    rcases hf : tab.find? fun r => r.key == f.key with _ | row
    · simp only [evalFld, hf]; exact .ok hst
    · simp only [evalFld, hf]; exact hr row (List.mem_of_find?_eq_some hf) s t _ hst
  | table =>
    refine rel_foldl tab (fun a b row hrow hab => ?_) (.ok h)
    exact rel_foldl _ (fun a b f _ hab => hab.andThen fun s t hst => hr row hrow s t f.val hst) hab

theorem evalTag_rel {R : σ → σ → Prop} {rd : σ → ℕ → List (Fld K) → Res σ}
    (hr : ∀ s s' i sec, R s s' → Res.Rel R (rd s i sec) (rd s' i sec)) : ∀ (ss : List (List (Fld K))) (i : ℕ) {s s' : σ}, R s s' →
    Res.Rel R (evalTag rd i ss s) (evalTag rd i ss s') := by
  intro ss
  induction ss with
  | nil => intro i s s' h; exact .ok h
  | cons sec ss ih =>
    intro i s s' h
    exact (hr s s' i sec h).andThen fun s t hst => ih (i + 1) hst

theorem evalTag_map {rd : σ → ℕ → List (Fld K) → Res σ} {φ : List (Fld K) → List (Fld K)}
    (h : ∀ s i sec, rd s i (φ sec) = rd s i sec) : ∀ (ss : List (List (Fld K))) (i : ℕ) (s : σ),
    evalTag rd i (ss.map φ) s = evalTag rd i ss s := by
  intro ss
  induction ss with
  | nil => intro i s; rfl
  | cons sec ss ih =>
    intro i s
    rw [List.map_cons, evalTag, evalTag, h]
    congr 1
    funext s
    exact ih (i + 1) s

/-- A section without its lines `parent: ...`. -/
def dropParent (sec : List (Fld K)) : List (Fld K) := sec.filter fun x => x.key ≠ "parent"

theorem evalKeys_dropParent (o : Order) {tab : List (Row σ K)} (h : "parent" ∉ keys tab) (sec : List (Fld K)) (s : σ) :
    evalKeys o tab (dropParent sec) s = evalKeys o tab sec s := by
  rw [← evalKeys_known, ← evalKeys_known o tab sec]
  congr 1
  rw [known, known, dropParent, List.filter_filter]
  refine List.filter_congr fun f _ => ?_
  rw [Bool.eq_iff_iff]
  simp only [Bool.and_eq_true, decide_eq_true_eq, and_iff_left_iff_imp]
  intro hf hk
  obtain ⟨r, hr, e⟩ := List.any_eq_true.1 hf
  refine h (List.mem_map.2 ⟨r, hr, ?_⟩)
  rw [← hk]
  simpa using e

theorem secs_noParents_link (f : File K) : secs "link" (noParents f) = (secs "link" f).map dropParent := by
  induction f with
  | nil => rfl
  | cons s f ih =>
    simp only [secs, noParents] at ih ⊢
    by_cases h : s.1 = "link"
    · simp only [List.map_cons, h, if_true, List.filter_cons, beq_self_eq_true, List.map_cons, ih]
      rfl
    · simp only [List.map_cons, h, if_false, List.filter_cons, beq_iff_eq, ih]

theorem secs_noParents {t : String} (ht : t ≠ "link") (f : File K) : secs t (noParents f) = secs t f := by
  induction f with
  | nil => rfl
  | cons s f ih =>
    simp only [secs, noParents] at ih ⊢
    by_cases h : s.1 = "link"
    · simp only [List.map_cons, h, if_true, List.filter_cons, beq_iff_eq, ht.symm, if_false, ih]
    · simp only [List.map_cons, h, if_false, List.filter_cons, List.map_cons, ih]
      split_ifs <;> simp only [List.map_cons, ih]

variable [Field K] [LinearOrder K] [IsStrictOrderedRing K] [Zm K] [LawfulZm K]

theorem linkRead_dropParent (o : Order) (noname : String) (names shapes : List String) (motors : List (NMotor K)) (sec : List (Fld K)) :
    linkRead o noname names shapes motors (dropParent sec) = linkRead o noname names shapes motors sec := by
  rw [linkRead, linkRead, evalKeys_dropParent o (by rw [linkTabAll_keys]; decide)]
  congr 1
  funext s
  rw [jointRead, jointRead, evalKeys_dropParent]
  intro h
  exact absurd ((jointTab_keys _ _).2 _ h) (by decide)

theorem evalTag_noParent (o : Order) (names : List String) : ∀ (ss : List (List (Fld K))) (i : ℕ) (h : List Node),
    evalTag (rdParent o names) i (ss.map dropParent) h = .ok h := by
  intro ss
  induction ss with
  | nil => intro i h; rfl
  | cons s ss ih =>
    intro i h
    have : vals (dropParent s) "parent" = [] := by
      simp [vals, dropParent, List.filter_filter]
    rw [List.map_cons, evalTag, rdParent, parentTab, evalKeys_single]
    simp only [this, rdAll, List.foldl_nil, Res.andThen_ok]
    exact ih (i + 1) h

/-- The two robots differ in the pointers only. -/
def OtherNode (N : List String) (h0 h : List Node) (r r' : Robot K) : Prop :=
  r.names = N ∧ r.node = h0 ∧ r' = { r with node := h }

theorem names_set {r : Robot K} {i : ℕ} {l l' : FLink K} (hl : r.link[i]? = some l) (he : l'.link.name = l.link.name) :
    ({ r with link := r.link.set i l' } : Robot K).names = r.names := by
  simp only [Robot.names]
  refine List.ext_getElem? fun j => ?_
  rw [List.getElem?_map, List.getElem?_map, List.getElem?_set]
  split_ifs with h1 h2
  · subst h1
    rw [hl, Option.map_some, Option.map_some, he]
  · subst h1
    exact absurd (List.getElem?_eq_some_iff.1 hl).1 h2
  · rfl

theorem modOrg_rel {N : List String} {h0 h : List Node} {r r' : Robot K} (hr : OtherNode N h0 h r r') (f : Frame K → Frame K) :
    Res.Rel (OtherNode N h0 h) (modOrg r f) (modOrg r' f) := by
  obtain ⟨h1, h2, rfl⟩ := hr
  simp only [modOrg]
  rcases hl : r.link[0]? with _ | l
  · exact .ub
  · exact .ok ⟨by rw [← h1]; exact names_set hl rfl, h2, rfl⟩

theorem chainTab_rel {N : List String} {h0 h : List Node} : ∀ row ∈ chainTab (K := K), ∀ s s' v, OtherNode N h0 h s s' →
    Res.Rel (OtherNode N h0 h) (row.rd s v) (row.rd s' v) := by
  intro row hrow s s' v hs
  simp only [chainTab, List.mem_singleton] at hrow
  subst hrow
  obtain ⟨h1, h2, rfl⟩ := hs
  rcases v with _ | ⟨t, v⟩
  · exact .ub
  · cases t with
    | str n => exact .ok ⟨h1, h2, rfl⟩
    | num x => exact .ub
    | inf b => exact .ub

theorem initTab_rel {N : List String} {h0 h : List Node} : ∀ row ∈ initTabAll (K := K), ∀ s s' v, OtherNode N h0 h s s' →
    Res.Rel (OtherNode N h0 h) (row.rd s v) (row.rd s' v) := by
  intro row hrow s s' v hs
  simp only [initTabAll, initTab, List.cons_append, List.nil_append, List.mem_cons, List.not_mem_nil, or_false] at hrow
  rcases hrow with rfl | rfl | rfl
  · simp only
    rcases vecTok v with _ | w
    · exact .ub
    · exact modOrg_rel hs _
  · simp only
    rcases matTok v with _ | w
    · exact .ub
    · exact modOrg_rel hs _
  · obtain ⟨h1, h2, rfl⟩ := hs
    rcases v with _ | ⟨t, v⟩
    · exact .ub
    · cases t with
      | num x => exact .ub
      | inf b => exact .ub
      | str n =>
        have hn : ({ s with node := h } : Robot K).names = s.names := rfl
        simp only [initJointRow, hn]
        rcases s.names.findIdx? (fun m => m == n) with _ | i
        · exact .null ⟨h1, h2, rfl⟩
        · simp only
          rcases hl : s.link[i]? with _ | l
          · exact .ub
          · simp only
            rcases disRead l.link.joint.prp v with _ | p
            · exact .ub
            · exact .ok ⟨by rw [← h1]; exact names_set hl rfl, h2, rfl⟩

/-- Reading links does not change their number or the pointers. -/
theorem rdLink_inv (o : Order) (noname : String) {n : ℕ} {h : List Node} (s s' : Robot K) (i : ℕ) (sec : List (Fld K))
    (hs : s = s' ∧ s.link.length = n ∧ s.node = h) :
    Res.Rel (fun a b : Robot K => a = b ∧ a.link.length = n ∧ a.node = h) (rdLink o noname s i sec) (rdLink o noname s' i sec) := by
  obtain ⟨rfl, h1, h2⟩ := hs
  simp only [rdLink]
  cases linkRead o noname _ s.shapes s.motors sec with
  | ub => exact .ub
  | null l => exact .null ⟨rfl, by simpa using h1, h2⟩
  | ok l => exact .ok ⟨rfl, by simpa using h1, h2⟩

theorem rdLink_dropParent (o : Order) (noname : String) (s : Robot K) (i : ℕ) (sec : List (Fld K)) :
    rdLink o noname s i (dropParent sec) = rdLink o noname s i sec := by
  simp only [rdLink, linkRead_dropParent]

theorem leads_below {pars : List (Option ℕ)} {i : ℕ} (h : LeadsToRoot pars i) : Below (opsFrom 0 pars) 0 i := by
  induction h with
  | root => exact .refl
  | @step i p hp _ ih => exact ih.tail ((mem_opsFrom pars 0 p i).2 ⟨i, by omega, hp⟩)

omit [Field K] [LinearOrder K] [IsStrictOrderedRing K] [Zm K] [LawfulZm K] in
theorem declares_iff {names : List String} {f : File K} {pars : List (Option ℕ)} (h : DeclareParents names f pars) :
    List.Forall₂ (Declares names) (secs "link" f) pars := by
  have e : ∀ (sec : List (Fld K)) k, fieldVals sec k = vals sec k := by
    intro sec k
    rw [fieldVals, vals]
    rfl
  have e2 : secs "link" f = (f.filter fun s => s.1 = "link").map Prod.snd := by
    rw [secs]
    rfl
  rw [e2, List.forall₂_map_left_iff]
  refine List.Forall₂.imp (fun s par hsp => ?_) h
  rcases par with _ | p
  · simp only [e] at hsp
    exact hsp
  · simp only [e] at hsp
    exact hsp

omit [IsStrictOrderedRing K] [LawfulZm K] in
theorem readParts_eq (o : Order) (noname : String) (f : File K) : readParts o noname f =
    ((secs "shape" f).mapM shapeName).bind fun shapes =>
      (evalTag (rdMotor o noname) 0 (secs "motor" f) (List.replicate (secs "motor" f).length ⟨noname, none⟩)).get.bind fun ms =>
        (evalTag (rdLink o noname) 0 (secs "link" f) (Robot.mk noname ms shapes
          (List.replicate (secs "link" f).length (linkInit noname)) (LinkHeap.init (secs "link" f).length))).get.bind fun r =>
        (evalTag (rdParent o r.names) 0 (secs "link" f) r.node).get.bind fun h =>
          (evalTag (fun r _ sec => evalKeys o chainTab sec r) 0 (secs "chain" f) { r with node := h }).get.bind fun r =>
            (evalTag (fun r _ sec => evalKeys o initTabAll sec r) 0 (secs "init" f) r).get := by
  rw [readParts]
  simp only
  congr 1
  funext shapes
  cases evalTag (rdMotor o noname) 0 (secs "motor" f) (List.replicate (secs "motor" f).length ⟨noname, none⟩) with
  | ub => rfl
  | _ ms =>
    simp only [Res.get, Option.bind_some]
    cases evalTag (rdLink o noname) 0 (secs "link" f) (Robot.mk noname ms shapes
          (List.replicate (secs "link" f).length (linkInit noname)) (LinkHeap.init (secs "link" f).length)) with
    | ub => rfl
    | _ r =>
      simp only [Res.get, Option.bind_some]
      cases evalTag (rdParent o r.names) 0 (secs "link" f) r.node with
      | ub => rfl
      | _ h =>
        simp only [Res.get, Option.bind_some]
        cases evalTag (fun r _ sec => evalKeys o chainTab sec r) 0 (secs "chain" f) { r with node := h } with
        | ub => rfl
        | _ r =>
          simp only [Res.get, Option.bind_some]
          cases evalTag (fun r _ sec => evalKeys o initTabAll sec r) 0 (secs "init" f) r <;> rfl

theorem Res.Rel.get {σ τ : Type*} {R : σ → τ → Prop} {a : Res σ} {b : Res τ} (h : Res.Rel R a b) {x : σ} (hx : a.get = some x) :
    ∃ y, b.get = some y ∧ R x y := by
  cases h with
  | ub => simp [Res.get] at hx
  | null h => exact ⟨_, rfl, by cases hx; exact h⟩
  | ok h => exact ⟨_, rfl, by cases hx; exact h⟩

theorem readParts_parents (o : Order) (noname : String) (f : File K) (r0 : Robot K) (pars : List (Option ℕ))
    (h0 : readParts o noname (noParents f) = some r0) (hn : r0.names.Nodup) (hd : DeclareParents r0.names f pars)
    (hr : pars[0]? = some none) (hl : ∀ k < pars.length, LeadsToRoot pars k) :
    ∃ h c, readParts o noname f = some { r0 with node := h } ∧ pars.length = r0.link.length ∧ h.length = pars.length ∧
      parents h = pars ∧ Rep h none (some 0) (.node 0 c .nil) ∧ (LTree.node 0 c .nil).toList.Perm (List.range pars.length) ∧
      ∀ i x, h[i]? = some x → Sibs h x.child ((List.range pars.length).filter fun k => pars[k]? = some (some i)) := by
  have hD := declares_iff hd
  have hlen := hD.length_eq
  rw [readParts_eq, secs_noParents_link, secs_noParents (by decide), secs_noParents (by decide), secs_noParents (by decide),
    secs_noParents (by decide), Option.bind_eq_some_iff] at h0
  obtain ⟨shapes, e1, h0⟩ := h0
  obtain ⟨ms, e2, h0⟩ := Option.bind_eq_some_iff.1 h0
  obtain ⟨r1, e3, h0⟩ := Option.bind_eq_some_iff.1 h0
  obtain ⟨h1, e4, h0⟩ := Option.bind_eq_some_iff.1 h0
  obtain ⟨r2, e5, e6⟩ := Option.bind_eq_some_iff.1 h0
  rw [List.length_map, evalTag_map (rdLink_dropParent o noname)] at e3
  rw [evalTag_noParent] at e4
  cases e4
  obtain ⟨r1', e3', rfl, l1, l2⟩ := (evalTag_rel (rdLink_inv o noname (n := (secs "link" f).length)
    (h := LinkHeap.init (secs "link" f).length)) (secs "link" f) 0 ⟨rfl, by simp, rfl⟩).get e3
  -- the names do not change any more
  have hN : ∀ (r2 r3 : Robot K) (h h' : List Node), (evalTag (fun r _ sec => evalKeys o chainTab sec r) 0 (secs "chain" f) { r1 with node := h }).get = some r2 →
      (evalTag (fun r _ sec => evalKeys o initTabAll sec r) 0 (secs "init" f) r2).get = some r3 →
      ∃ r2', (evalTag (fun r _ sec => evalKeys o chainTab sec r) 0 (secs "chain" f) { r1 with node := h' }).get = some r2' ∧
        (evalTag (fun r _ sec => evalKeys o initTabAll sec r) 0 (secs "init" f) r2').get = some { r3 with node := h' } ∧
        r3.names = r1.names := by
    intro r2 r3 h h' a b
    have x1 : OtherNode r1.names h h' { r1 with node := h } { r1 with node := h' } := ⟨rfl, rfl, rfl⟩
    obtain ⟨r2', y1, x2⟩ := (evalTag_rel (fun s s' i sec hs => evalKeys_rel o chainTab_rel sec hs) (secs "chain" f) 0 x1).get a
    obtain ⟨r3', y2, x3⟩ := (evalTag_rel (fun s s' i sec hs => evalKeys_rel o initTab_rel sec hs) (secs "init" f) 0 x2).get b
    obtain ⟨z1, z2, rfl⟩ := x3
    exact ⟨r2', y1, y2, z1⟩
  have hname : r0.names = r1.names := by
    obtain ⟨-, -, -, h⟩ := hN r2 r0 r1.node [] e5 e6
    exact h
  have hlink : pars.length = r0.link.length := by
    have : r0.names.length = r1.names.length := by rw [hname]
    simp only [Robot.names, List.length_map] at this
    rw [this, l1, hlen]
  -- the tree
  have hlt : ∀ k p : ℕ, pars[k]? = some (some p) → p < pars.length := by
    intro k p hk
    have hkl := (List.getElem?_eq_some_iff.1 hk).1
    have := (List.forall₂_iff_get.1 hD).2 k (by omega) hkl
    have e : pars.get ⟨k, hkl⟩ = some p := by
      have := (List.getElem?_eq_some_iff.1 hk).2
      simpa using this
    rw [e] at this
    obtain ⟨n, hp, -⟩ := this
    have := (List.getElem?_eq_some_iff.1 hp).1
    simp only [Robot.names, List.length_map] at this
    omega
  have hp := proper_opsFrom hlt hr (fun k hk => leads_below (hl k hk))
  have hpos : 0 < pars.length := (List.getElem?_eq_some_iff.1 hr).1
  have hr0 : ∀ q, (q, 0) ∉ opsFrom 0 pars := by
    intro q hq
    obtain ⟨k, e, hk⟩ := (mem_opsFrom _ _ _ _).1 hq
    obtain rfl : k = 0 := by omega
    rw [hr] at hk
    simp at hk
  obtain ⟨h, c, k1, k2, k3, k4, k5, k6⟩ := build_tree rfl hp hpos hr0 fun j hj => leads_below (hl j hj)
  refine ⟨h, c, ?_, hlink, k2, k3, k4, k5, k6⟩
  rw [readParts_eq, e1, Option.bind_some, e2, Option.bind_some, e3, Option.bind_some]
  have hpar := evalTag_parents o hn (secs "link" f) pars 0 r1.node hD
  have hb : (opsFrom 0 pars).foldlM (fun h op => addChild h op.1 op.2) r1.node = some h := by
    rw [l2, hlen]
    exact k1
  rw [hb, hname] at hpar
  rw [hpar]
  obtain ⟨r2', y1, y2, -⟩ := hN r2 r0 r1.node h e5 e6
  rw [Res.get, Option.bind_some, y1, Option.bind_some, y2]

end

end Roki.ZTK
