import Verif.Lemmas.Clone
import Verif.Lemmas.Sum
set_option autoImplicit false

/-! # Operations on a chain preserve a relation between links -/

namespace Roki
variable {K : Type*}

theorem forall₂_getElem? {α β : Type*} {R : α → β → Prop} {l : List α} {l' : List β}
    (h : List.Forall₂ R l l') (i : ℕ) : Option.Rel R l[i]? l'[i]? := by
  induction h generalizing i with
  | nil => simp [Option.Rel.none]
  | cons h _ ih => cases i with
    | zero => simpa using Option.Rel.some h
    | succ i => simpa using ih i

theorem forall₂_set {α β : Type*} {R : α → β → Prop} {l : List α} {l' : List β} {a : α} {b : β}
    (h : List.Forall₂ R l l') (hab : R a b) (i : ℕ) : List.Forall₂ R (l.set i a) (l'.set i b) := by
  induction h generalizing i with
  | nil => simp
  | cons h h' ih => cases i with
    | zero => simpa using ⟨hab, h'⟩
    | succ i => simpa using ⟨h, ih i⟩

theorem optRel_bind {α β γ δ : Type*} {R : α → β → Prop} {S : γ → δ → Prop} {x : Option α} {y : Option β}
    {f : α → Option γ} {g : β → Option δ} (h : Option.Rel R x y)
    (hf : ∀ a b, R a b → Option.Rel S (f a) (g b)) : Option.Rel S (x.bind f) (y.bind g) := by
  cases h with
  | none => exact .none
  | some h => exact hf _ _ h

theorem optRel_map {α β γ δ : Type*} {R : α → β → Prop} {S : γ → δ → Prop} {x : Option α} {y : Option β}
    {f : α → γ} {g : β → δ} (h : Option.Rel R x y) (hf : ∀ a b, R a b → S (f a) (g b)) :
    Option.Rel S (x.map f) (y.map g) := by
  cases h with
  | none => exact .none
  | some h => exact .some (hf _ _ h)

namespace Chain

theorem downAt_rel {σ : Type*} {R : Link K → Link K → Prop} {f : σ → Link K → Link K} {g : Link K → σ}
    (hf : ∀ st l l', R l l' → R (f st l) (f st l')) (hg : ∀ l l', R l l' → g l' = g l) (t : LTree ℕ) :
    ∀ par st (ls ls' : List (Link K)), List.Forall₂ R ls ls' →
      Option.Rel (List.Forall₂ R) (downAt f g par t st ls) (downAt f g par t st ls') := by
  induction t with
  | nil => intro _ _ _ _ h; exact .some h
  | node i c s ihc ihs =>
    intro par st ls ls' h
    rw [downAt, downAt]
    refine optRel_bind (forall₂_getElem? h i) fun l l' hl => ?_
    have hl' := hf st _ _ hl
    dsimp only
    rw [hg _ _ hl']
    refine optRel_bind (ihc (some i) _ _ _ (forall₂_set h hl' i)) fun a b hab => ?_
    split
    · exact .some hab
    · cases par with
      | none => exact .none
      | some p =>
        have hp := forall₂_getElem? hab p
        dsimp only
        generalize a[p]? = x, b[p]? = y at hp
        cases hp with
        | none => exact .none
        | some hp =>
          dsimp only
          rw [hg _ _ hp]
          exact ihs _ _ _ _ hab

section
variable [Field K]

theorem addChildWrenchAt_rel {R : Link K → Link K → Prop} (hadj : ∀ l l', R l l' → l'.adj = l.adj)
    (hw : ∀ l l', R l l' → l'.joint.wrench = l.joint.wrench) (t : LTree ℕ) :
    ∀ w (ls ls' : List (Link K)), List.Forall₂ R ls ls' →
      addChildWrenchAt w ls' t = addChildWrenchAt w ls t := by
  induction t with
  | nil => intro _ _ _ _; rfl
  | node i c s _ ihs =>
    intro w ls ls' h
    rw [addChildWrenchAt, addChildWrenchAt]
    have hp := forall₂_getElem? h i
    generalize ls[i]? = x, ls'[i]? = y at hp
    cases hp with
    | none => rfl
    | some hp => dsimp only; rw [hadj _ _ hp, hw _ _ hp]; exact ihs _ _ _ h

theorem updateWrenchAt_rel {R : Link K → Link K → Prop} (hadj : ∀ l l', R l l' → l'.adj = l.adj)
    (hj : ∀ l l', R l l' → l'.joint = l.joint)
    (hnet : ∀ l l', R l l' → l'.body.netWrench.angShift l'.body.mp.com = l.body.netWrench.angShift l.body.mp.com)
    (hext : ∀ l l', R l l' → l'.body.calcExtWrench = l.body.calcExtWrench)
    (hset : ∀ l l' j, R l l' → R { l with joint := j } { l' with joint := j }) (t : LTree ℕ) :
    ∀ (ls ls' : List (Link K)), List.Forall₂ R ls ls' →
      Option.Rel (List.Forall₂ R) (updateWrenchAt t ls) (updateWrenchAt t ls') := by
  induction t with
  | nil => intro _ _ h; exact .some h
  | node i c s ihc ihs =>
    intro ls ls' h
    rw [updateWrenchAt, updateWrenchAt]
    refine optRel_bind (forall₂_getElem? h i) fun l l' hl => ?_
    dsimp only
    rw [hnet _ _ hl, hj _ _ hl]
    refine optRel_bind (ihc _ _ (forall₂_set h (hset _ _ _ hl) i)) fun a b hab => ?_
    refine optRel_bind (forall₂_getElem? hab i) fun m m' hm => ?_
    rw [addChildWrenchAt_rel hadj (fun l l' h => by rw [hj _ _ h]) c _ _ _ hab, hj _ _ hm, hext _ _ hm]
    refine optRel_bind (R := fun x y => y = x) (by cases addChildWrenchAt m.joint.wrench a c <;> constructor; rfl)
      fun w w' hww => ?_
    subst hww
    exact ihs _ _ (forall₂_set hab (hset _ _ _ hm) i)

end
end Chain

section
variable [Field K]

theorem WrenchList.net_perm {l l' : WrenchList K} (h : l'.Perm l) : l'.net = l.net :=
  h.foldl_eq' (fun a _ b _ z => by rw [add_assoc, add_assoc, add_comm a.shift]) 0

namespace Link.Like

theorem withJoint {l l' : Link K} (h : l.Like l') (j : Joint K) :
    Link.Like { l with joint := j } { l' with joint := j } := { h with joint := rfl }

theorem withExtw {l l' : Link K} (h : l.Like l') {a b : WrenchList K} (hab : b.Perm a) :
    Link.Like { l with body := { l.body with extw := a } } { l' with body := { l'.body with extw := b } } :=
  { h with extw := hab }

theorem updateFrame1 {l l' : Link K} (h : l.Like l') (f : Frame K) :
    (l.updateFrame1 f).Like (l'.updateFrame1 f) := by
  obtain ⟨h1, h2, h3, h4, h5, h6, h7, h8, h9, h10, h11, h12, h13, h14⟩ := h
  constructor <;> simp_all [Link.updateFrame1, Body.updateCOM]

theorem updateRate1 {l l' : Link K} (h : l.Like l') (v a : Vec6 K) :
    (l.updateRate1 v a).Like (l'.updateRate1 v a) := by
  obtain ⟨h1, h2, h3, h4, h5, h6, h7, h8, h9, h10, h11, h12, h13, h14⟩ := h
  constructor <;> simp_all [Link.updateRate1, Body.updateCOMVel, Body.updateCOMAcc, Link.updateVel1, Link.updateAcc1]

theorem netWrench {l l' : Link K} (h : l.Like l') :
    l'.body.netWrench.angShift l'.body.mp.com = l.body.netWrench.angShift l.body.mp.com := by
  obtain ⟨h1, h2, h3, h4, h5, h6, h7, h8, h9, h10, h11, h12, h13, h14⟩ := h
  simp_all [Body.netWrench]

end Link.Like

theorem foldl_rel {α β : Type*} {R : α → α → Prop} {f : β → α → β} {l l' : List α}
    (h : List.Forall₂ R l l') (hf : ∀ b x y, R x y → f b y = f b x) (b : β) :
    l'.foldl f b = l.foldl f b := by
  induction h generalizing b with
  | nil => rfl
  | cons h _ ih => simp only [List.foldl_cons]; rw [hf _ _ _ h, ih]

theorem forall₂_map_left {α β γ : Type*} {R : α → β → Prop} {l : List γ} {f : γ → α} {g : γ → β}
    (h : ∀ x ∈ l, R (f x) (g x)) : List.Forall₂ R (l.map f) (l.map g) := by
  induction l with
  | nil => exact .nil
  | cons x l ih => exact .cons (h x (by simp)) (ih fun y hy => h y (by simp [hy]))

namespace LinkArray

theorem setWith_rel (set : Prp K → List K → Option (Prp K)) {l l' : Link K} (h : l.Like l') (v : List K) :
    Option.Rel Link.Like (l.setWith set v) (l'.setWith set v) := by
  unfold Link.setWith
  rw [h.joint]
  cases set l.joint.prp v with
  | none => exact .none
  | some p => exact .some (h.withJoint _)

theorem setAtOffset_rel (set : Prp K → List K → Option (Prp K)) {l l' : Link K} (h : l.Like l') (v : List K) :
    Option.Rel Link.Like (l.setAtOffset set v) (l'.setAtOffset set v) := by
  unfold Link.setAtOffset
  rw [h.offset]
  split
  · exact setWith_rel set h _
  · exact .some h

theorem setJoint_rel (set : Prp K → List K → Option (Prp K)) (idx : List ℕ) :
    ∀ (v : List K) (ls ls' : List (Link K)), List.Forall₂ Link.Like ls ls' →
      Option.Rel (List.Forall₂ Link.Like) (setJoint set idx v ls) (setJoint set idx v ls') := by
  induction idx with
  | nil => intro _ _ _ h; exact .some h
  | cons i idx ih =>
    intro v ls ls' h
    rw [setJoint, setJoint]
    refine optRel_bind (forall₂_getElem? h i) fun l l' hl => optRel_bind (setWith_rel set hl v) fun m m' hm => ?_
    have : m'.size = m.size := by unfold Link.size; rw [hm.joint]
    rw [this]
    exact ih _ _ _ (forall₂_set h hm i)

theorem setJointRate_rel (idx : List ℕ) :
    ∀ (v a : List K) (ls ls' : List (Link K)), List.Forall₂ Link.Like ls ls' →
      Option.Rel (List.Forall₂ Link.Like) (setJointRate idx v a ls) (setJointRate idx v a ls') := by
  induction idx with
  | nil => intro _ _ _ _ h; exact .some h
  | cons i idx ih =>
    intro v a ls ls' h
    rw [setJointRate, setJointRate]
    refine optRel_bind (forall₂_getElem? h i) fun l l' hl => optRel_bind (setWith_rel _ hl v) fun m m' hm =>
      optRel_bind (setWith_rel _ hm a) fun n n' hn => ?_
    have : n'.size = n.size := by unfold Link.size; rw [hn.joint]
    rw [this]
    exact ih _ _ _ _ (forall₂_set h hn i)

theorem setJointAll_rel (set : Prp K → List K → Option (Prp K)) (v : List K) {ls ls' : List (Link K)}
    (h : List.Forall₂ Link.Like ls ls') :
    Option.Rel (List.Forall₂ Link.Like) (setJointAll set v ls) (setJointAll set v ls') := by
  induction h with
  | nil => exact .some .nil
  | cons hl _ ih =>
    rw [setJointAll, setJointAll]
    exact optRel_bind (setAtOffset_rel set hl v) fun m m' hm => optRel_bind ih fun a b hab =>
      .some (.cons hm hab)

theorem setJointRateAll_rel (v a : List K) {ls ls' : List (Link K)}
    (h : List.Forall₂ Link.Like ls ls') :
    Option.Rel (List.Forall₂ Link.Like) (setJointRateAll v a ls) (setJointRateAll v a ls') := by
  induction h with
  | nil => exact .some .nil
  | cons hl _ ih =>
    rw [setJointRateAll, setJointRateAll]
    exact optRel_bind (setAtOffset_rel _ hl v) fun m m' hm => optRel_bind (setAtOffset_rel _ hm a) fun n n' hn =>
      optRel_bind ih fun a b hab => .some (.cons hn hab)

end LinkArray

namespace Chain.Like

theorem withLinks {c c' : Chain K} (h : c.Like c') {x y : Option (List (Link K))}
    (hx : Option.Rel (List.Forall₂ Link.Like) x y) :
    Option.Rel Chain.Like (x.map fun ls => { c with link := ls }) (y.map fun ls => { c' with link := ls }) :=
  optRel_map hx fun _ _ hab => { h with link := hab }

theorem withLink {c c' : Chain K} (h : c.Like c') {a b : List (Link K)} (hab : List.Forall₂ Link.Like a b) :
    Chain.Like { c with link := a } { c' with link := b } := { h with link := hab }

theorem calcCOM {c c' : Chain K} (h : c.Like c') : c.calcCOM.Like c'.calcCOM := by
  refine { h with wldCOM := ?_ }
  simp only [Chain.calcCOM, LinkArray.calcCOM]
  rw [h.mass, foldl_rel h.link fun b x y hxy => by rw [hxy.mp, hxy.wldCOM]]

theorem calcCOMVel {c c' : Chain K} (h : c.Like c') : c.calcCOMVel.Like c'.calcCOMVel := by
  refine { h with comVel := ?_ }
  simp only [Chain.calcCOMVel, LinkArray.calcCOMVel]
  rw [h.mass, foldl_rel h.link fun b x y hxy => by rw [hxy.mp, hxy.comVel, hxy.frame]]

theorem calcCOMAcc {c c' : Chain K} (h : c.Like c') : c.calcCOMAcc.Like c'.calcCOMAcc := by
  refine { h with comAcc := ?_ }
  simp only [Chain.calcCOMAcc, LinkArray.calcCOMAcc]
  rw [h.mass, foldl_rel h.link fun b x y hxy => by rw [hxy.mp, hxy.comAcc, hxy.frame]]

theorem updateFK {c c' : Chain K} (h : c.Like c') : Option.Rel Chain.Like c.updateFK c'.updateFK := by
  unfold Chain.updateFK Chain.updateFrame
  refine optRel_map (h.withLinks ?_) fun _ _ hab => hab.calcCOM
  rw [h.shape]
  exact downAt_rel (fun st l l' hl => hl.updateFrame1 st) (fun l l' hl => hl.frame) _ _ _ _ _ h.link

theorem updateID {c c' : Chain K} (h : c.Like c') (g : Vec6 K) :
    Option.Rel Chain.Like (c.updateID g) (c'.updateID g) := by
  unfold Chain.updateID
  refine optRel_bind (R := Chain.Like) ?_ fun a b hab => optRel_bind (R := Chain.Like) ?_ fun a b hab =>
    .some hab.calcCOMVel.calcCOMAcc
  · unfold Chain.updateRate
    refine h.withLinks ?_
    rw [h.shape]
    exact downAt_rel (fun st l l' hl => hl.updateRate1 st.1 st.2)
      (fun l l' hl => by rw [hl.vel, hl.acc]) _ _ _ _ _ h.link
  · unfold Chain.updateWrench
    refine hab.withLinks ?_
    rw [hab.shape]
    exact updateWrenchAt_rel (fun _ _ h => h.adj) (fun _ _ h => h.joint) (fun _ _ h => h.netWrench)
      (fun _ _ h => WrenchList.net_perm h.extw) (fun _ _ j h => h.withJoint j) _ _ _ hab.link

variable [LinearOrder K] [Zm K]

theorem run {c c' : Chain K} (h : c.Like c') (o : Chain.Op K) : Option.Rel Chain.Like (o.run c) (o.run c') := by
  cases o with
  | setDis idx v => exact h.withLinks (LinkArray.setJoint_rel _ idx v _ _ h.link)
  | setDisAll v => exact h.withLinks (LinkArray.setJointAll_rel _ v h.link)
  | setRate idx v a => exact h.withLinks (LinkArray.setJointRate_rel idx v a _ _ h.link)
  | setRateAll v a => exact h.withLinks (LinkArray.setJointRateAll_rel v a h.link)
  | updateFK => exact h.updateFK
  | updateID g => exact h.updateID g
  | fk v =>
    exact optRel_bind (LinkArray.setJointAll_rel _ v h.link) fun a b hab => (h.withLink hab).updateFK
  | id g v a =>
    exact optRel_bind (LinkArray.setJointRateAll_rel v a h.link) fun a b hab => (h.withLink hab).updateID g
  | fkCNT g v dt =>
    exact optRel_bind (LinkArray.setJointAll_rel _ v h.link) fun a b hab =>
      optRel_bind (h.withLink hab).updateFK fun a b hab => hab.updateID g
  | push i w =>
    refine optRel_map (forall₂_getElem? h.link i) fun l l' hl => { h with link := ?_ }
    exact forall₂_set h.link (hl.withExtw (hl.extw.cons w)) i
  | clear =>
    refine .some { h with link := ?_ }
    have := h.link
    simp only [LinkArray.extWrenchDestroy, List.forall₂_map_left_iff, List.forall₂_map_right_iff]
    exact this.imp fun l l' hl => hl.withExtw (.refl _)

theorem runAll {c c' : Chain K} (h : c.Like c') (os : List (Chain.Op K)) :
    Option.Rel Chain.Like (c.runAll os) (c'.runAll os) := by
  induction os generalizing c c' with
  | nil => exact .some h
  | cons o os ih => exact optRel_bind (h.run o) fun a b hab => ih hab

end Chain.Like
end
end Roki
