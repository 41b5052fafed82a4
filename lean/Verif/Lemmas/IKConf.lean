import Verif.Model.IKConf
import Verif.Spec.IKConf
import Verif.Lemmas.ChainFile3
import Verif.Lemmas.IKJoint
set_option autoImplicit false

/-! # Lemmas for configuration files of the inverse kinematics solver -/

namespace Roki.ZTK
open Roki.Spec

section
variable {K : Type*} [Field K] [LinearOrder K] [Zm K]

/-- What the reading of a file uses of a link. -/
def confSig (l : Link K) : String × ℕ × (List K → List K) := (l.name, l.joint.prp.size, siDis l.joint.prp)

theorem siDis_setDis {p p' : Prp K} {v : List K} (h : p.setDis v = some p') : siDis p' = siDis p := by
  cases p <;> rcases v with _ | ⟨a, _ | ⟨b, _ | ⟨c, _ | ⟨d, _ | ⟨e, _ | ⟨f, buf⟩⟩⟩⟩⟩⟩ <;>
    simp [Prp.setDis, Vec3.ofBuf, Vec6.ofBuf] at h <;> subst h <;>
    (funext w; rcases w with _ | ⟨x, _ | ⟨y, _ | ⟨z, w⟩⟩⟩ <;> rfl)

theorem jointReg'_chain {a b : IK K} {id : ℤ} {sw ok : Bool} {w : K} (h : a.jointReg' id sw w = some (ok, b)) :
    b.chain = a.chain := by
  simp only [IK.jointReg'] at h
  split_ifs at h
  · simp only [Option.some.injEq, Prod.mk.injEq] at h
    rw [h.2]
  · simp only [Option.map_eq_some_iff, Prod.mk.injEq] at h
    obtain ⟨b', hb, -, rfl⟩ := h
    simp only [IK.allocJointIndex] at hb
    split_ifs at hb
    · rw [← Option.some.inj hb]
    · simp only [Option.bind_eq_some_iff] at hb
      obtain ⟨n, -, wn, -, hb⟩ := hb
      exact (IK.allocCMat_same hb).2.2.1

theorem jointReg_ok {a b : IK K} {i : ℕ} {ok : Bool} {w : K} (hi : i < a.chain.link.length)
    (h : a.jointReg i w = some (ok, b)) : ok = true := by
  simp only [IK.jointReg, IK.jointReg'] at h
  rw [if_neg (by omega)] at h
  simp only [Option.map_eq_some_iff, Prod.mk.injEq] at h
  obtain ⟨b', -, h, -⟩ := h
  exact h.symm

theorem jointRegAllFrom_ok (w : K) (is : List ℕ) : ∀ {a b : IK K} {ok : Bool},
    IK.jointRegAllFrom w is a = some (ok, b) → ok = true ∧ b.chain = a.chain := by
  induction is with
  | nil =>
    intro a b ok h
    simp only [IK.jointRegAllFrom, Option.some.injEq, Prod.mk.injEq] at h
    exact ⟨h.1.symm, by rw [h.2]⟩
  | cons i is ih =>
    intro a b ok h
    simp only [IK.jointRegAllFrom, bind, Option.bind_eq_some_iff] at h
    obtain ⟨l, hl, h⟩ := h
    split_ifs at h
    · simp only [Option.bind_eq_some_iff] at h
      obtain ⟨⟨ok', ik'⟩, h1, h⟩ := h
      have hok := jointReg_ok (List.getElem?_eq_some_iff.1 hl).1 h1
      subst hok
      obtain ⟨e1, e2⟩ := ih h
      exact ⟨e1, e2.trans (jointReg'_chain h1)⟩
    · exact ih h

theorem cellReg_chain {a b : IK K} {ptr : ℕ} {attr : Option (IKAttr K)} {mask : IKMask} {fns : IKFns K}
    (h : a.cellReg ptr attr mask fns = some b) : b.chain = a.chain :=
  (IK.allocSRV_same (show IK.allocSRV _ = some b from h)).2.2.1

theorem sig_set {ls : List (Link K)} {i : ℕ} {l l' : Link K} (hl : ls[i]? = some l) (h : confSig l' = confSig l) :
    (ls.set i l').map confSig = ls.map confSig := by
  rw [List.map_set, h]
  apply List.ext_getElem?
  intro j
  rw [List.getElem?_set]
  split_ifs with h1 h2
  · subst h1; rw [List.getElem?_map, hl]; rfl
  · subst h1; simp only [List.length_map, not_lt] at h2; rw [List.getElem?_eq_none (by simpa using h2)]
  · rfl

/-! ## Arguments -/

/-- What the loop does with an argument. -/
def argStep (v : ConsVars K) : ConfArg K → ConsVars K
  | .link i =>
    if v.linknum = 0 then { attr := { v.attr with id := i }, mask := { v.mask with id := true }, linknum := v.linknum + 1 }
    else { attr := { v.attr with idSub := i }, mask := { v.mask with idSub := true }, linknum := v.linknum + 1 }
  | .point x => { v with attr := { v.attr with ap := x }, mask := { v.mask with ap := true } }
  | .weight x => { v with attr := { v.attr with w := x }, mask := { v.mask with weight := true } }
  | .force => { v with mask := { v.mask with force := true } }

theorem ikConsArgs_toks {ik : IK K} {nm : ℕ → String} (args : List (ConfArg K))
    (ha : ∀ i ∈ ConfArg.links args, ikLink ik (nm i) = some i ∧ nm i ∉ ["at", "w", "f"]) (ts : List (Tok K)) :
    ∀ v, ikConsArgs ik (args.flatMap (ConfArg.toks nm) ++ ts) v = ikConsArgs ik ts (args.foldl argStep v) := by
  induction args with
  | nil => intro v; rfl
  | cons a args ih =>
    intro v
    have ih := ih (fun i hi => ha i (by
      simp only [ConfArg.links, List.mem_filterMap] at hi ⊢
      obtain ⟨b, hb, e⟩ := hi
      exact ⟨b, List.mem_cons_of_mem _ hb, e⟩))
    rw [List.flatMap_cons, List.append_assoc, List.foldl_cons, ← ih]
    cases a with
    | link i =>
      obtain ⟨h1, h2⟩ := ha i (by simp [ConfArg.links])
      simp only [List.mem_cons, List.not_mem_nil, or_false, not_or] at h2
      simp only [ConfArg.toks, List.cons_append, List.nil_append]
      rw [ikConsArgs, if_neg h2.1, if_neg h2.2.1, if_neg h2.2.2]
      simp only [h1, argStep]
      split_ifs <;> rfl
    | point x =>
      simp only [ConfArg.toks, List.cons_append, List.nil_append]
      rw [ikConsArgs, if_pos rfl]
      rfl
    | weight x =>
      simp only [ConfArg.toks, List.cons_append, List.nil_append]
      rw [ikConsArgs, if_neg (by decide), if_pos rfl]
      rfl
    | force =>
      simp only [ConfArg.toks, List.cons_append, List.nil_append]
      rw [ikConsArgs, if_neg (by decide), if_neg (by decide), if_pos rfl]
      rfl

theorem args_ap (args : List (ConfArg K)) : ∀ v : ConsVars K,
    (if (args.foldl argStep v).mask.ap then (args.foldl argStep v).attr.ap else 0) =
      (ConfArg.points args).getLast?.getD (if v.mask.ap then v.attr.ap else 0) := by
  induction args with
  | nil => intro v; rfl
  | cons a args ih =>
    intro v
    rw [List.foldl_cons, ih]
    cases a with
    | link i =>
      by_cases h : v.linknum = 0
      · rw [argStep, if_pos h]; rfl
      · rw [argStep, if_neg h]; rfl
    | point x =>
      rw [show ConfArg.points (.point x :: args) = x :: ConfArg.points args from rfl, List.getLast?_cons]
      rfl
    | weight x => rfl
    | force => rfl

theorem args_w (args : List (ConfArg K)) : ∀ v : ConsVars K,
    (if (args.foldl argStep v).mask.weight then (args.foldl argStep v).attr.w else ⟨1, 1, 1⟩) =
      (ConfArg.weights args).getLast?.getD (if v.mask.weight then v.attr.w else ⟨1, 1, 1⟩) := by
  induction args with
  | nil => intro v; rfl
  | cons a args ih =>
    intro v
    rw [List.foldl_cons, ih]
    cases a with
    | link i =>
      by_cases h : v.linknum = 0
      · rw [argStep, if_pos h]; rfl
      · rw [argStep, if_neg h]; rfl
    | weight x =>
      rw [show ConfArg.weights (.weight x :: args) = x :: ConfArg.weights args from rfl, List.getLast?_cons]
      rfl
    | point x => rfl
    | force => rfl

theorem args_force (args : List (ConfArg K)) : ∀ v : ConsVars K,
    (args.foldl argStep v).mask.force = (v.mask.force || args.any fun | .force => true | _ => false) := by
  induction args with
  | nil => intro v; simp
  | cons a args ih =>
    intro v
    rw [List.foldl_cons, ih]
    cases a <;> (try simp only [argStep]) <;> (try split_ifs) <;> simp

theorem args_later (args : List (ConfArg K)) : ∀ v : ConsVars K, v.linknum ≠ 0 →
    (if (args.foldl argStep v).mask.id then (args.foldl argStep v).attr.id else 0) = (if v.mask.id then v.attr.id else 0) ∧
    (if (args.foldl argStep v).mask.idSub then (args.foldl argStep v).attr.idSub else 0) =
      (ConfArg.links args).getLast?.getD (if v.mask.idSub then v.attr.idSub else 0) := by
  induction args with
  | nil => intro v _; exact ⟨rfl, rfl⟩
  | cons a args ih =>
    intro v hv
    rw [List.foldl_cons]
    cases a with
    | link i =>
      obtain ⟨h1, h2⟩ := ih (argStep v (.link i)) (by rw [argStep, if_neg hv]; exact Nat.succ_ne_zero _)
      rw [h1, h2]
      simp [argStep, hv, ConfArg.links, List.filterMap_cons, List.getLast?_cons]
    | point x => exact ih _ hv
    | weight x => exact ih _ hv
    | force => exact ih _ hv

theorem args_first (args : List (ConfArg K)) : ∀ v : ConsVars K, v.linknum = 0 →
    (if (args.foldl argStep v).mask.id then (args.foldl argStep v).attr.id else 0) =
      (ConfArg.links args).head?.getD (if v.mask.id then v.attr.id else 0) ∧
    (if (args.foldl argStep v).mask.idSub then (args.foldl argStep v).attr.idSub else 0) =
      (ConfArg.links args).tail.getLast?.getD (if v.mask.idSub then v.attr.idSub else 0) := by
  induction args with
  | nil => intro v _; exact ⟨rfl, rfl⟩
  | cons a args ih =>
    intro v hv
    rw [List.foldl_cons]
    cases a with
    | link i =>
      obtain ⟨h1, h2⟩ := args_later args (argStep v (.link i)) (by rw [argStep, if_pos hv]; exact Nat.succ_ne_zero _)
      rw [h1, h2]
      simp [argStep, hv, ConfArg.links, List.filterMap_cons]
    | point x => exact ih _ hv
    | weight x => exact ih _ hv
    | force => exact ih _ hv

theorem args_init (junk : IKAttr K) (args : List (ConfArg K)) (ptr : ℕ) (fns : IKFns K) :
    IKCell.init ptr (some (args.foldl argStep ⟨junk, ⟨false, false, false, false, false⟩, 0⟩).attr)
      (args.foldl argStep ⟨junk, ⟨false, false, false, false, false⟩, 0⟩).mask fns =
    IKCell.init ptr (some (confAttr args)) ⟨true, true, true, args.any fun | .force => true | _ => false, true⟩ fns := by
  obtain ⟨h1, h2⟩ := args_first args ⟨junk, ⟨false, false, false, false, false⟩, 0⟩ rfl
  simp only [IKCell.init, Option.getD_some, h1, h2, args_ap, args_w, args_force, confAttr, if_true, Bool.false_eq_true, if_false,
    Bool.false_or]

/-! ## Lines -/

theorem disRead_siDis {p : Prp K} {v : List K} (h0 : 0 < p.size) (h : v.length = p.size) :
    disRead p (v.map .num) = p.setDis (siDis p v) := by
  cases p <;> rcases v with _ | ⟨a, _ | ⟨b, _ | ⟨c, _ | ⟨d, _ | ⟨e, _ | ⟨f, _ | ⟨g, v⟩⟩⟩⟩⟩⟩⟩ <;>
    simp [Prp.size] at h h0 <;> rfl

theorem sig_names {a b : List (Link K)} (h : a.map confSig = b.map confSig) :
    (a.map fun l => l.name) = b.map fun l => l.name := by
  have := congrArg (List.map Prod.fst) h
  rwa [List.map_map, List.map_map] at this

theorem sig_get {a b : List (Link K)} (h : a.map confSig = b.map confSig) {i : ℕ} {l : Link K} (hl : b[i]? = some l) :
    ∃ l', a[i]? = some l' ∧ confSig l' = confSig l := by
  have := congrArg (fun x => x[i]?) h
  simp only [List.getElem?_map, hl, Option.map_some, Option.map_eq_some_iff] at this
  exact this

theorem ikLink_name {ik : IK K} {ls : List (Link K)} (hn : Nameable ls) (hs : ik.chain.link.map confSig = ls.map confSig) {i : ℕ}
    (hi : i < ls.length) : ikLink ik (linkName ls i) = some i ∧ linkName ls i ∉ ["all", "at", "w", "f"] := by
  have e : ls[i]? = some ls[i] := List.getElem?_eq_getElem hi
  have e2 : linkName ls i = ls[i].name := by rw [linkName, e]; rfl
  refine ⟨?_, e2 ▸ hn.2 _ (List.getElem_mem hi)⟩
  rw [ikLink, sig_names hs]
  exact findIdx_name hn.1 (by rw [List.getElem?_map, e, e2]; rfl)

theorem ikLink_none {ik : IK K} {ls : List (Link K)} (hs : ik.chain.link.map confSig = ls.map confSig) {n : String}
    (h : n ∉ ls.map fun l => l.name) : ikLink ik n = none := by
  rw [ikLink, sig_names hs, List.findIdx?_eq_none_iff]
  intro m hm
  simp only [beq_eq_false_iff_ne]
  rintro rfl
  exact h hm

theorem ikLookup_kind (acm : IKAcm K → Vec3 K → IKAcm K × Vec3 K) (k : ConfKind) :
    (ikLookup acm).find? (fun e => e.1 == k.name) = some (k.name, k.fns acm) := by
  cases k <;> rfl

theorem ikLookup_none (acm : IKAcm K → Vec3 K → IKAcm K × Vec3 K) {n : String} (h : ∀ k : ConfKind, k.name ≠ n) :
    (ikLookup acm).find? (fun e => e.1 == n) = none := by
  rw [List.find?_eq_none]
  intro e he
  simp only [ikLookup, List.mem_cons, List.not_mem_nil, or_false] at he
  simp only [beq_iff_eq]
  rcases he with rfl | rfl | rfl | rfl | rfl | rfl | rfl
  · exact h .worldPos
  · exact h .worldAtt
  · exact h .l2lPos
  · exact h .l2lAtt
  · exact h .com
  · exact h .am
  · exact h .amcom

/-- The result of a call as that of a reading function. -/
def opRes (ptr : ℕ) : Option (IK K) → Res (IKSt K)
  | none => .ub
  | some ik => .ok (ik, ptr)

theorem ikWeight_opt (w : Option K) : ikWeight (w.toList.map Tok.num) = some (w.getD (1 / 1000), []) := by
  cases w <;> rfl

variable [ZSqrt K]

theorem line_sig {acm : IKAcm K → Vec3 K → IKAcm K × Vec3 K} {ls : List (Link K)} {ptr : ℕ} {ik ik' : IK K}
    (hs : ik.chain.link.map confSig = ls.map confSig) (l : ConfLine K) (h : (l.op acm ls ptr).run ik = some ik') :
    ik'.chain.link.map confSig = ls.map confSig := by
  cases l with
  | all w =>
    simp only [ConfLine.op, IK.Op.run, Option.map_eq_some_iff] at h
    obtain ⟨⟨ok, b⟩, h, rfl⟩ := h
    simp only [(jointRegAllFrom_ok _ _ h).2, hs]
  | joint i w =>
    simp only [ConfLine.op, IK.Op.run, Option.map_eq_some_iff] at h
    obtain ⟨⟨ok, b⟩, h, rfl⟩ := h
    simp only [jointReg'_chain h, hs]
  | pose i v =>
    simp only [ConfLine.op, IK.Op.run, Chain.Op.run, LinkArray.setJoint, Option.map_eq_some_iff, bind, Option.bind_eq_some_iff,
      Link.setWith] at h
    obtain ⟨c, ⟨ls', ⟨l, hl, l', ⟨p, hp, rfl⟩, h⟩, rfl⟩, rfl⟩ := h
    simp only [Option.some.injEq] at h
    subst h
    rw [← hs]
    refine sig_set hl ?_
    simp only [confSig, siDis_setDis hp, LinkArray.isSetter_dis.size _ _ _ hp]
  | constraint k args =>
    rw [cellReg_chain h, hs]

theorem line_read [IsStrictOrderedRing K] {acm : IKAcm K → Vec3 K → IKAcm K × Vec3 K} (junk : IKAttr K) {ls : List (Link K)}
    (hn : Nameable ls) {s : IKSt K} (hs : s.1.chain.link.map confSig = ls.map confSig) {l : ConfLine K} (hv : l.Valid ls) :
    evalFld (ikTab acm junk) s (l.fld (linkName ls)) =
      opRes (if l.isJoint then s.2 else s.2 + 1) ((l.op acm ls s.2).run s.1) := by
  have hl : s.1.chain.link.length = ls.length := by simpa using congrArg List.length hs
  cases l with
  | all w =>
    change ikJointRead s (.str "all" :: w.toList.map .num) = opRes s.2 ((s.1.jointRegAll (w.getD (1 / 1000))).map Prod.snd)
    rw [ikJointRead, ikWeight_opt]
    simp only [if_true]
    rcases h : s.1.jointRegAll (w.getD (1 / 1000)) with _ | ⟨ok, ik⟩
    · rfl
    · rw [(jointRegAllFrom_ok _ _ h).1]; rfl
  | joint i w =>
    obtain ⟨⟨l, hl1, hl2⟩, hw⟩ := hv
    obtain ⟨l', h1, h2⟩ := sig_get hs hl1
    obtain ⟨n1, n2⟩ := ikLink_name hn hs (List.getElem?_eq_some_iff.1 hl1).1
    have hsz : l'.size ≠ 0 := by
      have := congrArg (fun x => x.2.1) h2
      simp only [confSig] at this
      rw [Link.size, this]; omega
    have hw0 : w.getD (1 / 1000) ≠ 0 := by
      rcases w with _ | w
      · simp
      · simpa using hw
    change ikJointRead s (.str (linkName ls i) :: w.toList.map .num) =
      opRes s.2 ((s.1.jointReg i (w.getD (1 / 1000))).map Prod.snd)
    rw [ikJointRead, ikWeight_opt]
    simp only [n1, h1, if_neg hw0, if_neg hsz, if_neg (show linkName ls i ≠ "all" from fun e => n2 (by simp [e]))]
    rcases h : s.1.jointReg i (w.getD (1 / 1000)) with _ | ⟨ok, ik⟩
    · rfl
    · rw [jointReg_ok (List.getElem?_eq_some_iff.1 h1).1 h]; rfl
  | pose i v =>
    obtain ⟨l, hl1, hl2, hl3⟩ := hv
    obtain ⟨l', h1, h2⟩ := sig_get hs hl1
    obtain ⟨n1, n2⟩ := ikLink_name hn hs (List.getElem?_eq_some_iff.1 hl1).1
    have hsz : l'.joint.prp.size = l.joint.prp.size := congrArg (fun x => x.2.1) h2
    have hsi : siDis l'.joint.prp = siDis l.joint.prp := congrArg (fun x => x.2.2) h2
    change ikJointRead s (.str (linkName ls i) :: .num 0 :: v.map .num) = opRes s.2 ((Chain.Op.run s.1.chain
      (.setDis [i] ((ls[i]?.map fun l => siDis l.joint.prp v).getD []))).map fun c => { s.1 with chain := c })
    rw [ikJointRead, ikWeight]
    simp only [n1, h1, if_true, if_neg (show linkName ls i ≠ "all" from fun e => n2 (by simp [e])), Chain.Op.run,
      LinkArray.setJoint, hl1, Option.map_some, Option.getD_some, Link.setWith, bind, Option.bind_some,
      disRead_siDis (hsz ▸ hl2) (hl3.trans hsz.symm), hsi]
    cases l'.joint.prp.setDis (siDis l.joint.prp v) <;> rfl
  | constraint k args =>
    change ikConsRead acm junk s (.str k.name :: args.flatMap (ConfArg.toks (linkName ls))) = _
    rw [ikConsRead, ikLookup_kind]
    have := ikConsArgs_toks (ik := s.1) (nm := linkName ls) args (fun i hi => by
      obtain ⟨n1, n2⟩ := ikLink_name hn hs (hv i hi)
      exact ⟨n1, fun h => n2 (List.mem_cons_of_mem _ h)⟩) [] ⟨junk, ⟨false, false, false, false, false⟩, 0⟩
    rw [List.append_nil] at this
    simp only [this, ikConsArgs, IK.cellReg, args_init]
    change _ = opRes (s.2 + 1) (IK.allocSRV _)
    generalize (IK.allocSRV (K := K) _) = x
    cases x <;> rfl

end

end Roki.ZTK
