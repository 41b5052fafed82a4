import Verif.Lemmas.UrdfPlace6
import Verif.Props.UrdfFile
set_option autoImplicit false

/-! # URDF documents: the links of the chain that is read -/

namespace Roki.Urdf.Doc
open ZTK Spec.UrdfDoc Spec.File Spec.Forest
variable {K : Type*} [Field K]

theorem at_rot {zyx : K → K → K → Mat3 K} {doc : Elem K} (hz : ∀ a b c, (zyx a b c).IsRot) {n : String} {f : Frame K}
    (h : At zyx doc n f) : f.att.IsRot := by
  induction h with
  | root => exact Mat3.isRot_one
  | joint e np n f he hp hc h ih =>
    refine ih.mul ?_
    rw [origin]
    cases ((given e "origin" "rpy").bind three) with
    | none => exact Mat3.isRot_one
    | some a => exact hz _ _ _

theorem put_rot {rot : Vec3 K → Mat3 K} {doc : Elem K} (hrot : ∀ a, (rot a).IsRot) {n : String} {f g : Frame K} (hf : f.att.IsRot)
    (h : Put rot doc n f g) : g.att.IsRot := by
  rcases h with ⟨e, -, -, -, rfl⟩ | ⟨-, rfl⟩
  · exact (hrot _).mul hf
  · exact hf

variable [LinearOrder K] [IsStrictOrderedRing K] [Zm K] [LawfulZm K]

omit [LinearOrder K] [IsStrictOrderedRing K] [LawfulZm K] in
theorem crisp_clean {f : Frame K} (h : Crisp f) :
    (⟨if tinyVec f.pos then 0 else f.pos, if tinyMat f.att then 1 else f.att⟩ : Frame K) = f := by
  rw [Crisp] at h
  simp only [List.mem_cons, List.not_mem_nil, or_false, forall_eq_or_imp, forall_eq, sub_eq_zero] at h
  obtain ⟨h1, h2, h3, h4, h5, h6, h7, h8, h9, h10, h11, h12⟩ := h
  have e1 : (if tinyVec f.pos then 0 else f.pos) = f.pos := by
    split_ifs with ht
    · simp only [tinyVec, Bool.and_eq_true] at ht
      ext1
      · exact (h1 ht.1.1).symm
      · exact (h2 ht.1.2).symm
      · exact (h3 ht.2).symm
    · rfl
  have e2 : (if tinyMat f.att then 1 else f.att) = f.att := by
    split_ifs with ht
    · simp only [tinyMat, Bool.and_eq_true] at ht
      obtain ⟨⟨⟨⟨⟨⟨⟨⟨t1, t2⟩, t3⟩, t4⟩, t5⟩, t6⟩, t7⟩, t8⟩, t9⟩ := ht
      have m1 : f.att.cx = ⟨1, 0, 0⟩ := by ext1 <;> simp [h4 t1, h5 t2, h6 t3]
      have m2 : f.att.cy = ⟨0, 1, 0⟩ := by ext1 <;> simp [h7 t4, h8 t5, h9 t6]
      have m3 : f.att.cz = ⟨0, 0, 1⟩ := by ext1 <;> simp [h10 t7, h11 t8, h12 t9]
      ext1
      · exact m1.symm
      · exact m2.symm
      · exact m3.symm
    · rfl
  rw [e1, e2]

/-- What is read from the file that is written. -/
theorem read_links (o : Order) (noname : String) (g : Vec6 K) {rot : Vec3 K → Mat3 K} {zyx : K → K → K → Mat3 K}
    {doc : Elem K} {links : List String} {pars : List (Option ℕ)} {f : File K} (hf : urdf2ztk rot zyx doc = some f)
    (hd : Describes doc links pars) (hnum : ∀ e ∈ elems doc "joint", Numbers e) (hshaped : ∀ e ∈ elems doc "link", Shaped e)
    (hno : noname ∉ links) (hr : pars[0]? = some none) (hl : ∀ k < pars.length, LeadsToRoot pars k) :
    ∃ (r : Robot K) (c c0 c1 : Chain K) (s0 s : Info K) (h : List LinkHeap.Node), ZTK.read o noname g f = some (some (r, c)) ∧ eval zyx doc = some s0 ∧
      correctFrame rot s0 = some s ∧ c0.WF ∧ c0.updateFK = some c1 ∧ Rep h none (some 0) c0.shape ∧ ZTK.parents h = pars ∧
      c0.link.length = pars.length ∧
      (c.link.map fun l => (l.body.frame, l.body.mp, l.body.wldCOM)) = (c1.link.map fun l => (l.body.frame, l.body.mp, l.body.wldCOM)) ∧
      (∀ i : ℕ, i < pars.length → ∃ (l : Link K) (l' : Roki.Link K), s.link[i]? = some l ∧ c0.link[i]? = some l' ∧
        Spec.jointFrame l'.joint.prp = Frame.ident ∧
        l'.org = ⟨if tinyVec (orgOf (theJoint s l)).pos then 0 else (orgOf (theJoint s l)).pos,
          if tinyMat (orgOf (theJoint s l)).att then 1 else (orgOf (theJoint s l)).att⟩ ∧
        l'.body.mp = ⟨l.mp.mass, if l.mp.mass = 0 then 0 else if tinyVec l.mp.com then 0 else l.mp.com, if l.mp.mass = 0 then 0 else l.mp.inertia⟩) := by
  obtain ⟨s0, h0, hf⟩ := Option.bind_eq_some_iff.1 hf
  obtain ⟨s, h1, hf⟩ := Option.bind_eq_some_iff.1 hf
  have hs := state_of hd h0 h1
  obtain ⟨r0, p1, p2, p3, p4, p5, p6, p7, p8⟩ := output_parts o noname hd hs hno hnum hshaped hf
  obtain ⟨h, ct, k1, k2, k3, k4, k5, k6, k7⟩ := readParts_parents o noname f r0 pars p1 (by rw [p2]; exact hd.nodup) (by rw [p2]; exact p3) hr hl
  have hne : secs "link" f ≠ [] := by
    intro e
    rw [e, ← hd.size] at p4
    rw [List.eq_nil_of_length_eq_zero p4.symm] at hr
    simp at hr
  have hcom : ¬ (({ r0 with node := h } : Robot K).link.any fun l => !l.com) = true := by
    rw [List.any_eq_true]
    rintro ⟨fl, hfl, hc⟩
    obtain ⟨i, hi⟩ := List.mem_iff_getElem?.1 hfl
    have hi' : i < s.link.length := by
      rw [← p6]
      exact (List.getElem?_eq_some_iff.1 hi).1
    obtain ⟨n, -, p, -, rfl⟩ := p8 i s.link[i] fl (List.getElem?_eq_getElem hi') hi
    simp [readLink] at hc
  have hlen : (({ r0 with node := h } : Robot K).chain (.node 0 ct .nil)).link.length = pars.length := by
    rw [k2]
    simp [Robot.chain, LinkArray.setOffset, LinkArray.setOffsetFrom_length]
  have w : (({ r0 with node := h } : Robot K).chain (.node 0 ct .nil)).WF := by
    refine ⟨⟨ct, rfl⟩, ?_⟩
    rw [hlen]
    exact k6
  obtain ⟨d1, f1, -⟩ := C06_fk_composition _ w
  obtain ⟨-, -, -, w1, s1, -⟩ := w.updateFK f1
  obtain ⟨d2, f2⟩ := w1.updateID_exists g
  refine ⟨{ r0 with node := h }, d2, _, d1, s0, s, h, ?_, h0, h1, w, f1, k5, k4, hlen, ?_, ?_⟩
  · rw [ZTK.read, if_neg hne, k1, Option.bind_some, if_neg hcom, toTree_rep k5 _ (by rw [k6.length_eq, List.length_range, ← k3]; simp),
      Option.bind_some, f1, Option.bind_some, f2]
    rfl
  · exact (updateID_map (fun l : Roki.Link K => (l.body.frame, l.body.mp, l.body.wldCOM)) (fun _ _ _ => rfl) (fun _ _ => rfl) (fun _ _ => rfl) f2).1
  · intro i hi
    have hi1 : i < s.link.length := by rw [← p6, ← k2]; exact hi
    have hi2 : i < r0.link.length := by rw [← k2]; exact hi
    obtain ⟨n, hn, p, hp, hfl⟩ := p8 i _ _ (List.getElem?_eq_getElem hi1) (List.getElem?_eq_getElem hi2)
    have := congrArg (fun l => l[i]?) (setOffsetFrom_map (fun l : Roki.Link K => (l.joint, l.org, l.body.mp)) (fun _ _ => rfl) (r0.link.map fun l => l.link) 0)
    simp only [List.getElem?_map, List.getElem?_eq_getElem hi2, Option.map_some] at this
    obtain ⟨l', hl', e⟩ := Option.map_eq_some_iff.1 this
    simp only [Prod.mk.injEq] at e
    refine ⟨_, l', List.getElem?_eq_getElem hi1, hl', ?_, ?_, ?_⟩
    · rw [e.1, hfl]; exact hp.2
    · rw [e.2.1, hfl]; rfl
    · rw [e.2.2, hfl]; rfl

end Roki.Urdf.Doc
