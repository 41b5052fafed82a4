import Verif.Lemmas.UrdfPlace7
import Verif.Lemmas.PoseKeys2
import Verif.Props.Cad2ztk
import Verif.Model.CadFile
set_option autoImplicit false

/-! # Reading the file that `cad2ztk` writes -/

namespace Roki.ZTK
open Spec.File Spec.Forest Urdf.Doc
variable {K : Type*} [Field K] [LinearOrder K] [IsStrictOrderedRing K] [Zm K] [LawfulZm K]

theorem typeStr_calcTrq (p : Prp K) (w : Vec6 K) : (p.calcTrq w).typeStr = p.typeStr := by
  cases p <;> rfl

/-- What is known of a link after reading. -/
def seen (l : Roki.Link K) : String × String × MP K := (l.name, l.joint.prp.typeStr, l.body.mp)

/-- A file with sections of links that can be read, and joints at zero. -/
theorem read_sections (o : Order) (noname : String) (g : Vec6 K) {f : File K} {shapes : List String} {fls : List (FLink K)}
    {ss : List (List (Fld K))} {name : String} {pars : List (Option ℕ)} (s2 : secs "link" f = ss)
    (s3 : secs "shape" f = shapes.map fun n => ([⟨"name", [.str n]⟩] : List (Fld K))) (s4 : secs "chain" f = [[⟨"name", [.str name]⟩]])
    (s5 : secs "motor" f = []) (s6 : secs "init" f = [])
    (g3 : List.Forall₂ (fun (l : FLink K) s => ∀ names : List String, l.link.name ∉ names →
        linkRead o noname names shapes [] s = .ok l) fls ss)
    (hnd : (fls.map fun l => l.link.name).Nodup) (hno : noname ∉ fls.map fun l => l.link.name)
    (hcm : ∀ l ∈ fls, l.com = true) (hd : DeclareParents (fls.map fun l => l.link.name) f pars)
    (hr : pars[0]? = some none) (hl : ∀ k < pars.length, LeadsToRoot pars k) :
    ∃ (r : Robot K) (c c0 c1 : Chain K) (h : List LinkHeap.Node), ZTK.read o noname g f = some (some (r, c)) ∧
      r.name = name ∧ r.shapes = shapes ∧ r.link = fls ∧ r.node = h ∧ c0.WF ∧ c0.updateFK = some c1 ∧
      Rep h none (some 0) c0.shape ∧ ZTK.parents h = pars ∧ c0.link.length = pars.length ∧ pars.length = fls.length ∧
      (c.link.map fun l => (l.body.frame, l.body.wldCOM, seen l)) = (c1.link.map fun l => (l.body.frame, l.body.wldCOM, seen l)) ∧
      c1.link.map seen = c0.link.map seen ∧
      (c0.link.map fun l => (l.name, l.joint, l.org, l.body.mp)) = fls.map fun l => (l.link.name, l.link.joint, l.link.org, l.link.body.mp) := by
  have p1 : readParts o noname (noParents f) = some ⟨name, [], shapes, fls, LinkHeap.init ss.length⟩ := by
    rw [readParts_eq, secs_noParents_link, secs_noParents (by decide), secs_noParents (by decide), secs_noParents (by decide),
      secs_noParents (by decide), s2, s3, s4, s5, s6, shapes_read, Option.bind_some]
    change Option.bind (some []) _ = _
    rw [Option.bind_some, List.length_map, evalTag_map (rdLink_dropParent o noname)]
    have := evalTag_any o noname shapes fls [] ss ⟨noname, [], shapes, List.replicate ss.length (linkInit noname), LinkHeap.init ss.length⟩
      g3 (by rw [List.nil_append]; exact hnd) (by rw [List.nil_append]; exact hno) rfl rfl rfl
    rw [List.nil_append] at this
    change (Option.bind (Res.get (evalTag (rdLink o noname) ([] : List (FLink K)).length ss _)) _) = _
    rw [this]
    simp only [Res.get, Option.bind_some]
    rw [evalTag_noParent]
    simp only [Option.bind_some]
    rw [evalTag_one]
    cases o <;> rfl
  obtain ⟨h, ct, k1, k2, k3, k4, k5, k6, k7⟩ := readParts_parents o noname f _ pars p1 hnd hd hr hl
  have k2' : pars.length = fls.length := k2
  have hne : secs "link" f ≠ [] := by
    intro e
    rw [s2] at e
    subst e
    cases g3
    rw [List.length_nil] at k2'
    rw [List.eq_nil_of_length_eq_zero k2'] at hr
    simp at hr
  set r0 : Robot K := ⟨name, [], shapes, fls, LinkHeap.init ss.length⟩ with hr0
  have hcom : ¬ (({ r0 with node := h } : Robot K).link.any fun l => !l.com) = true := by
    rw [List.any_eq_true]
    rintro ⟨fl, hfl, hc⟩
    rw [hcm fl hfl] at hc
    simp at hc
  have hlen : (({ r0 with node := h } : Robot K).chain (.node 0 ct .nil)).link.length = pars.length := by
    rw [k2]
    simp [Robot.chain, LinkArray.setOffset, LinkArray.setOffsetFrom_length]
  have w : (({ r0 with node := h } : Robot K).chain (.node 0 ct .nil)).WF := by
    refine ⟨⟨ct, rfl⟩, ?_⟩
    rw [hlen]
    exact k6
  obtain ⟨d1, f1, -⟩ := C06_fk_composition _ w
  obtain ⟨-, -, -, w1, s1, -⟩ := w.updateFK f1
  obtain ⟨d2, f2⟩ := w1.updateID_exists g
  refine ⟨{ r0 with node := h }, d2, _, d1, h, ?_, rfl, rfl, rfl, rfl, w, f1, k5, k4, hlen, k2', ?_, ?_, ?_⟩
  · rw [ZTK.read, if_neg hne, k1, Option.bind_some, if_neg hcom, toTree_rep k5 _ (by rw [k6.length_eq, List.length_range, ← k3]; simp),
      Option.bind_some, f1, Option.bind_some, f2]
    rfl
  · exact (updateID_map (fun l : Roki.Link K => (l.body.frame, l.body.wldCOM, seen l)) (fun _ _ _ => rfl) (fun _ _ => rfl)
      (fun l w => by simp only [seen, typeStr_calcTrq]) f2).1
  · exact (updateFK_map seen (fun _ _ => rfl) f1).1
  · have := setOffsetFrom_map (fun l : Roki.Link K => (l.name, l.joint, l.org, l.body.mp)) (fun _ _ => rfl) (r0.link.map fun l => l.link) 0
    rw [List.map_map] at this
    exact this

end Roki.ZTK

namespace Roki.Cad
open ZTK Spec.File Spec Urdf.Doc
variable {K : Type*} [Field K] [LinearOrder K] [IsStrictOrderedRing K] [Zm K] [LawfulZm K]

/-- A link as it is read. -/
def gotLink (noname : String) (l : OutLink K) (p : Prp K) : FLink K where
  link := { (linkInit noname : FLink K).link with
    name := l.name, joint := ⟨p, 0⟩, body := { (Body.init : Body K) with mp := l.mp }, org := l.frame }
  com := true
  mname := noname
  shapes := l.shapes

/-- The groups of the section, in the order of the table. -/
def groups (names shapes : List String) (l : OutLink K) : List (Group (FLink K) K) :=
  (linkTabAll none names shapes).zip [[[.str l.name]], [[.str l.jointtype]], [[.num l.mp.mass]], [], [tokVec l.mp.com],
    [tokMat l.mp.inertia], [], [], l.shapes.map fun n => [.str n]]

omit [IsStrictOrderedRing K] [LawfulZm K] in
theorem groups_flds (names shapes : List String) (l : OutLink K) : (groups names shapes l).flatMap Group.flds =
    [⟨"name", [.str l.name]⟩, ⟨"jointtype", [.str l.jointtype]⟩, ⟨"mass", [.num l.mp.mass]⟩,
    ⟨"COM", tokVec l.mp.com⟩, ⟨"inertia", tokMat l.mp.inertia⟩] ++ (l.shapes.map fun n => ⟨"shape", [.str n]⟩) := by
  have : (groups names shapes l).flatMap Group.flds = [⟨"name", [.str l.name]⟩, ⟨"jointtype", [.str l.jointtype]⟩, ⟨"mass", [.num l.mp.mass]⟩,
    ⟨"COM", tokVec l.mp.com⟩, ⟨"inertia", tokMat l.mp.inertia⟩] ++ (((l.shapes.map fun n => [Tok.str n]).map fun v => (⟨"shape", v⟩ : Fld K)) ++ []) := rfl
  rw [this, List.map_map, List.append_nil]
  rfl

omit [LinearOrder K] [IsStrictOrderedRing K] [Zm K] [LawfulZm K] in
theorem noPose_lines (tf : Frame K → List (Tok K)) (l : OutLink K) : noPose (linkLines tf l) =
    [⟨"name", [.str l.name]⟩, ⟨"jointtype", [.str l.jointtype]⟩, ⟨"mass", [.num l.mp.mass]⟩,
    ⟨"COM", tokVec l.mp.com⟩, ⟨"inertia", tokMat l.mp.inertia⟩] ++ (l.shapes.map fun n => ⟨"shape", [.str n]⟩) ++
    l.parent.toList.map fun n => ⟨"parent", [.str n]⟩ := by
  rw [noPose, linkLines, List.filter_append, List.filter_append]
  congr 1
  · congr 1
    rw [List.filter_eq_self]
    intro f hf
    obtain ⟨n, -, rfl⟩ := List.mem_map.1 hf
    simp [poseKeys]
  · rw [List.filter_eq_self]
    intro f hf
    obtain ⟨n, -, rfl⟩ := List.mem_map.1 hf
    simp [poseKeys]

omit [LinearOrder K] [IsStrictOrderedRing K] [Zm K] [LawfulZm K] in
theorem filter_lines (tf : Frame K → List (Tok K)) (l : OutLink K) (k : String) (h1 : k ≠ "shape") (h2 : k ≠ "parent") :
    (linkLines tf l).filter (fun f => f.key == k) = ([⟨"name", [.str l.name]⟩, ⟨"jointtype", [.str l.jointtype]⟩, ⟨"frame", tf l.frame⟩, ⟨"mass", [.num l.mp.mass]⟩,
    ⟨"COM", tokVec l.mp.com⟩, ⟨"inertia", tokMat l.mp.inertia⟩] : List (Fld K)).filter (fun f => f.key == k) := by
  rw [linkLines, List.filter_append, List.filter_append]
  have e1 : (l.shapes.map fun n => (⟨"shape", [.str n]⟩ : Fld K)).filter (fun f => f.key == k) = [] := by
    rw [List.filter_eq_nil_iff]
    intro f hf
    obtain ⟨n, -, rfl⟩ := List.mem_map.1 hf
    simpa using Ne.symm h1
  have e2 : (l.parent.toList.map fun n => (⟨"parent", [.str n]⟩ : Fld K)).filter (fun f => f.key == k) = [] := by
    rw [List.filter_eq_nil_iff]
    intro f hf
    obtain ⟨n, -, rfl⟩ := List.mem_map.1 hf
    simpa using Ne.symm h2
  rw [e1, e2, List.append_nil, List.append_nil]

theorem placed_lines (z : PoseZeo K) (o : Order) (tf : Frame K → List (Tok K)) (l : OutLink K) (hz : z.frame (tf l.frame) = some l.frame) :
    placeAll z (poseLines o (linkLines tf l)) Frame.ident = some l.frame := by
  have hp : ∀ F : Frame K, placeAll z [⟨"frame", tf l.frame⟩] F = some l.frame := by
    intro F
    simp [placeAll, place, hz]
  cases o with
  | file =>
    rw [poseLines, ← placeAll_noPose]
    have : (linkLines tf l).filter (fun f => f.key ∈ poseKeys) = [⟨"frame", tf l.frame⟩] := by
      rw [linkLines, List.filter_append, List.filter_append]
      have e1 : (l.shapes.map fun n => (⟨"shape", [.str n]⟩ : Fld K)).filter (fun f => f.key ∈ poseKeys) = [] := by
        rw [List.filter_eq_nil_iff]
        intro f hf
        obtain ⟨n, -, rfl⟩ := List.mem_map.1 hf
        simp [poseKeys]
      have e2 : (l.parent.toList.map fun n => (⟨"parent", [.str n]⟩ : Fld K)).filter (fun f => f.key ∈ poseKeys) = [] := by
        rw [List.filter_eq_nil_iff]
        intro f hf
        obtain ⟨n, -, rfl⟩ := List.mem_map.1 hf
        simp [poseKeys]
      rw [e1, e2]
      rfl
    rw [this, hp]
  | table =>
    have : poseLines .table (linkLines tf l) = [⟨"frame", tf l.frame⟩] := by
      simp only [poseLines, poseKeys, List.flatMap_cons, List.flatMap_nil]
      rw [filter_lines tf l "pos" (by decide) (by decide), filter_lines tf l "att" (by decide) (by decide),
        filter_lines tf l "rot" (by decide) (by decide), filter_lines tf l "frame" (by decide) (by decide),
        filter_lines tf l "DH" (by decide) (by decide)]
      rfl
    rw [this, hp]

/-- Joint types that the tool documents. -/
def docTypes : List String := ["fixed", "revolute", "prismatic", "cylindrical", "hooke", "spherical", "float"]

theorem neutral_frame {q p : Prp K} (h : q.fresh.neutral = some p) : p.typeStr = q.typeStr ∧ jointFrame p = Frame.ident := by
  have ha : (Zm.fromAA (⟨0, 0, 0⟩ : Vec3 K)) = 1 := LawfulZm.fromAA_zero
  cases q <;> simp [Prp.fresh, Prp.neutral, Prp.setDis, Vec3.ofBuf, Vec6.ofBuf] at h <;> subst h <;> refine ⟨rfl, ?_⟩ <;>
    simp [ha, Mat3.mul, Mat3.mulVec, Dof1.fresh, Dof2.fresh, limit, phase_zero, jointFrame, LawfulZm.sin_zero, LawfulZm.cos_zero, Rz, Ry, Frame.ident, Mat3.ext_iff, Vec3.ext_iff]

theorem query_doc {t : String} (ht : t ∈ docTypes) : ∃ p : Prp K, p.typeStr = t ∧ jointFrame p = Frame.ident ∧
    ∀ j : Roki.Joint K, j.queryAssign t = some (some { j with prp := p }) := by
  have hz : ∀ q : Prp K, q.typeStr = t → 
      ∃ p : Prp K, p.typeStr = t ∧ jointFrame p = Frame.ident ∧ ∀ j : Roki.Joint K, j.queryAssign t = some (some { j with prp := p }) := by
    intro q h1
    obtain ⟨p0, h3, -⟩ := queryAssign_typeStr (⟨.fixed, 0⟩ : Roki.Joint K) q
    obtain ⟨a1, a2⟩ := neutral_frame h3
    refine ⟨p0, a1.trans h1, a2, fun j => ?_⟩
    obtain ⟨p1, h5, h6⟩ := queryAssign_typeStr j q
    rw [h3] at h5
    cases h5
    rw [← h1]
    exact h6
  simp only [docTypes, List.mem_cons, List.not_mem_nil, or_false] at ht
  rcases ht with rfl | rfl | rfl | rfl | rfl | rfl | rfl
  · exact hz .fixed rfl
  · exact hz (.revol Dof1.fresh) rfl
  · exact hz (.prism Dof1.fresh) rfl
  · exact hz (.cylin Dof2.fresh) rfl
  · exact hz (.hooke Dof2.fresh) rfl
  · exact hz (.spher { aa := 0, vel := 0, acc := 0, trq := 0, att := 0, motor := Motor.none }) rfl
  · exact hz (.float { dis := 0, vel := 0, acc := 0, trq := 0, att := 0, epf := none, ept := none }) rfl

/-- A section is read. -/
theorem section_read (z : PoseZeo K) (o : Order) (noname : String) (shapes : List String) (tf : Frame K → List (Tok K)) (l : OutLink K)
    (hz : z.frame (tf l.frame) = some l.frame) (hs : ∀ s ∈ l.shapes, s ∈ shapes) (ht : l.jointtype ∈ docTypes) :
    ∃ p : Prp K, p.typeStr = l.jointtype ∧ jointFrame p = Frame.ident ∧ ∀ names : List String, l.name ∉ names →
      linkRead o noname names shapes [] (plainSec z o (linkLines tf l)) = .ok (gotLink noname l p) := by
  obtain ⟨p, h1, h2, h3⟩ := query_doc (K := K) ht
  refine ⟨p, h1, h2, fun names hn => ?_⟩
  rw [← linkReadZ_plain, linkReadZ_ok]
  refine ⟨{ gotLink noname l p with link := { (gotLink noname l p).link with org := Frame.ident } }, l.frame, ?_,
    placed_lines z o tf l hz, rfl⟩
  -- the table of the link
  have hk : known (linkTabAll none names shapes) (noPose (linkLines tf l)) = (groups names shapes l).flatMap Group.flds := by
    rw [noPose_lines, groups_flds, known_append, known_all, known_none, List.append_nil]
    · intro f hf
      obtain ⟨n, -, rfl⟩ := List.mem_map.1 hf
      rw [linkTabAll_keys]
      simp [linkKeys]
    · intro f hf
      rw [linkTabAll_keys]
      rcases List.mem_append.1 hf with hf | hf
      · simp only [List.mem_cons, List.not_mem_nil, or_false] at hf
        rcases hf with rfl | rfl | rfl | rfl | rfl <;> simp [linkKeys]
      · obtain ⟨n, -, rfl⟩ := List.mem_map.1 hf
        simp [linkKeys]
  have e1 : linkTabAll (K := K) none names shapes = (groups names shapes l).map Prod.fst := rfl
  have hnd : ((groups (K := K) names shapes l).map fun g => g.1.key).Nodup := by
    have : ((groups (K := K) names shapes l).map fun g => g.1.key) = linkKeys := rfl
    rw [this]
    decide
  have he : evalKeys o (linkTabAll none names shapes) (noPose (linkLines tf l)) (linkInit noname) =
      (groups names shapes l).foldl (fun r g => rdAll g.1 g.2 r) (.ok (linkInit noname)) := by
    have := evalKeys_perm o _ _ (List.Perm.refl (groups names shapes l)) hnd (by rw [← e1]; exact hk) (linkInit noname)
    rw [← e1] at this
    rw [this]
    cases o <;> rfl
  have hj : ∀ s : FLink K, rdAll ((linkTab none names)[1]?.getD (shapeRow [])) [[.str l.jointtype]] (.ok s) =
      .ok { s with link := { s.link with joint := { s.link.joint with prp := p } }, com := true } := by
    intro s
    simp [rdAll, linkTab, h3]
  have hN : ∀ s : FLink K, rdAll ((linkTab none names)[0]?.getD (shapeRow [])) [[.str l.name]] (.ok s) =
      .ok { s with link := { s.link with name := l.name } } := by
    intro s
    simp [rdAll, linkTab, hn]
  have hS : ∀ s : FLink K, rdAll (shapeRow shapes) (l.shapes.map fun n => [.str n]) (.ok s) = .ok { s with shapes := s.shapes ++ l.shapes } :=
    rd_shapes shapes l.shapes hs
  have hfold : (groups names shapes l).foldl (fun r g => rdAll g.1 g.2 r) (.ok (linkInit noname)) =
      .ok { gotLink noname l p with link := { (gotLink noname l p).link with org := Frame.ident } } := by
    change rdAll (shapeRow shapes) _ (rdAll ((linkTab none names)[7]?.getD (shapeRow [])) [] (rdAll ((linkTab none names)[6]?.getD (shapeRow [])) []
      (rdAll ((linkTab none names)[5]?.getD (shapeRow [])) _ (rdAll ((linkTab none names)[4]?.getD (shapeRow [])) _
      (rdAll ((linkTab none names)[3]?.getD (shapeRow [])) [] (rdAll ((linkTab none names)[2]?.getD (shapeRow [])) _
      (rdAll ((linkTab none names)[1]?.getD (shapeRow [])) _
      (rdAll ((linkTab none names)[0]?.getD (shapeRow [])) _ (.ok (linkInit noname)))))))))) = _
    rw [hN, hj]
    exact hS _
  rw [hfold] at he
  rw [linkRead, he, Res.andThen_ok]
  have hjr : jointRead o [] (noPose (linkLines tf l)) ⟨p, noname⟩ = .ok ⟨p, noname⟩ := by
    have hkn := (jointTab_keys (K := K) [] p).2
    rw [jointRead, ← evalKeys_known, known_none]
    · cases o with
      | file => rfl
      | table =>
        rw [evalKeys]
        generalize (.ok ⟨p, noname⟩ : Res (FJoint K)) = r
        induction (jointTab [] p) generalizing r with
        | nil => rfl
        | cons a t ih => exact ih _
    · intro f hf hk
      have := hkn _ hk
      rw [noPose_lines] at hf
      rcases List.mem_append.1 hf with hf | hf
      · rcases List.mem_append.1 hf with hf | hf
        · simp only [List.mem_cons, List.not_mem_nil, or_false] at hf
          rcases hf with rfl | rfl | rfl | rfl | rfl <;> simp [jointKeys] at this
        · obtain ⟨n, -, rfl⟩ := List.mem_map.1 hf
          simp [jointKeys] at this
      · obtain ⟨n, -, rfl⟩ := List.mem_map.1 hf
        simp [jointKeys] at this
  have e2 : ({ gotLink noname l p with link := { (gotLink noname l p).link with org := Frame.ident } } : FLink K).link.joint.prp = p := rfl
  have e3 : ({ gotLink noname l p with link := { (gotLink noname l p).link with org := Frame.ident } } : FLink K).mname = noname := rfl
  rw [e2, e3, hjr]
  rfl

end Roki.Cad
