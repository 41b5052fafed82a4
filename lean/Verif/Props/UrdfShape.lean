import Verif.Lemmas.UrdfShape
import Verif.Props.UrdfPlace
set_option autoImplicit false

/-!
# C107: the shapes and materials of a URDF document, converted
-/

namespace Roki
open Spec.File Spec.Forest Spec ZTK Spec.UrdfDoc Urdf.Doc
variable {K : Type*} [Field K] [LinearOrder K] [IsStrictOrderedRing K] [Zm K] [LawfulZm K]

namespace Urdf.Doc

omit [IsStrictOrderedRing K] [LawfulZm K] in
/-- The parts of the program. -/
theorem all_parts {rot : Vec3 K → Mat3 K} {zyx : K → K → K → Mat3 K} {init : Material K} {doc : Elem K} {f : File K}
    (hf : urdf2ztkAll rot zyx init doc = some f) : ∃ s0 ls ms s name os ss lks, eval zyx doc = some s0 ∧ looks init doc = some (ls, ms) ∧
      correctFrame rot s0 = some s ∧ s.name = some name ∧ ms.mapM outMaterial = some os ∧
      ((s.link.flatMap fun l => l.shapes).zip ls.flatten).mapM outShape = some ss ∧ s.link.mapM (outLink s) = some lks ∧
      f = ("chain", [⟨"name", [.str name]⟩]) :: os.map (fun o => ("optic", o)) ++ ss.flatten ++ lks.map fun l => ("link", l) := by
  obtain ⟨s0, h0, hf⟩ := Option.bind_eq_some_iff.1 hf
  obtain ⟨⟨ls, ms⟩, h1, hf⟩ := Option.bind_eq_some_iff.1 hf
  obtain ⟨s, h2, hf⟩ := Option.bind_eq_some_iff.1 hf
  obtain ⟨name, h3, hf⟩ := Option.bind_eq_some_iff.1 hf
  obtain ⟨os, h4, hf⟩ := Option.bind_eq_some_iff.1 hf
  obtain ⟨ss, h5, hf⟩ := Option.bind_eq_some_iff.1 hf
  obtain ⟨lks, h6, rfl⟩ := Option.map_eq_some_iff.1 hf
  exact ⟨s0, ls, ms, s, name, os, ss, lks, h0, h1, h2, h3, h4, h5, h6, rfl⟩

omit [LinearOrder K] [IsStrictOrderedRing K] [Zm K] [LawfulZm K] in
/-- The shapes and their looks are aligned. -/
theorem aligned {zyx : K → K → K → Mat3 K} {init : Material K} {doc : Elem K} {links : List String} {pars : List (Option ℕ)}
    (hd : Describes doc links pars) {s : Info K} (hs : StateOf zyx doc links s) {ls : List (List (Look K))} {ms : List (Material K)}
    (h1 : looks init doc = some (ls, ms)) : (s.link.map fun l => l.shapes).map List.length = ls.map List.length := by
  obtain ⟨a1, a2⟩ := looks_spec h1
  have hlen : (elems doc "link").length = links.length := by
    have := congrArg List.length hd.named
    simpa using this
  refine List.ext_getElem? fun i => ?_
  simp only [List.getElem?_map]
  rcases hsi : s.link[i]? with _ | l
  · have : ls[i]? = none := by
      rw [List.getElem?_eq_none_iff] at hsi ⊢
      rw [a1, hlen, ← hs.size]
      exact hsi
    rw [this]; rfl
  · obtain ⟨e, n, he, hn, -, -, -, hsh, -⟩ := hs.link i l hsi
    obtain ⟨lk, b1, b2, -⟩ := a2 i e he
    rw [b1]
    simp only [Option.map_some, Option.some.injEq]
    have := congrArg List.length hsh
    rw [List.length_map] at this
    rw [this, b2]
    have hsn : ∀ (vs : List (Elem K)) (k : ℕ), (shapeNames n k vs).length = vs.length := by
      intro vs
      induction vs with
      | nil => intro k; rfl
      | cons v vs ih => intro k; rw [shapeNames, List.length_cons, List.length_cons, ih]
    rw [hsn]

omit [IsStrictOrderedRing K] [LawfulZm K] in
/-- The section that is written for a shape. -/
theorem section_of {rot : Vec3 K → Mat3 K} {zyx : K → K → K → Mat3 K} {init : Material K} {doc : Elem K} {links : List String}
    {pars : List (Option ℕ)} {f : File K} (hf : urdf2ztkAll rot zyx init doc = some f) (hd : Describes doc links pars) {i k : ℕ} {n name : String}
    {e v : Elem K} (hn : links[i]? = some n) (he : (elems doc "link")[i]? = some e) (hv : (elems e "visual")[k]? = some v)
    (hname : (shapeNames n 0 (elems e "visual"))[k]? = some name) :
    ∃ s0 s l p lk m m' out, eval zyx doc = some s0 ∧ correctFrame rot s0 = some s ∧ s.link[i]? = some l ∧ l.shapes[k]? = some p ∧
      p.name = name ∧ v.kids.foldlM (lookKid init name) (⟨none, none, none, none⟩, m) = some (lk, m') ∧ outShape (p, lk) = some out ∧
      ∀ x ∈ out, x ∈ f := by
  obtain ⟨s0, ls, ms, s, nm, os, ss, lks, h0, h1, h2, h3, h4, h5, h6, rfl⟩ := all_parts hf
  have hs := state_of_core hd h0 (correctFrame_core h2)
  obtain ⟨l, hl⟩ : ∃ l, s.link[i]? = some l := ⟨_, List.getElem?_eq_getElem (by
    rw [hs.size]; exact (List.getElem?_eq_some_iff.1 hn).1)⟩
  obtain ⟨e', n', he', hn', -, -, -, hsh, -⟩ := hs.link i l hl
  rw [he] at he'
  rw [hn] at hn'
  cases he'
  cases hn'
  rw [← hsh, List.getElem?_map] at hname
  obtain ⟨p, hp, hpn⟩ := Option.map_eq_some_iff.1 hname
  obtain ⟨a1, a2⟩ := looks_spec h1
  obtain ⟨lks', b1, b2, b3⟩ := a2 i e he
  obtain ⟨lk, lname, name', m, m', c1, c2, c3, c4⟩ := b3 k v hv
  have hen : e.find "name" = some [.str n] := by
    have := congrArg (fun l => l[i]?) hd.named
    simp only [List.getElem?_map, he, hn, Option.map_some, Option.some.injEq] at this
    exact this
  rw [linkName_eq hen] at c2
  cases c2
  have hnn : name' = name := by
    have := visualName_shape hv c3
    rw [← hsh, List.getElem?_map, hp, Option.map_some, hpn] at this
    exact (Option.some.inj this).symm
  subst hnn
  have hz : (p, lk) ∈ (s.link.flatMap fun l => l.shapes).zip ls.flatten := by
    rw [List.flatMap_def]
    exact mem_zip_flatten (aligned hd hs h1) (by rw [List.getElem?_map, hl]; rfl) b1 hp c1
  obtain ⟨q, hq⟩ := List.mem_iff_getElem?.1 hz
  obtain ⟨out, ho1, ho2⟩ := forall₂_get (mapM_forall₂ h5).flip hq
  refine ⟨s0, s, l, p, lk, m, m', out, h0, h2, hl, hp, hpn, c4, ho2, fun x hx => ?_⟩
  simp only [List.cons_append, List.append_assoc, List.mem_cons, List.mem_append, List.mem_flatten]
  exact .inr (.inr (.inl ⟨out, List.mem_of_getElem? ho1, hx⟩))

omit [Field K] [LinearOrder K] [IsStrictOrderedRing K] [Zm K] [LawfulZm K] in
theorem vals_append (key : String) (a b : List (Fld K)) : secVals key (a ++ b) = secVals key a ++ secVals key b := by
  simp [secVals]

/-- The section of a shape. -/
def shapeSec (p : Shape K) (lk : Look K) (geo : List (Fld K)) : List (Fld K) :=
  [⟨"name", [.str p.name]⟩] ++ (if tinyVec p.fl.pos then [] else [⟨"pos", tokVec p.fl.pos⟩]) ++
      (if tinyMat p.fl.att then [] else [⟨"att", tokMat p.fl.att⟩]) ++
      optFld "optic" (lk.material.map fun n => [.str n]) ++ geo

omit [LinearOrder K] [IsStrictOrderedRing K] [LawfulZm K] in
theorem vals_sec (p : Shape K) (lk : Look K) (geo : List (Fld K)) {key : String}
    (h : key ∉ (["name", "pos", "att", "optic"] : List String)) : secVals key (shapeSec p lk geo) = secVals key geo := by
  simp only [List.mem_cons, List.not_mem_nil, or_false, not_or] at h
  obtain ⟨h1, h2, h3, h4⟩ := h
  rw [shapeSec, vals_append, vals_append, vals_append, vals_append]
  have e1 : secVals key ([⟨"name", [.str p.name]⟩] : List (Fld K)) = [] := by simp [secVals, Ne.symm h1]
  have e2 : secVals key (if tinyVec p.fl.pos then [] else ([⟨"pos", tokVec p.fl.pos⟩] : List (Fld K))) = [] := by
    split_ifs <;> simp [secVals, Ne.symm h2]
  have e3 : secVals key (if tinyMat p.fl.att then [] else ([⟨"att", tokMat p.fl.att⟩] : List (Fld K))) = [] := by
    split_ifs <;> simp [secVals, Ne.symm h3]
  have e4 : secVals key (optFld "optic" (lk.material.map fun n => ([.str n] : List (Tok K)))) = [] := by
    cases lk.material <;> simp [secVals, optFld, Ne.symm h4]
  rw [e1, e2, e3, e4]
  rfl

omit [LinearOrder K] [IsStrictOrderedRing K] [LawfulZm K] in
theorem vals_name (p : Shape K) (lk : Look K) {geo : List (Fld K)} (h : secVals "name" geo = []) :
    secVals "name" (shapeSec p lk geo) = [[.str p.name]] := by
  rw [shapeSec, vals_append, vals_append, vals_append, vals_append, h]
  have e2 : secVals "name" (if tinyVec p.fl.pos then [] else ([⟨"pos", tokVec p.fl.pos⟩] : List (Fld K))) = [] := by
    split_ifs <;> rfl
  have e3 : secVals "name" (if tinyMat p.fl.att then [] else ([⟨"att", tokMat p.fl.att⟩] : List (Fld K))) = [] := by
    split_ifs <;> rfl
  have e4 : secVals "name" (optFld "optic" (lk.material.map fun n => ([.str n] : List (Tok K)))) = [] := by
    cases lk.material <;> rfl
  rw [e2, e3, e4]
  rfl

omit [LinearOrder K] [IsStrictOrderedRing K] [LawfulZm K] in
theorem vals_optic (p : Shape K) (lk : Look K) {geo : List (Fld K)} (h : secVals "optic" geo = []) :
    secVals "optic" (shapeSec p lk geo) = (lk.material.map fun n => ([.str n] : List (Tok K))).toList := by
  rw [shapeSec, vals_append, vals_append, vals_append, vals_append, h]
  have e2 : secVals "optic" (if tinyVec p.fl.pos then [] else ([⟨"pos", tokVec p.fl.pos⟩] : List (Fld K))) = [] := by
    split_ifs <;> rfl
  have e3 : secVals "optic" (if tinyMat p.fl.att then [] else ([⟨"att", tokMat p.fl.att⟩] : List (Fld K))) = [] := by
    split_ifs <;> rfl
  rw [e2, e3]
  cases lk.material <;> rfl

omit [LinearOrder K] [IsStrictOrderedRing K] [LawfulZm K] in
theorem frame_sec (p : Shape K) (lk : Look K) {geo : List (Fld K)} (h1 : secVals "pos" geo = []) (h2 : secVals "att" geo = []) :
    zeoFrame (shapeSec p lk geo) = ⟨if tinyVec p.fl.pos then 0 else p.fl.pos, if tinyMat p.fl.att then 1 else p.fl.att⟩ := by
  have ep : secVals "pos" (shapeSec p lk geo) = if tinyVec p.fl.pos then [] else [tokVec p.fl.pos] := by
    rw [shapeSec, vals_append, vals_append, vals_append, vals_append, h1]
    have e3 : secVals "pos" (if tinyMat p.fl.att then [] else ([⟨"att", tokMat p.fl.att⟩] : List (Fld K))) = [] := by
      split_ifs <;> rfl
    have e4 : secVals "pos" (optFld "optic" (lk.material.map fun n => ([.str n] : List (Tok K)))) = [] := by
      cases lk.material <;> rfl
    rw [e3, e4]
    split_ifs <;> rfl
  have ea : secVals "att" (shapeSec p lk geo) = if tinyMat p.fl.att then [] else [tokMat p.fl.att] := by
    rw [shapeSec, vals_append, vals_append, vals_append, vals_append, h2]
    have e3 : secVals "att" (if tinyVec p.fl.pos then [] else ([⟨"pos", tokVec p.fl.pos⟩] : List (Fld K))) = [] := by
      split_ifs <;> rfl
    have e4 : secVals "att" (optFld "optic" (lk.material.map fun n => ([.str n] : List (Tok K)))) = [] := by
      cases lk.material <;> rfl
    rw [e3, e4]
    split_ifs <;> rfl
  rw [zeoFrame, ep, ea]
  split_ifs <;> rfl

omit [Zm K] [LawfulZm K] in
/-- A cylinder between its ends. -/
theorem cylinder_points (r : K) {l : K} (hl : 0 < l) (p : Vec3 K) :
    (∃ t : K, 0 ≤ t ∧ t ≤ 1 ∧
      dot (p - ((⟨0, 0, l / 2⟩ : Vec3 K) + t • ((⟨0, 0, -(l / 2)⟩ : Vec3 K) - ⟨0, 0, l / 2⟩))) ((⟨0, 0, -(l / 2)⟩ : Vec3 K) - ⟨0, 0, l / 2⟩) = 0 ∧
      dot (p - ((⟨0, 0, l / 2⟩ : Vec3 K) + t • ((⟨0, 0, -(l / 2)⟩ : Vec3 K) - ⟨0, 0, l / 2⟩)))
        (p - ((⟨0, 0, l / 2⟩ : Vec3 K) + t • ((⟨0, 0, -(l / 2)⟩ : Vec3 K) - ⟨0, 0, l / 2⟩))) ≤ r ^ 2) ↔ (Solid.cylinder r l).Has p := by
  have hx : ∀ t : K, p - ((⟨0, 0, l / 2⟩ : Vec3 K) + t • ((⟨0, 0, -(l / 2)⟩ : Vec3 K) - ⟨0, 0, l / 2⟩)) = ⟨p.x, p.y, p.z - (l / 2 - t * l)⟩ := by
    intro t
    ext1
    · simp
    · simp
    · simp; ring
  have hy : ((⟨0, 0, -(l / 2)⟩ : Vec3 K) - ⟨0, 0, l / 2⟩) = ⟨0, 0, -l⟩ := by
    ext1
    · simp
    · simp
    · simp; ring
  simp only [hx]
  simp only [hy, dot, Solid.Has, mul_zero, zero_add, mul_neg, neg_eq_zero, mul_eq_zero, hl.ne', or_false]
  constructor
  · rintro ⟨t, h0, h1, h2, h3⟩
    rw [h2] at h3
    refine ⟨by nlinarith, ?_⟩
    have : p.z = l / 2 - t * l := by linarith
    rw [abs_le, this]
    constructor <;> nlinarith
  · rintro ⟨h1, h2⟩
    rw [abs_le] at h2
    refine ⟨(l / 2 - p.z) / l, div_nonneg (by linarith) hl.le, (div_le_one hl).2 (by linarith), ?_, ?_⟩
    · field_simp; ring
    · have : p.z - (l / 2 - (l / 2 - p.z) / l * l) = 0 := by field_simp; ring
      rw [this]; nlinarith

omit [IsStrictOrderedRing K] [LawfulZm K] in
/-- The section of a shape, its name, its place and its material. -/
theorem section_at {rot : Vec3 K → Mat3 K} {zyx : K → K → K → Mat3 K} {init : Material K}
    {doc : Elem K} {links : List String} {pars : List (Option ℕ)} {f : File K} (hf : urdf2ztkAll rot zyx init doc = some f)
    (hd : Describes doc links pars) (hr : pars[0]? = some none) (hl : ∀ k < pars.length, LeadsToRoot pars k)
    (ho : ∀ e ∈ elems doc "joint", OriginOk e) (ha : ∀ e ∈ elems doc "joint", AxisOk e)
    (hrot : ∀ a, (rot a).IsRot) (hzyx : ∀ a b c, (zyx a b c).IsRot) {i : ℕ} {n : String} (hn : links[i]? = some n) {e : Elem K}
    (he : (elems doc "link")[i]? = some e) (hv : ∀ v ∈ elems e "visual", OriginOk v) {F G : Frame K} (hF : At zyx doc n F)
    (hG : Put rot doc n F G) {k : ℕ} {v : Elem K} {name : String} (hk : (elems e "visual")[k]? = some v)
    (hname : (shapeNames n 0 (elems e "visual"))[k]? = some name) (hc : Crisp (G.xformF (F.cascade (origin zyx v))))
    {geo : List (Fld K)} (hgeo : ∀ lk m m', v.kids.foldlM (lookKid init name) (⟨none, none, none, none⟩, m) = some (lk, m') →
      ∃ t, lk.type = some t ∧ outGeo t lk = some geo)
    (hkeys : ∀ key ∈ (["name", "pos", "att", "optic"] : List String), secVals key geo = []) :
    ∃ sec : List (Fld K), ("shape", sec) ∈ f ∧ secVals "name" sec = [[.str name]] ∧
      (∀ mat, Refers name v mat → secVals "optic" sec = [[.str mat]]) ∧ G.cascade (zeoFrame sec) = F.cascade (origin zyx v) ∧
      ∀ key, key ∉ (["name", "pos", "att", "optic"] : List String) → secVals key sec = secVals key geo := by
  obtain ⟨s0, st, l, p, lk, m, m', out, h0, h1, hli, hp, hpn, hlk, hout, hmem⟩ := section_of hf hd hn he hk hname
  obtain ⟨t, ht, hgeo⟩ := hgeo _ _ _ hlk
  rw [outShape] at hout
  simp only [ht, hgeo, Option.map_some, Option.some.injEq] at hout
  subst hout
  obtain ⟨l', e1, e2⟩ := C97_shapes rot zyx doc links pars s0 st h0 h1 hd hr hl ho ha hrot hzyx i n hn e he hv F G hF hG
  rw [hli] at e1
  cases e1
  have hfr : G.cascade p.fl = F.cascade (origin zyx v) := by
    have := congrArg (fun l => l[k]?) e2
    simp only [List.getElem?_map, hp, hk, Option.map_some, Option.some.injEq] at this
    exact this
  have hpf : p.fl = G.xformF (F.cascade (origin zyx v)) := by
    rw [← hfr, Frame.xformF_cascade (put_rot hrot (at_rot hzyx hF) hG)]
  have hz : zeoFrame (shapeSec p lk geo) = p.fl := by
    rw [frame_sec p lk (hkeys _ (by decide)) (hkeys _ (by decide))]
    rw [hpf]; exact crisp_clean hc
  refine ⟨shapeSec p lk geo, hmem _ (by rw [shapeSec]; simp), by rw [vals_name p lk (hkeys _ (by decide)), hpn], ?_, by rw [hz, hfr],
    fun key hkey => vals_sec p lk _ hkey⟩
  rintro mat ⟨b, hb, hm⟩
  rw [vals_optic p lk (hkeys _ (by decide))]
  obtain ⟨n', hn', hmat⟩ := look_material hlk hb
  have : lk.material = some mat := by
    rw [hmat]
    rcases hm with ⟨h1, h2⟩ | ⟨h1, h2, rfl⟩
    · rw [matName, h1] at hn'
      cases hn'
      simp [matFor, h2]
    · rw [if_neg h2]
      rcases h1 with h1 | h1 | h1 <;> rw [matName, h1] at hn' <;> cases hn' <;> rfl
  rw [this]
  rfl

end Urdf.Doc

/-- C107, geometry: for every visual element whose geometry is a box, a ball or a cylinder, a section is written with the name of the shape,
and the material that the element refers to, and the points of the solid that Zeo makes of this section, on the link as `urdf2ztk` places it, are those of the solid of the
document, on the link as the document places it. -/
theorem C107_solid (rot : Vec3 K → Mat3 K) (zyx : K → K → K → Mat3 K) (init : Material K)
    (doc : Elem K) (links : List String) (pars : List (Option ℕ)) (f : File K) (hf : urdf2ztkAll rot zyx init doc = some f)
    (hd : Describes doc links pars) (hr : pars[0]? = some none) (hl : ∀ k < pars.length, LeadsToRoot pars k)
    (ho : ∀ e ∈ elems doc "joint", OriginOk e) (ha : ∀ e ∈ elems doc "joint", AxisOk e)
    (hrot : ∀ a, (rot a).IsRot) (hzyx : ∀ a b c, (zyx a b c).IsRot) (i : ℕ) (n : String) (hn : links[i]? = some n) (e : Elem K)
    (he : (elems doc "link")[i]? = some e) (hv : ∀ v ∈ elems e "visual", OriginOk v) (F G : Frame K) (hF : At zyx doc n F)
    (hG : Put rot doc n F G) (k : ℕ) (v : Elem K) (name : String) (hk : (elems e "visual")[k]? = some v)
    (hname : (shapeNames n 0 (elems e "visual"))[k]? = some name) (hc : Crisp (G.xformF (F.cascade (origin zyx v))))
    (s : Solid K) (hs : HasSolid v s) :
    ∃ (sec : List (Fld K)) (S : Vec3 K → Prop), ("shape", sec) ∈ f ∧ secVals "name" sec = [[.str name]] ∧
      (∀ mat, Refers name v mat → secVals "optic" sec = [[.str mat]]) ∧ ZeoSolid sec S ∧
      ∀ p : Vec3 K, (∃ q, S q ∧ p = (G.cascade (zeoFrame sec)).xform q) ↔ ∃ q, s.Has q ∧ p = (F.cascade (origin zyx v)).xform q := by
  obtain ⟨sec, hsec, hnm, hop, hfr, hval⟩ := section_at hf hd hr hl ho ha hrot hzyx hn he hv hF hG hk hname hc
    (fun lk m m' h => outGeo_solid h hs) (by
      intro key hkey
      simp only [List.mem_cons, List.not_mem_nil, or_false] at hkey
      rcases hkey with rfl | rfl | rfl | rfl <;> rcases s with _ | _ | _ <;> rfl)
  have hpts : ∃ S, ZeoSolid sec S ∧ ∀ q, S q ↔ s.Has q := by
    rcases s with ⟨x, y, z⟩ | r | ⟨r, h⟩
    · exact ⟨_, .box x y z (by rw [hval _ (by decide)]; rfl) (by rw [hval _ (by decide)]; rfl) (by rw [hval _ (by decide)]; rfl)
        (by rw [hval _ (by decide)]; rfl) (by rw [hval _ (by decide)]; rfl), fun q => Iff.rfl⟩
    · exact ⟨_, .sphere r (by rw [hval _ (by decide)]; rfl) (by rw [hval _ (by decide)]; rfl) (by rw [hval _ (by decide)]; rfl),
        fun q => Iff.rfl⟩
    · obtain ⟨_, _, _, _, -, -, -, hh⟩ := hs
      exact ⟨_, .cylinder r ⟨0, 0, h / 2⟩ ⟨0, 0, -(h / 2)⟩ (by rw [hval _ (by decide)]; rfl) (by rw [hval _ (by decide)]; rfl)
        (by rw [hval _ (by decide)]; rfl), cylinder_points r hh⟩
  obtain ⟨S, hS, hpt⟩ := hpts
  refine ⟨sec, S, hsec, hnm, hop, hS, fun q => ?_⟩
  rw [hfr]
  simp only [hpt]

/-- C107, meshes: for a visual element whose geometry is a mesh, a section is written with the name and the material of the shape, the
file and the scale of the mesh, and its place. -/
theorem C107_mesh (rot : Vec3 K → Mat3 K) (zyx : K → K → K → Mat3 K) (init : Material K)
    (doc : Elem K) (links : List String) (pars : List (Option ℕ)) (f : File K) (hf : urdf2ztkAll rot zyx init doc = some f)
    (hd : Describes doc links pars) (hr : pars[0]? = some none) (hl : ∀ k < pars.length, LeadsToRoot pars k)
    (ho : ∀ e ∈ elems doc "joint", OriginOk e) (ha : ∀ e ∈ elems doc "joint", AxisOk e)
    (hrot : ∀ a, (rot a).IsRot) (hzyx : ∀ a b c, (zyx a b c).IsRot) (i : ℕ) (n : String) (hn : links[i]? = some n) (e : Elem K)
    (he : (elems doc "link")[i]? = some e) (hv : ∀ v ∈ elems e "visual", OriginOk v) (F G : Frame K) (hF : At zyx doc n F)
    (hG : Put rot doc n F G) (k : ℕ) (v : Elem K) (name : String) (hk : (elems e "visual")[k]? = some v)
    (hname : (shapeNames n 0 (elems e "visual"))[k]? = some name) (hc : Crisp (G.xformF (F.cascade (origin zyx v))))
    (file : List (Tok K)) (scale : Option (List (Tok K))) (hs : HasMesh v file scale) :
    ∃ sec : List (Fld K), ("shape", sec) ∈ f ∧ secVals "name" sec = [[.str name]] ∧
      (∀ mat, Refers name v mat → secVals "optic" sec = [[.str mat]]) ∧ secVals "import" sec = [file ++ scale.getD []] ∧
      secVals "type" sec = [] ∧ G.cascade (zeoFrame sec) = F.cascade (origin zyx v) := by
  obtain ⟨sec, hsec, hnm, hop, hfr, hval⟩ := section_at hf hd hr hl ho ha hrot hzyx hn he hv hF hG hk hname hc
    (fun lk m m' h => outGeo_mesh h hs) (by
      intro key hkey
      simp only [List.mem_cons, List.not_mem_nil, or_false] at hkey
      rcases hkey with rfl | rfl | rfl | rfl <;> rfl)
  exact ⟨sec, hsec, hnm, hop, by rw [hval _ (by decide)]; rfl, by rw [hval _ (by decide)]; rfl, hfr⟩

/-- C107, materials: the material of which a shape is made is referred to in its section, and if all elements of the document that define a
material with this name agree on its colour, then a material with this name is written, and with this colour only. -/
theorem C107_material (rot : Vec3 K → Mat3 K) (zyx : K → K → K → Mat3 K) (init : Material K)
    (doc : Elem K) (links : List String) (pars : List (Option ℕ)) (f : File K) (hf : urdf2ztkAll rot zyx init doc = some f)
    (hd : Describes doc links pars) (mat : String) (e0 : Elem K) (h0 : Defines doc mat e0) (r g b a : K)
    (hcol : ∀ e, Defines doc mat e → HasColor e r g b a) :
    (∃ sec, ("optic", sec) ∈ f ∧ secVals "name" sec = [[.str mat]]) ∧
    (∀ sec, ("optic", sec) ∈ f → secVals "name" sec = [[.str mat]] →
      secVals "diffuse" sec = [[.num r, .num g, .num b]] ∧ secVals "alpha" sec = [[.num a]]) := by
  obtain ⟨s0, ls, ms, st, nm, os, ss, lks, h0', h1, h2, h3, h4, h5, h6, rfl⟩ := all_parts hf
  have hcs : ∀ (ts : List (Tok K)) (s : String), cstr ts = some s → ts = [] ∧ s = "" ∨ ts = [.str s] := by
    intro ts s h
    rw [cstr.eq_def] at h
    split at h
    · cases h; exact .inl ⟨rfl, rfl⟩
    · cases h; exact .inr rfl
    · cases h
  have hen : ∀ l ∈ elems doc "link", ∃ n, l.find "name" = some [.str n] := by
    intro l hl
    obtain ⟨i, hi⟩ := List.mem_iff_getElem?.1 hl
    have := congrArg (fun l => l[i]?) hd.named
    simp only [List.getElem?_map, hi, Option.map_some] at this
    obtain ⟨n, -, hn⟩ := Option.map_eq_some_iff.1 this.symm
    exact ⟨n, hn.symm⟩
  constructor
  · have key : (⟨some mat, r, g, b, a⟩ : Material K) ∈ ms := by
      rw [looks_mem h1]
      have hcol0 := hcol e0 h0
      rcases h0 with ⟨hm, hn⟩ | ⟨l, hl, n, hn, k, v, hv, hm, hk, hnm⟩
      · left
        refine ⟨e0, hm, ?_⟩
        rw [topMaterial]
        have : matName e0 = some (some mat) := by
          rcases hn with hn | ⟨hn, rfl⟩ <;> rw [matName, hn] <;> rfl
        rw [this]
        exact evalMaterial_color _ _ hcol0
      · right
        obtain ⟨i, hi⟩ := List.mem_iff_getElem?.1 hl
        obtain ⟨looks, -, -, b3⟩ := (looks_spec h1).2 i l hi
        obtain ⟨lk, lname, name, m, m', -, c2, c3, -⟩ := b3 k v hv
        rw [linkName_eq hn] at c2
        cases c2
        have hsn := visualName_shape hv c3
        have : ∃ n', matName e0 = some n' ∧ matFor name n' = mat := by
          rcases hnm with ⟨g1, g2⟩ | ⟨g1, g2⟩
          · exact ⟨some mat, by rw [matName, g1]; rfl, by simp [matFor, g2]⟩
          · rw [hsn] at g2
            cases g2
            rcases g1 with g1 | g1 | g1
            · exact ⟨none, by rw [matName, g1], rfl⟩
            · exact ⟨some "", by rw [matName, g1]; rfl, rfl⟩
            · exact ⟨some "", by rw [matName, g1]; rfl, rfl⟩
        obtain ⟨n', g1, g2⟩ := this
        exact ⟨l, hl, some n, linkName_eq hn, k, v, hv, name, c3, e0, hm, hk, n', g1, by
          rw [g2]; exact evalMaterial_color _ _ hcol0⟩
    obtain ⟨q, hq⟩ := List.mem_iff_getElem?.1 key
    obtain ⟨o, ho1, ho2⟩ := forall₂_get (mapM_forall₂ h4).flip hq
    cases ho2
    refine ⟨[⟨"name", [.str mat]⟩, ⟨"diffuse", [.num r, .num g, .num b]⟩, ⟨"alpha", [.num a]⟩], ?_, rfl⟩
    simp only [List.cons_append, List.append_assoc, List.mem_cons, List.mem_append, List.mem_map]
    exact .inr (.inl ⟨_, List.mem_of_getElem? ho1, rfl⟩)
  · intro sec hsec hname
    simp only [List.cons_append, List.append_assoc, List.mem_cons, List.mem_append, List.mem_map, List.mem_flatten, Prod.mk.injEq] at hsec
    rcases hsec with ⟨h, -⟩ | ⟨o, ho, -, rfl⟩ | ⟨out, hout, hx⟩ | ⟨_, -, h, -⟩
    · exact absurd h (by decide)
    · obtain ⟨q, hq⟩ := List.mem_iff_getElem?.1 ho
      obtain ⟨x, hx1, hx2⟩ := forall₂_get (mapM_forall₂ h4) hq
      obtain ⟨xn, hxn, rfl⟩ := Option.map_eq_some_iff.1 hx2
      have hxm : xn = mat := by
        have : [[(.str xn : Tok K)]] = [[.str mat]] := hname
        simpa using this
      subst hxm
      have key : x = ⟨some xn, r, g, b, a⟩ := by
        rcases (looks_mem h1 x).1 (List.mem_of_getElem? hx1) with ⟨e, he, htop⟩ | ⟨l, hl, lname, c1, k, v, hv, name, c2, e, he, hk, n', c3, c4⟩
        · obtain ⟨n', hn', hev⟩ := Option.bind_eq_some_iff.1 htop
          have := evalMaterial_name hev
          rw [hxn] at this
          subst this
          have hdef : Defines doc xn e := by
            refine .inl ⟨he, ?_⟩
            rw [matName] at hn'
            split at hn'
            · cases hn'
            · rename_i ts hts
              obtain ⟨s, hs, e2⟩ := Option.map_eq_some_iff.1 hn'
              cases e2
              rcases hcs _ _ hs with ⟨rfl, rfl⟩ | rfl
              · exact .inr ⟨hts, rfl⟩
              · exact .inl hts
          rw [evalMaterial_color init _ (hcol e hdef)] at hev
          exact (Option.some.inj hev).symm
        · obtain ⟨n, hn⟩ := hen l hl
          rw [linkName_eq hn] at c1
          cases c1
          have hsn := visualName_shape hv c2
          have := evalMaterial_name c4
          rw [hxn, Option.some.injEq] at this
          have hdef : Defines doc xn e := by
            refine .inr ⟨l, hl, n, hn, k, v, hv, he, hk, ?_⟩
            rw [matName] at c3
            split at c3
            · rename_i hts
              cases c3
              exact .inr ⟨.inl hts, by rw [hsn, this]; rfl⟩
            · rename_i ts hts
              obtain ⟨s, hs, e2⟩ := Option.map_eq_some_iff.1 c3
              cases e2
              by_cases hs0 : s = ""
              · subst hs0
                refine .inr ⟨?_, by rw [hsn, this]; rfl⟩
                rcases hcs _ _ hs with ⟨rfl, -⟩ | rfl
                · exact .inr (.inl hts)
                · exact .inr (.inr hts)
              · have hms : matFor name (some s) = s := if_neg hs0
                rw [hms] at this
                subst this
                rcases hcs _ _ hs with ⟨-, h⟩ | rfl
                · exact absurd h hs0
                · exact .inl ⟨hts, hs0⟩
          rw [evalMaterial_color init _ (hcol e hdef), ← this] at c4
          exact (Option.some.inj c4).symm
      rw [key]
      exact ⟨rfl, rfl⟩
    · obtain ⟨q, hq⟩ := List.mem_iff_getElem?.1 hout
      obtain ⟨⟨p, lk⟩, -, ho⟩ := forall₂_get (mapM_forall₂ h5) hq
      rw [outShape] at ho
      split at ho
      · cases ho; cases hx
      · obtain ⟨geo, -, rfl⟩ := Option.map_eq_some_iff.1 ho
        simp only [List.mem_singleton, Prod.mk.injEq] at hx
        exact absurd hx.1 (by decide)
    · exact absurd h (by decide)

omit [IsStrictOrderedRing K] [LawfulZm K] in
theorem Urdf.Doc.outGeo_name {t : String} {lk : Look K} {geo : List (Fld K)} (h : outGeo t lk = some geo) :
    (geo.filter fun y => y.key = "name") = [] := by
  rw [outGeo] at h
  split_ifs at h
  · rw [outBox.eq_def] at h
    split at h <;> cases h
    rfl
  · rw [outSphere.eq_def] at h
    split at h <;> cases h
    rfl
  · rw [outCylinder.eq_def] at h
    split at h <;> cases h
    rfl
  · obtain ⟨ts, -, rfl⟩ := Option.map_eq_some_iff.1 h
    rfl
  · cases h; rfl

omit [IsStrictOrderedRing K] [LawfulZm K] in
/-- C107, the rest of the file: without the materials and the contents of the shapes, the file is the one of C85 and C97. -/
theorem C107_same (rot : Vec3 K → Mat3 K) (zyx : K → K → K → Mat3 K) (init : Material K)
    (doc : Elem K) (links : List String) (pars : List (Option ℕ)) (f : File K) (hf : urdf2ztkAll rot zyx init doc = some f)
    (hd : Describes doc links pars) (hshaped : ∀ e ∈ elems doc "link", Shaped e) : urdf2ztk rot zyx doc = some (plain f) := by
  obtain ⟨s0, ls, ms, s, nm, os, ss, lks, h0, h1, h2, h3, h4, h5, h6, rfl⟩ := all_parts hf
  have hs := state_of_core hd h0 (correctFrame_core h2)
  have htyped : ∀ p ∈ s.link.flatMap fun l => l.shapes, p.typed = true := by
    intro p hp
    obtain ⟨l, hl, hp⟩ := List.mem_flatMap.1 hp
    obtain ⟨i, hi⟩ := List.mem_iff_getElem?.1 hl
    obtain ⟨e, n, he, -, -, -, -, -, hty⟩ := hs.link i l hi
    exact hty (hshaped e (List.mem_of_getElem? he)) p hp
  have hlooks : ∀ lk ∈ ls.flatten, lk.type.isSome := by
    intro lk hlk
    obtain ⟨L, hL, hlk⟩ := List.mem_flatten.1 hlk
    obtain ⟨i, hi⟩ := List.mem_iff_getElem?.1 hL
    obtain ⟨k, hk⟩ := List.mem_iff_getElem?.1 hlk
    obtain ⟨a1, a2⟩ := looks_spec h1
    obtain ⟨e, he⟩ : ∃ e, (elems doc "link")[i]? = some e := ⟨_, List.getElem?_eq_getElem (by
      rw [← a1]; exact (List.getElem?_eq_some_iff.1 hi).1)⟩
    obtain ⟨L', b1, b2, b3⟩ := a2 i e he
    rw [hi] at b1
    cases b1
    obtain ⟨v, hv⟩ : ∃ v, (elems e "visual")[k]? = some v := ⟨_, List.getElem?_eq_getElem (by
      rw [← b2]; exact (List.getElem?_eq_some_iff.1 hk).1)⟩
    obtain ⟨lk', _, _, _, _, c1, -, -, c4⟩ := b3 k v hv
    rw [hk] at c1
    cases c1
    exact look_typed c4 (hshaped e (List.mem_of_getElem? he) v (List.mem_of_getElem? hv))
  have hss : ∀ (z : List (Shape K × Look K)) (ss : List (List (String × List (Fld K)))), (∀ x ∈ z, x.2.type.isSome) →
      List.Forall₂ (fun a b => outShape a = some b) z ss → plain ss.flatten = z.map fun x => ("shape", [⟨"name", [.str x.1.name]⟩]) := by
    intro z ss hz h
    induction h with
    | nil => rfl
    | @cons x o z ss hx _ ih =>
      have h1 := ih fun y hy => hz y (List.mem_cons_of_mem _ hy)
      rw [plain] at h1
      rw [plain, List.flatten_cons, List.filterMap_append, h1, List.map_cons]
      obtain ⟨t, ht⟩ := Option.isSome_iff_exists.1 (hz x (by simp))
      rw [outShape] at hx
      simp only [ht] at hx
      obtain ⟨geo, hg, rfl⟩ := Option.map_eq_some_iff.1 hx
      have hn := outGeo_name hg
      have e2 : ((if tinyVec x.1.fl.pos then [] else ([⟨"pos", tokVec x.1.fl.pos⟩] : List (Fld K))).filter fun y => y.key = "name") = [] := by
        split_ifs <;> rfl
      have e3 : ((if tinyMat x.1.fl.att then [] else ([⟨"att", tokMat x.1.fl.att⟩] : List (Fld K))).filter fun y => y.key = "name") = [] := by
        split_ifs <;> rfl
      have e4 : ((optFld "optic" (x.2.material.map fun n => ([.str n] : List (Tok K)))).filter fun y => y.key = "name") = [] := by
        cases x.2.material <;> rfl
      rw [List.filterMap_cons, if_neg (by exact (by decide : ¬ ("shape" = "optic"))), if_pos rfl]
      rw [List.filter_append, List.filter_append, List.filter_append, List.filter_append, hn, e2, e3, e4]
      rfl
  rw [urdf2ztk, h0]
  simp only [Option.bind_some, h2]
  rw [output, h3]
  simp only [Option.bind_some, h6, Option.map_some, Option.some.injEq]
  rw [plain, List.filterMap_append, List.filterMap_append, List.filterMap_cons, if_neg (by exact (by decide : ¬ ("chain" = "optic"))),
    if_neg (by exact (by decide : ¬ ("chain" = "shape")))]
  have hos : ((os.map fun o => (("optic", o) : String × List (Fld K))).filterMap fun x => if x.1 = "optic" then none
      else if x.1 = "shape" then some (x.1, x.2.filter fun y => y.key = "name") else some x) = [] := by
    rw [List.filterMap_eq_nil_iff]
    intro x hx
    obtain ⟨o, -, rfl⟩ := List.mem_map.1 hx
    rfl
  have hlk : ((lks.map fun l => (("link", l) : String × List (Fld K))).filterMap fun x => if x.1 = "optic" then none
      else if x.1 = "shape" then some (x.1, x.2.filter fun y => y.key = "name") else some x) = lks.map fun l => ("link", l) := by
    rw [List.filterMap_map]
    rw [← List.filterMap_eq_map]
    rfl
  have hz := hss _ _ (fun x hx => hlooks _ (List.of_mem_zip hx).2) (mapM_forall₂ h5)
  rw [plain] at hz
  rw [hos, hlk, hz, List.filter_eq_self.2 htyped]
  have hlen : (s.link.flatMap fun l => l.shapes).length ≤ ls.flatten.length := by
    rw [List.flatMap_def, List.length_flatten, List.length_flatten, aligned hd hs h1]
  have hfst := congrArg (List.map fun p : Shape K => (("shape", [⟨"name", [.str p.name]⟩]) : String × List (Fld K)))
    (List.map_fst_zip hlen)
  rw [List.map_map] at hfst
  rw [← hfst]
  rfl

/-! ## A document -/

/-- A visual element. -/
def lookVis (attrs : List (String × List (Tok ℚ))) (geo : Elem ℚ) (more : List (Elem ℚ)) : Elem ℚ :=
  .mk "visual" attrs ([.mk "origin" [("xyz", [.num 1, .num 0, .num 0])] [], .mk "geometry" [] [geo]] ++ more)

def lookCol (r g b a : ℚ) : Elem ℚ := .mk "color" [("rgba", [.num r, .num g, .num b, .num a])] []

def lookBox : Elem ℚ := lookVis [] (.mk "box" [("size", [.num 1, .num 2, .num 3])] []) [.mk "material" [("name", [.str "red"])] []]
def lookCyl : Elem ℚ := lookVis [("name", [.str "rod"])] (.mk "cylinder" [("radius", [.num 1]), ("length", [.num 4])] [])
  [.mk "material" [] [lookCol 0 0 1 1]]
def lookMesh : Elem ℚ := lookVis [] (.mk "mesh" [("filename", [.str "hand.stl"]), ("scale", [.num 2])] []) []
def lookJoint : Elem ℚ := placeJoint "hinge" "revolute" "base" "a" [.num 0, .num 2, .num 0] [.num 0, .num 0, .num 1] [.num 1, .num 0, .num 0]

/-- A base, and a link with three shapes that turns on it. -/
def lookDoc : Elem ℚ :=
  xml "robot" "looks" [.mk "material" [("name", [.str "red"])] [lookCol 1 0 0 1], xml "link" "base" [], xml "link" "a" [lookBox, lookCyl, lookMesh], lookJoint]

def lookInit : Material ℚ := ⟨none, 1, 1, 1, 1⟩

theorem look_joints : elems lookDoc "joint" = [lookJoint] := rfl

theorem lookDoc_describes : Describes lookDoc ["base", "a"] [none, some 0] := by
  have hj := look_joints
  refine ⟨⟨"looks", rfl⟩, rfl, by decide, ?_, ?_, rfl, ?_, ?_⟩
  · rw [hj]
    intro e he
    simp only [List.mem_cons, List.not_mem_nil, or_false] at he
    subst he
    exact ⟨⟨"revolute", rfl⟩, "base", "a", placeJoint_names.1.2 rfl, placeJoint_names.2.2 rfl, by decide, by decide⟩
  · rw [hj]
    simp
  · have hlt : ∀ (k : ℕ) (m : String), (["base", "a"] : List String)[k]? = some m → k < 2 := by
      intro k m h
      exact (List.getElem?_eq_some_iff.1 h).1
    intro i p ni np hi hp
    have h1 := hlt _ _ hi
    have h2 := hlt _ _ hp
    simp only [hj, List.mem_cons, List.not_mem_nil, or_false, exists_eq_left, lookJoint, placeJoint_names]
    interval_cases i <;> interval_cases p <;> simp at hi hp <;> subst hi hp <;> decide
  · intro i p h
    have h1 : i < 2 := (List.getElem?_eq_some_iff.1 h).1
    interval_cases i <;> simp at h <;> subst h <;> decide

theorem look_place : At placeZyx lookDoc "a" ⟨⟨0, 2, 0⟩, Urdf.quarter⟩ ∧
    Put Urdf.turn lookDoc "a" ⟨⟨0, 2, 0⟩, Urdf.quarter⟩ ⟨⟨0, 2, 0⟩, ⟨⟨0, 1, 0⟩, ⟨0, 0, 1⟩, ⟨1, 0, 0⟩⟩⟩ := by
  have h0 : At placeZyx lookDoc "base" Frame.ident := by
    refine .root _ ?_
    rw [look_joints]
    intro e he
    simp only [List.mem_cons, List.not_mem_nil, or_false] at he
    subst he
    exact fun h => absurd (placeJoint_names.2.1 h) (by decide)
  constructor
  · have : (⟨⟨0, 2, 0⟩, Urdf.quarter⟩ : Frame ℚ) = Frame.ident.cascade (origin placeZyx lookJoint) := by decide +kernel
    rw [this]
    exact .joint lookJoint "base" "a" _ (by rw [look_joints]; simp) (placeJoint_names.1.2 rfl) (placeJoint_names.2.2 rfl) h0
  · exact .inl ⟨lookJoint, by rw [look_joints]; simp, placeJoint_names.2.2 rfl, ⟨"revolute", rfl, .inl rfl⟩, by decide +kernel⟩

/-- The hypotheses of the theorems above hold for the three shapes of this document, and a material. -/
theorem lookDoc_ok : (∃ f, urdf2ztkAll Urdf.turn placeZyx lookInit lookDoc = some f) ∧ Describes lookDoc ["base", "a"] [none, some 0] ∧
    (∀ k < ([none, some 0] : List (Option ℕ)).length, LeadsToRoot [none, some 0] k) ∧ (∀ e ∈ elems lookDoc "joint", OriginOk e) ∧
    (∀ e ∈ elems lookDoc "joint", AxisOk e) ∧ (∀ e ∈ elems lookDoc "link", Shaped e) ∧
    (∀ v ∈ [lookBox, lookCyl, lookMesh], OriginOk v ∧ Crisp ((⟨⟨0, 2, 0⟩, ⟨⟨0, 1, 0⟩, ⟨0, 0, 1⟩, ⟨1, 0, 0⟩⟩⟩ : Frame ℚ).xformF
      ((⟨⟨0, 2, 0⟩, Urdf.quarter⟩ : Frame ℚ).cascade (origin placeZyx v)))) ∧
    HasSolid lookBox (.box 1 2 3) ∧ HasSolid lookCyl (.cylinder 1 4) ∧ HasMesh lookMesh [.str "hand.stl"] (some [.num 2]) ∧
    shapeNames "a" 0 [lookBox, lookCyl, lookMesh] = ["a_0", "rod", "a_2"] ∧ Refers "a_0" lookBox "red" ∧ Refers "rod" lookCyl "rod" ∧
    (Defines lookDoc "red" (.mk "material" [("name", [.str "red"])] [lookCol 1 0 0 1]) ∧ ∀ e, Defines lookDoc "red" e → HasColor e 1 0 0 1) ∧
    Defines lookDoc "rod" (.mk "material" [] [lookCol 0 0 1 1]) ∧ ∀ e, Defines lookDoc "rod" e → HasColor e 0 0 1 1 := by
  have org : ∀ attrs geo more, (more.filter fun k : Elem ℚ => k.tag = "origin") = [] → OriginOk (lookVis attrs geo more) := by
    intro attrs geo more hm n hn
    have h1 : elems (lookVis attrs geo more) "origin" = [.mk "origin" [("xyz", [.num 1, .num 0, .num 0])] []] := by
      change List.filter _ (_ :: _ :: more) = _
      rw [List.filter_cons_of_pos (by simp [Elem.tag]), List.filter_cons_of_neg (by simp [Elem.tag]), hm]
    rw [h1] at hn
    have := List.mem_singleton.1 hn
    subst this
    intro q hq _
    simp only [Elem.attrs, List.mem_cons, List.not_mem_nil, or_false] at hq
    subst hq
    exact ⟨_, rfl⟩
  have hvis : elems (xml "link" "a" [lookBox, lookCyl, lookMesh]) "visual" = [lookBox, lookCyl, lookMesh] := rfl
  -- the materials of the document
  have hdefs : ∀ (m : String) (e : Elem ℚ), Defines lookDoc m e →
      (m = "red" ∧ e = .mk "material" [("name", [.str "red"])] [lookCol 1 0 0 1]) ∨ (m = "rod" ∧ e = .mk "material" [] [lookCol 0 0 1 1]) := by
    rintro m e (⟨h1, h2⟩ | ⟨l, hl, n, hn, k, v, hv, he, hk, hnm⟩)
    · have h1 : e ∈ ([.mk "material" [("name", [.str "red"])] [lookCol 1 0 0 1]] : List (Elem ℚ)) := h1
      have := List.mem_singleton.1 h1
      subst this
      rcases h2 with h2 | ⟨h2, -⟩
      · have : some [Tok.str (K := ℚ) "red"] = some [Tok.str m] := h2
        simp only [Option.some.injEq, List.cons.injEq, Tok.str.injEq, and_true] at this
        exact .inl ⟨this.symm, rfl⟩
      · have : some [Tok.str (K := ℚ) "red"] = some [] := h2
        cases this
    · have hl : l ∈ [xml "link" "base" [], xml "link" "a" [lookBox, lookCyl, lookMesh]] := hl
      simp only [List.mem_cons, List.not_mem_nil, or_false] at hl
      rcases hl with rfl | rfl
      · cases hv
      · have hna : n = "a" := by
          have : some [Tok.str (K := ℚ) "a"] = some [Tok.str n] := hn
          simpa using this.symm
        subst hna
        rw [hvis] at hv hnm
        match k, hv with
        | 0, hv =>
          cases hv
          have := List.mem_singleton.1 (show e ∈ ([.mk "material" [("name", [.str "red"])] []] : List (Elem ℚ)) from he)
          subst this
          exact absurd rfl hk
        | 1, hv =>
          cases hv
          have := List.mem_singleton.1 (show e ∈ ([.mk "material" [] [lookCol 0 0 1 1]] : List (Elem ℚ)) from he)
          subst this
          rcases hnm with ⟨h, -⟩ | ⟨-, h⟩
          · cases h
          · have : some "rod" = some m := h
            cases this
            exact .inr ⟨rfl, rfl⟩
        | 2, hv => cases hv; cases he
        | k + 3, hv => simp at hv
  refine ⟨Option.isSome_iff_exists.1 (by decide +kernel), lookDoc_describes, ?_, ?_, ?_, ?_, ?_, ?_, ?_, ?_, rfl, ?_, ?_, ⟨?_, ?_⟩, ?_, ?_⟩
  · intro k hk
    match k, hk with
    | 0, _ => exact .root
    | 1, _ => exact .step (p := 0) rfl .root
  · rw [look_joints]
    intro e he n hn
    have := List.mem_singleton.1 he
    subst this
    have : n = .mk "origin" [("xyz", [.num 0, .num 2, .num 0]), ("rpy", [.num 0, .num 0, .num 1])] [] := List.mem_singleton.1 hn
    subst this
    intro q hq _
    simp only [Elem.attrs, List.mem_cons, List.not_mem_nil, or_false] at hq
    rcases hq with rfl | rfl <;> exact ⟨_, rfl⟩
  · rw [look_joints]
    intro e he n hn
    have := List.mem_singleton.1 he
    subst this
    have : n = .mk "axis" [("xyz", [.num 1, .num 0, .num 0])] [] := List.mem_singleton.1 hn
    subst this
    intro q hq
    have h : some [Tok.num (1 : ℚ), .num 0, .num 0] = some q := hq
    cases h
    exact ⟨_, rfl⟩
  · intro e he v hv
    have he : e ∈ [xml "link" "base" [], xml "link" "a" [lookBox, lookCyl, lookMesh]] := he
    simp only [List.mem_cons, List.not_mem_nil, or_false] at he
    rcases he with rfl | rfl
    · cases hv
    · rw [hvis] at hv
      simp only [List.mem_cons, List.not_mem_nil, or_false] at hv
      rcases hv with rfl | rfl | rfl
      · exact ⟨_, List.mem_cons_self, "box", by decide, by simp [elems, Elem.kids, Elem.tag]⟩
      · exact ⟨_, List.mem_cons_self, "cylinder", by decide, by simp [elems, Elem.kids, Elem.tag]⟩
      · exact ⟨_, List.mem_cons_self, "mesh", by decide, by simp [elems, Elem.kids, Elem.tag]⟩
  · intro v hv
    simp only [List.mem_cons, List.not_mem_nil, or_false] at hv
    rcases hv with rfl | rfl | rfl
    · exact ⟨org _ _ _ rfl, by unfold Crisp; decide +kernel⟩
    · exact ⟨org _ _ _ rfl, by unfold Crisp; decide +kernel⟩
    · exact ⟨org _ _ _ rfl, by unfold Crisp; decide +kernel⟩
  · exact ⟨_, _, rfl, rfl, rfl, rfl⟩
  · exact ⟨_, _, rfl, rfl, rfl, rfl, rfl, by norm_num⟩
  · exact ⟨_, _, rfl, rfl, rfl, rfl, rfl⟩
  · exact ⟨_, rfl, .inl ⟨rfl, by decide⟩⟩
  · exact ⟨_, rfl, .inr ⟨.inl rfl, by simp [Elem.kids], rfl⟩⟩
  · exact .inl ⟨List.mem_cons_self, .inl rfl⟩
  · intro e he
    rcases hdefs _ _ he with ⟨-, rfl⟩ | ⟨h, -⟩
    · exact ⟨_, rfl, rfl⟩
    · exact absurd h (by decide)
  · exact .inr ⟨xml "link" "a" [lookBox, lookCyl, lookMesh], by
      change _ ∈ [xml "link" "base" [], xml "link" "a" [lookBox, lookCyl, lookMesh]]; simp, "a", rfl, 1, lookCyl, rfl, List.mem_cons_self,
      by simp [Elem.kids], .inr ⟨.inl rfl, rfl⟩⟩
  · intro e he
    rcases hdefs _ _ he with ⟨h, -⟩ | ⟨-, rfl⟩
    · exact absurd h (by decide)
    · exact ⟨_, rfl, rfl⟩

/-! ## Failures -/

deriving instance DecidableEq for ZTK.Tok

instance : DecidableEq (List (List (Tok ℚ))) := inferInstance

instance : DecidableEq (List (List (List (Tok ℚ)) × List (List (Tok ℚ)))) := inferInstance

/-- A document with two links that are not turned, and the visual elements `v` and `w`. -/
def twoLooks (v w : Elem ℚ) : Elem ℚ :=
  xml "robot" "r" [xml "link" "a" [v], xml "link" "b" [w], xmlJoint "j" "fixed" "a" "b" []]

/-- C107, a shape with a wrong geometry: the program reads a null pointer or variables that are not set for a box without a size,
and for one with less than three numbers. -/
theorem C107_size_fails : urdf2ztkAll noRot noZyx lookInit (twoLooks (lookVis [] (.mk "box" [] []) []) lookMesh) = none ∧
    urdf2ztkAll noRot noZyx lookInit (twoLooks (lookVis [] (.mk "box" [("size", [.num 1, .num 2])] []) []) lookMesh) = none ∧
    urdf2ztkAll noRot noZyx lookInit (twoLooks (lookVis [] (.mk "cylinder" [("radius", [.num 1])] []) []) lookMesh) = none := by
  refine ⟨?_, ?_, ?_⟩ <;> exact Option.isNone_iff_eq_none.1 (by decide +kernel)

/-- C107, names: the names of visual elements are those of a link in URDF, so two links may use the same.  The file then has two shapes and two materials
with the same name, and different contents. -/
theorem C107_names_fails : ∃ f, urdf2ztkAll noRot noZyx lookInit (twoLooks
      (.mk "visual" [("name", [.str "body"])] [.mk "geometry" [] [.mk "sphere" [("radius", [.num 1])] []], .mk "material" [] [lookCol 1 0 0 1]])
      (.mk "visual" [("name", [.str "body"])] [.mk "geometry" [] [.mk "sphere" [("radius", [.num 2])] []], .mk "material" [] [lookCol 0 1 0 1]])) = some f ∧
    (f.filterMap fun x => if x.1 = "shape" then some (secVals "name" x.2, secVals "radius" x.2) else none) =
      [([[.str "body"]], [[.num 1]]), ([[.str "body"]], [[.num 2]])] ∧
    (f.filterMap fun x => if x.1 = "optic" then some (secVals "name" x.2, secVals "diffuse" x.2) else none) =
      [([[.str "body"]], [[.num 1, .num 0, .num 0]]), ([[.str "body"]], [[.num 0, .num 1, .num 0]])] := by
  have h : ((urdf2ztkAll noRot noZyx lookInit (twoLooks
      (.mk "visual" [("name", [.str "body"])] [.mk "geometry" [] [.mk "sphere" [("radius", [.num 1])] []], .mk "material" [] [lookCol 1 0 0 1]])
      (.mk "visual" [("name", [.str "body"])] [.mk "geometry" [] [.mk "sphere" [("radius", [.num 2])] []], .mk "material" [] [lookCol 0 1 0 1]]))).map fun f =>
    ((f.filterMap fun x => if x.1 = "shape" then some (secVals "name" x.2, secVals "radius" x.2) else none),
    (f.filterMap fun x => if x.1 = "optic" then some (secVals "name" x.2, secVals "diffuse" x.2) else none))) =
      some ([([[.str "body"]], [[.num 1]]), ([[.str "body"]], [[.num 2]])],
      [([[.str "body"]], [[.num 1, .num 0, .num 0]]), ([[.str "body"]], [[.num 0, .num 1, .num 0]])]) := by decide +kernel
  obtain ⟨f, hf, e⟩ := Option.map_eq_some_iff.1 h
  simp only [Prod.mk.injEq] at e
  exact ⟨f, hf, e.1, e.2⟩

end Roki
