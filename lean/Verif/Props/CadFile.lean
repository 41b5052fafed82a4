import Verif.Lemmas.CadFile
import Verif.Lemmas.ZmRat
set_option autoImplicit false

/-!
# C116: what `cad2ztk` would write
-/

namespace Roki
open Spec Cad ZTK Spec.File
variable {K : Type*} [Field K]

namespace Spec

/-- The numbers of the parents, as the table names them. -/
def tableParents (rows : List (LinkRow K)) : List (Option ℕ) :=
  rows.map fun r => if r.parentname = "nil" then none else rows.findIdx? fun p => p.name == r.parentname

/-- The table of a robot: as `GoodRows`, the joint types are those of the documentation of the tool, and the parents lead from
every row to the first. -/
structure RobotTable (rows : List (LinkRow K)) : Prop extends GoodRows rows where
  nonempty : rows ≠ []
  types : ∀ r ∈ rows, r.jointtype ∈ ["fixed", "revolute", "prismatic", "cylindrical", "hooke", "spherical", "float"]
  leads : ∀ i < rows.length, ∃ path, Lineage rows (path ++ [i]) ∧ (path ++ [i])[0]? = some 0

end Spec

namespace Cad

theorem parent_num {rows : List (LinkRow K)} (h : (rows.map (·.name)).Nodup) {j : ℕ} {p : LinkRow K} {s : String}
    (hj : rows[j]? = some p) (hp : p.name = s) : rows.findIdx? (fun p => p.name == s) = some j := by
  have := (find_iff (la := rows.map readLink) (i := j) (s := s) (by rw [names_read]; exact h)).2
    ⟨readLink p, by simp [hj], hp⟩
  rw [findLink, List.findIdx?_map] at this
  exact this

theorem tableParents_get {rows : List (LinkRow K)} {i : ℕ} {r : LinkRow K} (hr : rows[i]? = some r) :
    (tableParents rows)[i]? = some (if r.parentname = "nil" then none else rows.findIdx? fun p => p.name == r.parentname) := by
  rw [tableParents, List.getElem?_map, hr]
  rfl

theorem lineage_leads {rows : List (LinkRow K)} (h : (rows.map (·.name)).Nodup) {q : List ℕ} (hq : Lineage rows q) :
    ∀ (path : List ℕ) (i : ℕ), q = path ++ [i] → (path ++ [i])[0]? = some 0 → LeadsToRoot (tableParents rows) i ∧
      (tableParents rows)[0]? = some none := by
  induction hq with
  | @root i' r hr hnil =>
    intro path i e h0
    obtain ⟨rfl, rfl⟩ : path = [] ∧ i = i' := by
      rcases List.append_eq_singleton_iff.1 e.symm with ⟨h1, h2⟩ | ⟨h1, h2⟩
      · exact ⟨h1, by simpa using h2⟩
      · simp at h2
    simp only [List.nil_append, List.getElem?_cons_zero, Option.some.injEq] at h0
    subst h0
    exact ⟨.root, by rw [tableParents_get hr, if_pos hnil]⟩
  | @step path' j i' p r hp' hj hr hnil hpn ih =>
    intro path i e h0
    obtain ⟨rfl, rfl⟩ : path = path' ++ [j] ∧ i = i' := by
      have : path ++ [i] = (path' ++ [j]) ++ [i'] := by rw [← e]; simp
      exact ⟨(List.append_inj' this rfl).1, by simpa using (List.append_inj' this rfl).2⟩
    obtain ⟨h1, h2⟩ := ih path' j rfl (by
      cases path' with
      | nil => simpa using h0
      | cons a t => simpa using h0)
    exact ⟨.step (by rw [tableParents_get hr, if_neg hnil, parent_num h hj hpn]) h1, h2⟩

theorem readShapes_names {la : List (LinkT K)} : ∀ {srows : List (ShapeRow K)} {sa : List (ShapeT K)}, readShapes la srows = some sa →
    sa.map (·.name) = srows.map (·.name) := by
  intro srows
  induction srows with
  | nil => intro sa h; cases h; rfl
  | cons s srows ih =>
    intro sa h
    rw [readShapes] at h
    simp only [List.mapM_cons, readShape, Option.pure_def, Option.bind_eq_bind, Option.bind_eq_some_iff, Option.map_eq_some_iff,
      Option.some.injEq] at h
    obtain ⟨t, ⟨j, -, rfl⟩, sa', h2, rfl⟩ := h
    rw [List.map_cons, List.map_cons, ih h2]

theorem exists_forall₂ {α β : Type*} {R : α → β → Prop} : ∀ {l : List α}, (∀ a ∈ l, ∃ b, R a b) → ∃ l' : List β, List.Forall₂ R l l' := by
  intro l
  induction l with
  | nil => intro _; exact ⟨[], .nil⟩
  | cons a l ih =>
    intro h
    obtain ⟨b, hb⟩ := h a (by simp)
    obtain ⟨l', hl⟩ := ih fun a ha => h a (by simp [ha])
    exact ⟨b :: l', .cons hb hl⟩

theorem vals_parent (tf : Frame K → List (Tok K)) (l : OutLink K) : vals (linkLines tf l) "parent" = l.parent.toList.map fun n => [.str n] := by
  rw [vals, linkLines, List.filter_append, List.filter_append]
  have e1 : (l.shapes.map fun n => (⟨"shape", [.str n]⟩ : Fld K)).filter (fun f => f.key == "parent") = [] := by
    rw [List.filter_eq_nil_iff]
    intro f hf
    obtain ⟨n, -, rfl⟩ := List.mem_map.1 hf
    simp
  rw [e1]
  cases l.parent <;> simp

end Cad

section
variable [LinearOrder K] [IsStrictOrderedRing K] [Zm K] [LawfulZm K]

/-- **C116.**  Take tables of links and of shapes that describe a robot, in millimetres and grams, with the frames of the links in
the world.  If the first call of `main` returned, the conversion would write a model file from which `rkChainReadZTK` builds this
robot, in metres and kilograms: the links with the names, joint types, parents and shapes of the table in its order; with all joints
at zero every link stands where the table says, and its mass, its centre of mass and its inertia in the world are those of the
table.  It holds for both orders of reading and whatever form the frame has in the file, as long as Zeo reads it as it printed it. -/
theorem C116_ztk (z : PoseZeo K) (o : Order) (noname : String) (g : Vec6 K) (tf : Frame K → List (Tok K))
    (hz : ∀ F, z.frame (tf F) = some F) (toZYX : Mat3 K → Vec3 K) (cmd : Cmd) (name : String) (rows : List (LinkRow K))
    (srows : List (ShapeRow K)) (hcmd : 2 ≤ cmd.argc ∧ cmd.help = false ∧ cmd.doc = false ∧ cmd.urdf = false ∧ cmd.name = some name)
    (h : RobotTable rows) (hs : ∀ s ∈ srows, ∃ r ∈ rows, r.name = s.linkname) (hno : ∀ r ∈ rows, r.name ≠ noname) :
    ∃ sc sh out r c, Cad.convert toZYX cmd (some rows) (some srows) = .exit 0 (.ztk sc name sh out) ∧
      readZ z o noname g (ztkFile tf name sh out) = some (some (r, c)) ∧
      r.name = name ∧ r.shapes = srows.map (·.name) ∧ (r.node.map fun x => x.parent) = tableParents rows ∧
      c.link.length = rows.length ∧
      ∀ (i : ℕ) (row : LinkRow K), rows[i]? = some row → ∃ (fl : FLink K) (l : Roki.Link K), r.link[i]? = some fl ∧ c.link[i]? = some l ∧
        l.name = row.name ∧ l.joint.prp.typeStr = row.jointtype ∧
        fl.shapes = (srows.filter (·.linkname == row.name)).map (·.name) ∧
        l.body.frame = metres (rowFrame row) ∧ l.body.wldCOM = (1 / 1000 : K) • row.com ∧
        l.body.mp.xform l.body.frame = ⟨1 / 1000 * row.mass, (1 / 1000 : K) • row.com,
          (1 / 1000000000 : K) • ⟨⟨row.xx, row.xy, row.xz⟩, ⟨row.xy, row.yy, row.yz⟩, ⟨row.xz, row.yz, row.zz⟩⟩⟩ := by
  obtain ⟨sc, sh, out, e1, e2, e3, -⟩ := C64_ztk_partial toZYX cmd name rows srows hcmd h.toGoodRows h.nonempty hs
  rcases convert_parts e1 with h' | ⟨sa, sc', name', es, -, -, ⟨_, _, -, h', -⟩ | ⟨out', -, h', eo⟩⟩
  · cases h'
  · cases h'
  cases h'
  obtain ⟨sa', es', hsh⟩ := readShapes_ok h.nodup hs
  rw [es] at es'
  cases es'
  have hnames := readShapes_names es
  -- the sections, one by one
  have hout : ∀ (i : ℕ) (row : LinkRow K), rows[i]? = some row → ∃ l, out[i]? = some l ∧ Describes srows row l ∧
      (row.parentname = "nil" → l.frame = metres (rowFrame row)) ∧
      (∀ (j : ℕ) (p : LinkRow K), rows[j]? = some p → row.parentname ≠ "nil" → p.name = row.parentname →
        (metres (rowFrame p)).cascade l.frame = metres (rowFrame row)) := by
    intro i row hr
    obtain ⟨l, a1, a2, a3, a4⟩ := outLink_ok h.toGoodRows hsh hr
    obtain ⟨out2, b1, b2, b3⟩ := mapM_range (f := outLink (array rows) sa) (n := (array rows).length) (by
      intro i hi
      rw [array_length] at hi
      obtain ⟨o, ho, -⟩ := outLink_ok h.toGoodRows hsh (List.getElem?_eq_getElem hi)
      exact ⟨o, ho⟩)
    rw [outZtk, b1, Option.some.injEq] at eo
    subst eo
    refine ⟨l, ?_, a2, a3, a4⟩
    rw [b3 i (by rw [array_length]; exact (List.getElem?_eq_some_iff.1 hr).1), a1]
  have hrow : ∀ (i : ℕ) (l : OutLink K), out[i]? = some l → ∃ row, rows[i]? = some row := by
    intro i l hl
    have : i < rows.length := by rw [← e2]; exact (List.getElem?_eq_some_iff.1 hl).1
    exact ⟨_, List.getElem?_eq_getElem this⟩
  obtain ⟨fls, hfls⟩ := exists_forall₂ (R := fun (l : OutLink K) (fl : FLink K) => ∃ p : Prp K, p.typeStr = l.jointtype ∧
      jointFrame p = Frame.ident ∧ fl = gotLink noname l p ∧ ∀ names : List String, l.name ∉ names →
        linkRead o noname names (srows.map (·.name)) [] (plainSec z o (linkLines tf l)) = .ok fl) (l := out) (by
    intro l hl
    obtain ⟨i, hi⟩ := List.mem_iff_getElem?.1 hl
    obtain ⟨row, hr⟩ := hrow i l hi
    obtain ⟨l', a1, a2, -⟩ := hout i row hr
    rw [hi] at a1
    cases a1
    obtain ⟨p, b1, b2, b3⟩ := section_read z o noname (srows.map (·.name)) tf l (hz _) (by
      intro s hs
      rw [a2.shapes] at hs
      obtain ⟨t, ht, rfl⟩ := List.mem_map.1 hs
      exact List.mem_map.2 ⟨t, (List.mem_filter.1 ht).1, rfl⟩) (by
      rw [a2.jointtype]
      exact h.types row (List.mem_of_getElem? hr))
    exact ⟨_, p, b1, b2, rfl, b3⟩)
  have hlen := hfls.length_eq
  have hfl : ∀ (i : ℕ) (row : LinkRow K), rows[i]? = some row → ∃ l p, out[i]? = some l ∧ fls[i]? = some (gotLink noname l p) ∧
      p.typeStr = row.jointtype ∧ jointFrame p = Frame.ident := by
    intro i row hr
    obtain ⟨l, a1, a2, -⟩ := hout i row hr
    have hi : i < fls.length := by rw [← hlen]; exact (List.getElem?_eq_some_iff.1 a1).1
    obtain ⟨l', b1, p, b2, b3, b4, -⟩ := Urdf.Doc.forall₂_get hfls (List.getElem?_eq_getElem hi)
    rw [a1] at b1
    cases b1
    exact ⟨l, p, a1, by rw [List.getElem?_eq_getElem hi, b4], by rw [b2, a2.jointtype], b3⟩
  have hnm : (fls.map fun l => l.link.name) = rows.map (·.name) := by
    apply List.ext_getElem?
    intro i
    rw [List.getElem?_map, List.getElem?_map]
    rcases hr : rows[i]? with _ | row
    · have : rows.length ≤ i := List.getElem?_eq_none_iff.1 hr
      rw [List.getElem?_eq_none_iff.2 (by omega)]
      rfl
    · obtain ⟨l, p, a1, a2, -⟩ := hfl i row hr
      obtain ⟨l', b1, b2, -⟩ := hout i row hr
      rw [a1] at b1
      cases b1
      rw [a2]
      simp only [Option.map_some, Option.some.injEq]
      exact b2.name
  -- the sections of the file
  obtain ⟨q1, q2, q3⟩ := secs_plainFile z o (ztkFile tf name (outShapes cmd sa) out)
  have hfile : ztkFile tf name (outShapes cmd sa) out = [[⟨"name", [.str name]⟩]].map (fun x => ("chain", x)) ++
      ([[⟨"name", [.str "white"]⟩]].map (fun x => ("optic", x)) ++
      (((srows.map (·.name)).map fun n => ([⟨"name", [.str n]⟩] : List (Fld K))).map (fun x => ("shape", x)) ++
        (out.map (linkLines tf)).map fun x => ("link", x))) := by
    rw [← hnames, ztkFile, outShapes, List.map_map, List.map_map, List.map_map, List.map_map]
    rfl
  have hsec : ∀ t : String, secs t (ztkFile tf name (outShapes cmd sa) out) = secs t ([[⟨"name", [.str name]⟩]].map (fun x => ("chain", x))) ++
      (secs t ([[⟨"name", [.str "white"]⟩]].map (fun x => ("optic", x))) ++
      (secs t (((srows.map (·.name)).map fun n => ([⟨"name", [.str n]⟩] : List (Fld K))).map (fun x => ("shape", x))) ++
        secs t ((out.map (linkLines tf)).map fun x => ("link", x)))) := by
    intro t
    rw [hfile, secs_append, secs_append, secs_append]
  have t2 : secs "link" (plainFile z o (ztkFile tf name (outShapes cmd sa) out)) = (out.map (linkLines tf)).map (plainSec z o) := by
    rw [q1, hsec, secs_other (by decide), secs_other (by decide), secs_other (by decide), secs_same]
    rfl
  have t3 : secs "shape" (plainFile z o (ztkFile tf name (outShapes cmd sa) out)) =
      (srows.map (·.name)).map fun n => ([⟨"name", [.str n]⟩] : List (Fld K)) := by
    rw [q3 _ (by decide) (by decide), hsec, secs_other (by decide), secs_other (by decide), secs_same, secs_other (by decide)]
    simp
  have t4 : secs "chain" (plainFile z o (ztkFile tf name (outShapes cmd sa) out)) = [[⟨"name", [.str name]⟩]] := by
    rw [q3 _ (by decide) (by decide), hsec, secs_same, secs_other (by decide), secs_other (by decide), secs_other (by decide)]
    rfl
  have t5 : secs "motor" (plainFile z o (ztkFile tf name (outShapes cmd sa) out)) = [] := by
    rw [q3 _ (by decide) (by decide), hsec, secs_other (by decide), secs_other (by decide), secs_other (by decide), secs_other (by decide)]
    rfl
  have t6 : secs "init" (plainFile z o (ztkFile tf name (outShapes cmd sa) out)) = [] := by
    rw [q2, hsec, secs_other (by decide), secs_other (by decide), secs_other (by decide), secs_other (by decide)]
    rfl
  -- parents
  have hpl : (tableParents rows).length = rows.length := by simp [tableParents]
  have hpar : DeclareParents (fls.map fun l => l.link.name) (plainFile z o (ztkFile tf name (outShapes cmd sa) out)) (tableParents rows) := by
    refine Urdf.Doc.declares_of ?_
    rw [t2, List.map_map, List.forall₂_map_left_iff, List.forall₂_iff_get]
    refine ⟨by rw [e2, hpl], fun i hi hi' => ?_⟩
    rw [List.get_eq_getElem, List.get_eq_getElem]
    obtain ⟨row, hr⟩ := hrow i _ (List.getElem?_eq_getElem hi)
    obtain ⟨l, a1, a2, -⟩ := hout i row hr
    rw [List.getElem?_eq_getElem hi, Option.some.injEq] at a1
    have hp := tableParents_get hr
    rw [List.getElem?_eq_getElem hi', Option.some.injEq] at hp
    rw [a1, hp]
    have hv : vals (plainSec z o (linkLines tf l)) "parent" = l.parent.toList.map fun n => [.str n] := by
      rw [vals, filter_key_plain z o _ (by decide)]
      exact vals_parent tf l
    simp only [Function.comp_apply]
    by_cases hnil : row.parentname = "nil"
    · rw [if_pos hnil]
      have := a2.parent
      rw [if_pos hnil] at this
      rw [Declares, hv, this]
      rfl
    · rw [if_neg hnil]
      obtain ⟨p, hpm, hpn⟩ := (h.parent row (List.mem_of_getElem? hr)).resolve_left hnil
      obtain ⟨j, hj⟩ := List.mem_iff_getElem?.1 hpm
      rw [parent_num h.nodup hj hpn]
      refine ⟨row.parentname, ?_, ?_⟩
      · rw [hnm, List.getElem?_map, hj, Option.map_some, hpn]
      · have := a2.parent
        rw [if_neg hnil] at this
        rw [hv, this]
        rfl
  have hroot : (tableParents rows)[0]? = some none := by
    obtain ⟨path, a1, a2⟩ := h.leads 0 (List.length_pos_of_ne_nil h.nonempty)
    exact (lineage_leads h.nodup a1 path 0 rfl a2).2
  obtain ⟨r, c, c0, c1, hh, f1, f2, f3, f4, f5, w, fk, hrep, hpars, hlen0, -, hmap, hmap1, hmap0⟩ :=
    read_sections o noname g (fls := fls) t2 t3 t4 t5 t6 (by
      rw [List.forall₂_map_right_iff, List.forall₂_map_right_iff]
      refine (hfls.flip).imp fun fl l hl => ?_
      obtain ⟨p, -, -, rfl, hl⟩ := hl
      exact hl) (by rw [hnm]; exact h.nodup) (by
      rw [hnm]
      intro hm
      obtain ⟨row, hm, e⟩ := List.mem_map.1 hm
      exact hno row hm e) (by
      intro fl hfl
      obtain ⟨i, hi⟩ := List.mem_iff_getElem?.1 hfl
      obtain ⟨l, -, p, -, -, rfl, -⟩ := Urdf.Doc.forall₂_get hfls hi
      rfl) hpar hroot (by
      intro k hk
      rw [hpl] at hk
      obtain ⟨path, a1, a2⟩ := h.leads k hk
      exact (lineage_leads h.nodup a1 path k rfl a2).1)
  refine ⟨sc, _, out, r, c, e1, by rw [readZ_plain]; exact f1, f2, f3, by rw [f5]; exact hpars, ?_, ?_⟩
  · have a1 := congrArg List.length hmap
    have a2 := congrArg List.length hmap1
    simp only [List.length_map] at a1 a2
    rw [a1, a2, hlen0, hpl]
  intro i row hr
  have hi0 : i < c0.link.length := by rw [hlen0, hpl]; exact (List.getElem?_eq_some_iff.1 hr).1
  obtain ⟨lo, p, a1, a2, a3, a4⟩ := hfl i row hr
  obtain ⟨lo', b1, b2, -⟩ := hout i row hr
  rw [a1] at b1
  cases b1
  -- the frames of the links before the forward kinematics
  have hlink0 : ∀ (i : ℕ) (row : LinkRow K) (l0 : Roki.Link K), rows[i]? = some row → c0.link[i]? = some l0 → ∃ l p, out[i]? = some l ∧
      l0.name = l.name ∧ l0.joint.prp = p ∧ l0.org = l.frame ∧ l0.body.mp = l.mp ∧ p.typeStr = row.jointtype ∧ jointFrame p = Frame.ident := by
    intro i row l0 hr h0
    obtain ⟨l, p, x1, x2, x3, x4⟩ := hfl i row hr
    have := congrArg (fun l => l[i]?) hmap0
    simp only [List.getElem?_map, h0, x2, Option.map_some, Option.some.injEq, Prod.mk.injEq] at this
    obtain ⟨y1, y2, y3, y4⟩ := this
    exact ⟨l, p, x1, y1, by rw [y2]; rfl, y3, y4, x3, x4⟩
  have hframe := Urdf.Doc.fk_parents w fk hrep hpars (fun i f => ∀ row, rows[i]? = some row → f = metres (rowFrame row)) (by
    intro i l0 hp h0 row hr
    obtain ⟨l, p, x1, x2, x3, x4, x5, x6, x7⟩ := hlink0 i row l0 hr h0
    obtain ⟨l', y1, y2, y3, y4⟩ := hout i row hr
    rw [x1] at y1
    cases y1
    rw [linkFrame, x3, x7, x4, Frame.cascade_ident]
    refine y3 ?_
    by_contra hnil
    rw [tableParents_get hr, if_neg hnil] at hp
    obtain ⟨q, hq, hqn⟩ := (h.parent row (List.mem_of_getElem? hr)).resolve_left hnil
    obtain ⟨j, hj⟩ := List.mem_iff_getElem?.1 hq
    rw [parent_num h.nodup hj hqn] at hp
    cases hp) (by
    intro i j l0 f hp h0 hf row hr
    obtain ⟨l, p, x1, x2, x3, x4, x5, x6, x7⟩ := hlink0 i row l0 hr h0
    obtain ⟨l', y1, y2, y3, y4⟩ := hout i row hr
    rw [x1] at y1
    cases y1
    rw [linkFrame, x3, x7, x4, Frame.cascade_ident]
    rw [tableParents_get hr] at hp
    by_cases hnil : row.parentname = "nil"
    · rw [if_pos hnil] at hp
      cases hp
    obtain ⟨q, hq, hqn⟩ := (h.parent row (List.mem_of_getElem? hr)).resolve_left hnil
    obtain ⟨j', hj⟩ := List.mem_iff_getElem?.1 hq
    rw [if_neg hnil, parent_num h.nodup hj hqn] at hp
    simp only [Option.some.injEq] at hp
    subst hp
    rw [hf q hj]
    exact y4 j' q hj hnil hqn)
  have hi1 : i < c1.link.length := by
    have := congrArg List.length hmap1
    simp only [List.length_map] at this
    omega
  have hi : i < c.link.length := by
    have := congrArg List.length hmap
    simp only [List.length_map] at this
    omega
  obtain ⟨l0, p', x1, x2, x3, x4, x5, x6, x7⟩ := hlink0 i row _ hr (List.getElem?_eq_getElem hi0)
  rw [a1] at x1
  cases x1
  have m1 := congrArg (fun l => l[i]?) hmap
  simp only [List.getElem?_map, List.getElem?_eq_getElem hi, List.getElem?_eq_getElem hi1, Option.map_some, Option.some.injEq,
    Prod.mk.injEq] at m1
  obtain ⟨m1, m2, m3⟩ := m1
  have m4 := congrArg (fun l => l[i]?) hmap1
  simp only [List.getElem?_map, List.getElem?_eq_getElem hi0, List.getElem?_eq_getElem hi1, Option.map_some, Option.some.injEq] at m4
  rw [m4] at m3
  simp only [seen, Prod.mk.injEq] at m3 m4
  have hF : c.link[i].body.frame = metres (rowFrame row) := by
    rw [m1]
    exact hframe i _ (List.getElem?_eq_getElem hi1) row hr
  have hmp : c.link[i].body.mp = lo.mp := by rw [m3.2.2, x5]
  obtain ⟨c1', e, -, -, hpath, hall⟩ := C06_fk_composition c0 w
  rw [fk] at e
  cases e
  obtain ⟨path, hpa⟩ := hpath i hi0
  obtain ⟨-, -, hwc⟩ := hall path i _ hpa (List.getElem?_eq_getElem hi1)
  refine ⟨_, _, by rw [f4]; exact a2, List.getElem?_eq_getElem hi, ?_, ?_, b2.shapes, hF, ?_, ?_⟩
  · rw [m3.1, x2, b2.name]
  · rw [m3.2.1, x3, x6]
  · rw [m2, hwc, ← m1, hF, m4.2.2, x5]
    have := congrArg MP.com b2.mp
    exact this
  · rw [hF, hmp]
    exact b2.mp

end

namespace Cad

theorem mapM_get {α β : Type*} {f : α → Option β} : ∀ {l : List α} {out : List β}, l.mapM f = some out → out.length = l.length ∧
    ∀ (i : ℕ) (a : α), l[i]? = some a → out[i]? = f a := by
  intro l
  induction l with
  | nil => intro out h; cases h; exact ⟨rfl, by simp⟩
  | cons a l ih =>
    intro out h
    simp only [List.mapM_cons, Option.bind_eq_bind, Option.bind_eq_some_iff, Option.pure_def, Option.some.injEq] at h
    obtain ⟨b, hb, out', ho, rfl⟩ := h
    obtain ⟨h1, h2⟩ := ih ho
    refine ⟨by simp [h1], fun i x hx => ?_⟩
    cases i with
    | zero => simp only [List.getElem?_cons_zero, Option.some.injEq] at hx ⊢; rw [← hx, hb]
    | succ i => exact h2 i x (by simpa using hx)

/-- The script that has been written. -/
def Output.script {K : Type*} : Output K → List (ScriptLine K)
  | .nothing => []
  | .ztk sc _ _ _ => sc
  | .urdf sc _ _ _ => sc

/-- The files that the model written refers to. -/
def Output.files {K : Type*} : Output K → List String
  | .nothing => []
  | .ztk _ _ sh _ => sh.map Prod.snd
  | .urdf _ _ ls _ => ls.flatMap fun l => l.2.2

theorem rot_of_cascade {p r : Frame K} {o : Frame K} (hp : p.att.IsRot) (hr : r.att.IsRot) (e : p.cascade o = r) : o.att.IsRot := by
  have e1 : p.att.mul o.att = r.att := by rw [← e]; rfl
  have e2 : o.att = p.att.tr.mul r.att := by
    rw [← e1, ← Mat3.mul_assoc', hp.tr_mul_self, Mat3.one_mul']
  rw [e2]
  exact hp.tr.mul hr

end Cad

section
variable [LinearOrder K]

/-- **C116, the script.**  Whatever is converted, to either format, the script has one line per row of the shape table, in order: it
reads the file of the row from the directory of the originals and writes the file of that shape into the directory of the model; the
frame it passes is that of the shape seen from its link, `--` stands before an argument exactly if it begins with a negative number;
and the files the model refers to are exactly those the script writes. -/
theorem C116_script (toZYX : Mat3 K → Vec3 K) (cmd : Cmd) (rows : List (LinkRow K)) (srows : List (ShapeRow K))
    (hn : (rows.map (·.name)).Nodup) (out : Output K) (hne : out ≠ .nothing)
    (h : Cad.convert toZYX cmd (some rows) (some srows) = .exit 0 out) :
    out.script.length = srows.length ∧
    (∀ (i : ℕ) (s : ShapeRow K), srows[i]? = some s → ∃ row ∈ rows, ∃ line, row.name = s.linkname ∧ out.script[i]? = some line ∧
      line.src = cmd.orgdir ++ "/" ++ s.stlname ++ ".STL" ∧ line.dst = cmd.dir ++ "/" ++ s.name ++ ".STL" ∧
      (row.att.IsRot → (rowFrame row).cascade line.frame = ⟨s.pos, s.att⟩) ∧
      (line.tneg = true ↔ line.frame.pos.x < 0) ∧ (line.rneg = true ↔ line.frame.att.cx.x < 0)) ∧
    ∀ file, file ∈ out.files ↔ ∃ line ∈ out.script, line.dst = file := by
  rcases convert_parts h with h' | ⟨sa, sc, name, es, esc, -, hout⟩
  · exact absurd h' hne
  have hsc : out.script = sc := by
    rcases hout with ⟨_, _, -, rfl, -⟩ | ⟨_, -, rfl, -⟩ <;> rfl
  rw [hsc]
  obtain ⟨n1, g1⟩ := mapM_get es
  obtain ⟨n2, g2⟩ := mapM_get esc
  have key : ∀ (i : ℕ) (s : ShapeRow K), srows[i]? = some s → ∃ (j : ℕ) (row : LinkRow K), rows[j]? = some row ∧ row.name = s.linkname ∧
      sa[i]? = some ⟨s.name, s.stlname, some j, ⟨s.pos, s.att⟩⟩ ∧
      sc[i]? = some ⟨decide (((rowFrame row).xformF ⟨s.pos, s.att⟩).pos.x < 0), decide (((rowFrame row).xformF ⟨s.pos, s.att⟩).att.cx.x < 0),
        (rowFrame row).xformF ⟨s.pos, s.att⟩, stlFile cmd.orgdir s.stlname, stlFile cmd.dir s.name⟩ := by
    intro i s hs
    have hi : i < sa.length := by rw [n1]; exact (List.getElem?_eq_some_iff.1 hs).1
    have a1 := g1 i s hs
    rw [List.getElem?_eq_getElem hi] at a1
    obtain ⟨j, hj, e⟩ := Option.map_eq_some_iff.1 a1.symm
    obtain ⟨row, hr, hrn⟩ := (find_row hn).1 hj
    have hl := array_get rows j
    rw [hr, Option.map_some] at hl
    refine ⟨j, row, hr, hrn, by rw [List.getElem?_eq_getElem hi, ← e], ?_⟩
    rw [g2 i _ (List.getElem?_eq_getElem hi), ← e, scriptLine]
    simp only [Option.bind_some, hl, Option.map_some]
    rfl
  have hlen : sc.length = srows.length := by rw [n2, n1]
  refine ⟨hlen, ?_, ?_⟩
  · intro i s hs
    obtain ⟨j, row, hr, hrn, -, e⟩ := key i s hs
    refine ⟨row, List.mem_of_getElem? hr, _, hrn, e, rfl, rfl, fun hrot => Frame.cascade_xformF (f := rowFrame row) hrot _, ?_, ?_⟩
    · exact decide_eq_true_iff
    · exact decide_eq_true_iff
  · have hdst : ∀ file, (∃ line ∈ sc, line.dst = file) ↔ ∃ s ∈ sa, stlFile cmd.dir s.name = file := by
      intro file
      constructor
      · rintro ⟨line, hm, rfl⟩
        obtain ⟨i, hi⟩ := List.mem_iff_getElem?.1 hm
        have hi' : i < srows.length := by rw [← hlen]; exact (List.getElem?_eq_some_iff.1 hi).1
        obtain ⟨j, row, -, -, e1, e2⟩ := key i _ (List.getElem?_eq_getElem hi')
        rw [hi, Option.some.injEq] at e2
        exact ⟨_, List.mem_of_getElem? e1, by rw [e2]⟩
      · rintro ⟨s, hm, rfl⟩
        obtain ⟨i, hi⟩ := List.mem_iff_getElem?.1 hm
        have hi' : i < srows.length := by rw [← n1]; exact (List.getElem?_eq_some_iff.1 hi).1
        obtain ⟨j, row, -, -, e1, e2⟩ := key i _ (List.getElem?_eq_getElem hi')
        rw [hi, Option.some.injEq] at e1
        exact ⟨_, List.mem_of_getElem? e2, by rw [e1]⟩
    intro file
    rw [hdst]
    rcases hout with ⟨ls, js, -, rfl, hu⟩ | ⟨ls, -, rfl, -⟩
    · obtain ⟨js', -, e⟩ := Option.bind_eq_some_iff.1 hu
      simp only [Option.some.injEq, Prod.mk.injEq] at e
      obtain ⟨rfl, rfl⟩ := e
      simp only [Output.files, List.mem_flatMap]
      constructor
      · rintro ⟨l, hl, hf⟩
        obtain ⟨k, hk⟩ := List.mem_iff_getElem?.1 hl
        rw [List.getElem?_zipWith] at hk
        have : ∃ i a, l = (a, relMP (i : ℕ × LinkT K).2, linkMeshes cmd sa i.1) := by
          revert hk
          cases (List.range (array rows).length)[k]? <;> cases (array rows)[k]? <;> intro hk <;> simp at hk
          rename_i i a
          exact ⟨(i, a), _, hk.symm⟩
        obtain ⟨i, a, rfl⟩ := this
        obtain ⟨s, hs, rfl⟩ := List.mem_map.1 hf
        exact ⟨s, (List.mem_filter.1 hs).1, rfl⟩
      · rintro ⟨s, hs, rfl⟩
        obtain ⟨i, hi⟩ := List.mem_iff_getElem?.1 hs
        have hi' : i < srows.length := by rw [← n1]; exact (List.getElem?_eq_some_iff.1 hi).1
        obtain ⟨j, row, hr, -, e1, -⟩ := key i _ (List.getElem?_eq_getElem hi')
        rw [hi, Option.some.injEq] at e1
        have hj : j < (array rows).length := by rw [array_length]; exact (List.getElem?_eq_some_iff.1 hr).1
        refine ⟨(((array rows)[j]).name, relMP (array rows)[j], linkMeshes cmd sa j), ?_, ?_⟩
        · refine List.mem_iff_getElem?.2 ⟨j, ?_⟩
          rw [List.getElem?_zipWith, List.getElem?_range hj, List.getElem?_eq_getElem hj]
        · refine List.mem_map.2 ⟨s, List.mem_filter.2 ⟨hs, ?_⟩, rfl⟩
          rw [e1]
          simp
    · simp [Output.files, outShapes]

/-- **C116, URDF.**  With the joint types that URDF has, the conversion to URDF writes one link and one joint per row: the link has the
name, the mass properties and the meshes of the table, the joint leads to it from the parent of the table, and the origins of the
joints put every link where the table says, provided that the three angles written are read back as the attitude.  What is missing: the
joint of the root, whose parent `nil` is no link (`C64_urdf_root_fails`). -/
theorem C116_urdf_partial (toZYX : Mat3 K → Vec3 K) (fromZYX : Vec3 K → Mat3 K) (hzyx : ∀ R : Mat3 K, R.IsRot → fromZYX (toZYX R) = R)
    (cmd : Cmd) (name : String) (rows : List (LinkRow K)) (srows : List (ShapeRow K))
    (hcmd : 2 ≤ cmd.argc ∧ cmd.help = false ∧ cmd.doc = false ∧ cmd.urdf = true ∧ cmd.name = some name)
    (h : GoodRows rows) (h0 : rows ≠ []) (ht : ∀ r ∈ rows, r.jointtype ∈ ["fixed", "revolute", "prismatic", "float"])
    (hs : ∀ s ∈ srows, ∃ r ∈ rows, r.name = s.linkname) :
    ∃ sc ls js, Cad.convert toZYX cmd (some rows) (some srows) = .exit 0 (.urdf sc name ls js) ∧
      ls.length = rows.length ∧ js.length = rows.length ∧
      ∀ (i : ℕ) (row : LinkRow K), rows[i]? = some row → ∃ mp meshes j, ls[i]? = some (row.name, mp, meshes) ∧ js[i]? = some j ∧
        meshes = (srows.filter (·.linkname == row.name)).map (fun s => cmd.dir ++ "/" ++ s.name ++ ".STL") ∧
        mp.xform (metres (rowFrame row)) = ⟨1 / 1000 * row.mass, (1 / 1000 : K) • row.com,
          (1 / 1000000000 : K) • ⟨⟨row.xx, row.xy, row.xz⟩, ⟨row.xy, row.yy, row.yz⟩, ⟨row.xz, row.yz, row.zz⟩⟩⟩ ∧
        j.name = row.name ∧ j.type = row.jointtype ∧ j.parent = row.parentname ∧ j.child = row.name ∧
        (row.parentname = "nil" → (⟨j.xyz, fromZYX j.rpy⟩ : Frame K) = metres (rowFrame row)) ∧
        ∀ (k : ℕ) (p : LinkRow K), rows[k]? = some p → row.parentname ≠ "nil" → p.name = row.parentname →
          (metres (rowFrame p)).cascade ⟨j.xyz, fromZYX j.rpy⟩ = metres (rowFrame row) := by
  obtain ⟨sa, es, hsh⟩ := readShapes_ok h.nodup hs
  obtain ⟨sc, esc⟩ := script_ok h.nodup hs es cmd
  obtain ⟨c1, c2, c3, c4, c5⟩ := hcmd
  have hone : ∀ (i : ℕ) (row : LinkRow K), rows[i]? = some row → ∃ l j, (array rows)[i]? = some l ∧ l.name = row.name ∧
      outJoint toZYX (array rows) l = some j ∧
      (relMP l).xform (metres (rowFrame row)) = ⟨1 / 1000 * row.mass, (1 / 1000 : K) • row.com,
          (1 / 1000000000 : K) • ⟨⟨row.xx, row.xy, row.xz⟩, ⟨row.xy, row.yy, row.yz⟩, ⟨row.xz, row.yz, row.zz⟩⟩⟩ ∧
        j.name = row.name ∧ j.type = row.jointtype ∧ j.parent = row.parentname ∧ j.child = row.name ∧
        (row.parentname = "nil" → (⟨j.xyz, fromZYX j.rpy⟩ : Frame K) = metres (rowFrame row)) ∧
        ∀ (k : ℕ) (p : LinkRow K), rows[k]? = some p → row.parentname ≠ "nil" → p.name = row.parentname →
          (metres (rowFrame p)).cascade ⟨j.xyz, fromZYX j.rpy⟩ = metres (rowFrame row) := by
    intro i row hr
    have hm := List.mem_of_getElem? hr
    obtain ⟨o, a1, a2, a3, a4⟩ := outLink_ok h hsh hr
    have hl := array_get rows i
    rw [hr, Option.map_some] at hl
    generalize hL : (({ readLink row with parent := if row.parentname = "nil" then none else findLink (rows.map readLink) row.parentname } : LinkT K)) = l at hl
    rw [outLink, hl, Option.bind_some] at a1
    obtain ⟨f, hf, a1⟩ := Option.bind_eq_some_iff.1 a1
    obtain ⟨pn, -, rfl⟩ := Option.map_eq_some_iff.1 a1
    have e1 : l.name = row.name := by rw [← hL]; rfl
    have e2 : l.jointtype = row.jointtype := by rw [← hL]; rfl
    have e3 : l.parentname = row.parentname := by rw [← hL]; rfl
    have et : urdfType l.jointtype = some row.jointtype := by
      rw [e2]
      have := ht row hm
      simp only [List.mem_cons, List.not_mem_nil, or_false] at this
      rcases this with e | e | e | e <;> rw [e] <;> rfl
    have hrot : f.att.IsRot := by
      by_cases hnil : row.parentname = "nil"
      · have : f = metres (rowFrame row) := a3 hnil
        rw [this]
        exact h.rot row hm
      · obtain ⟨p, hp, hpn⟩ := (h.parent row hm).resolve_left hnil
        obtain ⟨k, hk⟩ := List.mem_iff_getElem?.1 hp
        exact rot_of_cascade (p := metres (rowFrame p)) (r := metres (rowFrame row)) (h.rot p hp) (h.rot row hm) (a4 k p hk hnil hpn)
    have eF : (⟨f.pos, fromZYX (toZYX f.att)⟩ : Frame K) = f := by rw [hzyx _ hrot]
    refine ⟨l, ⟨l.name, row.jointtype, l.parentname, l.name, f.pos, toZYX f.att⟩, hl, e1, ?_, a2.mp, e1, rfl, e3, e1, ?_, ?_⟩
    · rw [outJoint, et, Option.bind_some, hf]
      rfl
    · intro hnil
      rw [eF]
      exact a3 hnil
    · intro k p hk hnil hpn
      rw [eF]
      exact a4 k p hk hnil hpn
  have hall : ∀ l : List (LinkT K), (∀ x ∈ l, ∃ j, outJoint toZYX (array rows) x = some j) → ∃ js, l.mapM (outJoint toZYX (array rows)) = some js := by
    intro l
    induction l with
    | nil => intro _; exact ⟨[], rfl⟩
    | cons a l ih =>
      intro hx
      obtain ⟨j, hj⟩ := hx a (by simp)
      obtain ⟨js, hjs⟩ := ih fun x hx' => hx x (by simp [hx'])
      exact ⟨j :: js, by simp [hj, hjs]⟩
  obtain ⟨js, hjs⟩ := hall (array rows) (by
    intro x hx
    obtain ⟨i, hi⟩ := List.mem_iff_getElem?.1 hx
    have hi' : i < rows.length := by rw [← array_length]; exact (List.getElem?_eq_some_iff.1 hi).1
    obtain ⟨l, j, b1, -, b2, -⟩ := hone i _ (List.getElem?_eq_getElem hi')
    rw [hi] at b1
    cases b1
    exact ⟨j, b2⟩)
  obtain ⟨n1, g1⟩ := mapM_get hjs
  refine ⟨sc, (List.range (array rows).length).zipWith (fun i l => (l.name, relMP l, linkMeshes cmd sa i)) (array rows), js, ?_, ?_,
    by rw [n1, array_length], ?_⟩
  rotate_left
  · simp [array_length]
  · intro i row hr
    obtain ⟨l, j, b1, b2, b3, b4⟩ := hone i row hr
    have hi : i < (array rows).length := (List.getElem?_eq_some_iff.1 b1).1
    refine ⟨relMP l, linkMeshes cmd sa i, j, ?_, ?_, ?_, b4⟩
    · rw [List.getElem?_zipWith, List.getElem?_range hi, b1, ← b2]
    · rw [g1 i l b1, b3]
    · have : linkMeshes cmd sa i = (linkShapes sa i).map (stlFile cmd.dir) := by
        rw [linkMeshes, linkShapes, List.map_map]
        rfl
      rw [this, hsh i row hr, List.map_map]
      rfl
  · have e1 : assocParent (rows.map readLink) = (array rows, true) := Prod.ext rfl (assoc_ok h)
    have e2 : outUrdf toZYX cmd (array rows) sa = some ((List.range (array rows).length).zipWith (fun i l => (l.name, relMP l, linkMeshes cmd sa i)) (array rows), js) := by
      rw [outUrdf, hjs]
      rfl
    cases rows with
    | nil => exact absurd rfl h0
    | cons r rows =>
      simp only [convert, c2, c3, c4, c5, e1, es, esc, e2, Bool.not_true]
      simp [Nat.not_lt.2 c1]

end

namespace CadExample

/-- A table of three links, out of order, and shapes. -/
def rows : List (LinkRow ℚ) :=
  [⟨"base", "nil", "float", 0, 1, 5000, ⟨10, 0, 0⟩, 100, 1, 2, 200, 3, 300⟩,
   ⟨"hand", "arm", "revolute", ⟨0, 100, 200⟩, ⟨⟨0, 1, 0⟩, ⟨-1, 0, 0⟩, ⟨0, 0, 1⟩⟩, 500, ⟨0, 120, 210⟩, 10, 0, 0, 20, 0, 30⟩,
   ⟨"arm", "base", "prismatic", ⟨0, 0, 200⟩, ⟨⟨1, 0, 0⟩, ⟨0, 0, 1⟩, ⟨0, -1, 0⟩⟩, 700, ⟨0, 50, 200⟩, 10, 0, 0, 20, 0, 30⟩]

def shapes : List (ShapeRow ℚ) :=
  [⟨"palm", "PALM01", "hand", ⟨-20, 90, 200⟩, 1⟩, ⟨"cover", "COVER", "base", ⟨1, 2, 3⟩, 1⟩, ⟨"finger", "F", "hand", ⟨0, 130, 200⟩, 1⟩]

theorem table : RobotTable rows where
  nodup := by decide
  parent := by decide
  rot := by
    intro r hr
    simp only [rows, List.mem_cons, List.not_mem_nil, or_false] at hr
    rcases hr with rfl | rfl | rfl <;> constructor <;> decide +kernel
  nonempty := by simp [rows]
  types := by decide
  leads := by
    have l0 : Lineage rows ([] ++ [0]) := .root (i := 0) rfl rfl
    have l2 : Lineage rows ([0] ++ [2]) := .step (path := []) (j := 0) (i := 2) l0 rfl rfl (by decide) rfl
    have l1 : Lineage rows ([0, 2] ++ [1]) := .step (path := [0]) (j := 2) (i := 1) l2 rfl rfl (by decide) rfl
    intro i hi
    have : i = 0 ∨ i = 1 ∨ i = 2 := by simp [rows] at hi; omega
    rcases this with rfl | rfl | rfl
    · exact ⟨_, l0, rfl⟩
    · exact ⟨_, l1, rfl⟩
    · exact ⟨_, l2, rfl⟩

theorem owners : ∀ s ∈ shapes, ∃ r ∈ rows, r.name = s.linkname := by decide

theorem named : ∀ r ∈ rows, r.name ≠ "(noname)" := by decide

/-- The parents of that table by number. -/
example : tableParents rows = [none, some 2, some 0] := by decide

/-- Twelve numbers, row by row, as Zeo prints a frame and reads it. -/
def tf (f : Frame ℚ) : List (Tok ℚ) :=
  [f.att.cx.x, f.att.cy.x, f.att.cz.x, f.pos.x, f.att.cx.y, f.att.cy.y, f.att.cz.y, f.pos.y, f.att.cx.z, f.att.cy.z, f.att.cz.z, f.pos.z].map .num

def zeo : PoseZeo ℚ where
  aa _ := none
  dh _ := none
  frame
    | [.num a, .num b, .num c, .num d, .num e, .num f, .num g, .num h, .num i, .num j, .num k, .num l] =>
      some ⟨⟨d, h, l⟩, ⟨⟨a, e, i⟩, ⟨b, f, j⟩, ⟨c, g, k⟩⟩⟩
    | _ => none

/-- The hypotheses of `C116_ztk` hold of this table: the hand of the robot that is read stands at (0, 0.1, 0.2). -/
example (toZYX : Mat3 ℚ → Vec3 ℚ) (o : Order) : ∃ sc sh out r c l, Cad.convert toZYX ⟨3, false, false, false, some "robot", "STL", "STL_org"⟩
      (some rows) (some shapes) = .exit 0 (.ztk sc "robot" sh out) ∧
    readZ zeo o "(noname)" 0 (ztkFile tf "robot" sh out) = some (some (r, c)) ∧ c.link[(1 : ℕ)]? = some l ∧ l.name = "hand" ∧
      l.body.frame.pos = ⟨0, 1 / 10, 1 / 5⟩ ∧ l.body.mp.mass = 1 / 2 := by
  obtain ⟨sc, sh, out, r, c, e1, e2, -, -, -, -, e3⟩ := C116_ztk zeo o "(noname)" 0 tf (fun _ => rfl) toZYX
    ⟨3, false, false, false, some "robot", "STL", "STL_org"⟩ "robot" rows shapes (by decide) table owners named
  obtain ⟨fl, l, -, a1, a2, -, -, a3, -, a4⟩ := e3 1 _ rfl
  refine ⟨sc, sh, out, r, c, l, e1, e2, a1, a2, ?_, ?_⟩
  · rw [a3]
    decide +kernel
  · have := congrArg MP.mass a4
    simp only [MP.xform] at this
    rw [this]
    norm_num

/-- The script for it: the palm is to the left of the hand, which the option must be protected from. -/
example : ((readShapes (array rows) shapes).bind (script ⟨3, false, false, false, some "robot", "STL", "STL_org"⟩ (array rows))).map
    (List.map fun l => (l.tneg, l.rneg, l.src, l.dst)) =
      some [(true, false, "STL_org/PALM01.STL", "STL/palm.STL"), (false, false, "STL_org/COVER.STL", "STL/cover.STL"),
        (false, false, "STL_org/F.STL", "STL/finger.STL")] := by
  decide +kernel

/-- The hypotheses of `C116_urdf_partial` hold of this table. -/
example (toZYX : Mat3 ℚ → Vec3 ℚ) (fromZYX : Vec3 ℚ → Mat3 ℚ) (hzyx : ∀ R : Mat3 ℚ, R.IsRot → fromZYX (toZYX R) = R) :
    ∃ sc ls js j, Cad.convert toZYX ⟨3, false, false, true, some "robot", "STL", "STL_org"⟩ (some rows) (some shapes) =
      .exit 0 (.urdf sc "robot" ls js) ∧ js[(1 : ℕ)]? = some j ∧ j.parent = "arm" ∧ j.child = "hand" := by
  obtain ⟨sc, ls, js, e1, -, -, e2⟩ := C116_urdf_partial toZYX fromZYX hzyx ⟨3, false, false, true, some "robot", "STL", "STL_org"⟩ "robot"
    rows shapes (by decide) table.toGoodRows table.nonempty (by decide) owners
  obtain ⟨_, _, j, -, a1, -, -, -, -, a2, a3, -⟩ := e2 1 _ rfl
  exact ⟨sc, ls, js, j, e1, a1, a2, a3⟩

end CadExample

end Roki
