import Verif.Lemmas.UrdfPlace7
import Verif.Props.Urdf
set_option autoImplicit false

/-!
# C97: the places of the links of a URDF document, converted and read
-/

namespace Roki
open Spec.File Spec.Forest Spec ZTK Spec.UrdfDoc Urdf.Doc
variable {K : Type*} [Field K]

section
variable [LinearOrder K] [IsStrictOrderedRing K] [Zm K] [LawfulZm K]

/-- The links of the chain that is read: their frames, mass properties and centres of mass. -/
theorem Urdf.Doc.placed (o : Order) (noname : String) (g : Vec6 K) {rot : Vec3 K → Mat3 K} {zyx : K → K → K → Mat3 K}
    {doc : Elem K} {links : List String} {pars : List (Option ℕ)} {f : File K} (hf : urdf2ztk rot zyx doc = some f)
    (hd : Describes doc links pars) (hnum : ∀ e ∈ elems doc "joint", Numbers e) (hshaped : ∀ e ∈ elems doc "link", Shaped e)
    (hno : noname ∉ links) (hr : pars[0]? = some none) (hl : ∀ k < pars.length, LeadsToRoot pars k)
    (ho : ∀ e ∈ elems doc "joint", OriginOk e) (ha : ∀ e ∈ elems doc "joint", AxisOk e)
    (hrot : ∀ a, (rot a).IsRot) (hzyx : ∀ a b c, (zyx a b c).IsRot) (hcr : AllCrisp rot zyx doc) {r : Robot K} {c : Chain K}
    (hread : ZTK.read o noname g f = some (some (r, c))) {i : ℕ} {l : Roki.Link K} {n : String} (hli : c.link[i]? = some l)
    (hn : links[i]? = some n) : ∃ s0 s F G l0 l1, eval zyx doc = some s0 ∧ correctFrame rot s0 = some s ∧
      At zyx doc n F ∧ Put rot doc n F G ∧ l.body.frame = G ∧ l.body.wldCOM = G.xform l.body.mp.com ∧
      s0.link[i]? = some l0 ∧ s.link[i]? = some l1 ∧
      ((pars[i]? = some none ∧ (∀ e ∈ elems doc "joint", ¬ Names e "child" n) ∧ l1 = l0) ∨
        ∃ e np Fp Gp, e ∈ elems doc "joint" ∧ Names e "child" n ∧ Names e "parent" np ∧ At zyx doc np Fp ∧ Put rot doc np Fp Gp ∧
          l1 = link2 (Gp.xformF G) G (link1 F l0)) ∧
      l.body.mp = ⟨l1.mp.mass, if l1.mp.mass = 0 then 0 else if tinyVec l1.mp.com then 0 else l1.mp.com,
        if l1.mp.mass = 0 then 0 else l1.mp.inertia⟩ := by
  obtain ⟨r', c', c0, c1, s0, s, h, e1, h0, h1, w, f1, hrep, hpars, hlen, hmap, hlink⟩ :=
    read_links o noname g hf hd hnum hshaped hno hr hl
  rw [hread] at e1
  simp only [Option.some.injEq, Prod.mk.injEq] at e1
  obtain ⟨rfl, rfl⟩ := e1
  obtain ⟨c1', e, -, hfk, hpath, hall⟩ := C06_fk_composition c0 w
  rw [f1] at e
  cases e
  have hget := congrArg (fun l => l[i]?) hmap
  simp only [List.getElem?_map, hli, Option.map_some] at hget
  obtain ⟨lc, hlc, e⟩ := Option.map_eq_some_iff.1 hget.symm
  simp only [Prod.mk.injEq] at e
  have key := fk_parents w f1 hrep hpars (fun i f => ∀ n, links[i]? = some n → ∃ F, At zyx doc n F ∧ Put rot doc n F f) ?_ ?_ i lc hlc n hn
  · obtain ⟨F, hF, hG⟩ := key
    obtain ⟨l0, l1, a1, a2, a3⟩ := state_at hd ho ha hr hl h0 h1 hn hF hG
    have hi : i < pars.length := by rw [hd.size]; exact (List.getElem?_eq_some_iff.1 hn).1
    obtain ⟨l1', l', b1, b2, b3, b4, b5⟩ := hlink i hi
    rw [a2] at b1
    cases b1
    have hmp : lc.body.mp = l'.body.mp := by
      have := congrArg (fun l => l[i]?) (updateFK_map (fun l : Roki.Link K => l.body.mp) (fun _ _ => rfl) f1).1
      simp only [List.getElem?_map, hlc, b2, Option.map_some, Option.some.injEq] at this
      exact this
    obtain ⟨path, hpa⟩ := hpath i (by rw [hlen]; exact hi)
    obtain ⟨-, -, hwc⟩ := hall path i lc hpa hlc
    refine ⟨s0, s, F, _, l0, l1, h0, h1, hF, hG, e.1.symm, ?_, a1, a2, ?_, ?_⟩
    · rw [← e.2.2, hwc, e.2.1]
    · rcases a3 with ⟨x1, x2, -, x4⟩ | ⟨e, p, np, x, Fp, Gp, x1, x2, x3, x4, x5, x6, x7, x8, x9, x10⟩
      · exact .inl ⟨x1, x2, x4⟩
      · exact .inr ⟨e, np, Fp, Gp, x1, x2, x3, x6, x7, by rw [← x9]; exact x10⟩
    · rw [← e.2.1, hmp, b5]
  · intro i l' hp hl' n hn
    have hi : i < pars.length := (List.getElem?_eq_some_iff.1 hp).1
    obtain ⟨F, hF⟩ := at_exists hd zyx hr (hl i hi) n hn
    obtain ⟨G, hG⟩ := put_exists hd rot n F
    obtain ⟨l0, l1, a1, a2, a3⟩ := state_at hd ho ha hr hl h0 h1 hn hF hG
    obtain ⟨l1', l'', b1, b2, b3, b4, b5⟩ := hlink i hi
    rw [a2] at b1
    cases b1
    rw [hl'] at b2
    cases b2
    rcases a3 with ⟨-, x2, x3, -⟩ | ⟨e, p, np, x, Fp, Gp, x1, x2, x3, x4, -⟩
    · refine ⟨Frame.ident, .root n x2, .inr ⟨fun e he hn => absurd hn (x2 e he), ?_⟩⟩
      rw [x3] at b4
      rw [linkFrame, b3, Frame.cascade_ident, b4, orgOf]
      change (⟨if _ then 0 else 0, if _ then 1 else 1⟩ : Frame K) = _
      rw [ite_self, ite_self]
      rfl
    · rw [hp] at x4
      cases x4
  · intro i p l' fp hp hl' hP n hn
    have hi : i < pars.length := (List.getElem?_eq_some_iff.1 hp).1
    obtain ⟨F, hF⟩ := at_exists hd zyx hr (hl i hi) n hn
    obtain ⟨G, hG⟩ := put_exists hd rot n F
    obtain ⟨l0, l1, a1, a2, a3⟩ := state_at hd ho ha hr hl h0 h1 hn hF hG
    obtain ⟨l1', l'', b1, b2, b3, b4, b5⟩ := hlink i hi
    rw [a2] at b1
    cases b1
    rw [hl'] at b2
    cases b2
    rcases a3 with ⟨x1, -⟩ | ⟨e, p', np, x, Fp, Gp, x1, x2, x3, x4, x5, x6, x7, x8, x9, -⟩
    · rw [hp] at x1
      cases x1
    · rw [hp] at x4
      cases x4
      obtain ⟨Fp', y1, y2⟩ := hP np x5
      obtain rfl := at_unique hd x6 y1
      obtain rfl := put_unique hd x7 y2
      refine ⟨F, hF, ?_⟩
      have hc := hcr e x1 np n Fp Gp F G x3 x2 x6 x7 hF hG
      rw [x8] at b4
      simp only [orgOf, x9] at b4
      rw [crisp_clean hc] at b4
      rw [linkFrame, b3, Frame.cascade_ident, b4, Frame.cascade_xformF (put_rot hrot (at_rot hzyx x6) x7)]
      exact hG

/-- **C97.**  Take a URDF document that describes a robot, as in C85, in which the origins and axes that are given consist of three
numbers, and let `urdf2ztk` write a file for it.  In the chain that is read from this file, with all joints at zero, the frame of
every link has the origin that the document says: the product of the origins of the joints from the root to the link.  Its
attitude is the one of the document, too, if its joint has no axis; if it has one, it is turned by the rotation for this axis,
multiplied from the left.

What is missing: the rotation should be multiplied from the right, as the axis is given in the frame of the joint, see `C97_axis_fails`;
and numbers that are not zero but small enough to be left out of the file. -/
theorem C97_placed_partial (o : Order) (noname : String) (g : Vec6 K) (rot : Vec3 K → Mat3 K) (zyx : K → K → K → Mat3 K)
    (doc : Elem K) (links : List String) (pars : List (Option ℕ)) (f : File K) (hf : urdf2ztk rot zyx doc = some f)
    (hd : Describes doc links pars) (hnum : ∀ e ∈ elems doc "joint", Numbers e) (hshaped : ∀ e ∈ elems doc "link", Shaped e)
    (hno : noname ∉ links) (hr : pars[0]? = some none) (hl : ∀ k < pars.length, LeadsToRoot pars k)
    (ho : ∀ e ∈ elems doc "joint", OriginOk e) (ha : ∀ e ∈ elems doc "joint", AxisOk e)
    (hrot : ∀ a, (rot a).IsRot) (hzyx : ∀ a b c, (zyx a b c).IsRot) (hcr : AllCrisp rot zyx doc) :
    ∃ r c, ZTK.read o noname g f = some (some (r, c)) ∧ Built doc links pars r ∧ c.link.length = links.length ∧
      ∀ (i : ℕ) (l : Roki.Link K) (n : String), c.link[i]? = some l → links[i]? = some n →
        ∃ F, At zyx doc n F ∧ Put rot doc n F l.body.frame ∧ l.body.frame.pos = F.pos := by
  obtain ⟨r, c, h1, h2, -⟩ := C85_converted_partial o noname g rot zyx doc links pars f hf hd hnum hshaped hno hr hl
  obtain ⟨r', c', c0, c1, s0, s, h, e1, -, -, w, f1, -, -, hlen, hmap, -⟩ := read_links o noname g hf hd hnum hshaped hno hr hl
  rw [h1] at e1
  simp only [Option.some.injEq, Prod.mk.injEq] at e1
  obtain ⟨rfl, rfl⟩ := e1
  refine ⟨r, c, h1, h2, ?_, ?_⟩
  · have e1 := congrArg List.length hmap
    rw [List.length_map, List.length_map, (w.updateFK f1).choose_spec.2.2.2.2.1, hlen, hd.size] at e1
    exact e1
  · intro i l n hli hn
    obtain ⟨-, -, F, G, -, -, -, -, hF, hG, rfl, -⟩ := placed o noname g hf hd hnum hshaped hno hr hl ho ha hrot hzyx hcr h1 hli hn
    refine ⟨F, hF, hG, ?_⟩
    rcases hG with ⟨e, -, -, -, h⟩ | ⟨-, h⟩ <;> rw [h]

/-- C97, axis: the z axis of the link of a joint with an axis is along this axis, as the document says, if the frame of the link is
not turned against that of the root. -/
theorem C97_axis_partial (o : Order) (noname : String) (g : Vec6 K) (rot : Vec3 K → Mat3 K) (zyx : K → K → K → Mat3 K)
    (doc : Elem K) (links : List String) (pars : List (Option ℕ)) (f : File K) (hf : urdf2ztk rot zyx doc = some f)
    (hd : Describes doc links pars) (hnum : ∀ e ∈ elems doc "joint", Numbers e) (hshaped : ∀ e ∈ elems doc "link", Shaped e)
    (hno : noname ∉ links) (hr : pars[0]? = some none) (hl : ∀ k < pars.length, LeadsToRoot pars k)
    (ho : ∀ e ∈ elems doc "joint", OriginOk e) (ha : ∀ e ∈ elems doc "joint", AxisOk e)
    (hrot : ∀ a, (rot a).IsRot) (hzyx : ∀ a b c, (zyx a b c).IsRot) (hcr : AllCrisp rot zyx doc)
    (halign : ∀ a : Vec3 K, a.x ≠ 0 ∨ a.y ≠ 0 ∨ 0 < a.z → ∃ k : K, 0 < k ∧ a = k • (rot a).cz) (r : Robot K) (c : Chain K)
    (hread : ZTK.read o noname g f = some (some (r, c))) (i : ℕ) (l : Roki.Link K) (n : String) (hli : c.link[i]? = some l)
    (hn : links[i]? = some n) (e : Elem K) (he : e ∈ elems doc "joint") (hc : Names e "child" n) (ht : Turns e)
    (hax : (axisOf e).x ≠ 0 ∨ (axisOf e).y ≠ 0 ∨ 0 < (axisOf e).z) (F : Frame K) (hF : At zyx doc n F) (h1 : F.att = 1) :
    ∃ k : K, 0 < k ∧ F.att.mulVec (axisOf e) = k • l.body.frame.att.cz := by
  obtain ⟨-, -, F', G, -, -, -, -, hF', hG, rfl, -⟩ := placed o noname g hf hd hnum hshaped hno hr hl ho ha hrot hzyx hcr hread hli hn
  obtain rfl := at_unique hd hF hF'
  rw [put_unique hd hG (.inl ⟨e, he, hc, ht, rfl⟩), h1]
  obtain ⟨k, hk, hk'⟩ := halign _ hax
  refine ⟨k, hk, ?_⟩
  simpa using hk'

/-- C97, mass properties: take a link with mass properties in the document, whose joint, if it has one, has no axis.  The centre of
mass of the link is where the document says.  If moreover its parent is not turned against the root, the inertia tensor is the one of the document, seen
from the root.  Missing: the other links, see `C97_com_fails` and `C97_inertia_fails`. -/
theorem C97_mass_partial (o : Order) (noname : String) (g : Vec6 K) (rot : Vec3 K → Mat3 K) (zyx : K → K → K → Mat3 K)
    (doc : Elem K) (links : List String) (pars : List (Option ℕ)) (f : File K) (hf : urdf2ztk rot zyx doc = some f)
    (hd : Describes doc links pars) (hnum : ∀ e ∈ elems doc "joint", Numbers e) (hshaped : ∀ e ∈ elems doc "link", Shaped e)
    (hno : noname ∉ links) (hr : pars[0]? = some none) (hl : ∀ k < pars.length, LeadsToRoot pars k)
    (ho : ∀ e ∈ elems doc "joint", OriginOk e) (ha : ∀ e ∈ elems doc "joint", AxisOk e)
    (hrot : ∀ a, (rot a).IsRot) (hzyx : ∀ a b c, (zyx a b c).IsRot) (hcr : AllCrisp rot zyx doc) (r : Robot K) (c : Chain K)
    (hread : ZTK.read o noname g f = some (some (r, c))) (i : ℕ) (l : Roki.Link K) (n : String) (hli : c.link[i]? = some l)
    (hn : links[i]? = some n) (e : Elem K) (he : (elems doc "link")[i]? = some e) (m : MP K) (hm : IsMass zyx e m) (hm0 : m.mass ≠ 0)
    (hcom : ∀ a ∈ [m.com.x, m.com.y, m.com.z], Zm.tiny a = true → a = 0)
    (hfix : ∀ e ∈ elems doc "joint", Names e "child" n → ¬ Turns e) :
    ∃ F, At zyx doc n F ∧ l.body.frame = F ∧ l.body.mp.mass = m.mass ∧ l.body.mp.com = m.com ∧ l.body.wldCOM = F.xform m.com ∧
      ((∀ e ∈ elems doc "joint", Names e "child" n → ∀ np fp gp, Names e "parent" np → At zyx doc np fp → Put rot doc np fp gp →
          gp.att = 1) → l.body.frame.att.rot l.body.mp.inertia = F.att.rot m.inertia) := by
  obtain ⟨s0, s, F, G, l0, l1, h0, h1, hF, hG, hfr, hw, a1, a2, a3, hmp⟩ :=
    placed o noname g hf hd hnum hshaped hno hr hl ho ha hrot hzyx hcr hread hli hn
  obtain rfl : G = F := put_unique hd hG (.inr ⟨hfix, rfl⟩)
  obtain ⟨e', l0', b1, b2, b3, -⟩ := eval_loads h0 a1
  rw [he] at b1
  cases b1
  have hm' : l0.mp = m := by rw [b3, linkOf_mass b2 hm]
  have hmass : l1.mp.mass = m.mass ∧ l1.mp.com = m.com := by
    rcases a3 with ⟨-, -, rfl⟩ | ⟨_, _, Fp, Gp, -, -, -, -, -, rfl⟩
    · rw [hm']; exact ⟨rfl, rfl⟩
    · rw [← hm']; exact ⟨rfl, rfl⟩
  have hcom' : (if tinyVec m.com then 0 else m.com) = m.com := by
    split_ifs with ht
    · simp only [List.mem_cons, List.not_mem_nil, or_false, forall_eq_or_imp, forall_eq] at hcom
      simp only [tinyVec, Bool.and_eq_true] at ht
      ext1
      · exact (hcom.1 ht.1.1).symm
      · exact (hcom.2.1 ht.1.2).symm
      · exact (hcom.2.2 ht.2).symm
    · rfl
  rw [hmass.1, hmass.2, if_neg hm0, if_neg hm0, hcom'] at hmp
  refine ⟨G, hF, hfr, by rw [hmp], by rw [hmp], by rw [hw, hmp], ?_⟩
  intro hp
  rw [hmp, hfr]
  change G.att.rot l1.mp.inertia = _
  rcases a3 with ⟨-, -, rfl⟩ | ⟨e1, np, Fp, Gp, x1, x2, x3, x4, x5, rfl⟩
  · rw [hm']
  · have h1 := hp e1 x1 x2 np Fp Gp x3 x4 x5
    have hR := at_rot hzyx hF
    have e2 : (link2 (Gp.xformF G) G (link1 G l0)).mp.inertia = (Gp.xformF G).att.rotInv (G.att.rot m.inertia) := by rw [← hm']; rfl
    have e3 : (Gp.xformF G).att = G.att := by
      have := congrArg Frame.att (Frame.cascade_xformF (f := Gp) (by rw [h1]; exact Mat3.isRot_one) G)
      simpa [Frame.cascade, h1] using this
    rw [e2, e3, Mat3.rot_rotInv hR]

end

/-- C97, shapes: the shapes of a link are where the document says, in the state of which `urdf2ztk` writes the file. -/
theorem C97_shapes (rot : Vec3 K → Mat3 K) (zyx : K → K → K → Mat3 K)
    (doc : Elem K) (links : List String) (pars : List (Option ℕ)) (s0 s : Info K) (h0 : eval zyx doc = some s0)
    (h1 : correctFrame rot s0 = some s) (hd : Describes doc links pars) (hr : pars[0]? = some none)
    (hl : ∀ k < pars.length, LeadsToRoot pars k)
    (ho : ∀ e ∈ elems doc "joint", OriginOk e) (ha : ∀ e ∈ elems doc "joint", AxisOk e)
    (hrot : ∀ a, (rot a).IsRot) (hzyx : ∀ a b c, (zyx a b c).IsRot) (i : ℕ) (n : String) (hn : links[i]? = some n) (e : Elem K)
    (he : (elems doc "link")[i]? = some e) (hv : ∀ v ∈ elems e "visual", OriginOk v) (F G : Frame K) (hF : At zyx doc n F)
    (hG : Put rot doc n F G) :
    ∃ l, s.link[i]? = some l ∧ l.shapes.map (fun p => G.cascade p.fl) = (elems e "visual").map fun v => F.cascade (origin zyx v) := by
  obtain ⟨l0, l, a1, a2, a3⟩ := state_at hd ho ha hr hl h0 h1 hn hF hG
  obtain ⟨e', l0', b1, b2, -, b4⟩ := eval_loads h0 a1
  rw [he] at b1
  cases b1
  have hs := linkOf_shapes b2 hv
  rw [← b4] at hs
  have hs : l0.shapes.map (fun p => F.cascade p.fl) = (elems e "visual").map fun v => F.cascade (origin zyx v) := by
    have := congrArg (List.map fun f => F.cascade f) hs
    rw [List.map_map, List.map_map] at this
    exact this
  refine ⟨l, a2, ?_⟩
  rcases a3 with ⟨-, x2, -, rfl⟩ | ⟨_, _, _, x, Fp, Gp, -, -, -, -, -, -, -, -, -, rfl⟩
  · rw [← hs, put_unique hd hG (.inr ⟨fun e he h => absurd h (x2 e he), rfl⟩)]
  · rw [← hs]
    simp only [link2, link1, List.map_map]
    refine List.map_congr_left fun p _ => ?_
    exact Frame.cascade_xformF (put_rot hrot (at_rot hzyx hF) hG) _

/-! ## A document -/

/-- A joint with an origin. -/
def placeJoint (name type parent child : String) (xyz rpy axis : List (Tok ℚ)) : Elem ℚ :=
  xmlJoint name type parent child [.mk "origin" [("xyz", xyz), ("rpy", rpy)] [], .mk "axis" [("xyz", axis)] []]

/-- A link with mass properties. -/
def placeLink (name : String) : Elem ℚ :=
  xml "link" name [.mk "inertial" [] [.mk "origin" [("xyz", [.num 0, .num 0, .num 1])] [], .mk "mass" [("value", [.num 3])] [],
    .mk "inertia" [("ixx", [.num 1]), ("iyy", [.num 2]), ("izz", [.num 2])] []]]

def turned : Elem ℚ := placeJoint "turned" "fixed" "base" "a" [.num 0, .num 0, .num 1] [.num 0, .num 0, .num 1] [.num 1, .num 0, .num 0]
def hinge : Elem ℚ := placeJoint "hinge" "revolute" "a" "b" [.num 1, .num 0, .num 0] [.num 0, .num 0, .num 0] [.num 1, .num 0, .num 0]
def plate : Elem ℚ := placeJoint "plate" "fixed" "a" "c" [.num 1, .num 0, .num 0] [.num 0, .num 0, .num 0] [.num 1, .num 0, .num 0]
def slide : Elem ℚ := placeJoint "slide" "prismatic" "base" "d" [.num 0, .num 2, .num 0] [.num 0, .num 0, .num 0] [.num 1, .num 0, .num 0]

/-- A base with the links `a`, which is turned, and `d`, and with `b` and `c` attached to `a`. -/
def placeDoc : Elem ℚ :=
  xml "robot" "places" [placeLink "base", placeLink "a", placeLink "b", placeLink "c", placeLink "d", turned, hinge, plate, slide]

def placeLinks : List String := ["base", "a", "b", "c", "d"]
def placePars : List (Option ℕ) := [none, some 0, some 1, some 1, some 0]

/-- The rotations for the angles of the document: a yaw angle of `1` stands for a quarter turn. -/
def placeZyx (y _ _ : ℚ) : Mat3 ℚ := if y = 1 then Urdf.quarter else 1

/-- The file for this document. -/
noncomputable def placeFile : File ℚ := (urdf2ztk Urdf.turn placeZyx placeDoc).getD []

theorem placeFile_eq : urdf2ztk Urdf.turn placeZyx placeDoc = some placeFile := by
  have h : (urdf2ztk Urdf.turn placeZyx placeDoc).isSome = true := by decide +kernel
  obtain ⟨f, hf⟩ := Option.isSome_iff_exists.1 h
  rw [placeFile, hf, Option.getD_some]

theorem placeJoint_names {name type a b n : String} {xyz rpy axis : List (Tok ℚ)} :
    (Names (placeJoint name type a b xyz rpy axis) "parent" n ↔ a = n) ∧ (Names (placeJoint name type a b xyz rpy axis) "child" n ↔ b = n) :=
  xmlJoint_names (by simp [Elem.tag])

theorem place_joints : elems placeDoc "joint" = [turned, hinge, plate, slide] := rfl

theorem placeDoc_describes : Describes placeDoc placeLinks placePars := by
  have hj := place_joints
  refine ⟨⟨"places", rfl⟩, rfl, by decide, ?_, ?_, rfl, ?_, ?_⟩
  · rw [hj]
    intro e he
    simp only [List.mem_cons, List.not_mem_nil, or_false] at he
    rcases he with rfl | rfl | rfl | rfl
    · exact ⟨⟨"fixed", rfl⟩, "base", "a", placeJoint_names.1.2 rfl, placeJoint_names.2.2 rfl, by decide, by decide⟩
    · exact ⟨⟨"revolute", rfl⟩, "a", "b", placeJoint_names.1.2 rfl, placeJoint_names.2.2 rfl, by decide, by decide⟩
    · exact ⟨⟨"fixed", rfl⟩, "a", "c", placeJoint_names.1.2 rfl, placeJoint_names.2.2 rfl, by decide, by decide⟩
    · exact ⟨⟨"prismatic", rfl⟩, "base", "d", placeJoint_names.1.2 rfl, placeJoint_names.2.2 rfl, by decide, by decide⟩
  · rw [hj]
    simp only [List.pairwise_cons, List.mem_cons, List.not_mem_nil, or_false, forall_eq_or_imp, forall_eq, List.Pairwise.nil, and_true,
      turned, hinge, plate, slide, placeJoint_names, false_imp_iff, implies_true, forall_eq']
    decide
  · have hlt : ∀ (k : ℕ) (m : String), placeLinks[k]? = some m → k < 5 := by
      intro k m h
      exact (List.getElem?_eq_some_iff.1 h).1
    intro i p ni np hi hp
    have h1 := hlt _ _ hi
    have h2 := hlt _ _ hp
    simp only [hj, List.mem_cons, List.not_mem_nil, or_false, exists_eq_or_imp, exists_eq_left, turned, hinge, plate, slide, placeJoint_names]
    interval_cases i <;> interval_cases p <;> simp [placeLinks] at hi hp <;> subst hi hp <;> decide
  · intro i p h
    have h1 : i < 5 := (List.getElem?_eq_some_iff.1 h).1
    interval_cases i <;> simp [placePars] at h <;> subst h <;> decide

/-- The frames of the links as the document says. -/
theorem place_at : At placeZyx placeDoc "base" Frame.ident ∧ At placeZyx placeDoc "a" ⟨⟨0, 0, 1⟩, Urdf.quarter⟩ ∧
    At placeZyx placeDoc "b" ⟨⟨0, 1, 1⟩, Urdf.quarter⟩ ∧ At placeZyx placeDoc "c" ⟨⟨0, 1, 1⟩, Urdf.quarter⟩ ∧
    At placeZyx placeDoc "d" ⟨⟨0, 2, 0⟩, 1⟩ := by
  have h0 : At placeZyx placeDoc "base" Frame.ident := by
    refine .root _ ?_
    rw [place_joints]
    intro e he
    simp only [List.mem_cons, List.not_mem_nil, or_false] at he
    rcases he with rfl | rfl | rfl | rfl <;> exact fun h => absurd (placeJoint_names.2.1 h) (by decide)
  have step : ∀ {e : Elem ℚ} {np n : String} {f g : Frame ℚ}, e ∈ elems placeDoc "joint" → Names e "parent" np → Names e "child" n →
      At placeZyx placeDoc np f → f.cascade (origin placeZyx e) = g → At placeZyx placeDoc n g := by
    rintro e np n f g h1 h2 h3 h4 rfl
    exact .joint e np n f h1 h2 h3 h4
  have m := place_joints
  have h1 := step (e := turned) (g := ⟨⟨0, 0, 1⟩, Urdf.quarter⟩) (by rw [m]; simp) (placeJoint_names.1.2 rfl) (placeJoint_names.2.2 rfl) h0 (by decide +kernel)
  exact ⟨h0, h1, step (e := hinge) (by rw [m]; simp) (placeJoint_names.1.2 rfl) (placeJoint_names.2.2 rfl) h1 (by decide +kernel),
    step (e := plate) (by rw [m]; simp) (placeJoint_names.1.2 rfl) (placeJoint_names.2.2 rfl) h1 (by decide +kernel),
    step (e := slide) (by rw [m]; simp) (placeJoint_names.1.2 rfl) (placeJoint_names.2.2 rfl) h0 (by decide +kernel)⟩

/-- The frames that the program gives to the links. -/
theorem place_put : Put Urdf.turn placeDoc "base" Frame.ident Frame.ident ∧
    Put Urdf.turn placeDoc "a" ⟨⟨0, 0, 1⟩, Urdf.quarter⟩ ⟨⟨0, 0, 1⟩, Urdf.quarter⟩ ∧
    Put Urdf.turn placeDoc "b" ⟨⟨0, 1, 1⟩, Urdf.quarter⟩ ⟨⟨0, 1, 1⟩, ⟨⟨0, 1, 0⟩, ⟨0, 0, 1⟩, ⟨1, 0, 0⟩⟩⟩ ∧
    Put Urdf.turn placeDoc "c" ⟨⟨0, 1, 1⟩, Urdf.quarter⟩ ⟨⟨0, 1, 1⟩, Urdf.quarter⟩ ∧
    Put Urdf.turn placeDoc "d" ⟨⟨0, 2, 0⟩, 1⟩ ⟨⟨0, 2, 0⟩, ⟨⟨0, 0, -1⟩, ⟨0, 1, 0⟩, ⟨1, 0, 0⟩⟩⟩ := by
  have m := place_joints
  have fix : ∀ {name parent child : String} {xyz rpy axis : List (Tok ℚ)}, ¬ Turns (placeJoint name "fixed" parent child xyz rpy axis) := by
    rintro name parent child xyz rpy axis ⟨t, h1, h2⟩
    have : t = "fixed" := by
      have h : some [Tok.str "fixed"] = some [Tok.str t] := h1
      simpa using h.symm
    subst this
    exact absurd h2 (by decide)
  have no : ∀ n : String, n = "base" ∨ n = "a" ∨ n = "c" → ∀ e ∈ elems placeDoc "joint", Names e "child" n → ¬ Turns e := by
    rw [m]
    intro n hn e he hc
    simp only [List.mem_cons, List.not_mem_nil, or_false] at he
    rcases he with rfl | rfl | rfl | rfl
    · exact fix
    · have := placeJoint_names.2.1 hc
      subst this
      exact absurd hn (by decide)
    · exact fix
    · have := placeJoint_names.2.1 hc
      subst this
      exact absurd hn (by decide)
  refine ⟨.inr ⟨no _ (.inl rfl), rfl⟩, .inr ⟨no _ (.inr (.inl rfl)), rfl⟩, .inl ⟨hinge, by rw [m]; simp, placeJoint_names.2.2 rfl,
    ⟨"revolute", rfl, .inl rfl⟩, ?_⟩, .inr ⟨no _ (.inr (.inr rfl)), rfl⟩, .inl ⟨slide, by rw [m]; simp, placeJoint_names.2.2 rfl,
    ⟨"prismatic", rfl, .inr (.inr rfl)⟩, ?_⟩⟩ <;> decide +kernel

/-- The hypotheses of the theorems above hold for this document. -/
theorem placeDoc_ok : Describes placeDoc placeLinks placePars ∧ (∀ e ∈ elems placeDoc "joint", Numbers e) ∧
    (∀ e ∈ elems placeDoc "link", Shaped e) ∧ "noname" ∉ placeLinks ∧ placePars[0]? = some none ∧
    (∀ k < placePars.length, LeadsToRoot placePars k) ∧ (∀ e ∈ elems placeDoc "joint", OriginOk e) ∧
    (∀ e ∈ elems placeDoc "joint", AxisOk e) ∧ (∀ a, (Urdf.turn a).IsRot) ∧ (∀ a b c, (placeZyx a b c).IsRot) ∧
    AllCrisp Urdf.turn placeZyx placeDoc := by
  have hd := placeDoc_describes
  refine ⟨hd, ?_, ?_, by decide, rfl, ?_, ?_, ?_, Urdf.turn_rot, ?_, ?_⟩
  · intro e he
    rw [place_joints] at he
    have hs : ∀ (v : Option (List (Tok ℚ))), isNumB v = true → IsNum v := by
      rintro v hv ts rfl
      match ts, hv with
      | .num x :: r, _ => exact ⟨x, r, rfl⟩
    simp only [List.mem_cons, List.not_mem_nil, or_false] at he
    rcases he with rfl | rfl | rfl | rfl <;>
      exact ⟨hs _ (by decide +kernel), hs _ (by decide +kernel), hs _ (by decide +kernel), hs _ (by decide +kernel)⟩
  · intro e he v hv
    have : elems placeDoc "link" = [placeLink "base", placeLink "a", placeLink "b", placeLink "c", placeLink "d"] := rfl
    rw [this] at he
    simp only [List.mem_cons, List.not_mem_nil, or_false] at he
    rcases he with rfl | rfl | rfl | rfl | rfl <;> cases hv
  · have h1 : LeadsToRoot placePars 1 := .step (p := 0) rfl .root
    intro k hk
    match k, hk with
    | 0, _ => exact .root
    | 1, _ => exact h1
    | 2, _ => exact .step (p := 1) rfl h1
    | 3, _ => exact .step (p := 1) rfl h1
    | 4, _ => exact .step (p := 0) rfl .root
  · have key : ∀ {name type parent child : String} {x y z a b c : ℚ} {axis : List (Tok ℚ)},
        OriginOk (placeJoint name type parent child [.num x, .num y, .num z] [.num a, .num b, .num c] axis) := by
      intro name type parent child x y z a b c axis n hn
      have : n = .mk "origin" [("xyz", [.num x, .num y, .num z]), ("rpy", [.num a, .num b, .num c])] [] := List.mem_singleton.1 hn
      subst this
      intro q hq _
      simp only [Elem.attrs, List.mem_cons, List.not_mem_nil, or_false] at hq
      rcases hq with rfl | rfl
      · exact ⟨_, rfl⟩
      · exact ⟨_, rfl⟩
    intro e he
    rw [place_joints] at he
    simp only [List.mem_cons, List.not_mem_nil, or_false] at he
    rcases he with rfl | rfl | rfl | rfl <;> exact key
  · have key : ∀ {name type parent child : String} {x y z : ℚ} {xyz rpy : List (Tok ℚ)},
        AxisOk (placeJoint name type parent child xyz rpy [.num x, .num y, .num z]) := by
      intro name type parent child x y z xyz rpy n hn
      have : n = .mk "axis" [("xyz", [.num x, .num y, .num z])] [] := List.mem_singleton.1 hn
      subst this
      intro q hq
      have h : some [Tok.num x, .num y, .num z] = some q := hq
      cases h
      exact ⟨_, rfl⟩
    intro e he
    rw [place_joints] at he
    simp only [List.mem_cons, List.not_mem_nil, or_false] at he
    rcases he with rfl | rfl | rfl | rfl <;> exact key
  · intro a b c
    rw [placeZyx]
    split_ifs
    · exact Urdf.quarter_rot
    · exact Mat3.isRot_one
  · obtain ⟨a0, a1, a2, a3, a4⟩ := place_at
    obtain ⟨p0, p1, p2, p3, p4⟩ := place_put
    intro e he np n fp gp f g hnp hn hfp hgp hf hg
    rw [place_joints] at he
    simp only [List.mem_cons, List.not_mem_nil, or_false] at he
    rcases he with rfl | rfl | rfl | rfl
    · obtain rfl := placeJoint_names.1.1 hnp
      obtain rfl := placeJoint_names.2.1 hn
      obtain rfl := at_unique hd a0 hfp
      obtain rfl := put_unique hd p0 hgp
      obtain rfl := at_unique hd a1 hf
      obtain rfl := put_unique hd p1 hg
      unfold Crisp
      decide +kernel
    · obtain rfl := placeJoint_names.1.1 hnp
      obtain rfl := placeJoint_names.2.1 hn
      obtain rfl := at_unique hd a1 hfp
      obtain rfl := put_unique hd p1 hgp
      obtain rfl := at_unique hd a2 hf
      obtain rfl := put_unique hd p2 hg
      unfold Crisp
      decide +kernel
    · obtain rfl := placeJoint_names.1.1 hnp
      obtain rfl := placeJoint_names.2.1 hn
      obtain rfl := at_unique hd a1 hfp
      obtain rfl := put_unique hd p1 hgp
      obtain rfl := at_unique hd a3 hf
      obtain rfl := put_unique hd p3 hg
      unfold Crisp
      decide +kernel
    · obtain rfl := placeJoint_names.1.1 hnp
      obtain rfl := placeJoint_names.2.1 hn
      obtain rfl := at_unique hd a0 hfp
      obtain rfl := put_unique hd p0 hgp
      obtain rfl := at_unique hd a4 hf
      obtain rfl := put_unique hd p4 hg
      unfold Crisp
      decide +kernel

/-- What is read for the links. -/
theorem place_read : ∃ r c, ZTK.read .file "noname" 0 placeFile = some (some (r, c)) ∧
    (c.link.map fun l => (l.body.frame.pos, l.body.frame.att.cz, l.body.wldCOM, l.body.frame.att.rot l.body.mp.inertia)) =
      [(0, ⟨0, 0, 1⟩, ⟨0, 0, 1⟩, ⟨⟨1, 0, 0⟩, ⟨0, 2, 0⟩, ⟨0, 0, 2⟩⟩), (⟨0, 0, 1⟩, ⟨0, 0, 1⟩, ⟨0, 0, 2⟩, ⟨⟨2, 0, 0⟩, ⟨0, 1, 0⟩, ⟨0, 0, 2⟩⟩),
        (⟨0, 1, 1⟩, ⟨1, 0, 0⟩, ⟨1, 1, 1⟩, ⟨⟨1, 0, 0⟩, ⟨0, 2, 0⟩, ⟨0, 0, 2⟩⟩), (⟨0, 1, 1⟩, ⟨0, 0, 1⟩, ⟨0, 1, 2⟩, ⟨⟨1, 0, 0⟩, ⟨0, 2, 0⟩, ⟨0, 0, 2⟩⟩),
        (⟨0, 2, 0⟩, ⟨1, 0, 0⟩, ⟨1, 2, 0⟩, ⟨⟨1, 0, 0⟩, ⟨0, 2, 0⟩, ⟨0, 0, 2⟩⟩)] := by
  have h : ((ZTK.read .file "noname" 0 placeFile).bind fun r => r.map fun r =>
      r.2.link.map fun l => (l.body.frame.pos, l.body.frame.att.cz, l.body.wldCOM, l.body.frame.att.rot l.body.mp.inertia)) = some
      [(0, ⟨0, 0, 1⟩, ⟨0, 0, 1⟩, ⟨⟨1, 0, 0⟩, ⟨0, 2, 0⟩, ⟨0, 0, 2⟩⟩), (⟨0, 0, 1⟩, ⟨0, 0, 1⟩, ⟨0, 0, 2⟩, ⟨⟨2, 0, 0⟩, ⟨0, 1, 0⟩, ⟨0, 0, 2⟩⟩),
        (⟨0, 1, 1⟩, ⟨1, 0, 0⟩, ⟨1, 1, 1⟩, ⟨⟨1, 0, 0⟩, ⟨0, 2, 0⟩, ⟨0, 0, 2⟩⟩), (⟨0, 1, 1⟩, ⟨0, 0, 1⟩, ⟨0, 1, 2⟩, ⟨⟨1, 0, 0⟩, ⟨0, 2, 0⟩, ⟨0, 0, 2⟩⟩),
        (⟨0, 2, 0⟩, ⟨1, 0, 0⟩, ⟨1, 2, 0⟩, ⟨⟨1, 0, 0⟩, ⟨0, 2, 0⟩, ⟨0, 0, 2⟩⟩)] := by decide +kernel
  obtain ⟨o, h1, h2⟩ := Option.bind_eq_some_iff.1 h
  obtain ⟨⟨r, c⟩, rfl, h3⟩ := Option.map_eq_some_iff.1 h2
  exact ⟨r, c, h1, h3⟩

/-- The theorem applies to this document. -/
example : ∃ r c, ZTK.read .file "noname" 0 placeFile = some (some (r, c)) ∧ Built placeDoc placeLinks placePars r ∧
    c.link.length = placeLinks.length ∧ ∀ (i : ℕ) (l : Roki.Link ℚ) (n : String), c.link[i]? = some l → placeLinks[i]? = some n →
      ∃ F, At placeZyx placeDoc n F ∧ Put Urdf.turn placeDoc n F l.body.frame ∧ l.body.frame.pos = F.pos := by
  obtain ⟨h1, h2, h3, h4, h5, h6, h7, h8, h9, h10, h11⟩ := placeDoc_ok
  exact C97_placed_partial .file "noname" 0 _ _ placeDoc placeLinks placePars placeFile placeFile_eq h1 h2 h3 h4 h5 h6 h7 h8 h9 h10 h11

/-- The mass properties of a link of this document. -/
theorem place_mass (name : String) : IsMass placeZyx (placeLink name) ⟨3, ⟨0, 0, 1⟩, ⟨⟨1, 0, 0⟩, ⟨0, 2, 0⟩, ⟨0, 0, 2⟩⟩⟩ := by
  refine ⟨_, _, _, 3, rfl, ?_, rfl, rfl, rfl, by decide +kernel⟩
  intro n hn
  have : n = .mk "origin" [("xyz", [.num 0, .num 0, .num 1])] [] := List.mem_singleton.1 hn
  subst this
  intro q hq _
  simp only [Elem.attrs, List.mem_cons, List.not_mem_nil, or_false] at hq
  subst hq
  exact ⟨_, rfl⟩

/-- The theorem on the mass properties applies to the link `a`. -/
example : ∃ r c l F, ZTK.read .file "noname" 0 placeFile = some (some (r, c)) ∧ c.link[1]? = some l ∧ At placeZyx placeDoc "a" F ∧
    l.body.wldCOM = F.xform ⟨0, 0, 1⟩ ∧ l.body.frame.att.rot l.body.mp.inertia = F.att.rot ⟨⟨1, 0, 0⟩, ⟨0, 2, 0⟩, ⟨0, 0, 2⟩⟩ := by
  obtain ⟨h1, h2, h3, h4, h5, h6, h7, h8, h9, h10, h11⟩ := placeDoc_ok
  obtain ⟨r, c, hr, hc, hlen, -⟩ := C97_placed_partial .file "noname" 0 _ _ placeDoc placeLinks placePars placeFile placeFile_eq h1 h2 h3 h4 h5 h6 h7 h8 h9 h10 h11
  obtain ⟨l, hl⟩ : ∃ l, c.link[1]? = some l := ⟨_, List.getElem?_eq_getElem (by rw [hlen]; decide)⟩
  have hno : ∀ e ∈ elems placeDoc "joint", Names e "child" "a" → e = turned := by
    intro e he hn
    exact same_joint h1 he (by rw [place_joints]; simp) hn (placeJoint_names.2.2 rfl)
  obtain ⟨F, hF, hf, -, -, hw, hi⟩ := C97_mass_partial .file "noname" 0 _ _ placeDoc placeLinks placePars placeFile placeFile_eq h1 h2 h3 h4 h5 h6 h7 h8 h9 h10 h11
    r c hr 1 l "a" hl rfl (placeLink "a") rfl _ (place_mass "a") (by decide) (by decide +kernel) (by
      intro e he hn
      rcases place_put.2.1 with ⟨e', he', hn', -, h⟩ | ⟨h, -⟩
      · exact absurd h (by rw [hno e' he' hn']; decide +kernel)
      · exact h e he hn)
  refine ⟨r, c, l, F, hr, hl, hF, hw, hi ?_⟩
  intro e he hn np fp gp hp hfp hgp
  obtain rfl := hno e he hn
  obtain rfl := placeJoint_names.1.1 hp
  obtain rfl := at_unique h1 place_at.1 hfp
  obtain rfl := put_unique h1 place_put.1 hgp
  rfl

/-! ## Failures -/

/-- C97 fails for the axis of a joint below a turned link: the document says that the joint turns about the y axis of the root, but it turns
about the x axis. -/
theorem C97_axis_fails : ∃ f r c l F, urdf2ztk Urdf.turn placeZyx placeDoc = some f ∧ ZTK.read .file "noname" 0 f = some (some (r, c)) ∧
    c.link[2]? = some l ∧ At placeZyx placeDoc "b" F ∧ (Urdf.turn (axisOf hinge)).cz = axisOf hinge ∧
    F.att.mulVec (axisOf hinge) = ⟨0, 1, 0⟩ ∧ l.body.frame.att.cz = ⟨1, 0, 0⟩ := by
  obtain ⟨r, c, h1, h2⟩ := place_read
  have h3 := congrArg (fun l => l[2]?) h2
  simp only [List.getElem?_map] at h3
  obtain ⟨l, hl, e⟩ := Option.map_eq_some_iff.1 h3
  simp only [Prod.mk.injEq] at e
  exact ⟨_, r, c, l, _, placeFile_eq, h1, hl, place_at.2.2.1, by decide +kernel, by decide +kernel, e.2.1⟩

/-- C97 fails for the centre of mass of a link whose joint has an axis other than z: it is not at `(0, 2, 1)` but at `(1, 2, 0)`. -/
theorem C97_com_fails : ∃ f r c l F m, urdf2ztk Urdf.turn placeZyx placeDoc = some f ∧ ZTK.read .file "noname" 0 f = some (some (r, c)) ∧
    c.link[4]? = some l ∧ At placeZyx placeDoc "d" F ∧ (elems placeDoc "link")[4]? = some (placeLink "d") ∧
    IsMass placeZyx (placeLink "d") m ∧ F.xform m.com = ⟨0, 2, 1⟩ ∧ l.body.wldCOM = ⟨1, 2, 0⟩ := by
  obtain ⟨r, c, h1, h2⟩ := place_read
  have h3 := congrArg (fun l => l[4]?) h2
  simp only [List.getElem?_map] at h3
  obtain ⟨l, hl, e⟩ := Option.map_eq_some_iff.1 h3
  simp only [Prod.mk.injEq] at e
  exact ⟨_, r, c, l, _, _, placeFile_eq, h1, hl, place_at.2.2.2.2, rfl, place_mass "d", by decide +kernel, e.2.2.1⟩

/-- C97 fails for the inertia tensor of a link below a turned link, even on a fixed joint. -/
theorem C97_inertia_fails : ∃ f r c l F m, urdf2ztk Urdf.turn placeZyx placeDoc = some f ∧ ZTK.read .file "noname" 0 f = some (some (r, c)) ∧
    c.link[3]? = some l ∧ At placeZyx placeDoc "c" F ∧ (elems placeDoc "link")[3]? = some (placeLink "c") ∧
    IsMass placeZyx (placeLink "c") m ∧ F.att.rot m.inertia = ⟨⟨2, 0, 0⟩, ⟨0, 1, 0⟩, ⟨0, 0, 2⟩⟩ ∧
    l.body.frame.att.rot l.body.mp.inertia = ⟨⟨1, 0, 0⟩, ⟨0, 2, 0⟩, ⟨0, 0, 2⟩⟩ := by
  obtain ⟨r, c, h1, h2⟩ := place_read
  have h3 := congrArg (fun l => l[3]?) h2
  simp only [List.getElem?_map] at h3
  obtain ⟨l, hl, e⟩ := Option.map_eq_some_iff.1 h3
  simp only [Prod.mk.injEq] at e
  exact ⟨_, r, c, l, _, _, placeFile_eq, h1, hl, place_at.2.2.2.1, rfl, place_mass "c", by decide +kernel, e.2.2.2⟩

end Roki
