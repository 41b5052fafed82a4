import Verif.Lemmas.ChainFile5
import Verif.Lemmas.ZmRat
set_option autoImplicit false

/-!
# C70: a chain written to a file and read back
-/

namespace Roki
open Spec.File Spec.Forest Spec ZTK
variable {K : Type*} [Field K] [LinearOrder K] [IsStrictOrderedRing K] [Zm K] [LawfulZm K]

/-- **C70.**  A chain that `rkChainFPrintZTK` writes to a file, with numbers written exactly, is read back by `rkChainReadZTK`:
names, motors, shapes, joint types, displacements, joint and mass properties, frames and parents are the same, velocities,
accelerations, forces and motor inputs are zero, and the pose of every link and the center of mass are those of the chain written.

What is missing: it holds for the robots of `Spec.File.Writable`.  Among its conditions, that there is a motor in the chain if a
joint may have one, that every link has a material, and that the displacements are within the limits, are not required by the
functions that make such chains; `C70_nomotor_fails` and `C70_material_fails` show what happens otherwise. -/
theorem C70_file_roundtrip_partial (o : Order) (noname : String) (nullStr : Option String) (g : Vec6 K) (r : Robot K) (t : LTree ℕ)
    (hw : Writable noname r t) :
    ∃ f r' c c0, print nullStr r = some f ∧ ZTK.read o noname g f = some (some (r', c)) ∧ SameRobot r r' ∧ c.WF ∧
      c.link.map params = (LinkArray.setOffset (r.link.map fun l => l.link)).map params ∧
      (r.chain t).updateFK = some c0 ∧ c.mass = c0.mass ∧ c.wldCOM = c0.wldCOM ∧
      c.link.map (fun l => (l.body.frame, l.body.wldCOM)) = c0.link.map (fun l => (l.body.frame, l.body.wldCOM)) := by
  obtain ⟨f, h, ct, h1, h2, h3, h4, h5, h6, h7⟩ := readParts_print o noname nullStr r t hw
  obtain ⟨c00, rfl⟩ := hw.root
  generalize hr' : ({ name := r.name, motors := restMotors r.motors, shapes := r.shapes, link := r.link.map (finLink noname),
                      node := h } : Robot K) = r' at h3
  have hlen : ∀ (q : Robot K) t', (q.chain t').link.length = q.link.length := by
    intro q t'
    simp [Robot.chain, LinkArray.setOffset, LinkArray.setOffsetFrom_length]
  have w0 : (r.chain (.node 0 c00 .nil)).WF := ⟨⟨c00, rfl⟩, by rw [hlen]; exact hw.all⟩
  have w1 : (r'.chain (.node 0 ct .nil)).WF := ⟨⟨ct, rfl⟩, by
    rw [hlen, ← hr', List.length_map]
    exact h7⟩
  obtain ⟨c0, e0, -⟩ := C06_fk_composition _ w0
  obtain ⟨c1, e1, -⟩ := C06_fk_composition _ w1
  obtain ⟨-, -, -, w2, -⟩ := w1.updateFK e1
  obtain ⟨c2, e2⟩ := w2.updateID_exists g
  obtain ⟨-, -, -, w3, -⟩ := w2.updateID e2
  have htree : toTree r'.node (r'.node.length + 1) (some 0) = some (.node 0 ct .nil) := by
    rw [← hr']
    refine toTree_rep h6 _ ?_
    rw [h7.length_eq, List.length_range, h4]
    omega
  -- the links of the two chains
  have hmid : ∀ {α : Type _} (k : FLink K → α), (∀ l : FLink K, k (finLink noname l) = k l) → r'.link.map k = r.link.map k := by
    intro α k hk
    rw [← hr', List.map_map]
    exact List.map_congr_left fun l _ => hk l
  have hatt : r'.link.map (fun l => (l.link.name, l.link.body.mp, l.link.body.stuff, l.link.org, rest l.link.joint.prp)) =
      r.link.map (fun l => (l.link.name, l.link.body.mp, l.link.body.stuff, l.link.org, rest l.link.joint.prp)) := by
    refine hmid _ fun l => ?_
    have : rest (rest l.link.joint.prp) = rest l.link.joint.prp := by
      have hm : ∀ m : Motor K, restMotor (restMotor m) = restMotor m := by intro m; cases m <;> rfl
      cases l.link.joint.prp <;> simp [rest, hm]
    simp only [finLink, midLink, this]
  have hmp : (r'.link.map fun l => l.link).map (fun l => l.body.mp) = (r.link.map fun l => l.link).map (fun l => l.body.mp) := by
    rw [List.map_map, List.map_map]
    exact hmid _ fun l => rfl
  have hmass : (r'.chain (.node 0 ct .nil)).mass = (r.chain (.node 0 c00 .nil)).mass := by
    simp only [Robot.chain, calcMass_map _ _ hmp]
  have hframe : (r'.chain (.node 0 ct .nil)).link.map (fun l => (linkFrame l, l.body.mp)) =
      (r.chain (.node 0 c00 .nil)).link.map (fun l => (linkFrame l, l.body.mp)) := by
    simp only [Robot.chain, LinkArray.setOffset]
    rw [setOffsetFrom_map _ (fun _ _ => rfl), setOffsetFrom_map _ (fun _ _ => rfl), List.map_map, List.map_map]
    refine hmid _ fun l => ?_
    simp only [Function.comp, finLink, midLink, linkFrame, jointFrame_rest]
  have hpose := same_pose w0 w1 hw.tree (h' := h) h6 h5 hframe e0 e1
  obtain ⟨a1, a2, a3⟩ := updateID_map (fun l : Link K => (l.body.frame, l.body.wldCOM)) (fun _ _ _ => rfl) (fun _ _ => rfl)
    (fun _ _ => rfl) e2
  obtain ⟨b1, -, -⟩ := updateID_map params (fun _ _ _ => rfl) (fun _ _ => rfl) (fun l w => by simp only [params, rest_calcTrq]) e2
  obtain ⟨b2, b3⟩ := updateFK_map params (fun _ _ => rfl) e1
  obtain ⟨-, b4⟩ := updateFK_map params (fun _ _ => rfl) e0
  refine ⟨f, r', c2, c0, h1, ?_, ?_, w3, ?_, e0, ?_, ?_, a1.trans hpose⟩
  · rw [ZTK.read, if_neg h2, h3, Option.bind_some, if_neg, htree, Option.bind_some, e1, Option.bind_some, e2]
    · rfl
    · rw [← hr']
      simp only [List.any_eq_true, not_exists, not_and, List.mem_map]
      rintro x ⟨l, _, rfl⟩
      simp [finLink, midLink]
  · constructor
    · rw [← hr']
    · rw [← hr']
    · rw [← hr']; rfl
    · rw [← hr']; simp
    · intro i l l' hl hl'
      rw [← hr', List.getElem?_map, hl] at hl'
      cases hl'
      exact ⟨rfl, rfl, rfl, rfl, rfl, rfl, rfl⟩
    · intro i
      rw [← hr', ← parents_get, ← parents_get, h5]
  · rw [b1, b2]
    simp only [Robot.chain, LinkArray.setOffset]
    refine setOffsetFrom_params _ _ _ ?_
    rw [List.map_map, List.map_map]
    exact hatt
  · rw [a2, b3, b4, hmass]
  · rw [a3]
    have k1 : c1.wldCOM = LinkArray.calcCOM c1.mass c1.link := by
      simp only [Chain.updateFK, Chain.updateFrame, Option.map_map, Option.map_eq_some_iff] at e1
      obtain ⟨ls, _, rfl⟩ := e1
      rfl
    have k0 : c0.wldCOM = LinkArray.calcCOM c0.mass c0.link := by
      simp only [Chain.updateFK, Chain.updateFrame, Option.map_map, Option.map_eq_some_iff] at e0
      obtain ⟨ls, _, rfl⟩ := e0
      rfl
    rw [k1, k0, b3, b4, hmass]
    refine calcCOM_map _ _ _ ?_
    have m1 := (updateFK_map (fun l : Link K => l.body.mp.mass) (fun _ _ => rfl) e1).1
    have m0 := (updateFK_map (fun l : Link K => l.body.mp.mass) (fun _ _ => rfl) e0).1
    have mm : c1.link.map (fun l => l.body.mp.mass) = c0.link.map (fun l => l.body.mp.mass) := by
      rw [m1, m0]
      have := congrArg (List.map fun x => x.2.mass) hframe
      simpa [List.map_map, Function.comp_def] using this
    have mw : c1.link.map (fun l => l.body.wldCOM) = c0.link.map (fun l => l.body.wldCOM) := by
      have := congrArg (List.map fun x => x.2) hpose
      simpa [List.map_map, Function.comp_def] using this
    refine List.ext_getElem? fun i => ?_
    have x1 := congrArg (fun x => x[i]?) mm
    have x2 := congrArg (fun x => x[i]?) mw
    simp only [List.getElem?_map] at x1 x2 ⊢
    cases q1 : c1.link[i]? <;> cases q0 : c0.link[i]? <;> simp_all

/-- A link of a robot. -/
def fileLink (name : String) (p : Prp ℚ) (mname : String) (mass : ℚ) (com pos : Vec3 ℚ) (shapes : List String) : FLink ℚ where
  link := { (linkInit "noname" : FLink ℚ).link with
    name := name, joint := ⟨p, 0⟩,
    body := { (Body.init : Body ℚ) with mp := ⟨mass, com, 1⟩, stuff := some "steel" }, org := ⟨pos, 1⟩ }
  com := true
  mname := mname
  shapes := shapes

/-- A base that carries an arm with a motor and a moving slider; the slider was attached first. -/
noncomputable def fileRobot : Robot ℚ where
  name := "robot"
  motors := [⟨"drive", some (.trq ⟨3, some 5, some (-5)⟩)⟩]
  shapes := ["box", "ball"]
  link := [fileLink "base" .fixed "noname" 4 ⟨0, 0, 1⟩ 0 ["box"],
    fileLink "arm" (.revol { (Dof1.fresh : Dof1 ℚ) with
      c := 1, lo := some (-1), stiffness := 2, vel := 7, motor := .trq ⟨1, some 5, some (-5)⟩ }) "drive" 2 ⟨1, 0, 0⟩ ⟨0, 0, 2⟩ [],
    fileLink "slider" (.prism { (Dof1.fresh : Dof1 ℚ) with dis := 3 / 2, lo := some (-2), hi := some 2, viscosity := 1 }) "noname"
      1 0 ⟨5, 0, 0⟩ ["ball", "box"]]
  node := [⟨none, some 2, none⟩, ⟨some 0, none, none⟩, ⟨some 0, none, some 1⟩]

example : Writable "noname" fileRobot (.node 0 (.node 2 .nil (.node 1 .nil .nil)) .nil) where
  names := by decide
  named := by decide
  stuff := by simp [fileRobot, fileLink]
  com := by simp [fileRobot, fileLink]
  motors := by decide
  typed := by simp [fileRobot]
  drive := by
    simp only [fileRobot, List.mem_cons, List.not_mem_nil, or_false]
    rintro l (rfl | rfl | rfl) q hq
    · simp [fileLink, Prp.getMotor] at hq
    · simp only [fileLink, Prp.getMotor, Option.some.injEq] at hq
      subst hq
      exact ⟨by simp, Or.inl ⟨_, rfl, rfl, rfl⟩⟩
    · simp only [fileLink, Prp.getMotor, Option.some.injEq] at hq
      subst hq
      exact ⟨by simp, Or.inr ⟨rfl, rfl, by simp⟩⟩
  nodrive := by
    simp only [fileRobot, List.mem_cons, List.not_mem_nil, or_false]
    rintro l (rfl | rfl | rfl) hq
    · rfl
    · simp [fileLink, Prp.getMotor] at hq
    · rfl
  settled := by
    simp only [fileRobot, List.mem_cons, List.not_mem_nil, or_false]
    rintro l (rfl | rfl | rfl)
    · rfl
    · decide +kernel
    · decide +kernel
  normal := by
    simp only [fileRobot, List.mem_cons, List.not_mem_nil, or_false]
    rintro l (rfl | rfl | rfl)
    · simp [fileLink, angles]
    · intro _ a ha
      simp only [fileLink, angles, Dof1.fresh, List.mem_singleton] at ha
      subst ha
      decide +kernel
    · simp [fileLink, angles]
  shapes := by simp [fileRobot, fileLink]
  size := rfl
  tree := .node rfl rfl (.node rfl rfl (.nil _) (.node rfl rfl (.nil _) (.nil _))) (.nil _)
  root := ⟨_, rfl⟩
  all := by decide

/-- A robot without motors, whose joint can have one. -/
noncomputable def plainRobot : Robot ℚ where
  name := "robot"
  motors := []
  shapes := []
  link := [fileLink "base" .fixed "noname" 4 ⟨0, 0, 1⟩ 0 [],
    fileLink "arm" (.revol { (Dof1.fresh : Dof1 ℚ) with c := 1 }) "noname" 2 ⟨1, 0, 0⟩ ⟨0, 0, 2⟩ []]
  node := [⟨none, some 1, none⟩, ⟨some 0, none, none⟩]

/-- **C70** fails: a robot without motors, with a joint that can have one, is written with the line `motor: noname`, and reading
it searches an array of motors that does not exist, which is undefined behaviour. -/
theorem C70_nomotor_fails (o : Order) (nullStr : Option String) :
    ∃ f, print nullStr plainRobot = some f ∧ ZTK.read o "noname" 0 f = none := by
  have hs : ∀ n : Option String, print n plainRobot = print none plainRobot := by
    intro n
    rfl
  rw [hs]
  have h : ∀ o, ((print none plainRobot).map fun f => (ZTK.read o "noname" 0 f).isNone) = some true := by
    intro o
    cases o <;> decide +kernel
  obtain ⟨f, e, h⟩ := Option.map_eq_some_iff.1 (h o)
  exact ⟨f, e, by simpa using h⟩

/-- The same robot without a joint and without a material. -/
noncomputable def bareRobot : Robot ℚ where
  name := "robot"
  motors := []
  shapes := []
  link := [{ fileLink "base" .fixed "noname" 4 ⟨0, 0, 1⟩ 0 [] with
    link := { (fileLink "base" .fixed "noname" 4 ⟨0, 0, 1⟩ 0 []).link with
      body := { (Body.init : Body ℚ) with mp := ⟨4, ⟨0, 0, 1⟩, 1⟩ } } }]
  node := [⟨none, none, none⟩]

/-- **C70.**  Whatever file a chain is read from, its mass is the sum of the masses of its links; if they have none, it is one. -/
theorem C70_mass (o : Order) (noname : String) (g : Vec6 K) (f : File K) (r : Robot K) (c : Chain K)
    (h : ZTK.read o noname g f = some (some (r, c))) :
    c.mass = if (r.link.map fun l => l.link.body.mp.mass).sum = 0 then 1 else (r.link.map fun l => l.link.body.mp.mass).sum := by
  rw [ZTK.read] at h
  split_ifs at h
  · simp at h
  obtain ⟨r1, e1, h⟩ := Option.bind_eq_some_iff.1 h
  split_ifs at h
  obtain ⟨t, e2, h⟩ := Option.bind_eq_some_iff.1 h
  obtain ⟨c1, e3, h⟩ := Option.bind_eq_some_iff.1 h
  obtain ⟨c2, e4, h⟩ := Option.map_eq_some_iff.1 h
  cases h
  have hs : LinkArray.calcMass (r.link.map fun l => l.link) = (r.link.map fun l => l.link.body.mp.mass).sum := by
    have : ∀ (l : List (FLink K)) (m : K), (l.map fun l => l.link).foldl (fun m l => m + l.body.mp.mass) m =
        m + (l.map fun l => l.link.body.mp.mass).sum := by
      intro l
      induction l with
      | nil => intro m; simp
      | cons a l ih => intro m; simp only [List.map_cons, List.foldl_cons, ih, List.sum_cons]; ring
    rw [LinkArray.calcMass, this, zero_add]
  have m0 : (r.chain t).mass = if (r.link.map fun l => l.link.body.mp.mass).sum = 0 then 1
      else (r.link.map fun l => l.link.body.mp.mass).sum := by
    rw [← hs]
    rfl
  rw [← m0]
  obtain ⟨a, ha, rfl⟩ := Option.map_eq_some_iff.1 e3
  obtain ⟨b, hb, rfl⟩ := Option.map_eq_some_iff.1 (show (r.chain t).updateFrame = some a from ha)
  obtain ⟨x, hx, e4⟩ := Option.bind_eq_some_iff.1 e4
  obtain ⟨y, hy, e4⟩ := Option.bind_eq_some_iff.1 e4
  cases e4
  obtain ⟨x', -, rfl⟩ := Option.map_eq_some_iff.1 hx
  obtain ⟨y', -, rfl⟩ := Option.map_eq_some_iff.1 hy
  rfl

/-- **C70** fails: to write a link without a material is undefined behaviour; with a C library that prints a null string as a word,
the robot read back has this word as its material. -/
theorem C70_material_fails (o : Order) : print none bareRobot = none ∧
    ∃ f r c, print (some "(null)") bareRobot = some f ∧ ZTK.read o "noname" 0 f = some (some (r, c)) ∧
      (bareRobot.link.map fun l => l.link.body.stuff) = [none] ∧ (r.link.map fun l => l.link.body.stuff) = [some "(null)"] := by
  refine ⟨rfl, ?_⟩
  have h : ∀ o, ((print (some "(null)") bareRobot).map fun f => match ZTK.read o "noname" 0 f with
    | some (some (r, _)) => (r.link.map fun l => l.link.body.stuff) == [some "(null)"]
    | _ => false) = some true := by
    intro o
    cases o <;> decide +kernel
  obtain ⟨f, e, h⟩ := Option.map_eq_some_iff.1 (h o)
  rcases hr : ZTK.read o "noname" 0 f with _ | _ | ⟨r, c⟩
  · rw [hr] at h; simp at h
  · rw [hr] at h; simp at h
  · rw [hr] at h
    exact ⟨f, r, c, e, hr, rfl, by simpa using h⟩

end Roki
