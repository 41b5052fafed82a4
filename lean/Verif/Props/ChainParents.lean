import Verif.Lemmas.ChainFile6
import Verif.Lemmas.ZmRat
set_option autoImplicit false

/-!
# C71: parents declared in a file; C72: what a file may refer to
-/

namespace Roki
open Spec.File Spec.Forest Spec ZTK
variable {K : Type*} [Field K] [LinearOrder K] [IsStrictOrderedRing K] [Zm K] [LawfulZm K]

/-- **C71.**  Take a file that is readable without the lines that declare parents, and add such lines, in whatever order the links
are listed: if the first link has no parent, every other link has one, and going from parent to parent always leads to the first
link, then the file is read, nothing but the connection is changed by these lines, every link is attached to the declared parent,
the children of a link are in the order of the file, and the links form a chain as the theorems on kinematics and dynamics
suppose.

What is missing: files with other declarations should be rejected, and are not; see `C71_first_fails` and `C71_cycle_fails`. -/
theorem C71_parents_partial (o : Order) (noname : String) (g : Vec6 K) (f : File K) (r0 : Robot K) (c0 : Chain K)
    (pars : List (Option ℕ)) (h0 : ZTK.read o noname g (noParents f) = some (some (r0, c0))) (hn : r0.names.Nodup)
    (hd : DeclareParents r0.names f pars) (hr : pars[0]? = some none) (hl : ∀ k < pars.length, LeadsToRoot pars k) :
    ∃ h c, ZTK.read o noname g f = some (some ({ r0 with node := h }, c)) ∧ c.WF ∧ Rep h none (some 0) c.shape ∧
      (h.map fun x => x.parent) = pars ∧
      ∀ i x, h[i]? = some x → Sibs h x.child ((List.range pars.length).filter fun k => pars[k]? = some (some i)) := by
  have hD := (declares_iff hd).length_eq
  have hne : secs "link" f ≠ [] := by
    intro e
    rw [e] at hD
    rw [List.eq_nil_of_length_eq_zero hD.symm] at hr
    simp at hr
  rw [ZTK.read] at h0
  split_ifs at h0
  · simp at h0
  obtain ⟨r, e1, h0⟩ := Option.bind_eq_some_iff.1 h0
  split_ifs at h0 with hcom
  obtain ⟨t, e2, h0⟩ := Option.bind_eq_some_iff.1 h0
  obtain ⟨c1, e3, h0⟩ := Option.bind_eq_some_iff.1 h0
  obtain ⟨c2, e4, h0⟩ := Option.map_eq_some_iff.1 h0
  cases h0
  obtain ⟨h, ct, k1, k2, k3, k4, k5, k6, k7⟩ := readParts_parents o noname f r0 pars e1 hn hd hr hl
  have w : (({ r0 with node := h } : Robot K).chain (.node 0 ct .nil)).WF := by
    refine ⟨⟨ct, rfl⟩, ?_⟩
    have : (({ r0 with node := h } : Robot K).chain (.node 0 ct .nil)).link.length = pars.length := by
      rw [k2]
      simp [Robot.chain, LinkArray.setOffset, LinkArray.setOffsetFrom_length]
    rw [this]
    exact k6
  obtain ⟨d1, f1, -⟩ := C06_fk_composition _ w
  obtain ⟨-, -, -, w1, s1, -⟩ := w.updateFK f1
  obtain ⟨d2, f2⟩ := w1.updateID_exists g
  obtain ⟨-, -, -, w2, s2, -⟩ := w1.updateID f2
  refine ⟨h, d2, ?_, w2, ?_, k4, k7⟩
  · rw [ZTK.read, if_neg hne, k1, Option.bind_some, if_neg hcom, toTree_rep k5 _ (by rw [k6.length_eq, List.length_range, ← k3]; simp),
      Option.bind_some, f1, Option.bind_some, f2]
    rfl
  · rw [s2, s1]
    exact k5

/-- **C72.**  The function that reads a chain returns the null pointer for a file without links, and for no other file: whatever is
wrong in a file with a link, it is not rejected.

What is missing: the claim is that a file that names a parent, motor, shape or joint type that does not exist, or the same link
twice, is rejected. -/
theorem C72_rejected_iff_partial (o : Order) (noname : String) (g : Vec6 K) (f : File K) :
    ZTK.read o noname g f = some none ↔ ∀ s ∈ f, s.1 ≠ "link" := by
  have e : (∀ s ∈ f, s.1 ≠ "link") ↔ secs "link" f = [] := by
    rw [secs, List.map_eq_nil_iff, List.filter_eq_nil_iff]
    simp
  rw [e, ZTK.read]
  split_ifs with h
  · simp [h]
  · simp only [h, iff_false]
    intro h1
    obtain ⟨r, e1, h1⟩ := Option.bind_eq_some_iff.1 h1
    split_ifs at h1
    obtain ⟨t, e2, h1⟩ := Option.bind_eq_some_iff.1 h1
    obtain ⟨c1, e3, h1⟩ := Option.bind_eq_some_iff.1 h1
    obtain ⟨c2, e4, h1⟩ := Option.map_eq_some_iff.1 h1
    simp at h1

/-! ## Files -/

/-- A section of a link. -/
def fileSec (name : String) (more : List (Fld ℚ)) : String × List (Fld ℚ) := ("link", ⟨"name", [.str name]⟩ :: more)

/-- A line of the file. -/
def line (k v : String) : Fld ℚ := ⟨k, [.str v]⟩

/-- A base with two arms and a hand, not listed from parent to child. -/
def treeFile : File ℚ :=
  [("chain", [line "name" "robot"]),
   fileSec "base" [line "jointtype" "float"],
   fileSec "hand" [line "parent" "arm2"],
   fileSec "arm1" [line "parent" "base", line "jointtype" "prismatic"],
   fileSec "arm2" [line "jointtype" "spherical", line "parent" "base"]]

def treePars : List (Option ℕ) := [none, some 3, some 0, some 0]

example : ∃ r0 c0, ZTK.read .file "noname" 0 (noParents treeFile) = some (some (r0, c0)) ∧ r0.names.Nodup ∧
    DeclareParents r0.names treeFile treePars ∧ treePars[0]? = some none ∧ ∀ k < treePars.length, LeadsToRoot treePars k := by
  have h : (match ZTK.read .file "noname" 0 (noParents treeFile) with
    | some (some (r, _)) => r.names == ["base", "hand", "arm1", "arm2"]
    | _ => false) = true := by decide +kernel
  have h3 : LeadsToRoot treePars 3 := .step (p := 0) rfl .root
  have hk : ∀ k < treePars.length, LeadsToRoot treePars k := by
    intro k hk
    match k, hk with
    | 0, _ => exact .root
    | 1, _ => exact .step (p := 3) rfl h3
    | 2, _ => exact .step (p := 0) rfl .root
    | 3, _ => exact h3
  rcases hr : ZTK.read .file "noname" 0 (noParents treeFile) with _ | _ | ⟨r0, c0⟩
  · rw [hr] at h; simp at h
  · rw [hr] at h; simp at h
  · rw [hr] at h
    have hn : r0.names = ["base", "hand", "arm1", "arm2"] := by simpa using h
    refine ⟨r0, c0, rfl, by rw [hn]; decide, ?_, rfl, hk⟩
    rw [hn]
    exact .cons (by decide) (.cons ⟨"arm2", rfl, by decide⟩ (.cons ⟨"base", rfl, by decide⟩ (.cons ⟨"base", rfl, by decide⟩ .nil)))

/-- The outcome of reading: the links that are connected, or nothing. -/
noncomputable def connected (f : File ℚ) (o : Order) : Option (Option (List ℕ)) :=
  (ZTK.read o "noname" 0 f).map fun x => x.map fun rc => rc.2.shape.toList

/-- **C71** fails: a file that declares a tree, but lists the root after its child, is read as a chain of the child alone; the other
link is left unconnected. -/
theorem C71_first_fails (o : Order) : ∃ f : File ℚ, f = [fileSec "hand" [line "parent" "base"], fileSec "base" []] ∧
    ∃ r c, ZTK.read o "noname" 0 f = some (some (r, c)) ∧ r.link.length = 2 ∧ c.shape.toList = [0] ∧ ¬ c.WF := by
  refine ⟨_, rfl, ?_⟩
  have h : ∀ o, (match ZTK.read o "noname" 0 [fileSec "hand" [line "parent" "base"], fileSec "base" []] with
    | some (some (r, c)) => r.link.length == 2 && c.link.length == 2 && c.shape.toList == [0]
    | _ => false) = true := by
    intro o
    cases o <;> decide +kernel
  specialize h o
  rcases hr : ZTK.read o "noname" 0 [fileSec "hand" [line "parent" "base"], fileSec "base" []] with _ | _ | ⟨r, c⟩
  · rw [hr] at h; simp at h
  · rw [hr] at h; simp at h
  · rw [hr] at h
    simp only [Bool.and_eq_true, beq_iff_eq] at h
    refine ⟨r, c, rfl, h.1.1, h.2, fun w => ?_⟩
    have := w.perm.length_eq
    rw [h.2, h.1.2] at this
    simp at this

/-- **C71** fails: two links that declare each other as the parent are left unconnected without an error, and a first link that
declares itself, or its child, as its parent makes the reading run without end. -/
theorem C71_cycle_fails (o : Order) :
    connected [fileSec "base" [], fileSec "left" [line "parent" "right"], fileSec "right" [line "parent" "left"]] o =
      some (some [0]) ∧
    connected [fileSec "base" [line "parent" "base"]] o = none ∧
    connected [fileSec "base" [line "parent" "hand"], fileSec "hand" [line "parent" "base"]] o = none := by
  cases o <;> decide +kernel

/-- **C72** fails: a parent that does not exist leaves the link, and all links after it, unconnected, without an error. -/
theorem C72_parent_fails (o : Order) :
    connected [fileSec "base" [], fileSec "arm" [line "parent" "bsae"], fileSec "hand" [line "parent" "arm"]] o = some (some [0]) ∧
    connected [fileSec "base" [], fileSec "arm" [line "parent" "base"], fileSec "hand" [line "parent" "arm"]] o =
      some (some [0, 1, 2]) := by
  cases o <;> decide +kernel

/-- The types of the motors of the links after reading. -/
noncomputable def driven (f : File ℚ) (o : Order) : Option (Option (List (Option String))) :=
  (ZTK.read o "noname" 0 f).map fun x => x.map fun rc => rc.2.link.map fun l => l.joint.prp.getMotor.map fun m => m.typeStr

/-- **C72** fails: a motor that does not exist leaves the joint without a motor, without an error. -/
theorem C72_motor_fails (o : Order) :
    driven [("motor", [line "name" "drive", line "type" "trq"]), fileSec "base" [line "jointtype" "prismatic", line "motor" "dirve"]] o =
      some (some [some "none"]) ∧
    driven [("motor", [line "name" "drive", line "type" "trq"]), fileSec "base" [line "jointtype" "prismatic", line "motor" "drive"]] o =
      some (some [some "trq"]) := by
  cases o <;> decide +kernel

/-- **C72** fails: a joint type or shape that does not exist, a link that appears twice, a motor in a file without motors, and an
initial displacement of a fixed joint lead to undefined behaviour. -/
theorem C72_crash_fails (o : Order) :
    connected [fileSec "base" [line "jointtype" "revolt"]] o = none ∧
    connected [("shape", [line "name" "box"]), fileSec "base" [line "shape" "ball"]] o = none ∧
    connected [fileSec "base" [line "shape" "ball"]] o = none ∧
    connected [fileSec "base" [], fileSec "base" [line "parent" "base"]] o = none ∧
    connected [fileSec "base" [line "jointtype" "prismatic", line "motor" "drive"]] o = none ∧
    connected [fileSec "base" [], ("init", [⟨"joint", [.str "base", .num 1]⟩])] o = none := by
  cases o <;> decide +kernel

end Roki
