import Verif.Model.InPlace
import Verif.Lemmas.FK
import Verif.Props.Mass
import Verif.Spec.Samples
set_option autoImplicit false

/-!
# Results written over operands

C125.
-/

namespace Roki
open Spec InPlace
variable {K : Type*} [Field K]

theorem mod_same {α : Type*} (s : Store α) (a : ℕ) (g : α → α) : s.mod a g a = g (s a) := if_pos rfl
theorem mod_other {α : Type*} (s : Store α) {a x : ℕ} (h : x ≠ a) (g : α → α) : s.mod a g x = s x := if_neg h

/-- **C125** `rkJointXform` with a result other than the operand gives the frame displaced by the joint, whatever the joint, and changes
nothing else. -/
theorem C125_joint_apart (p : Prp K) (fo f : ℕ) (h : fo ≠ f) (s : Store (Frame K)) :
    jointXform p fo f s f = (s fo).cascade (jointFrame p) ∧ ∀ a ≠ f, jointXform p fo f s a = s a := by
  constructor
  · rw [← xform_eq]
    cases p <;> simp [jointXform, turnAt, setPos, setAtt, setX, setY, setZ, mod_same, mod_other _ h, Prp.xform, Prp.rotZ, cat]
  · intro a ha
    cases p <;> simp [jointXform, turnAt, setPos, setAtt, setX, setY, setZ, mod_other _ ha]

/-- **C125** `rkJointXform` may be given the same frame as operand and result for fixed, prismatic, universal, spherical and free joints. -/
theorem C125_joint_in_place_partial (p : Prp K) (hp : match p with | .revol _ | .cylin _ => False | _ => True) (f : ℕ) (s : Store (Frame K)) :
    jointXform p f f s f = (s f).cascade (jointFrame p) ∧ ∀ a ≠ f, jointXform p f f s a = s a := by
  constructor
  · rw [← xform_eq]
    cases p <;> simp at hp <;> simp [jointXform, setPos, setAtt, mod_same, Prp.xform]
  · intro a ha
    cases p <;> simp at hp <;> simp [jointXform, setPos, setAtt, mod_other _ ha]


/-- **C125** Revolute and cylindrical joints: given the same frame as operand and result, `rkJointXform` makes two axes of it parallel.  The
result is not the displaced frame, and is no rotation at all, whatever the displacement, zero included. -/
theorem C125_joint_in_place_fails (p : Prp K) (hp : match p with | .revol _ | .cylin _ => True | _ => False) (hw : p.WF) (f : ℕ)
    (s : Store (Frame K)) (hs : (s f).att.IsRot) :
    (∃ k : K, (jointXform p f f s f).att.cy = k • (jointXform p f f s f).att.cx) ∧ ¬ (jointXform p f f s f).att.IsRot ∧
      jointXform p f f s f ≠ (s f).cascade (jointFrame p) := by
  have key : ∃ k : K, (jointXform p f f s f).att.cy = k • (jointXform p f f s f).att.cx := by
    cases p <;> simp at hp
    · rename_i d
      refine ⟨-(d.s * (1 + d.c)), ?_⟩
      simp only [jointXform, turnAt, setPos, setX, setY, setZ, mod_same, cat]
      vec_ring
    · rename_i d
      refine ⟨-(d.s1 * (1 + d.c1)), ?_⟩
      simp only [jointXform, turnAt, setPos, setX, setY, setZ, mod_same, cat]
      vec_ring
  have hn : ¬ (jointXform p f f s f).att.IsRot := by
    intro h
    obtain ⟨k, hk⟩ := key
    have h1 := h.xy
    have h2 := h.yy
    have h3 := h.xx
    rw [hk, dot_smul_right, h3, mul_one] at h1
    rw [hk, h1, dot_smul_left, zero_mul] at h2
    exact zero_ne_one h2
  refine ⟨key, hn, fun h => hn ?_⟩
  rw [h]
  exact hs.mul (isRot_jointFrame hw)

/-- **C125** `rkMPXform` and `rkMPXformInv` may be given the same object as operand and result. -/
theorem C125_mass_xform (src dest : ℕ) (F : Frame K) (s : Store (MP K)) :
    mpXform src F dest s dest = (s src).xform F ∧ mpXformInv src F dest s dest = (s src).xformInv F ∧
    ∀ a ≠ dest, mpXform src F dest s a = s a ∧ mpXformInv src F dest s a = s a := by
  by_cases h : src = dest
  · subst h
    exact ⟨by simp [mpXform, setMass, setCom, setInertia, mod_same, MP.xform], by simp [mpXformInv, setMass, setCom, setInertia, mod_same, MP.xformInv],
      fun a ha => by simp [mpXform, mpXformInv, setMass, setCom, setInertia, mod_other _ ha]⟩
  · exact ⟨by simp [mpXform, setMass, setCom, setInertia, mod_same, mod_other _ h, MP.xform],
      by simp [mpXformInv, setMass, setCom, setInertia, mod_same, mod_other _ h, MP.xformInv],
      fun a ha => by simp [mpXform, mpXformInv, setMass, setCom, setInertia, mod_other _ ha]⟩

/-- **C125** `rkMPCombine` with a result other than the operands combines them, the operands being the same object or not. -/
theorem C125_mass_combine_partial (p1 p2 p : ℕ) (h1 : p1 ≠ p) (h2 : p2 ≠ p) (s : Store (MP K)) :
    mpCombine p1 p2 p s p = MP.combine (s p1) (s p2) ∧ ∀ a ≠ p, mpCombine p1 p2 p s a = s a := by
  constructor
  · simp [mpCombine, setMass, setCom, setInertia, mod_same, mod_other _ h1, mod_other _ h2, MP.combine]
  · intro a ha
    simp [mpCombine, setMass, setCom, setInertia, mod_other _ ha]

/-- **C125** `rkMPCombine` with the first or the second operand as the result: the mass of that operand is overwritten before it is used, so
that the center of mass is that of the operand, unweighted, plus the weighted one of the other.  It is wrong unless the operand has its center of
mass at the origin. -/
theorem C125_mass_combine_fails (p q : ℕ) (h : q ≠ p) (s : Store (MP K)) (hm : (s p).mass + (s q).mass ≠ 0) :
    (mpCombine p q p s p).com = (s p).com + ((s q).mass / ((s p).mass + (s q).mass)) • (s q).com ∧
    (mpCombine q p p s p).com = ((s q).mass / ((s p).mass + (s q).mass)) • (s q).com + (s p).com ∧
    ((s q).mass ≠ 0 → (s p).com ≠ 0 → (mpCombine p q p s p).com ≠ (MP.combine (s p) (s q)).com ∧
      (mpCombine q p p s p).com ≠ (MP.combine (s q) (s p)).com) := by
  have hm' : (s q).mass + (s p).mass ≠ 0 := by rwa [add_comm]
  have e1 : (mpCombine p q p s p).com = (s p).com + ((s q).mass / ((s p).mass + (s q).mass)) • (s q).com := by
    simp only [mpCombine, setMass, setCom, setInertia, mod_same, mod_other _ h, div_self hm, one_smul]
  have e2 : (mpCombine q p p s p).com = ((s q).mass / ((s p).mass + (s q).mass)) • (s q).com + (s p).com := by
    simp only [mpCombine, setMass, setCom, setInertia, mod_same, mod_other _ h, div_self hm', one_smul]
    rw [add_comm (s q).mass]
  refine ⟨e1, e2, fun hq hc => ?_⟩
  have hne : (s p).com ≠ ((s p).mass / ((s p).mass + (s q).mass)) • (s p).com := by
    intro h
    apply hc
    have h' : (1 - (s p).mass / ((s p).mass + (s q).mass)) • (s p).com = 0 := by
      rw [sub_smul, one_smul, ← h, sub_self]
    have hk : 1 - (s p).mass / ((s p).mass + (s q).mass) ≠ 0 := by
      rw [one_sub_div hm, add_sub_cancel_left]
      exact div_ne_zero hq hm
    exact (smul_eq_zero.1 h').resolve_left hk
  constructor
  · rw [e1, MP.combine]
    exact fun h => hne (add_right_cancel h)
  · rw [e2, MP.combine, add_comm (s q).mass]
    exact fun h => hne (add_left_cancel h)

/-- **C125** `rkBodyCombine` may be given any bodies more than once, and the frame of any of them as the frame; `rkBodyCombineDRC` may be
given the same body twice; `rkBodyCopyState` may be given the same body twice. -/
theorem C125_body_combine (b1 b2 : ℕ) (f : FrameArg K) (b : ℕ) (s : Store (Body K)) :
    bodyCombine b1 b2 f b s b = Body.combine (s b1) (s b2) (f.read s) (s b) ∧
    bodyCombineDRC b b1 s b = Body.combineDRC (s b) (s b1) ∧ InPlace.copyState b1 b s b = Body.copyState (s b1) (s b) ∧
    ∀ a ≠ b, bodyCombine b1 b2 f b s a = s a ∧ bodyCombineDRC b b1 s a = s a ∧ InPlace.copyState b1 b s a = s a := by
  refine ⟨?_, ?_, ?_, fun a ha => ⟨?_, ?_, ?_⟩⟩
  · simp only [bodyCombine, mod_same, Body.combine]
    cases f with
    | own F => rfl
    | body a =>
      by_cases h : a = b
      · subst h; simp [FrameArg.read, mod_same]
      · simp [FrameArg.read, mod_other _ h]
  · simp only [bodyCombineDRC, mod_same, Body.combineDRC]
  · by_cases h : b1 = b
    · subst h; simp [InPlace.copyState, mod_same, Body.copyState]
    · simp [InPlace.copyState, mod_same, mod_other _ h, Body.copyState]
  · simp [bodyCombine, mod_other _ ha]
  · simp [bodyCombineDRC, mod_other _ ha]
  · simp [InPlace.copyState, mod_other _ ha]

/-- **C125** `rkLinkPointVel` and `rkBodyAM` may write their result over the point; `rkLinkPointAcc` and `rkChainAM` give the right result when
it is another object. -/
theorem C125_points_partial (l : Link K) (b : Body K) (ls : List (Link K)) (p v : ℕ) (s : Store (Vec3 K)) :
    InPlace.pointVel l p v s v = l.pointVel (s p) ∧ bodyAM b p v s v = b.am (s p) ∧
    (p ≠ v → InPlace.pointAcc l p v s v = l.pointAcc (s p) ∧ chainAM ls p v s v = LinkArray.am ls (s p)) ∧
    ∀ a ≠ v, InPlace.pointVel l p v s a = s a ∧ bodyAM b p v s a = s a ∧ InPlace.pointAcc l p v s a = s a ∧ chainAM ls p v s a = s a := by
  have loop : p ≠ v → ∀ (ls : List (Link K)) (t : Store (Vec3 K)), t p = s p → ls.foldl (chainAM1 p v) t v =
      ls.foldl (fun am l => am + l.body.frame.att.mulVec (l.body.am (l.body.frame.xformInv (s p)))) (t v) := by
    intro h ls
    induction ls with
    | nil => intro t _; rfl
    | cons l ls ih =>
      intro t ht
      rw [List.foldl_cons, List.foldl_cons, ih _ (by simp [chainAM1, setVec, mod_other _ h, ht])]
      simp [chainAM1, setVec, mod_same, ht]
  have keep : ∀ a ≠ v, ∀ (ls : List (Link K)) (t : Store (Vec3 K)), ls.foldl (chainAM1 p v) t a = t a := by
    intro a ha ls
    induction ls with
    | nil => intro t; rfl
    | cons l ls ih => intro t; rw [List.foldl_cons, ih]; simp [chainAM1, setVec, mod_other _ ha]
  refine ⟨by simp [InPlace.pointVel, setVec, mod_same, Link.pointVel], by simp [bodyAM, setVec, mod_same, Body.am], fun h => ⟨?_, ?_⟩, fun a ha => ?_⟩
  · simp [InPlace.pointAcc, setVec, mod_same, mod_other _ h, Link.pointAcc]
  · rw [chainAM, loop h ls _ (by simp [setVec, mod_other _ h]), LinkArray.am]
    simp [setVec, mod_same]
  · refine ⟨by simp [InPlace.pointVel, setVec, mod_other _ ha], by simp [bodyAM, setVec, mod_other _ ha], by simp [InPlace.pointAcc, setVec, mod_other _ ha], ?_⟩
    rw [chainAM, keep a ha]; simp [setVec, mod_other _ ha]

/-- **C125** Written over the point, `rkLinkPointAcc` takes the centripetal acceleration for the point, and `rkChainAM` takes the sum so far for
the point: for one link it gives the angular momentum about the origin, wherever the point is. -/
theorem C125_points_fails (l : Link K) (v : ℕ) (s : Store (Vec3 K)) :
    InPlace.pointAcc l v v s v = triple l.body.vel.ang l.body.vel.ang (s v) + cross l.body.acc.ang (triple l.body.vel.ang l.body.vel.ang (s v)) + l.body.acc.lin ∧
    chainAM [l] v v s v = LinkArray.am [l] 0 := by
  constructor
  · simp [InPlace.pointAcc, setVec, mod_same]
  · simp [chainAM, chainAM1, setVec, mod_same, LinkArray.am]

/-- **C125** The transformation of articulated inertia, which forward dynamics calls with the same matrix as operand and result, gives the same
as with two. -/
theorem C125_inertia (f : Frame K) (i m : ℕ) (s : Store (Mat6 K)) :
    xformMat6 f i m s m = Mat6.xform f (s i) ∧ ∀ a ≠ m, xformMat6 f i m s a = s a := by
  constructor
  · by_cases h : i = m
    · subst h; simp [xformMat6, mod_same, Mat6.xform]
    · simp [xformMat6, mod_same, mod_other _ h, Mat6.xform]
  · intro a ha; simp [xformMat6, mod_other _ ha]


namespace Sample
/-- A revolute joint turned by the angle with sine 3/5 and cosine 4/5. -/
def turnedJoint : Prp ℚ := .revol (dof1 0 0 0 (3 / 5) (4 / 5) none none)
/-- A spinning link. -/
def spinner : Link ℚ :=
  let l := link "spinner" turnedJoint mp1 Frame.ident
  { l with body := { l.body with vel := ⟨⟨1, 0, 0⟩, ⟨0, 0, 2⟩⟩, acc := ⟨0, ⟨1, 0, 0⟩⟩, comVel := ⟨1, 0, 0⟩ } }
end Sample

/-- The hypotheses of C125 are met: a turned revolute joint at the identity, two bodies of mass one, and a point of a spinning link, for which
the results written over the operands are not the right ones. -/
example : Sample.turnedJoint.WF ∧ (Frame.ident : Frame ℚ).att.IsRot ∧
    (jointXform Sample.turnedJoint 0 0 (fun _ => Frame.ident) 0).att ≠ (jointXform Sample.turnedJoint 1 0 (fun _ => Frame.ident) 0).att ∧
    ((Sample.mp1 : MP ℚ).mass + (Sample.mp1 : MP ℚ).mass ≠ 0 ∧ (Sample.mp1 : MP ℚ).mass ≠ 0 ∧ (Sample.mp1 : MP ℚ).com ≠ 0) ∧
    InPlace.pointAcc Sample.spinner 0 0 (fun _ => ⟨1, 2, 3⟩) 0 ≠ Sample.spinner.pointAcc ⟨1, 2, 3⟩ ∧
    chainAM [Sample.spinner] 0 0 (fun _ => ⟨1, 2, 3⟩) 0 ≠ LinkArray.am [Sample.spinner] ⟨1, 2, 3⟩ := by
  refine ⟨?_, Mat3.isRot_one, ?_, ?_, ?_, ?_⟩
  · show (3 / 5 : ℚ) * (3 / 5) + 4 / 5 * (4 / 5) = 1
    norm_num
  all_goals decide +kernel

end Roki
