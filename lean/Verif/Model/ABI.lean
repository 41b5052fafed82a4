import Verif.Model.Jacobi
set_option autoImplicit false

/-!
# Forward dynamics by the articulated-body method: src/rk_abi.c

The functions of the joints that the method uses are in rk_joint.c and the files of the joint types.
The breakable floating joints share one table of functions, whose entries are exchanged at run time
(rk_joint_brfloat.c:253-264); `fx` tells whether the entries of the rigid joint are installed.
-/

namespace Roki
variable {K : Type*} [Field K]

/-- `RK_G`, include/roki/rk_g.h:19-21. -/
def rkG : K := 9806652 / 1000000

namespace Vec3
/-- Component by index. -/
def get (v : Vec3 K) : ℕ → K
  | 0 => v.x
  | 1 => v.y
  | _ => v.z
end Vec3

namespace Vec6
/-- Component by index, `e[i]`. -/
def get (v : Vec6 K) (i : ℕ) : K := if i < 3 then v.lin.get i else v.ang.get (i - 3)
/-- A vector from its components. -/
def ofFn (f : ℕ → K) : Vec6 K := ⟨⟨f 0, f 1, f 2⟩, ⟨f 3, f 4, f 5⟩⟩
end Vec6

namespace Mat3
/-- Element in row `i` and column `j`; `e[j][i]` in Zeo. -/
def elem (m : Mat3 K) (i j : ℕ) : K :=
  match j with
  | 0 => m.cx.get i
  | 1 => m.cy.get i
  | _ => m.cz.get i
end Mat3

namespace Mat6
/-- Element in row `i` and column `j`. -/
def elem (m : Mat6 K) (i j : ℕ) : K :=
  if i < 3 then (if j < 3 then m.ll.elem i j else m.la.elem i (j - 3))
  else (if j < 3 then m.al.elem (i - 3) j else m.aa.elem (i - 3) (j - 3))

/-- `rkJointXformMat6D`, src/rk_joint.c:138-156. -/
def xform (f : Frame K) (i : Mat6 K) : Mat6 K :=
  let ll := Mat3.rot f.att i.ll
  let al := Mat3.rot f.att i.al
  let aa := Mat3.rot f.att i.aa
  let tmpm2 := al.tr
  let al' := al + (Mat3.skew f.pos).mul ll
  let la' := al'.tr
  let aa' := aa + (Mat3.skew f.pos).mul la'
  ⟨ll, la', al', aa' + ((Mat3.skew f.pos).mul tmpm2).tr⟩
end Mat6

/-- A 2x2 matrix by its elements. -/
def mat2 (a00 a01 a10 a11 : K) : ℕ → ℕ → K
  | 0, 0 => a00
  | 0, 1 => a01
  | 1, 0 => a10
  | 1, 1 => a11
  | _, _ => 0

namespace Prp

/-- `rkJointMotorInertia`, first element, the others being zero: rk_joint_revol.c:176-179,
rk_joint_prism.c:169-172, rk_joint_cylin.c:193-196, rk_joint_hooke.c:224-227. -/
def motorInertia (p : Prp K) : K := match p.getMotor with | some m => m.inertia | none => 0

section
variable [Zm K]

/-- `zIsTiny(h) ? 0 : 1/h`, the inverse axis inertia of the joints with one degree of freedom. -/
def invAxis (h : K) : K := if Zm.tiny h = true then 0 else 1 / h

/-- `rkJointABIAxisInertia`: fixed rk_joint_fixed.c:67, revolute rk_joint_revol.c:197-205, prismatic
rk_joint_prism.c:190-198, cylindrical rk_joint_cylin.c:211-218, hooke rk_joint_hooke.c:245-255,
spherical rk_joint_spher.c:208-217, float rk_joint_float.c:199-211, breakable float
rk_joint_brfloat.c:206-217 and 237.  The result is the pair (`axi`, `iaxi`); the last two arguments
are the former values. -/
def abiAxisInertia (fx : Bool) (p : Prp K) (m : Mat6 K) (h ih : ℕ → ℕ → K) :
    (ℕ → ℕ → K) × (ℕ → ℕ → K) :=
  match p with
  | fixed => (h, ih)
  | revol p =>
    let a := p.motor.inertia + m.aa.elem 2 2
    (fun _ _ => a, fun _ _ => invAxis a)
  | prism p =>
    let a := p.motor.inertia + m.ll.elem 2 2
    (fun _ _ => a, fun _ _ => invAxis a)
  | cylin p =>
    let a := mat2 (p.motor.inertia + m.ll.elem 2 2) (m.la.elem 2 2) (m.al.elem 2 2) (m.aa.elem 2 2)
    (a, Zm.matInv 2 a)
  | hooke p =>
    let a := mat2
      (p.motor.inertia + (m.aa.elem 0 0 * p.s1 * p.s1 - (m.aa.elem 0 2 + m.aa.elem 2 0) * p.s1 * p.c1
        + m.aa.elem 2 2 * p.c1 * p.c1))
      (m.aa.elem 2 1 * p.c1 - m.aa.elem 0 1 * p.s1)
      (m.aa.elem 1 2 * p.c1 - m.aa.elem 1 0 * p.s1)
      (m.aa.elem 1 1)
    (a, Zm.matInv 2 a)
  | spher _ => (m.aa.elem, Zm.matInv 3 m.aa.elem)
  | float _ => (m.elem, Zm.matInv 6 m.elem)
  | brfloat _ => if fx then (h, ih) else (m.elem, Zm.matInv 6 m.elem)
end

/-- What `rkJointABIAddABI` adds to the inertia of the parent: fixed rk_joint_fixed.c:69-73, revolute
rk_joint_revol.c:207-219, prismatic rk_joint_prism.c:200-212, cylindrical rk_joint_cylin.c:220-243,
breakable float after exchange of the table rk_joint_brfloat.c:238-242; nothing for hooke
(rk_joint_hooke.c:257-259), spherical (rk_joint_spher.c:219-221), float (rk_joint_float.c:213) and
breakable float (rk_joint_brfloat.c:219).  `ih` is the inverse axis inertia. -/
def abiABI (fx : Bool) (p : Prp K) (m : Mat6 K) (f : Frame K) (ih : ℕ → ℕ → K) : Mat6 K :=
  match p with
  | fixed => m.xform f
  | revol _ => (Mat6.dyad ((-ih 0 0) • m.colZA) m.rowZA + m).xform f
  | prism _ => (Mat6.dyad ((-ih 0 0) • m.colZ) m.rowZ + m).xform f
  | cylin _ =>
    (Mat6.dyad (ih 0 0 • m.colZ) m.rowZ + Mat6.dyad (ih 0 1 • m.colZ) m.rowZA +
      Mat6.dyad (ih 1 0 • m.colZA) m.rowZ + Mat6.dyad (ih 1 1 • m.colZA) m.rowZA).xform f
  | hooke _ => 0
  | spher _ => 0
  | float _ => 0
  | brfloat _ => if fx then m.xform f else 0

/-- What `rkJointABIAddBias` adds to the bias of the parent: fixed rk_joint_fixed.c:75-80, revolute
rk_joint_revol.c:221-233, prismatic rk_joint_prism.c:214-225, cylindrical rk_joint_cylin.c:245-258,
breakable float after exchange of the table rk_joint_brfloat.c:243-248; nothing for the others. -/
def abiBias (fx : Bool) (p : Prp K) (m : Mat6 K) (b : Vec6 K) (f : Frame K) (ih : ℕ → ℕ → K) : Vec6 K :=
  match p with
  | fixed => f.xform6Ang b
  | revol p => f.xform6Ang (b - (p.u - b.ang.z) • (-ih 0 0) • m.colZA)
  | prism p => f.xform6Ang (b - (p.u - b.lin.z) • m.colZ)
  | cylin p =>
    f.xform6Ang (b + ((p.u0 - b.lin.z) * ih 0 0 + (p.u1 - b.ang.z) * ih 0 1) • m.colZ +
      ((p.u0 - b.lin.z) * ih 1 0 + (p.u1 - b.ang.z) * ih 1 1) • m.colZA)
  | hooke _ => 0
  | spher _ => 0
  | float _ => 0
  | brfloat _ => if fx then f.xform6Ang b else 0

/-- `rkJointABIDrivingTorque`: rk_joint_revol.c:235-243, rk_joint_prism.c:227-235,
rk_joint_cylin.c:260-268 (the motor acts on the first component only); nothing for the others. -/
def abiDrivingTorque (p : Prp K) : Prp K :=
  match p with
  | revol p => revol { p with u := p.motor.inputTrq - p.motor.resistance p.vel + p.tf }
  | prism p => prism { p with u := p.motor.inputTrq - p.motor.resistance p.vel + p.tf }
  | cylin p => cylin { p with
      u0 := p.motor.inputTrq - p.motor.resistance p.vel0 + p.tf0, u1 := 0 - 0 + p.tf1 }
  | p => p

/-- The product of the inverse axis inertia and the reversed bias, rk_joint_float.c:223-225. -/
def floatAcc (ih : ℕ → ℕ → K) (b : Vec6 K) : Vec6 K :=
  Vec6.ofFn fun i => (Vec6.ofFn fun j => ih i j).dot6 (-b)

/-- `rkJointABIQAcc`: fixed rk_joint_fixed.c:83-85, revolute rk_joint_revol.c:245-255, prismatic
rk_joint_prism.c:237-247, cylindrical rk_joint_cylin.c:270-285, hooke rk_joint_hooke.c:269, spherical
rk_joint_spher.c:231, float rk_joint_float.c:219-230, breakable float rk_joint_brfloat.c:222-233 and
250-252.  The last argument is the former acceleration of the link. -/
def abiQAcc (fx : Bool) (p : Prp K) (m : Mat6 K) (b jac : Vec6 K) (ih : ℕ → ℕ → K) (acc : Vec6 K) :
    Prp K × Vec6 K :=
  match p with
  | fixed => (fixed, jac)
  | revol p =>
    let q := ih 0 0 * (p.u - m.rowZA.dot6 jac - b.ang.z)
    (revol { p with acc := q }, ⟨jac.lin, ⟨jac.ang.x, jac.ang.y, jac.ang.z + q⟩⟩)
  | prism p =>
    let q := ih 0 0 * (p.u - m.rowZ.dot6 jac - b.lin.z)
    (prism { p with acc := q }, ⟨⟨jac.lin.x, jac.lin.y, jac.lin.z + q⟩, jac.ang⟩)
  | cylin p =>
    let u0 := p.u0 - m.rowZ.dot6 jac + b.lin.z
    let u1 := p.u1 - m.rowZA.dot6 jac + b.ang.z
    let q0 := u0 * ih 0 0 + u1 * ih 0 1
    let q1 := u0 * ih 1 0 + u1 * ih 1 1
    (cylin { p with acc0 := q0, acc1 := q1 },
      ⟨⟨jac.lin.x, jac.lin.y, jac.lin.z + q0⟩, ⟨jac.ang.x, jac.ang.y, jac.ang.z + q1⟩⟩)
  | hooke p => (hooke p, acc)
  | spher p => (spher p, acc)
  | float p =>
    let a := floatAcc ih b
    (float { p with acc := p.att.mulVec6 (a - jac) }, a)
  | brfloat p =>
    if fx then (brfloat p, jac)
    else
      let a := floatAcc ih b
      (brfloat { p with acc := p.att.mulVec6 (a - jac) }, a)

/-- `zVec3DNorm(v) > e`, without the square root; `none` is `HUGE_VAL`. -/
def normGt [LinearOrder K] (v : Vec3 K) : Option K → Bool
  | none => false
  | some e => decide (e < 0) || decide (e * e < sqrNorm v)

/-- The test of `_rkJointBrFloatFixedUpdateWrench`, src/rk_joint_brfloat.c:255-256: whether the
wrench `w` of the joint makes it exchange the table. -/
def breaks [LinearOrder K] (p : Prp K) (w : Vec6 K) : Bool :=
  match p with
  | brfloat p => normGt w.lin p.epf || normGt w.ang p.ept
  | _ => false

end Prp

namespace Link

/-- `_rkLinkABIInitInertia`, src/rk_abi.c:27-40. -/
def abiInertia (mp : MP K) : Mat6 K :=
  let pc := mp.mass • mp.com
  ⟨mp.mass • 1, -Mat3.skew pc, Mat3.skew pc, mp.inertia - (Mat3.skew pc).mul (Mat3.skew mp.com)⟩

/-- `rkLinkABIAlloc`, src/rk_abi.c:43-57; allocation succeeds. -/
def abiAlloc (l : Link K) : Link K :=
  { l with abi := { m := abiInertia l.body.mp, i := 0, f := 0, b := 0, c := 0, wlist := [], w := 0,
                    w0 := 0, b0 := 0, a0 := 0, path := false, axi := fun _ _ => 0,
                    iaxi := fun _ _ => 0 } }

/-- `rkLinkABIUpdateInit`, src/rk_abi.c:86-119. -/
def abiUpdateInit (pvel : Vec6 K) (l : Link K) : Link K :=
  let w := l.body.vel.ang
  let f : Vec6 K := ⟨l.body.mp.mass • triple w w l.body.mp.com, cross w (l.abi.m.aa.mulVec w)⟩
  let g := l.body.frame.att.mulVecT ⟨0, 0, -rkG * l.body.mp.mass⟩
  let e := l.body.calcExtWrench
  let w0 : Vec6 K := ⟨e.lin + g, e.ang + cross l.body.mp.com g⟩
  let c := l.joint.prp.incAccOnVel (l.adj.att.mulVecT pvel.ang) 0
  let c' : Vec6 K := ⟨c.lin + l.adj.att.mulVecT (triple pvel.ang pvel.ang l.adj.pos), c.ang⟩
  { l with abi := { l.abi with i := l.abi.m, f := f, b := f, w := l.abi.wlist.net + w0, w0 := w0,
                               c := c' } }

/-- `_rkLinkABIUpdateBackward` without the additions to the parent, src/rk_abi.c:146-155. -/
def abiBackward [Zm K] (fx : Bool) (l : Link K) : Link K :=
  let ax := l.joint.prp.abiAxisInertia fx l.abi.i l.abi.axi l.abi.iaxi
  { l with abi := { l.abi with b := l.abi.b - l.abi.w, axi := ax.1, iaxi := ax.2 },
           joint := { l.joint with prp := l.joint.prp.abiDrivingTorque } }

/-- What `rkJointABIAddABI` adds to the parent, called at src/rk_abi.c:160. -/
def abiToParentI (fx : Bool) (l : Link K) : Mat6 K :=
  l.joint.prp.abiABI fx l.abi.i l.adj l.abi.iaxi

/-- What `_rkLinkABIAddBias` adds to the parent, src/rk_abi.c:135-143. -/
def abiToParentB (fx : Bool) (l : Link K) : Vec6 K :=
  l.joint.prp.abiBias fx l.abi.i (l.abi.i.mulVec l.abi.c + l.abi.b) l.adj l.abi.iaxi

/-- Addition to the inertia and the bias of a link. -/
def abiAdd (l : Link K) (d : Mat6 K × Vec6 K) : Link K :=
  { l with abi := { l.abi with i := l.abi.i + d.1, b := l.abi.b + d.2 } }

/-- `_rkLinkABIUpdateForward`, src/rk_abi.c:177-189. -/
def abiForward (fx : Bool) (pa : Vec6 K) (l : Link K) : Link K :=
  let jac := l.adj.att.mulVecT6 (pa.linShift l.adj.pos) + l.abi.c
  let r := l.joint.prp.abiQAcc fx l.abi.i l.abi.b jac l.abi.iaxi l.body.acc
  { l with joint := { l.joint with prp := r.1 }, body := { l.body with acc := r.2 } }

/-- `_rkJointUpdateWrench`, src/rk_joint.c:158-162; the breakable joint does the same before the test
(rk_joint_brfloat.c:254). -/
def abiWrench (l : Link K) : Link K :=
  { l with joint := { l.joint with wrench := l.abi.i.mulVec l.body.acc + l.abi.b } }

/-- `_rkLinkABISubBiasNetWrenchAddExForce`, src/rk_abi.c:291-299. -/
def abiSubNet (l : Link K) : Link K :=
  if l.abi.wlist = [] then l
  else { l with abi := { l.abi with b := l.abi.b - l.abi.wlist.net } }

/-- src/rk_abi.c:304. -/
def abiResetB (l : Link K) : Link K :=
  { l with abi := { l.abi with b := l.abi.f - l.abi.w } }

/-- Set `abi_backward_path`. -/
def abiSetPath (l : Link K) (b : Bool) : Link K := { l with abi := { l.abi with path := b } }

end Link

namespace Chain

/-- `rkLinkParent` of link `i` in the index tree: `none` when `i` is not in the tree, `some none`
for a null pointer. -/
def parentOf (t : LTree ℕ) (i : ℕ) : Option (Option ℕ) := (t.pathUp i).map fun p => p.tail.head?

/-- The body of the loop of `rkChainABIUpdateInit`, src/rk_abi.c:126-131. -/
def abiInitStep (t : LTree ℕ) (ls : List (Link K)) (i : ℕ) : Option (List (Link K)) :=
  match parentOf t i, ls[i]? with
  | some none, some l => some (ls.set i (l.abiUpdateInit 0))
  | some (some p), some l =>
    match ls[p]? with
    | some pl => some (ls.set i (l.abiUpdateInit pl.body.vel))
    | none => none
  | _, _ => none

/-- `rkChainABIUpdateInit`, src/rk_abi.c:122-132. -/
def abiInitAt (t : LTree ℕ) (ls : List (Link K)) : Option (List (Link K)) :=
  (List.range ls.length).foldlM (abiInitStep t) ls

/-- Apply a function to entry `p`, if `p` is not null. -/
def modifyParent (f : Link K → Link K) (par : Option ℕ) (ls : List (Link K)) :
    Option (List (Link K)) :=
  match par with
  | none => some ls
  | some p =>
    match ls[p]? with
    | none => none
    | some pl => some (ls.set p (f pl))

/-- `rkLinkABIUpdateBackward` with `_rkLinkABIUpdateBackward`, src/rk_abi.c:146-174: the sibling,
then the child, then the link itself, which adds to its parent `par`. -/
def abiBackwardAt [Zm K] (fx : Bool) (par : Option ℕ) :
    LTree ℕ → List (Link K) → Option (List (Link K))
  | .nil, ls => some ls
  | .node i c s, ls => do
    let ls1 ← abiBackwardAt fx par s ls
    let ls2 ← abiBackwardAt fx (some i) c ls1
    let l : Link K ← ls2[i]?
    let l' := l.abiBackward fx
    modifyParent (fun pl => pl.abiAdd (l'.abiToParentI fx, l'.abiToParentB fx)) par (ls2.set i l')

/-- `rkLinkABIUpdateForward`, src/rk_abi.c:192-201: the link, then the sibling, then the child.
`wr` adds `rkJointUpdateWrench`: `rkLinkABIUpdateForwardGetWrench`, src/rk_abi.c:204-215. -/
def abiForwardAt (fx wr : Bool) : LTree ℕ → Vec6 K → List (Link K) → Option (List (Link K))
  | .nil, _, ls => some ls
  | .node i c s, pa, ls => do
    let l : Link K ← ls[i]?
    let l1 := l.abiForward fx pa
    let l2 := if wr then l1.abiWrench else l1
    let ls1 ← abiForwardAt fx wr s pa (ls.set i l2)
    let li : Link K ← ls1[i]?
    abiForwardAt fx wr c li.body.acc ls1

/-- `_rkChainZeroLinkRate`, src/rk_abi.c:218-224. -/
def abiZeroLinkRate (c : Chain K) : Chain K :=
  { c with link := c.link.map fun l => { l with body := l.body.zeroRate } }

/-- `rkChainABIAlloc`, src/rk_abi.c:60-66. -/
def abiAlloc (c : Chain K) : Chain K := { c with link := c.link.map Link.abiAlloc }

/-- `rkChainABIUpdate` (`wr = false`) and `rkChainABIUpdateGetWrench` (`wr = true`),
src/rk_abi.c:227-248.  Simplification: when a breakable joint exchanges the table during the last
pass, the joints visited after it already use the new one; here the whole pass uses the old one. -/
def abiUpdate [Zm K] (fx wr : Bool) (c : Chain K) : Option (Chain K) :=
  if LinkArray.jointSize c.link = 0 then some c.abiZeroLinkRate
  else do
    let ls1 ← abiInitAt c.shape c.link
    let ls2 ← abiBackwardAt fx none c.shape ls1
    let ls3 ← abiForwardAt fx wr c.shape 0 ls2
    pure { c with link := ls3 }

/-- The state of the shared table after the wrenches have been computed. -/
def abiBreak [LinearOrder K] (fx : Bool) (c : Chain K) : Bool :=
  fx || c.link.any fun l => l.joint.prp.breaks l.joint.wrench

/-- `rkChainABI`, src/rk_abi.c:251-264; the result is the chain and the returned vector, `none` for
the null pointer. -/
def abi [LinearOrder K] [Zm K] (fx : Bool) (dis vel acc : List K) (c : Chain K) :
    Option (Chain K × Option (List K)) :=
  if LinkArray.jointSize c.link = 0 then some (c.abiZeroLinkRate, none)
  else do
    let ls ← LinkArray.setJointAll Prp.setDis dis c.link
    let ls' ← LinkArray.setJointAll Prp.setVel vel ls
    let c1 ← updateFK { c with link := ls' }
    let c2 ← c1.updateVel
    let c3 ← c2.abiUpdate fx true
    let acc' ← LinkArray.getJointAll Prp.getAcc c3.link acc
    pure (c3, some acc')

/-! ## Additional external forces -/

/-- `_rkLinkABIFindBackwardPathAddExForce`, src/rk_abi.c:279-289. -/
def abiFindPathAt (par : Option ℕ) : LTree ℕ → List (Link K) → Option (List (Link K))
  | .nil, ls => some ls
  | .node i c s, ls => do
    let ls1 ← abiFindPathAt (some i) c ls
    let ls2 ← abiFindPathAt par s ls1
    let l : Link K ← ls2[i]?
    if l.abi.path = true ∨ l.abi.wlist ≠ [] then modifyParent (fun pl => pl.abiSetPath true) par ls2
    else some ls2

/-- `_rkLinkABIUpdateBackwardAddExForce`, src/rk_abi.c:301-314. -/
def abiAddExAt (fx : Bool) (par : Option ℕ) : LTree ℕ → List (Link K) → Option (List (Link K))
  | .nil, ls => some ls
  | .node i c s, ls => do
    let l : Link K ← ls[i]?
    let ls1 ← if l.abi.path = true then abiAddExAt fx (some i) c (ls.set i l.abiResetB.abiSubNet)
              else some (ls.set i l.abiSubNet)
    let l1 : Link K ← ls1[i]?
    let ls2 ← modifyParent (fun pl => pl.abiAdd (0, l1.abiToParentB fx)) par ls1
    abiAddExAt fx par s ls2

/-- `_rkChainABIUpdateBackwardAddExForce`, src/rk_abi.c:316-324. -/
def abiBackwardAddEx (fx : Bool) (t : LTree ℕ) (ls : List (Link K)) : Option (List (Link K)) := do
  let ls1 ← abiFindPathAt none t (ls.map fun l => l.abiSetPath false)
  abiAddExAt fx none t ls1

/-- `rkChainABIUpdateAddExForce` and `rkChainABIUpdateAddExForceGetWrench`, src/rk_abi.c:326-344. -/
def abiUpdateAddEx (fx wr : Bool) (c : Chain K) : Option (Chain K) :=
  if LinkArray.jointSize c.link = 0 then some c.abiZeroLinkRate
  else do
    let ls1 ← abiBackwardAddEx fx c.shape c.link
    let ls2 ← abiForwardAt fx wr c.shape 0 ls1
    pure { c with link := ls2 }

/-- `rkChainABIPushPrpAccBias`, src/rk_abi.c:353-361. -/
def abiPush (c : Chain K) : Chain K :=
  { c with link := c.link.map fun l => { l with abi := { l.abi with b0 := l.abi.b, a0 := l.body.acc } } }

/-- `rkChainABIPopPrpAccBias`, src/rk_abi.c:363-371. -/
def abiPop (c : Chain K) : Chain K :=
  { c with link := c.link.map fun l =>
      { l with abi := { l.abi with b := l.abi.b0 }, body := { l.body with acc := l.abi.a0 } } }

/-- Copy `b0` to `b` in link `i`, for a pointer that may be null. -/
def abiPopB (ls : List (Link K)) : Option ℕ → Option (List (Link K))
  | none => some ls
  | some i =>
    match ls[i]? with
    | some l => some (ls.set i { l with abi := { l.abi with b := l.abi.b0 } })
    | none => none

/-- `rkChainABIPopPrpAccBiasAddExForceTwo`, src/rk_abi.c:373-384. -/
def abiPopTwo (c : Chain K) (link link2 : Option ℕ) : Option (Chain K) := do
  let ls1 ← abiPopB c.link link
  let ls2 ← abiPopB ls1 link2
  pure { c with link := ls2.map fun l =>
      { l with abi := { l.abi with b := if l.abi.path then l.abi.b0 else l.abi.b },
               body := { l.body with acc := l.abi.a0 } } }

/-- `_rkLinkABIFindBackwardPathAddExForceOne`, src/rk_abi.c:386-392, followed by
`rkWrenchListPush`, src/rk_abi.c:400-407: for a link and a wrench that are not null. -/
def abiPushOne (t : LTree ℕ) (ls : List (Link K)) : Option (ℕ × Wrench K) → Option (List (Link K))
  | none => some ls
  | some (i, w) =>
    match t.pathUp i with
    | none => none
    | some p =>
      let ls1 := (p.tail).foldl (fun ls j => ls.modify j fun l => l.abiSetPath true) ls
      match ls1[i]? with
      | none => none
      | some l => some (ls1.set i { l with abi := { l.abi with wlist := l.abi.wlist.push w } })

/-- `zListPurge` of the cell at position `k` of the list of link `i`. -/
def abiPurge (ls : List (Link K)) (i k : ℕ) : List (Link K) :=
  ls.modify i fun l => { l with abi := { l.abi with wlist := l.abi.wlist.eraseIdx k } }

/-- The clean-up of src/rk_abi.c:410-412.  Cells are purged by pointer: that of the first wrench is
the second cell when both were pushed on the same list, otherwise each is the first cell. -/
def abiPurgeTwo (ls : List (Link K)) (a b : Option (ℕ × Wrench K)) : List (Link K) :=
  match a, b with
  | none, none => ls
  | some (i, _), none => abiPurge ls i 0
  | none, some (j, _) => abiPurge ls j 0
  | some (i, _), some (j, _) => abiPurge (abiPurge ls i (if i = j then 1 else 0)) j 0

/-- `rkChainABIUpdateAddExForceTwo` with `_rkChainABIUpdateBackwardAddExForceTwo`,
src/rk_abi.c:394-423.  Each argument is a link and a wrench, or null. -/
def abiUpdateAddExTwo (fx : Bool) (c : Chain K) (a b : Option (ℕ × Wrench K)) : Option (Chain K) :=
  if LinkArray.jointSize c.link = 0 then some c.abiZeroLinkRate
  else do
    let ls1 ← abiPushOne c.shape (c.link.map fun l => l.abiSetPath false) a
    let ls2 ← abiPushOne c.shape ls1 b
    let ls3 ← abiAddExAt fx none c.shape ls2
    let ls4 ← abiForwardAt fx false c.shape 0 (abiPurgeTwo ls3 a b)
    pure { c with link := ls4 }

end Chain
end Roki
