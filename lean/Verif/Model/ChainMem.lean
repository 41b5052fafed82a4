import Verif.Model.Mem
set_option autoImplicit false

/-!
# Memory of a kinematic chain

The blocks that `rkChainClone`, `rkChainDestroy`, `rkChainABIAlloc`, `rkChainABIDestroy` and the lists of external wrenches
obtain and release.  Blocks, heap and denied requests are those of `Verif.Model.Mem`.  Only pointers are modelled, no other
data.  A multishape (`zMShape3D`) with all that it holds is one block; it is obtained by `zMShape3DClone` and released by
`zMShape3DDestroy` and `zFree`.  The memory of an array of links or motors is zeroed (`zArrayAlloc` uses `calloc`), and a
zeroed list is empty.
-/

namespace Roki.Mem

/-- The motor models, src/rk_motor_none.c:28, src/rk_motor_trq.c, src/rk_motor_dc.c. -/
inductive MotKind | none | trq | dc
deriving DecidableEq

/-- The joint types, include/roki/rk_joint.h. -/
inductive JKind | fixed | revol | prism | cylin | hooke | spher | float | brfloat
deriving DecidableEq

/-- Number of coordinates, the second member of `rkJointCom` (src/rk_joint_fixed.c:94, src/rk_joint_revol.c:340 and the other joints). -/
def JKind.size : JKind → ℕ
  | fixed => 0
  | revol => 1
  | prism => 1
  | cylin => 2
  | hooke => 2
  | spher => 3
  | float => 6
  | brfloat => 6

/-- Whether `rkJointGetMotor` returns a motor (src/rk_joint_revol.c:170, src/rk_joint_prism.c:163, src/rk_joint_cylin.c:189,
src/rk_joint_hooke.c:218, src/rk_joint_spher.c:181); the others return a null pointer (src/rk_joint_fixed.c:58,
src/rk_joint_float.c:190, src/rk_joint_brfloat.c:196). -/
def JKind.motored : JKind → Bool
  | fixed => false
  | float => false
  | brfloat => false
  | _ => true

/-- `rkMotor`, include/roki/rk_motor.h: its type, and the pointers to its name and its properties. -/
structure MMotor where
  kind : MotKind
  name : Option ℕ
  prp : Option ℕ
deriving DecidableEq

/-- A zeroed motor, or one after `rkMotorInit` (include/roki/rk_motor.h). -/
def MMotor.init : MMotor := ⟨.none, none, none⟩

/-- `rkMotorAssign`, src/rk_motor.c:14-19.  The former properties are not released; `rk_motor_none` has none
(src/rk_motor_none.c:11). -/
def MMotor.assign (m : MMotor) (k : MotKind) : M MMotor := do
  let p ← if k = .none then pure none else alloc
  pure { m with kind := k, prp := p }

/-- `rkMotorClone`, src/rk_motor.c:40-46: the result always has a name of its own (`zName` of a motor without name is a
constant string); copying reads and writes through both pointers, except for `rk_motor_none` (src/rk_motor_none.c:12). -/
def MMotor.clone (org cln : MMotor) : M MMotor := do
  let m ← cln.assign org.kind
  let n ← alloc
  if org.kind = .none then pure { m with name := n }
  else do
    deref org.prp
    deref m.prp
    pure { m with name := n }

/-- `rkJoint` with the motor that its properties contain. -/
structure MJoint where
  kind : JKind
  prp : Option ℕ
  motor : MMotor
deriving DecidableEq

/-- `rkJointAssign`, src/rk_joint.c:16-23.  A fixed joint has no properties (src/rk_joint_fixed.c:11).  `_init` assigns
`rk_motor_none` to the motor (src/rk_joint_revol.c:14).  `rkJointNeutral` writes through the pointer to the properties,
also if the request was denied. -/
def MJoint.assign (k : JKind) : M MJoint := do
  if k = .fixed then pure ⟨k, none, MMotor.init⟩
  else do
    let p ← alloc
    let m ← if p.isSome && k.motored then MMotor.init.assign .none else pure MMotor.init
    deref p
    pure ⟨k, p, m⟩

/-- `rkJointClone`, src/rk_joint.c:62-71, with `rkJointCopyState`, src/rk_joint.c:74-83, which reads the original and writes the
clone. -/
def MJoint.clone (org : MJoint) : M MJoint := do
  let j ← MJoint.assign org.kind
  if org.kind = .fixed then pure j
  else do
    deref org.prp
    deref j.prp
    if org.kind.motored then do
      let m ← org.motor.clone j.motor
      pure { j with motor := m }
    else pure j

/-- The pointers of `rkLink`, include/roki/rk_link.h: name, joint, cells of the list of wrenches and of the list of shapes,
material, and what forward dynamics has allocated. -/
structure MLink where
  name : Option ℕ
  joint : MJoint
  wrenches : List ℕ
  shapes : List ℕ
  stuff : Option ℕ
  axi : Option ℕ
  iaxi : Option ℕ
  wlist : List ℕ
deriving DecidableEq

/-- One new block for each element of a list; stops with a denied request (src/rk_body.c:150-155, 158-159). -/
def copyCells : List ℕ → M (Bool × List ℕ)
  | [] => pure (true, [])
  | _ :: l => do
    match ← alloc with
    | none => pure (false, [])
    | some b => do
      let (ok, bs) ← copyCells l
      pure (ok, b :: bs)

/-- `rkLinkClone`, src/rk_link.c:44-66, with `rkBodyClone`, src/rk_body.c:142-166; `none` is the null pointer. -/
def MLink.clone (org : MLink) : M (Option MLink) := do
  let n ← alloc
  if n.isNone then pure none
  else do
    let j ← org.joint.clone
    let (ok, ws) ← copyCells org.wrenches
    if !ok then pure none
    else do
      let (ok, ss) ← copyCells org.shapes
      if !ok then pure none
      else if org.stuff.isNone then pure (some ⟨n, j, ws, ss, none, none, none, []⟩)
      else do
        let s ← alloc
        if s.isNone then pure none
        else pure (some ⟨n, j, ws, ss, s, none, none, []⟩)

/-- `rkLinkDestroy`, src/rk_link.c:34-41, with `rkJointDestroy`, src/rk_joint.c:36-40.  The material, the motor in the
properties of the joint and the memory of forward dynamics are not released. -/
def MLink.destroy (l : MLink) : M Unit := do
  free l.name
  free l.joint.prp
  IK.freeAll l.wrenches
  IK.freeAll l.shapes

/-- `rkLinkABIAlloc`, src/rk_abi.c:43-57.  The former pointers are overwritten. -/
def MLink.abiAlloc (l : MLink) : M MLink :=
  if l.joint.kind.size = 0 then pure { l with axi := none, iaxi := none, wlist := [] }
  else do
    let a ← alloc
    let b ← alloc
    pure { l with axi := a, iaxi := b, wlist := [] }

/-- `rkLinkABIDestroy`, src/rk_abi.c:69-74.  What remains in the pointers is as for the solver (`after`). -/
def MLink.abiDestroy (nul : Bool) (l : MLink) : M MLink := do
  free l.axi
  free l.iaxi
  IK.freeAll l.wlist
  pure { l with axi := after nul l.axi, iaxi := after nul l.iaxi, wlist := [] }

/-- The array of motors, `rkMotorArray`: the array itself, its buffer, the motors. -/
structure MMotors where
  self : ℕ
  buf : Option ℕ
  elem : List MMotor
deriving DecidableEq

/-- The clones of the motors, src/rk_motor.c:99-102; `rkMotorClone` never returns a null pointer. -/
def cloneMotors : List MMotor → M (List MMotor)
  | [] => pure []
  | m :: l => do
    let m' ← m.clone MMotor.init
    let l' ← cloneMotors l
    pure (m' :: l')

/-- `rkMotorArrayClone`, src/rk_motor.c:88-104. -/
def MMotors.clone (org : MMotors) : M (Option MMotors) := do
  match ← alloc with
  | none => pure none
  | some s =>
    if org.elem = [] then pure (some ⟨s, none, []⟩)
    else do
      let b ← alloc
      if b.isNone then pure none
      else do
        let l ← cloneMotors org.elem
        pure (some ⟨s, b, l⟩)

/-- The pointers of `rkChain`, include/roki/rk_chain.h: name, buffer of the array of links, links, multishape, motors. -/
structure MChain where
  name : Option ℕ
  arr : Option ℕ
  links : List MLink
  shape : Option ℕ
  motors : Option MMotors
deriving DecidableEq

namespace MChain

/-- `rkChainInit`, src/rk_chain.c:15-25. -/
def init : MChain := ⟨none, none, [], none, none⟩

/-- Clones of the links in turn, src/rk_chain.c:70-72. -/
def cloneLinks : List MLink → M (Option (List MLink))
  | [] => pure (some [])
  | l :: ls => do
    match ← l.clone with
    | none => pure none
    | some l' => do
      match ← cloneLinks ls with
      | none => pure none
      | some ls' => pure (some (l' :: ls'))

/-- The second half of `rkChainClone`, src/rk_chain.c:68-75: the links. -/
def cloneRest (org : MChain) (n sh : Option ℕ) (mo : Option MMotors) : M (Option MChain) := do
  let a ← alloc
  if a.isNone then pure none
  else do
    match ← cloneLinks org.links with
    | none => pure none
    | some ls => pure (some ⟨n, a, ls, sh, mo⟩)

/-- The multishape of the clone, `zMShape3DClone`, if the original has one, src/rk_chain.c:63. -/
def cloneShape (org : MChain) : M (Option ℕ) :=
  match org.shape with
  | none => pure none
  | some _ => alloc

/-- `rkChainClone`, src/rk_chain.c:46-76; `none` is the null pointer.  What was obtained before a failure is not released. -/
def clone (org : MChain) : M (Option MChain) := do
  if org.links = [] then pure none
  else do
    let n ← alloc
    if n.isNone then pure none
    else do
      let sh ← cloneShape org
      if org.shape.isSome && sh.isNone then pure none
      else
        match org.motors with
        | none => cloneRest org n sh none
        | some mo => do
          match ← mo.clone with
          | none => pure none
          | some mo' => cloneRest org n sh (some mo')

/-- `rkLinkDestroy` for all links, src/rk_chain.c:34-35. -/
def destroyLinks : List MLink → M Unit
  | [] => pure ()
  | l :: ls => do
    l.destroy
    destroyLinks ls

/-- `rkChainDestroy`, src/rk_chain.c:28-44.  The motors in the array are not destroyed, only the array. -/
def destroy (c : MChain) : M MChain := do
  free c.name
  destroyLinks c.links
  free c.arr
  free c.shape
  match c.motors with
  | none => pure init
  | some mo => do
    free mo.buf
    free (some mo.self)
    pure init

/-- `rkChainABIAlloc` for all links, src/rk_abi.c:60-66. -/
def abiAllocLinks : List MLink → M (List MLink)
  | [] => pure []
  | l :: ls => do
    let l' ← l.abiAlloc
    let ls' ← abiAllocLinks ls
    pure (l' :: ls')

/-- `rkChainABIAlloc`, src/rk_abi.c:60-66. -/
def abiAlloc (c : MChain) : M MChain := do
  let ls ← abiAllocLinks c.links
  pure { c with links := ls }

/-- `rkChainABIDestroy` for all links, src/rk_abi.c:77-83. -/
def abiDestroyLinks (nul : Bool) : List MLink → M (List MLink)
  | [] => pure []
  | l :: ls => do
    let l' ← l.abiDestroy nul
    let ls' ← abiDestroyLinks nul ls
    pure (l' :: ls')

/-- `rkChainABIDestroy`, src/rk_abi.c:77-83. -/
def abiDestroy (nul : Bool) (c : MChain) : M MChain := do
  let ls ← abiDestroyLinks nul c.links
  pure { c with links := ls }

/-- The user obtains a wrench and attaches it to a link, `rkLinkExtWrenchPush`, include/roki/rk_link.h:214; nothing is attached
if the link does not exist or the request is denied. -/
def push (i : ℕ) (c : MChain) : M MChain :=
  match c.links[i]? with
  | none => pure c
  | some l => do
    match ← alloc with
    | none => pure c
    | some b => pure { c with links := c.links.set i { l with wrenches := b :: l.wrenches } }

/-- The release of the wrenches of all links, src/rk_chain.c:516-522. -/
def wrenchDestroyLinks : List MLink → M (List MLink)
  | [] => pure []
  | l :: ls => do
    IK.freeAll l.wrenches
    let ls' ← wrenchDestroyLinks ls
    pure ({ l with wrenches := [] } :: ls')

/-- `rkChainExtWrenchDestroy`, src/rk_chain.c:516-522. -/
def wrenchDestroy (c : MChain) : M MChain := do
  let ls ← wrenchDestroyLinks c.links
  pure { c with links := ls }

/-- The calls of a program that handles several chains; the number is that of the chain. -/
inductive Op
  | clone (i : ℕ)
  | destroy (i : ℕ)
  | abiAlloc (i : ℕ)
  | abiDestroy (i : ℕ)
  | push (i link : ℕ)
  | wrenchDestroy (i : ℕ)
deriving DecidableEq

/-- The effect of a call on the chains of the program.  The program initialises a new chain by `rkChainInit` and passes it to
`rkChainClone`; it becomes the last one.  A chain without links is not copied (src/rk_chain.c:55-58), so that the new one stays
as it was.  (Simplification: the same is said of a clone that fails for a denied request, which keeps some of the pointers.) -/
def step (nul : Bool) (w : List MChain) : Op → M (List MChain)
  | .clone i =>
    match w[i]? with
    | none => pure w
    | some c => do
      match ← c.clone with
      | none => pure (w ++ [init])
      | some c' => pure (w ++ [c'])
  | .destroy i =>
    match w[i]? with
    | none => pure w
    | some c => do
      let c' ← c.destroy
      pure (w.set i c')
  | .abiAlloc i =>
    match w[i]? with
    | none => pure w
    | some c => do
      let c' ← c.abiAlloc
      pure (w.set i c')
  | .abiDestroy i =>
    match w[i]? with
    | none => pure w
    | some c => do
      let c' ← c.abiDestroy nul
      pure (w.set i c')
  | .push i l =>
    match w[i]? with
    | none => pure w
    | some c => do
      let c' ← c.push l
      pure (w.set i c')
  | .wrenchDestroy i =>
    match w[i]? with
    | none => pure w
    | some c => do
      let c' ← c.wrenchDestroy
      pure (w.set i c')

/-- A sequence of calls. -/
def run (nul : Bool) : List Op → List MChain → M (List MChain)
  | [], w => pure w
  | o :: os, w => do
    let w' ← step nul w o
    run nul os w'

end MChain

end Roki.Mem
