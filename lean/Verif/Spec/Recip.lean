import Verif.Spec.ABI
set_option autoImplicit false

/-! # Vocabulary for the response of forward dynamics to additional forces -/

namespace Roki.Spec
variable {K : Type*} [Field K]

/-- What a set of wrenches on a link does along the change of acceleration from the link `l0` to the link `l`, which is the
same link in another run: every force acts along the change of the acceleration of its point of action (`rkLinkPointAcc`),
every torque along the change of the angular acceleration. -/
def loadWork (W : WrenchList K) (l0 l : Link K) : K :=
  (W.map fun w => dot w.w.lin (l.pointAcc w.p - l0.pointAcc w.p) + dot w.w.ang (l.body.acc.ang - l0.body.acc.ang)).sum

/-- The same for the loads of all links of a chain, load `W i` on link `i`. -/
def totalWork (W : ℕ → WrenchList K) (c0 c : Chain K) : K :=
  ((List.range c0.link.length).map fun i =>
    match c0.link[i]?, c.link[i]? with
    | some l0, some l => loadWork (W i) l0 l
    | _, _ => 0).sum

/-- All wrenches of a list, `x` times as strong. -/
def scaled (x : K) (W : WrenchList K) : WrenchList K := W.map fun w => { w with w := x • w.w }

/-- The response to `x` times one load and `y` times another, when `o` is the answer without loads and `a`, `b` are the
answers to the two loads alone. -/
def comb (x y o a b : K) : K := o + x * (a - o) + y * (b - o)

/-- The same for vectors. -/
def comb6 (x y : K) (o a b : Vec6 K) : Vec6 K := o + x • (a - o) + y • (b - o)

end Roki.Spec
