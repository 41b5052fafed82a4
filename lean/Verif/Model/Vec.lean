import Mathlib.Algebra.Module.Defs
import Mathlib.Algebra.Field.Defs
import Mathlib.Tactic.Ring
import Mathlib.Tactic.Abel
import Mathlib.Tactic.Module
import Mathlib.Tactic.LinearCombination

/-!
# 3D and 6D vectors, matrices and frames

RoKi calls the Zeo library for all vector arithmetic.  Zeo is not part of
/repo, so the definitions of this file are part of the trusted base: they give
the documented meaning of the Zeo functions named in the comments, with
`double` idealised as an element of a field `K`.
-/

namespace Roki

/-- `zVec3D` (Zeo). -/
@[ext] structure Vec3 (K : Type*) where
  x : K
  y : K
  z : K
deriving DecidableEq, Repr

/-- `zMat3D` (Zeo): `v[0]`, `v[1]`, `v[2]` are the base (column) vectors. -/
@[ext] structure Mat3 (K : Type*) where
  cx : Vec3 K
  cy : Vec3 K
  cz : Vec3 K
deriving DecidableEq, Repr

/-- `zVec6D` (Zeo): `e[zX..zZ]` is the linear part, `e[zXA..zZA]` the angular part. -/
@[ext] structure Vec6 (K : Type*) where
  lin : Vec3 K
  ang : Vec3 K
deriving DecidableEq, Repr

/-- `zFrame3D` (Zeo). -/
@[ext] structure Frame (K : Type*) where
  pos : Vec3 K
  att : Mat3 K
deriving DecidableEq, Repr

/-- `zMat6D` (Zeo).  `e[i][j]` is the 3x3 block in block column `i` and block row `j`,
hence `ll = e[0][0]`, `al = e[0][1]` (angular row, linear column), `la = e[1][0]`,
`aa = e[1][1]`. -/
@[ext] structure Mat6 (K : Type*) where
  ll : Mat3 K
  la : Mat3 K
  al : Mat3 K
  aa : Mat3 K
deriving DecidableEq, Repr

section instances
variable {K : Type*}

namespace Vec3
/-- `ZVEC3DZERO`. -/
instance [Zero K] : Zero (Vec3 K) := ⟨⟨0, 0, 0⟩⟩
/-- `zVec3DAdd`. -/
instance [Add K] : Add (Vec3 K) := ⟨fun a b => ⟨a.x + b.x, a.y + b.y, a.z + b.z⟩⟩
/-- `zVec3DSub`. -/
instance [Sub K] : Sub (Vec3 K) := ⟨fun a b => ⟨a.x - b.x, a.y - b.y, a.z - b.z⟩⟩
/-- `zVec3DRev`. -/
instance [Neg K] : Neg (Vec3 K) := ⟨fun a => ⟨-a.x, -a.y, -a.z⟩⟩
/-- `zVec3DMul`. -/
instance [Mul K] : SMul K (Vec3 K) := ⟨fun k a => ⟨k * a.x, k * a.y, k * a.z⟩⟩

@[simp] theorem zero_x [Zero K] : (0 : Vec3 K).x = 0 := rfl
@[simp] theorem zero_y [Zero K] : (0 : Vec3 K).y = 0 := rfl
@[simp] theorem zero_z [Zero K] : (0 : Vec3 K).z = 0 := rfl
@[simp] theorem add_x [Add K] (a b : Vec3 K) : (a + b).x = a.x + b.x := rfl
@[simp] theorem add_y [Add K] (a b : Vec3 K) : (a + b).y = a.y + b.y := rfl
@[simp] theorem add_z [Add K] (a b : Vec3 K) : (a + b).z = a.z + b.z := rfl
@[simp] theorem sub_x [Sub K] (a b : Vec3 K) : (a - b).x = a.x - b.x := rfl
@[simp] theorem sub_y [Sub K] (a b : Vec3 K) : (a - b).y = a.y - b.y := rfl
@[simp] theorem sub_z [Sub K] (a b : Vec3 K) : (a - b).z = a.z - b.z := rfl
@[simp] theorem neg_x [Neg K] (a : Vec3 K) : (-a).x = -a.x := rfl
@[simp] theorem neg_y [Neg K] (a : Vec3 K) : (-a).y = -a.y := rfl
@[simp] theorem neg_z [Neg K] (a : Vec3 K) : (-a).z = -a.z := rfl
@[simp] theorem smul_x [Mul K] (k : K) (a : Vec3 K) : (k • a).x = k * a.x := rfl
@[simp] theorem smul_y [Mul K] (k : K) (a : Vec3 K) : (k • a).y = k * a.y := rfl
@[simp] theorem smul_z [Mul K] (k : K) (a : Vec3 K) : (k • a).z = k * a.z := rfl

instance [CommRing K] : AddCommGroup (Vec3 K) where
  add_assoc a b c := by ext <;> simp [add_assoc]
  zero_add a := by ext <;> simp
  add_zero a := by ext <;> simp
  add_comm a b := by ext <;> simp [add_comm]
  neg_add_cancel a := by ext <;> simp
  sub_eq_add_neg a b := by ext <;> simp [sub_eq_add_neg]
  nsmul := nsmulRec
  zsmul := zsmulRec

instance [CommRing K] : Module K (Vec3 K) where
  one_smul a := by ext <;> simp
  mul_smul a b c := by ext <;> simp [mul_assoc]
  smul_zero a := by ext <;> simp
  smul_add a b c := by ext <;> simp [mul_add]
  add_smul a b c := by ext <;> simp [add_mul]
  zero_smul a := by ext <;> simp
end Vec3

namespace Mat3
/-- `ZMAT3DZERO`. -/
instance [Zero K] : Zero (Mat3 K) := ⟨⟨0, 0, 0⟩⟩
/-- `zMat3DAdd`. -/
instance [Add K] : Add (Mat3 K) := ⟨fun a b => ⟨a.cx + b.cx, a.cy + b.cy, a.cz + b.cz⟩⟩
/-- `zMat3DSub`. -/
instance [Sub K] : Sub (Mat3 K) := ⟨fun a b => ⟨a.cx - b.cx, a.cy - b.cy, a.cz - b.cz⟩⟩
/-- `zMat3DRev`. -/
instance [Neg K] : Neg (Mat3 K) := ⟨fun a => ⟨-a.cx, -a.cy, -a.cz⟩⟩
/-- `zMat3DMul`. -/
instance [Mul K] : SMul K (Mat3 K) := ⟨fun k a => ⟨k • a.cx, k • a.cy, k • a.cz⟩⟩
/-- `ZMAT3DIDENT`. -/
instance [Zero K] [One K] : One (Mat3 K) := ⟨⟨⟨1, 0, 0⟩, ⟨0, 1, 0⟩, ⟨0, 0, 1⟩⟩⟩

@[simp] theorem zero_cx [Zero K] : (0 : Mat3 K).cx = 0 := rfl
@[simp] theorem zero_cy [Zero K] : (0 : Mat3 K).cy = 0 := rfl
@[simp] theorem zero_cz [Zero K] : (0 : Mat3 K).cz = 0 := rfl
@[simp] theorem one_cx [Zero K] [One K] : (1 : Mat3 K).cx = ⟨1, 0, 0⟩ := rfl
@[simp] theorem one_cy [Zero K] [One K] : (1 : Mat3 K).cy = ⟨0, 1, 0⟩ := rfl
@[simp] theorem one_cz [Zero K] [One K] : (1 : Mat3 K).cz = ⟨0, 0, 1⟩ := rfl
@[simp] theorem add_cx [Add K] (a b : Mat3 K) : (a + b).cx = a.cx + b.cx := rfl
@[simp] theorem add_cy [Add K] (a b : Mat3 K) : (a + b).cy = a.cy + b.cy := rfl
@[simp] theorem add_cz [Add K] (a b : Mat3 K) : (a + b).cz = a.cz + b.cz := rfl
@[simp] theorem sub_cx [Sub K] (a b : Mat3 K) : (a - b).cx = a.cx - b.cx := rfl
@[simp] theorem sub_cy [Sub K] (a b : Mat3 K) : (a - b).cy = a.cy - b.cy := rfl
@[simp] theorem sub_cz [Sub K] (a b : Mat3 K) : (a - b).cz = a.cz - b.cz := rfl
@[simp] theorem neg_cx [Neg K] (a : Mat3 K) : (-a).cx = -a.cx := rfl
@[simp] theorem neg_cy [Neg K] (a : Mat3 K) : (-a).cy = -a.cy := rfl
@[simp] theorem neg_cz [Neg K] (a : Mat3 K) : (-a).cz = -a.cz := rfl
@[simp] theorem smul_cx [Mul K] (k : K) (a : Mat3 K) : (k • a).cx = k • a.cx := rfl
@[simp] theorem smul_cy [Mul K] (k : K) (a : Mat3 K) : (k • a).cy = k • a.cy := rfl
@[simp] theorem smul_cz [Mul K] (k : K) (a : Mat3 K) : (k • a).cz = k • a.cz := rfl

instance [CommRing K] : AddCommGroup (Mat3 K) where
  add_assoc a b c := by ext <;> simp [add_assoc]
  zero_add a := by ext <;> simp
  add_zero a := by ext <;> simp
  add_comm a b := by ext <;> simp [add_comm]
  neg_add_cancel a := by ext <;> simp
  sub_eq_add_neg a b := by ext <;> simp [sub_eq_add_neg]
  nsmul := nsmulRec
  zsmul := zsmulRec

instance [CommRing K] : Module K (Mat3 K) where
  one_smul a := by ext <;> simp
  mul_smul a b c := by ext <;> simp [mul_assoc]
  smul_zero a := by ext <;> simp
  smul_add a b c := by ext <;> simp
  add_smul a b c := by ext <;> simp [add_mul]
  zero_smul a := by ext <;> simp
end Mat3

namespace Vec6
/-- `ZVEC6DZERO`. -/
instance [Zero K] : Zero (Vec6 K) := ⟨⟨0, 0⟩⟩
/-- `zVec6DAdd`. -/
instance [Add K] : Add (Vec6 K) := ⟨fun a b => ⟨a.lin + b.lin, a.ang + b.ang⟩⟩
/-- `zVec6DSub`. -/
instance [Sub K] : Sub (Vec6 K) := ⟨fun a b => ⟨a.lin - b.lin, a.ang - b.ang⟩⟩
/-- `zVec6DRev`. -/
instance [Neg K] : Neg (Vec6 K) := ⟨fun a => ⟨-a.lin, -a.ang⟩⟩
/-- `zVec6DMul`. -/
instance [Mul K] : SMul K (Vec6 K) := ⟨fun k a => ⟨k • a.lin, k • a.ang⟩⟩

@[simp] theorem zero_lin [Zero K] : (0 : Vec6 K).lin = 0 := rfl
@[simp] theorem zero_ang [Zero K] : (0 : Vec6 K).ang = 0 := rfl
@[simp] theorem add_lin [Add K] (a b : Vec6 K) : (a + b).lin = a.lin + b.lin := rfl
@[simp] theorem add_ang [Add K] (a b : Vec6 K) : (a + b).ang = a.ang + b.ang := rfl
@[simp] theorem sub_lin [Sub K] (a b : Vec6 K) : (a - b).lin = a.lin - b.lin := rfl
@[simp] theorem sub_ang [Sub K] (a b : Vec6 K) : (a - b).ang = a.ang - b.ang := rfl
@[simp] theorem neg_lin [Neg K] (a : Vec6 K) : (-a).lin = -a.lin := rfl
@[simp] theorem neg_ang [Neg K] (a : Vec6 K) : (-a).ang = -a.ang := rfl
@[simp] theorem smul_lin [Mul K] (k : K) (a : Vec6 K) : (k • a).lin = k • a.lin := rfl
@[simp] theorem smul_ang [Mul K] (k : K) (a : Vec6 K) : (k • a).ang = k • a.ang := rfl

instance [CommRing K] : AddCommGroup (Vec6 K) where
  add_assoc a b c := by ext <;> simp [add_assoc]
  zero_add a := by ext <;> simp
  add_zero a := by ext <;> simp
  add_comm a b := by ext <;> simp [add_comm]
  neg_add_cancel a := by ext <;> simp
  sub_eq_add_neg a b := by ext <;> simp [sub_eq_add_neg]
  nsmul := nsmulRec
  zsmul := zsmulRec

instance [CommRing K] : Module K (Vec6 K) where
  one_smul a := by ext <;> simp
  mul_smul a b c := by ext <;> simp [mul_assoc]
  smul_zero a := by ext <;> simp
  smul_add a b c := by ext <;> simp
  add_smul a b c := by ext <;> simp [add_mul]
  zero_smul a := by ext <;> simp
end Vec6

namespace Mat6
/-- `zMat6DAdd`. -/
instance [Add K] : Add (Mat6 K) :=
  ⟨fun a b => ⟨a.ll + b.ll, a.la + b.la, a.al + b.al, a.aa + b.aa⟩⟩
/-- `zMat6DSub`. -/
instance [Sub K] : Sub (Mat6 K) :=
  ⟨fun a b => ⟨a.ll - b.ll, a.la - b.la, a.al - b.al, a.aa - b.aa⟩⟩
instance [Neg K] : Neg (Mat6 K) := ⟨fun a => ⟨-a.ll, -a.la, -a.al, -a.aa⟩⟩
/-- `ZMAT6DZERO`. -/
instance [Zero K] : Zero (Mat6 K) := ⟨⟨0, 0, 0, 0⟩⟩
/-- `zMat6DMul`. -/
instance [Mul K] : SMul K (Mat6 K) := ⟨fun k a => ⟨k • a.ll, k • a.la, k • a.al, k • a.aa⟩⟩

@[simp] theorem zero_ll [Zero K] : (0 : Mat6 K).ll = 0 := rfl
@[simp] theorem zero_la [Zero K] : (0 : Mat6 K).la = 0 := rfl
@[simp] theorem zero_al [Zero K] : (0 : Mat6 K).al = 0 := rfl
@[simp] theorem zero_aa [Zero K] : (0 : Mat6 K).aa = 0 := rfl
@[simp] theorem add_ll [Add K] (a b : Mat6 K) : (a + b).ll = a.ll + b.ll := rfl
@[simp] theorem add_la [Add K] (a b : Mat6 K) : (a + b).la = a.la + b.la := rfl
@[simp] theorem add_al [Add K] (a b : Mat6 K) : (a + b).al = a.al + b.al := rfl
@[simp] theorem add_aa [Add K] (a b : Mat6 K) : (a + b).aa = a.aa + b.aa := rfl
@[simp] theorem sub_ll [Sub K] (a b : Mat6 K) : (a - b).ll = a.ll - b.ll := rfl
@[simp] theorem sub_la [Sub K] (a b : Mat6 K) : (a - b).la = a.la - b.la := rfl
@[simp] theorem sub_al [Sub K] (a b : Mat6 K) : (a - b).al = a.al - b.al := rfl
@[simp] theorem sub_aa [Sub K] (a b : Mat6 K) : (a - b).aa = a.aa - b.aa := rfl
@[simp] theorem neg_ll [Neg K] (a : Mat6 K) : (-a).ll = -a.ll := rfl
@[simp] theorem neg_la [Neg K] (a : Mat6 K) : (-a).la = -a.la := rfl
@[simp] theorem neg_al [Neg K] (a : Mat6 K) : (-a).al = -a.al := rfl
@[simp] theorem neg_aa [Neg K] (a : Mat6 K) : (-a).aa = -a.aa := rfl
@[simp] theorem smul_ll [Mul K] (k : K) (a : Mat6 K) : (k • a).ll = k • a.ll := rfl
@[simp] theorem smul_la [Mul K] (k : K) (a : Mat6 K) : (k • a).la = k • a.la := rfl
@[simp] theorem smul_al [Mul K] (k : K) (a : Mat6 K) : (k • a).al = k • a.al := rfl
@[simp] theorem smul_aa [Mul K] (k : K) (a : Mat6 K) : (k • a).aa = k • a.aa := rfl

instance [CommRing K] : AddCommGroup (Mat6 K) where
  add_assoc a b c := by ext <;> simp [add_assoc]
  zero_add a := by ext <;> simp
  add_zero a := by ext <;> simp
  add_comm a b := by ext <;> simp [add_comm]
  neg_add_cancel a := by ext <;> simp
  sub_eq_add_neg a b := by ext <;> simp [sub_eq_add_neg]
  nsmul := nsmulRec
  zsmul := zsmulRec

instance [CommRing K] : Module K (Mat6 K) where
  one_smul a := by ext <;> simp
  mul_smul a b c := by ext <;> simp [mul_assoc]
  smul_zero a := by ext <;> simp
  smul_add a b c := by ext <;> simp
  add_smul a b c := by ext <;> simp [add_mul]
  zero_smul a := by ext <;> simp
end Mat6
end instances

variable {K : Type*} [Field K]

/-! ## Operations -/

/-- `zVec3DInnerProd`. -/
def dot (a b : Vec3 K) : K := a.x * b.x + a.y * b.y + a.z * b.z

/-- `zVec3DOuterProd`. -/
def cross (a b : Vec3 K) : Vec3 K :=
  ⟨a.y * b.z - a.z * b.y, a.z * b.x - a.x * b.z, a.x * b.y - a.y * b.x⟩

/-- `zVec3DTripleProd(a,b,c)`: `a x (b x c)`. -/
def triple (a b c : Vec3 K) : Vec3 K := cross a (cross b c)

/-- `zVec3DSqrNorm`. -/
def sqrNorm (a : Vec3 K) : K := dot a a

/-- `zVec3DCat(a,k,b)`: `a + k b`. -/
def cat (a : Vec3 K) (k : K) (b : Vec3 K) : Vec3 K := a + k • b

namespace Mat3
/-- `zMulMat3DVec3D`. -/
def mulVec (m : Mat3 K) (v : Vec3 K) : Vec3 K := v.x • m.cx + v.y • m.cy + v.z • m.cz

/-- `zMat3DT`. -/
def tr (m : Mat3 K) : Mat3 K :=
  ⟨⟨m.cx.x, m.cy.x, m.cz.x⟩, ⟨m.cx.y, m.cy.y, m.cz.y⟩, ⟨m.cx.z, m.cy.z, m.cz.z⟩⟩

/-- `zMulMat3DTVec3D`: transpose times vector. -/
def mulVecT (m : Mat3 K) (v : Vec3 K) : Vec3 K := ⟨dot m.cx v, dot m.cy v, dot m.cz v⟩

/-- `zMulMat3DMat3D`. -/
def mul (a b : Mat3 K) : Mat3 K := ⟨a.mulVec b.cx, a.mulVec b.cy, a.mulVec b.cz⟩

/-- `zMulMat3DTMat3D`: transpose of the first times the second. -/
def mulT (a b : Mat3 K) : Mat3 K := ⟨a.mulVecT b.cx, a.mulVecT b.cy, a.mulVecT b.cz⟩

/-- `zRotMat3D(r,m)`: `r m r^T`. -/
def rot (r m : Mat3 K) : Mat3 K := (r.mul m).mul r.tr

/-- `zRotMat3DInv(r,m)`: `r^T m r`. -/
def rotInv (r m : Mat3 K) : Mat3 K := (r.tr.mul m).mul r

/-- `zVec3DOuterProd2Mat3D`: the matrix of `a x`. -/
def skew (a : Vec3 K) : Mat3 K := ⟨⟨0, a.z, -a.y⟩, ⟨-a.z, 0, a.x⟩, ⟨a.y, -a.x, 0⟩⟩

/-- `zMat3DDyad`: `a b^T`. -/
def dyad (a b : Vec3 K) : Mat3 K := ⟨b.x • a, b.y • a, b.z • a⟩

/-- `zMat3DDet` (used in specifications only). -/
def det (m : Mat3 K) : K := dot m.cx (cross m.cy m.cz)

/-- The matrix is a rotation: orthonormal columns, right handed. -/
structure IsRot (m : Mat3 K) : Prop where
  xx : dot m.cx m.cx = 1
  yy : dot m.cy m.cy = 1
  zz : dot m.cz m.cz = 1
  xy : dot m.cx m.cy = 0
  yz : dot m.cy m.cz = 0
  zx : dot m.cz m.cx = 0
  rh : cross m.cx m.cy = m.cz

/-- Symmetric matrix. -/
def Symm (m : Mat3 K) : Prop := m.tr = m
end Mat3

namespace Vec6
/-- `zVec6DInnerProd`. -/
def dot6 (a b : Vec6 K) : K := dot a.lin b.lin + dot a.ang b.ang

/-- `zVec6DLinShift(v,p)`: velocity of the point `p`: `lin += ang x p`. -/
def linShift (v : Vec6 K) (p : Vec3 K) : Vec6 K := ⟨v.lin + cross v.ang p, v.ang⟩

/-- `zVec6DAngShift(w,p)`: moment with the force acting at `p`: `ang += p x lin`. -/
def angShift (w : Vec6 K) (p : Vec3 K) : Vec6 K := ⟨w.lin, w.ang + cross p w.lin⟩
end Vec6

/-- `zMulMat3DVec6D`. -/
def Mat3.mulVec6 (m : Mat3 K) (v : Vec6 K) : Vec6 K := ⟨m.mulVec v.lin, m.mulVec v.ang⟩
/-- `zMulMat3DTVec6D`. -/
def Mat3.mulVecT6 (m : Mat3 K) (v : Vec6 K) : Vec6 K := ⟨m.mulVecT v.lin, m.mulVecT v.ang⟩

namespace Frame
/-- `ZFRAME3DIDENT`. -/
def ident : Frame K := ⟨0, 1⟩
/-- `zFrame3DCascade(f1,f2)`: `f1 f2`. -/
def cascade (f g : Frame K) : Frame K := ⟨f.pos + f.att.mulVec g.pos, f.att.mul g.att⟩
/-- `zFrame3DXform(f1,f2)`: `f1^-1 f2`. -/
def xformF (f g : Frame K) : Frame K := ⟨f.att.mulVecT (g.pos - f.pos), f.att.mulT g.att⟩
/-- `zXform3D`. -/
def xform (f : Frame K) (p : Vec3 K) : Vec3 K := f.att.mulVec p + f.pos
/-- `zXform3DInv`. -/
def xformInv (f : Frame K) (p : Vec3 K) : Vec3 K := f.att.mulVecT (p - f.pos)
/-- `zXform6DLin(f,v)`: twist `v` of the origin of the reference frame moved to the origin of
`f` and expressed in `f`. -/
def xform6Lin (f : Frame K) (v : Vec6 K) : Vec6 K := f.att.mulVecT6 (v.linShift f.pos)
/-- `zXform6DAng(f,w)`: wrench `w` acting at the origin of `f`, expressed in `f`, moved to
the reference frame. -/
def xform6Ang (f : Frame K) (w : Vec6 K) : Vec6 K := (f.att.mulVec6 w).angShift f.pos
end Frame

namespace Mat6
/-- `zMulMat6DVec6D`. -/
def mulVec (m : Mat6 K) (v : Vec6 K) : Vec6 K :=
  ⟨m.ll.mulVec v.lin + m.la.mulVec v.ang, m.al.mulVec v.lin + m.aa.mulVec v.ang⟩
/-- Transpose of a 6x6 matrix. -/
def tr (m : Mat6 K) : Mat6 K := ⟨m.ll.tr, m.al.tr, m.la.tr, m.aa.tr⟩
/-- Symmetric 6x6 matrix. -/
def Symm (m : Mat6 K) : Prop := m.tr = m
/-- `zMat6DDyad(m,a,b)`: `a b^T`. -/
def dyad (a b : Vec6 K) : Mat6 K :=
  ⟨Mat3.dyad a.lin b.lin, Mat3.dyad a.lin b.ang, Mat3.dyad a.ang b.lin, Mat3.dyad a.ang b.ang⟩
/-- `zMat6DCol(m,zZ)`. -/
def colZ (m : Mat6 K) : Vec6 K := ⟨m.ll.cz, m.al.cz⟩
/-- `zMat6DCol(m,zZA)`. -/
def colZA (m : Mat6 K) : Vec6 K := ⟨m.la.cz, m.aa.cz⟩
/-- `zMat6DRow(m,zZ)`. -/
def rowZ (m : Mat6 K) : Vec6 K :=
  ⟨⟨m.ll.cx.z, m.ll.cy.z, m.ll.cz.z⟩, ⟨m.la.cx.z, m.la.cy.z, m.la.cz.z⟩⟩
/-- `zMat6DRow(m,zZA)`. -/
def rowZA (m : Mat6 K) : Vec6 K :=
  ⟨⟨m.al.cx.z, m.al.cy.z, m.al.cz.z⟩, ⟨m.aa.cx.z, m.aa.cy.z, m.aa.cz.z⟩⟩
end Mat6

end Roki
