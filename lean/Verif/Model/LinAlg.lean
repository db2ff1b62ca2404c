import Mathlib.Analysis.Real.Sqrt
import Mathlib.Algebra.Module.Basic
import Mathlib.Tactic.Ring
import Mathlib.Tactic.Linarith

/-!
# Fixed-size linear algebra

kindr stores everything in `Eigen::Matrix<PrimType_, 3, 1>`, `Eigen::Matrix<PrimType_, 3, 3>`,
`Eigen::Matrix<PrimType_, 4, 1>` and `Eigen::Quaternion<PrimType_>`.  These are the Eigen value types the
headers of /repo build on; the arithmetic below is the coefficient-wise meaning of the Eigen operators
(`+`, `-`, `*`, `transpose`, `dot`, `cross`, `norm`, `determinant`, ...).
Scalars are exact reals (simplification: no rounding).
-/

set_option autoImplicit false

namespace Kindr

/-- `Eigen::Matrix<PrimType_,3,1>`, used e.g. at include/kindr/rotations/RotationVector.hpp:62 and
include/kindr/rotations/EulerAnglesXyz.hpp:60.  Field `x` is coefficient 0, `y` 1, `z` 2. -/
@[ext] structure V3 where
  x : ℝ
  y : ℝ
  z : ℝ

/-- `Eigen::Matrix<PrimType_,3,3>`, used e.g. at include/kindr/rotations/RotationMatrix.hpp:58.
Field `mij` is the coefficient in row `i`, column `j`. -/
@[ext] structure M3 where
  m00 : ℝ
  m01 : ℝ
  m02 : ℝ
  m10 : ℝ
  m11 : ℝ
  m12 : ℝ
  m20 : ℝ
  m21 : ℝ
  m22 : ℝ

/-- `Eigen::Matrix<PrimType_,4,1>` in the order used for quaternions `[w; x; y; z]`
(include/kindr/rotations/RotationQuaternion.hpp:79, include/kindr/rotations/AngleAxis.hpp:77). -/
@[ext] structure V4 where
  c0 : ℝ
  c1 : ℝ
  c2 : ℝ
  c3 : ℝ

/-- `Eigen::Matrix<PrimType_,4,4>` (include/kindr/rotations/RotationQuaternion.hpp:373-396,
include/kindr/poses/HomogeneousTransformation.hpp:100-106), given by its rows. -/
@[ext] structure M4 where
  r0 : V4
  r1 : V4
  r2 : V4
  r3 : V4

/-- `Eigen::Matrix<PrimType_,3,4>` (include/kindr/rotations/RotationQuaternion.hpp:400-417),
given by its rows. -/
@[ext] structure M34 where
  r0 : V4
  r1 : V4
  r2 : V4

namespace V3
/-- Eigen `Zero()`; e.g. include/kindr/rotations/RotationVector.hpp:85. -/
instance : Zero V3 := ⟨⟨0, 0, 0⟩⟩
/-- Eigen `a + b`. -/
instance : Add V3 := ⟨fun a b => ⟨a.x + b.x, a.y + b.y, a.z + b.z⟩⟩
/-- Eigen `a - b`. -/
instance : Sub V3 := ⟨fun a b => ⟨a.x - b.x, a.y - b.y, a.z - b.z⟩⟩
/-- Eigen `-a`; e.g. include/kindr/rotations/RotationVector.hpp:139. -/
instance : Neg V3 := ⟨fun a => ⟨-a.x, -a.y, -a.z⟩⟩
/-- Eigen `s * a`; e.g. include/kindr/rotations/RotationVector.hpp:318. -/
instance : SMul ℝ V3 := ⟨fun s a => ⟨s * a.x, s * a.y, s * a.z⟩⟩
/-- Natural multiples (only needed for the algebraic hierarchy). -/
instance : SMul ℕ V3 := ⟨fun n a => ⟨n * a.x, n * a.y, n * a.z⟩⟩
/-- Integer multiples (only needed for the algebraic hierarchy). -/
instance : SMul ℤ V3 := ⟨fun n a => ⟨n * a.x, n * a.y, n * a.z⟩⟩

@[simp] lemma zero_x : (0 : V3).x = 0 := rfl
@[simp] lemma zero_y : (0 : V3).y = 0 := rfl
@[simp] lemma zero_z : (0 : V3).z = 0 := rfl
@[simp] lemma add_x (a b : V3) : (a + b).x = a.x + b.x := rfl
@[simp] lemma add_y (a b : V3) : (a + b).y = a.y + b.y := rfl
@[simp] lemma add_z (a b : V3) : (a + b).z = a.z + b.z := rfl
@[simp] lemma sub_x (a b : V3) : (a - b).x = a.x - b.x := rfl
@[simp] lemma sub_y (a b : V3) : (a - b).y = a.y - b.y := rfl
@[simp] lemma sub_z (a b : V3) : (a - b).z = a.z - b.z := rfl
@[simp] lemma neg_x (a : V3) : (-a).x = -a.x := rfl
@[simp] lemma neg_y (a : V3) : (-a).y = -a.y := rfl
@[simp] lemma neg_z (a : V3) : (-a).z = -a.z := rfl
@[simp] lemma smul_x (s : ℝ) (a : V3) : (s • a).x = s * a.x := rfl
@[simp] lemma smul_y (s : ℝ) (a : V3) : (s • a).y = s * a.y := rfl
@[simp] lemma smul_z (s : ℝ) (a : V3) : (s • a).z = s * a.z := rfl

instance : AddCommGroup V3 where
  add_assoc a b c := by ext <;> simp [add_assoc]
  zero_add a := by ext <;> simp
  add_zero a := by ext <;> simp
  add_comm a b := by ext <;> simp [add_comm]
  neg_add_cancel a := by ext <;> simp
  sub_eq_add_neg a b := by ext <;> simp [sub_eq_add_neg]
  nsmul := fun n a => n • a
  nsmul_zero a := by ext <;> change ((0 : ℕ) : ℝ) * _ = _ <;> simp
  nsmul_succ n a := by
    ext <;> change ((n + 1 : ℕ) : ℝ) * _ = (n : ℝ) * _ + _ <;> push_cast <;> ring
  zsmul := fun n a => n • a
  zsmul_zero' a := by ext <;> change ((0 : ℤ) : ℝ) * _ = _ <;> simp
  zsmul_succ' n a := by
    ext <;> change (((n.succ : ℕ) : ℤ) : ℝ) * _ = ((n : ℤ) : ℝ) * _ + _ <;> push_cast <;> ring
  zsmul_neg' n a := by
    ext <;> change ((Int.negSucc n : ℤ) : ℝ) * _ = -((((n.succ : ℕ) : ℤ) : ℝ) * _) <;>
      simp [Int.cast_negSucc] <;> ring

instance : Module ℝ V3 where
  one_smul a := by ext <;> simp
  mul_smul r s a := by ext <;> simp [mul_assoc]
  smul_zero r := by ext <;> simp
  smul_add r a b := by ext <;> simp [mul_add]
  add_smul r s a := by ext <;> simp [add_mul]
  zero_smul a := by ext <;> simp

/-- Eigen `a.dot(b)` (include/kindr/vectors/Vector.hpp:529-531). -/
def dot (a b : V3) : ℝ := a.x * b.x + a.y * b.y + a.z * b.z
/-- Eigen `a.cross(b)` (include/kindr/vectors/Vector.hpp:539-545). -/
def cross (a b : V3) : V3 :=
  ⟨a.y * b.z - a.z * b.y, a.z * b.x - a.x * b.z, a.x * b.y - a.y * b.x⟩
/-- Eigen `a.squaredNorm()` (include/kindr/vectors/Vector.hpp:505-507). -/
def normSq (a : V3) : ℝ := a.dot a
/-- Eigen `a.norm()` (include/kindr/vectors/Vector.hpp:498-500). -/
noncomputable def norm (a : V3) : ℝ := Real.sqrt a.normSq
open Classical in
/-- Eigen `a.normalized()`: divides by the norm if the squared norm is positive, otherwise returns `a`
unchanged (called at include/kindr/rotations/AngleAxis.hpp:378 and :457). -/
noncomputable def normalized (a : V3) : V3 := if 0 < a.normSq then (1 / a.norm) • a else a
/-- Eigen `UnitX()` (include/kindr/rotations/RotationQuaternion.hpp:572). -/
def unitX : V3 := ⟨1, 0, 0⟩
/-- Eigen `UnitY()` (include/kindr/rotations/RotationQuaternion.hpp:573). -/
def unitY : V3 := ⟨0, 1, 0⟩
/-- Eigen `UnitZ()` (include/kindr/rotations/RotationQuaternion.hpp:574). -/
def unitZ : V3 := ⟨0, 0, 1⟩
end V3

namespace M3
/-- Eigen `Zero()` (include/kindr/rotations/EulerAnglesXyz.hpp:333). -/
instance : Zero M3 := ⟨⟨0, 0, 0, 0, 0, 0, 0, 0, 0⟩⟩
/-- Eigen `Identity()` (include/kindr/rotations/RotationMatrix.hpp:72). -/
instance : One M3 := ⟨⟨1, 0, 0, 0, 1, 0, 0, 0, 1⟩⟩
/-- Eigen `A + B`. -/
instance : Add M3 := ⟨fun a b => ⟨a.m00 + b.m00, a.m01 + b.m01, a.m02 + b.m02,
  a.m10 + b.m10, a.m11 + b.m11, a.m12 + b.m12, a.m20 + b.m20, a.m21 + b.m21, a.m22 + b.m22⟩⟩
/-- Eigen `A - B`. -/
instance : Sub M3 := ⟨fun a b => ⟨a.m00 - b.m00, a.m01 - b.m01, a.m02 - b.m02,
  a.m10 - b.m10, a.m11 - b.m11, a.m12 - b.m12, a.m20 - b.m20, a.m21 - b.m21, a.m22 - b.m22⟩⟩
/-- Eigen `-A`. -/
instance : Neg M3 := ⟨fun a => ⟨-a.m00, -a.m01, -a.m02, -a.m10, -a.m11, -a.m12, -a.m20, -a.m21, -a.m22⟩⟩
/-- Eigen `s * A`. -/
instance : SMul ℝ M3 := ⟨fun s a => ⟨s * a.m00, s * a.m01, s * a.m02,
  s * a.m10, s * a.m11, s * a.m12, s * a.m20, s * a.m21, s * a.m22⟩⟩
/-- Eigen `A * B` (include/kindr/rotations/RotationMatrix.hpp:379). -/
instance : Mul M3 := ⟨fun a b =>
  ⟨a.m00 * b.m00 + a.m01 * b.m10 + a.m02 * b.m20,
   a.m00 * b.m01 + a.m01 * b.m11 + a.m02 * b.m21,
   a.m00 * b.m02 + a.m01 * b.m12 + a.m02 * b.m22,
   a.m10 * b.m00 + a.m11 * b.m10 + a.m12 * b.m20,
   a.m10 * b.m01 + a.m11 * b.m11 + a.m12 * b.m21,
   a.m10 * b.m02 + a.m11 * b.m12 + a.m12 * b.m22,
   a.m20 * b.m00 + a.m21 * b.m10 + a.m22 * b.m20,
   a.m20 * b.m01 + a.m21 * b.m11 + a.m22 * b.m21,
   a.m20 * b.m02 + a.m21 * b.m12 + a.m22 * b.m22⟩⟩
/-- Eigen `A * v` (include/kindr/rotations/RotationImpl.hpp:111). -/
def mulVec (a : M3) (v : V3) : V3 :=
  ⟨a.m00 * v.x + a.m01 * v.y + a.m02 * v.z,
   a.m10 * v.x + a.m11 * v.y + a.m12 * v.z,
   a.m20 * v.x + a.m21 * v.y + a.m22 * v.z⟩
/-- Eigen `A.transpose()` (include/kindr/rotations/RotationMatrix.hpp:146). -/
def transpose (a : M3) : M3 := ⟨a.m00, a.m10, a.m20, a.m01, a.m11, a.m21, a.m02, a.m12, a.m22⟩
/-- Eigen `A.determinant()` (include/kindr/rotations/RotationMatrix.hpp:179). -/
def det (a : M3) : ℝ :=
  a.m00 * (a.m11 * a.m22 - a.m12 * a.m21) - a.m01 * (a.m10 * a.m22 - a.m12 * a.m20)
    + a.m02 * (a.m10 * a.m21 - a.m11 * a.m20)
/-- Eigen `A.trace()`. -/
def trace (a : M3) : ℝ := a.m00 + a.m11 + a.m22
end M3

namespace V4
/-- Eigen `a + b`. -/
instance : Add V4 := ⟨fun a b => ⟨a.c0 + b.c0, a.c1 + b.c1, a.c2 + b.c2, a.c3 + b.c3⟩⟩
/-- Eigen `s * a`. -/
instance : SMul ℝ V4 := ⟨fun s a => ⟨s * a.c0, s * a.c1, s * a.c2, s * a.c3⟩⟩
/-- Eigen row-times-column product. -/
def dot (a b : V4) : ℝ := a.c0 * b.c0 + a.c1 * b.c1 + a.c2 * b.c2 + a.c3 * b.c3
end V4

namespace M4
/-- Eigen `A * v` for 4x4. -/
def mulVec (A : M4) (v : V4) : V4 := ⟨A.r0.dot v, A.r1.dot v, A.r2.dot v, A.r3.dot v⟩
/-- Column `j` helper for the product. -/
def col0 (A : M4) : V4 := ⟨A.r0.c0, A.r1.c0, A.r2.c0, A.r3.c0⟩
/-- Column helper. -/
def col1 (A : M4) : V4 := ⟨A.r0.c1, A.r1.c1, A.r2.c1, A.r3.c1⟩
/-- Column helper. -/
def col2 (A : M4) : V4 := ⟨A.r0.c2, A.r1.c2, A.r2.c2, A.r3.c2⟩
/-- Column helper. -/
def col3 (A : M4) : V4 := ⟨A.r0.c3, A.r1.c3, A.r2.c3, A.r3.c3⟩
/-- Eigen `A * B` for 4x4. -/
instance : Mul M4 := ⟨fun A B =>
  ⟨⟨A.r0.dot B.col0, A.r0.dot B.col1, A.r0.dot B.col2, A.r0.dot B.col3⟩,
   ⟨A.r1.dot B.col0, A.r1.dot B.col1, A.r1.dot B.col2, A.r1.dot B.col3⟩,
   ⟨A.r2.dot B.col0, A.r2.dot B.col1, A.r2.dot B.col2, A.r2.dot B.col3⟩,
   ⟨A.r3.dot B.col0, A.r3.dot B.col1, A.r3.dot B.col2, A.r3.dot B.col3⟩⟩⟩
/-- Eigen `Identity()` for 4x4. -/
instance : One M4 := ⟨⟨⟨1, 0, 0, 0⟩, ⟨0, 1, 0, 0⟩, ⟨0, 0, 1, 0⟩, ⟨0, 0, 0, 1⟩⟩⟩
end M4

namespace M34
/-- Eigen `H * v` (3x4 times 4x1), include/kindr/rotations/LocalAngularVelocity.hpp:233. -/
def mulVec (A : M34) (v : V4) : V3 := ⟨A.r0.dot v, A.r1.dot v, A.r2.dot v⟩
/-- Eigen `H.transpose() * w` (4x3 times 3x1), include/kindr/rotations/RotationQuaternionDiff.hpp:210. -/
def tMulVec (A : M34) (w : V3) : V4 :=
  ⟨A.r0.c0 * w.x + A.r1.c0 * w.y + A.r2.c0 * w.z,
   A.r0.c1 * w.x + A.r1.c1 * w.y + A.r2.c1 * w.z,
   A.r0.c2 * w.x + A.r1.c2 * w.y + A.r2.c2 * w.z,
   A.r0.c3 * w.x + A.r1.c3 * w.y + A.r2.c3 * w.z⟩
end M34

/-- Outcome of a C++ call that may throw `std::runtime_error` (KINDR_ASSERT_TRUE and the `_DBG` asserts,
include/kindr/common/assert_macros.hpp:103-109, include/kindr/common/assert_macros_eigen.hpp:101-142). -/
inductive Res (α : Type) where
  | ok (a : α)
  | throws
  deriving DecidableEq

end Kindr
