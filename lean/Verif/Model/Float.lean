import Mathlib.Data.Int.Log
import Verif.Model.Rotation

/-!
# Rounded arithmetic

The main model computes with exact reals.  Here the operations that long-running programs iterate (quaternion and matrix
products, normalization, rotation of a vector by a quaternion) are modelled once more with *every* elementary operation
rounded.  The rounding is an arbitrary function with relative error at most `u` (the standard model of floating-point
arithmetic without overflow and underflow), so the theorems hold for every IEEE rounding mode and for every rounding
behaviour whatsoever within that bound.
-/

set_option autoImplicit false

open Classical

noncomputable section
namespace Kindr

/-- A floating-point arithmetic: the correctly or incorrectly rounded result `fl x` of an elementary operation (`+`, `-`,
`*`, `/`, `std::sqrt`) with exact result `x`, with relative error at most `u`.  `u = 2⁻⁵³` for
`PrimType_ = double` and `2⁻²⁴` for `float` (round to nearest).  Simplification: no overflow, underflow, NaN. -/
structure FloatArith where
  fl : ℝ → ℝ
  u : ℝ
  u_nonneg : 0 ≤ u
  u_le : u ≤ 2⁻¹ ^ 24
  err : ∀ x, |fl x - x| ≤ u * |x|

/-- Rounding to nearest with `p` significant bits (unbounded exponent range). -/
def roundBinary (p : ℕ) (x : ℝ) : ℝ :=
  let ulp : ℝ := 2 ^ (Int.log 2 |x| - (p - 1))
  round (x / ulp) * ulp

namespace FloatArith
variable (F : FloatArith)

/-- Eigen quaternion product with rounding, in the order of the scalar code of Eigen,
include/kindr/quaternions/QuaternionBase.hpp:47-52, include/kindr/rotations/RotationImpl.hpp:79-82.  (Eigen's vectorized
variants associate the same four products differently; the bounds proved depend only on each product passing through at most
four roundings.) -/
def quatMul (a b : Quat) : Quat :=
  ⟨F.fl (F.fl (F.fl (F.fl (a.w * b.w) - F.fl (a.x * b.x)) - F.fl (a.y * b.y)) - F.fl (a.z * b.z)),
   F.fl (F.fl (F.fl (F.fl (a.w * b.x) + F.fl (a.x * b.w)) + F.fl (a.y * b.z)) - F.fl (a.z * b.y)),
   F.fl (F.fl (F.fl (F.fl (a.w * b.y) + F.fl (a.y * b.w)) + F.fl (a.z * b.x)) - F.fl (a.x * b.z)),
   F.fl (F.fl (F.fl (F.fl (a.w * b.z) + F.fl (a.z * b.w)) + F.fl (a.x * b.y)) - F.fl (a.y * b.x))⟩

/-- Accumulation of a whole history by `q = q * qᵢ`,
include/kindr/rotations/RotationBase.hpp:253-256, include/kindr/rotations/RotationImpl.hpp:74-84. -/
def quatHistory (acc : Quat) (l : List Quat) : Quat := l.foldl F.quatMul acc

/-- Eigen `squaredNorm()` of a quaternion with rounding, include/kindr/quaternions/Quaternion.hpp:216-218. -/
def quatNormSq (a : Quat) : ℝ :=
  F.fl (F.fl (F.fl (F.fl (a.w * a.w) + F.fl (a.x * a.x)) + F.fl (a.y * a.y)) + F.fl (a.z * a.z))

/-- Eigen `norm()` with rounding. -/
def quatNorm (a : Quat) : ℝ := F.fl (Real.sqrt (F.quatNormSq a))

/-- Eigen `normalize()` with rounding, as called by `fix()`, include/kindr/rotations/RotationQuaternion.hpp:613-619. -/
def quatFix (a : Quat) : Quat :=
  if 0 < F.quatNormSq a then
    ⟨F.fl (a.w / F.quatNorm a), F.fl (a.x / F.quatNorm a), F.fl (a.y / F.quatNorm a), F.fl (a.z / F.quatNorm a)⟩
  else a

/-- Eigen `toRotationMatrix()` with rounding, include/kindr/rotations/RotationMatrix.hpp:329-337. -/
def toRotationMatrix (q : Quat) : M3 :=
  let tx := F.fl (2 * q.x)
  let ty := F.fl (2 * q.y)
  let tz := F.fl (2 * q.z)
  let twx := F.fl (tx * q.w)
  let twy := F.fl (ty * q.w)
  let twz := F.fl (tz * q.w)
  let txx := F.fl (tx * q.x)
  let txy := F.fl (ty * q.x)
  let txz := F.fl (tz * q.x)
  let tyy := F.fl (ty * q.y)
  let tyz := F.fl (tz * q.y)
  let tzz := F.fl (tz * q.z)
  ⟨F.fl (1 - F.fl (tyy + tzz)), F.fl (txy - twz), F.fl (txz + twy),
   F.fl (txy + twz), F.fl (1 - F.fl (txx + tzz)), F.fl (tyz - twx),
   F.fl (txz - twy), F.fl (tyz + twx), F.fl (1 - F.fl (txx + tyy))⟩

/-- Eigen 3x3 matrix times vector with rounding, include/kindr/rotations/RotationImpl.hpp:109-112. -/
def mulVec (m : M3) (v : V3) : V3 :=
  ⟨F.fl (F.fl (F.fl (m.m00 * v.x) + F.fl (m.m01 * v.y)) + F.fl (m.m02 * v.z)),
   F.fl (F.fl (F.fl (m.m10 * v.x) + F.fl (m.m11 * v.y)) + F.fl (m.m12 * v.z)),
   F.fl (F.fl (F.fl (m.m20 * v.x) + F.fl (m.m21 * v.y)) + F.fl (m.m22 * v.z))⟩

/-- Eigen 3x3 matrix product with rounding, include/kindr/rotations/RotationMatrix.hpp:373-382. -/
def matMul (a b : M3) : M3 :=
  let c0 := F.mulVec a ⟨b.m00, b.m10, b.m20⟩
  let c1 := F.mulVec a ⟨b.m01, b.m11, b.m21⟩
  let c2 := F.mulVec a ⟨b.m02, b.m12, b.m22⟩
  ⟨c0.x, c1.x, c2.x, c0.y, c1.y, c2.y, c0.z, c1.z, c2.z⟩

/-- `RotationMatrix` accumulation of a whole history. -/
def matHistory (acc : M3) (l : List M3) : M3 := l.foldl F.matMul acc

/-- `RotationQuaternion::rotate(v)` with rounding, include/kindr/rotations/RotationImpl.hpp:107-118. -/
def rotateQuat (q : Quat) (v : V3) : V3 := F.mulVec (F.toRotationMatrix q) v

/-- `HomogeneousTransformation::transform(p)` for a quaternion rotation with rounding,
include/kindr/poses/HomogeneousTransformation.hpp:165-167. -/
def transformQuat (T : Rep .quat) (t p : V3) : V3 :=
  let r := F.rotateQuat T p
  ⟨F.fl (r.x + t.x), F.fl (r.y + t.y), F.fl (r.z + t.z)⟩

end FloatArith
end Kindr
