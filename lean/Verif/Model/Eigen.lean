import Mathlib.Analysis.SpecialFunctions.Complex.Arg
import Verif.Model.LinAlg
import Verif.Model.Scalar

/-!
# The Eigen geometry routines kindr calls

Eigen is not part of /repo.  kindr delegates the numerical core of its conversions to Eigen; these definitions
transcribe the Eigen 3.3/3.4 algorithms (`Quaternion.h`, `AngleAxis.h`, `EulerAngles.h`) and are part of the
trusted base.  Each comment names the kindr call site.
-/

set_option autoImplicit false

open Classical

noncomputable section
namespace Kindr

/-- `std::atan2(y, x)` over the reals: the argument of `x + i y`, with `atan2(0,0) = 0`.
Called at include/kindr/rotations/RotationVector.hpp:342 and inside Eigen. (IEEE signed zeros not modelled.) -/
def atan2 (y x : ℝ) : ℝ := Complex.arg ⟨x, y⟩

/-- `Eigen::Quaternion<PrimType_>`, the storage of kindr's `Quaternion`
(include/kindr/quaternions/Quaternion.hpp:45-60), `UnitQuaternion` (:292-310) and `RotationQuaternion`
(include/kindr/rotations/RotationQuaternion.hpp:59-63). -/
@[ext] structure Quat where
  w : ℝ
  x : ℝ
  y : ℝ
  z : ℝ

namespace Quat
/-- `Eigen::Quaternion::Identity()` (include/kindr/rotations/RotationQuaternion.hpp:84). -/
instance : One Quat := ⟨⟨1, 0, 0, 0⟩⟩
/-- Eigen quaternion product (Hamilton), include/kindr/quaternions/QuaternionBase.hpp:47-52,
include/kindr/rotations/RotationImpl.hpp:79-82. -/
instance : Mul Quat := ⟨fun a b =>
  ⟨a.w * b.w - a.x * b.x - a.y * b.y - a.z * b.z,
   a.w * b.x + a.x * b.w + a.y * b.z - a.z * b.y,
   a.w * b.y + a.y * b.w + a.z * b.x - a.x * b.z,
   a.w * b.z + a.z * b.w + a.x * b.y - a.y * b.x⟩⟩
/-- Coefficient-wise negation, include/kindr/rotations/RotationQuaternion.hpp:344. -/
instance : Neg Quat := ⟨fun a => ⟨-a.w, -a.x, -a.y, -a.z⟩⟩
/-- Eigen `conjugate()`, include/kindr/quaternions/Quaternion.hpp:118-120. -/
def conj (a : Quat) : Quat := ⟨a.w, -a.x, -a.y, -a.z⟩
/-- Eigen `squaredNorm()`. -/
def normSq (a : Quat) : ℝ := a.w * a.w + a.x * a.x + a.y * a.y + a.z * a.z
/-- Eigen `norm()`, include/kindr/quaternions/Quaternion.hpp:216-218. -/
def norm (a : Quat) : ℝ := Real.sqrt a.normSq
/-- Eigen `inverse()`: conjugate divided by the squared norm, the zero quaternion if the norm is zero,
include/kindr/quaternions/Quaternion.hpp:105-107. -/
def inverse (a : Quat) : Quat :=
  if 0 < a.normSq then
    ⟨a.w / a.normSq, -a.x / a.normSq, -a.y / a.normSq, -a.z / a.normSq⟩
  else ⟨0, 0, 0, 0⟩
/-- Eigen `normalized()` / `normalize()`, include/kindr/quaternions/Quaternion.hpp:220-227,
include/kindr/rotations/RotationQuaternion.hpp:617. -/
def normalized (a : Quat) : Quat :=
  if 0 < a.normSq then ⟨a.w / a.norm, a.x / a.norm, a.y / a.norm, a.z / a.norm⟩ else a
/-- Eigen `vec()`, the imaginary part (include/kindr/rotations/RotationQuaternion.hpp:180-182). -/
def vec (a : Quat) : V3 := ⟨a.x, a.y, a.z⟩
/-- Coefficients `[w; x; y; z]`, include/kindr/quaternions/Quaternion.hpp:210-214. -/
def toV4 (a : Quat) : V4 := ⟨a.w, a.x, a.y, a.z⟩

/-- Eigen `Quaternion::toRotationMatrix()`, include/kindr/rotations/RotationMatrix.hpp:334. -/
def toRotationMatrix (q : Quat) : M3 :=
  let tx := 2 * q.x
  let ty := 2 * q.y
  let tz := 2 * q.z
  let twx := tx * q.w
  let twy := ty * q.w
  let twz := tz * q.w
  let txx := tx * q.x
  let txy := ty * q.x
  let txz := tz * q.x
  let tyy := ty * q.y
  let tyz := tz * q.y
  let tzz := tz * q.z
  ⟨1 - (tyy + tzz), txy - twz, txz + twy,
   txy + twz, 1 - (txx + tzz), tyz - twx,
   txz - twy, tyz + twx, 1 - (txx + tyy)⟩

/-- Eigen `Quaternion(Matrix3)` (Shoemake), include/kindr/rotations/RotationQuaternion.hpp:563. -/
def ofMatrix (m : M3) : Quat :=
  let t := m.trace
  if t > 0 then
    let t := Real.sqrt (t + 1)
    let w := t / 2
    let t := 1 / 2 / t
    ⟨w, (m.m21 - m.m12) * t, (m.m02 - m.m20) * t, (m.m10 - m.m01) * t⟩
  else
    -- i = index of the largest diagonal entry, scanned as in Eigen
    if m.m11 > m.m00 then
      if m.m22 > m.m11 then
        -- i = 2, j = 0, k = 1
        let t := Real.sqrt (m.m22 - m.m00 - m.m11 + 1)
        let z := t / 2
        let t := 1 / 2 / t
        ⟨(m.m10 - m.m01) * t, (m.m02 + m.m20) * t, (m.m12 + m.m21) * t, z⟩
      else
        -- i = 1, j = 2, k = 0
        let t := Real.sqrt (m.m11 - m.m22 - m.m00 + 1)
        let y := t / 2
        let t := 1 / 2 / t
        ⟨(m.m02 - m.m20) * t, (m.m01 + m.m10) * t, y, (m.m21 + m.m12) * t⟩
    else
      if m.m22 > m.m00 then
        -- i = 2, j = 0, k = 1
        let t := Real.sqrt (m.m22 - m.m00 - m.m11 + 1)
        let z := t / 2
        let t := 1 / 2 / t
        ⟨(m.m10 - m.m01) * t, (m.m02 + m.m20) * t, (m.m12 + m.m21) * t, z⟩
      else
        -- i = 0, j = 1, k = 2
        let t := Real.sqrt (m.m00 - m.m11 - m.m22 + 1)
        let x := t / 2
        let t := 1 / 2 / t
        ⟨(m.m21 - m.m12) * t, x, (m.m10 + m.m01) * t, (m.m20 + m.m02) * t⟩

/-- Eigen `Quaternion(AngleAxis)`, include/kindr/rotations/RotationQuaternion.hpp:499. -/
def ofAngleAxis (angle : ℝ) (axis : V3) : Quat :=
  let ha := 1 / 2 * angle
  ⟨Real.cos ha, Real.sin ha * axis.x, Real.sin ha * axis.y, Real.sin ha * axis.z⟩

end Quat

/-- `Eigen::AngleAxis<PrimType_>`, the storage of kindr's `AngleAxis`
(include/kindr/rotations/AngleAxis.hpp:58-62). -/
@[ext] structure AngAx where
  angle : ℝ
  axis : V3

namespace AngAx
/-- `Eigen::AngleAxis::Identity()`: angle 0, axis UnitX (include/kindr/rotations/AngleAxis.hpp:82). -/
def identity : AngAx := ⟨0, V3.unitX⟩
/-- `Eigen::AngleAxis(Quaternion)`, include/kindr/rotations/AngleAxis.hpp:387. -/
def ofQuat (q : Quat) : AngAx :=
  let n := q.vec.norm
  if n ≠ 0 then
    let angle := 2 * atan2 n |q.w|
    let n := if q.w < 0 then -n else n
    ⟨angle, (1 / n) • q.vec⟩
  else ⟨0, ⟨1, 0, 0⟩⟩
/-- `Eigen::AngleAxis(Matrix3)`: converted through a quaternion, include/kindr/rotations/AngleAxis.hpp:396. -/
def ofMatrix (m : M3) : AngAx := ofQuat (Quat.ofMatrix m)
/-- `Eigen::AngleAxis::inverse()`: negated angle, same axis (include/kindr/rotations/AngleAxis.hpp:160). -/
def inverse (a : AngAx) : AngAx := ⟨-a.angle, a.axis⟩
/-- `Eigen::AngleAxis::toRotationMatrix()`, include/kindr/rotations/RotationMatrix.hpp:316. -/
def toRotationMatrix (a : AngAx) : M3 :=
  let n := a.axis
  let sin_axis := Real.sin a.angle • n
  let c := Real.cos a.angle
  let cos1_axis := (1 - c) • n
  let t01 := cos1_axis.x * n.y
  let t02 := cos1_axis.x * n.z
  let t12 := cos1_axis.y * n.z
  ⟨cos1_axis.x * n.x + c, t01 - sin_axis.z, t02 + sin_axis.y,
   t01 + sin_axis.z, cos1_axis.y * n.y + c, t12 - sin_axis.x,
   t02 - sin_axis.y, t12 + sin_axis.x, cos1_axis.z * n.z + c⟩
end AngAx

/-- Eigen `Matrix3::eulerAngles(0, 1, 2)` (`odd = 0`, i=0, j=1, k=2),
include/kindr/rotations/EulerAnglesXyz.hpp:513. -/
def eulerAngles012 (m : M3) : V3 :=
  let res0 := atan2 m.m12 m.m22
  let c2 := Real.sqrt (m.m00 * m.m00 + m.m01 * m.m01)
  let (res0, res1) :=
    if res0 > 0 then
      (if res0 > 0 then res0 - Real.pi else res0 + Real.pi, atan2 (-m.m02) (-c2))
    else (res0, atan2 (-m.m02) c2)
  let s1 := Real.sin res0
  let c1 := Real.cos res0
  let res2 := atan2 (s1 * m.m20 - c1 * m.m10) (c1 * m.m11 - s1 * m.m21)
  ⟨-res0, -res1, -res2⟩

/-- Eigen `Matrix3::eulerAngles(2, 1, 0)` (`odd = 1`, i=2, j=1, k=0),
include/kindr/rotations/EulerAnglesZyx.hpp:563. -/
def eulerAngles210 (m : M3) : V3 :=
  let res0 := atan2 m.m10 m.m00
  let c2 := Real.sqrt (m.m22 * m.m22 + m.m21 * m.m21)
  let (res0, res1) :=
    if res0 < 0 then
      (if res0 > 0 then res0 - Real.pi else res0 + Real.pi, atan2 (-m.m20) (-c2))
    else (res0, atan2 (-m.m20) c2)
  let s1 := Real.sin res0
  let c1 := Real.cos res0
  let res2 := atan2 (s1 * m.m02 - c1 * m.m12) (c1 * m.m11 - s1 * m.m01)
  ⟨res0, res1, res2⟩

/-- Eigen `Quaternion::setFromTwoVectors(a, b)`, called at include/kindr/rotations/RotationImpl.hpp:186.
`svdAxis v0 v1` stands for the unit vector that Eigen extracts from the SVD of `[v0ᵀ; v1ᵀ]`
(the right-singular vector of the smallest singular value); `dp` is Eigen's dummy precision.
Eigen 3.3: `w2 = (1 + max(c,-1))/2; w = sqrt(w2); vec = axis * sqrt(1-w2)`. -/
def quatFromTwoVectors (dp : ℝ) (svdAxis : V3 → V3 → V3) (a b : V3) : Quat :=
  let v0 := a.normalized
  let v1 := b.normalized
  let c := v1.dot v0
  if c < -1 + dp then
    let c := max c (-1)
    let axis := svdAxis v0 v1
    let w2 := (1 + c) * (1 / 2)
    let s := Real.sqrt (1 - w2)
    ⟨Real.sqrt w2, axis.x * s, axis.y * s, axis.z * s⟩
  else
    let axis := v0.cross v1
    let s := Real.sqrt ((1 + c) * 2)
    let invs := 1 / s
    ⟨s * (1 / 2), axis.x * invs, axis.y * invs, axis.z * invs⟩

end Kindr
