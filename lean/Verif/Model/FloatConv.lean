import Verif.Model.Float

/-!
# The conversion table in rounded arithmetic

Model/Rotation.lean computes the `ConversionTraits` table with exact reals.  Here the whole table is modelled once more with every
elementary operation rounded (`FloatArith.fl`) and with a mathematical library (`std::sin`, `std::cos`, `std::atan2`) that is only
approximately right.  Nothing but the error bounds in `FloatLib` is known about the rounding and the library.
-/

set_option autoImplicit false

open Classical

noncomputable section
namespace Kindr

/-- A floating-point arithmetic with a mathematical library.  `std::sin` and `std::cos` have absolute error at most `2u`, and
`std::atan2` at most `8u` (its result is at most `π`, so this allows about one unit in the last place and more).  On the negative
real axis the sign of the result `±π` is left open (IEEE: the sign of the zero), and at the origin the result is any angle of
absolute value at most 4 (IEEE: `±0` or `±π`).  Simplification: no overflow, underflow, NaN. -/
structure FloatLib extends FloatArith where
  sin : ℝ → ℝ
  cos : ℝ → ℝ
  atan2 : ℝ → ℝ → ℝ
  sin_err : ∀ x, |sin x - Real.sin x| ≤ 2 * u
  cos_err : ∀ x, |cos x - Real.cos x| ≤ 2 * u
  atan2_err : ∀ y x, y ≠ 0 ∨ 0 < x → |atan2 y x - Kindr.atan2 y x| ≤ 8 * u
  atan2_neg : ∀ x, x < 0 → |atan2 0 x - Real.pi| ≤ 8 * u ∨ |atan2 0 x - -Real.pi| ≤ 8 * u
  atan2_zero : |atan2 0 0| ≤ 4

namespace FloatLib
variable (F : FloatLib)

/-- Eigen `squaredNorm()` of a 3-vector with rounding, include/kindr/rotations/RotationVector.hpp:341 (the unrolled reduction of
Eigen adds the first coefficient to the sum of the other two). -/
def normSq3 (v : V3) : ℝ := F.fl (F.fl (v.x * v.x) + F.fl (F.fl (v.y * v.y) + F.fl (v.z * v.z)))
/-- Eigen `norm()` of a 3-vector with rounding, include/kindr/rotations/RotationVector.hpp:341,
include/kindr/rotations/RotationQuaternion.hpp:530. -/
def norm3 (v : V3) : ℝ := F.fl (Real.sqrt (F.normSq3 v))

/-- Eigen `Quaternion(AngleAxis)` with rounding, include/kindr/rotations/RotationQuaternion.hpp:495-501. -/
def ofAngleAxis (angle : ℝ) (axis : V3) : Quat :=
  let ha := F.fl (1 / 2 * angle)
  ⟨F.cos ha, F.fl (F.sin ha * axis.x), F.fl (F.sin ha * axis.y), F.fl (F.sin ha * axis.z)⟩

/-- `ConversionTraits<RotationQuaternion, AngleAxis>` with rounding, include/kindr/rotations/RotationQuaternion.hpp:495-501. -/
def quatOfAa (a : AngAx) : Quat := F.ofAngleAxis a.angle a.axis

/-- `ConversionTraits<RotationQuaternion, RotationVector>` with rounding,
include/kindr/rotations/RotationQuaternion.hpp:504-548.  Simplification: for `float` the code evaluates `sin(theta*0.5) / theta`
and `cos(theta*0.5)` in double precision and rounds the results; here every operation is rounded, which is a larger error. -/
def quatOfRv (P : Prec) (r : RotVec) : Quat :=
  let theta := F.norm3 r.v
  let na := if theta < F.fl (P.eps ^ (1 / 4 : ℝ)) then F.fl (1 / 2 - F.fl (F.fl (theta * theta) * F.fl (1 / 48)))
            else F.fl (F.sin (F.fl (theta * (1 / 2))) / theta)
  let ct := F.cos (F.fl (theta * (1 / 2)))
  ⟨ct, F.fl (r.v.x * na), F.fl (r.v.y * na), F.fl (r.v.z * na)⟩

/-- Eigen `Quaternion(Matrix3)` (Shoemake) with rounding, include/kindr/rotations/RotationQuaternion.hpp:559-565.  The trace is
summed like every unrolled reduction of Eigen. -/
def ofMatrix (m : M3) : Quat :=
  let t := F.fl (m.m00 + F.fl (m.m11 + m.m22))
  if t > 0 then
    let t := F.fl (Real.sqrt (F.fl (t + 1)))
    let w := F.fl (1 / 2 * t)
    let t := F.fl (1 / 2 / t)
    ⟨w, F.fl (F.fl (m.m21 - m.m12) * t), F.fl (F.fl (m.m02 - m.m20) * t), F.fl (F.fl (m.m10 - m.m01) * t)⟩
  else
    if m.m11 > m.m00 then
      if m.m22 > m.m11 then
        let t := F.fl (Real.sqrt (F.fl (F.fl (F.fl (m.m22 - m.m00) - m.m11) + 1)))
        let z := F.fl (1 / 2 * t)
        let t := F.fl (1 / 2 / t)
        ⟨F.fl (F.fl (m.m10 - m.m01) * t), F.fl (F.fl (m.m02 + m.m20) * t), F.fl (F.fl (m.m12 + m.m21) * t), z⟩
      else
        let t := F.fl (Real.sqrt (F.fl (F.fl (F.fl (m.m11 - m.m22) - m.m00) + 1)))
        let y := F.fl (1 / 2 * t)
        let t := F.fl (1 / 2 / t)
        ⟨F.fl (F.fl (m.m02 - m.m20) * t), F.fl (F.fl (m.m01 + m.m10) * t), y, F.fl (F.fl (m.m21 + m.m12) * t)⟩
    else
      if m.m22 > m.m00 then
        let t := F.fl (Real.sqrt (F.fl (F.fl (F.fl (m.m22 - m.m00) - m.m11) + 1)))
        let z := F.fl (1 / 2 * t)
        let t := F.fl (1 / 2 / t)
        ⟨F.fl (F.fl (m.m10 - m.m01) * t), F.fl (F.fl (m.m02 + m.m20) * t), F.fl (F.fl (m.m12 + m.m21) * t), z⟩
      else
        let t := F.fl (Real.sqrt (F.fl (F.fl (F.fl (m.m00 - m.m11) - m.m22) + 1)))
        let x := F.fl (1 / 2 * t)
        let t := F.fl (1 / 2 / t)
        ⟨F.fl (F.fl (m.m21 - m.m12) * t), x, F.fl (F.fl (m.m10 + m.m01) * t), F.fl (F.fl (m.m20 + m.m02) * t)⟩

/-- `ConversionTraits<RotationQuaternion, EulerAnglesXyz>` with rounding,
include/kindr/rotations/RotationQuaternion.hpp:567-576. -/
def quatOfXyz (e : EulXyz) : Quat :=
  F.quatMul (F.quatMul (F.ofAngleAxis e.x V3.unitX) (F.ofAngleAxis e.y V3.unitY)) (F.ofAngleAxis e.z V3.unitZ)

/-- `ConversionTraits<RotationQuaternion, EulerAnglesZyx>` with rounding,
include/kindr/rotations/RotationQuaternion.hpp:578-587. -/
def quatOfZyx (e : EulZyx) : Quat :=
  F.quatMul (F.quatMul (F.ofAngleAxis e.z V3.unitZ) (F.ofAngleAxis e.y V3.unitY)) (F.ofAngleAxis e.x V3.unitX)

/-- `Eigen::AngleAxis(Quaternion)` with rounding, include/kindr/rotations/AngleAxis.hpp:382-389.  (Eigen recomputes the norm with a
version protected against underflow if it is below epsilon; underflow is not modelled.) -/
def ofQuat (q : Quat) : AngAx :=
  let n := F.norm3 q.vec
  if n ≠ 0 then
    let angle := F.fl (2 * F.atan2 n |q.w|)
    let n := if q.w < 0 then -n else n
    ⟨angle, ⟨F.fl (q.x / n), F.fl (q.y / n), F.fl (q.z / n)⟩⟩
  else ⟨0, ⟨1, 0, 0⟩⟩

/-- `ConversionTraits<AngleAxis, RotationVector>` with rounding, include/kindr/rotations/AngleAxis.hpp:364-380. -/
def aaOfRv (P : Prec) (r : RotVec) : AngAx :=
  let norm := F.norm3 r.v
  if norm < P.dp then AngAx.identity
  else ⟨norm, ⟨F.fl (r.v.x / norm), F.fl (r.v.y / norm), F.fl (r.v.z / norm)⟩⟩

/-- `ConversionTraits<RotationVector, AngleAxis>` with rounding, include/kindr/rotations/RotationVector.hpp:313-320. -/
def rvOfAa (a : AngAx) : RotVec := ⟨⟨F.fl (a.angle * a.axis.x), F.fl (a.angle * a.axis.y), F.fl (a.angle * a.axis.z)⟩⟩

/-- The guard of `ConversionTraits<RotationVector, RotationQuaternion>`: the small-angle branch is taken,
include/kindr/rotations/RotationVector.hpp:331-333. -/
def rvSmall (P : Prec) (q : Quat) : Prop := F.fl (1 - F.fl (q.w * q.w)) < P.dp

/-- `ConversionTraits<RotationVector, RotationQuaternion>` with rounding,
include/kindr/rotations/RotationVector.hpp:323-344.  (Over the reals `x / 0 = 0`; the theorems exclude the division by zero.) -/
def rvOfQuat (P : Prec) (q : Quat) : RotVec :=
  if F.rvSmall P q then
    if q.w > 0 then ⟨⟨F.fl (2 * q.x), F.fl (2 * q.y), F.fl (2 * q.z)⟩⟩
    else ⟨⟨F.fl (-2 * q.x), F.fl (-2 * q.y), F.fl (-2 * q.z)⟩⟩
  else
    let n := F.norm3 q.vec
    let k := F.fl (F.fl (2 * F.atan2 n q.w) / n)
    ⟨⟨F.fl (k * q.x), F.fl (k * q.y), F.fl (k * q.z)⟩⟩

/-- `ConversionTraits<RotationMatrix, AngleAxis>` (Eigen `AngleAxis::toRotationMatrix()`) with rounding,
include/kindr/rotations/RotationMatrix.hpp:311-319. -/
def matOfAa (a : AngAx) : M3 :=
  let n := a.axis
  let s := F.sin a.angle
  let c := F.cos a.angle
  let sx := F.fl (s * n.x)
  let sy := F.fl (s * n.y)
  let sz := F.fl (s * n.z)
  let d := F.fl (1 - c)
  let cx := F.fl (d * n.x)
  let cy := F.fl (d * n.y)
  let cz := F.fl (d * n.z)
  let t01 := F.fl (cx * n.y)
  let t02 := F.fl (cx * n.z)
  let t12 := F.fl (cy * n.z)
  ⟨F.fl (F.fl (cx * n.x) + c), F.fl (t01 - sz), F.fl (t02 + sy),
   F.fl (t01 + sz), F.fl (F.fl (cy * n.y) + c), F.fl (t12 - sx),
   F.fl (t02 - sy), F.fl (t12 + sx), F.fl (F.fl (cz * n.z) + c)⟩

/-- Eigen `Matrix3::eulerAngles(0, 1, 2)` with rounding, include/kindr/rotations/EulerAnglesXyz.hpp:513. -/
def eulerAngles012 (m : M3) : V3 :=
  let res0 := F.atan2 m.m12 m.m22
  let c2 := F.fl (Real.sqrt (F.fl (F.fl (m.m00 * m.m00) + F.fl (m.m01 * m.m01))))
  let (res0, res1) :=
    if res0 > 0 then
      (if res0 > 0 then F.fl (res0 - F.fl Real.pi) else F.fl (res0 + F.fl Real.pi), F.atan2 (-m.m02) (-c2))
    else (res0, F.atan2 (-m.m02) c2)
  let s1 := F.sin res0
  let c1 := F.cos res0
  let res2 := F.atan2 (F.fl (F.fl (s1 * m.m20) - F.fl (c1 * m.m10))) (F.fl (F.fl (c1 * m.m11) - F.fl (s1 * m.m21)))
  ⟨-res0, -res1, -res2⟩

/-- Eigen `Matrix3::eulerAngles(2, 1, 0)` with rounding, include/kindr/rotations/EulerAnglesZyx.hpp:563. -/
def eulerAngles210 (m : M3) : V3 :=
  let res0 := F.atan2 m.m10 m.m00
  let c2 := F.fl (Real.sqrt (F.fl (F.fl (m.m22 * m.m22) + F.fl (m.m21 * m.m21))))
  let (res0, res1) :=
    if res0 < 0 then
      (if res0 > 0 then F.fl (res0 - F.fl Real.pi) else F.fl (res0 + F.fl Real.pi), F.atan2 (-m.m20) (-c2))
    else (res0, F.atan2 (-m.m20) c2)
  let s1 := F.sin res0
  let c1 := F.cos res0
  let res2 := F.atan2 (F.fl (F.fl (s1 * m.m02) - F.fl (c1 * m.m12))) (F.fl (F.fl (c1 * m.m11) - F.fl (s1 * m.m01)))
  ⟨res0, res1, res2⟩

/-- `ConversionTraits<EulerAnglesXyz, RotationQuaternion>` with rounding,
include/kindr/rotations/EulerAnglesXyz.hpp:509-516. -/
def xyzOfQuat (q : Quat) : EulXyz := ⟨F.eulerAngles012 (F.toRotationMatrix q)⟩

/-- `ConversionTraits<EulerAnglesZyx, RotationQuaternion>` with rounding,
include/kindr/rotations/EulerAnglesZyx.hpp:559-566. -/
def zyxOfQuat (q : Quat) : EulZyx := ⟨F.eulerAngles210 (F.toRotationMatrix q)⟩

/-- `Dest_(source)` with rounding: the whole `ConversionTraits` table, entry by entry as `Kindr.conv` (see there for the lines of
every entry): include/kindr/rotations/RotationQuaternion.hpp:495-587, include/kindr/rotations/RotationMatrix.hpp:311-367,
include/kindr/rotations/AngleAxis.hpp:356-423, include/kindr/rotations/RotationVector.hpp:305-363,
include/kindr/rotations/EulerAnglesXyz.hpp:492-541, include/kindr/rotations/EulerAnglesZyx.hpp:535-582. -/
def conv (P : Prec) : (d s : Kind) → Rep s → Rep d
  | .quat, .quat => fun q => q
  | .quat, .mat => F.ofMatrix
  | .quat, .aa => F.quatOfAa
  | .quat, .rv => F.quatOfRv P
  | .quat, .xyz => F.quatOfXyz
  | .quat, .zyx => F.quatOfZyx
  | .mat, .quat => F.toRotationMatrix
  | .mat, .mat => fun m => m
  | .mat, .aa => F.matOfAa
  | .mat, .rv => fun r => F.toRotationMatrix (F.quatOfRv P r)
  | .mat, .xyz => fun e => F.toRotationMatrix (F.quatOfXyz e)
  | .mat, .zyx => fun e => F.toRotationMatrix (F.quatOfZyx e)
  | .aa, .quat => F.ofQuat
  | .aa, .mat => fun m => F.ofQuat (F.ofMatrix m)
  | .aa, .aa => fun a => a
  | .aa, .rv => F.aaOfRv P
  | .aa, .xyz => fun e => F.ofQuat (F.quatOfXyz e)
  | .aa, .zyx => fun e => F.ofQuat (F.quatOfZyx e)
  | .rv, .quat => F.rvOfQuat P
  | .rv, .mat => fun m => F.rvOfQuat P (F.ofMatrix m)
  | .rv, .aa => F.rvOfAa
  | .rv, .rv => fun r => r
  | .rv, .xyz => fun e => F.rvOfAa (F.ofQuat (F.quatOfXyz e))
  | .rv, .zyx => fun e => F.rvOfAa (F.ofQuat (F.quatOfZyx e))
  | .xyz, .quat => F.xyzOfQuat
  | .xyz, .mat => fun m => F.xyzOfQuat (F.ofMatrix m)
  | .xyz, .aa => fun a => F.xyzOfQuat (F.quatOfAa a)
  | .xyz, .rv => fun r => F.xyzOfQuat (F.quatOfAa (F.aaOfRv P r))
  | .xyz, .xyz => fun e => e
  | .xyz, .zyx => fun e => F.xyzOfQuat (F.quatOfZyx e)
  | .zyx, .quat => F.zyxOfQuat
  | .zyx, .mat => fun m => F.zyxOfQuat (F.ofMatrix m)
  | .zyx, .aa => fun a => F.zyxOfQuat (F.quatOfAa a)
  | .zyx, .rv => fun r => F.zyxOfQuat (F.quatOfRv P r)
  | .zyx, .xyz => fun e => F.zyxOfQuat (F.quatOfXyz e)
  | .zyx, .zyx => fun e => e

/-- `rotate(v)` with rounding: convert to a rotation matrix and multiply,
include/kindr/rotations/RotationImpl.hpp:107-118. -/
def rotate (P : Prec) (k : Kind) (r : Rep k) (v : V3) : V3 := F.mulVec (F.conv P .mat k r) v

/-- `inverted()` with rounding: sign changes and the transpose are exact, the Euler angles go through a quaternion,
include/kindr/rotations/RotationQuaternion.hpp:291-301, include/kindr/rotations/RotationMatrix.hpp:144-156,
include/kindr/rotations/AngleAxis.hpp:159-172, include/kindr/rotations/RotationVector.hpp:138-148,
include/kindr/rotations/EulerAnglesXyz.hpp:133-143, include/kindr/rotations/EulerAnglesZyx.hpp:152-162. -/
def inverted : (k : Kind) → Rep k → Rep k
  | .quat => fun (q : Quat) => UnitQuaternion.inverted q
  | .mat => fun (m : M3) => m.transpose
  | .aa => aaInverted
  | .rv => fun (r : RotVec) => (⟨-r.v⟩ : RotVec)
  | .xyz => fun e => F.xyzOfQuat (UnitQuaternion.inverted (F.quatOfXyz e))
  | .zyx => fun e => F.zyxOfQuat (UnitQuaternion.inverted (F.quatOfZyx e))

/-- `inverseRotate(v)` with rounding, include/kindr/rotations/RotationBase.hpp:325-328. -/
def inverseRotate (P : Prec) (k : Kind) (r : Rep k) (v : V3) : V3 := F.rotate P k (F.inverted k r) v

/-- `operator*` with rounding, include/kindr/rotations/RotationMatrix.hpp:373-382,
include/kindr/rotations/RotationImpl.hpp:74-99. -/
def mult (P : Prec) : (k₁ k₂ : Kind) → Rep k₁ → Rep k₂ → Rep k₁
  | .mat, .mat => fun (a b : M3) => F.matMul a b
  | k₁, k₂ => fun a b => F.conv P k₁ .quat (F.quatMul (F.conv P .quat k₁ a) (F.conv P .quat k₂ b))

/-- `exponentialMap(v)` with rounding, include/kindr/rotations/RotationImpl.hpp:144-147. -/
def exponentialMap (P : Prec) (k : Kind) (v : V3) : Rep k := F.conv P k .rv (⟨v⟩ : RotVec)

/-- `boxPlus(v)` with rounding, include/kindr/rotations/RotationImpl.hpp:167-169. -/
def boxPlus (P : Prec) (k : Kind) (r : Rep k) (v : V3) : Rep k := F.mult P k k (F.exponentialMap P k v) r

end FloatLib
end Kindr
