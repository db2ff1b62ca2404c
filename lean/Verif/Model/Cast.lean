import Verif.Model.Float
import Verif.Model.Pose

/-!
# Conversion between scalar types

Every rotation class has a constructor from the same class with another `PrimType_` (`float` ↔ `double`).  It converts each
stored number.  `fl` is the rounding of the destination type.
-/

set_option autoImplicit false

open Classical

noncomputable section
namespace Kindr

/-- Eigen `cast<Dest>()` of a 3-vector; `Vector` constructor from another scalar type,
include/kindr/vectors/Vector.hpp:94-102. -/
def castV3 (fl : ℝ → ℝ) (v : V3) : V3 := ⟨fl v.x, fl v.y, fl v.z⟩

/-- `RotationQuaternion<Dest>(RotationQuaternion<Source>)`, include/kindr/rotations/RotationQuaternion.hpp:551-557. -/
def castQuat (fl : ℝ → ℝ) (q : Quat) : Quat := ⟨fl q.w, fl q.x, fl q.y, fl q.z⟩

/-- `RotationMatrix<Dest>(RotationMatrix<Source>)`, include/kindr/rotations/RotationMatrix.hpp:339-347. -/
def castM3 (fl : ℝ → ℝ) (m : M3) : M3 :=
  ⟨fl m.m00, fl m.m01, fl m.m02, fl m.m10, fl m.m11, fl m.m12, fl m.m20, fl m.m21, fl m.m22⟩

/-- `Rotation<Dest>(Rotation<Source>)` within one class: include/kindr/rotations/RotationQuaternion.hpp:551-557,
include/kindr/rotations/RotationMatrix.hpp:339-347, include/kindr/rotations/AngleAxis.hpp:356-362,
include/kindr/rotations/RotationVector.hpp:305-311, include/kindr/rotations/EulerAnglesXyz.hpp:527-533,
include/kindr/rotations/EulerAnglesZyx.hpp:576-582. -/
def castRep (fl : ℝ → ℝ) : (k : Kind) → Rep k → Rep k
  | .quat => fun q => castQuat fl q
  | .mat => fun m => castM3 fl m
  | .aa => fun a => (⟨fl (AngAx.angle a), castV3 fl (AngAx.axis a)⟩ : AngAx)
  | .rv => fun r => (⟨castV3 fl (RotVec.v r)⟩ : RotVec)
  | .xyz => fun e => (⟨castV3 fl (EulXyz.v e)⟩ : EulXyz)
  | .zyx => fun e => (⟨castV3 fl (EulZyx.v e)⟩ : EulZyx)

/-- `ConversionTraits<RotationQuaternion<Dest>, RotationVector<Source>>`,
include/kindr/rotations/RotationQuaternion.hpp:510-548: the norm is computed in the source type and then converted. -/
def quatOfRvTyped (Pd : Prec) (fl : ℝ → ℝ) (r : RotVec) : Quat :=
  let theta := fl r.v.norm
  let na := if isLessThenEpsilons4thRoot Pd theta then 1 / 2 - theta * theta * (1 / 48)
            else Real.sin (theta * (1 / 2)) / theta
  let axis := na • castV3 fl r.v
  let ct := Real.cos (theta * (1 / 2))
  ⟨ct, axis.x, axis.y, axis.z⟩

/-- `ConversionTraits<RotationVector<Dest>, RotationQuaternion<Source>>`,
include/kindr/rotations/RotationVector.hpp:323-344: the threshold is the one of the source type, the result is converted last. -/
def rvOfQuatTyped (Ps : Prec) (fl : ℝ → ℝ) (q : Quat) : RotVec :=
  let imaginaryVectorNormSquared := fl (1 - q.w * q.w)
  if imaginaryVectorNormSquared < Ps.dp then
    if q.w > 0 then ⟨(2 : ℝ) • castV3 fl q.vec⟩ else ⟨(-2 : ℝ) • castV3 fl q.vec⟩
  else
    let imaginaryVectorNorm := fl q.vec.norm
    ⟨castV3 fl ((2 * atan2 imaginaryVectorNorm q.w / imaginaryVectorNorm) • q.vec)⟩

/-- `Dest_<DestPrimType_>(Source_<SourcePrimType_>)`: the whole `ConversionTraits` table with two scalar types.  Only the
conversions of stored numbers from one scalar type to the other round (`fl`); the arithmetic in between is exact.  Most entries
convert the source first; the exceptions are include/kindr/rotations/EulerAnglesXyz.hpp:501-517 (through
`AngleAxis<SourcePrimType_>`; angles converted last), include/kindr/rotations/EulerAnglesZyx.hpp:551-566 (through
`RotationQuaternion<SourcePrimType_>`; angles converted last), include/kindr/rotations/AngleAxis.hpp:364-380 (threshold of the
source type), include/kindr/rotations/RotationVector.hpp:323-344, 356-364, include/kindr/rotations/RotationMatrix.hpp:321-327
and include/kindr/rotations/RotationQuaternion.hpp:510-548. -/
def convTyped (Pd Ps : Prec) (fl : ℝ → ℝ) : (d s : Kind) → Rep s → Rep d
  | .quat, .rv => quatOfRvTyped Pd fl
  | .mat, .rv => fun r => (quatOfRvTyped Pd fl r).toRotationMatrix
  | .aa, .rv => fun r => aaOfRv Ps (castRep fl .rv r)
  | .rv, .quat => rvOfQuatTyped Ps fl
  | .xyz, .rv => fun r => xyzOfAa (castRep fl .aa (aaOfRv Ps r))
  | .xyz, .quat => fun q => castRep fl .xyz (xyzOfQuat q)
  | .zyx, .quat => fun q => castRep fl .zyx (zyxOfQuat q)
  | .zyx, .rv => fun r => castRep fl .zyx (zyxOfQuat (quatOfRv Ps r))
  | d, s => fun r => conv Pd d s (castRep fl s r)

/-- `HomogeneousTransformation(const PoseBase<OtherDerived_>&)` for a pose with another position, rotation and scalar type,
include/kindr/poses/HomogeneousTransformation.hpp:63-71: the position is converted coefficientwise
(include/kindr/vectors/Vector.hpp:94-102), the rotation with the conversion table. -/
def Pose.ofPoseTyped (Pd Ps : Prec) (fl : ℝ → ℝ) (d s : Kind) (T : Pose s) : Pose d :=
  ⟨castV3 fl T.position, convTyped Pd Ps fl d s T.rotation⟩

/-- Eigen `norm()` of a 3-vector with rounding, as evaluated by the debug check of `AngleAxis`,
include/kindr/rotations/AngleAxis.hpp:105-110. -/
def FloatArith.vecNorm (F : FloatArith) (v : V3) : ℝ :=
  F.fl (Real.sqrt (F.fl (F.fl (F.fl (v.x * v.x) + F.fl (v.y * v.y)) + F.fl (v.z * v.z))))

/-- The debug check of the destination constructor with the norm evaluated in the destination type,
include/kindr/rotations/RotationQuaternion.hpp:94-130. -/
def quatCtorDbgRounded (F : FloatArith) (q : Quat) : Res Quat := assertScalarNearDbg (F.quatNorm q) 1 (1 / 100) (.ok q)

/-- The debug check of the destination constructor with the norm evaluated in the destination type,
include/kindr/rotations/AngleAxis.hpp:92-127. -/
def aaCtorDbgRounded (F : FloatArith) (a : AngAx) : Res AngAx :=
  assertScalarNearDbg (F.vecNorm a.axis) 1 (1 / 10000) (.ok a)

end Kindr
