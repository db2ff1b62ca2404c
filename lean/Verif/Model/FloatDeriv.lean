import Verif.Model.FloatConv
import Verif.Model.Deriv

/-!
# Time derivatives of rotations in rounded arithmetic

Model/Deriv.lean once more, with every elementary operation rounded and an approximate mathematical library (`FloatLib`).
Negations are exact.  A sum of three or four products is modelled with the association of Eigen's unrolled reductions; the bounds
proved depend only on the number of roundings a product passes through.
-/

set_option autoImplicit false

open Classical

noncomputable section
namespace Kindr
namespace FloatLib
variable (F : FloatLib)

/-- One coefficient of Eigen's `(2.0 * H) * v` (3x4 times 4x1) with rounding, include/kindr/rotations/LocalAngularVelocity.hpp:232. -/
def twiceDot (r v : V4) : ℝ :=
  F.fl (F.fl (F.fl (F.fl (2 * r.c0) * v.c0) + F.fl (F.fl (2 * r.c1) * v.c1)) +
    F.fl (F.fl (F.fl (2 * r.c2) * v.c2) + F.fl (F.fl (2 * r.c3) * v.c3)))

/-- `LocalAngularVelocity(RotationQuaternion, RotationQuaternionDiff)` with rounding,
include/kindr/rotations/LocalAngularVelocity.hpp:228-234. -/
def localOfQuatDiff (q : Quat) (d : QuatDiff) : LocalAV :=
  let H := getLocalQuaternionDiffMatrix q
  ⟨⟨F.twiceDot H.r0 d.q.toV4, F.twiceDot H.r1 d.q.toV4, F.twiceDot H.r2 d.q.toV4⟩⟩

/-- `GlobalAngularVelocity(RotationQuaternion, RotationQuaternionDiff)` with rounding,
include/kindr/rotations/GlobalAngularVelocity.hpp:232-238. -/
def globalOfQuatDiff (q : Quat) (d : QuatDiff) : GlobalAV :=
  let H := getGlobalQuaternionDiffMatrix q
  ⟨⟨F.twiceDot H.r0 d.q.toV4, F.twiceDot H.r1 d.q.toV4, F.twiceDot H.r2 d.q.toV4⟩⟩

/-- One coefficient of Eigen's `0.5 * (H.transpose() * w)` (4x3 times 3x1) with rounding,
include/kindr/rotations/RotationQuaternionDiff.hpp:210. -/
def halfDot (a b c : ℝ) (w : V3) : ℝ := F.fl (1 / 2 * F.fl (F.fl (F.fl (a * w.x) + F.fl (b * w.y)) + F.fl (c * w.z)))

/-- `0.5 * (H.transpose() * w)` with rounding, include/kindr/rotations/RotationQuaternionDiff.hpp:210. -/
def halfTMulVec (H : M34) (w : V3) : V4 :=
  ⟨F.halfDot H.r0.c0 H.r1.c0 H.r2.c0 w, F.halfDot H.r0.c1 H.r1.c1 H.r2.c1 w,
   F.halfDot H.r0.c2 H.r1.c2 H.r2.c2 w, F.halfDot H.r0.c3 H.r1.c3 H.r2.c3 w⟩

/-- `RotationQuaternionDiff(RotationQuaternion, LocalAngularVelocity)` with rounding,
include/kindr/rotations/RotationQuaternionDiff.hpp:206-212. -/
def quatDiffOfLocal (q : Quat) (w : LocalAV) : QuatDiff :=
  ⟨Quaternion.ofVector4 (F.halfTMulVec (getLocalQuaternionDiffMatrix q) w.v)⟩

/-- `RotationQuaternionDiff(RotationQuaternion, GlobalAngularVelocity)` with rounding,
include/kindr/rotations/RotationQuaternionDiff.hpp:214-220. -/
def quatDiffOfGlobal (q : Quat) (w : GlobalAV) : QuatDiff :=
  ⟨Quaternion.ofVector4 (F.halfTMulVec (getGlobalQuaternionDiffMatrix q) w.v)⟩

/-- `LocalAngularVelocity(RotationMatrix, RotationMatrixDiff)` with rounding,
include/kindr/rotations/LocalAngularVelocity.hpp:236-243. -/
def localOfMatDiff (m : M3) (d : MatDiff) : LocalAV := ⟨vee (F.matMul m.transpose d.m)⟩

/-- `GlobalAngularVelocity(RotationMatrix, RotationMatrixDiff)` with rounding,
include/kindr/rotations/GlobalAngularVelocity.hpp:241-247. -/
def globalOfMatDiff (m : M3) (d : MatDiff) : GlobalAV := ⟨vee (F.matMul d.m m.transpose)⟩

/-- `RotationMatrixDiff(RotationMatrix, LocalAngularVelocity)` with rounding,
include/kindr/rotations/RotationMatrixDiff.hpp:184-190. -/
def matDiffOfLocal (m : M3) (w : LocalAV) : MatDiff := ⟨F.matMul m (skew w.v)⟩

/-- `RotationMatrixDiff(RotationMatrix, GlobalAngularVelocity)` with rounding,
include/kindr/rotations/RotationMatrixDiff.hpp:192-198. -/
def matDiffOfGlobal (m : M3) (w : GlobalAV) : MatDiff := ⟨F.matMul (skew w.v) m⟩

/-! ## Euler rate mappings -/

/-- `EulerAnglesXyz::getMappingFromDiffToLocalAngularVelocity()` with rounding,
include/kindr/rotations/EulerAnglesXyz.hpp:330-349. -/
def xyzDiffToLocal (e : EulXyz) : M3 :=
  let t2 := F.cos e.y
  let t3 := F.sin e.z
  let t4 := F.cos e.z
  ⟨F.fl (t2 * t4), t3, 0, F.fl (-t2 * t3), t4, 0, F.sin e.y, 0, 1⟩

/-- `EulerAnglesXyz::getMappingFromDiffToGlobalAngularVelocity()` with rounding,
include/kindr/rotations/EulerAnglesXyz.hpp:400-417. -/
def xyzDiffToGlobal (e : EulXyz) : M3 :=
  let t2 := F.sin e.x
  let t3 := F.cos e.x
  let t4 := F.cos e.y
  ⟨1, 0, F.sin e.y, 0, t3, F.fl (-t2 * t4), 0, t2, F.fl (t3 * t4)⟩

/-- `EulerAnglesZyx::getMappingFromDiffToLocalAngularVelocity()` with rounding,
include/kindr/rotations/EulerAnglesZyx.hpp:421-438. -/
def zyxDiffToLocal (e : EulZyx) : M3 :=
  let t2 := F.cos e.x
  let t3 := F.cos e.y
  let t4 := F.sin e.x
  ⟨-F.sin e.y, 0, 1, F.fl (t3 * t4), t2, 0, F.fl (t2 * t3), -t4, 0⟩

/-- `EulerAnglesXyz::getMappingFromLocalAngularVelocityToDiff()` with rounding,
include/kindr/rotations/EulerAnglesXyz.hpp:351-374. -/
def xyzLocalToDiff (e : EulXyz) : Res M3 :=
  let t2 := F.cos e.y
  if t2 ≠ 0 then
    let t3 := F.fl (1 / t2)
    let t4 := F.sin e.z
    let t5 := F.cos e.z
    let t6 := F.sin e.y
    .ok ⟨F.fl (t3 * t5), F.fl (-t3 * t4), 0, t4, t5, 0, F.fl (F.fl (-t3 * t5) * t6), F.fl (F.fl (t3 * t4) * t6), 1⟩
  else .throws

/-- `EulerAnglesXyz::getMappingFromGlobalAngularVelocityToDiff()` with rounding,
include/kindr/rotations/EulerAnglesXyz.hpp:376-397. -/
def xyzGlobalToDiff (e : EulXyz) : Res M3 :=
  let t2 := F.cos e.y
  if t2 ≠ 0 then
    let t3 := F.fl (1 / t2)
    let t4 := F.sin e.y
    let t5 := F.cos e.x
    let t6 := F.sin e.x
    .ok ⟨1, F.fl (F.fl (t3 * t4) * t6), F.fl (F.fl (-t3 * t4) * t5), 0, t5, t6, 0, F.fl (-t3 * t6), F.fl (t3 * t5)⟩
  else .throws

/-- `EulerAnglesZyx::getMappingFromLocalAngularVelocityToDiff()` with rounding,
include/kindr/rotations/EulerAnglesZyx.hpp:440-461. -/
def zyxLocalToDiff (e : EulZyx) : Res M3 :=
  let t2 := F.cos e.y
  let t3 := F.fl (1 / t2)
  if t2 ≠ 0 then
    let t4 := F.cos e.x
    let t5 := F.sin e.x
    let t6 := F.sin e.y
    .ok ⟨0, F.fl (t3 * t5), F.fl (t3 * t4), 0, t4, -t5, 1, F.fl (F.fl (t3 * t5) * t6), F.fl (F.fl (t3 * t4) * t6)⟩
  else .throws

/-- `LocalAngularVelocity(EulerAnglesXyz, EulerAnglesXyzDiff)` with rounding,
include/kindr/rotations/LocalAngularVelocity.hpp:256-264. -/
def localOfXyzDiff (e : EulXyz) (d : XyzDiff) : LocalAV := ⟨F.mulVec (F.xyzDiffToLocal e) d.v⟩

/-- `GlobalAngularVelocity(EulerAnglesXyz, EulerAnglesXyzDiff)` with rounding,
include/kindr/rotations/GlobalAngularVelocity.hpp:259-267. -/
def globalOfXyzDiff (e : EulXyz) (d : XyzDiff) : GlobalAV := ⟨F.mulVec (F.xyzDiffToGlobal e) d.v⟩

/-- `LocalAngularVelocity(EulerAnglesZyx, EulerAnglesZyxDiff)` with rounding,
include/kindr/rotations/LocalAngularVelocity.hpp:247-254. -/
def localOfZyxDiff (e : EulZyx) (d : ZyxDiff) : LocalAV := ⟨F.mulVec (F.zyxDiffToLocal e) d.v⟩

/-- `EulerAnglesXyzDiff(EulerAnglesXyz, LocalAngularVelocity)` with rounding,
include/kindr/rotations/EulerAnglesXyzDiff.hpp:363-369. -/
def xyzDiffOfLocal (e : EulXyz) (w : LocalAV) : Res XyzDiff :=
  match F.xyzLocalToDiff e with
  | .ok m => .ok ⟨F.mulVec m w.v⟩
  | .throws => .throws

/-- `EulerAnglesZyxDiff(EulerAnglesZyx, LocalAngularVelocity)` with rounding,
include/kindr/rotations/EulerAnglesZyxDiff.hpp:271-277. -/
def zyxDiffOfLocal (e : EulZyx) (w : LocalAV) : Res ZyxDiff :=
  match F.zyxLocalToDiff e with
  | .ok m => .ok ⟨F.mulVec m w.v⟩
  | .throws => .throws

/-! ## Velocities of any rotation class -/

/-- `LocalAngularVelocity(rotation, GlobalAngularVelocity)` with rounding,
include/kindr/rotations/LocalAngularVelocity.hpp:220-226. -/
def localOfGlobal (P : Prec) (k : Kind) (r : Rep k) (w : GlobalAV) : LocalAV := ⟨F.inverseRotate P k r w.v⟩

/-- `GlobalAngularVelocity(rotation, LocalAngularVelocity)` with rounding,
include/kindr/rotations/GlobalAngularVelocity.hpp:223-229. -/
def globalOfLocal (P : Prec) (k : Kind) (r : Rep k) (w : LocalAV) : GlobalAV := ⟨F.rotate P k r w.v⟩

/-! ## Jacobian of the exponential map -/

/-- Eigen `I + b * S`, coefficient by coefficient, with rounding, include/kindr/rotations/RotationDiff.hpp:87. -/
def onePlus (b : ℝ) (S : M3) : M3 :=
  ⟨F.fl (1 + F.fl (b * S.m00)), F.fl (0 + F.fl (b * S.m01)), F.fl (0 + F.fl (b * S.m02)),
   F.fl (0 + F.fl (b * S.m10)), F.fl (1 + F.fl (b * S.m11)), F.fl (0 + F.fl (b * S.m12)),
   F.fl (0 + F.fl (b * S.m20)), F.fl (0 + F.fl (b * S.m21)), F.fl (1 + F.fl (b * S.m22))⟩

/-- Eigen `A + d * T`, coefficient by coefficient, with rounding, include/kindr/rotations/RotationDiff.hpp:89. -/
def plusScaled (A : M3) (d : ℝ) (T : M3) : M3 :=
  ⟨F.fl (A.m00 + F.fl (d * T.m00)), F.fl (A.m01 + F.fl (d * T.m01)), F.fl (A.m02 + F.fl (d * T.m02)),
   F.fl (A.m10 + F.fl (d * T.m10)), F.fl (A.m11 + F.fl (d * T.m11)), F.fl (A.m12 + F.fl (d * T.m12)),
   F.fl (A.m20 + F.fl (d * T.m20)), F.fl (A.m21 + F.fl (d * T.m21)), F.fl (A.m22 + F.fl (d * T.m22))⟩

/-- `getJacobianOfExponentialMap(vector)` with rounding, include/kindr/rotations/RotationDiff.hpp:83-91. -/
def getJacobianOfExponentialMap (v : V3) : M3 :=
  let norm := F.norm3 v
  let S := skew v
  if norm < 1 / 10000 then F.onePlus (1 / 2) S
  else
    let b := F.fl (F.fl (1 - F.cos norm) / F.fl (norm * norm))
    let d := F.fl (F.fl (norm - F.sin norm) / F.fl (F.fl (norm * norm) * norm))
    F.plusScaled (F.onePlus b S) d (F.matMul S S)

end FloatLib
end Kindr
