import Verif.Model.Rotation
import Verif.Model.Math

/-!
# Time derivatives of rotations

`LocalAngularVelocity`, `GlobalAngularVelocity`, `RotationQuaternionDiff`, `RotationMatrixDiff`, `EulerAnglesXyzDiff`,
`EulerAnglesZyxDiff` and the conversions between them.  `GlobalAngularVelocity(EulerAnglesZyx, EulerAnglesZyxDiff)`
(include/kindr/rotations/GlobalAngularVelocity.hpp:250-257) calls `getMappingFromDiffToGlobalAngularVelocity`, which
`EulerAnglesZyx` does not have; it cannot be instantiated and is not modelled.
-/

set_option autoImplicit false

open Classical

noncomputable section
namespace Kindr

/-- Storage of `LocalAngularVelocity`, include/kindr/rotations/LocalAngularVelocity.hpp:56-101. -/
@[ext] structure LocalAV where
  v : V3

/-- Storage of `GlobalAngularVelocity`, include/kindr/rotations/GlobalAngularVelocity.hpp:62-107. -/
@[ext] structure GlobalAV where
  v : V3

/-- Storage of `EulerAnglesXyzDiff`, `[roll; pitch; yaw]` rates, include/kindr/rotations/EulerAnglesXyzDiff.hpp:51-90. -/
@[ext] structure XyzDiff where
  v : V3

/-- Storage of `EulerAnglesZyxDiff`, `[yaw; pitch; roll]` rates, include/kindr/rotations/EulerAnglesZyxDiff.hpp:52-86. -/
@[ext] structure ZyxDiff where
  v : V3

/-- Storage of `RotationQuaternionDiff`, include/kindr/rotations/RotationQuaternionDiff.hpp:50-105. -/
@[ext] structure QuatDiff where
  q : Quat

/-- Storage of `RotationMatrixDiff`, include/kindr/rotations/RotationMatrixDiff.hpp:51-100. -/
@[ext] structure MatDiff where
  m : M3

/-- `getGlobalQuaternionDiffMatrix()`, include/kindr/rotations/RotationQuaternion.hpp:400-406. -/
def getGlobalQuaternionDiffMatrix (q : Quat) : M34 :=
  ⟨⟨-q.x, q.w, -q.z, q.y⟩, ⟨-q.y, q.z, q.w, -q.x⟩, ⟨-q.z, -q.y, q.x, q.w⟩⟩

/-- `getLocalQuaternionDiffMatrix()`, include/kindr/rotations/RotationQuaternion.hpp:411-417. -/
def getLocalQuaternionDiffMatrix (q : Quat) : M34 :=
  ⟨⟨-q.x, q.w, q.z, -q.y⟩, ⟨-q.y, -q.z, q.w, q.x⟩, ⟨-q.z, q.y, -q.x, q.w⟩⟩

/-! ## Euler rate mappings -/

/-- `EulerAnglesXyz::getMappingFromDiffToLocalAngularVelocity()`, include/kindr/rotations/EulerAnglesXyz.hpp:330-349. -/
def xyzDiffToLocal (e : EulXyz) : M3 :=
  let t2 := Real.cos e.y
  let t3 := Real.sin e.z
  let t4 := Real.cos e.z
  ⟨t2 * t4, t3, 0, -t2 * t3, t4, 0, Real.sin e.y, 0, 1⟩

/-- `EulerAnglesXyz::getMappingFromLocalAngularVelocityToDiff()`,
include/kindr/rotations/EulerAnglesXyz.hpp:351-374. -/
def xyzLocalToDiff (e : EulXyz) : Res M3 :=
  let t2 := Real.cos e.y
  if t2 ≠ 0 then
    let t3 := 1 / t2
    let t4 := Real.sin e.z
    let t5 := Real.cos e.z
    let t6 := Real.sin e.y
    .ok ⟨t3 * t5, -t3 * t4, 0, t4, t5, 0, -t3 * t5 * t6, t3 * t4 * t6, 1⟩
  else .throws

/-- `EulerAnglesXyz::getMappingFromGlobalAngularVelocityToDiff()`,
include/kindr/rotations/EulerAnglesXyz.hpp:376-397. -/
def xyzGlobalToDiff (e : EulXyz) : Res M3 :=
  let t2 := Real.cos e.y
  if t2 ≠ 0 then
    let t3 := 1 / t2
    let t4 := Real.sin e.y
    let t5 := Real.cos e.x
    let t6 := Real.sin e.x
    .ok ⟨1, t3 * t4 * t6, -t3 * t4 * t5, 0, t5, t6, 0, -t3 * t6, t3 * t5⟩
  else .throws

/-- `EulerAnglesXyz::getMappingFromDiffToGlobalAngularVelocity()`,
include/kindr/rotations/EulerAnglesXyz.hpp:400-417. -/
def xyzDiffToGlobal (e : EulXyz) : M3 :=
  let t2 := Real.sin e.x
  let t3 := Real.cos e.x
  let t4 := Real.cos e.y
  ⟨1, 0, Real.sin e.y, 0, t3, -t2 * t4, 0, t2, t3 * t4⟩

/-- `EulerAnglesZyx::getMappingFromDiffToLocalAngularVelocity()`, include/kindr/rotations/EulerAnglesZyx.hpp:421-438. -/
def zyxDiffToLocal (e : EulZyx) : M3 :=
  let t2 := Real.cos e.x
  let t3 := Real.cos e.y
  let t4 := Real.sin e.x
  ⟨-Real.sin e.y, 0, 1, t3 * t4, t2, 0, t2 * t3, -t4, 0⟩

/-- `EulerAnglesZyx::getMappingFromLocalAngularVelocityToDiff()`,
include/kindr/rotations/EulerAnglesZyx.hpp:440-461 (`1.0/t2` is evaluated before the assertion, without effect). -/
def zyxLocalToDiff (e : EulZyx) : Res M3 :=
  let t2 := Real.cos e.y
  let t3 := 1 / t2
  if t2 ≠ 0 then
    let t4 := Real.cos e.x
    let t5 := Real.sin e.x
    let t6 := Real.sin e.y
    .ok ⟨0, t3 * t5, t3 * t4, 0, t4, -t5, 1, t3 * t5 * t6, t3 * t4 * t6⟩
  else .throws

/-! ## Second-derivative mappings of `EulerAnglesXyzDiff` -/

/-- `getMappingFromLocalAngularVelocityToSecondDiff(rotation)`,
include/kindr/rotations/EulerAnglesXyzDiff.hpp:239-265. -/
def xyzLocalToSecondDiff (d : XyzDiff) (e : EulXyz) : Res M3 :=
  let dy := d.v.y
  let dz := d.v.z
  let t2 := Real.cos e.y
  if t2 ≠ 0 then
    let t3 := 1 / t2
    let t4 := Real.cos e.z
    let t5 := 1 / (t2 * t2)
    let t6 := Real.sin e.y
    let t7 := Real.sin e.z
    let t8 := t6 * t6
    .ok ⟨-dz * t3 * t7 + dy * t4 * t5 * t6, -dz * t3 * t4 - dy * t5 * t6 * t7, 0,
         dz * t4, -dz * t7, 0,
         -dy * (t4 + t4 * t5 * t8) + dz * t3 * t6 * t7, dy * (t7 + t5 * t7 * t8) + dz * t3 * t4 * t6, 0⟩
  else .throws

/-- `getMappingFromSecondDiffToLocalAngularVelocity(rotation)`,
include/kindr/rotations/EulerAnglesXyzDiff.hpp:267-287. -/
def xyzSecondDiffToLocal (d : XyzDiff) (e : EulXyz) : M3 :=
  let dy := d.v.y
  let dz := d.v.z
  let t2 := Real.cos e.z
  let t3 := Real.cos e.y
  let t4 := Real.sin e.y
  let t5 := Real.sin e.z
  ⟨-dy * t2 * t4 - dz * t3 * t5, dz * t2, 0, dy * t4 * t5 - dz * t2 * t3, -dz * t5, 0, dy * t3, 0, 0⟩

/-- `getMappingFromGlobalAngularVelocityToSecondDiff(rotation)`,
include/kindr/rotations/EulerAnglesXyzDiff.hpp:289-315. -/
def xyzGlobalToSecondDiff (d : XyzDiff) (e : EulXyz) : Res M3 :=
  let dx := d.v.x
  let dy := d.v.y
  let t2 := Real.sin e.x
  let t3 := Real.sin e.y
  let t4 := Real.cos e.y
  let t5 := Real.cos e.x
  if t4 ≠ 0 then
    let t6 := 1 / (t4 * t4)
    let t7 := t3 * t3
    let t8 := 1 / t4
    .ok ⟨0, dy * (t2 + t2 * t6 * t7) + dx * t3 * t5 * t8, -dy * (t5 + t5 * t6 * t7) + dx * t2 * t3 * t8,
         0, -dx * t2, dx * t5,
         0, -dx * t5 * t8 - dy * t2 * t3 * t6, -dx * t2 * t8 + dy * t3 * t5 * t6⟩
  else .throws

/-- `getMappingFromSecondDiffToGlobalAngularVelocity(rotation)`,
include/kindr/rotations/EulerAnglesXyzDiff.hpp:317-337. -/
def xyzSecondDiffToGlobal (d : XyzDiff) (e : EulXyz) : M3 :=
  let dx := d.v.x
  let dy := d.v.y
  let t2 := Real.cos e.y
  let t3 := Real.sin e.x
  let t4 := Real.cos e.x
  let t5 := Real.sin e.y
  ⟨0, 0, dy * t2, 0, -dx * t3, -dx * t2 * t4 + dy * t3 * t5, 0, dx * t4, -dx * t2 * t3 - dy * t4 * t5⟩

/-! ## Conversions (`RotationDiffConversionTraits`) -/

/-- `LocalAngularVelocity(rotation, GlobalAngularVelocity)`,
include/kindr/rotations/LocalAngularVelocity.hpp:220-226, any rotation class. -/
def localOfGlobal (P : Prec) (k : Kind) (r : Rep k) (w : GlobalAV) : LocalAV := ⟨inverseRotate P k r w.v⟩

/-- `GlobalAngularVelocity(rotation, LocalAngularVelocity)`,
include/kindr/rotations/GlobalAngularVelocity.hpp:223-229, any rotation class. -/
def globalOfLocal (P : Prec) (k : Kind) (r : Rep k) (w : LocalAV) : GlobalAV := ⟨rotate P k r w.v⟩

/-- `LocalAngularVelocity(RotationQuaternion, RotationQuaternionDiff)`,
include/kindr/rotations/LocalAngularVelocity.hpp:228-234. -/
def localOfQuatDiff (q : Quat) (d : QuatDiff) : LocalAV :=
  ⟨(2 : ℝ) • (getLocalQuaternionDiffMatrix q).mulVec d.q.toV4⟩

/-- `GlobalAngularVelocity(RotationQuaternion, RotationQuaternionDiff)`,
include/kindr/rotations/GlobalAngularVelocity.hpp:232-238. -/
def globalOfQuatDiff (q : Quat) (d : QuatDiff) : GlobalAV :=
  ⟨(2 : ℝ) • (getGlobalQuaternionDiffMatrix q).mulVec d.q.toV4⟩

/-- `LocalAngularVelocity(RotationMatrix, RotationMatrixDiff)`,
include/kindr/rotations/LocalAngularVelocity.hpp:236-243. -/
def localOfMatDiff (m : M3) (d : MatDiff) : LocalAV := ⟨vee ((inverted .mat m : M3) * d.m)⟩

/-- `GlobalAngularVelocity(RotationMatrix, RotationMatrixDiff)`,
include/kindr/rotations/GlobalAngularVelocity.hpp:241-247. -/
def globalOfMatDiff (m : M3) (d : MatDiff) : GlobalAV := ⟨vee (d.m * (inverted .mat m : M3))⟩

/-- `LocalAngularVelocity(EulerAnglesZyx, EulerAnglesZyxDiff)`,
include/kindr/rotations/LocalAngularVelocity.hpp:247-254. -/
def localOfZyxDiff (e : EulZyx) (d : ZyxDiff) : LocalAV := ⟨(zyxDiffToLocal e).mulVec d.v⟩

/-- `LocalAngularVelocity(EulerAnglesXyz, EulerAnglesXyzDiff)`,
include/kindr/rotations/LocalAngularVelocity.hpp:256-264. -/
def localOfXyzDiff (e : EulXyz) (d : XyzDiff) : LocalAV := ⟨(xyzDiffToLocal e).mulVec d.v⟩

/-- `GlobalAngularVelocity(EulerAnglesXyz, EulerAnglesXyzDiff)`,
include/kindr/rotations/GlobalAngularVelocity.hpp:259-267. -/
def globalOfXyzDiff (e : EulXyz) (d : XyzDiff) : GlobalAV := ⟨(xyzDiffToGlobal e).mulVec d.v⟩

/-- `RotationQuaternionDiff(RotationQuaternion, LocalAngularVelocity)`,
include/kindr/rotations/RotationQuaternionDiff.hpp:206-212. -/
def quatDiffOfLocal (q : Quat) (w : LocalAV) : QuatDiff :=
  ⟨Quaternion.ofVector4 ((1 / 2 : ℝ) • (getLocalQuaternionDiffMatrix q).tMulVec w.v)⟩

/-- `RotationQuaternionDiff(RotationQuaternion, GlobalAngularVelocity)`,
include/kindr/rotations/RotationQuaternionDiff.hpp:214-220. -/
def quatDiffOfGlobal (q : Quat) (w : GlobalAV) : QuatDiff :=
  ⟨Quaternion.ofVector4 ((1 / 2 : ℝ) • (getGlobalQuaternionDiffMatrix q).tMulVec w.v)⟩

/-- `RotationMatrixDiff(RotationMatrix, LocalAngularVelocity)`,
include/kindr/rotations/RotationMatrixDiff.hpp:184-190. -/
def matDiffOfLocal (m : M3) (w : LocalAV) : MatDiff := ⟨m * skew w.v⟩

/-- `RotationMatrixDiff(RotationMatrix, GlobalAngularVelocity)`,
include/kindr/rotations/RotationMatrixDiff.hpp:192-198. -/
def matDiffOfGlobal (m : M3) (w : GlobalAV) : MatDiff := ⟨skew w.v * m⟩

/-- `EulerAnglesZyxDiff(EulerAnglesZyx, LocalAngularVelocity)`,
include/kindr/rotations/EulerAnglesZyxDiff.hpp:271-277. -/
def zyxDiffOfLocal (e : EulZyx) (w : LocalAV) : Res ZyxDiff :=
  match zyxLocalToDiff e with
  | .ok m => .ok ⟨m.mulVec w.v⟩
  | .throws => .throws

/-- `EulerAnglesXyzDiff(EulerAnglesXyz, LocalAngularVelocity)`,
include/kindr/rotations/EulerAnglesXyzDiff.hpp:363-369. -/
def xyzDiffOfLocal (e : EulXyz) (w : LocalAV) : Res XyzDiff :=
  match xyzLocalToDiff e with
  | .ok m => .ok ⟨m.mulVec w.v⟩
  | .throws => .throws

/-! ## Products of a rotation and a quaternion derivative -/

/-- `operator*(RotationBase, RotationDiffBase)` for `RotationQuaternionDiff` (the only class for which it can be
instantiated: the others have no conversion to `RotationQuaternionDiff` without a rotation),
include/kindr/rotations/RotationDiff.hpp:62-68. -/
def rotMulQuatDiff (P : Prec) (k : Kind) (r : Rep k) (d : QuatDiff) : QuatDiff := ⟨(conv P .quat k r : Quat) * d.q⟩

/-- `operator*(RotationDiffBase, RotationBase)` for `RotationQuaternionDiff`,
include/kindr/rotations/RotationDiff.hpp:70-76. -/
def quatDiffMulRot (P : Prec) (k : Kind) (d : QuatDiff) (r : Rep k) : QuatDiff := ⟨d.q * (conv P .quat k r : Quat)⟩

/-! ## Vector-space operations -/

namespace LocalAV
/-- `operator+(other)` for another `LocalAngularVelocity`, include/kindr/rotations/LocalAngularVelocity.hpp:144-147;
`operator+=` (:166-170) assigns the same value. -/
def add (a b : LocalAV) : LocalAV := ⟨a.v + b.v⟩
/-- `operator-(other)`, include/kindr/rotations/LocalAngularVelocity.hpp:151-154; `operator-=` (:175-179) likewise. -/
def sub (a b : LocalAV) : LocalAV := ⟨a.v - b.v⟩
/-- `operator*(factor)` and `factor * w`, include/kindr/rotations/LocalAngularVelocity.hpp:158-161, 199-202. -/
def smul (a : LocalAV) (s : ℝ) : LocalAV := ⟨⟨a.v.x * s, a.v.y * s, a.v.z * s⟩⟩
/-- `operator+(other)` is a template over the other class: it also accepts a `GlobalAngularVelocity`, whose
coordinates it adds unchanged, include/kindr/rotations/LocalAngularVelocity.hpp:144-147. -/
def addGlobal (a : LocalAV) (b : GlobalAV) : LocalAV := ⟨a.v + b.v⟩
/-- Default constructor, `setZero()`, `Zero()`, include/kindr/rotations/LocalAngularVelocity.hpp:74-76, 184-194. -/
def zero : LocalAV := ⟨⟨0, 0, 0⟩⟩
end LocalAV

namespace GlobalAV
/-- `operator+(other)`, include/kindr/rotations/GlobalAngularVelocity.hpp:150-153; `operator+=` (:172-176) likewise. -/
def add (a b : GlobalAV) : GlobalAV := ⟨a.v + b.v⟩
/-- `operator-(other)`, include/kindr/rotations/GlobalAngularVelocity.hpp:157-160; `operator-=` (:181-185) likewise. -/
def sub (a b : GlobalAV) : GlobalAV := ⟨a.v - b.v⟩
/-- `operator*(factor)` and `factor * w`, include/kindr/rotations/GlobalAngularVelocity.hpp:164-167, 206-209. -/
def smul (a : GlobalAV) (s : ℝ) : GlobalAV := ⟨⟨a.v.x * s, a.v.y * s, a.v.z * s⟩⟩
/-- `operator+(other)` with a `LocalAngularVelocity`, include/kindr/rotations/GlobalAngularVelocity.hpp:150-153. -/
def addLocal (a : GlobalAV) (b : LocalAV) : GlobalAV := ⟨a.v + b.v⟩
/-- Default constructor, `setZero()`, `Zero()`, include/kindr/rotations/GlobalAngularVelocity.hpp:80-82, 190-200. -/
def zero : GlobalAV := ⟨⟨0, 0, 0⟩⟩
end GlobalAV

namespace XyzDiff
/-- `operator+` through `RotationDiffAdditionTraits` of equal classes,
include/kindr/rotations/RotationDiffBase.hpp:127-130, 183-185. -/
def add (a b : XyzDiff) : XyzDiff := ⟨a.v + b.v⟩
/-- `operator-`, include/kindr/rotations/RotationDiffBase.hpp:135-138, 190-192. -/
def sub (a b : XyzDiff) : XyzDiff := ⟨a.v - b.v⟩
/-- Default constructor, `setZero()`, `Zero()`, include/kindr/rotations/EulerAnglesXyzDiff.hpp:72-74, 223-233. -/
def zero : XyzDiff := ⟨⟨0, 0, 0⟩⟩
/-- `EulerAnglesXyzDiff(roll, pitch, yaw)`, include/kindr/rotations/EulerAnglesXyzDiff.hpp:81-83. -/
def mk3 (roll pitch yaw : ℝ) : XyzDiff := ⟨⟨roll, pitch, yaw⟩⟩
/-- `roll()`/`x()`, include/kindr/rotations/EulerAnglesXyzDiff.hpp:139-141, 181-183. -/
def x (d : XyzDiff) : ℝ := d.v.x
/-- `pitch()`/`y()`, include/kindr/rotations/EulerAnglesXyzDiff.hpp:146-148, 188-190. -/
def y (d : XyzDiff) : ℝ := d.v.y
/-- `yaw()`/`z()`, include/kindr/rotations/EulerAnglesXyzDiff.hpp:153-155, 195-197. -/
def z (d : XyzDiff) : ℝ := d.v.z
/-- Assignment through the reference returned by `roll()`/`x()`,
include/kindr/rotations/EulerAnglesXyzDiff.hpp:160-162, 202-204. -/
def setX (d : XyzDiff) (a : ℝ) : XyzDiff := ⟨{ d.v with x := a }⟩
/-- Assignment through `pitch()`/`y()`, include/kindr/rotations/EulerAnglesXyzDiff.hpp:167-169, 209-211. -/
def setY (d : XyzDiff) (a : ℝ) : XyzDiff := ⟨{ d.v with y := a }⟩
/-- Assignment through `yaw()`/`z()`, include/kindr/rotations/EulerAnglesXyzDiff.hpp:174-176, 216-218. -/
def setZ (d : XyzDiff) (a : ℝ) : XyzDiff := ⟨{ d.v with z := a }⟩
/-- `vector()`, include/kindr/rotations/EulerAnglesXyzDiff.hpp:127-133. -/
def vector (d : XyzDiff) : V3 := d.v
end XyzDiff

namespace ZyxDiff
/-- `operator+`, include/kindr/rotations/RotationDiffBase.hpp:127-130, 183-185. -/
def add (a b : ZyxDiff) : ZyxDiff := ⟨a.v + b.v⟩
/-- `operator-`, include/kindr/rotations/RotationDiffBase.hpp:135-138, 190-192. -/
def sub (a b : ZyxDiff) : ZyxDiff := ⟨a.v - b.v⟩
/-- Default constructor, `setZero()`, `Zero()`, include/kindr/rotations/EulerAnglesZyxDiff.hpp:75-77, 225-235. -/
def zero : ZyxDiff := ⟨⟨0, 0, 0⟩⟩
/-- `EulerAnglesZyxDiff(yaw, pitch, roll)`, include/kindr/rotations/EulerAnglesZyxDiff.hpp:84-86. -/
def mk3 (yaw pitch roll : ℝ) : ZyxDiff := ⟨⟨yaw, pitch, roll⟩⟩
/-- `yaw()`/`z()`, include/kindr/rotations/EulerAnglesZyxDiff.hpp:141-143, 183-185. -/
def z (d : ZyxDiff) : ℝ := d.v.x
/-- `pitch()`/`y()`, include/kindr/rotations/EulerAnglesZyxDiff.hpp:148-150, 190-192. -/
def y (d : ZyxDiff) : ℝ := d.v.y
/-- `roll()`/`x()`, include/kindr/rotations/EulerAnglesZyxDiff.hpp:155-157, 197-199. -/
def x (d : ZyxDiff) : ℝ := d.v.z
/-- Assignment through `yaw()`/`z()`, include/kindr/rotations/EulerAnglesZyxDiff.hpp:162-164, 204-206. -/
def setZ (d : ZyxDiff) (a : ℝ) : ZyxDiff := ⟨{ d.v with x := a }⟩
/-- Assignment through `pitch()`/`y()`, include/kindr/rotations/EulerAnglesZyxDiff.hpp:169-171, 211-213. -/
def setY (d : ZyxDiff) (a : ℝ) : ZyxDiff := ⟨{ d.v with y := a }⟩
/-- Assignment through `roll()`/`x()`, include/kindr/rotations/EulerAnglesZyxDiff.hpp:176-178, 218-220. -/
def setX (d : ZyxDiff) (a : ℝ) : ZyxDiff := ⟨{ d.v with z := a }⟩
/-- `vector()`, include/kindr/rotations/EulerAnglesZyxDiff.hpp:129-135. -/
def vector (d : ZyxDiff) : V3 := d.v
end ZyxDiff

namespace MatDiff
/-- `operator+`, include/kindr/rotations/RotationDiffBase.hpp:127-130, 183-185. -/
def add (a b : MatDiff) : MatDiff := ⟨a.m + b.m⟩
/-- `operator-`, include/kindr/rotations/RotationDiffBase.hpp:135-138, 190-192. -/
def sub (a b : MatDiff) : MatDiff := ⟨a.m - b.m⟩
/-- Default constructor, `setZero()`, `Zero()`, include/kindr/rotations/RotationMatrixDiff.hpp:71-73, 150-160. -/
def zero : MatDiff := ⟨0⟩
end MatDiff

/-! ## Jacobian of the exponential map -/

/-- `getJacobianOfExponentialMap(vector)`, include/kindr/rotations/RotationDiff.hpp:83-91. -/
def getJacobianOfExponentialMap (v : V3) : M3 :=
  let norm := v.norm
  let skewMatrix := skew v
  if norm < 1 / 10000 then 1 + (1 / 2 : ℝ) • skewMatrix
  else 1 + ((1 - Real.cos norm) / (norm * norm)) • skewMatrix +
    ((norm - Real.sin norm) / (norm * norm * norm)) • (skewMatrix * skewMatrix)

end Kindr
