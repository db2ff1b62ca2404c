import Verif.Model.Quaternion

/-!
# The six rotation parameterizations and the generic rotation interface
-/

set_option autoImplicit false

open Classical

noncomputable section
namespace Kindr

/-- Storage of `RotationVector`, include/kindr/rotations/RotationVector.hpp:62-66. -/
@[ext] structure RotVec where
  v : V3

/-- Storage of `EulerAnglesXyz`: the vector `[roll; pitch; yaw]`, include/kindr/rotations/EulerAnglesXyz.hpp:60-64. -/
@[ext] structure EulXyz where
  v : V3

/-- Storage of `EulerAnglesZyx`: the vector `[yaw; pitch; roll]`, include/kindr/rotations/EulerAnglesZyx.hpp:79-83. -/
@[ext] structure EulZyx where
  v : V3

/-- The six rotation classes declared in include/kindr/rotations/RotationImpl.hpp:39-57. -/
inductive Kind where
  /-- `RotationQuaternion` -/
  | quat
  /-- `RotationMatrix` -/
  | mat
  /-- `AngleAxis` -/
  | aa
  /-- `RotationVector` -/
  | rv
  /-- `EulerAnglesXyz` -/
  | xyz
  /-- `EulerAnglesZyx` -/
  | zyx
  deriving DecidableEq

/-- Storage type of each class (see the individual types above). -/
@[reducible] def Rep : Kind → Type
  | .quat => Quat
  | .mat => M3
  | .aa => AngAx
  | .rv => RotVec
  | .xyz => EulXyz
  | .zyx => EulZyx

/-! ## Accessors -/

namespace EulXyz
/-- `EulerAnglesXyz(roll, pitch, yaw)`, include/kindr/rotations/EulerAnglesXyz.hpp:91-93. -/
def mk3 (roll pitch yaw : ℝ) : EulXyz := ⟨⟨roll, pitch, yaw⟩⟩
/-- `roll()`/`x()`, include/kindr/rotations/EulerAnglesXyz.hpp:169-171, 208-210. -/
def x (e : EulXyz) : ℝ := e.v.x
/-- `pitch()`/`y()`, include/kindr/rotations/EulerAnglesXyz.hpp:176-178, 215-217. -/
def y (e : EulXyz) : ℝ := e.v.y
/-- `yaw()`/`z()`, include/kindr/rotations/EulerAnglesXyz.hpp:183-185, 222-224. -/
def z (e : EulXyz) : ℝ := e.v.z
/-- `setRoll()`/`setX()`, include/kindr/rotations/EulerAnglesXyz.hpp:189-191, 228-230. -/
def setX (e : EulXyz) (a : ℝ) : EulXyz := ⟨{ e.v with x := a }⟩
/-- `setPitch()`/`setY()`, include/kindr/rotations/EulerAnglesXyz.hpp:195-197, 234-236. -/
def setY (e : EulXyz) (a : ℝ) : EulXyz := ⟨{ e.v with y := a }⟩
/-- `setYaw()`/`setZ()`, include/kindr/rotations/EulerAnglesXyz.hpp:201-203, 240-242. -/
def setZ (e : EulXyz) (a : ℝ) : EulXyz := ⟨{ e.v with z := a }⟩
/-- `vector()`, include/kindr/rotations/EulerAnglesXyz.hpp:148-150. -/
def vector (e : EulXyz) : V3 := e.v
end EulXyz

namespace EulZyx
/-- `EulerAnglesZyx(yaw, pitch, roll)`, include/kindr/rotations/EulerAnglesZyx.hpp:109-111. -/
def mk3 (yaw pitch roll : ℝ) : EulZyx := ⟨⟨yaw, pitch, roll⟩⟩
/-- `yaw()`/`z()`: coefficient 0, include/kindr/rotations/EulerAnglesZyx.hpp:188-190, 227-229. -/
def z (e : EulZyx) : ℝ := e.v.x
/-- `pitch()`/`y()`: coefficient 1, include/kindr/rotations/EulerAnglesZyx.hpp:195-197, 234-236. -/
def y (e : EulZyx) : ℝ := e.v.y
/-- `roll()`/`x()`: coefficient 2, include/kindr/rotations/EulerAnglesZyx.hpp:202-204, 241-243. -/
def x (e : EulZyx) : ℝ := e.v.z
/-- `setYaw()`/`setZ()`, include/kindr/rotations/EulerAnglesZyx.hpp:208-210, 248-250. -/
def setZ (e : EulZyx) (a : ℝ) : EulZyx := ⟨{ e.v with x := a }⟩
/-- `setPitch()`/`setY()`, include/kindr/rotations/EulerAnglesZyx.hpp:214-216, 255-257. -/
def setY (e : EulZyx) (a : ℝ) : EulZyx := ⟨{ e.v with y := a }⟩
/-- `setRoll()`/`setX()`, include/kindr/rotations/EulerAnglesZyx.hpp:220-222, 262-264. -/
def setX (e : EulZyx) (a : ℝ) : EulZyx := ⟨{ e.v with z := a }⟩
/-- `vector()`, include/kindr/rotations/EulerAnglesZyx.hpp:167-169. -/
def vector (e : EulZyx) : V3 := e.v
end EulZyx

/-! ## Conversions (`ConversionTraits<Dest, Source>`) -/

/-- `isLessThenEpsilons4thRoot`, include/kindr/rotations/RotationQuaternion.hpp:504-508. -/
def isLessThenEpsilons4thRoot (P : Prec) (x : ℝ) : Prop := x < P.eps ^ (1 / 4 : ℝ)

/-- `ConversionTraits<RotationQuaternion, AngleAxis>`, include/kindr/rotations/RotationQuaternion.hpp:495-501. -/
def quatOfAa (a : AngAx) : Quat := Quat.ofAngleAxis a.angle a.axis

/-- `ConversionTraits<RotationQuaternion, RotationVector>`, include/kindr/rotations/RotationQuaternion.hpp:510-548. -/
def quatOfRv (P : Prec) (r : RotVec) : Quat :=
  let theta := r.v.norm
  let na := if isLessThenEpsilons4thRoot P theta then 1 / 2 - theta * theta * (1 / 48)
            else Real.sin (theta * (1 / 2)) / theta
  let axis := na • r.v
  let ct := Real.cos (theta * (1 / 2))
  ⟨ct, axis.x, axis.y, axis.z⟩

/-- `ConversionTraits<RotationQuaternion, RotationMatrix>`, include/kindr/rotations/RotationQuaternion.hpp:559-565. -/
def quatOfMat (m : M3) : Quat := Quat.ofMatrix m

/-- `ConversionTraits<RotationQuaternion, EulerAnglesXyz>`, include/kindr/rotations/RotationQuaternion.hpp:567-576. -/
def quatOfXyz (e : EulXyz) : Quat :=
  Quat.ofAngleAxis e.x V3.unitX * Quat.ofAngleAxis e.y V3.unitY * Quat.ofAngleAxis e.z V3.unitZ

/-- `ConversionTraits<RotationQuaternion, EulerAnglesZyx>`, include/kindr/rotations/RotationQuaternion.hpp:578-587. -/
def quatOfZyx (e : EulZyx) : Quat :=
  Quat.ofAngleAxis e.z V3.unitZ * Quat.ofAngleAxis e.y V3.unitY * Quat.ofAngleAxis e.x V3.unitX

/-- `ConversionTraits<AngleAxis, RotationVector>`, include/kindr/rotations/AngleAxis.hpp:364-380. -/
def aaOfRv (P : Prec) (r : RotVec) : AngAx :=
  let norm := r.v.norm
  if norm < P.dp then AngAx.identity else ⟨norm, r.v.normalized⟩

/-- `ConversionTraits<AngleAxis, RotationQuaternion>`, include/kindr/rotations/AngleAxis.hpp:382-389. -/
def aaOfQuat (q : Quat) : AngAx := AngAx.ofQuat q

/-- `ConversionTraits<AngleAxis, RotationMatrix>`, include/kindr/rotations/AngleAxis.hpp:391-399. -/
def aaOfMat (m : M3) : AngAx := AngAx.ofMatrix m

/-- `ConversionTraits<AngleAxis, EulerAnglesXyz>`, include/kindr/rotations/AngleAxis.hpp:401-411.
(Eigen: a product of `AngleAxis` objects is a quaternion.) -/
def aaOfXyz (e : EulXyz) : AngAx :=
  AngAx.ofQuat (Quat.ofAngleAxis e.x V3.unitX * Quat.ofAngleAxis e.y V3.unitY * Quat.ofAngleAxis e.z V3.unitZ)

/-- `ConversionTraits<AngleAxis, EulerAnglesZyx>`, include/kindr/rotations/AngleAxis.hpp:413-423. -/
def aaOfZyx (e : EulZyx) : AngAx :=
  AngAx.ofQuat (Quat.ofAngleAxis e.z V3.unitZ * Quat.ofAngleAxis e.y V3.unitY * Quat.ofAngleAxis e.x V3.unitX)

/-- `ConversionTraits<RotationVector, AngleAxis>`, include/kindr/rotations/RotationVector.hpp:313-320. -/
def rvOfAa (a : AngAx) : RotVec := ⟨a.angle • a.axis⟩

/-- `ConversionTraits<RotationVector, RotationQuaternion>`, include/kindr/rotations/RotationVector.hpp:323-344. -/
def rvOfQuat (P : Prec) (q : Quat) : RotVec :=
  let imaginaryVectorNormSquared := 1 - q.w * q.w
  if imaginaryVectorNormSquared < P.dp then
    if q.w > 0 then ⟨(2 : ℝ) • q.vec⟩ else ⟨(-2 : ℝ) • q.vec⟩
  else
    let n := q.vec.norm
    ⟨(2 * atan2 n q.w / n) • q.vec⟩

/-- `ConversionTraits<RotationVector, RotationMatrix>`, include/kindr/rotations/RotationVector.hpp:355-363. -/
def rvOfMat (P : Prec) (m : M3) : RotVec := rvOfQuat P (quatOfMat m)

/-- Generic `ConversionTraits<RotationVector, Source>` for `EulerAnglesXyz`,
include/kindr/rotations/RotationVector.hpp:347-353. -/
def rvOfXyz (e : EulXyz) : RotVec := rvOfAa (aaOfXyz e)

/-- Generic `ConversionTraits<RotationVector, Source>` for `EulerAnglesZyx`,
include/kindr/rotations/RotationVector.hpp:347-353. -/
def rvOfZyx (e : EulZyx) : RotVec := rvOfAa (aaOfZyx e)

/-- `ConversionTraits<RotationMatrix, AngleAxis>`, include/kindr/rotations/RotationMatrix.hpp:311-319. -/
def matOfAa (a : AngAx) : M3 := a.toRotationMatrix

/-- `ConversionTraits<RotationMatrix, RotationVector>`, include/kindr/rotations/RotationMatrix.hpp:321-327. -/
def matOfRv (P : Prec) (r : RotVec) : M3 := (quatOfRv P r).toRotationMatrix

/-- `ConversionTraits<RotationMatrix, RotationQuaternion>`, include/kindr/rotations/RotationMatrix.hpp:329-337. -/
def matOfQuat (q : Quat) : M3 := q.toRotationMatrix

/-- `ConversionTraits<RotationMatrix, EulerAnglesXyz>`, include/kindr/rotations/RotationMatrix.hpp:349-357. -/
def matOfXyz (e : EulXyz) : M3 := (quatOfXyz e).toRotationMatrix

/-- `ConversionTraits<RotationMatrix, EulerAnglesZyx>`, include/kindr/rotations/RotationMatrix.hpp:359-367. -/
def matOfZyx (e : EulZyx) : M3 := (quatOfZyx e).toRotationMatrix

/-- `ConversionTraits<EulerAnglesXyz, RotationQuaternion>`, include/kindr/rotations/EulerAnglesXyz.hpp:509-516. -/
def xyzOfQuat (q : Quat) : EulXyz :=
  let vec := eulerAngles012 q.toRotationMatrix
  EulXyz.mk3 vec.x vec.y vec.z

/-- `ConversionTraits<EulerAnglesXyz, AngleAxis>`, include/kindr/rotations/EulerAnglesXyz.hpp:492-499. -/
def xyzOfAa (a : AngAx) : EulXyz := xyzOfQuat (quatOfAa a)

/-- `ConversionTraits<EulerAnglesXyz, RotationVector>`, include/kindr/rotations/EulerAnglesXyz.hpp:501-507
(through `AngleAxis`). -/
def xyzOfRv (P : Prec) (r : RotVec) : EulXyz := xyzOfAa (aaOfRv P r)

/-- `ConversionTraits<EulerAnglesXyz, RotationMatrix>`, include/kindr/rotations/EulerAnglesXyz.hpp:519-525. -/
def xyzOfMat (m : M3) : EulXyz := xyzOfQuat (quatOfMat m)

/-- `ConversionTraits<EulerAnglesXyz, EulerAnglesZyx>`, include/kindr/rotations/EulerAnglesXyz.hpp:535-541. -/
def xyzOfZyx (e : EulZyx) : EulXyz := xyzOfQuat (quatOfZyx e)

/-- `ConversionTraits<EulerAnglesZyx, RotationQuaternion>`, include/kindr/rotations/EulerAnglesZyx.hpp:559-566. -/
def zyxOfQuat (q : Quat) : EulZyx :=
  let vec := eulerAngles210 q.toRotationMatrix
  EulZyx.mk3 vec.x vec.y vec.z

/-- `ConversionTraits<EulerAnglesZyx, AngleAxis>`, include/kindr/rotations/EulerAnglesZyx.hpp:535-541. -/
def zyxOfAa (a : AngAx) : EulZyx := zyxOfQuat (quatOfAa a)

/-- `ConversionTraits<EulerAnglesZyx, RotationMatrix>`, include/kindr/rotations/EulerAnglesZyx.hpp:543-549. -/
def zyxOfMat (m : M3) : EulZyx := zyxOfQuat (quatOfMat m)

/-- `ConversionTraits<EulerAnglesZyx, RotationVector>`, include/kindr/rotations/EulerAnglesZyx.hpp:551-557. -/
def zyxOfRv (P : Prec) (r : RotVec) : EulZyx := zyxOfQuat (quatOfRv P r)

/-- `ConversionTraits<EulerAnglesZyx, EulerAnglesXyz>`, include/kindr/rotations/EulerAnglesZyx.hpp:568-574. -/
def zyxOfXyz (e : EulXyz) : EulZyx := zyxOfQuat (quatOfXyz e)

/-- `Dest_(source)`: the whole `ConversionTraits` table.  Every rotation class has a constructor from any
`RotationBase` (e.g. include/kindr/rotations/RotationQuaternion.hpp:133-137) that calls the table.
The diagonal entries are plain copies (include/kindr/rotations/RotationQuaternion.hpp:551-557,
include/kindr/rotations/RotationMatrix.hpp:339-347, include/kindr/rotations/AngleAxis.hpp:356-362,
include/kindr/rotations/RotationVector.hpp:305-311, include/kindr/rotations/EulerAnglesXyz.hpp:527-533,
include/kindr/rotations/EulerAnglesZyx.hpp:576-582). -/
def conv (P : Prec) : (d s : Kind) → Rep s → Rep d
  | .quat, .quat => fun q => q
  | .quat, .mat => quatOfMat
  | .quat, .aa => quatOfAa
  | .quat, .rv => quatOfRv P
  | .quat, .xyz => quatOfXyz
  | .quat, .zyx => quatOfZyx
  | .mat, .quat => matOfQuat
  | .mat, .mat => fun m => m
  | .mat, .aa => matOfAa
  | .mat, .rv => matOfRv P
  | .mat, .xyz => matOfXyz
  | .mat, .zyx => matOfZyx
  | .aa, .quat => aaOfQuat
  | .aa, .mat => aaOfMat
  | .aa, .aa => fun a => a
  | .aa, .rv => aaOfRv P
  | .aa, .xyz => aaOfXyz
  | .aa, .zyx => aaOfZyx
  | .rv, .quat => rvOfQuat P
  | .rv, .mat => rvOfMat P
  | .rv, .aa => rvOfAa
  | .rv, .rv => fun r => r
  | .rv, .xyz => rvOfXyz
  | .rv, .zyx => rvOfZyx
  | .xyz, .quat => xyzOfQuat
  | .xyz, .mat => xyzOfMat
  | .xyz, .aa => xyzOfAa
  | .xyz, .rv => xyzOfRv P
  | .xyz, .xyz => fun e => e
  | .xyz, .zyx => xyzOfZyx
  | .zyx, .quat => zyxOfQuat
  | .zyx, .mat => zyxOfMat
  | .zyx, .aa => zyxOfAa
  | .zyx, .rv => zyxOfRv P
  | .zyx, .xyz => zyxOfXyz
  | .zyx, .zyx => fun e => e

/-! ## Identity, inverse, product, action -/

/-- Default constructors, `setIdentity()` and `Identity()`:
include/kindr/rotations/RotationQuaternion.hpp:83-85, 321-334; include/kindr/rotations/RotationMatrix.hpp:71-73,
222-232; include/kindr/rotations/AngleAxis.hpp:81-83, 242-253; include/kindr/rotations/RotationVector.hpp:84-86,
165-175; include/kindr/rotations/EulerAnglesXyz.hpp:82-84, 247-257;
include/kindr/rotations/EulerAnglesZyx.hpp:100-102, 269-279. -/
def identity : (k : Kind) → Rep k
  | .quat => (⟨1, 0, 0, 0⟩ : Quat)
  | .mat => (⟨1, 0, 0, 0, 1, 0, 0, 0, 1⟩ : M3)
  | .aa => (⟨0, ⟨1, 0, 0⟩⟩ : AngAx)
  | .rv => (⟨⟨0, 0, 0⟩⟩ : RotVec)
  | .xyz => (⟨⟨0, 0, 0⟩⟩ : EulXyz)
  | .zyx => (⟨⟨0, 0, 0⟩⟩ : EulZyx)

/-- `AngleAxis::inverted()`, include/kindr/rotations/AngleAxis.hpp:159-164: Eigen inverse, then both the angle and
the axis are negated. -/
def aaInverted (a : AngAx) : AngAx :=
  let inverse := a.inverse
  ⟨-inverse.angle, -inverse.axis⟩

/-- `inverted()` / `invert()`: include/kindr/rotations/RotationQuaternion.hpp:291-301,
include/kindr/rotations/RotationMatrix.hpp:144-156, include/kindr/rotations/AngleAxis.hpp:159-172,
include/kindr/rotations/RotationVector.hpp:138-148, include/kindr/rotations/EulerAnglesXyz.hpp:133-143,
include/kindr/rotations/EulerAnglesZyx.hpp:152-162. -/
def inverted : (k : Kind) → Rep k → Rep k
  | .quat => fun (q : Quat) => UnitQuaternion.inverted q
  | .mat => fun (m : M3) => m.transpose
  | .aa => aaInverted
  | .rv => fun (r : RotVec) => (⟨-r.v⟩ : RotVec)
  | .xyz => fun e => xyzOfQuat (UnitQuaternion.inverted (quatOfXyz e))
  | .zyx => fun e => zyxOfQuat (UnitQuaternion.inverted (quatOfZyx e))

/-- `operator*`: `MultiplicationTraits`.  Two rotation matrices are multiplied as matrices
(include/kindr/rotations/RotationMatrix.hpp:373-382); everything else goes through quaternions
(include/kindr/rotations/RotationImpl.hpp:74-99). -/
def mult (P : Prec) : (k₁ k₂ : Kind) → Rep k₁ → Rep k₂ → Rep k₁
  | .mat, .mat => fun (a b : M3) => a * b
  | k₁, k₂ => fun a b =>
      conv P k₁ .quat ((conv P .quat k₁ a : Quat) * (conv P .quat k₂ b : Quat) : Quat)

/-- `rotate(v)`: convert to a rotation matrix and multiply,
include/kindr/rotations/RotationImpl.hpp:107-118. -/
def rotate (P : Prec) (k : Kind) (r : Rep k) (v : V3) : V3 := (conv P .mat k r : M3).mulVec v

/-- `rotate(M)` for a 3xN matrix: applied column-wise,
include/kindr/rotations/RotationImpl.hpp:109-112. -/
def rotateCols (P : Prec) (k : Kind) (r : Rep k) {n : ℕ} (m : Fin n → V3) : Fin n → V3 :=
  fun j => (conv P .mat k r : M3).mulVec (m j)

/-- `inverseRotate(v)`, include/kindr/rotations/RotationBase.hpp:325-328. -/
def inverseRotate (P : Prec) (k : Kind) (r : Rep k) (v : V3) : V3 := rotate P k (inverted k r) v

/-! ## Unique forms -/

/-- `RotationQuaternion::getUnique()`, include/kindr/rotations/RotationQuaternion.hpp:340-367. -/
def quatGetUnique (q : Quat) : Quat :=
  if q.w > 0 then q
  else if q.w < 0 then ⟨-q.w, -q.x, -q.y, -q.z⟩
  else if q.x > 0 then q
  else if q.x < 0 then ⟨-q.w, -q.x, -q.y, -q.z⟩
  else if q.y > 0 then q
  else if q.y < 0 then ⟨-q.w, -q.x, -q.y, -q.z⟩
  else if q.z > 0 then q
  else ⟨-q.w, -q.x, -q.y, -q.z⟩

/-- `AngleAxis::getUnique()`, include/kindr/rotations/AngleAxis.hpp:259-299. -/
def aaGetUnique (a : AngAx) : AngAx :=
  let angle := wrapPosNegPI a.angle
  let axis := a.axis
  if angle > 0 then ⟨angle, axis⟩
  else if angle < 0 then
    if angle ≠ -Real.pi then ⟨-angle, -axis⟩
    else if axis.x < 0 then ⟨-angle, -axis⟩
    else if axis.x > 0 then ⟨-angle, axis⟩
    else if axis.y < 0 then ⟨-angle, -axis⟩
    else if axis.y > 0 then ⟨-angle, axis⟩
    else if axis.z < 0 then ⟨-angle, -axis⟩
    else ⟨-angle, axis⟩
  else ⟨0, ⟨1, 0, 0⟩⟩

/-- `RotationVector::getUnique()`, include/kindr/rotations/RotationVector.hpp:244-248. -/
def rvGetUnique (P : Prec) (r : RotVec) : RotVec := rvOfAa (aaGetUnique (aaOfRv P r))

/-- The constant `tol = 1e-3`, include/kindr/rotations/EulerAnglesXyz.hpp:268,
include/kindr/rotations/EulerAnglesZyx.hpp:358. -/
def eulerTol : ℝ := 1 / 1000

/-- The body shared by the two Euler `getUnique()` functions, acting on the three stored coefficients.
include/kindr/rotations/EulerAnglesXyz.hpp:263-320 and include/kindr/rotations/EulerAnglesZyx.hpp:353-410 are textually
identical up to the variable name (in the latter `zyx.x()` is coefficient 0, i.e. the *yaw* angle). -/
def eulerUniqueBody (v : V3) : V3 :=
  let x := floatingPointModulo (v.x + Real.pi) (2 * Real.pi) - Real.pi
  let y := floatingPointModulo (v.y + Real.pi) (2 * Real.pi) - Real.pi
  let z := floatingPointModulo (v.z + Real.pi) (2 * Real.pi) - Real.pi
  let tol := eulerTol
  if y < -Real.pi / 2 - tol then
    ⟨if x < 0 then x + Real.pi else x - Real.pi, -(y + Real.pi), if z < 0 then z + Real.pi else z - Real.pi⟩
  else if -Real.pi / 2 - tol ≤ y ∧ y ≤ -Real.pi / 2 + tol then ⟨x - z, y, 0⟩
  else if -Real.pi / 2 + tol < y ∧ y < Real.pi / 2 - tol then ⟨x, y, z⟩
  else if Real.pi / 2 - tol ≤ y ∧ y ≤ Real.pi / 2 + tol then ⟨x + z, y, 0⟩
  else
    ⟨if x < 0 then x + Real.pi else x - Real.pi, -(y - Real.pi), if z < 0 then z + Real.pi else z - Real.pi⟩

/-- `EulerAnglesXyz::getUnique()`, include/kindr/rotations/EulerAnglesXyz.hpp:263-320. -/
def xyzGetUnique (e : EulXyz) : EulXyz := ⟨eulerUniqueBody ⟨e.x, e.y, e.z⟩⟩

/-- `EulerAnglesZyx::getUnique()`, include/kindr/rotations/EulerAnglesZyx.hpp:353-410: the local Eigen vector is built
as `Base zyx(wrap z(), wrap y(), wrap x())`, and the body then uses Eigen's `zyx.x()` for coefficient 0 (yaw). -/
def zyxGetUnique (e : EulZyx) : EulZyx := ⟨eulerUniqueBody ⟨e.z, e.y, e.x⟩⟩

/-- `getUnique()` / `setUnique()` for each class (include/kindr/rotations/RotationMatrix.hpp:239-249: a matrix is
returned unchanged). -/
def getUnique (P : Prec) : (k : Kind) → Rep k → Rep k
  | .quat => quatGetUnique
  | .mat => fun m => m
  | .aa => aaGetUnique
  | .rv => rvGetUnique P
  | .xyz => xyzGetUnique
  | .zyx => zyxGetUnique

/-! ## Comparison -/

/-- `ComparisonTraits<..>::isEqual` for two rotations of the same class: exact coefficient comparison
(include/kindr/rotations/RotationQuaternion.hpp:601-608; default include/kindr/rotations/RotationImpl.hpp:130-134),
except `AngleAxis`, which uses `compareRelative` with `0.01` percent
(include/kindr/rotations/AngleAxis.hpp:437-448). -/
def isEqualSame : (k : Kind) → Rep k → Rep k → Bool
  | .quat => fun (a b : Quat) => decide (a.w = b.w ∧ a.x = b.x ∧ a.y = b.y ∧ a.z = b.z)
  | .mat => fun (a b : M3) => decide (a = b)
  | .aa => fun (a b : AngAx) =>
      compareRelative a.angle b.angle (1 / 100) && compareRelative a.axis.x b.axis.x (1 / 100) &&
      compareRelative a.axis.y b.axis.y (1 / 100) && compareRelative a.axis.z b.axis.z (1 / 100)
  | .rv => fun (a b : RotVec) => decide (a.v = b.v)
  | .xyz => fun (a b : EulXyz) => decide (a.v = b.v)
  | .zyx => fun (a b : EulZyx) => decide (a.v = b.v)

/-- `operator==` for two rotations of the same class, include/kindr/rotations/RotationBase.hpp:263-265. -/
def eqSame (P : Prec) (k : Kind) (a b : Rep k) : Bool :=
  isEqualSame k (getUnique P k a) (getUnique P k b)

/-- `operator==` for two rotations of *different* classes: both are brought to unique form, the right one is then
converted to the left class and the stored Eigen objects are compared exactly
(include/kindr/rotations/RotationBase.hpp:263-265, include/kindr/rotations/RotationImpl.hpp:130-134).
Simplification: for `k₁ = aa` the C++ does not compile (`Eigen::AngleAxis` has no `operator==`); the model compares the
coefficients there, and no theorem uses that case. -/
def eqMixed (P : Prec) (k₁ k₂ : Kind) (a : Rep k₁) (b : Rep k₂) : Bool :=
  decide (getUnique P k₁ a = conv P k₁ k₂ (getUnique P k₂ b))

/-- `getDisparityAngle`, include/kindr/rotations/RotationImpl.hpp:220-223. -/
def disparityAngle (P : Prec) (k₁ k₂ : Kind) (a : Rep k₁) (b : Rep k₂) : ℝ :=
  |floatingPointModulo ((conv P .aa k₁ (mult P k₁ k₂ a (inverted k₂ b)) : AngAx).angle + Real.pi) (2 * Real.pi)
    - Real.pi|

/-- `isNear`, include/kindr/rotations/RotationBase.hpp:292-295. -/
def isNear (P : Prec) (k₁ k₂ : Kind) (a : Rep k₁) (b : Rep k₂) (tol : ℝ) : Bool :=
  decide (disparityAngle P k₁ k₂ a b ≤ tol)

/-! ## Exponential map, box operations, interpolation -/

/-- `exponentialMap(v)`, include/kindr/rotations/RotationImpl.hpp:144-147. -/
def exponentialMap (P : Prec) (k : Kind) (v : V3) : Rep k := conv P k .rv ⟨v⟩

/-- `logarithmicMap()`, include/kindr/rotations/RotationImpl.hpp:149-152. -/
def logarithmicMap (P : Prec) (k : Kind) (r : Rep k) : V3 := (rvGetUnique P (conv P .rv k r)).v

/-- `boxMinus`, include/kindr/rotations/RotationImpl.hpp:163-165. -/
def boxMinus (P : Prec) (k₁ k₂ : Kind) (a : Rep k₁) (b : Rep k₂) : V3 :=
  logarithmicMap P k₁ (mult P k₁ k₂ a (inverted k₂ b))

/-- `boxPlus`, include/kindr/rotations/RotationImpl.hpp:167-169. -/
def boxPlus (P : Prec) (k : Kind) (a : Rep k) (v : V3) : Rep k := mult P k k (exponentialMap P k v) a

/-- `interpolate`, include/kindr/rotations/RotationBase.hpp:366-373. -/
def interpolate (P : Prec) (k₁ k₂ : Kind) (a : Rep k₁) (b : Rep k₂) (ratio : ℝ) : Rep k₁ :=
  let ratio := if ratio > 1 then 1 else if ratio < 0 then 0 else ratio
  boxPlus P k₁ a (ratio • boxMinus P k₂ k₁ b a)

/-! ## setFromVectors, fix, random, debug constructors -/

/-- `setFromVectors(v1, v2)`, include/kindr/rotations/RotationImpl.hpp:179-201: throws if a vector has zero length. -/
def setFromVectors (P : Prec) (dpE : ℝ) (svdAxis : V3 → V3 → V3) (k : Kind) (v1 v2 : V3) : Res (Rep k) :=
  if v1.norm * v2.norm ≠ 0 then .ok (conv P k .quat (quatFromTwoVectors dpE svdAxis v1 v2)) else .throws

/-- `RotationQuaternion` fixing, include/kindr/rotations/RotationQuaternion.hpp:613-619. -/
def quatFix (q : Quat) : Quat := q.normalized

/-- `AngleAxis` fixing, include/kindr/rotations/AngleAxis.hpp:452-459. -/
def aaFix (a : AngAx) : AngAx := ⟨a.angle, a.axis.normalized⟩

/-- `RotationMatrix` fixing, include/kindr/rotations/RotationMatrix.hpp:401-417.  `pow(det, 1.0/3.0)` is NaN for a
negative determinant (result: all entries NaN) and the factor is infinite for a zero determinant: both are the
distinct outcome `none`. -/
def matFix (m : M3) : Option M3 :=
  if m.det > 0 then some ((1 / m.det ^ (1 / 3 : ℝ)) • m) else none

/-- `fix()`: include/kindr/rotations/RotationBase.hpp:386-388; the default `FixingTraits` does nothing
(include/kindr/rotations/RotationBase.hpp:127-132). -/
def fix : (k : Kind) → Rep k → Option (Rep k)
  | .quat => fun q => some (quatFix q)
  | .mat => matFix
  | .aa => fun a => some (aaFix a)
  | .rv => fun r => some r
  | .xyz => fun e => some e
  | .zyx => fun e => some e

/-- `setRandom()` / `getRandom()` as a function of the three numbers drawn by `setUniformRandom`,
include/kindr/rotations/RotationImpl.hpp:232-237. -/
def random (P : Prec) (k : Kind) (draw : V3) : Rep k := conv P k .rv ⟨draw⟩

/-- Debug-build constructor of `RotationQuaternion`: throws unless the norm is 1 up to `1e-2` percent,
include/kindr/rotations/RotationQuaternion.hpp:94-130. -/
def quatCtorDbg (q : Quat) : Res Quat := assertScalarNearDbg q.norm 1 (1 / 100) (.ok q)

/-- Debug-build constructor of `AngleAxis`: axis norm 1 up to `1e-4` percent,
include/kindr/rotations/AngleAxis.hpp:92-127. -/
def aaCtorDbg (a : AngAx) : Res AngAx := assertScalarNearDbg a.axis.norm 1 (1 / 10000) (.ok a)

/-- `KINDR_ASSERT_MATRIX_NEAR_DBG` for 3x3 matrices (sizes always agree),
include/kindr/common/assert_macros_eigen.hpp:103-130. -/
def matNear (a b : M3) (tol : ℝ) : Bool :=
  compareRelative a.m00 b.m00 tol && compareRelative a.m01 b.m01 tol && compareRelative a.m02 b.m02 tol &&
  compareRelative a.m10 b.m10 tol && compareRelative a.m11 b.m11 tol && compareRelative a.m12 b.m12 tol &&
  compareRelative a.m20 b.m20 tol && compareRelative a.m21 b.m21 tol && compareRelative a.m22 b.m22 tol

/-- Debug-build constructor of `RotationMatrix`, include/kindr/rotations/RotationMatrix.hpp:87-109: `R Rᵀ ≈ I` and
`det R ≈ 1` up to `1e-4` percent. -/
def matCtorDbg (m : M3) : Res M3 :=
  if matNear (m * m.transpose) 1 (1 / 10000) then assertScalarNearDbg m.det 1 (1 / 10000) (.ok m) else .throws

end Kindr
