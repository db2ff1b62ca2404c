import Verif.Model.Rotation

/-!
# The convention tests for foreign rotation libraries

`RotationConversion<OtherRotation_, OtherVelocity_, PrimType_>` (include/kindr/rotations/RotationConversion.hpp:42-86) is the
set of functions a user implements to connect another rotation library; `ConventionTest`
(include/kindr/rotations/gtest_rotations.hpp:45-229) is the test suite that is meant to tell whether that implementation
agrees with the conventions of kindr.  Here the suite is a function of an arbitrary implementation.
-/

set_option autoImplicit false

noncomputable section
namespace Kindr

/-- The functions of `RotationConversion`, include/kindr/rotations/RotationConversion.hpp:48-79; output parameters are
results.  `testRotation` (lines 81-85) is not used by `ConventionTest` and is left out. -/
structure OtherLib where
  /-- `OtherRotation_` -/
  Rot : Type
  /-- `OtherVelocity_` -/
  Vel : Type
  /-- `convertToOtherRotation`, lines 48-51 -/
  toOther : Quat → Rot
  /-- `convertToKindr`, lines 53-55 -/
  toKindr : Rot → Quat
  /-- `convertToOtherVelocityVector(out, rotation, velocityIn)`, lines 57-60 -/
  toVel : Rot → V3 → Vel
  /-- `getRotationMatrixFromRotation`, lines 62-65 -/
  matrix : Rot → M3
  /-- `concatenate(result, rot1, rot2)`, lines 67-69 -/
  concat : Rot → Rot → Rot
  /-- `rotateVector(A_r, rotationBToA, B_r)`, lines 71-74 -/
  rotateVec : Rot → V3 → V3
  /-- `boxPlus(result, rotation, velocity)`, lines 76-79 -/
  boxPlus : Rot → Vel → Rot

/-- `RotationQuaternion(EulerAnglesZyx(yaw, pitch, roll))`, as used throughout
include/kindr/rotations/gtest_rotations.hpp. -/
def quatZyx (P : Prec) (yaw pitch roll : ℝ) : Quat := conv P .quat .zyx (EulZyx.mk3 yaw pitch roll)

/-- `kindrQuat1`, include/kindr/rotations/gtest_rotations.hpp:61. -/
def conventionQuat1 (P : Prec) : Quat := quatZyx P (1 / 10) (2 / 10) (3 / 10)

/-- `kindrQuat2` resp. `kindrQuat`, include/kindr/rotations/gtest_rotations.hpp:62, 84, 210. -/
def conventionQuat2 (P : Prec) : Quat := quatZyx P (-(4 / 10)) (8 / 10) (-(5 / 10))

/-- `kindrVelocity`, include/kindr/rotations/gtest_rotations.hpp:211. -/
def conventionVelocity : V3 := ⟨5 / 10, 7 / 10, 9 / 10⟩

/-- `KINDR_ASSERT_DOUBLE_MX_EQ(a, b, percent, msg)` for 3-vectors, include/kindr/common/gtest_eigen.hpp:141-157. -/
def vecNear (a b : V3) (percent : ℝ) : Bool :=
  compareRelative a.x b.x percent && compareRelative a.y b.y percent && compareRelative a.z b.z percent

/-- `testConcatenation`, include/kindr/rotations/gtest_rotations.hpp:60-81; the value is whether the assertion holds. -/
def testConcatenation (P : Prec) (L : OtherLib) : Bool :=
  let otherQuat1 := L.toOther (conventionQuat1 P)
  let otherQuat2 := L.toOther (conventionQuat2 P)
  let kindrQuatKindrConcat := mult P .quat .quat (conventionQuat2 P) (conventionQuat1 P)
  let kindrQuatOtherConcat := L.toKindr (L.concat otherQuat1 otherQuat2)
  isNear P .quat .quat kindrQuatOtherConcat kindrQuatKindrConcat (1 / 1000)

/-- `testRotationMatrix`, include/kindr/rotations/gtest_rotations.hpp:83-97 (`KINDR_ASSERT_DOUBLE_MX_EQ` with the matrix of
kindr as first argument). -/
def testRotationMatrix (P : Prec) (L : OtherLib) : Bool :=
  let kindrMatrix : M3 := conv P .mat .quat (conventionQuat2 P)
  matNear kindrMatrix (L.matrix (L.toOther (conventionQuat2 P))) (1 / 1000)

/-- `checkGeometricalInterpretation(rotationBToA, expected_A_r_Bx, expected_A_r_By, expected_A_r_Bz)`,
include/kindr/rotations/gtest_rotations.hpp:148-207: the images of the unit vectors, first by matrix multiplication
(lines 181-189), then by `rotateVector` (lines 197-205). -/
def checkGeometricalInterpretation (L : OtherLib) (rotationBToA : Quat) (ex ey ez : V3) : Bool :=
  let o := L.toOther rotationBToA
  vecNear ex ((L.matrix o).mulVec V3.unitX) (1 / 1000) && vecNear ey ((L.matrix o).mulVec V3.unitY) (1 / 1000) &&
  vecNear ez ((L.matrix o).mulVec V3.unitZ) (1 / 1000) &&
  vecNear ex (L.rotateVec o V3.unitX) (1 / 1000) && vecNear ey (L.rotateVec o V3.unitY) (1 / 1000) &&
  vecNear ez (L.rotateVec o V3.unitZ) (1 / 1000)

/-- `testGeometricalInterpretation`, include/kindr/rotations/gtest_rotations.hpp:100-146; `M_PI_4` is `π/4`. -/
def testGeometricalInterpretation (P : Prec) (L : OtherLib) : Bool :=
  let alpha := Real.pi / 4
  let c := Real.cos alpha
  let s := Real.sin alpha
  checkGeometricalInterpretation L (quatZyx P alpha 0 0) ⟨c, s, 0⟩ ⟨-s, c, 0⟩ ⟨0, 0, 1⟩ &&
  checkGeometricalInterpretation L (quatZyx P 0 alpha 0) ⟨c, 0, -s⟩ ⟨0, 1, 0⟩ ⟨s, 0, c⟩ &&
  checkGeometricalInterpretation L (quatZyx P 0 0 alpha) ⟨1, 0, 0⟩ ⟨0, c, s⟩ ⟨0, -s, c⟩

/-- `testBoxPlus`, include/kindr/rotations/gtest_rotations.hpp:209-228. -/
def testBoxPlus (P : Prec) (L : OtherLib) : Bool :=
  let otherQuat := L.toOther (conventionQuat2 P)
  let otherVelocity := L.toVel otherQuat conventionVelocity
  let kindrQuatKindrPlus := boxPlus P .quat (conventionQuat2 P) conventionVelocity
  let kindrQuatOtherPlus := L.toKindr (L.boxPlus otherQuat otherVelocity)
  isNear P .quat .quat kindrQuatKindrPlus kindrQuatOtherPlus (1 / 1000)

/-- The implementation for the rotation classes of kindr themselves, test/rotations/ConventionTest.cpp:14-57. -/
@[reducible] def kindrLib (P : Prec) (k : Kind) : OtherLib where
  Rot := Rep k
  Vel := V3
  toOther q := conv P k .quat q
  toKindr r := conv P .quat k r
  toVel _ v := v
  matrix r := conv P .mat k r
  concat r1 r2 := mult P k k r2 r1
  rotateVec r v := rotate P k r v
  boxPlus r v := boxPlus P k r v

end Kindr
