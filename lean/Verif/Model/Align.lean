import Verif.Model.Range

/-!
# `setFromVectors` in a debug build
-/

set_option autoImplicit false

open Classical

noncomputable section
namespace Kindr

/-- `setFromVectors(v1, v2)` in a debug build: the constructor of `RotationQuaternion` from an Eigen quaternion checks the length,
include/kindr/rotations/RotationImpl.hpp:179-201, include/kindr/rotations/RotationQuaternion.hpp:122-125.  Simplification: the assertions of
the conversion that follows (determinant of a matrix, length of an axis) are not included. -/
def XArith.setFromVectorsDbg (A : XArith) (P : Prec) (dpE : ℝ) (svdAxis : XV3 → XV3 → XV3) (k : Kind) (v1 v2 : XV3) : Res (XRep k) :=
  if ¬ (A.mul (A.norm3 v1) (A.norm3 v2)).eq (.fin 0) then
    match A.quatCtorDbg (A.quatFromTwoVectors dpE svdAxis v1 v2) with
    | .ok q => .ok (A.conv P k .quat q)
    | .throws => .throws
  else .throws

end Kindr
