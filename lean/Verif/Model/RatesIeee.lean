import Verif.Model.SpecialOps

/-!
# Euler-angle rates and angular velocities in IEEE arithmetic

The constructors of `EulerAnglesXyzDiff` and `EulerAnglesZyxDiff` from a rotation and a local angular velocity and the converse, on numbers that may be infinite or
NaN.  Simplified: the product of a 3x3 matrix and a vector adds from left to right (as `mulVec` in `Model/SpecialOps.lean`).
-/

set_option autoImplicit false

open Classical

noncomputable section
namespace Kindr

namespace XArith
variable (A : XArith)
/-- `EulerAnglesXyzDiff(EulerAnglesXyz, LocalAngularVelocity)`, include/kindr/rotations/EulerAnglesXyzDiff.hpp:363-369. -/
def xyzDiffOfLocal (e w : XV3) : Res XV3 :=
  match A.xyzLocalToDiff e with
  | .ok m => .ok (A.mulVec m w)
  | .throws => .throws

/-- `EulerAnglesZyxDiff(EulerAnglesZyx, LocalAngularVelocity)`, include/kindr/rotations/EulerAnglesZyxDiff.hpp:271-277. -/
def zyxDiffOfLocal (e w : XV3) : Res XV3 :=
  match A.zyxLocalToDiff e with
  | .ok m => .ok (A.mulVec m w)
  | .throws => .throws
/-- `LocalAngularVelocity(EulerAnglesXyz, EulerAnglesXyzDiff)`, include/kindr/rotations/LocalAngularVelocity.hpp:256-264. -/
def localOfXyzDiff (e d : XV3) : XV3 := A.mulVec (A.xyzDiffToLocal e) d

/-- `GlobalAngularVelocity(EulerAnglesXyz, EulerAnglesXyzDiff)`, include/kindr/rotations/GlobalAngularVelocity.hpp:259-267. -/
def globalOfXyzDiff (e d : XV3) : XV3 := A.mulVec (A.xyzDiffToGlobal e) d

/-- `LocalAngularVelocity(EulerAnglesZyx, EulerAnglesZyxDiff)`, include/kindr/rotations/LocalAngularVelocity.hpp:247-254. -/
def localOfZyxDiff (e d : XV3) : XV3 := A.mulVec (A.zyxDiffToLocal e) d

end XArith

end Kindr
