import Verif.Model.FloatConv
import Verif.Model.Pose
import Verif.Model.Cast

/-!
# Poses in rounded arithmetic
-/

set_option autoImplicit false

open Classical

noncomputable section
namespace Kindr
namespace FloatLib
variable (F : FloatLib)

/-- Sum of two vectors with rounding (`Vector::operator+`, include/kindr/vectors/Vector.hpp:348-350). -/
def addV (a b : V3) : V3 := ⟨F.fl (a.x + b.x), F.fl (a.y + b.y), F.fl (a.z + b.z)⟩

/-- Difference of two vectors with rounding (`Vector::operator-`, include/kindr/vectors/Vector.hpp:356-358). -/
def subV (a b : V3) : V3 := ⟨F.fl (a.x - b.x), F.fl (a.y - b.y), F.fl (a.z - b.z)⟩

/-- `transform` with rounding, include/kindr/poses/HomogeneousTransformation.hpp:165-167. -/
def poseTransform (P : Prec) (k : Kind) (T : Pose k) (p : V3) : V3 := F.addV (F.rotate P k T.rotation p) T.position

/-- `inverseTransform` with rounding, include/kindr/poses/HomogeneousTransformation.hpp:168-170. -/
def poseInverseTransform (P : Prec) (k : Kind) (T : Pose k) (p : V3) : V3 := F.inverseRotate P k T.rotation (F.subV p T.position)

/-- `operator*` with rounding, include/kindr/poses/HomogeneousTransformation.hpp:180-184 and include/kindr/poses/Pose.hpp:52-56. -/
def poseMult (P : Prec) (k₁ k₂ : Kind) (A : Pose k₁) (B : Pose k₂) : Pose k₁ :=
  ⟨F.addV A.position (F.rotate P k₁ A.rotation B.position), F.mult P k₁ k₂ A.rotation B.rotation⟩

/-- Conversion of a pose to another rotation class with rounding, include/kindr/poses/HomogeneousTransformation.hpp:63-71. -/
def poseConv (P : Prec) (d s : Kind) (T : Pose s) : Pose d := ⟨T.position, F.conv P d s T.rotation⟩

end FloatLib
end Kindr
