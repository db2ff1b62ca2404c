import Verif.Model.FloatConv
import Verif.Model.Binary

/-!
# Unique forms, logarithmic map, box operations and disparity angle in rounded arithmetic

`wrapPosNegPI` mixes `Scalar` and `double` (the constants `M_PI` and the variable `m` of `floatingPointModulo` are `double`), so a
second rounding is needed for `Scalar = float`.
-/

set_option autoImplicit false

open Classical

noncomputable section
namespace Kindr

/-- A `FloatLib` for `Scalar` together with the rounding `wide` to `double` and the rounding `mid` of the type in which
`x - y*floor(x/y)` is evaluated (see Model/Binary.lean).  For `Scalar = double` all three coincide. -/
structure FloatWide extends FloatLib where
  wide : ℝ → ℝ
  mid : ℝ → ℝ
  wide_err : ∀ x, |wide x - x| ≤ u * |x|
  mid_err : ∀ x, |mid x - x| ≤ u * |x|

namespace FloatWide
variable (F : FloatWide)

/-- `floatingPointModulo<Scalar>(x, y)` with rounding, include/kindr/common/common.hpp:46-85. -/
def modulo (x y : ℝ) : ℝ := fpModuloTyped ⟨F.fl, F.mid, F.wide, F.wide⟩ x y

/-- `wrapPosNegPI<Scalar>(angle)` before the conversion of the result to `Scalar`, include/kindr/common/common.hpp:96-99. -/
def wrapWide (angle : ℝ) : ℝ := F.wide (F.modulo (F.fl (angle + F.fl (F.wide Real.pi))) (F.fl (2 * F.wide Real.pi)) - F.wide Real.pi)

/-- `wrapPosNegPI<Scalar>(angle)` with rounding, include/kindr/common/common.hpp:96-99. -/
def wrapPosNegPI (angle : ℝ) : ℝ := F.fl (F.wrapWide angle)

/-- `AngleAxis::getUnique()` with rounding, include/kindr/rotations/AngleAxis.hpp:259-299. -/
def aaGetUnique (a : AngAx) : AngAx :=
  let angle := F.wrapPosNegPI a.angle
  let axis := a.axis
  if angle > 0 then ⟨angle, axis⟩
  else if angle < 0 then
    if angle ≠ -F.wide Real.pi then ⟨-angle, -axis⟩
    else if axis.x < 0 then ⟨-angle, -axis⟩
    else if axis.x > 0 then ⟨-angle, axis⟩
    else if axis.y < 0 then ⟨-angle, -axis⟩
    else if axis.y > 0 then ⟨-angle, axis⟩
    else if axis.z < 0 then ⟨-angle, -axis⟩
    else ⟨-angle, axis⟩
  else ⟨0, ⟨1, 0, 0⟩⟩

/-- `RotationVector::getUnique()` with rounding, include/kindr/rotations/RotationVector.hpp:244-248. -/
def rvGetUnique (P : Prec) (r : RotVec) : RotVec := F.rvOfAa (F.aaGetUnique (F.aaOfRv P r))

/-- `logarithmicMap()` with rounding, include/kindr/rotations/RotationImpl.hpp:149-152. -/
def logarithmicMap (P : Prec) (k : Kind) (r : Rep k) : V3 := (F.rvGetUnique P (F.conv P .rv k r)).v

/-- `boxMinus` with rounding, include/kindr/rotations/RotationImpl.hpp:163-165. -/
def boxMinus (P : Prec) (k₁ k₂ : Kind) (a : Rep k₁) (b : Rep k₂) : V3 :=
  F.logarithmicMap P k₁ (F.mult P k₁ k₂ a (F.inverted k₂ b))

/-- `getDisparityAngle` with rounding, include/kindr/rotations/RotationImpl.hpp:220-223. -/
def disparityAngle (P : Prec) (k₁ k₂ : Kind) (a : Rep k₁) (b : Rep k₂) : ℝ :=
  F.fl |F.wrapWide (F.conv P .aa k₁ (F.mult P k₁ k₂ a (F.inverted k₂ b)) : AngAx).angle|

/-- `isNear` with rounding, include/kindr/rotations/RotationBase.hpp:292-295. -/
def isNear (P : Prec) (k₁ k₂ : Kind) (a : Rep k₁) (b : Rep k₂) (tol : ℝ) : Bool :=
  decide (F.disparityAngle P k₁ k₂ a b ≤ tol)

/-- `interpolate` with rounding, include/kindr/rotations/RotationBase.hpp:366-373. -/
def interpolate (P : Prec) (k₁ k₂ : Kind) (a : Rep k₁) (b : Rep k₂) (ratio : ℝ) : Rep k₁ :=
  let ratio := if ratio > 1 then 1 else if ratio < 0 then 0 else ratio
  let d := F.boxMinus P k₂ k₁ b a
  F.boxPlus P k₁ a ⟨F.fl (d.x * ratio), F.fl (d.y * ratio), F.fl (d.z * ratio)⟩

end FloatWide
end Kindr
