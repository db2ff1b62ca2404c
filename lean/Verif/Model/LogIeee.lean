import Verif.Model.Range

/-!
# Logarithmic map, boxMinus, disparity angle and interpolation of quaternions in IEEE arithmetic

The arithmetic of Model/Range.lean (rounding to nearest even, gradual underflow, overflow), with the mixture of `Scalar` and `double` that
`wrapPosNegPI` uses: the constant `M_PI` and the variable `m` of `floatingPointModulo` are `double` whatever `Scalar` is.
-/

set_option autoImplicit false

open Classical

noncomputable section
namespace Kindr

/-- The types of one instantiation of the templates of include/kindr/common/common.hpp:46-99: `scalar` is `T`, `mid` the type in which
`x - y*floor(x/y)` is evaluated (`T`, or `double` if `floor` is the C function). -/
structure Inst where
  scalar : Format
  mid : Format

/-- `T = double`, include/kindr/common/common.hpp:46-99. -/
def Inst.double : Inst := ⟨.double, .double⟩
/-- `T = float` with `floor` resolved to the overload for `float`, include/kindr/common/common.hpp:54. -/
def Inst.floatFloorF : Inst := ⟨.float, .float⟩
/-- `T = float` with `floor` resolved to `double floor(double)`, include/kindr/common/common.hpp:54. -/
def Inst.floatFloorD : Inst := ⟨.float, .double⟩

/-- Conversion of a number to a format (the implicit conversions of include/kindr/common/common.hpp:54-99). -/
def Format.convert (f : Format) : XR → XR
  | .fin x => f.arith.rnd x
  | x => x

namespace Inst
variable (M : Inst)

/-- `floatingPointModulo<T>(x, y)`, include/kindr/common/common.hpp:46-85: line 54 stores `x - y*floor(x/y)` in a `double`, lines 58-84 compare
in `double` and convert the returned value to `T`. -/
def modulo (x y : XR) : XR :=
  if y.eq (.fin 0) then x
  else
    let m := Format.double.convert (M.mid.arith.sub x (M.mid.arith.mul y (M.scalar.arith.div x y).floor))
    let s := Format.double.arith.add y m
    if XR.lt (.fin 0) y then
      if y.le m then .fin 0
      else if m.lt (.fin 0) then (if s.eq y then .fin 0 else M.scalar.convert s)
      else M.scalar.convert m
    else
      if m.le y then .fin 0
      else if XR.lt (.fin 0) m then (if s.eq y then .fin 0 else M.scalar.convert s)
      else M.scalar.convert m

/-- `floatingPointModulo(angle + T(M_PI), T(2.0*M_PI)) - M_PI`, a `double`: include/kindr/common/common.hpp:98,
include/kindr/rotations/RotationImpl.hpp:222. -/
def wrapDouble (angle : XR) : XR :=
  Format.double.arith.sub
    (M.modulo (M.scalar.arith.add angle (M.scalar.convert (.fin mPi))) (M.scalar.convert (.fin (2 * mPi)))) (.fin mPi)

/-- `wrapPosNegPI<T>(angle)`, include/kindr/common/common.hpp:96-99: the result is converted to `T`. -/
def wrapPosNegPI (angle : XR) : XR := M.scalar.convert (M.wrapDouble angle)

/-- `AngleAxis::getUnique()`, include/kindr/rotations/AngleAxis.hpp:259-299. -/
def aaGetUnique (a : XAA) : XAA :=
  let angle := M.wrapPosNegPI a.angle
  let axis := a.axis
  let zero := XR.fin 0
  if zero.lt angle then ⟨angle, axis⟩
  else if angle.lt zero then
    if ¬ angle.eq (.fin (-mPi)) then ⟨angle.neg, axis.neg⟩
    else if axis.x.lt zero then ⟨angle.neg, axis.neg⟩
    else if zero.lt axis.x then ⟨angle.neg, axis⟩
    else if axis.y.lt zero then ⟨angle.neg, axis.neg⟩
    else if zero.lt axis.y then ⟨angle.neg, axis⟩
    else if axis.z.lt zero then ⟨angle.neg, axis.neg⟩
    else ⟨angle.neg, axis⟩
  else ⟨.fin 0, ⟨.fin 1, .fin 0, .fin 0⟩⟩

/-- `RotationVector::getUnique()`, include/kindr/rotations/RotationVector.hpp:244-248. -/
def rvGetUnique (P : Prec) (r : XV3) : XV3 := M.scalar.arith.rvOfAa (M.aaGetUnique (M.scalar.arith.aaOfRv P r))

/-- `logarithmicMap()` of a `RotationQuaternion`, include/kindr/rotations/RotationImpl.hpp:149-152,
include/kindr/rotations/RotationVector.hpp:323-344. -/
def logarithmicMap (P : Prec) (q : XQuat) : XV3 := M.rvGetUnique P (M.scalar.arith.rvOfQuat P q)

/-- `a.boxMinus(b)` of two quaternions, include/kindr/rotations/RotationImpl.hpp:163-165. -/
def boxMinus (P : Prec) (a b : XQuat) : XV3 := M.logarithmicMap P (M.scalar.arith.quatMul a (XArith.quatInverted b))

/-- `a.boxPlus(v)`: the exponential map times `a`, include/kindr/rotations/RotationImpl.hpp:167-169. -/
def boxPlus (P : Prec) (a : XQuat) (v : XV3) : XQuat := M.scalar.arith.boxPlus P .quat a v

/-- `a.getDisparityAngle(b)` of two quaternions, include/kindr/rotations/RotationImpl.hpp:220-223: the absolute value of the wrapped angle,
converted to `T`. -/
def disparityAngle (a b : XQuat) : XR :=
  M.scalar.convert (M.wrapDouble (M.scalar.arith.aaOfQuat (M.scalar.arith.quatMul a (XArith.quatInverted b))).angle).abs

/-- `a.isNear(b, tol)`, include/kindr/rotations/RotationBase.hpp:292-295. -/
def isNear (a b : XQuat) (tol : XR) : Bool := decide ((M.disparityAngle a b).le tol)

/-- `a.interpolate(b, ratio)`, include/kindr/rotations/RotationBase.hpp:366-373.  The `double` ratio is taken to be a number of the scalar type. -/
def interpolate (P : Prec) (a b : XQuat) (ratio : XR) : XQuat :=
  let ratio := if XR.lt (.fin 1) ratio then .fin 1 else if ratio.lt (.fin 0) then .fin 0 else ratio
  let d := M.boxMinus P b a
  M.boxPlus P a ⟨M.scalar.arith.mul d.x ratio, M.scalar.arith.mul d.y ratio, M.scalar.arith.mul d.z ratio⟩

end Inst
end Kindr
