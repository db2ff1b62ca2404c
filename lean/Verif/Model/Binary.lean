import Mathlib.Data.Int.Log
import Verif.Model.Scalar

/-!
# `floatingPointModulo` and the wrap functions with the precisions the C++ types prescribe

`floatingPointModulo<T>` (include/kindr/common/common.hpp:46-85) declares its intermediate result `m` as `double` whatever
`T` is.  For `T = float` the computation therefore mixes two precisions, and which operations run in which precision
depends on the overload of the unqualified `floor` in line 54.  Here the function is modelled with the rounding of
every operation given by the type of that operation.
-/

set_option autoImplicit false

open Classical

noncomputable section
namespace Kindr

/-- The roundings of the operations of `floatingPointModulo<T>`. -/
structure ModTypes where
  /-- rounding to `T` (`x/y`, and the conversion of the result to the return type) -/
  flT : ℝ → ℝ
  /-- rounding to the type of `y * floor(x/y)` and of `x - ...`: `T` if `floor` is the overload for `T`, `double` if
  it is the C function `double floor(double)` -/
  flM : ℝ → ℝ
  /-- rounding to `double`, the type of `m` and of `y+m` (for `T = long double`: see `flS`) -/
  flD : ℝ → ℝ
  /-- rounding to the type of `y+m` (`double` for `T = float, double`, `long double` for `T = long double`) -/
  flS : ℝ → ℝ

/-- include/kindr/common/common.hpp:46-85, `floatingPointModulo<T>(x, y)`: line 54 computes
`x - y*floor(x/y)` and stores it in a `double`; lines 58-84 compare in `double` (exact comparison) and convert the
returned value to `T`.  `floor` is exact. -/
def fpModuloTyped (A : ModTypes) (x y : ℝ) : ℝ :=
  let m := A.flD (A.flM (x - A.flM (y * ⌊A.flT (x / y)⌋)))
  if y = 0 then x
  else if y > 0 then
    if m ≥ y then 0
    else if m < 0 then (if A.flS (y + m) = y then 0 else A.flT (A.flS (y + m)))
    else A.flT m
  else
    if m ≤ y then 0
    else if m > 0 then (if A.flS (y + m) = y then 0 else A.flT (A.flS (y + m)))
    else A.flT m

/-- Rounding of the significand to an integer, ties to even (IEEE 754 `roundTiesToEven`, the default mode). -/
def roundTiesEven (z : ℝ) : ℤ :=
  if Int.fract z < 1 / 2 then ⌊z⌋
  else if 1 / 2 < Int.fract z then ⌊z⌋ + 1
  else if Even ⌊z⌋ then ⌊z⌋ else ⌊z⌋ + 1

/-- IEEE 754 rounding to nearest, ties to even, with `p` significant bits (unbounded exponent range). -/
def roundEven (p : ℕ) (x : ℝ) : ℝ :=
  roundTiesEven (x / 2 ^ (Int.log 2 |x| - ((p : ℤ) - 1))) * 2 ^ (Int.log 2 |x| - ((p : ℤ) - 1))

/-- `T = double` (both readings of `floor` coincide). -/
def ModTypes.double : ModTypes := ⟨roundEven 53, roundEven 53, roundEven 53, roundEven 53⟩

/-- `T = float` with `floor` resolved to the overload for `float`. -/
def ModTypes.floatFloorF : ModTypes := ⟨roundEven 24, roundEven 24, roundEven 53, roundEven 53⟩

/-- `T = float` with `floor` resolved to the C function `double floor(double)`, the only candidate in the global
namespace when just `<cmath>` is included (include/kindr/common/common.hpp:30). -/
def ModTypes.floatFloorD : ModTypes := ⟨roundEven 24, roundEven 53, roundEven 53, roundEven 53⟩

/-- The `double` constant `M_PI` of `<math.h>`: `π` rounded to 53 bits. -/
def mPi : ℝ := 884279719003555 / 281474976710656

/-- `wrapTwoPI<T>(angle)`, include/kindr/common/common.hpp:103-106: the period is `T(2.0*M_PI)`. -/
def wrapTwoPITyped (A : ModTypes) (angle : ℝ) : ℝ := fpModuloTyped A angle (A.flT (2 * mPi))

/-- `wrapPosNegPI<T>(angle)`, include/kindr/common/common.hpp:96-99: `angle + T(M_PI)` is computed in `T`, the period is
`T(2.0*M_PI)`, and `... - M_PI` is computed in `double` and converted to the return type `T`. -/
def wrapPosNegPITyped (A : ModTypes) (angle : ℝ) : ℝ :=
  A.flT (A.flD (fpModuloTyped A (A.flT (angle + A.flT mPi)) (A.flT (2 * mPi)) - mPi))

end Kindr
