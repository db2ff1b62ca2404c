import Verif.Model.LinAlg
import Mathlib.Analysis.SpecialFunctions.Trigonometric.Basic
import Mathlib.Analysis.SpecialFunctions.Pow.Real
import Mathlib.Algebra.Order.Floor.Ring

/-!
# Scalar helpers of include/kindr/common
-/

set_option autoImplicit false

open Classical

noncomputable section
namespace Kindr

/-- The thresholds that depend on the scalar type: `NumTraits<..>::dummy_precision()`
(include/kindr/common/common.hpp:180-192) and `std::numeric_limits<..>::epsilon()`
(include/kindr/rotations/RotationQuaternion.hpp:506).  The two positivity facts are what the proofs use. -/
structure Prec where
  /-- machine epsilon -/
  eps : ℝ
  /-- dummy precision -/
  dp : ℝ
  eps_pos : 0 < eps
  dp_pos : 0 < dp
  eps_le : eps ≤ 2⁻¹ ^ 23
  dp_le : dp ≤ 1 / 100000

/-- `double`: include/kindr/common/common.hpp:187-192. -/
def Prec.double : Prec where
  eps := 2⁻¹ ^ 52
  dp := 1 / 1000000000000
  eps_pos := by positivity
  dp_pos := by positivity
  eps_le := by norm_num
  dp_le := by norm_num

/-- `float`: include/kindr/common/common.hpp:180-185. -/
def Prec.float : Prec where
  eps := 2⁻¹ ^ 23
  dp := 1 / 100000
  eps_pos := by positivity
  dp_pos := by positivity
  eps_le := le_refl _
  dp_le := le_refl _

/-- include/kindr/common/common.hpp:46-85, `floatingPointModulo`, *after* `m` has been computed (line 54), with
the rounding `fl` of the addition `y+m` (lines 65 and 68, 77 and 80) kept as a parameter.  The real-number model
uses `fl = id`. -/
def fpModuloFrom (fl : ℝ → ℝ) (x y m : ℝ) : ℝ :=
  if y = 0 then x
  else if y > 0 then
    if m ≥ y then 0
    else if m < 0 then (if fl (y + m) = y then 0 else fl (y + m))
    else m
  else
    if m ≤ y then 0
    else if m > 0 then (if fl (y + m) = y then 0 else fl (y + m))
    else m

/-- include/kindr/common/common.hpp:46-85, `floatingPointModulo(x, y)` in exact arithmetic:
`m = x - y*floor(x/y)` (line 54). -/
def floatingPointModulo (x y : ℝ) : ℝ := fpModuloFrom id x y (x - y * ⌊x / y⌋)

/-- include/kindr/common/common.hpp:46-85, `floatingPointModulo(x, y)` with every arithmetic operation rounded by `fl`:
`m = fl(x - fl(y*floor(fl(x/y))))` (line 54; `floor` is exact).  Used only for the rounding-robustness theorem. -/
def floatingPointModuloRounded (fl : ℝ → ℝ) (x y : ℝ) : ℝ :=
  fpModuloFrom fl x y (fl (x - fl (y * ⌊fl (x / y)⌋)))

/-- include/kindr/common/common.hpp:89-92, `wrapAngle(angle, x1, x2)`. -/
def wrapAngle (angle x1 x2 : ℝ) : ℝ := floatingPointModulo (angle - x1) (x2 - x1) + x1

/-- include/kindr/common/common.hpp:96-99, `wrapPosNegPI(angle)` (`M_PI` is taken to be the exact `π`). -/
def wrapPosNegPI (angle : ℝ) : ℝ := floatingPointModulo (angle + Real.pi) (2 * Real.pi) - Real.pi

/-- include/kindr/common/common.hpp:103-106, `wrapTwoPI(angle)`. -/
def wrapTwoPI (angle : ℝ) : ℝ := floatingPointModulo angle (2 * Real.pi)

/-- include/kindr/common/assert_macros_eigen.hpp:48-68, `compareRelative(a, b, percentTolerance)`, with the
default `bothZeroThreshold = 1e-15`; the optional `percentError` output (only used for messages) is dropped. -/
def compareRelative (a b percentTolerance : ℝ) : Bool :=
  if (|a| < 1 / 10 ^ 15 ∧ |b| < 1 / 10 ^ 15) ∨ (|a| = 0 ∧ |b| < 1 / 10 ^ 6) ∨ (|b| = 0 ∧ |a| < 1 / 10 ^ 6) then
    true
  else if |a - b| / max |a| |b| > percentTolerance * (1 / 100) then false
  else true

/-- include/kindr/common/assert_macros_eigen.hpp:71-91, `compareRelativePeriodic(a, b, periodlength,
percentTolerance)`; the optional `percentError` output is dropped. -/
def compareRelativePeriodic (a b period percentTolerance : ℝ) : Bool :=
  let fa := floatingPointModulo a period
  let fb := floatingPointModulo b period
  let tol : ℝ := 1 / 10 ^ 15
  if ((period - tol < fa ∨ fa < tol) ∧ (period - tol < fb ∨ fb < tol)) ∨
      (fa = 0 ∧ fb < 1 / 10 ^ 6) ∨ (fb = 0 ∧ fa < 1 / 10 ^ 6) then true
  else if min (floatingPointModulo (a - b) period) (floatingPointModulo (b - a) period) / period
      > percentTolerance * (1 / 100) then false
  else true

/-- `KINDR_ASSERT_SCALAR_NEAR_DBG` in a debug build, include/kindr/common/assert_macros_eigen.hpp:131-141:
throws unless `compareRelative`. -/
def assertScalarNearDbg {α : Type} (a b tol : ℝ) (k : Res α) : Res α :=
  if compareRelative a b tol = true then k else .throws

end Kindr
