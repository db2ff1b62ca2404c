import Verif.Model.FloatLog

/-!
# `getUnique()` of every class in rounded arithmetic

The two Euler functions mix `Scalar` and `double`: `x()+M_PI` is a `double` expression, so that `floatingPointModulo` is instantiated
with `T = double` whatever `Scalar` is, the bounds of the bands are `double`, and the wrapped angles are converted to `Scalar` when they
are stored.
-/

set_option autoImplicit false

open Classical

noncomputable section
namespace Kindr

namespace FloatWide
variable (F : FloatWide)

/-- `floatingPointModulo<double>(x, y)` with rounding, include/kindr/common/common.hpp:46-85. -/
def moduloWide (x y : ℝ) : ℝ := fpModuloTyped ⟨F.wide, F.wide, F.wide, F.wide⟩ x y

/-- `floatingPointModulo(x()+M_PI,2*M_PI)-M_PI` with rounding, stored in a `Scalar`,
include/kindr/rotations/EulerAnglesXyz.hpp:264-266, include/kindr/rotations/EulerAnglesZyx.hpp:354-356. -/
def eulerWrap (a : ℝ) : ℝ :=
  F.fl (F.wide (F.moduloWide (F.wide (a + F.wide Real.pi)) (F.wide (2 * F.wide Real.pi)) - F.wide Real.pi))

/-- `-M_PI/2 - tol`, `-M_PI/2 + tol`, `M_PI/2 - tol` and `M_PI/2 + tol` with `s`, `t` the signs of the two terms; all `double`.
include/kindr/rotations/EulerAnglesXyz.hpp:268-300, include/kindr/rotations/EulerAnglesZyx.hpp:358-390. -/
def bandEdge (s t : ℝ) : ℝ := F.wide (F.wide (s * F.wide Real.pi / 2) + t * F.wide eulerTol)

/-- `if(x < 0) x = x + M_PI; else x = x - M_PI;` with rounding, include/kindr/rotations/EulerAnglesXyz.hpp:273-277,281-285,
303-307,311-315, include/kindr/rotations/EulerAnglesZyx.hpp:363-367,371-375,393-397,401-405. -/
def halfTurn (x : ℝ) : ℝ := F.fl (if x < 0 then F.wide (x + F.wide Real.pi) else F.wide (x - F.wide Real.pi))

/-- The body shared by the two Euler `getUnique()` functions with rounding, acting on the three stored coefficients,
include/kindr/rotations/EulerAnglesXyz.hpp:263-320, include/kindr/rotations/EulerAnglesZyx.hpp:353-410. -/
def eulerUniqueBody (v : V3) : V3 :=
  let x := F.eulerWrap v.x
  let y := F.eulerWrap v.y
  let z := F.eulerWrap v.z
  if y < F.bandEdge (-1) (-1) then ⟨F.halfTurn x, F.fl (-F.wide (y + F.wide Real.pi)), F.halfTurn z⟩
  else if F.bandEdge (-1) (-1) ≤ y ∧ y ≤ F.bandEdge (-1) 1 then ⟨F.fl (x - z), y, 0⟩
  else if F.bandEdge (-1) 1 < y ∧ y < F.bandEdge 1 (-1) then ⟨x, y, z⟩
  else if F.bandEdge 1 (-1) ≤ y ∧ y ≤ F.bandEdge 1 1 then ⟨F.fl (x + z), y, 0⟩
  else ⟨F.halfTurn x, F.fl (-F.wide (y - F.wide Real.pi)), F.halfTurn z⟩

/-- `EulerAnglesXyz::getUnique()` with rounding, include/kindr/rotations/EulerAnglesXyz.hpp:263-320. -/
def xyzGetUnique (e : EulXyz) : EulXyz := ⟨F.eulerUniqueBody ⟨e.x, e.y, e.z⟩⟩

/-- `EulerAnglesZyx::getUnique()` with rounding, include/kindr/rotations/EulerAnglesZyx.hpp:353-410 (coefficient 0 is the yaw). -/
def zyxGetUnique (e : EulZyx) : EulZyx := ⟨F.eulerUniqueBody ⟨e.z, e.y, e.x⟩⟩

/-- `getUnique()` / `setUnique()` of every class with rounding.  The quaternion function only flips signs
(include/kindr/rotations/RotationQuaternion.hpp:340-367) and the matrix is returned unchanged
(include/kindr/rotations/RotationMatrix.hpp:239-249), so nothing is rounded there. -/
def getUnique (P : Prec) : (k : Kind) → Rep k → Rep k
  | .quat => quatGetUnique
  | .mat => fun m => m
  | .aa => F.aaGetUnique
  | .rv => F.rvGetUnique P
  | .xyz => F.xyzGetUnique
  | .zyx => F.zyxGetUnique

end FloatWide
end Kindr
