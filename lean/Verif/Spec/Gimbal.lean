import Verif.Spec.VecIeee
import Verif.Model.Deriv

/-!
# Specification vocabulary for Euler-rate mappings near the gimbal lock
-/

set_option autoImplicit false

noncomputable section
namespace Kindr.Spec
open Kindr

/-- Every entry of `m` is that of `x` up to the relative error `r` and the absolute error `e`. -/
def EntryNear (r e : ℝ) (m x : M3) : Prop :=
  |m.m00 - x.m00| ≤ r * |x.m00| + e ∧ |m.m01 - x.m01| ≤ r * |x.m01| + e ∧ |m.m02 - x.m02| ≤ r * |x.m02| + e ∧
  |m.m10 - x.m10| ≤ r * |x.m10| + e ∧ |m.m11 - x.m11| ≤ r * |x.m11| + e ∧ |m.m12 - x.m12| ≤ r * |x.m12| + e ∧
  |m.m20 - x.m20| ≤ r * |x.m20| + e ∧ |m.m21 - x.m21| ≤ r * |x.m21| + e ∧ |m.m22 - x.m22| ≤ r * |x.m22| + e

/-- A call in the format `f` returns, without exception, the finite matrix that exact real arithmetic would return, up to `7` roundings in every
entry (and the effect of underflow). -/
def RatesAccurate (f : Format) (computed : Res XM3) (exact : Res M3) : Prop :=
  ∃ m x, computed = .ok (embM m) ∧ exact = .ok x ∧ EntryNear (7 * 2⁻¹ ^ f.p) (2 ^ (f.emin + 63)) m x

/-- The `double` nearest to `π / 2`. -/
def halfPiDouble : ℝ := 7074237752028440 / 2 ^ 52

end Kindr.Spec
