import Verif.Model.Range
import Verif.Spec.Special

/-!
# Specification vocabulary for vectors of extreme magnitude
-/

set_option autoImplicit false

noncomputable section
namespace Kindr.Spec
open Kindr

/-- All coefficients are so small that their squares are rounded to zero (`double`: up to about `1.57e-162`). -/
def Tiny (f : Format) (v : V3) : Prop := v.x ^ 2 ≤ 2 ^ (f.emin - 1) ∧ v.y ^ 2 ≤ 2 ^ (f.emin - 1) ∧ v.z ^ 2 ≤ 2 ^ (f.emin - 1)

/-- The square of some coefficient overflows (`double`: from `2 ^ 512`, about `1.34e154`). -/
def Huge (f : Format) (v : V3) : Prop := 2 ^ f.emax ≤ v.x ^ 2 ∨ 2 ^ f.emax ≤ v.y ^ 2 ∨ 2 ^ f.emax ≤ v.z ^ 2

/-- The squared length is far from both ends of the range (`double`: lengths from about `1e-145` to `1e153`). -/
def InRange (f : Format) (v : V3) : Prop := 2 ^ (f.emin + 2 * f.p + 2) ≤ v.x ^ 2 + v.y ^ 2 + v.z ^ 2 ∧ v.x ^ 2 + v.y ^ 2 + v.z ^ 2 ≤ 2 ^ (f.emax - 2)

/-- Every coefficient is zero or its square is neither subnormal nor too large (`double`: magnitudes from about `1e-146` to `4e153`). -/
def Plain (f : Format) (v : V3) : Prop :=
  ∀ c, c = v.x ∨ c = v.y ∨ c = v.z → c = 0 ∨ (2 ^ (f.emin + f.p) ≤ c ^ 2 ∧ c ^ 2 ≤ 2 ^ (f.emax - 4))

end Kindr.Spec
