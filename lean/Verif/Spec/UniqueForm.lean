import Mathlib.Data.Real.Basic
import Mathlib.Analysis.SpecialFunctions.Trigonometric.Basic

/-!
# Which values are unique forms (specification for C116)

Plain sets of numbers, written without reference to the model.
-/

set_option autoImplicit false

noncomputable section
namespace Kindr.Spec

/-- The first number of the list that is not zero is positive (in particular one of them is not zero). -/
def FirstPositive : List ℝ → Prop
  | [] => False
  | a :: l => 0 < a ∨ (a = 0 ∧ FirstPositive l)

/-- The half-open range of angles `[-π, π)` of the manual. -/
def InTurn (a : ℝ) : Prop := -Real.pi ≤ a ∧ a < Real.pi

/-- The set of three angles `(a, b, c)` with the middle one more than `1e-3` away from the gimbal lock: both outer angles are
in `[-π, π)`. -/
def RegularAngles (a b c : ℝ) : Prop :=
  InTurn a ∧ (-Real.pi / 2 + 1 / 1000 < b ∧ b < Real.pi / 2 - 1 / 1000) ∧ InTurn c

/-- Near the gimbal lock (the middle angle within `1e-3` of `-π/2` or of `π/2`, on either side): the last angle is zero and the
first one ranges over two turns. -/
def LockedAngles (a b c : ℝ) : Prop :=
  c = 0 ∧ ((|b + Real.pi / 2| ≤ 1 / 1000 ∧ -(2 * Real.pi) < a ∧ a < 2 * Real.pi) ∨
    (|b - Real.pi / 2| ≤ 1 / 1000 ∧ -(2 * Real.pi) ≤ a ∧ a < 2 * Real.pi))

/-- The ranges given in doc/doxygen/page_rotation.dox:315 and :354: outer angles in `[-π, π)`, pitch in `[-π/2, π/2)`. -/
def ManualAngles (a b c : ℝ) : Prop :=
  InTurn a ∧ (-Real.pi / 2 ≤ b ∧ b < Real.pi / 2) ∧ InTurn c

end Kindr.Spec
