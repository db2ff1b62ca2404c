import Mathlib.Analysis.SpecialFunctions.Pow.Real

/-!
# Specification of binary floating-point numbers and of rounding
-/

set_option autoImplicit false

namespace Kindr.Spec

/-- `x` is a floating-point number with `p` significant bits (unbounded exponent range). -/
def IsFloat (p : ℕ) (x : ℝ) : Prop := ∃ n e : ℤ, |n| < 2 ^ p ∧ x = n * (2 : ℝ) ^ e

/-- `fl` is a rounding to `p` bits: it is monotone, returns floating-point numbers and does not change floating-point numbers.
All IEEE 754 rounding modes (to nearest with either tie rule, upward, downward, toward zero) satisfy this. -/
structure BinaryRounding (p : ℕ) (fl : ℝ → ℝ) : Prop where
  mono : Monotone fl
  range : ∀ x, IsFloat p (fl x)
  fix : ∀ x, IsFloat p x → fl x = x

end Kindr.Spec
