import Mathlib.MeasureTheory.Constructions.Pi
import Mathlib.MeasureTheory.Measure.Lebesgue.Basic
import Verif.Model.Rotation

/-!
# The law of the numbers drawn by `setUniformRandom`

`setUniformRandom`, include/kindr/common/common.hpp:109-117, called by `RandomTraits::set_random`,
include/kindr/rotations/RotationImpl.hpp:230-238, with the interval from `-M_PI` to `M_PI` and three components.
Simplification: real numbers and the exact `π`; the generator is taken to be ideal (independent draws with the law its
documentation promises), whereas `std::mt19937` seeded with `std::random_device` is a pseudo-random generator.
-/

set_option autoImplicit false

noncomputable section
namespace Kindr.Spec
open Kindr MeasureTheory

/-- One number drawn from `std::uniform_real_distribution(-π, π)`, common.hpp:113: the uniform law on `[-π, π)`. -/
def uniformDraw : Measure ℝ := (ENNReal.ofReal (2 * Real.pi))⁻¹ • volume.restrict (Set.Ico (-Real.pi) Real.pi)

/-- The loop over the three components, common.hpp:114-116: three independent draws. -/
def drawLaw : Measure (Fin 3 → ℝ) := Measure.pi fun _ => uniformDraw

/-- The drawn vector, as passed to the constructor of `RotationVector`, RotationImpl.hpp:236. -/
def draw3 (x : Fin 3 → ℝ) : V3 := ⟨x 0, x 1, x 2⟩

end Kindr.Spec
