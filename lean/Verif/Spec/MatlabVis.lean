import Verif.Spec.Matlab

/-!
# What the Matlab visualizations are meant to show
-/

set_option autoImplicit false

noncomputable section
namespace Kindr.Spec
open Kindr

/-- `solve E b` is Matlab's `E \ b`: a solution of `E x = b` whenever `E` is regular. -/
def IsSolve (solve : M3 → V3 → V3) : Prop := ∀ (E : M3) (b : V3), E.det ≠ 0 → E.mulVec (solve E b) = b

/-- `R` is the motion of a body that is aligned with the fixed frame at time 0 and rotates with the constant angular velocity `w`,
given in coordinates of the fixed frame. -/
structure SteadyRotation (w : V3) (R : ℝ → M3) : Prop where
  start : R 0 = 1
  rotation : ∀ t, IsSO3 (R t)
  velocity : ∀ t, WorldVelocity R t w

end Kindr.Spec
