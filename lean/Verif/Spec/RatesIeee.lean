import Verif.Spec.Gimbal2

/-!
# Specification vocabulary for angular velocities computed from Euler-angle rates
-/

set_option autoImplicit false

noncomputable section
namespace Kindr.Spec
open Kindr

/-- The sum of the magnitudes of the components. -/
def size1 (v : V3) : ℝ := |v.x| + |v.y| + |v.z|

/-- The computed vector is finite and every component of it is within `e` of the exact one. -/
def VecWithin (e : ℝ) (computed : XV3) (exact : V3) : Prop :=
  ∃ r : V3, computed = emb3 r ∧ |r.x - exact.x| ≤ e ∧ |r.y - exact.y| ≤ e ∧ |r.z - exact.z| ≤ e

end Kindr.Spec
