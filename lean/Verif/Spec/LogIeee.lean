import Verif.Model.LogIeee
import Verif.Spec.ExpIeee

/-!
# Specification vocabulary for logarithms of quaternions in IEEE arithmetic
-/

set_option autoImplicit false

noncomputable section
namespace Kindr.Spec
open Kindr

/-- An instantiation of the templates with a scalar type at least as precise as `float` and at most as precise as `double`. -/
structure Sound (M : Inst) : Prop where
  scalar : Standard M.scalar
  p : M.scalar.p ≤ 53
  mid : M.mid = M.scalar ∨ M.mid = .double

/-- A stored quaternion whose length is one up to `d`. -/
def UnitUpTo (d : ℝ) (q : Quat) : Prop := |q.norm - 1| ≤ d

/-- The unit quaternion in the direction of `q`. -/
def direction (q : Quat) : Quat := ⟨q.w / q.norm, q.x / q.norm, q.y / q.norm, q.z / q.norm⟩

end Kindr.Spec
