import Verif.Model.Throw

/-!
# Specification vocabulary for exceptions (C110)
-/

set_option autoImplicit false

noncomputable section
namespace Kindr.Spec

/-- The axis of an angle-axis has unit length up to a relative deviation of `1e-6`. -/
def AxisOk (a : AngAx) : Prop := |a.axis.norm - 1| ≤ 1 / 10 ^ 6 * max a.axis.norm 1

/-- A quaternion has unit length up to a relative deviation of `tol`. -/
def NormOk (tol : ℝ) (q : Quat) : Prop := |q.norm - 1| ≤ tol * max q.norm 1

/-- The two calls on an angle-axis that store their argument before they look at it. -/
def AaStoresFirst (c : AaCall) : Prop := (∃ n, c = .setAxis n) ∨ (∃ v, c = .setVector v)

/-- The call on a rotation quaternion that stores its argument before it looks at it. -/
def QuatStoresFirst (c : QuatCall) : Prop := ∃ p, c = .callQuat p

/-- The calls on a rotation quaternion that never look at what they store, with an argument that is not a unit quaternion. -/
def QuatUnchecked (c : QuatCall) : Prop :=
  ∃ q, ¬ NormOk (1 / 10 ^ 4) q ∧ (c = .setValues q ∨ c = .assignUnit q ∨ c = .copy q)

end Kindr.Spec
