import Verif.Model.PhysicalType

/-!
# SI dimensions of the physical types, independent of the product table
-/

set_option autoImplicit false

namespace Kindr.Spec
open Kindr PhysicalType

/-- Exponents of kilogram, metre and second (angles are dimensionless). -/
structure Dim where
  kg : Int
  m : Int
  s : Int
  deriving DecidableEq

instance : Add Dim := ⟨fun a b => ⟨a.kg + b.kg, a.m + b.m, a.s + b.s⟩⟩
instance : Sub Dim := ⟨fun a b => ⟨a.kg - b.kg, a.m - b.m, a.s - b.s⟩⟩

/-- The SI dimension of each physical quantity. -/
def siDim : PhysicalType → Dim
  | Typeless => ⟨0, 0, 0⟩
  | Time => ⟨0, 0, 1⟩
  | Mass => ⟨1, 0, 0⟩
  | Inertia => ⟨1, 2, 0⟩
  | Power => ⟨1, 2, -3⟩
  | Energy => ⟨1, 2, -2⟩
  | Jerk => ⟨0, 1, -3⟩
  | Acceleration => ⟨0, 1, -2⟩
  | Velocity => ⟨0, 1, -1⟩
  | Position => ⟨0, 1, 0⟩
  | Force => ⟨1, 1, -2⟩
  | Momentum => ⟨1, 1, -1⟩
  | AngularJerk => ⟨0, 0, -3⟩
  | AngularAcceleration => ⟨0, 0, -2⟩
  | AngularVelocity => ⟨0, 0, -1⟩
  | Angle => ⟨0, 0, 0⟩
  | Torque => ⟨1, 2, -2⟩
  | AngularMomentum => ⟨1, 2, -1⟩

/-- `TimeIntegral t s`: quantity `s` is the time integral of quantity `t` (equivalently `t` is the rate of `s`). -/
inductive TimeIntegral : PhysicalType → PhysicalType → Prop
  | acceleration : TimeIntegral Jerk Acceleration
  | velocity : TimeIntegral Acceleration Velocity
  | position : TimeIntegral Velocity Position
  | angularAcceleration : TimeIntegral AngularJerk AngularAcceleration
  | angularVelocity : TimeIntegral AngularAcceleration AngularVelocity
  | angle : TimeIntegral AngularVelocity Angle
  | momentum : TimeIntegral Force Momentum
  | angularMomentum : TimeIntegral Torque AngularMomentum

/-- `LeverArm t s`: the cross product of a position (lever arm) and `t` is the quantity `s`. -/
inductive LeverArm : PhysicalType → PhysicalType → Prop
  | jerk : LeverArm AngularJerk Jerk
  | acceleration : LeverArm AngularAcceleration Acceleration
  | velocity : LeverArm AngularVelocity Velocity
  | torque : LeverArm Force Torque
  | angularMomentum : LeverArm Momentum AngularMomentum

/-- `Law f₁ f₂ p`: the product of `f₁` and `f₂` is `p` by a law of mechanics (time integration, lever arm, Newton-Euler), or
one factor is a pure number and the other one of the quantities for which the library scales by numbers. -/
inductive Law : PhysicalType → PhysicalType → PhysicalType → Prop
  | number (t : PhysicalType) (h : t ≠ Mass ∧ t ≠ Inertia ∧ t ≠ Power ∧ t ≠ Energy) : Law Typeless t t
  | integral {t s : PhysicalType} (h : TimeIntegral t s) : Law Time t s
  | lever {t s : PhysicalType} (h : LeverArm t s) : Law Position t s
  | newtonForce : Law Mass Acceleration Force
  | newtonMomentum : Law Mass Velocity Momentum
  | eulerTorque : Law Inertia AngularAcceleration Torque
  | eulerMomentum : Law Inertia AngularVelocity AngularMomentum

end Kindr.Spec
