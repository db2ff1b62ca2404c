import Mathlib.Data.List.Nodup

/-!
# Physical types and the compile-time product / quotient tables
-/

set_option autoImplicit false

namespace Kindr

/-- `enum class PhysicalType`, include/kindr/phys_quant/PhysicalType.hpp:39-61 (same order). -/
inductive PhysicalType where
  | Typeless
  | Time
  | Mass
  | Inertia
  | Power
  | Energy
  | Jerk
  | Acceleration
  | Velocity
  | Position
  | Force
  | Momentum
  | AngularJerk
  | AngularAcceleration
  | AngularVelocity
  | Angle
  | Torque
  | AngularMomentum
  deriving DecidableEq

namespace PhysicalType

/-- One expansion of `KINDR_SPECIALIZE_PHYS_QUANT_RETURN_TYPE_ONEWAY(FACTOR1, FACTOR2, PRODUCT)`,
include/kindr/vectors/Vector.hpp:744-758: it emits the two specializations
`MultiplicationPhysicalTypeTraits<FACTOR1, FACTOR2> = PRODUCT` and
`DivisionPhysicalTypeTraits<PRODUCT, FACTOR2> = FACTOR1`. -/
structure Oneway where
  factor1 : PhysicalType
  factor2 : PhysicalType
  product : PhysicalType

/-- `KINDR_SPECIALIZE_PHYS_QUANT_RETURN_TYPE_A`, include/kindr/vectors/Vector.hpp:760-764. -/
def specA (f₁ f₂ p : PhysicalType) : List Oneway := [⟨f₁, f₂, p⟩, ⟨f₂, f₁, p⟩]

/-- `KINDR_SPECIALIZE_PHYS_QUANT_RETURN_TYPE_B`, include/kindr/vectors/Vector.hpp:766-769. -/
def specB (f p : PhysicalType) : List Oneway := [⟨f, f, p⟩]

/-- The list of macro invocations, include/kindr/vectors/Vector.hpp:772-810, in source order. -/
def table : List Oneway :=
  specB Typeless Typeless ++
  specA Typeless Time Time ++
  specA Typeless Jerk Jerk ++
  specA Typeless Acceleration Acceleration ++
  specA Typeless Velocity Velocity ++
  specA Typeless Position Position ++
  specA Typeless Force Force ++
  specA Typeless Momentum Momentum ++
  specA Typeless AngularJerk AngularJerk ++
  specA Typeless AngularAcceleration AngularAcceleration ++
  specA Typeless AngularVelocity AngularVelocity ++
  specA Typeless Angle Angle ++
  specA Typeless Torque Torque ++
  specA Typeless AngularMomentum AngularMomentum ++
  specA Position AngularJerk Jerk ++
  specA Position AngularAcceleration Acceleration ++
  specA Position AngularVelocity Velocity ++
  specA Position Force Torque ++
  specA Position Momentum AngularMomentum ++
  specA Time Jerk Acceleration ++
  specA Time Acceleration Velocity ++
  specA Time Velocity Position ++
  specA Time Force Momentum ++
  specA Time AngularJerk AngularAcceleration ++
  specA Time AngularAcceleration AngularVelocity ++
  specA Time AngularVelocity Angle ++
  specA Time Torque AngularMomentum ++
  specA Mass Acceleration Force ++
  specA Mass Velocity Momentum ++
  specA Inertia AngularAcceleration Torque ++
  specA Inertia AngularVelocity AngularMomentum

/-- `MultiplicationPhysicalTypeTraits<T1, T2>::ReturnType`: the specialization if there is one, otherwise the primary
template's `Typeless` (include/kindr/vectors/VectorBase.hpp:48-55). -/
def multType (t₁ t₂ : PhysicalType) : PhysicalType :=
  match table.find? (fun e => e.factor1 = t₁ ∧ e.factor2 = t₂) with
  | some e => e.product
  | none => Typeless

/-- `DivisionPhysicalTypeTraits<T1, T2>::ReturnType`: the specialization if there is one, otherwise the primary
template's `Typeless` (include/kindr/vectors/VectorBase.hpp:57-64). -/
def divType (t₁ t₂ : PhysicalType) : PhysicalType :=
  match table.find? (fun e => e.product = t₁ ∧ e.factor2 = t₂) with
  | some e => e.factor1
  | none => Typeless

end PhysicalType
end Kindr
