import Verif.Model.PhysicalType
import Verif.Spec.PhysicalType

/-!
# C39: the compile-time table of physical product types
-/

set_option autoImplicit false

namespace Kindr
open PhysicalType Spec

/-- C39: no template is specialized twice, neither a multiplication nor a division trait (otherwise the header would
not compile), so the tables are functions and the order of the macro invocations is irrelevant. -/
theorem C39_table_unambiguous :
    (table.map fun e => (e.factor1, e.factor2)).Nodup ∧ (table.map fun e => (e.product, e.factor2)).Nodup := by
  constructor <;> decide

/-- C39: the type of a product does not depend on the order of the factors.  (This is also what makes
`scalar-vector * vector` compile.) -/
theorem C39_mult_symmetric (t₁ t₂ : PhysicalType) : multType t₁ t₂ = multType t₂ t₁ := by
  cases t₁ <;> cases t₂ <;> rfl

/-- C39: whenever a product has a (non-typeless) type, dividing it by either factor gives the other factor back. -/
theorem C39_div_inverts_mult (t₁ t₂ : PhysicalType) (h : multType t₁ t₂ ≠ Typeless) :
    divType (multType t₁ t₂) t₂ = t₁ ∧ divType (multType t₁ t₂) t₁ = t₂ := by
  revert h
  cases t₁ <;> cases t₂ <;> decide

example : multType Position Force ≠ Typeless := by decide

/-- C39: whenever a quotient has a (non-typeless) type, multiplying it with the divisor gives the dividend back. -/
theorem C39_mult_inverts_div (t₁ t₂ : PhysicalType) (h : divType t₁ t₂ ≠ Typeless) :
    multType (divType t₁ t₂) t₂ = t₁ := by
  revert h
  cases t₁ <;> cases t₂ <;> decide

example : divType Torque Position = Force := by decide

/-- C39: every non-typeless product or quotient type has the SI dimension of the product or quotient. -/
theorem C39_si_dimensions (t₁ t₂ : PhysicalType) :
    (multType t₁ t₂ ≠ Typeless → siDim (multType t₁ t₂) = siDim t₁ + siDim t₂) ∧
    (divType t₁ t₂ ≠ Typeless → siDim (divType t₁ t₂) = siDim t₁ - siDim t₂) := by
  cases t₁ <;> cases t₂ <;> decide

/-- C39, the Typeless unit law, partial: multiplying or dividing by a typeless factor keeps the type, for all types except
`Mass`, `Inertia`, `Power` and `Energy`.  Missing: those four, for which the law fails
(`C39_typeless_counterexample`). -/
theorem C39_typeless_unit_partial (t : PhysicalType) (h : t ∉ [Mass, Inertia, Power, Energy]) :
    multType Typeless t = t ∧ multType t Typeless = t ∧ divType t Typeless = t := by
  revert h
  cases t <;> decide

example : Torque ∉ [Mass, Inertia, Power, Energy] := by decide

/-- C39, negative part: for `Mass`, `Inertia`, `Power` and `Energy` a multiplication (either order) or a division by a
typeless factor silently loses the physical type. -/
theorem C39_typeless_counterexample (t : PhysicalType) (h : t ∈ [Mass, Inertia, Power, Energy]) :
    multType Typeless t = Typeless ∧ multType t Typeless = Typeless ∧ divType t Typeless = Typeless ∧
      t ≠ Typeless := by
  revert h
  cases t <;> decide

/-- C39: exactly when is a quotient of two equal types recognised as typeless *by the table*, and when does the
default coincide: in all cases a quotient of equal types is `Typeless`. -/
theorem C39_self_quotient (t : PhysicalType) : divType t t = Typeless := by
  cases t <;> rfl

lemma mult_of_law {a b p : PhysicalType} (h : Law a b p) : multType a b = p ∧ multType b a = p ∧ divType p b = a ∧
    (b ≠ Typeless → p ≠ Typeless → divType p a = b) := by
  cases h with
  | number t h => revert h; cases b <;> decide
  | integral h => cases h <;> decide
  | lever h => cases h <;> decide
  | newtonForce => decide
  | newtonMomentum => decide
  | eulerTorque => decide
  | eulerMomentum => decide

/-- C39, the table is the laws of mechanics, **exactly**: a product has the named type `p` iff a law says so for the two factors
in one of the two orders, and a quotient `p / f₂` has the named type `f₁` iff `f₁ * f₂ = p` is such a law. -/
theorem C39_laws_exact (a b p : PhysicalType) (hp : p ≠ Typeless) :
    (multType a b = p ↔ Law a b p ∨ Law b a p) ∧ (divType p b = a ∧ a ≠ Typeless ↔ (Law a b p ∨ Law b a p) ∧ a ≠ Typeless) := by
  have fwd : ∀ {a b p : PhysicalType}, multType a b = p → p ≠ Typeless → Law a b p ∨ Law b a p := by
    intro a b p h hp
    subst h
    cases a <;> cases b <;> first
      | exact absurd rfl hp
      | exact Or.inl (Law.number _ (by decide))
      | exact Or.inr (Law.number _ (by decide))
      | exact Or.inl (Law.integral (by constructor))
      | exact Or.inr (Law.integral (by constructor))
      | exact Or.inl (Law.lever (by constructor))
      | exact Or.inr (Law.lever (by constructor))
      | exact Or.inl (by constructor)
      | exact Or.inr (by constructor)
  have bwd : ∀ {a b p : PhysicalType}, Law a b p ∨ Law b a p → multType a b = p := by
    rintro a b p (h | h)
    · exact (mult_of_law h).1
    · exact (mult_of_law h).2.1
  refine ⟨⟨fun h => fwd h hp, bwd⟩, ?_, ?_⟩
  · rintro ⟨h, ha⟩
    refine ⟨fwd ?_ hp, ha⟩
    have := C39_mult_inverts_div p b (by rw [h]; exact ha)
    rwa [h] at this
  · rintro ⟨h, ha⟩
    refine ⟨?_, ha⟩
    have hm := bwd h
    have := (C39_div_inverts_mult a b (by rw [hm]; exact hp)).1
    rwa [hm] at this

/-- Non-vacuity: impulse. -/
example : Law Time Force Momentum ∧ Momentum ≠ Typeless := ⟨Law.integral .momentum, by decide⟩

end Kindr
