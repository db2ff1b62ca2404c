import Mathlib.Data.Real.Basic

/-!
# What it means for getters and setters to address the components of a value
-/

set_option autoImplicit false

namespace Kindr.Spec

/-- `get i`, `set i` (for `i` in a finite index range) read and write the components of values of type `S`: a setter changes
exactly its own component, and the components determine the value. -/
def AddressComponents {S : Type} {n : ℕ} (get : Fin n → S → ℝ) (set : Fin n → S → ℝ → S) : Prop :=
  (∀ i s a, get i (set i s a) = a) ∧
  (∀ i j s a, i ≠ j → get i (set j s a) = get i s) ∧
  (∀ s s', (∀ i, get i s = get i s') → s = s')

end Kindr.Spec
