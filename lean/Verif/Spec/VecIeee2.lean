import Verif.Model.VecIeee2
import Verif.Spec.VecIeee

/-!
# Specification vocabulary for comparison and projection of vectors in IEEE arithmetic
-/

set_option autoImplicit false

noncomputable section
namespace Kindr.Spec
open Kindr

/-- The length of a vector. -/
def vecLen {n : ℕ} (a : Fin n → ℝ) : ℝ := Real.sqrt (∑ i, a i ^ 2)

/-- The order in which Eigen's unrolled reduction combines the coefficients of a vector of dimension three: the first one with the
combination of the other two. -/
def unrolled3 : SumOrder (Fin 3) := .node (.leaf 0) (.node (.leaf 1) (.leaf 2))

/-- From left to right: `((c₀ ∘ c₁) ∘ c₂) ∘ …`. -/
def leftToRight (n : ℕ) : SumOrder (Fin (n + 1)) :=
  ((List.finRange n).map Fin.succ).foldl (fun t i => .node t (.leaf i)) (.leaf 0)

end Kindr.Spec
