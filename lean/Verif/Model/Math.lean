import Mathlib.Data.Matrix.Mul
import Mathlib.Data.Real.Basic
import Mathlib.Algebra.Order.CompleteField
import Verif.Model.LinAlg

/-!
# include/kindr/math/LinearAlgebra.hpp
-/

set_option autoImplicit false

open Classical

noncomputable section
namespace Kindr

/-- `getSkewMatrixFromVector`, include/kindr/math/LinearAlgebra.hpp:41-45. -/
def skew (v : V3) : M3 := ⟨0, -v.z, v.y, v.z, 0, -v.x, -v.y, v.x, 0⟩

/-- `getVectorFromSkewMatrix`, include/kindr/math/LinearAlgebra.hpp:53-55. -/
def vee (m : M3) : V3 := ⟨m.m21, m.m02, m.m10⟩

/-- What `Eigen::JacobiSVD<..>(a, ComputeThinU | ComputeThinV)` returns (include/kindr/math/LinearAlgebra.hpp:86): thin `U`
(`rows x d`), thin `V` (`cols x d`) and the `d` singular values, `d = min(rows, cols)` (any `d` here). -/
structure Svd (r c d : ℕ) where
  U : Matrix (Fin r) (Fin d) ℝ
  V : Matrix (Fin c) (Fin d) ℝ
  s : Fin d → ℝ

/-- `tolerance = epsilon * max(cols, rows) * max |singular value|`, include/kindr/math/LinearAlgebra.hpp:88-89. -/
def pinvTol {r c d : ℕ} (epsilon : ℝ) (svd : Svd r c d) : ℝ := epsilon * (max c r : ℕ) * ⨆ i, |svd.s i|

/-- `pseudoInverse(a, result, epsilon)`, include/kindr/math/LinearAlgebra.hpp:66-97, as a function of the decomposition
Eigen computes: `V * diag(|s| > tol ? 1/s : 0) * U^T`.  (The function always returns `true`.) -/
def pseudoInverse {r c d : ℕ} (epsilon : ℝ) (svd : Svd r c d) : Matrix (Fin c) (Fin r) ℝ :=
  svd.V * Matrix.diagonal (fun i => if |svd.s i| > pinvTol epsilon svd then (svd.s i)⁻¹ else 0) * svd.U.transpose

end Kindr
