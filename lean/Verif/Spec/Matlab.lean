import Mathlib.Analysis.Normed.Algebra.MatrixExponential
import Verif.Spec.Rotation
import Verif.Spec.Matrix
import Verif.Spec.Deriv

/-!
# Contracts of the Matlab built-ins used by matlab/core, and velocity notions for bare rotation matrices
-/

set_option autoImplicit false

noncomputable section
namespace Kindr.Spec
open Kindr

/-- `expm` is the matrix exponential. -/
def IsExpm (expm : M3 → M3) : Prop := ∀ A : M3, toMat (expm A) = NormedSpace.exp (toMat A)

/-- `logm` is the principal matrix logarithm, as far as rotations are concerned: on the exponential of an antisymmetric matrix
of rotation angle below `π` it returns that antisymmetric matrix. -/
def IsLogm (logm : M3 → M3) : Prop :=
  ∀ (v : V3) (C : M3), v.norm < Real.pi → toMat C = NormedSpace.exp (crossMatrix v) → toMat (logm C) = crossMatrix v

/-- `norm2` is the spectral norm: the least bound of `|A u| ≤ c |u|`. -/
def IsSpectralNorm (norm2 : M3 → ℝ) : Prop :=
  ∀ (A : M3), 0 ≤ norm2 A ∧ (∀ u : V3, (A.mulVec u).norm ≤ norm2 A * u.norm) ∧
    ∀ c : ℝ, 0 ≤ c → (∀ u : V3, (A.mulVec u).norm ≤ c * u.norm) → norm2 A ≤ c

/-- `w` is the angular velocity, in fixed-frame coordinates, of the moving rotation matrix `R`: every body-fixed vector `u`
moves with velocity `w × R u`. -/
def WorldVelocity (R : ℝ → M3) (t : ℝ) (w : V3) : Prop :=
  ∀ u : V3, HasDerivV (fun s => (R s).mulVec u) (w.cross ((R t).mulVec u)) t

/-- The same in body-frame coordinates. -/
def BodyVelocity (R : ℝ → M3) (t : ℝ) (w : V3) : Prop :=
  ∀ u : V3, HasDerivV (fun s => (R s).mulVec u) ((R t).mulVec (w.cross u)) t

end Kindr.Spec
