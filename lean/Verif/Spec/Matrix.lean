import Mathlib.LinearAlgebra.Matrix.Notation
import Verif.Spec.Rotation

/-!
# Bridge to Mathlib matrices
-/

set_option autoImplicit false

noncomputable section
namespace Kindr.Spec
open Kindr

/-- A 3x3 matrix as a Mathlib matrix. -/
def toMat (m : M3) : Matrix (Fin 3) (Fin 3) ℝ := !![m.m00, m.m01, m.m02; m.m10, m.m11, m.m12; m.m20, m.m21, m.m22]

/-- The antisymmetric matrix with `crossMatrix v * u = v × u`, as a Mathlib matrix. -/
def crossMatrix (v : V3) : Matrix (Fin 3) (Fin 3) ℝ := !![0, -v.z, v.y; v.z, 0, -v.x; -v.y, v.x, 0]

/-- All entries differ by at most `d`. -/
def EntryClose (d : ℝ) (A R : M3) : Prop :=
  |A.m00 - R.m00| ≤ d ∧ |A.m01 - R.m01| ≤ d ∧ |A.m02 - R.m02| ≤ d ∧ |A.m10 - R.m10| ≤ d ∧ |A.m11 - R.m11| ≤ d ∧
  |A.m12 - R.m12| ≤ d ∧ |A.m20 - R.m20| ≤ d ∧ |A.m21 - R.m21| ≤ d ∧ |A.m22 - R.m22| ≤ d

end Kindr.Spec
