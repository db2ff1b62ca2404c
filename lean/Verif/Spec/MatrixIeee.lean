import Verif.Spec.Under
import Verif.Spec.Matrix

/-!
# Specification vocabulary for rotation matrices in IEEE arithmetic
-/

set_option autoImplicit false

noncomputable section
namespace Kindr.Spec
open Kindr

/-- One factor of a product: the stored matrix, the rotation it stands for, and whether its inverse is multiplied. -/
structure MatrixFactor where
  stored : M3
  exact : M3
  inverse : Bool

/-- The loop `for (f : l) R = R * (f.inverse ? f.m.inverted() : f.m);` on a `RotationMatrix`. -/
def matrixLoop (A : XArith) (P : Prec) (R : XM3) (l : List MatrixFactor) : XM3 :=
  l.foldl (fun a s => A.mult P .mat .mat a (if s.inverse then A.inverted .mat (embM s.stored) else embM s.stored)) R

/-- The same product of exact rotation matrices. -/
def matrixProduct (R : M3) (l : List MatrixFactor) : M3 :=
  l.foldl (fun a s => a * (if s.inverse then s.exact.transpose else s.exact)) R

/-- The matrix that stretches the first coordinate by `1 + a` and shrinks the second by `1 - a`. -/
def stretched (a : ℝ) : M3 := ⟨1 + a, 0, 0, 0, 1 - a, 0, 0, 0, 1⟩

/-- A matrix stored in a format: every entry rounded to the nearest number. -/
def storedMatrix (f : Format) (m : M3) : M3 :=
  ⟨f.round m.m00, f.round m.m01, f.round m.m02, f.round m.m10, f.round m.m11, f.round m.m12, f.round m.m20, f.round m.m21, f.round m.m22⟩

end Kindr.Spec
