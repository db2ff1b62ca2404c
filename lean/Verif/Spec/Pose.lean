import Mathlib.LinearAlgebra.Matrix.Notation
import Verif.Spec.Rotation
import Verif.Spec.Deriv
import Verif.Model.Pose

/-!
# Independent specification of rigid-body poses
-/

set_option autoImplicit false

noncomputable section
namespace Kindr.Spec
open Kindr

/-- The rigid motion a pose stands for: rotate, then translate. -/
def move (k : Kind) (T : Pose k) (p : V3) : V3 := act k T.rotation p + T.position

/-- The pose satisfies its class invariant: its rotation does. -/
def ValidPose (k : Kind) (T : Pose k) : Prop := Valid k T.rotation

/-- Euclidean distance. -/
def dist3 (p q : V3) : ℝ := Real.sqrt ((p.x - q.x) ^ 2 + (p.y - q.y) ^ 2 + (p.z - q.z) ^ 2)

/-- A 4x4 matrix as a Mathlib matrix. -/
def toMat4 (A : M4) : Matrix (Fin 4) (Fin 4) ℝ :=
  !![A.r0.c0, A.r0.c1, A.r0.c2, A.r0.c3; A.r1.c0, A.r1.c1, A.r1.c2, A.r1.c3;
     A.r2.c0, A.r2.c1, A.r2.c2, A.r2.c3; A.r3.c0, A.r3.c1, A.r3.c2, A.r3.c3]

/-- Homogeneous coordinates of a point. -/
def homogeneous (p : V3) : Fin 4 → ℝ := ![p.x, p.y, p.z, 1]

end Kindr.Spec
