import Mathlib.Analysis.Normed.Algebra.MatrixExponential
import Mathlib.LinearAlgebra.Matrix.NonsingularInverse
import Mathlib.LinearAlgebra.Matrix.Trace
import Verif.Spec.Matrix

/-!
# Programs over rotation variables, and the machine they should implement

A program is a list of commands on numbered variables; variable `i` is declared with the rotation class `cls i`.  Every command
is one line of user code.

* `run` executes the commands with the library (the model functions `conv`, `mult`, `inverted`, …).
* `runIdeal` executes them on Mathlib matrices: a variable holds a 3x3 matrix, products and inverses are matrix products and
  inverses, exponential maps are matrix exponentials.  It knows nothing of classes, conversions or branches.

Both return the list of values the program printed.
-/

set_option autoImplicit false

open Classical

noncomputable section
namespace Kindr.Spec
open Kindr

/-- One line of user code.  `d`, `s`, `a`, `b` are variables. -/
inductive Cmd
  /-- `d = s;` or `d = D(s);` (any two classes) -/
  | assign (d s : ℕ)
  /-- `d = a * b;` -/
  | mul (d a b : ℕ)
  /-- `d = a.inverted();` -/
  | inv (d a : ℕ)
  /-- `d.setIdentity();` -/
  | setIdentity (d : ℕ)
  /-- `d = D::exponentialMap(w);` -/
  | exp (d : ℕ) (w : V3)
  /-- `d = a.boxPlus(w);` -/
  | boxPlus (d a : ℕ) (w : V3)
  /-- `d.setUnique();` -/
  | setUnique (d : ℕ)
  /-- `print(a.rotate(v));` -/
  | rotate (a : ℕ) (v : V3)
  /-- `print(a.inverseRotate(v));` -/
  | inverseRotate (a : ℕ) (v : V3)
  /-- `print(a.getDisparityAngle(b));` -/
  | disparity (a b : ℕ)
  /-- `print(a.isNear(b, tol));` -/
  | isNear (a b : ℕ) (tol : ℝ)

/-- A printed value. -/
inductive Out
  | vec (v : Fin 3 → ℝ)
  | num (x : ℝ)
  | bool (b : Prop)

/-- A vector as a Mathlib vector. -/
def toVec (v : V3) : Fin 3 → ℝ := ![v.x, v.y, v.z]

/-- One command, executed by the library. -/
def step (P : Prec) (cls : ℕ → Kind) (σ : (i : ℕ) → Rep (cls i)) : Cmd → ((i : ℕ) → Rep (cls i)) × List Out
  | .assign d s => (Function.update σ d (conv P (cls d) (cls s) (σ s)), [])
  | .mul d a b => (Function.update σ d (conv P (cls d) (cls a) (mult P (cls a) (cls b) (σ a) (σ b))), [])
  | .inv d a => (Function.update σ d (conv P (cls d) (cls a) (inverted (cls a) (σ a))), [])
  | .setIdentity d => (Function.update σ d (identity (cls d)), [])
  | .exp d w => (Function.update σ d (exponentialMap P (cls d) w), [])
  | .boxPlus d a w => (Function.update σ d (conv P (cls d) (cls a) (Kindr.boxPlus P (cls a) (σ a) w)), [])
  | .setUnique d => (Function.update σ d (getUnique P (cls d) (σ d)), [])
  | .rotate a v => (σ, [.vec (toVec (Kindr.rotate P (cls a) (σ a) v))])
  | .inverseRotate a v => (σ, [.vec (toVec (Kindr.inverseRotate P (cls a) (σ a) v))])
  | .disparity a b => (σ, [.num (disparityAngle P (cls a) (cls b) (σ a) (σ b))])
  | .isNear a b tol => (σ, [.bool (Kindr.isNear P (cls a) (cls b) (σ a) (σ b) tol = true)])

/-- A whole program, executed by the library: the final variables and everything printed, in order. -/
def run (P : Prec) (cls : ℕ → Kind) : ((i : ℕ) → Rep (cls i)) → List Cmd → ((i : ℕ) → Rep (cls i)) × List Out
  | σ, [] => (σ, [])
  | σ, c :: p => ((run P cls (step P cls σ c).1 p).1, (step P cls σ c).2 ++ (run P cls (step P cls σ c).1 p).2)

/-- The ideal store. -/
abbrev Store := ℕ → Matrix (Fin 3) (Fin 3) ℝ

/-- The rotation angle of a rotation matrix. -/
def angleOf (A : Matrix (Fin 3) (Fin 3) ℝ) : ℝ := Real.arccos ((A.trace - 1) / 2)

/-- One command on the ideal store. -/
def idealStep (S : Store) : Cmd → Store × List Out
  | .assign d s => (Function.update S d (S s), [])
  | .mul d a b => (Function.update S d (S a * S b), [])
  | .inv d a => (Function.update S d (S a)⁻¹, [])
  | .setIdentity d => (Function.update S d 1, [])
  | .exp d w => (Function.update S d (NormedSpace.exp (crossMatrix w)), [])
  | .boxPlus d a w => (Function.update S d (NormedSpace.exp (crossMatrix w) * S a), [])
  | .setUnique _ => (S, [])
  | .rotate a v => (S, [.vec ((S a).mulVec (toVec v))])
  | .inverseRotate a v => (S, [.vec ((S a)⁻¹.mulVec (toVec v))])
  | .disparity a b => (S, [.num (angleOf (S a * (S b)⁻¹))])
  | .isNear a b tol => (S, [.bool (angleOf (S a * (S b)⁻¹) ≤ tol)])

/-- A whole program on the ideal store. -/
def runIdeal : Store → List Cmd → Store × List Out
  | S, [] => (S, [])
  | S, c :: p => ((runIdeal (idealStep S c).1 p).1, (idealStep S c).2 ++ (runIdeal (idealStep S c).1 p).2)

/-- Not a tiny nonzero rotation (cf. `Clear`). -/
def Tame (P : Prec) (A : Matrix (Fin 3) (Fin 3) ℝ) : Prop := A = 1 ∨ smallThreshold P ≤ (3 - A.trace) / 4

/-- The side condition of a command, a condition on the *ideal* values only: values that pass through a rotation vector must
not be tiny nonzero rotations, and `setUnique()` is not used on Euler angles (where it does not preserve the rotation: C17,
C18).  For programs without rotation vectors it only concerns `exp`, `boxPlus` and `setUnique`. -/
def CmdOk (P : Prec) (cls : ℕ → Kind) (S : Store) : Cmd → Prop
  | .assign d s => cls d = .rv ∨ cls s = .rv → Tame P (S s)
  | .mul d a b => (cls a = .rv → Tame P (S a)) ∧ (cls b = .rv → Tame P (S b)) ∧
      (cls d = .rv ∨ cls a = .rv → Tame P (S a * S b))
  | .inv d a => cls d = .rv ∨ cls a = .rv → Tame P (S a)
  | .setIdentity _ => True
  | .exp _ w => Tame P (NormedSpace.exp (crossMatrix w))
  | .boxPlus d a w => Tame P (NormedSpace.exp (crossMatrix w)) ∧ (cls a = .rv → Tame P (S a)) ∧
      (cls d = .rv ∨ cls a = .rv → Tame P (NormedSpace.exp (crossMatrix w) * S a))
  | .setUnique d => cls d ≠ .xyz ∧ cls d ≠ .zyx ∧ (cls d = .rv → Tame P (S d))
  | .rotate a _ => cls a = .rv → Tame P (S a)
  | .inverseRotate a _ => cls a = .rv → Tame P (S a)
  | .disparity a b => (cls a = .rv → Tame P (S a) ∧ Tame P (S a * (S b)⁻¹)) ∧ (cls b = .rv → Tame P (S b))
  | .isNear a b _ => (cls a = .rv → Tame P (S a) ∧ Tame P (S a * (S b)⁻¹)) ∧ (cls b = .rv → Tame P (S b))

/-- Every command of the program meets its side condition when it is reached. -/
def ProgramOk (P : Prec) (cls : ℕ → Kind) : Store → List Cmd → Prop
  | _, [] => True
  | S, c :: p => CmdOk P cls S c ∧ ProgramOk P cls (idealStep S c).1 p

end Kindr.Spec
