import Mathlib.Algebra.Quaternion
import Mathlib.Analysis.SpecialFunctions.Trigonometric.Inverse
import Verif.Model.Rotation

/-!
# Independent specification of rotations

What a parameterization *means*, in textbook terms, without reference to any kindr or Eigen algorithm:

* a unit quaternion acts by the sandwich product `q v q*` in Mathlib's quaternion algebra,
* a rotation matrix acts by matrix-vector multiplication,
* an angle-axis pair acts by Rodrigues' formula,
* a rotation vector acts as the angle-axis pair (its norm, its direction),
* Euler angles act by elementary rotations about X, Y, Z (intrinsic X-Y'-Z'' and Z-Y'-X'').

Two values *represent the same rotation* iff they act equally on every vector.
-/

set_option autoImplicit false

open Classical

noncomputable section
namespace Kindr.Spec
open Kindr

/-- The quaternion as an element of Mathlib's `ℍ[ℝ]`. -/
def toH (q : Quat) : Quaternion ℝ := ⟨q.w, q.x, q.y, q.z⟩

/-- A vector as a pure quaternion. -/
def pureH (v : V3) : Quaternion ℝ := ⟨0, v.x, v.y, v.z⟩

/-- Sandwich product `q v q*`. -/
def sandwich (q : Quat) (v : V3) : V3 :=
  let r := toH q * pureH v * star (toH q)
  ⟨r.imI, r.imJ, r.imK⟩

/-- Rodrigues' rotation formula: rotate `v` by the angle `θ` about the unit axis `n`. -/
def rodrigues (θ : ℝ) (n v : V3) : V3 :=
  Real.cos θ • v + Real.sin θ • n.cross v + ((1 - Real.cos θ) * n.dot v) • n

/-- Elementary rotation about the x axis. -/
def rotX (a : ℝ) (v : V3) : V3 :=
  ⟨v.x, Real.cos a * v.y - Real.sin a * v.z, Real.sin a * v.y + Real.cos a * v.z⟩
/-- Elementary rotation about the y axis. -/
def rotY (a : ℝ) (v : V3) : V3 :=
  ⟨Real.cos a * v.x + Real.sin a * v.z, v.y, -Real.sin a * v.x + Real.cos a * v.z⟩
/-- Elementary rotation about the z axis. -/
def rotZ (a : ℝ) (v : V3) : V3 :=
  ⟨Real.cos a * v.x - Real.sin a * v.y, Real.sin a * v.x + Real.cos a * v.y, v.z⟩

/-- The rotation a value stands for, as a map on vectors. -/
def act : (k : Kind) → Rep k → V3 → V3
  | .quat => fun q v => sandwich q v
  | .mat => fun m v => M3.mulVec m v
  | .aa => fun a v => rodrigues (AngAx.angle a) (AngAx.axis a) v
  | .rv => fun r v =>
      if (RotVec.v r).norm = 0 then v
      else rodrigues (RotVec.v r).norm ((1 / (RotVec.v r).norm) • RotVec.v r) v
  | .xyz => fun e v => rotX (EulXyz.x e) (rotY (EulXyz.y e) (rotZ (EulXyz.z e) v))
  | .zyx => fun e v => rotZ (EulZyx.z e) (rotY (EulZyx.y e) (rotX (EulZyx.x e) v))

/-- The value satisfies the invariant of its class: unit quaternion, proper orthogonal matrix, unit axis.
Rotation vectors and Euler angles are unconstrained. -/
def Valid : (k : Kind) → Rep k → Prop
  | .quat => fun q => Quat.w q ^ 2 + Quat.x q ^ 2 + Quat.y q ^ 2 + Quat.z q ^ 2 = 1
  | .mat => fun m => m * M3.transpose m = 1 ∧ M3.det m = 1
  | .aa => fun a => (AngAx.axis a).x ^ 2 + (AngAx.axis a).y ^ 2 + (AngAx.axis a).z ^ 2 = 1
  | .rv => fun _ => True
  | .xyz => fun _ => True
  | .zyx => fun _ => True

/-- `a` and `b` represent the same rotation. -/
def SameRot {k₁ k₂ : Kind} (a : Rep k₁) (b : Rep k₂) : Prop := ∀ v, act k₁ a v = act k₂ b v

/-- The rotation matrix of a value: its columns are the images of the basis vectors. -/
def den (k : Kind) (r : Rep k) : M3 :=
  let a := act k r ⟨1, 0, 0⟩
  let b := act k r ⟨0, 1, 0⟩
  let c := act k r ⟨0, 0, 1⟩
  ⟨a.x, b.x, c.x, a.y, b.y, c.y, a.z, b.z, c.z⟩

/-- Proper orthogonal 3x3 matrices, `SO(3)`. -/
def IsSO3 (m : M3) : Prop := m * m.transpose = 1 ∧ m.det = 1

/-- The rotation angle in `[0,π]` of a rotation matrix: `tr m = 1 + 2 cos θ`. -/
def rotAngle (m : M3) : ℝ := Real.arccos ((m.trace - 1) / 2)

/-- Threshold below which (for `P = double`: 3.7e-9, i.e. rotation angles below 1.3e-4 rad) `sin²(θ/2)` counts as
"small" for some small-angle branch of a conversion from or to a rotation vector. -/
def smallThreshold (P : Prec) : ℝ := max P.dp ((P.eps ^ (1 / 4 : ℝ)) ^ 2 / 4)

/-- The rotation `m` is not a *tiny nonzero* rotation: it is the identity, or `sin²(θ/2) = (3 - tr m)/4` for its
rotation angle `θ` is at least the small-angle threshold. -/
def Clear (P : Prec) (m : M3) : Prop := m = 1 ∨ smallThreshold P ≤ (3 - m.trace) / 4

/-- The inputs on which a conversion does *not* use a small-angle approximation.  Only conversions from a rotation
vector, and from a quaternion or a matrix to a rotation vector, contain one; there the rotation must be the exact
zero rotation or exceed the threshold of the scalar type (`eps^(1/4)`, `dp` for the length of the rotation vector,
`dp` for `sin²(θ/2)`).  All other conversions are unconditional. -/
def ExactBranch (P : Prec) : (d s : Kind) → Rep s → Prop
  | .rv, .rv => fun _ => True
  | .aa, .rv => fun r => (RotVec.v r) = 0 ∨ P.dp ≤ (RotVec.v r).norm
  | .xyz, .rv => fun r => (RotVec.v r) = 0 ∨ P.dp ≤ (RotVec.v r).norm
  | _, .rv => fun r => (RotVec.v r) = 0 ∨ P.eps ^ (1 / 4 : ℝ) ≤ (RotVec.v r).norm
  | .rv, .quat => fun q => den .quat q = 1 ∨ P.dp ≤ (3 - (den .quat q).trace) / 4
  | .rv, .mat => fun m => m = 1 ∨ P.dp ≤ (3 - M3.trace m) / 4
  | _, _ => fun _ => True

/-- Side condition for operations on values of class `k`: it only says something for rotation vectors, whose
rotation `m` must not be a tiny nonzero one. -/
def RvClear (P : Prec) (k : Kind) (m : M3) : Prop := k = .rv → Clear P m

end Kindr.Spec
