import Mathlib.Algebra.Order.Floor.Ring
import Mathlib.Analysis.SpecialFunctions.Trigonometric.Inverse
import Mathlib.Analysis.Calculus.Deriv.Basic
import Verif.Model.Eigen
import Verif.Model.Math

/-!
# The Matlab library of kindr (matlab/core, matlab/utils/dMATdt.m, matlab/finite_differences/numerical_jacobian.m)

Function by function.  Scalars are exact reals (simplification: no rounding); `isa(.., 'sym')` is the Boolean parameter
`sym`; `simplify` is the identity on values.  Results that Matlab reports as `NaN`/`Inf` (division by zero) are `none`.
Matlab indices start at 1: `C(2,3)` is `m12`, `angles(1)` is the first coefficient.  Vectors are columns, so `v(:)` is `v`.
-/

set_option autoImplicit false

open Classical

noncomputable section
namespace Kindr.Matlab

/-- Matlab's `eps`, the distance from 1 to the next double (matlab/core/getRotationMatrixX.m:7). -/
def eps : ℝ := 1 / 2 ^ 52

/-- Matlab's `round` (ties away from zero), matlab/core/getRotationMatrixX.m:7. -/
def round (x : ℝ) : ℝ := if 0 ≤ x then (⌊x + 1 / 2⌋ : ℝ) else -(⌊-x + 1 / 2⌋ : ℝ)

/-- `if abs(c - round(c)) < eps, c = round(c); end`, skipped for symbolic input;
matlab/core/getRotationMatrixX.m:6-14, getRotationMatrixY.m:6-14, getRotationMatrixZ.m:6-14. -/
def snap (sym : Bool) (c : ℝ) : ℝ :=
  if sym then c else if |c - round c| < eps then round c else c

/-- `getRotationMatrixX(gamma)`, matlab/core/getRotationMatrixX.m:1-20. -/
def getRotationMatrixX (sym : Bool) (gamma : ℝ) : M3 :=
  let c := snap sym (Real.cos gamma)
  let s := snap sym (Real.sin gamma)
  ⟨1, 0, 0,
   0, c, -s,
   0, s, c⟩

/-- `getRotationMatrixY(beta)`, matlab/core/getRotationMatrixY.m:1-20. -/
def getRotationMatrixY (sym : Bool) (beta : ℝ) : M3 :=
  let c := snap sym (Real.cos beta)
  let s := snap sym (Real.sin beta)
  ⟨c, 0, s,
   0, 1, 0,
   -s, 0, c⟩

/-- `getRotationMatrixZ(alpha)`, matlab/core/getRotationMatrixZ.m:1-20. -/
def getRotationMatrixZ (sym : Bool) (alpha : ℝ) : M3 :=
  let c := snap sym (Real.cos alpha)
  let s := snap sym (Real.sin alpha)
  ⟨c, -s, 0,
   s, c, 0,
   0, 0, 1⟩

/-- `mapEulerAnglesXYZToRotationMatrix(angles)`, matlab/core/mapEulerAnglesXYZToRotationMatrix.m:1-19. -/
def mapEulerAnglesXYZToRotationMatrix (sym : Bool) (angles : V3) : M3 :=
  getRotationMatrixX sym angles.x * getRotationMatrixY sym angles.y * getRotationMatrixZ sym angles.z

/-- `mapEulerAnglesZYXToRotationMatrix(angles)`, matlab/core/mapEulerAnglesZYXToRotationMatrix.m:1-19
(`angles = [z y x]`). -/
def mapEulerAnglesZYXToRotationMatrix (sym : Bool) (angles : V3) : M3 :=
  getRotationMatrixZ sym angles.x * getRotationMatrixY sym angles.y * getRotationMatrixX sym angles.z

/-- `mapEulerAnglesZYZToRotationMatrix(angles)`, matlab/core/mapEulerAnglesZYZToRotationMatrix.m:1-18
(`angles = [z1 y z2]`). -/
def mapEulerAnglesZYZToRotationMatrix (sym : Bool) (angles : V3) : M3 :=
  getRotationMatrixZ sym angles.x * getRotationMatrixY sym angles.y * getRotationMatrixZ sym angles.z

/-- `mapEulerAnglesZXZToRotationMatrix(angles)`, matlab/core/mapEulerAnglesZXZToRotationMatrix.m:1-18
(`angles = [z1 x z2]`). -/
def mapEulerAnglesZXZToRotationMatrix (sym : Bool) (angles : V3) : M3 :=
  getRotationMatrixZ sym angles.x * getRotationMatrixX sym angles.y * getRotationMatrixZ sym angles.z

/-- `getEulAngXYZFromRotationMatrix(C)`, matlab/core/getEulAngXYZFromRotationMatrix.m:1-11. -/
def getEulAngXYZFromRotationMatrix (C : M3) : V3 :=
  let x := atan2 (-C.m12) C.m22
  let y := atan2 C.m02 (Real.sqrt (C.m00 ^ 2 + C.m01 ^ 2))
  let z := atan2 (-C.m01) C.m00
  ⟨x, y, z⟩

/-- `getEulAngZYXFromRotationMatrix(C)`, matlab/core/getEulAngZYXFromRotationMatrix.m:1-11. -/
def getEulAngZYXFromRotationMatrix (C : M3) : V3 :=
  let z := atan2 C.m10 C.m00
  let y := atan2 (-C.m20) (Real.sqrt (C.m21 ^ 2 + C.m22 ^ 2))
  let x := atan2 C.m21 C.m22
  ⟨z, y, x⟩

/-- `getEulAngZYZFromRotationMatrix(C)`, matlab/core/getEulAngZYZFromRotationMatrix.m:1-11. -/
def getEulAngZYZFromRotationMatrix (C : M3) : V3 :=
  let z1 := atan2 C.m12 C.m02
  let y := atan2 (Real.sqrt (C.m02 ^ 2 + C.m12 ^ 2)) C.m22
  let z2 := atan2 C.m21 (-C.m20)
  ⟨z1, y, z2⟩

/-- `getEulAngZXZFromRotationMatrix(C)`, matlab/core/getEulAngZXZFromRotationMatrix.m:1-11. -/
def getEulAngZXZFromRotationMatrix (C : M3) : V3 :=
  let z1 := atan2 C.m02 (-C.m12)
  let x := atan2 (Real.sqrt (C.m02 ^ 2 + C.m12 ^ 2)) C.m22
  let z2 := atan2 C.m20 C.m21
  ⟨z1, x, z2⟩

/-- `getMapEulAngZYXDiffToAngVelInWorldFrame(angles)`, matlab/core/getMapEulAngZYXDiffToAngVelInWorldFrame.m:1-23. -/
def getMapEulAngZYXDiffToAngVelInWorldFrame (angles : V3) : M3 :=
  let z := angles.x
  let y := angles.y
  ⟨0, -Real.sin z, Real.cos y * Real.cos z,
   0, Real.cos z, Real.cos y * Real.sin z,
   1, 0, -Real.sin y⟩

/-- `getMapEulAngZYZDiffToAngVelInWorldFrame(angles)`, matlab/core/getMapEulAngZYZDiffToAngVelInWorldFrame.m:1-23. -/
def getMapEulAngZYZDiffToAngVelInWorldFrame (angles : V3) : M3 :=
  let z := angles.x
  let y := angles.y
  ⟨0, -Real.sin z, Real.cos y * Real.cos z,
   0, Real.cos z, Real.cos y * Real.sin z,
   1, 0, -Real.sin y⟩

/-- `getMapEulAngZXZDiffToAngVelInWorldFrame(angles)`, matlab/core/getMapEulAngZXZDiffToAngVelInWorldFrame.m:1-23. -/
def getMapEulAngZXZDiffToAngVelInWorldFrame (angles : V3) : M3 :=
  let z1 := angles.x
  let x := angles.y
  ⟨0, Real.cos z1, Real.sin x * Real.sin z1,
   0, Real.sin z1, -Real.cos z1 * Real.sin x,
   1, 0, Real.cos x⟩

/-- `getMapEulAngZYXDiffToAngVelInBaseFrame(angles)`, matlab/core/getMapEulAngZYXDiffToAngVelInBaseFrame.m:1-27. -/
def getMapEulAngZYXDiffToAngVelInBaseFrame (sym : Bool) (angles : V3) : M3 :=
  let z := angles.x
  let y := angles.y
  let R_IB := mapEulerAnglesZYXToRotationMatrix sym angles
  R_IB.transpose * ⟨0, -Real.sin z, Real.cos y * Real.cos z,
                    0, Real.cos z, Real.cos y * Real.sin z,
                    1, 0, -Real.sin y⟩

/-- `skew(v)`, matlab/core/skew.m:1-10. -/
def skew (v : V3) : M3 :=
  ⟨0, -v.z, v.y,
   v.z, 0, -v.x,
   -v.y, v.x, 0⟩

/-- `unskew(S)`, matlab/core/unskew.m:1-8. -/
def unskew (S : M3) : V3 := ⟨S.m21, S.m02, S.m10⟩

/-- `getMapEulAngZYXDDiffToAngAccInWorldFrame(angles, dAngles)`,
matlab/core/getMapEulAngZYXDDiffToAngAccInWorldFrame.m:1-30. -/
def getMapEulAngZYXDDiffToAngAccInWorldFrame (angles dAngles : V3) : M3 :=
  let z := angles.x
  let y := angles.y
  let dz := dAngles.x
  let dy := dAngles.y
  ⟨0, -dz * Real.cos z, -dy * Real.cos z * Real.sin y - dz * Real.cos y * Real.sin z,
   0, -dz * Real.sin z, dz * Real.cos y * Real.cos z - dy * Real.sin y * Real.sin z,
   0, 0, -dy * Real.cos y⟩

/-- `getMapEulAngZYXDDiffToAngAccInBaseFrame(angles, dAngles, I_w_IB)`,
matlab/core/getMapEulAngZYXDDiffToAngAccInBaseFrame.m:1-37. -/
def getMapEulAngZYXDDiffToAngAccInBaseFrame (sym : Bool) (angles dAngles I_w_IB : V3) : M3 :=
  let z := angles.x
  let y := angles.y
  let dz := dAngles.x
  let dy := dAngles.y
  let R_IB := mapEulerAnglesZYXToRotationMatrix sym angles
  let dR_IB := skew I_w_IB * R_IB
  let E := getMapEulAngZYXDiffToAngVelInWorldFrame angles
  let dE : M3 := ⟨0, -dz * Real.cos z, -dy * Real.cos z * Real.sin y - dz * Real.cos y * Real.sin z,
                  0, -dz * Real.sin z, dz * Real.cos y * Real.cos z - dy * Real.sin y * Real.sin z,
                  0, 0, -dy * Real.cos y⟩
  dR_IB * E + R_IB * dE

/-- The determinant and orthonormality tests of `isRotationMatrix(C)` for a 3x3 input, matlab/core/isRotationMatrix.m:1-30
(the size test cannot fail for this type; the message string is not modelled).  `norm` of a matrix is the spectral norm, here
a parameter `norm2` with its defining property stated in `Spec.IsSpectralNorm`. -/
def isRotationMatrix (norm2 : M3 → ℝ) (C : M3) : Bool :=
  let res := true
  let res := if C.det - 1 > 1 / 10 ^ 10 then false else res
  let res := if norm2 (C * C.transpose - 1) > 1 / 10 ^ 10 then false else res
  res

/-- `getAngleAxisFromRotationMatrix(C)`, matlab/core/getAngleAxisFromRotationMatrix.m:1-12.  `none` where Matlab produces a
division by zero (`sin(th) = 0`) or a complex angle (argument of `acos` outside `[-1, 1]`). -/
def getAngleAxisFromRotationMatrix (C : M3) : Option (ℝ × V3) :=
  let a := 1 / 2 * (C.m00 + C.m11 + C.m22 - 1)
  let th := Real.arccos a
  if a < -1 ∨ 1 < a ∨ Real.sin th = 0 then none
  else
    let n := (1 / (2 * Real.sin th)) • (⟨C.m21 - C.m12, C.m02 - C.m20, C.m10 - C.m01⟩ : V3)
    some (th, n)

/-- `mapAngleAxisToQuaternion(th, r)`, matlab/core/mapAngleAxisToQuaternion.m:1-13. -/
def mapAngleAxisToQuaternion (th : ℝ) (r : V3) : Quat :=
  let q0 := Real.cos (th / 2)
  let qv := Real.sin (th / 2) • r
  ⟨q0, qv.x, qv.y, qv.z⟩

/-- `mapRotationMatrixToQuaternion(C)`, matlab/core/mapRotationMatrixToQuaternion.m:1-10. -/
def mapRotationMatrixToQuaternion (C : M3) : Option Quat :=
  (getAngleAxisFromRotationMatrix C).map fun p => mapAngleAxisToQuaternion p.1 p.2

/-- The outer product `a*b'` of two column vectors (matlab/core/mapQuaternionToRotationMatrix.m:13). -/
def outer (a b : V3) : M3 :=
  ⟨a.x * b.x, a.x * b.y, a.x * b.z,
   a.y * b.x, a.y * b.y, a.y * b.z,
   a.z * b.x, a.z * b.y, a.z * b.z⟩

/-- `mapQuaternionToRotationMatrix(q)`, matlab/core/mapQuaternionToRotationMatrix.m:1-15. -/
def mapQuaternionToRotationMatrix (q : Quat) : M3 :=
  let q0 := q.w
  let qv : V3 := ⟨q.x, q.y, q.z⟩
  let sQv := skew qv
  (2 * q0 ^ 2 - 1) • (1 : M3) + (2 * q0) • sQv + (2 : ℝ) • outer qv qv

/-- `rotateVectorUsingQuaternion(q_AB, B_r)`, matlab/core/rotateVectorUsingQuaternion.m:1-16. -/
def rotateVectorUsingQuaternion (q_AB : Quat) (B_r : V3) : V3 :=
  let q0 := q_AB.w
  let qv : V3 := ⟨q_AB.x, q_AB.y, q_AB.z⟩
  let sQv := skew qv
  (2 * q0 ^ 2 - 1) • B_r + ((2 * q0) • sQv).mulVec B_r + (qv.dot B_r) • ((2 : ℝ) • qv)

/-- `mapRotationQuaternionToRotationVector(q)`, matlab/core/mapRotationQuaternionToRotationVector.m:1-20. -/
def mapRotationQuaternionToRotationVector (q : Quat) : V3 :=
  let th := q.w
  let n : V3 := ⟨q.x, q.y, q.z⟩
  if n.norm < eps then
    if th > 0 then (2 : ℝ) • n else (-2 : ℝ) • n
  else (2 * atan2 n.norm th / n.norm) • n

/-- `mapRotationVectorToRotationMatrix(phi)`, matlab/core/mapRotationVectorToRotationMatrix.m:1-22. -/
def mapRotationVectorToRotationMatrix (phi : V3) : M3 :=
  let th := phi.norm
  if |th| < eps then 1 + skew phi
  else 1 + (Real.sin th / th) • skew phi + ((1 - Real.cos th) / th ^ 2) • (skew phi * skew phi)

/-- `mapRotationMatrixToRotationVector(C)`, matlab/core/mapRotationMatrixToRotationVector.m:1-12; Matlab's `logm` is a parameter
with the contract `Spec.IsLogm`. -/
def mapRotationMatrixToRotationVector (logm : M3 → M3) (C : M3) : V3 := unskew (logm C)

/-- `boxMinus(C1, C2)`, matlab/core/boxMinus.m:1-9. -/
def boxMinus (logm : M3 → M3) (C1 C2 : M3) : V3 := unskew (logm (C1 * C2.transpose))

/-- `boxPlus(C, delta)`, matlab/core/boxPlus.m:1-9; Matlab's `expm` is a parameter with the contract `Spec.IsExpm`. -/
def boxPlus (expm : M3 → M3) (C : M3) (delta : V3) : M3 := expm (skew delta) * C

/-- Matlab's symbolic `jacobian(f, x)` of a scalar expression: the row of partial derivatives
(matlab/core/getTimeDerivative.m:20, matlab/utils/dMATdt.m:28). -/
def jacobian {p : ℕ} (f : (Fin p → ℝ) → ℝ) (x : Fin p → ℝ) : Fin p → ℝ :=
  fun j => deriv (fun s => f (Function.update x j s)) (x j)

/-- `getTimeDerivative(A, x, dx)`, matlab/core/getTimeDerivative.m:1-29, and `dMATdt(A, q, dq)`, matlab/utils/dMATdt.m:23-31
(the same double loop): `A` is a matrix of expressions in `x`, evaluated at the point `x`.  The `(k, h)` double loop that fills
the zero-initialised result is a nested fold over the row and column indices. -/
def getTimeDerivative {m n p : ℕ} (A : (Fin p → ℝ) → Fin m → Fin n → ℝ) (x dx : Fin p → ℝ) : Fin m → Fin n → ℝ :=
  (List.finRange m).foldl (fun dAdt k =>
    (List.finRange n).foldl (fun dAdt h =>
      Function.update dAdt k (Function.update (dAdt k) h (∑ j, jacobian (fun y => A y k h) x j * dx j))) dAdt) (fun _ _ => 0)

/-- One pass of the loop of `numerical_jacobian`, matlab/finite_differences/numerical_jacobian.m:22-31: the state is the
perturbation vector `dx` and the Jacobian filled so far. -/
def numericalJacobianStep {m n : ℕ} (f : (Fin n → ℝ) → Fin m → ℝ) (x0 : Fin n → ℝ) (delta : ℝ)
    (s : (Fin n → ℝ) × (Fin m → Fin n → ℝ)) (k : Fin n) : (Fin n → ℝ) × (Fin m → Fin n → ℝ) :=
  let dx := Function.update s.1 k delta
  let col := fun i => (f (x0 + dx) i - f (x0 - dx) i) / (2 * delta)
  let dfdx := fun i => Function.update (s.2 i) k (col i)
  let dx := Function.update dx k 0
  (dx, dfdx)

/-- `numerical_jacobian(fcn, t0, x0, delta)`, matlab/finite_differences/numerical_jacobian.m:1-33. -/
def numericalJacobian {m n : ℕ} (fcn : ℝ → (Fin n → ℝ) → Fin m → ℝ) (t0 : ℝ) (x0 : Fin n → ℝ) (delta : ℝ) :
    Fin m → Fin n → ℝ :=
  ((List.finRange n).foldl (numericalJacobianStep (fcn t0) x0 delta) (fun _ => 0, fun _ _ => 0)).2

/-- The default `delta` of `numerical_jacobian`, matlab/finite_differences/numerical_jacobian.m:14-16. -/
def defaultDelta : ℝ := 1 / 10 ^ 5

end Kindr.Matlab
