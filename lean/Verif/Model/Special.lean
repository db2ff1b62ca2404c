import Verif.Model.Rotation

/-!
# NaN, infinities and overflow

The main model computes with real numbers.  Here the comparison helpers, the debug checks and the path
conversion → `getUnique()` → `logarithmicMap()` / `boxMinus` / `==` are modelled once more on values that may also be
infinite or NaN, following IEEE 754.  Rounding and overflow are an arbitrary function (`XArith.rnd`).
Simplifications: the sign of zero is not modelled (a nonzero number divided by a zero gives an infinity with the sign of the
numerator), and literal constants (`1e-15`, `M_PI`, ...) are exact.
-/

set_option autoImplicit false

open Classical

noncomputable section
namespace Kindr

/-- A value of type `PrimType_` (`double`, `float`): finite, infinite or NaN
(`template<typename PrimType_>`, include/kindr/rotations/RotationQuaternion.hpp:56-58). -/
inductive XR where
  | fin (x : ℝ)
  | inf (neg : Bool)
  | nan

namespace XR
/-- `std::isfinite`, include/kindr/common/assert_macros_eigen.hpp:154. -/
def IsFinite : XR → Prop
  | fin _ => True
  | _ => False
/-- Unary minus. -/
def neg : XR → XR
  | fin x => fin (-x)
  | inf b => inf (!b)
  | nan => nan
/-- `std::abs`, include/kindr/common/assert_macros_eigen.hpp:43. -/
def abs : XR → XR
  | fin x => fin |x|
  | inf _ => inf false
  | nan => nan
/-- `a < b`; false if one side is NaN. -/
def lt : XR → XR → Prop
  | fin x, fin y => x < y
  | fin _, inf b => b = false
  | inf b, fin _ => b = true
  | inf b, inf c => b = true ∧ c = false
  | _, _ => False
/-- `a == b`; false if one side is NaN. -/
def eq : XR → XR → Prop
  | fin x, fin y => x = y
  | inf b, inf c => b = c
  | _, _ => False
/-- `a <= b`; false if one side is NaN. -/
def le (a b : XR) : Prop := lt a b ∨ eq a b
/-- `std::max(a, b)`: `(a < b) ? b : a`, include/kindr/common/assert_macros_eigen.hpp:44. -/
def max (a b : XR) : XR := if lt a b then b else a
/-- `std::floor`, include/kindr/common/common.hpp:54. -/
def floor : XR → XR
  | fin x => fin ⌊x⌋
  | x => x
end XR

/-- The rounding of the elementary operations: `rnd x` is what an operation with exact real result `x` returns; it may
overflow to an infinity, but is not NaN, zero is exact and a nonnegative number does not become negative. -/
structure XArith where
  rnd : ℝ → XR
  rnd_zero : rnd 0 = .fin 0
  rnd_ne_nan : ∀ x, rnd x ≠ .nan
  rnd_nonneg : ∀ x, 0 ≤ x → ¬ (rnd x).lt (.fin 0)

/-- Exact arithmetic (no rounding, no overflow): the arithmetic of the main model. -/
def XArith.exact : XArith := ⟨XR.fin, rfl, fun _ h => (nomatch h), fun _ h => not_lt.mpr h⟩

/-- Exact arithmetic with overflow at `Ω`. -/
def XArith.overflowing (Ω : ℝ) (h : 0 < Ω) : XArith where
  rnd x := if Ω ≤ |x| then .inf (decide (x < 0)) else .fin x
  rnd_zero := by simp [h]
  rnd_ne_nan x := by split_ifs <;> simp
  rnd_nonneg x hx := by
    split_ifs
    · simp [XR.lt, hx]
    · exact not_lt.mpr hx

namespace XArith
variable (A : XArith)

/-- `a + b` (IEEE 754). -/
def add : XR → XR → XR
  | .fin x, .fin y => A.rnd (x + y)
  | .fin _, .inf b => .inf b
  | .inf b, .fin _ => .inf b
  | .inf b, .inf c => if b = c then .inf b else .nan
  | _, _ => .nan
/-- `a - b` (IEEE 754). -/
def sub (a b : XR) : XR := A.add a b.neg
/-- `a * b` (IEEE 754). -/
def mul : XR → XR → XR
  | .fin x, .fin y => A.rnd (x * y)
  | .fin x, .inf b => if x = 0 then .nan else .inf (xor b (decide (x < 0)))
  | .inf b, .fin y => if y = 0 then .nan else .inf (xor b (decide (y < 0)))
  | .inf b, .inf c => .inf (xor b c)
  | _, _ => .nan
/-- `a / b` (IEEE 754, the sign of a zero divisor taken positive). -/
def div : XR → XR → XR
  | .fin x, .fin y => if y = 0 then (if x = 0 then .nan else .inf (decide (x < 0))) else A.rnd (x / y)
  | .fin _, .inf _ => .fin 0
  | .inf b, .fin y => .inf (xor b (decide (y < 0)))
  | .inf _, .inf _ => .nan
  | _, _ => .nan
/-- `std::sqrt`. -/
def sqrt : XR → XR
  | .fin x => if x < 0 then .nan else A.rnd (Real.sqrt x)
  | .inf b => if b then .nan else .inf false
  | .nan => .nan
/-- `std::sin`: NaN for infinite arguments. -/
def sin : XR → XR
  | .fin x => A.rnd (Real.sin x)
  | _ => .nan
/-- `std::cos`: NaN for infinite arguments. -/
def cos : XR → XR
  | .fin x => A.rnd (Real.cos x)
  | _ => .nan
/-- `std::atan2(y, x)` with the limits at infinity of C99 F.9.1.4; NaN if one argument is NaN. -/
def atan2 : XR → XR → XR
  | .fin y, .fin x => A.rnd (Kindr.atan2 y x)
  | .fin y, .inf b => A.rnd (if b then (if y < 0 then -Real.pi else Real.pi) else 0)
  | .inf c, .fin _ => A.rnd (if c then -(Real.pi / 2) else Real.pi / 2)
  | .inf c, .inf b => A.rnd ((if c then -1 else 1) * (if b then 3 * Real.pi / 4 else Real.pi / 4))
  | _, _ => .nan

/-! ## Comparison helpers and debug checks -/

/-- `compareRelative(a, b, percentTolerance)`, include/kindr/common/assert_macros_eigen.hpp:48-68. -/
def compareRelative (a b percentTolerance : XR) : Bool :=
  let fa := a.abs
  let fb := b.abs
  let z := XR.fin (1 / 10 ^ 15)
  let s := XR.fin (1 / 10 ^ 6)
  if (fa.lt z ∧ fb.lt z) ∨ (fa.eq (.fin 0) ∧ fb.lt s) ∨ (fb.eq (.fin 0) ∧ fa.lt s) then true
  else
    let diff := A.div (A.sub a b).abs (fa.max fb)
    if (A.mul percentTolerance (.fin (1 / 100))).lt diff then false else true

/-- `KINDR_ASSERT_SCALAR_NEAR_DBG` in a debug build, include/kindr/common/assert_macros_eigen.hpp:131-141. -/
def assertScalarNearDbg {α : Type} (a b tol : XR) (k : Res α) : Res α :=
  if A.compareRelative a b tol = true then k else .throws

/-- `floatingPointModulo(x, y)`, include/kindr/common/common.hpp:46-85. -/
def floatingPointModulo (x y : XR) : XR :=
  if y.eq (.fin 0) then x
  else
    let m := A.sub x (A.mul y (A.div x y).floor)
    if XR.lt (.fin 0) y then
      if y.le m then .fin 0
      else if m.lt (.fin 0) then (if (A.add y m).eq y then .fin 0 else A.add y m)
      else m
    else
      if m.le y then .fin 0
      else if XR.lt (.fin 0) m then (if (A.add y m).eq y then .fin 0 else A.add y m)
      else m

/-- `wrapPosNegPI(angle)`, include/kindr/common/common.hpp:96-99. -/
def wrapPosNegPI (a : XR) : XR :=
  A.sub (A.floatingPointModulo (A.add a (.fin Real.pi)) (.fin (2 * Real.pi))) (.fin Real.pi)

end XArith

/-! ## Rotations -/

/-- Three coefficients: an Eigen 3-vector, a `RotationVector`
(include/kindr/rotations/RotationVector.hpp:58-62), or stored Euler angles. -/
@[ext] structure XV3 where
  x : XR
  y : XR
  z : XR

/-- `Eigen::Quaternion`, include/kindr/rotations/RotationQuaternion.hpp:59-63. -/
@[ext] structure XQuat where
  w : XR
  x : XR
  y : XR
  z : XR

/-- `Eigen::AngleAxis`, include/kindr/rotations/AngleAxis.hpp:58-62. -/
@[ext] structure XAA where
  angle : XR
  axis : XV3

/-- `Eigen::Matrix3`, include/kindr/rotations/RotationMatrix.hpp:53-57. -/
@[ext] structure XM3 where
  m00 : XR
  m01 : XR
  m02 : XR
  m10 : XR
  m11 : XR
  m12 : XR
  m20 : XR
  m21 : XR
  m22 : XR

/-- The storage of each rotation class (compare `Rep`). -/
@[reducible] def XRep : Kind → Type
  | .quat => XQuat
  | .mat => XM3
  | .aa => XAA
  | .rv => XV3
  | .xyz => XV3
  | .zyx => XV3

/-- The vector part of a quaternion. -/
def XQuat.vec (q : XQuat) : XV3 := ⟨q.x, q.y, q.z⟩
/-- Negation of all coefficients. -/
def XQuat.neg (q : XQuat) : XQuat := ⟨q.w.neg, q.x.neg, q.y.neg, q.z.neg⟩
/-- Negation of all coefficients. -/
def XV3.neg (v : XV3) : XV3 := ⟨v.x.neg, v.y.neg, v.z.neg⟩

namespace XArith
variable (A : XArith)

/-- Eigen `v.squaredNorm()` (Eigen's unrolled reduction of three terms adds the last two first). -/
def normSq3 (v : XV3) : XR := A.add (A.mul v.x v.x) (A.add (A.mul v.y v.y) (A.mul v.z v.z))
/-- Eigen `v.norm()`. -/
def norm3 (v : XV3) : XR := A.sqrt (A.normSq3 v)
/-- Eigen `v / n`. -/
def divV (v : XV3) (n : XR) : XV3 := ⟨A.div v.x n, A.div v.y n, A.div v.z n⟩
/-- Eigen `s * v`. -/
def smulV (s : XR) (v : XV3) : XV3 := ⟨A.mul s v.x, A.mul s v.y, A.mul s v.z⟩
/-- Eigen `v.normalized()`: unchanged unless the squared norm is positive. -/
def normalized (v : XV3) : XV3 := if XR.lt (.fin 0) (A.normSq3 v) then A.divV v (A.norm3 v) else v

/-- `q.norm()`, include/kindr/quaternions/Quaternion.hpp:212-214. -/
def quatNorm (q : XQuat) : XR :=
  A.sqrt (A.add (A.add (A.add (A.mul q.w q.w) (A.mul q.x q.x)) (A.mul q.y q.y)) (A.mul q.z q.z))

/-- Eigen quaternion product, include/kindr/rotations/RotationImpl.hpp:79-82. -/
def quatMul (a b : XQuat) : XQuat :=
  ⟨A.sub (A.sub (A.sub (A.mul a.w b.w) (A.mul a.x b.x)) (A.mul a.y b.y)) (A.mul a.z b.z),
   A.sub (A.add (A.add (A.mul a.w b.x) (A.mul a.x b.w)) (A.mul a.y b.z)) (A.mul a.z b.y),
   A.sub (A.add (A.add (A.mul a.w b.y) (A.mul a.y b.w)) (A.mul a.z b.x)) (A.mul a.x b.z),
   A.sub (A.add (A.add (A.mul a.w b.z) (A.mul a.z b.w)) (A.mul a.x b.y)) (A.mul a.y b.x)⟩

/-- Debug-build constructor of `RotationQuaternion`, include/kindr/rotations/RotationQuaternion.hpp:94-130. -/
def quatCtorDbg (q : XQuat) : Res XQuat :=
  A.assertScalarNearDbg (A.quatNorm q) (.fin 1) (.fin (1 / 100)) (.ok q)

/-- Debug-build constructor of `AngleAxis`, include/kindr/rotations/AngleAxis.hpp:92-127. -/
def aaCtorDbg (a : XAA) : Res XAA :=
  A.assertScalarNearDbg (A.norm3 a.axis) (.fin 1) (.fin (1 / 10000)) (.ok a)

/-- Inner product of two 3-vectors as Eigen computes a coefficient of a matrix product. -/
def dot3 (a b : XV3) : XR := A.add (A.add (A.mul a.x b.x) (A.mul a.y b.y)) (A.mul a.z b.z)

/-- Rows of a matrix. -/
def row (m : XM3) : Fin 3 → XV3
  | 0 => ⟨m.m00, m.m01, m.m02⟩
  | 1 => ⟨m.m10, m.m11, m.m12⟩
  | 2 => ⟨m.m20, m.m21, m.m22⟩

/-- Eigen `m.determinant()` for 3x3 (`bruteforce_det3_helper`), include/kindr/rotations/RotationMatrix.hpp:108. -/
def det (m : XM3) : XR :=
  let h (a b c d e : XR) := A.mul a (A.sub (A.mul b c) (A.mul d e))
  A.add (A.sub (h m.m00 m.m11 m.m22 m.m12 m.m21) (h m.m01 m.m10 m.m22 m.m12 m.m20)) (h m.m02 m.m10 m.m21 m.m11 m.m20)

/-- Debug-build constructor of `RotationMatrix`, include/kindr/rotations/RotationMatrix.hpp:87-109. -/
def matCtorDbg (m : XM3) : Res XM3 :=
  if ∀ i j : Fin 3, A.compareRelative (A.dot3 (row m i) (row m j)) (if i = j then .fin 1 else .fin 0) (.fin (1 / 10000))
      = true then
    A.assertScalarNearDbg (A.det m) (.fin 1) (.fin (1 / 10000)) (.ok m)
  else .throws

/-- Eigen `Quaternion(AngleAxis)`, include/kindr/rotations/RotationQuaternion.hpp:495-501. -/
def quatOfAa (a : XAA) : XQuat :=
  let ha := A.mul (.fin (1 / 2)) a.angle
  ⟨A.cos ha, A.mul (A.sin ha) a.axis.x, A.mul (A.sin ha) a.axis.y, A.mul (A.sin ha) a.axis.z⟩

/-- Eigen `Quaternion(Matrix3)`, include/kindr/rotations/RotationQuaternion.hpp:559-565 (compare `Quat.ofMatrix`). -/
def quatOfMat (m : XM3) : XQuat :=
  let tr := A.add (A.add m.m00 m.m11) m.m22
  if XR.lt (.fin 0) tr then
    let t := A.sqrt (A.add tr (.fin 1))
    let s := A.div (.fin (1 / 2)) t
    ⟨A.mul (.fin (1 / 2)) t, A.mul (A.sub m.m21 m.m12) s, A.mul (A.sub m.m02 m.m20) s, A.mul (A.sub m.m10 m.m01) s⟩
  else
    -- the two stages in which Eigen picks the largest diagonal entry
    let i2 := fun (_ : Unit) =>
      let t := A.sqrt (A.add (A.sub (A.sub m.m22 m.m00) m.m11) (.fin 1))
      let s := A.div (.fin (1 / 2)) t
      (⟨A.mul (A.sub m.m10 m.m01) s, A.mul (A.add m.m02 m.m20) s, A.mul (A.add m.m12 m.m21) s,
        A.mul (.fin (1 / 2)) t⟩ : XQuat)
    if m.m00.lt m.m11 then
      if m.m11.lt m.m22 then i2 ()
      else
        let t := A.sqrt (A.add (A.sub (A.sub m.m11 m.m22) m.m00) (.fin 1))
        let s := A.div (.fin (1 / 2)) t
        ⟨A.mul (A.sub m.m02 m.m20) s, A.mul (A.add m.m01 m.m10) s, A.mul (.fin (1 / 2)) t, A.mul (A.add m.m21 m.m12) s⟩
    else
      if m.m00.lt m.m22 then i2 ()
      else
        let t := A.sqrt (A.add (A.sub (A.sub m.m00 m.m11) m.m22) (.fin 1))
        let s := A.div (.fin (1 / 2)) t
        ⟨A.mul (A.sub m.m21 m.m12) s, A.mul (.fin (1 / 2)) t, A.mul (A.add m.m10 m.m01) s, A.mul (A.add m.m20 m.m02) s⟩

/-- `ConversionTraits<AngleAxis, RotationQuaternion>` (Eigen), include/kindr/rotations/AngleAxis.hpp:382-389
(compare `AngAx.ofQuat`; Eigen's fallback to `stableNorm()` for tiny vector parts returns the same value and is not
modelled). -/
def aaOfQuat (q : XQuat) : XAA :=
  let n := A.norm3 q.vec
  if ¬ n.eq (.fin 0) then
    let angle := A.mul (.fin 2) (A.atan2 n q.w.abs)
    let n := if q.w.lt (.fin 0) then n.neg else n
    ⟨angle, A.divV q.vec n⟩
  else ⟨.fin 0, ⟨.fin 1, .fin 0, .fin 0⟩⟩

/-- The coordinate axes as angle-axis rotations, include/kindr/rotations/RotationQuaternion.hpp:572-574. -/
def aboutX (a : XR) : XAA := ⟨a, ⟨.fin 1, .fin 0, .fin 0⟩⟩
/-- See `aboutX`. -/
def aboutY (a : XR) : XAA := ⟨a, ⟨.fin 0, .fin 1, .fin 0⟩⟩
/-- See `aboutX`. -/
def aboutZ (a : XR) : XAA := ⟨a, ⟨.fin 0, .fin 0, .fin 1⟩⟩

/-- Product of three coordinate rotations as a quaternion: `ConversionTraits<AngleAxis, EulerAngles..>`,
include/kindr/rotations/AngleAxis.hpp:401-423. -/
def quatOfThree (a b c : XAA) : XQuat := A.quatMul (A.quatMul (A.quatOfAa a) (A.quatOfAa b)) (A.quatOfAa c)

/-- `ConversionTraits<AngleAxis, RotationVector>`, include/kindr/rotations/AngleAxis.hpp:364-380. -/
def aaOfRv (P : Prec) (r : XV3) : XAA :=
  let norm := A.norm3 r
  if norm.lt (.fin P.dp) then ⟨.fin 0, ⟨.fin 1, .fin 0, .fin 0⟩⟩ else ⟨norm, A.normalized r⟩

/-- `ConversionTraits<RotationVector, AngleAxis>`, include/kindr/rotations/RotationVector.hpp:313-320. -/
def rvOfAa (a : XAA) : XV3 := A.smulV a.angle a.axis

/-- `ConversionTraits<RotationVector, RotationQuaternion>`, include/kindr/rotations/RotationVector.hpp:323-344. -/
def rvOfQuat (P : Prec) (q : XQuat) : XV3 :=
  if (A.sub (.fin 1) (A.mul q.w q.w)).lt (.fin P.dp) then
    if XR.lt (.fin 0) q.w then A.smulV (.fin 2) q.vec else A.smulV (.fin (-2)) q.vec
  else
    let n := A.norm3 q.vec
    A.smulV (A.div (A.mul (.fin 2) (A.atan2 n q.w)) n) q.vec

/-- `RotationVector(rotation)` for every source class, include/kindr/rotations/RotationVector.hpp:305-363. -/
def rvOf (P : Prec) : (k : Kind) → XRep k → XV3
  | .quat => A.rvOfQuat P
  | .mat => fun m => A.rvOfQuat P (A.quatOfMat m)
  | .aa => A.rvOfAa
  | .rv => fun r => r
  | .xyz => fun e => A.rvOfAa (A.aaOfQuat (A.quatOfThree (aboutX e.x) (aboutY e.y) (aboutZ e.z)))
  | .zyx => fun e => A.rvOfAa (A.aaOfQuat (A.quatOfThree (aboutZ e.x) (aboutY e.y) (aboutX e.z)))

/-- `AngleAxis::getUnique()`, include/kindr/rotations/AngleAxis.hpp:259-299. -/
def aaGetUnique (a : XAA) : XAA :=
  let angle := A.wrapPosNegPI a.angle
  let axis := a.axis
  let zero := XR.fin 0
  if zero.lt angle then ⟨angle, axis⟩
  else if angle.lt zero then
    if ¬ angle.eq (.fin (-Real.pi)) then ⟨angle.neg, axis.neg⟩
    else if axis.x.lt zero then ⟨angle.neg, axis.neg⟩
    else if zero.lt axis.x then ⟨angle.neg, axis⟩
    else if axis.y.lt zero then ⟨angle.neg, axis.neg⟩
    else if zero.lt axis.y then ⟨angle.neg, axis⟩
    else if axis.z.lt zero then ⟨angle.neg, axis.neg⟩
    else ⟨angle.neg, axis⟩
  else ⟨.fin 0, ⟨.fin 1, .fin 0, .fin 0⟩⟩

/-- `RotationVector::getUnique()`, include/kindr/rotations/RotationVector.hpp:244-248. -/
def rvGetUnique (P : Prec) (r : XV3) : XV3 := A.rvOfAa (A.aaGetUnique (A.aaOfRv P r))

/-- `RotationQuaternion::getUnique()`, include/kindr/rotations/RotationQuaternion.hpp:340-367. -/
def quatGetUnique (q : XQuat) : XQuat :=
  let zero := XR.fin 0
  if zero.lt q.w then q
  else if q.w.lt zero then q.neg
  else if zero.lt q.x then q
  else if q.x.lt zero then q.neg
  else if zero.lt q.y then q
  else if q.y.lt zero then q.neg
  else if zero.lt q.z then q
  else q.neg

/-- `logarithmicMap()`, include/kindr/rotations/RotationImpl.hpp:149-152. -/
def logarithmicMap (P : Prec) (k : Kind) (r : XRep k) : XV3 := A.rvGetUnique P (A.rvOf P k r)

/-- `inverted()` of a quaternion: the conjugate, include/kindr/rotations/RotationQuaternion.hpp:291-301. -/
def quatInverted (q : XQuat) : XQuat := ⟨q.w, q.x.neg, q.y.neg, q.z.neg⟩

/-- `boxMinus` of two quaternions, include/kindr/rotations/RotationImpl.hpp:164-167. -/
def boxMinusQuat (P : Prec) (a b : XQuat) : XV3 := A.logarithmicMap P .quat (A.quatMul a (quatInverted b))

/-- `getDisparityAngle` of two quaternions, include/kindr/rotations/RotationImpl.hpp:220-223. -/
def disparityAngleQuat (a b : XQuat) : XR :=
  (A.sub (A.floatingPointModulo (A.add (A.aaOfQuat (A.quatMul a (quatInverted b))).angle (.fin Real.pi))
    (.fin (2 * Real.pi))) (.fin Real.pi)).abs

/-- `isNear` of two quaternions, include/kindr/rotations/RotationBase.hpp:292-295. -/
def isNearQuat (a b : XQuat) (tol : XR) : Bool := decide ((A.disparityAngleQuat a b).le tol)

/-- `operator==` of two rotation vectors, include/kindr/rotations/RotationBase.hpp:263-265,
include/kindr/rotations/RotationImpl.hpp:130-134. -/
def rvEq (P : Prec) (a b : XV3) : Bool :=
  let u := A.rvGetUnique P a
  let v := A.rvGetUnique P b
  decide (u.x.eq v.x ∧ u.y.eq v.y ∧ u.z.eq v.z)

/-- `operator==` of two `AngleAxis`, include/kindr/rotations/RotationBase.hpp:263-265,
include/kindr/rotations/AngleAxis.hpp:437-448. -/
def aaEq (a b : XAA) : Bool :=
  let u := A.aaGetUnique a
  let v := A.aaGetUnique b
  let t := XR.fin (1 / 100)
  A.compareRelative u.angle v.angle t && A.compareRelative u.axis.x v.axis.x t &&
  A.compareRelative u.axis.y v.axis.y t && A.compareRelative u.axis.z v.axis.z t

/-- `operator==` of two quaternions, include/kindr/rotations/RotationBase.hpp:263-265,
include/kindr/rotations/RotationQuaternion.hpp:601-608. -/
def quatEq (a b : XQuat) : Bool :=
  let u := quatGetUnique a
  let v := quatGetUnique b
  decide (u.w.eq v.w ∧ u.x.eq v.x ∧ u.y.eq v.y ∧ u.z.eq v.z)

/-- `dot` of two vectors of any dimension (Eigen, summed in order), include/kindr/vectors/Vector.hpp:528-531. -/
def dotN {n : ℕ} (a b : Fin n → XR) : XR := (List.finRange n).foldl (fun s i => A.add s (A.mul (a i) (b i))) (.fin 0)

/-- `Vector::projectOn(other)`, include/kindr/vectors/Vector.hpp:553-556. -/
def projectOn {n : ℕ} (a b : Fin n → XR) : Fin n → XR := fun i => A.mul (b i) (A.div (A.dotN a b) (A.dotN b b))

end XArith

/-! ## Assertion macros -/

/-- `KINDR_ASSERT_TRUE(cond)`, include/kindr/common/assert_macros.hpp:103-109: throws unless the condition holds. -/
def assertTrue (c : Prop) : Res Unit := if ¬ c then .throws else .ok ()
/-- `KINDR_ASSERT_FALSE(cond)`, include/kindr/common/assert_macros.hpp:111-117. -/
def assertFalse (c : Prop) : Res Unit := if c then .throws else .ok ()
/-- `KINDR_ASSERT_GE_LT(value, lowerBound, upperBound)`, include/kindr/common/assert_macros.hpp:121-127. -/
def assertGeLt (v l u : XR) : Res Unit := if v.lt l ∨ u.le v then .throws else .ok ()
/-- `KINDR_ASSERT_LT(value, upperBound)`, include/kindr/common/assert_macros.hpp:131-137. -/
def assertLt (v u : XR) : Res Unit := if u.le v then .throws else .ok ()
/-- `KINDR_ASSERT_GE(value, lowerBound)`, include/kindr/common/assert_macros.hpp:139-145. -/
def assertGe (v l : XR) : Res Unit := if v.lt l then .throws else .ok ()
/-- `KINDR_ASSERT_LE(value, upperBound)`, include/kindr/common/assert_macros.hpp:149-155. -/
def assertLe (v u : XR) : Res Unit := if u.lt v then .throws else .ok ()
/-- `KINDR_ASSERT_GT(value, lowerBound)`, include/kindr/common/assert_macros.hpp:157-163. -/
def assertGt (v l : XR) : Res Unit := if v.le l then .throws else .ok ()
/-- `KINDR_ASSERT_EQ(value, testValue)`, include/kindr/common/assert_macros.hpp:167-173. -/
def assertEq (v t : XR) : Res Unit := if ¬ v.eq t then .throws else .ok ()
/-- `KINDR_ASSERT_NE(value, testValue)`, include/kindr/common/assert_macros.hpp:175-181. -/
def assertNe (v t : XR) : Res Unit := if v.eq t then .throws else .ok ()
/-- `KINDR_ASSERT_NEAR(value, testValue, abs_error)`, include/kindr/common/assert_macros.hpp:183-189. -/
def assertNear (A : XArith) (v t e : XR) : Res Unit := if ¬ (A.sub t v).abs.le e.abs then .throws else .ok ()

/-! ## Matrix checks: loops over all coefficients -/

/-- A dynamic matrix of any size, `Eigen::Matrix<Scalar, Dynamic, Dynamic>`: `m(r, c)` for `r < rows`, `c < cols`. -/
structure DynMat (α : Type) where
  rows : ℕ
  cols : ℕ
  coeff : ℕ → ℕ → α

/-- The inner loop `for (c = c0; c < cols; c++)` with `fuel = cols - c0` iterations left: the first coefficient of row `r`
that fails the test, include/kindr/common/gtest_eigen.hpp:66-70. -/
def loopCols (ok : ℕ → ℕ → Bool) (r : ℕ) : (c0 fuel : ℕ) → Option (ℕ × ℕ)
  | _, 0 => none
  | c0, fuel + 1 => if ok r c0 then loopCols ok r (c0 + 1) fuel else some (r, c0)

/-- The outer loop `for (r = r0; r < rows; r++)`, include/kindr/common/gtest_eigen.hpp:64-71. -/
def loopRows (ok : ℕ → ℕ → Bool) (cols : ℕ) : (r0 fuel : ℕ) → Option (ℕ × ℕ)
  | _, 0 => none
  | r0, fuel + 1 =>
    match loopCols ok r0 0 cols with
    | some p => some p
    | none => loopRows ok cols (r0 + 1) fuel

/-- Outcome of a matrix assertion. -/
inductive MatCheck where
  | pass
  | sizeMismatch
  | failAt (r c : ℕ)
  deriving DecidableEq

/-- Size checks, then the two loops; stops at the first failure.  The common structure of
`assertEqual` (include/kindr/common/gtest_eigen.hpp:58-72), `assertNear` (:76-92),
`KINDR_ASSERT_DOUBLE_MX_EQ_ZT` (:123-139), `KINDR_ASSERT_DOUBLE_MX_EQ` (:141-157),
`KINDR_ASSERT_DOUBLE_MX_EQ_ABS_REL` (:160-176), `KINDR_ASSERT_DOUBLE_MX_EQ_PERIODIC` (:178-194) and
`KINDR_ASSERT_MATRIX_NEAR_DBG` (include/kindr/common/assert_macros_eigen.hpp:106-130). -/
def matCheck {α : Type} (ok : α → α → Bool) (a b : DynMat α) : MatCheck :=
  if a.rows ≠ b.rows then .sizeMismatch
  else if a.cols ≠ b.cols then .sizeMismatch
  else match loopRows (fun r c => ok (a.coeff r c) (b.coeff r c)) a.cols 0 a.rows with
    | none => .pass
    | some (r, c) => .failAt r c

/-- `kindr::assertEqual`, include/kindr/common/gtest_eigen.hpp:58-72. -/
def mxAssertEqual (a b : DynMat XR) : MatCheck := matCheck (fun x y => decide (x.eq y)) a b
/-- `kindr::assertNear` (googletest `ASSERT_NEAR`: `fabs(x - y) <= tolerance`),
include/kindr/common/gtest_eigen.hpp:76-92. -/
def mxAssertNear (A : XArith) (tol : XR) (a b : DynMat XR) : MatCheck :=
  matCheck (fun x y => decide ((A.sub x y).abs.le tol)) a b
/-- `KINDR_ASSERT_DOUBLE_MX_EQ`, include/kindr/common/gtest_eigen.hpp:141-157, and `KINDR_ASSERT_MATRIX_NEAR_DBG`,
include/kindr/common/assert_macros_eigen.hpp:106-130. -/
def mxAssertRelative (A : XArith) (tol : XR) (a b : DynMat XR) : MatCheck :=
  matCheck (fun x y => A.compareRelative x y tol) a b
/-- `KINDR_ASSERT_DOUBLE_MX_EQ_ABS_REL(M_TRUE, M_MEAS, ATOL, RTOL)`, include/kindr/common/gtest_eigen.hpp:160-176. -/
def mxAssertAbsRel (A : XArith) (atol rtol : XR) (t m : DynMat XR) : MatCheck :=
  matCheck (fun x y => decide ((A.sub y x).abs.le (A.add (A.mul x.abs rtol) atol))) t m

/-- `calcRotationQuatDisparityAngleToIdentity`, include/kindr/common/gtest_eigen.hpp:39-49. -/
def quatDisparityToIdentity (q : Quat) : ℝ := Real.arccos |q.w| * 2
/-- `calcRotationQuatDisparityAngle` for `RotationQuaternion`, include/kindr/common/gtest_eigen.hpp:51-54. -/
def quatDisparity (q1 q2 : Quat) : ℝ := quatDisparityToIdentity (mult Prec.double .quat .quat (inverted .quat q1) q2)

/-- `KINDR_ASSERT_MAT_IS_FINITE`, include/kindr/common/assert_macros_eigen.hpp:148-162, and `assertFinite`,
include/kindr/common/gtest_eigen.hpp:111-121. -/
def matIsFinite (m : DynMat XR) : Res Unit :=
  match loopRows (fun r c => decide (m.coeff r c).IsFinite) m.cols 0 m.rows with
  | none => .ok ()
  | some _ => .throws

end Kindr
