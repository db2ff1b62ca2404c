import Verif.Model.Special
import Verif.Model.Deriv
import Verif.Model.Pose

/-!
# The whole rotation interface on values that may be infinite or NaN

`Model/Special.lean` covers the path conversion → `getUnique()` → `logarithmicMap()`.  Here the remaining functions are
transcribed on the same values: the complete conversion table, products, inverses, the action on vectors, `getUnique()` of the
Euler angles, disparity angle, exponential map, box operations, interpolation, `setFromVectors`, `fix`, the Euler rate mappings,
the Jacobian of the exponential map and the poses.  A division by zero, a root or power of a negative number and every
operation on such a result behave as in IEEE 754; nothing is given a conventional value.  The simplifications of
`Model/Special.lean` apply.
-/

set_option autoImplicit false

open Classical

noncomputable section
namespace Kindr

/-- Eigen `A.transpose()`, include/kindr/rotations/RotationMatrix.hpp:146. -/
def XM3.transpose (a : XM3) : XM3 := ⟨a.m00, a.m10, a.m20, a.m01, a.m11, a.m21, a.m02, a.m12, a.m22⟩

namespace XArith
variable (A : XArith)

/-- `pow(x, 1.0/3.0)`, include/kindr/rotations/RotationMatrix.hpp:406: NaN for a negative number, `+inf` for both infinities
(C99 F.9.4.4). -/
def powThird : XR → XR
  | .fin x => if x < 0 then .nan else A.rnd (x ^ (1 / 3 : ℝ))
  | .inf _ => .inf false
  | .nan => .nan

/-! ## Vectors and matrices -/

/-- Eigen `a + b`. -/
def addV (a b : XV3) : XV3 := ⟨A.add a.x b.x, A.add a.y b.y, A.add a.z b.z⟩
/-- Eigen `a - b`. -/
def subV (a b : XV3) : XV3 := ⟨A.sub a.x b.x, A.sub a.y b.y, A.sub a.z b.z⟩
/-- Eigen `a.cross(b)`. -/
def crossV (a b : XV3) : XV3 :=
  ⟨A.sub (A.mul a.y b.z) (A.mul a.z b.y), A.sub (A.mul a.z b.x) (A.mul a.x b.z), A.sub (A.mul a.x b.y) (A.mul a.y b.x)⟩
/-- Eigen `m * v`, include/kindr/rotations/RotationImpl.hpp:107-118. -/
def mulVec (m : XM3) (v : XV3) : XV3 := ⟨A.dot3 (row m 0) v, A.dot3 (row m 1) v, A.dot3 (row m 2) v⟩
/-- Eigen `a * b` of two matrices, include/kindr/rotations/RotationMatrix.hpp:373-382. -/
def matMul (a b : XM3) : XM3 :=
  let c := b.transpose
  ⟨A.dot3 (row a 0) (row c 0), A.dot3 (row a 0) (row c 1), A.dot3 (row a 0) (row c 2),
   A.dot3 (row a 1) (row c 0), A.dot3 (row a 1) (row c 1), A.dot3 (row a 1) (row c 2),
   A.dot3 (row a 2) (row c 0), A.dot3 (row a 2) (row c 1), A.dot3 (row a 2) (row c 2)⟩
/-- Eigen `s * m`. -/
def smulM (s : XR) (m : XM3) : XM3 :=
  ⟨A.mul s m.m00, A.mul s m.m01, A.mul s m.m02, A.mul s m.m10, A.mul s m.m11, A.mul s m.m12, A.mul s m.m20, A.mul s m.m21,
   A.mul s m.m22⟩
/-- Eigen `a + b` of two matrices. -/
def addM (a b : XM3) : XM3 :=
  ⟨A.add a.m00 b.m00, A.add a.m01 b.m01, A.add a.m02 b.m02, A.add a.m10 b.m10, A.add a.m11 b.m11, A.add a.m12 b.m12,
   A.add a.m20 b.m20, A.add a.m21 b.m21, A.add a.m22 b.m22⟩

/-! ## Conversions -/

/-- `ConversionTraits<RotationQuaternion, RotationVector>`, include/kindr/rotations/RotationQuaternion.hpp:510-548. -/
def quatOfRv (P : Prec) (r : XV3) : XQuat :=
  let theta := A.norm3 r
  let na := if theta.lt (.fin (P.eps ^ (1 / 4 : ℝ))) then
      A.sub (.fin (1 / 2)) (A.mul (A.mul theta theta) (.fin (1 / 48)))
    else A.div (A.sin (A.mul theta (.fin (1 / 2)))) theta
  let axis := A.smulV na r
  ⟨A.cos (A.mul theta (.fin (1 / 2))), axis.x, axis.y, axis.z⟩

/-- Eigen `Quaternion::toRotationMatrix()`, include/kindr/rotations/RotationMatrix.hpp:329-337. -/
def matOfQuat (q : XQuat) : XM3 :=
  let tx := A.mul (.fin 2) q.x
  let ty := A.mul (.fin 2) q.y
  let tz := A.mul (.fin 2) q.z
  let twx := A.mul tx q.w
  let twy := A.mul ty q.w
  let twz := A.mul tz q.w
  let txx := A.mul tx q.x
  let txy := A.mul ty q.x
  let txz := A.mul tz q.x
  let tyy := A.mul ty q.y
  let tyz := A.mul tz q.y
  let tzz := A.mul tz q.z
  let one := XR.fin 1
  ⟨A.sub one (A.add tyy tzz), A.sub txy twz, A.add txz twy,
   A.add txy twz, A.sub one (A.add txx tzz), A.sub tyz twx,
   A.sub txz twy, A.add tyz twx, A.sub one (A.add txx tyy)⟩

/-- Eigen `AngleAxis::toRotationMatrix()`, include/kindr/rotations/RotationMatrix.hpp:311-319. -/
def matOfAa (a : XAA) : XM3 :=
  let n := a.axis
  let s := A.smulV (A.sin a.angle) n
  let c := A.cos a.angle
  let d := A.smulV (A.sub (.fin 1) c) n
  let t01 := A.mul d.x n.y
  let t02 := A.mul d.x n.z
  let t12 := A.mul d.y n.z
  ⟨A.add (A.mul d.x n.x) c, A.sub t01 s.z, A.add t02 s.y,
   A.add t01 s.z, A.add (A.mul d.y n.y) c, A.sub t12 s.x,
   A.sub t02 s.y, A.add t12 s.x, A.add (A.mul d.z n.z) c⟩

/-- Eigen `eulerAngles(0, 1, 2)`, include/kindr/rotations/EulerAnglesXyz.hpp:513 (compare `eulerAngles012`). -/
def eulerAngles012 (m : XM3) : XV3 :=
  let res0 := A.atan2 m.m12 m.m22
  let c2 := A.sqrt (A.add (A.mul m.m00 m.m00) (A.mul m.m01 m.m01))
  let p := if XR.lt (.fin 0) res0 then
      (if XR.lt (.fin 0) res0 then A.sub res0 (.fin Real.pi) else A.add res0 (.fin Real.pi), A.atan2 m.m02.neg c2.neg)
    else (res0, A.atan2 m.m02.neg c2)
  let s1 := A.sin p.1
  let c1 := A.cos p.1
  let res2 := A.atan2 (A.sub (A.mul s1 m.m20) (A.mul c1 m.m10)) (A.sub (A.mul c1 m.m11) (A.mul s1 m.m21))
  ⟨p.1.neg, p.2.neg, res2.neg⟩

/-- Eigen `eulerAngles(2, 1, 0)`, include/kindr/rotations/EulerAnglesZyx.hpp:563 (compare `eulerAngles210`). -/
def eulerAngles210 (m : XM3) : XV3 :=
  let res0 := A.atan2 m.m10 m.m00
  let c2 := A.sqrt (A.add (A.mul m.m22 m.m22) (A.mul m.m21 m.m21))
  let p := if res0.lt (.fin 0) then
      (if XR.lt (.fin 0) res0 then A.sub res0 (.fin Real.pi) else A.add res0 (.fin Real.pi), A.atan2 m.m20.neg c2.neg)
    else (res0, A.atan2 m.m20.neg c2)
  let s1 := A.sin p.1
  let c1 := A.cos p.1
  let res2 := A.atan2 (A.sub (A.mul s1 m.m02) (A.mul c1 m.m12)) (A.sub (A.mul c1 m.m11) (A.mul s1 m.m01))
  ⟨p.1, p.2, res2⟩

/-- `ConversionTraits<RotationQuaternion, EulerAnglesXyz>`, include/kindr/rotations/RotationQuaternion.hpp:567-576. -/
def quatOfXyz (e : XV3) : XQuat := A.quatOfThree (aboutX e.x) (aboutY e.y) (aboutZ e.z)
/-- `ConversionTraits<RotationQuaternion, EulerAnglesZyx>`, include/kindr/rotations/RotationQuaternion.hpp:578-587 (stored
`[yaw, pitch, roll]`). -/
def quatOfZyx (e : XV3) : XQuat := A.quatOfThree (aboutZ e.x) (aboutY e.y) (aboutX e.z)
/-- `ConversionTraits<EulerAnglesXyz, RotationQuaternion>`, include/kindr/rotations/EulerAnglesXyz.hpp:509-516. -/
def xyzOfQuat (q : XQuat) : XV3 := A.eulerAngles012 (A.matOfQuat q)
/-- `ConversionTraits<EulerAnglesZyx, RotationQuaternion>`, include/kindr/rotations/EulerAnglesZyx.hpp:559-566. -/
def zyxOfQuat (q : XQuat) : XV3 := A.eulerAngles210 (A.matOfQuat q)

/-- `Dest_(source)`: the whole `ConversionTraits` table; for the lines in /repo of the 36 entries see the definitions named in
`Kindr.conv`, whose table this repeats
(e.g. include/kindr/rotations/RotationQuaternion.hpp:495-587). -/
def conv (P : Prec) : (d s : Kind) → XRep s → XRep d
  | .quat, .quat => fun q => q
  | .quat, .mat => A.quatOfMat
  | .quat, .aa => A.quatOfAa
  | .quat, .rv => A.quatOfRv P
  | .quat, .xyz => A.quatOfXyz
  | .quat, .zyx => A.quatOfZyx
  | .mat, .quat => A.matOfQuat
  | .mat, .mat => fun m => m
  | .mat, .aa => A.matOfAa
  | .mat, .rv => fun r => A.matOfQuat (A.quatOfRv P r)
  | .mat, .xyz => fun e => A.matOfQuat (A.quatOfXyz e)
  | .mat, .zyx => fun e => A.matOfQuat (A.quatOfZyx e)
  | .aa, .quat => A.aaOfQuat
  | .aa, .mat => fun m => A.aaOfQuat (A.quatOfMat m)
  | .aa, .aa => fun a => a
  | .aa, .rv => A.aaOfRv P
  | .aa, .xyz => fun e => A.aaOfQuat (A.quatOfXyz e)
  | .aa, .zyx => fun e => A.aaOfQuat (A.quatOfZyx e)
  | .rv, s => A.rvOf P s
  | .xyz, .quat => A.xyzOfQuat
  | .xyz, .mat => fun m => A.xyzOfQuat (A.quatOfMat m)
  | .xyz, .aa => fun a => A.xyzOfQuat (A.quatOfAa a)
  | .xyz, .rv => fun r => A.xyzOfQuat (A.quatOfAa (A.aaOfRv P r))
  | .xyz, .xyz => fun e => e
  | .xyz, .zyx => fun e => A.xyzOfQuat (A.quatOfZyx e)
  | .zyx, .quat => A.zyxOfQuat
  | .zyx, .mat => fun m => A.zyxOfQuat (A.quatOfMat m)
  | .zyx, .aa => fun a => A.zyxOfQuat (A.quatOfAa a)
  | .zyx, .rv => fun r => A.zyxOfQuat (A.quatOfRv P r)
  | .zyx, .xyz => fun e => A.zyxOfQuat (A.quatOfXyz e)
  | .zyx, .zyx => fun e => e

/-! ## Operations -/

/-- Default constructors and `setIdentity()`; lines as in `Kindr.identity`
(e.g. include/kindr/rotations/RotationQuaternion.hpp:83-85). -/
def identity : (k : Kind) → XRep k
  | .quat => (⟨.fin 1, .fin 0, .fin 0, .fin 0⟩ : XQuat)
  | .mat => (⟨.fin 1, .fin 0, .fin 0, .fin 0, .fin 1, .fin 0, .fin 0, .fin 0, .fin 1⟩ : XM3)
  | .aa => (⟨.fin 0, ⟨.fin 1, .fin 0, .fin 0⟩⟩ : XAA)
  | .rv => (⟨.fin 0, .fin 0, .fin 0⟩ : XV3)
  | .xyz => (⟨.fin 0, .fin 0, .fin 0⟩ : XV3)
  | .zyx => (⟨.fin 0, .fin 0, .fin 0⟩ : XV3)

/-- `inverted()`; lines as in `Kindr.inverted` (e.g. include/kindr/rotations/AngleAxis.hpp:159-172). -/
def inverted : (k : Kind) → XRep k → XRep k
  | .quat => quatInverted
  | .mat => XM3.transpose
  | .aa => fun (a : XAA) => (⟨a.angle.neg.neg, a.axis.neg⟩ : XAA)
  | .rv => XV3.neg
  | .xyz => fun e => A.xyzOfQuat (quatInverted (A.quatOfXyz e))
  | .zyx => fun e => A.zyxOfQuat (quatInverted (A.quatOfZyx e))

/-- `operator*`, include/kindr/rotations/RotationImpl.hpp:74-99, include/kindr/rotations/RotationMatrix.hpp:373-382. -/
def mult (P : Prec) : (k₁ k₂ : Kind) → XRep k₁ → XRep k₂ → XRep k₁
  | .mat, .mat => A.matMul
  | k₁, k₂ => fun a b => A.conv P k₁ .quat (A.quatMul (A.conv P .quat k₁ a) (A.conv P .quat k₂ b))

/-- `rotate(v)`, include/kindr/rotations/RotationImpl.hpp:107-118. -/
def rotate (P : Prec) (k : Kind) (r : XRep k) (v : XV3) : XV3 := A.mulVec (A.conv P .mat k r) v

/-- `inverseRotate(v)`, include/kindr/rotations/RotationBase.hpp:325-328. -/
def inverseRotate (P : Prec) (k : Kind) (r : XRep k) (v : XV3) : XV3 := A.rotate P k (A.inverted k r) v

/-- The body of the two Euler `getUnique()` functions, include/kindr/rotations/EulerAnglesXyz.hpp:263-320,
include/kindr/rotations/EulerAnglesZyx.hpp:353-410. -/
def eulerUniqueBody (v : XV3) : XV3 :=
  let x := A.wrapPosNegPI v.x
  let y := A.wrapPosNegPI v.y
  let z := A.wrapPosNegPI v.z
  let lo := -Real.pi / 2
  let hi := Real.pi / 2
  let flip := fun a : XR => if a.lt (.fin 0) then A.add a (.fin Real.pi) else A.sub a (.fin Real.pi)
  if y.lt (.fin (lo - eulerTol)) then ⟨flip x, (A.add y (.fin Real.pi)).neg, flip z⟩
  else if XR.le (.fin (lo - eulerTol)) y ∧ y.le (.fin (lo + eulerTol)) then ⟨A.sub x z, y, .fin 0⟩
  else if XR.lt (.fin (lo + eulerTol)) y ∧ y.lt (.fin (hi - eulerTol)) then ⟨x, y, z⟩
  else if XR.le (.fin (hi - eulerTol)) y ∧ y.le (.fin (hi + eulerTol)) then ⟨A.add x z, y, .fin 0⟩
  else ⟨flip x, (A.sub y (.fin Real.pi)).neg, flip z⟩

/-- `getUnique()` / `setUnique()` for each class; lines as in `Kindr.getUnique`
(e.g. include/kindr/rotations/RotationMatrix.hpp:239-249). -/
def getUnique (P : Prec) : (k : Kind) → XRep k → XRep k
  | .quat => quatGetUnique
  | .mat => fun m => m
  | .aa => A.aaGetUnique
  | .rv => A.rvGetUnique P
  | .xyz => A.eulerUniqueBody
  | .zyx => A.eulerUniqueBody

/-- `getDisparityAngle`, include/kindr/rotations/RotationImpl.hpp:220-223. -/
def disparityAngle (P : Prec) (k₁ k₂ : Kind) (a : XRep k₁) (b : XRep k₂) : XR :=
  (A.wrapPosNegPI (A.conv P .aa k₁ (A.mult P k₁ k₂ a (A.inverted k₂ b)) : XAA).angle).abs

/-- `isNear`, include/kindr/rotations/RotationBase.hpp:292-295. -/
def isNear (P : Prec) (k₁ k₂ : Kind) (a : XRep k₁) (b : XRep k₂) (tol : XR) : Bool :=
  decide ((A.disparityAngle P k₁ k₂ a b).le tol)

/-- `exponentialMap(v)`, include/kindr/rotations/RotationImpl.hpp:144-147. -/
def exponentialMap (P : Prec) (k : Kind) (v : XV3) : XRep k := A.conv P k .rv v

/-- `boxMinus`, include/kindr/rotations/RotationImpl.hpp:163-165. -/
def boxMinus (P : Prec) (k₁ k₂ : Kind) (a : XRep k₁) (b : XRep k₂) : XV3 :=
  A.logarithmicMap P k₁ (A.mult P k₁ k₂ a (A.inverted k₂ b))

/-- `boxPlus`, include/kindr/rotations/RotationImpl.hpp:167-169. -/
def boxPlus (P : Prec) (k : Kind) (a : XRep k) (v : XV3) : XRep k := A.mult P k k (A.exponentialMap P k v) a

/-- `interpolate`, include/kindr/rotations/RotationBase.hpp:366-373. -/
def interpolate (P : Prec) (k₁ k₂ : Kind) (a : XRep k₁) (b : XRep k₂) (ratio : XR) : XRep k₁ :=
  let ratio := if XR.lt (.fin 1) ratio then .fin 1 else if ratio.lt (.fin 0) then .fin 0 else ratio
  A.boxPlus P k₁ a (A.smulV ratio (A.boxMinus P k₂ k₁ b a))

/-- Eigen `Quaternion::setFromTwoVectors` (compare `Kindr.quatFromTwoVectors`; the axis Eigen takes from the SVD is the parameter
`svdAxis`), include/kindr/rotations/RotationImpl.hpp:186. -/
def quatFromTwoVectors (dp : ℝ) (svdAxis : XV3 → XV3 → XV3) (a b : XV3) : XQuat :=
  let v0 := A.normalized a
  let v1 := A.normalized b
  let c := A.dot3 v1 v0
  if c.lt (.fin (-1 + dp)) then
    let c := XR.max c (.fin (-1))
    let axis := svdAxis v0 v1
    let w2 := A.mul (A.add (.fin 1) c) (.fin (1 / 2))
    let s := A.sqrt (A.sub (.fin 1) w2)
    ⟨A.sqrt w2, A.mul axis.x s, A.mul axis.y s, A.mul axis.z s⟩
  else
    let axis := A.crossV v0 v1
    let s := A.sqrt (A.mul (A.add (.fin 1) c) (.fin 2))
    let invs := A.div (.fin 1) s
    ⟨A.mul s (.fin (1 / 2)), A.mul axis.x invs, A.mul axis.y invs, A.mul axis.z invs⟩

/-- `setFromVectors(v1, v2)`, include/kindr/rotations/RotationImpl.hpp:179-201. -/
def setFromVectors (P : Prec) (dpE : ℝ) (svdAxis : XV3 → XV3 → XV3) (k : Kind) (v1 v2 : XV3) : Res (XRep k) :=
  if ¬ (A.mul (A.norm3 v1) (A.norm3 v2)).eq (.fin 0) then .ok (A.conv P k .quat (A.quatFromTwoVectors dpE svdAxis v1 v2))
  else .throws

/-- Eigen `q.normalized()`, include/kindr/rotations/RotationQuaternion.hpp:613-619. -/
def quatFix (q : XQuat) : XQuat :=
  let n2 := A.add (A.add (A.add (A.mul q.w q.w) (A.mul q.x q.x)) (A.mul q.y q.y)) (A.mul q.z q.z)
  if XR.lt (.fin 0) n2 then
    let n := A.quatNorm q
    ⟨A.div q.w n, A.div q.x n, A.div q.y n, A.div q.z n⟩
  else q

/-- `fix()`: include/kindr/rotations/RotationMatrix.hpp:401-417, include/kindr/rotations/AngleAxis.hpp:452-459,
include/kindr/rotations/RotationQuaternion.hpp:613-619, include/kindr/rotations/RotationBase.hpp:127-132. -/
def fix : (k : Kind) → XRep k → XRep k
  | .quat => A.quatFix
  | .mat => fun (m : XM3) => A.smulM (A.div (.fin 1) (A.powThird (A.det m))) m
  | .aa => fun (a : XAA) => (⟨a.angle, A.normalized a.axis⟩ : XAA)
  | .rv => fun r => r
  | .xyz => fun e => e
  | .zyx => fun e => e

/-! ## Rates -/

/-- `EulerAnglesXyz::getMappingFromDiffToLocalAngularVelocity()`, include/kindr/rotations/EulerAnglesXyz.hpp:330-349. -/
def xyzDiffToLocal (e : XV3) : XM3 :=
  let t2 := A.cos e.y
  let t3 := A.sin e.z
  let t4 := A.cos e.z
  ⟨A.mul t2 t4, t3, .fin 0, A.mul t2.neg t3, t4, .fin 0, A.sin e.y, .fin 0, .fin 1⟩

/-- `EulerAnglesXyz::getMappingFromLocalAngularVelocityToDiff()`, include/kindr/rotations/EulerAnglesXyz.hpp:351-374. -/
def xyzLocalToDiff (e : XV3) : Res XM3 :=
  let t2 := A.cos e.y
  if ¬ t2.eq (.fin 0) then
    let t3 := A.div (.fin 1) t2
    let t4 := A.sin e.z
    let t5 := A.cos e.z
    let t6 := A.sin e.y
    .ok ⟨A.mul t3 t5, A.mul t3.neg t4, .fin 0, t4, t5, .fin 0, A.mul (A.mul t3.neg t5) t6, A.mul (A.mul t3 t4) t6, .fin 1⟩
  else .throws

/-- `EulerAnglesXyz::getMappingFromGlobalAngularVelocityToDiff()`, include/kindr/rotations/EulerAnglesXyz.hpp:376-397. -/
def xyzGlobalToDiff (e : XV3) : Res XM3 :=
  let t2 := A.cos e.y
  if ¬ t2.eq (.fin 0) then
    let t3 := A.div (.fin 1) t2
    let t4 := A.sin e.y
    let t5 := A.cos e.x
    let t6 := A.sin e.x
    .ok ⟨.fin 1, A.mul (A.mul t3 t4) t6, A.mul (A.mul t3.neg t4) t5, .fin 0, t5, t6, .fin 0, A.mul t3.neg t6, A.mul t3 t5⟩
  else .throws

/-- `EulerAnglesXyz::getMappingFromDiffToGlobalAngularVelocity()`, include/kindr/rotations/EulerAnglesXyz.hpp:400-417. -/
def xyzDiffToGlobal (e : XV3) : XM3 :=
  let t2 := A.sin e.x
  let t3 := A.cos e.x
  let t4 := A.cos e.y
  ⟨.fin 1, .fin 0, A.sin e.y, .fin 0, t3, A.mul t2.neg t4, .fin 0, t2, A.mul t3 t4⟩

/-- `EulerAnglesZyx::getMappingFromDiffToLocalAngularVelocity()`, include/kindr/rotations/EulerAnglesZyx.hpp:421-438 (stored
`[yaw, pitch, roll]`). -/
def zyxDiffToLocal (e : XV3) : XM3 :=
  let t2 := A.cos e.z
  let t3 := A.cos e.y
  let t4 := A.sin e.z
  ⟨(A.sin e.y).neg, .fin 0, .fin 1, A.mul t3 t4, t2, .fin 0, A.mul t2 t3, t4.neg, .fin 0⟩

/-- `EulerAnglesZyx::getMappingFromLocalAngularVelocityToDiff()`, include/kindr/rotations/EulerAnglesZyx.hpp:440-461: the
reciprocal is computed before the check. -/
def zyxLocalToDiff (e : XV3) : Res XM3 :=
  let t2 := A.cos e.y
  let t3 := A.div (.fin 1) t2
  if ¬ t2.eq (.fin 0) then
    let t4 := A.cos e.z
    let t5 := A.sin e.z
    let t6 := A.sin e.y
    .ok ⟨.fin 0, A.mul t3 t5, A.mul t3 t4, .fin 0, t4, t5.neg, .fin 1, A.mul (A.mul t3 t5) t6, A.mul (A.mul t3 t4) t6⟩
  else .throws

/-- `getMappingFromLocalAngularVelocityToSecondDiff(rotation)`, include/kindr/rotations/EulerAnglesXyzDiff.hpp:239-265. -/
def xyzLocalToSecondDiff (d e : XV3) : Res XM3 :=
  let dy := d.y
  let dz := d.z
  let t2 := A.cos e.y
  if ¬ t2.eq (.fin 0) then
    let t3 := A.div (.fin 1) t2
    let t4 := A.cos e.z
    let t5 := A.div (.fin 1) (A.mul t2 t2)
    let t6 := A.sin e.y
    let t7 := A.sin e.z
    let t8 := A.mul t6 t6
    .ok ⟨A.add (A.mul (A.mul dz.neg t3) t7) (A.mul (A.mul (A.mul dy t4) t5) t6),
         A.sub (A.mul (A.mul dz.neg t3) t4) (A.mul (A.mul (A.mul dy t5) t6) t7), .fin 0,
         A.mul dz t4, A.mul dz.neg t7, .fin 0,
         A.add (A.mul dy.neg (A.add t4 (A.mul (A.mul t4 t5) t8))) (A.mul (A.mul (A.mul dz t3) t6) t7),
         A.add (A.mul dy (A.add t7 (A.mul (A.mul t5 t7) t8))) (A.mul (A.mul (A.mul dz t3) t4) t6), .fin 0⟩
  else .throws

/-- `getMappingFromGlobalAngularVelocityToSecondDiff(rotation)`, include/kindr/rotations/EulerAnglesXyzDiff.hpp:289-315. -/
def xyzGlobalToSecondDiff (d e : XV3) : Res XM3 :=
  let dx := d.x
  let dy := d.y
  let t2 := A.sin e.x
  let t3 := A.sin e.y
  let t4 := A.cos e.y
  let t5 := A.cos e.x
  if ¬ t4.eq (.fin 0) then
    let t6 := A.div (.fin 1) (A.mul t4 t4)
    let t7 := A.mul t3 t3
    let t8 := A.div (.fin 1) t4
    .ok ⟨.fin 0,
         A.add (A.mul dy (A.add t2 (A.mul (A.mul t2 t6) t7))) (A.mul (A.mul (A.mul dx t3) t5) t8),
         A.add (A.mul dy.neg (A.add t5 (A.mul (A.mul t5 t6) t7))) (A.mul (A.mul (A.mul dx t2) t3) t8),
         .fin 0, A.mul dx.neg t2, A.mul dx t5,
         .fin 0,
         A.sub (A.mul (A.mul dx.neg t5) t8) (A.mul (A.mul (A.mul dy t2) t3) t6),
         A.add (A.mul (A.mul dx.neg t2) t8) (A.mul (A.mul (A.mul dy t3) t5) t6)⟩
  else .throws

/-- `getMappingFromSecondDiffToLocalAngularVelocity(rotation)`, include/kindr/rotations/EulerAnglesXyzDiff.hpp:267-287. -/
def xyzSecondDiffToLocal (d e : XV3) : XM3 :=
  let dy := d.y
  let dz := d.z
  let t2 := A.cos e.z
  let t3 := A.cos e.y
  let t4 := A.sin e.y
  let t5 := A.sin e.z
  ⟨A.sub (A.mul (A.mul dy.neg t2) t4) (A.mul (A.mul dz t3) t5), A.mul dz t2, .fin 0,
   A.sub (A.mul (A.mul dy t4) t5) (A.mul (A.mul dz t2) t3), A.mul dz.neg t5, .fin 0, A.mul dy t3, .fin 0, .fin 0⟩

/-- `getMappingFromSecondDiffToGlobalAngularVelocity(rotation)`, include/kindr/rotations/EulerAnglesXyzDiff.hpp:317-337. -/
def xyzSecondDiffToGlobal (d e : XV3) : XM3 :=
  let dx := d.x
  let dy := d.y
  let t2 := A.cos e.y
  let t3 := A.sin e.x
  let t4 := A.cos e.x
  let t5 := A.sin e.y
  ⟨.fin 0, .fin 0, A.mul dy t2, .fin 0, A.mul dx.neg t3, A.add (A.mul (A.mul dx.neg t2) t4) (A.mul (A.mul dy t3) t5),
   .fin 0, A.mul dx t4, A.sub (A.mul (A.mul dx.neg t2) t3) (A.mul (A.mul dy t4) t5)⟩

/-- `getSkewMatrixFromVector`, include/kindr/math/LinearAlgebra.hpp:41-45. -/
def skew (v : XV3) : XM3 := ⟨.fin 0, v.z.neg, v.y, v.z, .fin 0, v.x.neg, v.y.neg, v.x, .fin 0⟩

/-- `getJacobianOfExponentialMap(vector)`, include/kindr/rotations/RotationDiff.hpp:83-91. -/
def getJacobianOfExponentialMap (v : XV3) : XM3 :=
  let norm := A.norm3 v
  let s := skew v
  if norm.lt (.fin (1 / 10000)) then A.addM (identity .mat) (A.smulM (.fin (1 / 2)) s)
  else A.addM (A.addM (identity .mat) (A.smulM (A.div (A.sub (.fin 1) (A.cos norm)) (A.mul norm norm)) s))
    (A.smulM (A.div (A.sub norm (A.sin norm)) (A.mul (A.mul norm norm) norm)) (A.matMul s s))

/-! ## Poses -/

/-- `transform`, include/kindr/poses/HomogeneousTransformation.hpp:165-167. -/
def transform (P : Prec) (k : Kind) (p : XV3) (r : XRep k) (x : XV3) : XV3 := A.addV (A.rotate P k r x) p

/-- `inverseTransform`, include/kindr/poses/HomogeneousTransformation.hpp:168-170. -/
def inverseTransform (P : Prec) (k : Kind) (p : XV3) (r : XRep k) (x : XV3) : XV3 := A.inverseRotate P k r (A.subV x p)

/-- Position part of the product of two poses, include/kindr/poses/HomogeneousTransformation.hpp:180-184,
include/kindr/poses/Pose.hpp:52-56 (the rotation part is `mult`). -/
def posePosition (P : Prec) (k : Kind) (p : XV3) (r : XRep k) (p' : XV3) : XV3 := A.addV p (A.rotate P k r p')

end XArith
end Kindr
