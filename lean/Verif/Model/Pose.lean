import Verif.Model.Deriv
import Verif.Model.Vector

/-!
# Wrench, Twist and HomogeneousTransformation
-/

set_option autoImplicit false

open Classical

noncomputable section
namespace Kindr

/-! ## 6-vectors -/

/-- `Eigen::Matrix<PrimType_, 6, 1>` (include/kindr/phys_quant/Wrench.hpp:49, include/kindr/poses/Twist.hpp:46). -/
@[reducible] def V6 := Fin 6 → ℝ

/-- Eigen's `head(3)` / `block<3,1>(0,0)` of a 6-vector. -/
def V6.head3 (v : V6) : Fin 3 → ℝ := fun i => v ⟨i, by omega⟩
/-- Eigen's `tail(3)` / `block<3,1>(3,0)` of a 6-vector. -/
def V6.tail3 (v : V6) : Fin 3 → ℝ := fun i => v ⟨3 + i, by omega⟩
/-- Assignment to the first three coefficients. -/
def V6.setHead3 (v : V6) (a : Fin 3 → ℝ) : V6 := fun i => if h : (i : ℕ) < 3 then a ⟨i, h⟩ else v i
/-- Assignment to the last three coefficients. -/
def V6.setTail3 (v : V6) (a : Fin 3 → ℝ) : V6 := fun i => if h : 3 ≤ (i : ℕ) then a ⟨i - 3, by omega⟩ else v i

/-- A 3-vector as an array of coefficients, and back (the same Eigen object). -/
def V3.toFun (v : V3) : Fin 3 → ℝ := ![v.x, v.y, v.z]
/-- The 3-vector with the given coefficients. -/
def V3.ofFun (c : Fin 3 → ℝ) : V3 := ⟨c 0, c 1, c 2⟩

/-! ## Wrench -/

/-- `Wrench<PrimType_>`, include/kindr/phys_quant/Wrench.hpp:42-50, 248-253. -/
@[ext] structure Wrench where
  force : Vec .Force 3
  torque : Vec .Torque 3

namespace Wrench
/-- Default constructor, `Zero()`, `setZero()`, include/kindr/phys_quant/Wrench.hpp:52-54, 129-140. -/
def Zero : Wrench := ⟨Vec.Zero, Vec.Zero⟩
/-- Constructor from force and torque 3-vectors, include/kindr/phys_quant/Wrench.hpp:56-64. -/
def ofVectors (f τ : Fin 3 → ℝ) : Wrench := ⟨Vec.ofEigen f, Vec.ofEigen τ⟩
/-- Constructor from a 6-vector and `setVector`, include/kindr/phys_quant/Wrench.hpp:66-69, 113-116. -/
def ofVector6 (w : V6) : Wrench := ⟨Vec.ofEigen w.head3, Vec.ofEigen w.tail3⟩
/-- `setForce`, include/kindr/phys_quant/Wrench.hpp:93-96, 103-106. -/
def setForce (w : Wrench) (f : Vec .Force 3) : Wrench := { w with force := f }
/-- `setTorque`, include/kindr/phys_quant/Wrench.hpp:98-101, 108-111. -/
def setTorque (w : Wrench) (τ : Vec .Torque 3) : Wrench := { w with torque := τ }
/-- `setVector`, include/kindr/phys_quant/Wrench.hpp:113-116. -/
def setVector (_ : Wrench) (v : V6) : Wrench := ofVector6 v
/-- `getVector`, include/kindr/phys_quant/Wrench.hpp:118-124 (the uninitialized 6-vector is `init`). -/
def getVector (init : V6) (w : Wrench) : V6 := (init.setHead3 w.force.coeff).setTail3 w.torque.coeff
/-- `operator+`, include/kindr/phys_quant/Wrench.hpp:152-154. -/
def add (a b : Wrench) : Wrench := ⟨a.force.add b.force, a.torque.add b.torque⟩
/-- `operator-`, include/kindr/phys_quant/Wrench.hpp:160-162. -/
def sub (a b : Wrench) : Wrench := ⟨a.force.sub b.force, a.torque.sub b.torque⟩
/-- `operator*`, include/kindr/phys_quant/Wrench.hpp:168-171. -/
def smul (a : Wrench) (s : ℝ) : Wrench := ⟨a.force.smul s, a.torque.smul s⟩
/-- `operator/`, include/kindr/phys_quant/Wrench.hpp:177-180. -/
def sdiv (a : Wrench) (s : ℝ) : Wrench := ⟨a.force.sdiv s, a.torque.sdiv s⟩
/-- `operator+=`, include/kindr/phys_quant/Wrench.hpp:186-190. -/
def addAssign (a b : Wrench) : Wrench := ⟨a.force.addAssign b.force, a.torque.addAssign b.torque⟩
/-- `operator-=`, include/kindr/phys_quant/Wrench.hpp:196-200. -/
def subAssign (a b : Wrench) : Wrench := ⟨a.force.subAssign b.force, a.torque.subAssign b.torque⟩
/-- `operator*=`, include/kindr/phys_quant/Wrench.hpp:206-211. -/
def mulAssign (a : Wrench) (s : ℝ) : Wrench := ⟨a.force.mulAssign s, a.torque.mulAssign s⟩
/-- `operator/=`, include/kindr/phys_quant/Wrench.hpp:217-222. -/
def divAssign (a : Wrench) (s : ℝ) : Wrench := ⟨a.force.divAssign s, a.torque.divAssign s⟩
/-- Unary `operator-`, include/kindr/phys_quant/Wrench.hpp:227-229. -/
def neg (a : Wrench) : Wrench := ⟨a.force.neg, a.torque.neg⟩
/-- `operator==`, include/kindr/phys_quant/Wrench.hpp:235-237. -/
def eq (a b : Wrench) : Bool := a.force.eq b.force && a.torque.eq b.torque
end Wrench

/-! ## Twist -/

/-- `Twist<PrimType_, Velocity<PrimType_,3>, RotationDiff_>`, include/kindr/poses/Twist.hpp:40-53. -/
@[ext] structure Twist (D : Type) where
  linear : V3
  rotational : D

namespace Twist
/-- `Zero()` / `setZero()` given the zero of the derivative class, include/kindr/poses/Twist.hpp:89-103. -/
def Zero {D : Type} (zero : D) : Twist D := ⟨⟨0, 0, 0⟩, zero⟩

/-- `getTranslationalVelocity() = v`, include/kindr/poses/Twist.hpp:56-58. -/
def setLinear {D : Type} (w : Twist D) (v : V3) : Twist D := { w with linear := v }
/-- `getRotationalVelocity() = d`, include/kindr/poses/Twist.hpp:64-66. -/
def setRotational {D : Type} (w : Twist D) (d : D) : Twist D := { w with rotational := d }

/-- `TwistLinearVelocityLocalAngularVelocity::getVector()`, include/kindr/poses/Twist.hpp:167-172. -/
def getVectorLocal (w : Twist LocalAV) : V6 :=
  (V6.setHead3 (fun _ => 0) w.linear.toFun).setTail3 w.rotational.v.toFun
/-- `TwistLinearVelocityLocalAngularVelocity(Vector6)` and `setVector`, include/kindr/poses/Twist.hpp:158-162,
174-179. -/
def ofVectorLocal (v : V6) : Twist LocalAV := ⟨V3.ofFun v.head3, ⟨V3.ofFun v.tail3⟩⟩
/-- `TwistLinearVelocityGlobalAngularVelocity::getVector()`, include/kindr/poses/Twist.hpp:230-235. -/
def getVectorGlobal (w : Twist GlobalAV) : V6 :=
  (V6.setHead3 (fun _ => 0) w.linear.toFun).setTail3 w.rotational.v.toFun
/-- `TwistLinearVelocityGlobalAngularVelocity(Vector6)` and `setVector`, include/kindr/poses/Twist.hpp:221-225,
237-242. -/
def ofVectorGlobal (v : V6) : Twist GlobalAV := ⟨V3.ofFun v.head3, ⟨V3.ofFun v.tail3⟩⟩

/-- `Twist::getVector(rotation)` for a twist with a `GlobalAngularVelocity`, any rotation class,
include/kindr/poses/Twist.hpp:72-79. -/
def getVectorWithGlobal (P : Prec) (k : Kind) (w : Twist GlobalAV) (r : Rep k) : V6 :=
  (V6.setHead3 (fun _ => 0) w.linear.toFun).setTail3 (localOfGlobal P k r w.rotational).v.toFun
/-- `Twist::getVector(rotation)` for a twist with a `RotationQuaternionDiff` (the rotation must be a
`RotationQuaternion`), include/kindr/poses/Twist.hpp:72-79. -/
def getVectorWithQuatDiff (w : Twist QuatDiff) (q : Quat) : V6 :=
  (V6.setHead3 (fun _ => 0) w.linear.toFun).setTail3 (localOfQuatDiff q w.rotational).v.toFun
end Twist

/-! ## HomogeneousTransformation -/

/-- `HomogeneousTransformation<PrimType_, Position<PrimType_,3>, Rotation_>`,
include/kindr/poses/HomogeneousTransformation.hpp:41-52, for any rotation class. -/
@[ext] structure Pose (k : Kind) where
  position : V3
  rotation : Rep k

namespace Pose
/-- Default constructor, `setIdentity()`, `Identity()`, include/kindr/poses/HomogeneousTransformation.hpp:54-56, 119-130. -/
def Identity (k : Kind) : Pose k := ⟨⟨0, 0, 0⟩, identity k⟩

/-- Constructor from a pose with another rotation class, include/kindr/poses/HomogeneousTransformation.hpp:63-71. -/
def ofPose (P : Prec) (d s : Kind) (T : Pose s) : Pose d := ⟨T.position, conv P d s T.rotation⟩

/-- `transform`, include/kindr/poses/HomogeneousTransformation.hpp:165-167. -/
def transform (P : Prec) (k : Kind) (T : Pose k) (p : V3) : V3 := rotate P k T.rotation p + T.position

/-- `inverseTransform`, include/kindr/poses/HomogeneousTransformation.hpp:168-170. -/
def inverseTransform (P : Prec) (k : Kind) (T : Pose k) (p : V3) : V3 :=
  inverseRotate P k T.rotation (p - T.position)

/-- `operator*`: include/kindr/poses/HomogeneousTransformation.hpp:180-184 for equal classes,
include/kindr/poses/Pose.hpp:52-56 for different ones; both compute the same expression. -/
def mult (P : Prec) (k₁ k₂ : Kind) (A : Pose k₁) (B : Pose k₂) : Pose k₁ :=
  ⟨A.position + rotate P k₁ A.rotation B.position, Kindr.mult P k₁ k₂ A.rotation B.rotation⟩

/-- `getTransformationMatrix()`, include/kindr/poses/HomogeneousTransformation.hpp:100-106. -/
def getTransformationMatrix (P : Prec) (k : Kind) (T : Pose k) : M4 :=
  let R : M3 := conv P .mat k T.rotation
  let p := T.position
  ⟨⟨R.m00, R.m01, R.m02, p.x⟩, ⟨R.m10, R.m11, R.m12, p.y⟩, ⟨R.m20, R.m21, R.m22, p.z⟩, ⟨0, 0, 0, 1⟩⟩

/-- `operator==` for poses of the same class, include/kindr/poses/PoseBase.hpp:145-148,
include/kindr/poses/Pose.hpp:92-95. -/
def eqSame (P : Prec) (k : Kind) (A B : Pose k) : Bool :=
  decide (A.position = B.position) && Kindr.eqSame P k A.rotation B.rotation

/-- `operator==` for poses of different classes, include/kindr/poses/PoseBase.hpp:145-148,
include/kindr/poses/Pose.hpp:92-95. -/
def eqMixed (P : Prec) (k₁ k₂ : Kind) (A : Pose k₁) (B : Pose k₂) : Bool :=
  decide (A.position = B.position) && Kindr.eqMixed P k₁ k₂ A.rotation B.rotation
end Pose

end Kindr
