import Verif.Model.Accessors
import Verif.Spec.Accessors
import Verif.Spec.Rotation
import Mathlib.Data.Fin.VecNotation
import Mathlib.Tactic.FinCases

/-!
# C45: component accessors
-/

set_option autoImplicit false

noncomputable section
namespace Kindr
open Spec

/-- **C45 (a).** `setRoll/setPitch/setYaw` (`setX/setY/setZ`) of both Euler-angle classes and of their rate classes change
exactly the component that `roll/pitch/yaw` (`x/y/z`) read. -/
theorem C45_euler_components :
    AddressComponents ![EulXyz.x, EulXyz.y, EulXyz.z] ![EulXyz.setX, EulXyz.setY, EulXyz.setZ] ∧
    AddressComponents ![EulZyx.x, EulZyx.y, EulZyx.z] ![EulZyx.setX, EulZyx.setY, EulZyx.setZ] ∧
    AddressComponents ![XyzDiff.x, XyzDiff.y, XyzDiff.z] ![XyzDiff.setX, XyzDiff.setY, XyzDiff.setZ] ∧
    AddressComponents ![ZyxDiff.x, ZyxDiff.y, ZyxDiff.z] ![ZyxDiff.setX, ZyxDiff.setY, ZyxDiff.setZ] := by
  refine ⟨⟨?_, ?_, ?_⟩, ⟨?_, ?_, ?_⟩, ⟨?_, ?_, ?_⟩, ?_, ?_, ?_⟩
  · intro i s a; fin_cases i <;> rfl
  · intro i j s a h; fin_cases i <;> fin_cases j <;> first | rfl | exact absurd rfl h
  · intro s s' h; ext; exacts [h 0, h 1, h 2]
  · intro i s a; fin_cases i <;> rfl
  · intro i j s a h; fin_cases i <;> fin_cases j <;> first | rfl | exact absurd rfl h
  · intro s s' h; ext; exacts [h 2, h 1, h 0]
  · intro i s a; fin_cases i <;> rfl
  · intro i j s a h; fin_cases i <;> fin_cases j <;> first | rfl | exact absurd rfl h
  · intro s s' h; ext; exacts [h 0, h 1, h 2]
  · intro i s a; fin_cases i <;> rfl
  · intro i j s a h; fin_cases i <;> fin_cases j <;> first | rfl | exact absurd rfl h
  · intro s s' h; ext; exacts [h 2, h 1, h 0]

/-- **C45 (b).** Constructor argument order, storage order of `vector()`, and the axes the named angles turn about: roll about
x, pitch about y, yaw about z; X-Y-Z applies yaw first to a vector, Z-Y-X applies roll first. -/
theorem C45_euler_order (a b c : ℝ) (u : V3) :
    ((EulXyz.mk3 a b c).x = a ∧ (EulXyz.mk3 a b c).y = b ∧ (EulXyz.mk3 a b c).z = c ∧
      (EulXyz.mk3 a b c).vector = ⟨a, b, c⟩ ∧ act .xyz (EulXyz.mk3 a b c) u = rotX a (rotY b (rotZ c u))) ∧
    ((EulZyx.mk3 a b c).z = a ∧ (EulZyx.mk3 a b c).y = b ∧ (EulZyx.mk3 a b c).x = c ∧
      (EulZyx.mk3 a b c).vector = ⟨a, b, c⟩ ∧ act .zyx (EulZyx.mk3 a b c) u = rotZ a (rotY b (rotX c u))) ∧
    ((XyzDiff.mk3 a b c).x = a ∧ (XyzDiff.mk3 a b c).y = b ∧ (XyzDiff.mk3 a b c).z = c ∧
      (XyzDiff.mk3 a b c).vector = ⟨a, b, c⟩) ∧
    ((ZyxDiff.mk3 a b c).z = a ∧ (ZyxDiff.mk3 a b c).y = b ∧ (ZyxDiff.mk3 a b c).x = c ∧
      (ZyxDiff.mk3 a b c).vector = ⟨a, b, c⟩) :=
  ⟨⟨rfl, rfl, rfl, rfl, rfl⟩, ⟨rfl, rfl, rfl, rfl, rfl⟩, ⟨rfl, rfl, rfl, rfl⟩, ⟨rfl, rfl, rfl, rfl⟩⟩

/-- **C45 (c).** Rotation vector: components, and `setVector`/`vector` round trip (both overloads). -/
theorem C45_rotation_vector (r : RotVec) (v : V3) :
    AddressComponents ![RotVec.x, RotVec.y, RotVec.z] ![RotVec.setX, RotVec.setY, RotVec.setZ] ∧
    (r.setVector v).vector = v ∧ (r.setVector3 v.x v.y v.z).vector = v ∧ r.setVector r.vector = r ∧
    r.vector = ⟨r.x, r.y, r.z⟩ ∧ RotVec.mk3 r.x r.y r.z = r := by
  refine ⟨⟨?_, ?_, ?_⟩, rfl, rfl, rfl, rfl, rfl⟩
  · intro i s a; fin_cases i <;> rfl
  · intro i j s a h; fin_cases i <;> fin_cases j <;> first | rfl | exact absurd rfl h
  · intro s s' h; ext; exacts [h 0, h 1, h 2]

/-- **C45 (d).** Angle-axis: setting the angle keeps the axis and vice versa; `setVector`/`vector` round trip with the angle
first; `setIdentity` gives the zero angle about x. -/
theorem C45_angle_axis (r : AngAx) (a : ℝ) (n : V3) (v : V4) :
    (r.setAngle a).angle = a ∧ (r.setAngle a).axis = r.axis ∧ (r.setAxis n).axis = n ∧ (r.setAxis n).angle = r.angle ∧
    (r.setVector v).vector = v ∧ r.setVector r.vector = r ∧ AngAx.ofVector4 r.vector = r ∧
    r.vector.c0 = r.angle ∧ AngAx.mk4 r.angle r.axis.x r.axis.y r.axis.z = r ∧
    r.setIdentity = identity .aa :=
  ⟨rfl, rfl, rfl, rfl, rfl, rfl, rfl, rfl, rfl, rfl⟩

/-- **C45 (e).** Rotation quaternion: component references, `setValues`, `setParts`, `vector` (real part first), `setIdentity`. -/
theorem C45_rotation_quaternion (q : Quat) (w x y z : ℝ) (im : V3) (v : V4) :
    AddressComponents ![Quat.w, Quat.x, Quat.y, Quat.z]
      ![RotationQuaternion.setW, RotationQuaternion.setX, RotationQuaternion.setY, RotationQuaternion.setZ] ∧
    RotationQuaternion.vector (RotationQuaternion.setValues q w x y z) = ⟨w, x, y, z⟩ ∧
    RotationQuaternion.real (RotationQuaternion.setParts q w im) = w ∧
    RotationQuaternion.imaginary (RotationQuaternion.setParts q w im) = im ∧
    RotationQuaternion.vector (RotationQuaternion.ofVector4 v) = v ∧
    RotationQuaternion.ofVector4 (RotationQuaternion.vector q) = q ∧
    RotationQuaternion.ofRealImag (RotationQuaternion.real q) (RotationQuaternion.imaginary q) = q ∧
    RotationQuaternion.mk4 q.w q.x q.y q.z = q ∧ RotationQuaternion.setIdentity q = identity .quat := by
  refine ⟨⟨?_, ?_, ?_⟩, rfl, rfl, rfl, rfl, rfl, rfl, rfl, rfl⟩
  · intro i s a; fin_cases i <;> rfl
  · intro i j s a h; fin_cases i <;> fin_cases j <;> first | rfl | exact absurd rfl h
  · intro s s' h; ext; exacts [h 0, h 1, h 2, h 3]

end Kindr
