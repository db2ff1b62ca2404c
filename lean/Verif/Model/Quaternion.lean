import Verif.Model.Eigen

/-!
# Quaternion and UnitQuaternion (include/kindr/quaternions)

`Quaternion<P>` and `UnitQuaternion<P>` both wrap one `Eigen::Quaternion<P>`; the model identifies the wrappers
with the wrapped coefficients `Quat`.
-/

set_option autoImplicit false

open Classical

noncomputable section
namespace Kindr

namespace Quaternion
/-- Default constructor: all coefficients zero, include/kindr/quaternions/Quaternion.hpp:69-71. -/
def default : Quat := ⟨0, 0, 0, 0⟩
/-- `Quaternion(real, imag)`, include/kindr/quaternions/Quaternion.hpp:88-90. -/
def ofRealImag (re : ℝ) (im : V3) : Quat := ⟨re, im.x, im.y, im.z⟩
/-- `Quaternion(vector4)`, include/kindr/quaternions/Quaternion.hpp:95-97. -/
def ofVector4 (v : V4) : Quat := ⟨v.c0, v.c1, v.c2, v.c3⟩
/-- `operator*`, include/kindr/quaternions/QuaternionBase.hpp:47-52 (Eigen product). -/
def mul (a b : Quat) : Quat := a * b
/-- `isEqual` behind `operator==`, include/kindr/quaternions/QuaternionBase.hpp:58-63. -/
def isEqual (a b : Quat) : Bool := decide (a.w = b.w ∧ a.x = b.x ∧ a.y = b.y ∧ a.z = b.z)
/-- `inverted()` and `invert()`, include/kindr/quaternions/Quaternion.hpp:105-114. -/
def inverted (a : Quat) : Quat := a.inverse
/-- `conjugated()` and `conjugate()`, include/kindr/quaternions/Quaternion.hpp:118-127. -/
def conjugated (a : Quat) : Quat := a.conj
/-- `norm()`, include/kindr/quaternions/Quaternion.hpp:216-218. -/
def norm (a : Quat) : ℝ := a.norm
/-- `normalized()` and `normalize()`, include/kindr/quaternions/Quaternion.hpp:220-227. -/
def normalized (a : Quat) : Quat := a.normalized
/-- `setZero()` and `Zero()`, include/kindr/quaternions/Quaternion.hpp:229-242. -/
def setZero (_ : Quat) : Quat := ⟨0, 0, 0, 0⟩
/-- `real()`, include/kindr/quaternions/Quaternion.hpp:202-204. -/
def real (a : Quat) : ℝ := a.w
/-- `imaginary()`, include/kindr/quaternions/Quaternion.hpp:206-208. -/
def imaginary (a : Quat) : V3 := ⟨a.x, a.y, a.z⟩
/-- `vector()`, include/kindr/quaternions/Quaternion.hpp:210-214. -/
def vector (a : Quat) : V4 := ⟨a.w, a.x, a.y, a.z⟩
/-- `toUnitQuaternion()`, include/kindr/quaternions/Quaternion.hpp:244-246 (release build; the debug build
additionally runs the `UnitQuaternion` constructor check, see `UnitQuaternion.ofImplDbg`). -/
def toUnitQuaternion (a : Quat) : Quat := a.normalized
/-- `getQuaternionMatrix()` (Qleft), include/kindr/quaternions/Quaternion.hpp:252-259; the same body again at
include/kindr/quaternions/Quaternion.hpp:502-509 and include/kindr/rotations/RotationQuaternion.hpp:373-381. -/
def getQuaternionMatrix (q : Quat) : M4 :=
  ⟨⟨q.w, -q.x, -q.y, -q.z⟩, ⟨q.x, q.w, -q.z, q.y⟩, ⟨q.y, q.z, q.w, -q.x⟩, ⟨q.z, -q.y, q.x, q.w⟩⟩
/-- `getConjugateQuaternionMatrix()` (Qright), include/kindr/quaternions/Quaternion.hpp:265-272; the same body again
at include/kindr/quaternions/Quaternion.hpp:515-522 and include/kindr/rotations/RotationQuaternion.hpp:387-395. -/
def getConjugateQuaternionMatrix (q : Quat) : M4 :=
  ⟨⟨q.w, -q.x, -q.y, -q.z⟩, ⟨q.x, q.w, q.z, -q.y⟩, ⟨q.y, -q.z, q.w, q.x⟩, ⟨q.z, q.y, -q.x, q.w⟩⟩
end Quaternion

namespace UnitQuaternion
/-- Default constructor, include/kindr/quaternions/Quaternion.hpp:308-310. -/
def default : Quat := 1
/-- The constructors in a debug build: throw unless the norm is 1 up to `1e-2` percent,
include/kindr/quaternions/Quaternion.hpp:319-345. -/
def ofImplDbg (q : Quat) : Res Quat := assertScalarNearDbg q.norm 1 (1 / 100) (.ok q)
/-- `conjugated()`, include/kindr/quaternions/Quaternion.hpp:448-457. -/
def conjugated (a : Quat) : Quat := a.conj
/-- `inverted()`, include/kindr/quaternions/QuaternionBase.hpp:185-194: the conjugate. -/
def inverted (a : Quat) : Quat := conjugated a
/-- `operator*`, include/kindr/quaternions/QuaternionBase.hpp:210-213. -/
def mul (a b : Quat) : Quat := a * b
/-- `setIdentity()`, include/kindr/quaternions/Quaternion.hpp:475-481.  The code assigns zero to *all four*
coefficients. -/
def setIdentity (_ : Quat) : Quat := ⟨0, 0, 0, 0⟩
/-- `Identity()`, include/kindr/quaternions/Quaternion.hpp:486-488. -/
def Identity : Quat := 1
end UnitQuaternion

end Kindr
