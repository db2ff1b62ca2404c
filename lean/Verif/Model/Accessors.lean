import Verif.Model.Deriv

/-!
# Component accessors of the remaining classes

The accessors of the Euler-angle classes are in `Model/Rotation.lean` and `Model/Deriv.lean`, those of `Quaternion` in
`Model/Quaternion.lean`.  Each setter is modelled as a function from the old to the new stored value.
-/

set_option autoImplicit false

noncomputable section
namespace Kindr

namespace RotVec
/-- `RotationVector(x, y, z)`, include/kindr/rotations/RotationVector.hpp:94-96. -/
def mk3 (x y z : ℝ) : RotVec := ⟨⟨x, y, z⟩⟩
/-- `x()`, include/kindr/rotations/RotationVector.hpp:204-206. -/
def x (r : RotVec) : ℝ := r.v.x
/-- `y()`, include/kindr/rotations/RotationVector.hpp:211-213. -/
def y (r : RotVec) : ℝ := r.v.y
/-- `z()`, include/kindr/rotations/RotationVector.hpp:218-220. -/
def z (r : RotVec) : ℝ := r.v.z
/-- `setX(x)`, include/kindr/rotations/RotationVector.hpp:224-226. -/
def setX (r : RotVec) (a : ℝ) : RotVec := ⟨{ r.v with x := a }⟩
/-- `setY(y)`, include/kindr/rotations/RotationVector.hpp:230-232. -/
def setY (r : RotVec) (a : ℝ) : RotVec := ⟨{ r.v with y := a }⟩
/-- `setZ(z)`, include/kindr/rotations/RotationVector.hpp:236-238. -/
def setZ (r : RotVec) (a : ℝ) : RotVec := ⟨{ r.v with z := a }⟩
/-- `setVector(x, y, z)`, include/kindr/rotations/RotationVector.hpp:191-193. -/
def setVector3 (_ : RotVec) (x y z : ℝ) : RotVec := ⟨⟨x, y, z⟩⟩
/-- `setVector(vector)`, include/kindr/rotations/RotationVector.hpp:197-199. -/
def setVector (_ : RotVec) (v : V3) : RotVec := ⟨v⟩
/-- `vector()`, include/kindr/rotations/RotationVector.hpp:182-184. -/
def vector (r : RotVec) : V3 := r.v
end RotVec

namespace AngAx
/-- `AngleAxis(angle, v1, v2, v3)`, include/kindr/rotations/AngleAxis.hpp:94-97 (release build). -/
def mk4 (angle v1 v2 v3 : ℝ) : AngAx := ⟨angle, ⟨v1, v2, v3⟩⟩
/-- `AngleAxis(vector)`, include/kindr/rotations/AngleAxis.hpp:114-117 (release build). -/
def ofVector4 (v : V4) : AngAx := ⟨v.c0, ⟨v.c1, v.c2, v.c3⟩⟩
/-- `setAngle(angle)`, include/kindr/rotations/AngleAxis.hpp:197-199. -/
def setAngle (r : AngAx) (a : ℝ) : AngAx := { r with angle := a }
/-- `setAxis(axis)` and `setAxis(v1, v2, v3)`, include/kindr/rotations/AngleAxis.hpp:210-220 (release build). -/
def setAxis (r : AngAx) (n : V3) : AngAx := { r with axis := n }
/-- `setVector(vector)`, include/kindr/rotations/AngleAxis.hpp:224-227. -/
def setVector (r : AngAx) (v : V4) : AngAx := (r.setAngle v.c0).setAxis ⟨v.c1, v.c2, v.c3⟩
/-- `vector()`, include/kindr/rotations/AngleAxis.hpp:231-236. -/
def vector (r : AngAx) : V4 := ⟨r.angle, r.axis.x, r.axis.y, r.axis.z⟩
/-- `setIdentity()`, include/kindr/rotations/AngleAxis.hpp:242-246. -/
def setIdentity (r : AngAx) : AngAx := (r.setAngle 0).setAxis ⟨1, 0, 0⟩
end AngAx

namespace RotationQuaternion
/-- `RotationQuaternion(w, x, y, z)`, include/kindr/rotations/RotationQuaternion.hpp:94-97 (release build). -/
def mk4 (w x y z : ℝ) : Quat := ⟨w, x, y, z⟩
/-- `RotationQuaternion(real, imag)`, include/kindr/rotations/RotationQuaternion.hpp:104-107 (release build). -/
def ofRealImag (re : ℝ) (im : V3) : Quat := ⟨re, im.x, im.y, im.z⟩
/-- `RotationQuaternion(vector4)`, include/kindr/rotations/RotationQuaternion.hpp:113-116 (release build). -/
def ofVector4 (v : V4) : Quat := ⟨v.c0, v.c1, v.c2, v.c3⟩
/-- Assignment through `w()`, include/kindr/rotations/RotationQuaternion.hpp:160-162. -/
def setW (q : Quat) (a : ℝ) : Quat := { q with w := a }
/-- Assignment through `x()`, include/kindr/rotations/RotationQuaternion.hpp:164-166. -/
def setX (q : Quat) (a : ℝ) : Quat := { q with x := a }
/-- Assignment through `y()`, include/kindr/rotations/RotationQuaternion.hpp:168-170. -/
def setY (q : Quat) (a : ℝ) : Quat := { q with y := a }
/-- Assignment through `z()`, include/kindr/rotations/RotationQuaternion.hpp:172-174. -/
def setZ (q : Quat) (a : ℝ) : Quat := { q with z := a }
/-- `real()`, include/kindr/rotations/RotationQuaternion.hpp:176-178. -/
def real (q : Quat) : ℝ := q.w
/-- `imaginary()`, include/kindr/rotations/RotationQuaternion.hpp:180-182. -/
def imaginary (q : Quat) : V3 := ⟨q.x, q.y, q.z⟩
/-- `vector()`, include/kindr/rotations/RotationQuaternion.hpp:184-188. -/
def vector (q : Quat) : V4 := ⟨q.w, q.x, q.y, q.z⟩
/-- `setValues(w, x, y, z)`: four successive assignments, include/kindr/rotations/RotationQuaternion.hpp:190-195. -/
def setValues (q : Quat) (w x y z : ℝ) : Quat := setZ (setY (setX (setW q w) x) y) z
/-- `setParts(real, imag)`: four successive assignments, include/kindr/rotations/RotationQuaternion.hpp:197-202. -/
def setParts (q : Quat) (re : ℝ) (im : V3) : Quat := setZ (setY (setX (setW q re) im.x) im.y) im.z
/-- `setIdentity()`: four successive assignments, include/kindr/rotations/RotationQuaternion.hpp:321-327. -/
def setIdentity (q : Quat) : Quat := setZ (setY (setX (setW q 1) 0) 0) 0
end RotationQuaternion

end Kindr
