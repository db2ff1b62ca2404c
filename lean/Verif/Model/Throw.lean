import Verif.Model.Accessors

/-!
# Calls that may throw: what the object holds afterwards

The other model files give the value computed by a call, or `throws`.  Here a mutating call is modelled by its effect on the object it
is called on: the stored value after the call and whether the call was left by an exception.  A caller may catch the exception and go
on using the object, so the stored value matters in both cases.

Simplification: for an assignment from another class and for `setFromVectors`, only the check of the object that is finally copied is
modelled, not the checks of intermediate temporaries (they cannot change the object either, because the write comes last).
-/

set_option autoImplicit false

open Classical

noncomputable section
namespace Kindr

/-- Whether `NDEBUG` is defined (include/kindr/common/assert_macros_eigen.hpp:101-142: the `_DBG` macros are empty in a release
build). -/
inductive Build where
  | debug
  | release
  deriving DecidableEq

/-- The effect of a mutating call: what the object holds when the call is left, and whether it is left by an exception
(`kindr_throw_exception`, include/kindr/common/assert_macros.hpp:52-63). -/
structure Effect (α : Type) where
  obj : α
  thrown : Bool

/-- `KINDR_ASSERT_SCALAR_NEAR_DBG(std::runtime_error, norm, 1, tol, ..)`: whether it lets the program go on,
include/kindr/common/assert_macros_eigen.hpp:101-104, 131-141. -/
def normCheck (b : Build) (norm tol : ℝ) : Bool :=
  match b with
  | .debug => compareRelative norm 1 tol
  | .release => true

/-- The pattern `member = value; KINDR_ASSERT_..` (include/kindr/rotations/AngleAxis.hpp:210-213). -/
def writeThenCheck {α : Type} (new : α) (ok : Bool) : Effect α := ⟨new, !ok⟩

/-- The pattern `*this = expression;`, where evaluating the expression may throw (include/kindr/rotations/AngleAxis.hpp:169-172). -/
def checkThenWrite {α : Type} (old new : α) (ok : Bool) : Effect α := if ok then ⟨new, false⟩ else ⟨old, true⟩

/-- The calls that change an `AngleAxis` object (without the direct access through `toImplementation()`). -/
inductive AaCall where
  /-- `setAngle(angle)`, include/kindr/rotations/AngleAxis.hpp:197-199 -/
  | setAngle (a : ℝ)
  /-- `setAxis(axis)`, `setAxis(v1, v2, v3)`, include/kindr/rotations/AngleAxis.hpp:210-220 -/
  | setAxis (n : V3)
  /-- `setVector(vector)`, include/kindr/rotations/AngleAxis.hpp:224-227 -/
  | setVector (v : V4)
  /-- `setIdentity()`, include/kindr/rotations/AngleAxis.hpp:242-246 -/
  | setIdentity
  /-- `invert()`, include/kindr/rotations/AngleAxis.hpp:169-172 -/
  | invert
  /-- `setUnique()`, include/kindr/rotations/AngleAxis.hpp:304-307 -/
  | setUnique
  /-- `fix()`, include/kindr/rotations/AngleAxis.hpp:452-459 -/
  | fix
  /-- `a = b` for another `AngleAxis` (the implicit copy assignment) -/
  | copy (b : AngAx)
  /-- `a = r`, `a(r)` for a rotation of another class, include/kindr/rotations/AngleAxis.hpp:140-154 -/
  | assign (k : Kind) (r : Rep k)
  /-- `setFromVectors(v1, v2)`, include/kindr/rotations/RotationImpl.hpp:182-187 -/
  | setFromVectors (v1 v2 : V3)

/-- The effect of a call on an `AngleAxis` that holds `s`, include/kindr/rotations/AngleAxis.hpp:140-307, 452-459.
`getUnique()` constructs an `AngleAxis` with the stored axis before anything else (:260-261), so its check comes first; the further
constructors it calls see the same axis or its negative. -/
def aaCall (P : Prec) (dpE : ℝ) (svd : V3 → V3 → V3) (b : Build) (s : AngAx) : AaCall → Effect AngAx
  | .setAngle a => ⟨s.setAngle a, false⟩
  | .setAxis n => writeThenCheck (s.setAxis n) (normCheck b (s.setAxis n).axis.norm (1 / 10000))
  | .setVector v => writeThenCheck (s.setVector v) (normCheck b (s.setVector v).axis.norm (1 / 10000))
  | .setIdentity => writeThenCheck s.setIdentity (normCheck b s.setIdentity.axis.norm (1 / 10000))
  | .invert => checkThenWrite s (aaInverted s) (normCheck b (aaInverted s).axis.norm (1 / 10000))
  | .setUnique => checkThenWrite s (aaGetUnique s) (normCheck b s.axis.norm (1 / 10000))
  | .fix => writeThenCheck (aaFix s) (normCheck b (aaFix s).axis.norm (1 / 10000))
  | .copy a => ⟨a, false⟩
  | .assign k r => checkThenWrite s (conv P .aa k r) (normCheck b (conv P .aa k r : AngAx).axis.norm (1 / 10000))
  | .setFromVectors v1 v2 =>
    if v1.norm * v2.norm ≠ 0 then
      checkThenWrite s (conv P .aa .quat (quatFromTwoVectors dpE svd v1 v2))
        (normCheck b (quatFromTwoVectors dpE svd v1 v2).norm (1 / 100) &&
          normCheck b (conv P .aa .quat (quatFromTwoVectors dpE svd v1 v2) : AngAx).axis.norm (1 / 10000))
    else ⟨s, true⟩

/-- The calls that change a `RotationQuaternion` object (without the direct access through `w()`, `toImplementation()` and
`toUnitQuaternion()`). -/
inductive QuatCall where
  /-- `setValues(w, x, y, z)` and `setParts(real, imag)`, include/kindr/rotations/RotationQuaternion.hpp:190-202 -/
  | setValues (q : Quat)
  /-- `q = u`, `q(u)` for a `UnitQuaternion`, include/kindr/rotations/RotationQuaternion.hpp:230-234, 260-264 -/
  | assignUnit (u : Quat)
  /-- `q(p)` for a `Quaternion`, include/kindr/rotations/RotationQuaternion.hpp:271-276 -/
  | callQuat (p : Quat)
  /-- `q = p` for another `RotationQuaternion`, include/kindr/rotations/RotationQuaternion.hpp:250-254 -/
  | copy (p : Quat)
  /-- `q = r`, `q(r)` for a rotation of another class, include/kindr/rotations/RotationQuaternion.hpp:240-244, 282-286 -/
  | assign (k : Kind) (r : Rep k)
  /-- `invert()` and `conjugate()`, include/kindr/rotations/RotationQuaternion.hpp:298-301, 313-316 -/
  | invert
  /-- `setIdentity()`, include/kindr/rotations/RotationQuaternion.hpp:321-327 -/
  | setIdentity
  /-- `setUnique()`, include/kindr/rotations/RotationQuaternion.hpp:422-425 -/
  | setUnique
  /-- `fix()`, include/kindr/rotations/RotationQuaternion.hpp:613-619 -/
  | fix
  /-- `setFromVectors(v1, v2)`, include/kindr/rotations/RotationImpl.hpp:182-187 -/
  | setFromVectors (v1 v2 : V3)

/-- Whether `getUnique()` returns a plain copy (`return *this`) and not a newly constructed, checked quaternion,
include/kindr/rotations/RotationQuaternion.hpp:340-369. -/
def quatUniqueCopies (q : Quat) : Bool :=
  if q.w > 0 then true
  else if q.w < 0 then false
  else if q.x > 0 then true
  else if q.x < 0 then false
  else if q.y > 0 then true
  else if q.y < 0 then false
  else if q.z > 0 then true
  else false

/-- The effect of a call on a `RotationQuaternion` that holds `s`, include/kindr/rotations/RotationQuaternion.hpp:190-425, 613-619.
`getUnique()` runs a checking constructor only if it changes the sign (:340-369). -/
def quatCall (P : Prec) (dpE : ℝ) (svd : V3 → V3 → V3) (b : Build) (s : Quat) : QuatCall → Effect Quat
  | .setValues q => ⟨RotationQuaternion.setValues s q.w q.x q.y q.z, false⟩
  | .assignUnit u => ⟨⟨u.w, u.x, u.y, u.z⟩, false⟩
  | .callQuat p => writeThenCheck ⟨p.w, p.x, p.y, p.z⟩ (normCheck b (⟨p.w, p.x, p.y, p.z⟩ : Quat).norm (1 / 10000))
  | .copy p => ⟨p, false⟩
  | .assign k r => checkThenWrite s (conv P .quat k r) (normCheck b (conv P .quat k r : Quat).norm (1 / 100))
  | .invert => checkThenWrite s (UnitQuaternion.inverted s) (normCheck b (UnitQuaternion.inverted s).norm (1 / 100))
  | .setIdentity => ⟨RotationQuaternion.setValues s 1 0 0 0, false⟩
  | .setUnique => checkThenWrite s (quatGetUnique s) (quatUniqueCopies s || normCheck b (quatGetUnique s).norm (1 / 100))
  | .fix => ⟨quatFix s, false⟩
  | .setFromVectors v1 v2 =>
    if v1.norm * v2.norm ≠ 0 then
      checkThenWrite s (quatFromTwoVectors dpE svd v1 v2) (normCheck b (quatFromTwoVectors dpE svd v1 v2).norm (1 / 100))
    else ⟨s, true⟩

/-- `u(p)` for a `UnitQuaternion` and a `Quaternion`: four assignments, then the check,
include/kindr/quaternions/Quaternion.hpp:369-379. -/
def unitCallQuat (b : Build) (_ : Quat) (p : Quat) : Effect Quat :=
  writeThenCheck ⟨p.w, p.x, p.y, p.z⟩ (normCheck b (⟨p.w, p.x, p.y, p.z⟩ : Quat).norm (1 / 100))

/-- `setMatrix(m)` (both forms) of a `RotationMatrix`: no check, include/kindr/rotations/RotationMatrix.hpp:205-217. -/
def matSetMatrix (_ : Build) (_ : M3) (m : M3) : Effect M3 := ⟨m, false⟩

/-- A program that makes a sequence of calls on one object and catches every exception:
`for (c : calls) try { c(obj); } catch (const std::runtime_error&) {}`.  The result is the final object and, for each call, whether it
threw. -/
def runCaught {α β : Type} (call : α → β → Effect α) : α → List β → α × List Bool
  | s, [] => (s, [])
  | s, c :: cs => ((runCaught call (call s c).obj cs).1, (call s c).thrown :: (runCaught call (call s c).obj cs).2)

end Kindr
