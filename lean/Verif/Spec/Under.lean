import Verif.Spec.Range

/-!
# Specification vocabulary for loops over quaternions in IEEE arithmetic
-/

set_option autoImplicit false

noncomputable section
namespace Kindr.Spec
open Kindr

/-- A format with at least the precision and the exponents of `float`. -/
structure AtLeastFloat (f : Format) : Prop where
  p : 24 ≤ f.p
  emin : f.emin + 2 * f.p ≤ -100
  emax : (f.p : ℤ) + 100 ≤ f.emax

/-- The loop `for (qi : l) q = q * qi;` on a `RotationQuaternion`. -/
def productLoop (A : XArith) (P : Prec) (q : XQuat) (l : List XQuat) : XQuat := l.foldl (fun a b => A.mult P .quat .quat a b) q

/-- The loop `for (qi : l) { q = q * qi; q.fix(); }`. -/
def fixedLoop (A : XArith) (P : Prec) (q : XQuat) (l : List XQuat) : XQuat := l.foldl (fun a b => A.fix .quat (A.mult P .quat .quat a b)) q

/-- The length of a quaternion is neither extremely small nor extremely large: between about `1e-6` and `1e6`. -/
def Moderate (q : Quat) : Prop := 1 / 2 ^ 20 ≤ q.norm ∧ q.norm ≤ 2 ^ 20

end Kindr.Spec
