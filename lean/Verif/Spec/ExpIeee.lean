import Verif.Spec.Under
import Verif.Props.FloatFix

/-!
# Specification vocabulary for the exponential map and integration in IEEE arithmetic
-/

set_option autoImplicit false

noncomputable section
namespace Kindr.Spec
open Kindr

/-- A format whose smallest number is far below the fourth power of its precision (`double`: `2 ^ -1074` against `2 ^ -318`;
`float`: `2 ^ -149` against `2 ^ -144`). -/
structure Standard (f : Format) : Prop extends AtLeastFloat f where
  sub : f.emin + 6 * f.p ≤ -5

/-- The exact unit quaternion of the rotation vector `r`: `(cos (|r|/2), sin (|r|/2) r/|r|)`. -/
def expH (r : V3) : Quaternion ℝ :=
  ⟨Real.cos (r.norm / 2), Real.sin (r.norm / 2) / r.norm * r.x, Real.sin (r.norm / 2) / r.norm * r.y, Real.sin (r.norm / 2) / r.norm * r.z⟩

/-- The loop `for (w : l) { q = q.boxPlus(w); q.fix(); }`. -/
def boxPlusFixLoop (A : XArith) (P : Prec) (q : XQuat) (l : List XV3) : XQuat := l.foldl (fun a w => A.fix .quat (A.boxPlus P .quat a w)) q

/-- The exact composition of the rotations: every increment is multiplied from the left. -/
def exactIntegral (q : Quaternion ℝ) (l : List V3) : Quaternion ℝ := l.foldl (fun a w => expH w * a) q

/-- The total angle of the increments. -/
def totalAngle (l : List V3) : ℝ := (l.map V3.norm).sum

end Kindr.Spec
