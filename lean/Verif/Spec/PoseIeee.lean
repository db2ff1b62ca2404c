import Verif.Spec.LogIeee

/-!
# Specification vocabulary for poses in IEEE arithmetic
-/

set_option autoImplicit false

noncomputable section
namespace Kindr.Spec
open Kindr

/-- A pose: position and quaternion. -/
abbrev Frame := V3 × Quat

/-- What a pose stands for: turn the point by the direction of the stored quaternion, then shift it. -/
def Frame.map (T : Frame) (x : V3) : V3 := act .quat (direction T.2) x + T.1

/-- The inverse of `Frame.map`. -/
def Frame.unmap (T : Frame) (x : V3) : V3 := (den .quat (direction T.2)).transpose.mulVec (x - T.1)

/-- The composition of a chain of poses, the last applied first. -/
def chainMap : List Frame → V3 → V3
  | [], x => x
  | T :: l, x => T.map (chainMap l x)

/-- The sum of the lengths of the shifts of a chain. -/
def shifts (l : List Frame) : ℝ := (l.map fun T => T.1.norm).sum

/-- The user's loop `for (S : poses) T = T * S;`. -/
def poseLoop (A : XArith) (P : Prec) (T : XV3 × XQuat) (l : List (XV3 × XQuat)) : XV3 × XQuat :=
  l.foldl (fun T S => (A.posePosition P .quat T.1 T.2 S.1, A.mult P .quat .quat T.2 S.2)) T

/-- The stored form of a pose. -/
def embF (T : Frame) : XV3 × XQuat := (emb3 T.1, embQ T.2)

end Kindr.Spec
