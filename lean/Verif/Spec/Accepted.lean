import Verif.Spec.Matrix

/-!
# Specification for values that pass the debug-mode checks
-/

set_option autoImplicit false

noncomputable section
namespace Kindr.Spec
open Kindr

/-- How far a value that passes the debug-mode check of its constructor can be from the rotation it stands for. -/
def acceptedTol : Kind → ℝ
  | .quat => 1 / 1000
  | .mat => 2 / 100000
  | .aa => 2 / 100000
  | .rv => 0
  | .xyz => 0
  | .zyx => 0

/-- How far its conversions to other classes can be from that rotation: `loss d s x`, destination `d`, source `s`, stored
angle `x` (angle-axis only). -/
def acceptedLoss (d : Kind) : (s : Kind) → Rep s → ℝ
  | .quat => fun _ => match d with
    | .quat => 1 / 1000
    | .mat => 1 / 1000
    | .aa => 0
    | .rv => 1 / 4000
    | _ => 2 / 100
  | .mat => fun _ => match d with
    | .xyz => 3 / 1000
    | .zyx => 3 / 1000
    | _ => 3 / 10000
  | .aa => fun a => match d with
    | .rv => (6 * |AngAx.angle a| + 20) / 10 ^ 6
    | .xyz => 3 / 10000
    | .zyx => 3 / 10000
    | _ => 2 / 100000
  | .rv => fun _ => 0
  | .xyz => fun _ => 0
  | .zyx => fun _ => 0

/-- Whether the code can compute the rotation vector of the value: the conversion from a quaternion (a matrix is first converted
to one) divides by the length of the vector part unless `1 - w²` is below the threshold.  C84 proves that this is exactly the
condition under which the result is not NaN. -/
def RvComputable (P : Prec) : (s : Kind) → Rep s → Prop
  | .quat => fun q => Quat.vec q ≠ 0 ∨ 1 - Quat.w q * Quat.w q < P.dp
  | .mat => fun m => (Quat.ofMatrix m).vec ≠ 0 ∨ 1 - (Quat.ofMatrix m).w * (Quat.ofMatrix m).w < P.dp
  | _ => fun _ => True

end Kindr.Spec
