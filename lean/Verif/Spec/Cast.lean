import Verif.Spec.Rotation

/-!
# Specification of conversions between scalar types
-/

set_option autoImplicit false

noncomputable section
namespace Kindr.Spec
open Kindr

/-- How much the conversion of the stored numbers can move the rotation, in units of the rounding error. -/
def castBound : (k : Kind) → Rep k → ℝ
  | .quat => fun _ => 3
  | .mat => fun _ => 3
  | .aa => fun a => 3 * |AngAx.angle a| + 7
  | .rv => fun r => 3 * (RotVec.v r).norm + 10
  | .xyz => fun e => |EulXyz.x e| + |EulXyz.y e| + |EulXyz.z e|
  | .zyx => fun e => |EulZyx.x e| + |EulZyx.y e| + |EulZyx.z e|

/-- Every stored number of a rotation. -/
def Stored (p : ℝ → Prop) : (k : Kind) → Rep k → Prop
  | .quat => fun q => p (Quat.w q) ∧ p (Quat.x q) ∧ p (Quat.y q) ∧ p (Quat.z q)
  | .mat => fun m => p (M3.m00 m) ∧ p (M3.m01 m) ∧ p (M3.m02 m) ∧ p (M3.m10 m) ∧ p (M3.m11 m) ∧ p (M3.m12 m) ∧
      p (M3.m20 m) ∧ p (M3.m21 m) ∧ p (M3.m22 m)
  | .aa => fun a => p (AngAx.angle a) ∧ p (AngAx.axis a).x ∧ p (AngAx.axis a).y ∧ p (AngAx.axis a).z
  | .rv => fun r => p (RotVec.v r).x ∧ p (RotVec.v r).y ∧ p (RotVec.v r).z
  | .xyz => fun e => p (EulXyz.x e) ∧ p (EulXyz.y e) ∧ p (EulXyz.z e)
  | .zyx => fun e => p (EulZyx.x e) ∧ p (EulZyx.y e) ∧ p (EulZyx.z e)

end Kindr.Spec
