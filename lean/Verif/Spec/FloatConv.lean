import Verif.Spec.Matrix
import Verif.Model.FloatConv

/-!
# Specification of rounded rotations

What it means that stored floating-point numbers stand for a rotation, and the table of errors of the conversions.
-/

set_option autoImplicit false

noncomputable section
namespace Kindr.Spec
open Kindr

/-- The numbers stored in `r` differ from those in `r'` by at most `η`: Euclidean distance for quaternions and for the axis of an
angle-axis pair, entry by entry for matrices.  Rotation vectors and Euler angles are compared exactly (every triple of numbers is a
rotation vector, and a triple of Euler angles). -/
def OffBy (η : ℝ) : (k : Kind) → Rep k → Rep k → Prop
  | .quat => fun q q' => (Quat.w q - Quat.w q') ^ 2 + (Quat.x q - Quat.x q') ^ 2 + (Quat.y q - Quat.y q') ^ 2 + (Quat.z q - Quat.z q') ^ 2 ≤ η ^ 2
  | .mat => fun m m' => EntryClose η m m'
  | .aa => fun a a' => AngAx.angle a = AngAx.angle a' ∧ (AngAx.axis a - AngAx.axis a').norm ≤ η
  | .rv => fun r r' => r = r'
  | .xyz => fun e e' => e = e'
  | .zyx => fun e e' => e = e'

/-- The stored numbers `r` stand for the rotation `R`: they are within `η` of an exact representation `r'` (a unit quaternion, a
rotation matrix, a unit axis) of a rotation that moves every vector to within `δ` (relative) of where `R` moves it. -/
def Rounded (η δ : ℝ) (k : Kind) (r : Rep k) (R : M3) : Prop :=
  0 ≤ η ∧ ∃ r' : Rep k, Valid k r' ∧ OffBy η k r r' ∧ ∀ v : V3, (act k r' v - R.mulVec v).norm ≤ δ * v.norm

/-- The size of the stored angles. -/
def angleSize : (k : Kind) → Rep k → ℝ
  | .quat => fun _ => 0
  | .mat => fun _ => 0
  | .aa => fun a => |AngAx.angle a|
  | .rv => fun r => (RotVec.v r).norm
  | .xyz => fun e => |EulXyz.x e| + |EulXyz.y e| + |EulXyz.z e|
  | .zyx => fun e => |EulZyx.x e| + |EulZyx.y e| + |EulZyx.z e|

/-- Error of the conversion to a quaternion of a value of class `s` with angles of size `S` that is off by `η`. -/
def quatErr (P : Prec) (u η S : ℝ) : Kind → ℝ
  | .quat => η
  | .mat => 5 * η + 35 * u
  | .aa => 2 * η + (6 + S) * u
  | .rv => (11 + 6 * S) * u + P.eps / 3000
  | .xyz => (38 + 2 * S) * u
  | .zyx => (38 + 2 * S) * u

/-- How far the result of a conversion to class `d` is from an exact representation (`e`: error of the quaternion). -/
def convOff (u e : ℝ) : Kind → ℝ
  | .quat => e
  | .mat => 5 * e + 21 * u
  | .aa => 6 * u
  | _ => 0

/-- How far the result of a conversion to class `d` is rotated away (`e`: error of the quaternion, `S`: size of the angles). -/
def convLoss (P : Prec) (u η e S : ℝ) : Kind → ℝ
  | .quat => 0
  | .mat => 4 * e
  | .aa => 4 * e + 32 * u + 101 / 100 * P.dp
  | .rv => 5 * e + 290 * u + 3 * (η * S) + P.dp / 50
  | _ => 101 * e + 1000 * u + 101 / 100 * P.dp

/-- The conversion to a rotation vector does not divide by zero: it takes the small-angle branch or the vector part of the
quaternion is not zero (a matrix is first converted to a quaternion; the other conversions to a rotation vector never divide by
zero). -/
def RvDefined (F : FloatLib) (P : Prec) : (s : Kind) → Rep s → Prop
  | .quat => fun q => F.rvSmall P q ∨ Quat.vec q ≠ 0
  | .mat => fun m => F.rvSmall P (F.ofMatrix m) ∨ (F.ofMatrix m).vec ≠ 0
  | _ => fun _ => True

/-- The program `for (w : l) r = r.boxPlus(w);` in rounded arithmetic. -/
def floatBoxPlusLoop (F : FloatLib) (P : Prec) (k : Kind) : Rep k → List V3 → Rep k
  | r, [] => r
  | r, w :: l => floatBoxPlusLoop F P k (F.boxPlus P k r w) l

/-- The error of one step of that loop. -/
def loopLoss (P : Prec) (u : ℝ) : Kind → ℝ
  | .quat => 320 * u + P.eps / 400
  | .mat => 770 * u + P.eps / 100
  | .aa => 530 * u + P.eps / 700 + 202 / 100 * P.dp
  | .rv => 970 * u + P.eps / 100 + P.dp / 50
  | _ => 20600 * u + P.eps / 25 + 202 / 100 * P.dp

/-- The error of `boxMinus` (`E`: error of the product of the two quaternions). -/
def boxLoss (P : Prec) (u E : ℝ) : ℝ := 330 * E + 4800 * u + P.eps / 300 + 31 / 10 * P.dp

end Kindr.Spec
