import Verif.Spec.FloatConv
import Verif.Spec.Pose
import Verif.Model.FloatPose

/-!
# Specification of chains of poses in rounded arithmetic
-/

set_option autoImplicit false

noncomputable section
namespace Kindr.Spec
open Kindr

/-- A pose with any rotation class. -/
abbrev AnyPose := Σ k : Kind, Pose k

/-- The rigid motions of the list applied one after the other, the last one first: `T₁(T₂(… Tₙ(p)))`. -/
def moveInTurn : List AnyPose → V3 → V3
  | [], p => p
  | T :: l, p => move T.1 T.2 (moveInTurn l p)

/-- The program `for (S : l) T = T * S;` in rounded arithmetic. -/
def floatPoseChain (F : FloatLib) (P : Prec) (k : Kind) (T : Pose k) (l : List AnyPose) : Pose k :=
  l.foldl (fun T S => F.poseMult P k S.1 T S.2) T

/-- The total length of the chain: the sum of the distances of the origins. -/
def chainLength (l : List AnyPose) : ℝ := (l.map fun S => S.2.position.norm).sum

/-- Error per multiplication in the chain. -/
def chainLoss (P : Prec) (u : ℝ) : Kind → ℝ
  | .quat => 450 * u + P.eps / 400
  | .mat => 12 * u
  | .aa => 410 * u + P.eps / 700 + 101 / 100 * P.dp
  | .rv => 1100 * u + P.eps / 250 + P.dp / 50
  | _ => 14000 * u + P.eps / 25 + 101 / 100 * P.dp

end Kindr.Spec
