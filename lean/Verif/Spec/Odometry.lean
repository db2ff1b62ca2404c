import Verif.Spec.Deriv
import Verif.Spec.Pose

/-!
# Dead reckoning: the programs and motions of C117
-/

set_option autoImplicit false

noncomputable section
namespace Kindr.Spec
open Kindr

/-- The program `for ((v, w) : readings) T = T * Pose(Position(v), Rotation().exponentialMap(w));`: a pose is advanced by
displacements `v` and rotation vectors `w` measured in the body frame. -/
def odometryLoop (P : Prec) (k : Kind) : Pose k → List (V3 × V3) → Pose k
  | T, [] => T
  | T, (v, w) :: l => odometryLoop P k (T.mult P k k ⟨v, exponentialMap P k w⟩) l

/-- The readings of body-frame velocities `v`, `w`, sampled `n` times from `t` in steps of `h` and multiplied by `h`. -/
def readings (v w : ℝ → V3) (h : ℝ) : ℝ → ℕ → List (V3 × V3)
  | _, 0 => []
  | t, n + 1 => (h • v t, h • w t) :: readings v w h (t + h) n

/-- At the time `t` the body with the pose `T` has the angular velocity `w` and the linear velocity `v`, both in coordinates of the
body frame. -/
def MovesWith (k : Kind) (T : ℝ → Pose k) (t : ℝ) (v w : V3) : Prop :=
  IsLocalVelocity k (fun s => (T s).rotation) t w ∧ HasDerivV (fun s => (T s).position) (act k (T t).rotation v) t

/-- Where a point of the body ends up if the displacements are carried out exactly, the last reading first. -/
def stepsInTurn : List (V3 × V3) → V3 → V3
  | [], p => p
  | (v, w) :: l, p => act .rv (⟨w⟩ : RotVec) (stepsInTurn l p) + v

end Kindr.Spec
