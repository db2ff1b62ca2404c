import Mathlib.Analysis.Calculus.Deriv.Basic
import Verif.Spec.Rotation

/-!
# Independent specification of angular velocity

A rotation that moves with time is a curve `r : ℝ → Rep k`.  Its angular velocity is defined through what it does to
every fixed vector `u`: with `R(s) u = act k (r s) u`,

* `w` is the *global* angular velocity at `t` iff `d/ds R(s) u = w × R(t) u` for all `u`,
* `w` is the *local* (body-frame) angular velocity at `t` iff `d/ds R(s) u = R(t) (w × u)` for all `u`.
-/

set_option autoImplicit false

noncomputable section
namespace Kindr.Spec
open Kindr

/-- `f'` is the derivative of the vector-valued function `f` at `t` (componentwise). -/
def HasDerivV (f : ℝ → V3) (f' : V3) (t : ℝ) : Prop :=
  HasDerivAt (fun s => (f s).x) f'.x t ∧ HasDerivAt (fun s => (f s).y) f'.y t ∧ HasDerivAt (fun s => (f s).z) f'.z t

/-- `f'` is the derivative of the quaternion-valued function `f` at `t` (componentwise). -/
def HasDerivQ (f : ℝ → Quat) (f' : Quat) (t : ℝ) : Prop :=
  HasDerivAt (fun s => (f s).w) f'.w t ∧ HasDerivAt (fun s => (f s).x) f'.x t ∧
  HasDerivAt (fun s => (f s).y) f'.y t ∧ HasDerivAt (fun s => (f s).z) f'.z t

/-- `f'` is the derivative of the 3x3-matrix-valued function `f` at `t` (componentwise). -/
def HasDerivM (f : ℝ → M3) (f' : M3) (t : ℝ) : Prop :=
  (HasDerivAt (fun s => (f s).m00) f'.m00 t ∧ HasDerivAt (fun s => (f s).m01) f'.m01 t ∧
    HasDerivAt (fun s => (f s).m02) f'.m02 t) ∧
  (HasDerivAt (fun s => (f s).m10) f'.m10 t ∧ HasDerivAt (fun s => (f s).m11) f'.m11 t ∧
    HasDerivAt (fun s => (f s).m12) f'.m12 t) ∧
  (HasDerivAt (fun s => (f s).m20) f'.m20 t ∧ HasDerivAt (fun s => (f s).m21) f'.m21 t ∧
    HasDerivAt (fun s => (f s).m22) f'.m22 t)

/-- `w` is the angular velocity of the moving rotation `r` at time `t`, in coordinates of the fixed frame. -/
def IsGlobalVelocity (k : Kind) (r : ℝ → Rep k) (t : ℝ) (w : V3) : Prop :=
  ∀ u : V3, HasDerivV (fun s => act k (r s) u) (w.cross (act k (r t) u)) t

/-- `w` is the angular velocity of the moving rotation `r` at time `t`, in coordinates of the body frame. -/
def IsLocalVelocity (k : Kind) (r : ℝ → Rep k) (t : ℝ) (w : V3) : Prop :=
  ∀ u : V3, HasDerivV (fun s => act k (r s) u) (act k (r t) (w.cross u)) t

end Kindr.Spec
