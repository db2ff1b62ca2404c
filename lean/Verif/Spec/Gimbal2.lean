import Verif.Spec.Gimbal
import Verif.Spec.Defined

/-!
# Specification vocabulary for second derivatives and rates of Euler angles near the gimbal lock
-/

set_option autoImplicit false

noncomputable section
namespace Kindr.Spec
open Kindr

/-- A call in the format `f` returns, without exception, the finite matrix that exact real arithmetic would return, every entry up to
`100 * 2^-p * rate / cos² y` (and the effect of underflow); `rate` is the size of the rates that enter. -/
def SecondAccurate (f : Format) (rate y : ℝ) (computed : Res XM3) (exact : Res M3) : Prop :=
  ∃ m x, computed = .ok (embM m) ∧ exact = .ok x ∧
    EntryNear 0 (100 * 2⁻¹ ^ f.p * (rate + 2 ^ (f.emin + f.p)) / Real.cos y ^ 2) m x

/-- A call in the format `f` returns, without exception, the finite vector that exact real arithmetic would return, every component up to
`100 * 2^-p * (|wx| + |wy| + |wz|) / |cos y|` (and the effect of underflow). -/
def DiffAccurate (f : Format) (w : V3) (y : ℝ) (computed : Res XV3) (exact : Res V3) : Prop :=
  ∃ r x, computed = .ok (emb3 r) ∧ exact = .ok x ∧
    |r.x - x.x| ≤ 100 * 2⁻¹ ^ f.p * (|w.x| + |w.y| + |w.z| + 2 ^ (f.emin + f.p)) / |Real.cos y| ∧
    |r.y - x.y| ≤ 100 * 2⁻¹ ^ f.p * (|w.x| + |w.y| + |w.z| + 2 ^ (f.emin + f.p)) / |Real.cos y| ∧
    |r.z - x.z| ≤ 100 * 2⁻¹ ^ f.p * (|w.x| + |w.y| + |w.z| + 2 ^ (f.emin + f.p)) / |Real.cos y|

end Kindr.Spec
