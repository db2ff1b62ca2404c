import Verif.Model.FloatPose
import Verif.Model.FloatLog
import Verif.Spec.Binary

/-!
# Specification: results that are exact to the last bit

The error bounds of C85–C91 allow every rounding.  Some results do not depend on the rounding at all: the conditions under which they can
be claimed are stated here, without reference to the error bounds.
-/

set_option autoImplicit false

open Classical

noncomputable section
namespace Kindr.Spec

/-- The arithmetic `F` computes with `p`-bit numbers: results are representable, representable results are exact, a change of sign commutes
with the rounding (to nearest with ties to even or away from zero, or toward zero), and the library is exact at the arguments of the identity. -/
structure Ieee (p : ℕ) (F : FloatLib) : Prop where
  round : BinaryRounding p F.fl
  odd : ∀ x, F.fl (-x) = -F.fl x
  sin_float : ∀ x, IsFloat p (F.sin x)
  cos_float : ∀ x, IsFloat p (F.cos x)
  atan2_float : ∀ y x, IsFloat p (F.atan2 y x)
  sin_zero : F.sin 0 = 0
  cos_zero : F.cos 0 = 1
  atan2_axis : ∀ x, 0 < x → F.atan2 0 x = 0

/-- All coefficients of a 3-vector are `p`-bit numbers. -/
def BitsVec (p : ℕ) (v : V3) : Prop := IsFloat p v.x ∧ IsFloat p v.y ∧ IsFloat p v.z

/-- All coefficients stored by a rotation object are `p`-bit numbers. -/
def Bits (p : ℕ) : (k : Kind) → Rep k → Prop
  | .quat => fun (q : Quat) => IsFloat p q.w ∧ IsFloat p q.x ∧ IsFloat p q.y ∧ IsFloat p q.z
  | .mat => fun (m : M3) => BitsVec p ⟨m.m00, m.m01, m.m02⟩ ∧ BitsVec p ⟨m.m10, m.m11, m.m12⟩ ∧ BitsVec p ⟨m.m20, m.m21, m.m22⟩
  | .aa => fun (a : AngAx) => IsFloat p a.angle ∧ BitsVec p a.axis
  | .rv => fun (r : RotVec) => BitsVec p r.v
  | .xyz => fun (e : EulXyz) => BitsVec p e.v
  | .zyx => fun (e : EulZyx) => BitsVec p e.v

end Kindr.Spec
