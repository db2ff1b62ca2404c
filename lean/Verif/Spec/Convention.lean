import Verif.Model.Convention
import Verif.Spec.Rotation

/-!
# Specification for the convention tests

What it means for a foreign library, connected through `RotationConversion`, to use the conventions of kindr, and the
wrong conventions the suite is meant to find.
-/

set_option autoImplicit false

noncomputable section
namespace Kindr.Spec
open Kindr

/-- The conversion functions agree with kindr: every value `r` with `ok r` stands for the rotation `rep r`, and the
conversions from and to kindr preserve the rotation.  `S` restricts the claim to a set of rotations (e.g. those that are
not tiny, where kindr itself is exact). -/
structure Connects (S : M3 → Prop) (L : OtherLib) (ok : L.Rot → Prop) (rep : L.Rot → M3) : Prop where
  toOther : ∀ q, Valid .quat q → S (den .quat q) → ok (L.toOther q) ∧ rep (L.toOther q) = den .quat q
  toKindr : ∀ r, ok r → S (rep r) → Valid .quat (L.toKindr r) ∧ den .quat (L.toKindr r) = rep r

/-- The library connected through `RotationConversion` follows the conventions of kindr: matrices and vectors are rotated
actively (`A_r = C_AB B_r`), `concatenate(rot1, rot2)` is first `rot1`, then `rot2`, and `boxPlus` rotates by the exponential
of the velocity from the left. -/
structure Implements (S : M3 → Prop) (L : OtherLib) (ok : L.Rot → Prop) (rep : L.Rot → M3) : Prop
    extends Connects S L ok rep where
  matrix : ∀ r, ok r → S (rep r) → L.matrix r = rep r
  rotateVec : ∀ r v, ok r → S (rep r) → L.rotateVec r v = (rep r).mulVec v
  concat : ∀ a b, ok a → ok b → S (rep a) → S (rep b) → S (rep b * rep a) →
    ok (L.concat a b) ∧ rep (L.concat a b) = rep b * rep a
  boxPlus : ∀ r w, ok r → S (rep r) → S (den .rv (⟨w⟩ : RotVec)) → S (den .rv (⟨w⟩ : RotVec) * rep r) →
    ok (L.boxPlus r (L.toVel r w)) ∧ rep (L.boxPlus r (L.toVel r w)) = den .rv (⟨w⟩ : RotVec) * rep r

/-- `matrix` follows *some* consistent convention: it is the rotation of kindr (`active`) or its inverse, written in axes that
differ from those of kindr by a fixed orthogonal matrix `U` (permuted, flipped or rotated axes). -/
def FixedConvention (matrix : Quat → M3) (active : Bool) (U : M3) : Prop :=
  U * U.transpose = 1 ∧
  ∀ q, Valid .quat q → matrix q = U * (if active then den .quat q else (den .quat q).transpose) * U.transpose

end Kindr.Spec
