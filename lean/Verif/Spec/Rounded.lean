import Verif.Spec.Defined
import Verif.Spec.Binary

/-!
# Specification vocabulary for arithmetic with any rounding, without overflow
-/

set_option autoImplicit false

open Classical

noncomputable section
namespace Kindr.Spec
open Kindr

/-- Rounding to stored numbers without overflow: `f x` is the stored number returned for the exact result `x`.  It is monotone and
keeps stored numbers; 0 and 1 are stored numbers, and so is the negative of a stored number.  Every IEEE 754 rounding mode is
like this as long as no operation overflows (`C96_binary`); underflow to zero is allowed. -/
structure RoundsTo (A : XArith) (f : ℝ → ℝ) : Prop where
  rnd : ∀ x, A.rnd x = .fin (f x)
  mono : Monotone f
  idem : ∀ x, f (f x) = f x
  neg : ∀ x, f x = x → f (-x) = -x
  zero : f 0 = 0
  one : f 1 = 1

/-- A finite stored number. -/
def StoredNum (f : ℝ → ℝ) : XR → Prop
  | .fin y => f y = y
  | _ => False

/-- A vector of finite stored numbers. -/
def StoredVec (f : ℝ → ℝ) (v : XV3) : Prop := StoredNum f v.x ∧ StoredNum f v.y ∧ StoredNum f v.z

/-- All coefficients of the rotation are finite stored numbers.  Nothing is said about the norm of a quaternion or axis, or the
orthogonality of a matrix. -/
def StoredRot (f : ℝ → ℝ) : (k : Kind) → XRep k → Prop
  | .quat => fun (q : XQuat) => StoredNum f q.w ∧ StoredNum f q.x ∧ StoredNum f q.y ∧ StoredNum f q.z
  | .mat => fun (m : XM3) => StoredVec f (XArith.row m 0) ∧ StoredVec f (XArith.row m 1) ∧ StoredVec f (XArith.row m 2)
  | .aa => fun (a : XAA) => StoredNum f a.angle ∧ StoredVec f a.axis
  | .rv => fun (v : XV3) => StoredVec f v
  | .xyz => fun (v : XV3) => StoredVec f v
  | .zyx => fun (v : XV3) => StoredVec f v

/-- A finite printed value (a printed truth value is always defined). -/
def StoredOut (f : ℝ → ℝ) : XOut → Prop
  | .vec v => StoredVec f v
  | .num x => StoredNum f x
  | .bool _ => True

/-- Classes from which a rotation vector is computed without a division that can fail: all but quaternion and matrix. -/
def RvSource (k : Kind) : Prop := k ≠ .quat ∧ k ≠ .mat

/-- The command never computes a rotation vector from a quaternion or a matrix: it does not assign one to a `RotationVector`
variable, and the left operand of a product or disparity angle (whose class is that of the product) is not a `RotationVector`. -/
def RvFree (cls : ℕ → Kind) : Cmd → Prop
  | .assign d s => cls d = .rv → RvSource (cls s)
  | .mul d a _ => cls a ≠ .rv ∧ (cls d = .rv → RvSource (cls a))
  | .inv d a => cls d = .rv → RvSource (cls a)
  | .setIdentity _ => True
  | .exp _ _ => True
  | .boxPlus d a _ => cls a ≠ .rv ∧ (cls d = .rv → RvSource (cls a))
  | .setUnique _ => True
  | .rotate _ _ => True
  | .inverseRotate _ _ => True
  | .disparity a _ => cls a ≠ .rv
  | .isNear _ _ _ => True

/-- The call throws or returns finite stored numbers. -/
def ThrowsOrStored (f : ℝ → ℝ) (r : Res XM3) : Prop := r = .throws ∨ ∃ m, r = .ok m ∧ StoredRot f .mat m

/-- No result underflows to zero. -/
def NoUnderflow (f : ℝ → ℝ) : Prop := ∀ x, f x = 0 → x = 0

/-- The arithmetic of binary floating point with `p` bits and rounding `fl`, exponents unbounded. -/
def binaryArith (p : ℕ) (fl : ℝ → ℝ) (h : BinaryRounding p fl) : XArith where
  rnd x := .fin (fl x)
  rnd_zero := by rw [h.fix 0 ⟨0, 0, by simp, by simp⟩]
  rnd_ne_nan _ := by simp
  rnd_nonneg x hx := by
    have h0 := h.fix 0 ⟨0, 0, by simp, by simp⟩
    exact not_lt.mpr (h0 ▸ h.mono hx)

/-- StoredRot numbers that stand for no rotation: a quaternion of norm 5, a singular matrix with a negative diagonal entry, an angle-axis with
zero axis. -/
def notRotation : (k : Kind) → XRep k
  | .quat => (⟨.fin 3, .fin 0, .fin (-4), .fin 0⟩ : XQuat)
  | .mat => (⟨.fin 2, .fin 0, .fin 0, .fin 1, .fin (-4), .fin 0, .fin 0, .fin 0, .fin 0⟩ : XM3)
  | .aa => (⟨.fin 8, ⟨.fin 0, .fin 0, .fin 0⟩⟩ : XAA)
  | .rv => (⟨.fin 0, .fin 8, .fin 0⟩ : XV3)
  | .xyz => (⟨.fin 1, .fin 16, .fin 0⟩ : XV3)
  | .zyx => (⟨.fin 1, .fin 16, .fin 0⟩ : XV3)

end Kindr.Spec
