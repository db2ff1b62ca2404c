import Verif.Model.Special
import Verif.Model.SpecialOps
import Verif.Model.Binary

/-!
# Floating point with a bounded range of exponents

`double` and `float` of IEEE 754 with gradual underflow and overflow, rounding to nearest, ties to even.  This is the arithmetic the templates of
the library are instantiated with (`template<typename PrimType_>`, include/kindr/vectors/Vector.hpp:50-51,
include/kindr/rotations/RotationQuaternion.hpp:56-58).  The sign of zero is not modelled.
-/

set_option autoImplicit false

open Classical

noncomputable section
namespace Kindr

/-- A binary format: `p` significant bits, smallest positive number `2 ^ emin`, numbers of magnitude `2 ^ emax` and more overflow. -/
structure Format where
  p : ℕ
  emin : ℤ
  emax : ℤ

/-- `double` (IEEE 754 binary64), include/kindr/vectors/Vector.hpp:50-51 with `PrimType_ = double`. -/
def Format.double : Format := ⟨53, -1074, 1024⟩
/-- `float` (IEEE 754 binary32), include/kindr/vectors/Vector.hpp:50-51 with `PrimType_ = float`. -/
def Format.float : Format := ⟨24, -149, 128⟩

namespace Format
variable (f : Format)

/-- The distance of neighbouring numbers at `x`. -/
def quantum (x : ℝ) : ℝ := 2 ^ max (Int.log 2 |x| - ((f.p : ℤ) - 1)) f.emin

/-- Rounding to nearest, ties to even, before the check for overflow. -/
def round (x : ℝ) : ℝ := roundTiesEven (x / f.quantum x) * f.quantum x

lemma quantum_pos (x : ℝ) : 0 < f.quantum x := by unfold quantum; positivity

/-- The arithmetic of the format. -/
def arith : XArith where
  rnd x := if 2 ^ f.emax ≤ |f.round x| then .inf (decide (x < 0)) else .fin (f.round x)
  rnd_zero := by
    have : f.round 0 = 0 := by
      unfold round
      rw [zero_div]
      have : roundTiesEven 0 = 0 := by unfold roundTiesEven; simp
      rw [this]; simp
    rw [this, abs_zero, if_neg (not_le.mpr (by positivity))]
  rnd_ne_nan x := by split_ifs <;> simp
  rnd_nonneg x hx := by
    split_ifs
    · simp [XR.lt, hx]
    · refine not_lt.mpr ?_
      have : (0 : ℤ) ≤ roundTiesEven (x / f.quantum x) := by
        have h0 : 0 ≤ ⌊x / f.quantum x⌋ := Int.floor_nonneg.mpr (div_nonneg hx (f.quantum_pos x).le)
        unfold roundTiesEven; split_ifs <;> omega
      exact mul_nonneg (by exact_mod_cast this) (f.quantum_pos x).le

end Format
end Kindr
