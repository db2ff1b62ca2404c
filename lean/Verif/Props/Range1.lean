import Verif.Model.Range
import Verif.Props.Bits
import Verif.Props.SpecialFinite

set_option autoImplicit false

open Classical

noncomputable section
namespace Kindr
open Spec

/-- The exponents leave room for the precision (met by `double` and `float`). -/
structure Format.Ok (f : Format) : Prop where
  p : 8 ≤ f.p
  emin : f.emin + 2 * f.p + 4 ≤ 0
  emax : (f.p : ℤ) + 8 ≤ f.emax

lemma Format.double_ok : Format.double.Ok := ⟨by norm_num [Format.double], by norm_num [Format.double], by norm_num [Format.double]⟩
lemma Format.float_ok : Format.float.Ok := ⟨by norm_num [Format.float], by norm_num [Format.float], by norm_num [Format.float]⟩

namespace Format
variable {f : Format}

/-- The exponent of the quantum. -/
def qexp (f : Format) (x : ℝ) : ℤ := max (Int.log 2 |x| - ((f.p : ℤ) - 1)) f.emin

lemma round_def (f : Format) (x : ℝ) : f.round x = roundTiesEven (x / 2 ^ f.qexp x) * 2 ^ f.qexp x := rfl

lemma qexp_neg (x : ℝ) : f.qexp (-x) = f.qexp x := by unfold qexp; rw [abs_neg]

lemma round_neg (x : ℝ) : f.round (-x) = -f.round x := by
  rw [round_def, round_def, qexp_neg, neg_div, roundTiesEven_neg]; push_cast; ring

lemma round_zero : f.round 0 = 0 := by
  have := roundTiesEven_int 0
  push_cast at this
  rw [round_def, zero_div, this]; simp

lemma emin_le_qexp (x : ℝ) : f.emin ≤ f.qexp x := le_max_right _ _

lemma round_grid (x : ℝ) : OnGrid f.emin (f.round x) := by
  rw [round_def]; exact onGrid_of_le (emin_le_qexp x) _

lemma round_nonneg {x : ℝ} (h : 0 ≤ x) : 0 ≤ f.round x := by
  rw [round_def]
  have := roundTiesEven_mono (a := ((0 : ℤ) : ℝ)) (b := x / 2 ^ f.qexp x) (by push_cast; positivity)
  rw [roundTiesEven_int] at this
  have : (0 : ℝ) ≤ roundTiesEven (x / 2 ^ f.qexp x) := by exact_mod_cast this
  positivity

lemma abs_round (x : ℝ) : |f.round x| = f.round |x| := by
  rcases le_total 0 x with h | h
  · rw [abs_of_nonneg h, abs_of_nonneg (round_nonneg h)]
  · rw [abs_of_nonpos h, round_neg]
    have := round_nonneg (f := f) (x := -x) (by linarith)
    rw [round_neg] at this
    rw [abs_of_nonpos (by linarith)]

/-- A number on the grid of `x` above `x` is above the rounded `x`. -/
lemma round_le {x y : ℝ} (h : x ≤ y) (hy : OnGrid (f.qexp x) y) : f.round x ≤ y := by
  obtain ⟨n, rfl⟩ := hy
  rw [round_def]
  have := roundTiesEven_mono (a := x / 2 ^ f.qexp x) (b := (n : ℝ)) (by rw [div_le_iff₀ (by positivity)]; exact h)
  rw [roundTiesEven_int] at this
  exact mul_le_mul_of_nonneg_right (by exact_mod_cast this) (by positivity)

lemma le_round {x y : ℝ} (h : y ≤ x) (hy : OnGrid (f.qexp x) y) : y ≤ f.round x := by
  obtain ⟨n, rfl⟩ := hy
  rw [round_def]
  have := roundTiesEven_mono (a := (n : ℝ)) (b := x / 2 ^ f.qexp x) (by rw [le_div_iff₀ (by positivity)]; exact h)
  rw [roundTiesEven_int] at this
  exact mul_le_mul_of_nonneg_right (by exact_mod_cast this) (by positivity)

lemma log_le {x : ℝ} {j : ℤ} (h0 : 0 < x) (h : x < 2 ^ (j + 1)) : Int.log 2 |x| ≤ j := by
  rw [abs_of_pos h0]
  have := (Int.lt_zpow_iff_log_lt (b := 2) (by norm_num) h0).mp (by exact_mod_cast h)
  omega
lemma le_log {x : ℝ} {j : ℤ} (h : (2 : ℝ) ^ j ≤ x) : j ≤ Int.log 2 |x| := by
  have h0 : 0 < x := lt_of_lt_of_le (by positivity) h
  rw [abs_of_pos h0]
  exact (Int.zpow_le_iff_le_log (b := 2) (by norm_num) h0).mp (by exact_mod_cast h)

lemma grid_pow {k j : ℤ} (h : k ≤ j) : OnGrid k ((2 : ℝ) ^ j) := by
  have := onGrid_of_le h 1
  simpa using this

lemma round_le_pow (hf : f.Ok) {x : ℝ} {j : ℤ} (hj : f.emin ≤ j) (h : |x| ≤ 2 ^ j) : |f.round x| ≤ 2 ^ j := by
  rw [abs_round]
  rcases eq_or_lt_of_le (abs_nonneg x) with h0 | h0
  · rw [← h0, round_zero]; positivity
  refine round_le h (grid_pow ?_)
  have hp := hf.p
  have := log_le h0 (lt_of_le_of_lt h (zpow_lt_zpow_right₀ (by norm_num) (lt_add_one j)))
  unfold qexp
  omega

lemma pow_le_round (hf : f.Ok) {x : ℝ} {j : ℤ} (hj : f.emin ≤ j) (h : (2 : ℝ) ^ j ≤ |x|) : 2 ^ j ≤ |f.round x| := by
  rw [abs_round]
  have h0 : 0 < |x| := lt_of_lt_of_le (by positivity) h
  have h1 := le_log h
  have h2 : (2 : ℝ) ^ Int.log 2 |x| ≤ |x| := by exact_mod_cast Int.zpow_log_le_self (b := 2) (by norm_num) h0
  have hp := hf.p
  rw [abs_abs] at h1
  refine le_trans (zpow_le_zpow_right₀ (by norm_num) h1) (le_round h2 (grid_pow ?_))
  unfold qexp
  rw [abs_abs]
  omega

/-- The result is zero exactly for numbers up to half the smallest positive number. -/
lemma round_eq_zero (hf : f.Ok) (x : ℝ) : f.round x = 0 ↔ |x| ≤ 2 ^ (f.emin - 1) := by
  have hp := hf.p
  have e2 : (2 : ℝ) ^ f.emin = 2 * 2 ^ (f.emin - 1) := by
    rw [← zpow_one_add₀ (by norm_num)]; congr 1; ring
  constructor
  · intro h
    by_contra hc
    push Not at hc
    have h0 : 0 < |x| := lt_trans (by positivity) hc
    rcases lt_or_ge |x| (2 ^ f.emin) with h1 | h1
    · have hq : f.qexp x = f.emin := by
        unfold qexp
        have := log_le (j := f.emin - 1) h0 (by rw [sub_add_cancel]; exact h1)
        rw [abs_abs] at this
        omega
      have h2 : f.round |x| = 0 := by rw [← abs_round, h, abs_zero]
      have hq' : f.qexp |x| = f.emin := by rw [← hq]; unfold qexp; rw [abs_abs]
      rw [round_def, hq', mul_eq_zero] at h2
      have h3 : roundTiesEven (|x| / 2 ^ f.emin) = 0 := by
        rcases h2 with h2 | h2
        · exact_mod_cast h2
        · exact absurd h2 (by positivity)
      have h4 := roundTiesEven_near (|x| / 2 ^ f.emin)
      rw [h3] at h4
      have h5 := (abs_le.mp h4).1
      push_cast at h5
      have h6 : |x| / 2 ^ f.emin ≤ 1 / 2 := by linarith
      rw [div_le_iff₀ (by positivity)] at h6
      linarith
    · have := pow_le_round hf le_rfl h1
      rw [h, abs_zero] at this
      exact absurd this (not_le.mpr (by positivity))
  · intro h
    rw [← abs_eq_zero, abs_round]
    rcases eq_or_lt_of_le (abs_nonneg x) with h0 | h0
    · rw [← h0, round_zero]
    have hq : f.qexp |x| = f.emin := by
      unfold qexp
      have := log_le (j := f.emin - 1) h0 (by rw [sub_add_cancel, e2]; linarith)
      rw [abs_abs] at this ⊢
      omega
    rw [round_def, hq]
    have hz : |x| / 2 ^ f.emin ≤ 1 / 2 := by rw [div_le_iff₀ (by positivity)]; linarith
    have h0' : 0 ≤ |x| / 2 ^ f.emin := by positivity
    have h1 := roundTiesEven_mono hz
    have h2 := roundTiesEven_mono (a := ((0 : ℤ) : ℝ)) (b := |x| / 2 ^ f.emin) (by push_cast; exact h0')
    have h3 : roundTiesEven (1 / 2 : ℝ) = 0 := by
      have := roundTiesEven_tie (n := 0) Even.zero
      simpa using this
    rw [h3] at h1
    rw [roundTiesEven_int] at h2
    have : roundTiesEven (|x| / 2 ^ f.emin) = 0 := le_antisymm h1 h2
    rw [this]; simp

/-- Above the subnormal numbers the rounding is the one with unbounded exponents. -/
lemma round_eq_roundEven {x : ℝ} (h : (2 : ℝ) ^ (f.emin + (f.p - 1)) ≤ |x|) : f.round x = roundEven f.p x := by
  have := le_log h
  rw [abs_abs] at this
  have hq : f.qexp x = Int.log 2 |x| - ((f.p : ℤ) - 1) := by unfold qexp; omega
  rw [round_def, hq]; rfl

lemma round_err (hf : f.Ok) (x : ℝ) : |f.round x - x| ≤ 2⁻¹ ^ f.p * |x| + 2 ^ (f.emin - 1) := by
  rcases le_or_gt ((2 : ℝ) ^ (f.emin + (f.p - 1))) |x| with h | h
  · rw [round_eq_roundEven h]
    have := FloatWide.roundEven_err (p := f.p) (by have := hf.p; omega) x
    have h2 : (0 : ℝ) ≤ 2 ^ (f.emin - 1) := by positivity
    linarith
  · have h0 : 0 ≤ 2⁻¹ ^ f.p * |x| := by positivity
    have hq : x ≠ 0 → f.qexp x = f.emin := by
      intro hx
      unfold qexp
      have := log_le (x := |x|) (j := f.emin + (f.p - 1) - 1) (abs_pos.mpr hx) (by rw [sub_add_cancel]; exact h)
      rw [abs_abs] at this
      omega
    rcases eq_or_ne x 0 with rfl | hx
    · rw [round_zero]; simp; positivity
    · rw [round_def, hq hx]
      have hn := roundTiesEven_near (x / 2 ^ f.emin)
      have e : (roundTiesEven (x / 2 ^ f.emin) : ℝ) * 2 ^ f.emin - x = (roundTiesEven (x / 2 ^ f.emin) - x / 2 ^ f.emin) * 2 ^ f.emin := by
        field_simp
      rw [e, abs_mul, abs_of_pos (by positivity : (0 : ℝ) < 2 ^ f.emin)]
      have e2 : (2 : ℝ) ^ f.emin = 2 * 2 ^ (f.emin - 1) := by
        rw [← zpow_one_add₀ (by norm_num)]; congr 1; ring
      rw [e2] at hn ⊢
      nlinarith [mul_le_mul_of_nonneg_right hn (by positivity : (0 : ℝ) ≤ 2 * 2 ^ (f.emin - 1))]

/-! ## Elementary operations -/

lemma rnd_fin (hf : f.Ok) {x : ℝ} {j : ℤ} (hj : f.emin ≤ j) (hj' : j < f.emax) (h : |x| ≤ 2 ^ j) : f.arith.rnd x = .fin (f.round x) := by
  change (if _ then _ else _) = _
  rw [if_neg]
  rw [not_le]
  exact lt_of_le_of_lt (round_le_pow hf hj h) (zpow_lt_zpow_right₀ (by norm_num) hj')

lemma rnd_inf (hf : f.Ok) {x : ℝ} (h : 2 ^ f.emax ≤ |x|) : f.arith.rnd x = .inf (decide (x < 0)) := by
  change (if _ then _ else _) = _
  rw [if_pos]
  refine pow_le_round hf ?_ h
  have h1 := hf.p; have h2 := hf.emin; have h3 := hf.emax
  omega

/-- The two possible results for a nonnegative number. -/
lemma rnd_cases {x : ℝ} (h : 0 ≤ x) : f.arith.rnd x = .inf false ∨ f.arith.rnd x = .fin (f.round x) := by
  change (if _ then _ else _) = _ ∨ (if _ then _ else _) = _
  split_ifs
  · left; simp [h]
  · right; rfl

end Format
end Kindr
