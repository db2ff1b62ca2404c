import Verif.Model.Scalar
import Mathlib.Tactic.FieldSimp
import Mathlib.Tactic.LinearCombination

/-!
# C01, C02, C03, C27: modulo, angle wrapping, relative comparison
-/

set_option autoImplicit false

open Classical

noncomputable section
namespace Kindr

lemma modulo_raw_pos (x : ℝ) {y : ℝ} (hy : 0 < y) : 0 ≤ x - y * ⌊x / y⌋ ∧ x - y * ⌊x / y⌋ < y := by
  have h1 := Int.floor_le (x / y)
  have h2 := Int.lt_floor_add_one (x / y)
  rw [le_div_iff₀ hy] at h1
  rw [div_lt_iff₀ hy] at h2
  constructor <;> nlinarith

lemma modulo_raw_neg (x : ℝ) {y : ℝ} (hy : y < 0) : y < x - y * ⌊x / y⌋ ∧ x - y * ⌊x / y⌋ ≤ 0 := by
  have h1 := Int.floor_le (x / y)
  have h2 := Int.lt_floor_add_one (x / y)
  rw [le_div_iff_of_neg hy] at h1
  rw [div_lt_iff_of_neg hy] at h2
  constructor <;> nlinarith

lemma modulo_eq (x : ℝ) {y : ℝ} (hy : y ≠ 0) : floatingPointModulo x y = x - y * ⌊x / y⌋ := by
  rcases lt_or_gt_of_ne hy with h | h
  · have := modulo_raw_neg x h
    simp only [floatingPointModulo, fpModuloFrom, hy, if_false, not_lt.mpr h.le, gt_iff_lt,
      not_le.mpr this.1, not_lt.mpr this.2]
  · have := modulo_raw_pos x h
    simp only [floatingPointModulo, fpModuloFrom, hy, if_false, h, gt_iff_lt, if_true, ge_iff_le,
      not_le.mpr this.2, not_lt.mpr this.1]

/-- **C01.** `floatingPointModulo(x,y)`: range and congruence. -/
theorem C01_modulo (x y : ℝ) :
    (0 < y → 0 ≤ floatingPointModulo x y ∧ floatingPointModulo x y < y) ∧
    (y < 0 → y < floatingPointModulo x y ∧ floatingPointModulo x y ≤ 0) ∧
    (y = 0 → floatingPointModulo x y = x) ∧
    (∃ k : ℤ, floatingPointModulo x y = x + k * y) := by
  refine ⟨fun h => ?_, fun h => ?_, fun h => ?_, ?_⟩
  · rw [modulo_eq x h.ne']; exact modulo_raw_pos x h
  · rw [modulo_eq x h.ne]; exact modulo_raw_neg x h
  · simp [floatingPointModulo, fpModuloFrom, h]
  · by_cases h : y = 0
    · exact ⟨0, by simp [floatingPointModulo, fpModuloFrom, h]⟩
    · exact ⟨-⌊x / y⌋, by rw [modulo_eq x h]; push_cast; ring⟩

/-- non-vacuity of C01: `floatingPointModulo(-1, 3) = 2`. -/
example : floatingPointModulo (-1) 3 = 2 := by
  have : ⌊(-1 / 3 : ℝ)⌋ = -1 := by rw [Int.floor_eq_iff]; norm_num
  rw [modulo_eq _ (by norm_num), this]; norm_num

/-- Values in a half-open interval of length `p` that differ by a multiple of `p` are equal. -/
lemma unique_rep {a p x y : ℝ} {k : ℤ} (hp : 0 < p) (hx : a ≤ x ∧ x < a + p) (hy : a ≤ y ∧ y < a + p)
    (h : x = y + k * p) : x = y := by
  have h1 : (k : ℝ) * p < 1 * p := by linarith
  have h2 : (-1 : ℝ) * p < k * p := by linarith
  have h3 : (k : ℝ) < 1 := lt_of_mul_lt_mul_right h1 hp.le
  have h4 : (-1 : ℝ) < k := lt_of_mul_lt_mul_right h2 hp.le
  have h5 : k < 1 := by exact_mod_cast h3
  have h6 : -1 < k := by exact_mod_cast h4
  have : k = 0 := by omega
  rw [h, this]; simp

/-- What it means for `f` to return *the* representative of an angle in `[lo, lo+period)`. -/
def IsWrapping (f : ℝ → ℝ) (lo period : ℝ) : Prop :=
  ∀ a : ℝ, (lo ≤ f a ∧ f a < lo + period) ∧ (∃ k : ℤ, f a = a + k * period) ∧
    (∀ b : ℝ, lo ≤ b → b < lo + period → (∃ k : ℤ, b = a + k * period) → b = f a) ∧
    (∀ k : ℤ, f (a + k * period) = f a) ∧ f (f a) = f a

lemma isWrapping_of {f : ℝ → ℝ} {lo period : ℝ} (hp : 0 < period)
    (h1 : ∀ a, lo ≤ f a ∧ f a < lo + period) (h2 : ∀ a, ∃ k : ℤ, f a = a + k * period) :
    IsWrapping f lo period := by
  intro a
  obtain ⟨k, hk⟩ := h2 a
  refine ⟨h1 a, ⟨k, hk⟩, ?_, ?_, ?_⟩
  · rintro b hb1 hb2 ⟨j, hj⟩
    refine unique_rep (k := j - k) hp ⟨hb1, hb2⟩ (h1 a) ?_
    rw [hj, hk]; push_cast; ring
  · intro j
    obtain ⟨i, hi⟩ := h2 (a + j * period)
    refine unique_rep (k := i + j - k) hp (h1 _) (h1 a) ?_
    rw [hi, hk]; push_cast; ring
  · obtain ⟨i, hi⟩ := h2 (f a)
    exact unique_rep (k := i) hp (h1 _) (h1 a) hi

/-- **C02.** `wrapAngle`, `wrapPosNegPI` and `wrapTwoPI` return the unique representative of the angle, are periodic
and idempotent. -/
theorem C02_wrap :
    (∀ x1 x2 : ℝ, x1 < x2 → IsWrapping (fun a => wrapAngle a x1 x2) x1 (x2 - x1)) ∧
    IsWrapping wrapPosNegPI (-Real.pi) (2 * Real.pi) ∧
    IsWrapping wrapTwoPI 0 (2 * Real.pi) := by
  have pp := Real.two_pi_pos
  refine ⟨fun x1 x2 h => ?_, ?_, ?_⟩
  · have hp : 0 < x2 - x1 := by linarith
    refine isWrapping_of hp (fun a => ?_) (fun a => ?_)
    · obtain ⟨h1, -, -, -⟩ := C01_modulo (a - x1) (x2 - x1)
      have := h1 hp
      simp only [wrapAngle]; constructor <;> linarith
    · obtain ⟨-, -, -, k, hk⟩ := C01_modulo (a - x1) (x2 - x1)
      exact ⟨k, by simp only [wrapAngle, hk]; ring⟩
  · refine isWrapping_of pp (fun a => ?_) (fun a => ?_)
    · obtain ⟨h1, -, -, -⟩ := C01_modulo (a + Real.pi) (2 * Real.pi)
      have := h1 pp
      simp only [wrapPosNegPI]; constructor <;> linarith
    · obtain ⟨-, -, -, k, hk⟩ := C01_modulo (a + Real.pi) (2 * Real.pi)
      exact ⟨k, by simp only [wrapPosNegPI, hk]; ring⟩
  · refine isWrapping_of pp (fun a => ?_) (fun a => ?_)
    · obtain ⟨h1, -, -, -⟩ := C01_modulo a (2 * Real.pi)
      have := h1 pp
      simp only [wrapTwoPI]; constructor <;> linarith
    · obtain ⟨-, -, -, k, hk⟩ := C01_modulo a (2 * Real.pi)
      exact ⟨k, by simp only [wrapTwoPI, hk]⟩

lemma wrapPosNegPI_mem (a : ℝ) : -Real.pi ≤ wrapPosNegPI a ∧ wrapPosNegPI a < Real.pi := by
  have := (C02_wrap.2.1 a).1; constructor <;> linarith
lemma wrapPosNegPI_congr (a : ℝ) : ∃ k : ℤ, wrapPosNegPI a = a + k * (2 * Real.pi) := (C02_wrap.2.1 a).2.1
lemma wrapPosNegPI_of_mem {a : ℝ} (h1 : -Real.pi ≤ a) (h2 : a < Real.pi) : wrapPosNegPI a = a :=
  ((C02_wrap.2.1 a).2.2.1 a h1 (by linarith) ⟨0, by simp⟩).symm
lemma wrapPosNegPI_pi : wrapPosNegPI Real.pi = -Real.pi := by
  have := Real.pi_pos
  exact ((C02_wrap.2.1 Real.pi).2.2.1 (-Real.pi) (le_refl _) (by linarith) ⟨-1, by push_cast; ring⟩).symm

/-- non-vacuity of C02: `wrapPosNegPI(3π/2) = -π/2`, `wrapAngle(7, 1, 4) = 1`. -/
example : wrapPosNegPI (3 * Real.pi / 2) = -Real.pi / 2 := by
  have := Real.pi_pos
  exact ((C02_wrap.2.1 (3 * Real.pi / 2)).2.2.1 (-Real.pi / 2) (by linarith) (by linarith)
    ⟨-1, by push_cast; ring⟩).symm
example : wrapAngle 7 1 4 = 1 :=
  ((C02_wrap.1 1 4 (by norm_num) 7).2.2.1 1 (by norm_num) (by norm_num) ⟨-2, by norm_num⟩).symm

/-! ## C03 -/

/-- **C03 (a).** Whatever `m ≥ -y` comes out of the rounded evaluation of `x - y*floor(x/y)`, and whatever monotone
rounding that fixes `0` and `y` is applied to `y + m`, the returned value is in `[0, y)`. -/
theorem C03_modulo_range_any_m (fl : ℝ → ℝ) (hmono : Monotone fl) (x y m : ℝ) (hy : 0 < y)
    (hfly : fl y = y) (hfl0 : fl 0 = 0) (hm : -y ≤ m) :
    0 ≤ fpModuloFrom fl x y m ∧ fpModuloFrom fl x y m < y := by
  simp only [fpModuloFrom, hy.ne', if_false, gt_iff_lt, hy, if_true]
  split_ifs with h1 h2 h3
  · exact ⟨le_refl _, hy⟩
  · exact ⟨le_refl _, hy⟩
  · constructor
    · rw [← hfl0]; exact hmono (by linarith)
    · refine lt_of_le_of_ne ?_ h3
      calc fl (y + m) ≤ fl y := hmono (by linarith)
        _ = y := hfly
  · exact ⟨not_lt.mp h2, not_le.mp h1⟩

/-- The mirror image for a negative divisor. -/
theorem C03_modulo_range_any_m_neg (fl : ℝ → ℝ) (hmono : Monotone fl) (x y m : ℝ) (hy : y < 0)
    (hfly : fl y = y) (hfl0 : fl 0 = 0) (hm : m ≤ -y) :
    y < fpModuloFrom fl x y m ∧ fpModuloFrom fl x y m ≤ 0 := by
  simp only [fpModuloFrom, hy.ne, if_false, gt_iff_lt, not_lt.mpr hy.le]
  split_ifs with h1 h2 h3
  · exact ⟨hy, le_refl _⟩
  · exact ⟨hy, le_refl _⟩
  · constructor
    · refine lt_of_le_of_ne ?_ (Ne.symm h3)
      calc y = fl y := hfly.symm
        _ ≤ fl (y + m) := hmono (by linarith)
    · rw [← hfl0]; exact hmono (by linarith)
  · exact ⟨not_le.mp h1, not_lt.mp h2⟩

/-- A rounding function of relative accuracy `u`: monotone, `|fl z - z| ≤ u |z|`.  (IEEE round-to-nearest without
over/underflow, with `u = 2⁻⁵³` for `double`, `2⁻²⁴` for `float`.) -/
structure Rounding (fl : ℝ → ℝ) (u : ℝ) : Prop where
  mono : Monotone fl
  nonneg : 0 ≤ u
  small : u ≤ 1 / 16
  rel : ∀ z, |fl z - z| ≤ u * |z|

lemma rounding_m_lower {fl : ℝ → ℝ} {u : ℝ} (R : Rounding fl u) {x y : ℝ} (hy : 0 < y) (hx : u * |x| ≤ y / 8) :
    -y ≤ fl (x - fl (y * ⌊fl (x / y)⌋)) := by
  have hu := R.nonneg
  have hu' := R.small
  set q := fl (x / y) with hq
  set n : ℝ := (⌊q⌋ : ℝ) with hn
  have h1 := abs_le.mp (R.rel (x / y))
  have habs : |x / y| * y = |x| := by rw [abs_div, abs_of_pos hy]; field_simp
  have hq1 : q * y ≤ x + u * |x| := by
    have : q ≤ x / y + u * |x / y| := by linarith
    have := mul_le_mul_of_nonneg_right this hy.le
    calc q * y ≤ (x / y + u * |x / y|) * y := this
      _ = x / y * y + u * (|x / y| * y) := by ring
      _ = x + u * |x| := by rw [habs]; field_simp
  have hq2 : x - u * |x| ≤ q * y := by
    have : x / y - u * |x / y| ≤ q := by linarith
    have := mul_le_mul_of_nonneg_right this hy.le
    calc x - u * |x| = x / y * y - u * (|x / y| * y) := by rw [habs]; field_simp
      _ = (x / y - u * |x / y|) * y := by ring
      _ ≤ q * y := this
  have hn1 : n ≤ q := Int.floor_le q
  have hn2 : q - 1 ≤ n := by have := Int.lt_floor_add_one q; rw [← hn] at this; linarith
  have hyn1 : y * n ≤ x + u * |x| := by nlinarith
  have hyn2 : x - u * |x| - y ≤ y * n := by nlinarith
  have hynabs : |y * n| ≤ |x| + u * |x| + y := by
    rw [abs_le]; constructor <;> cases abs_cases x <;> nlinarith
  have hp := abs_le.mp (R.rel (y * n))
  set p := fl (y * n) with hpp
  have hpu : u * |y * n| ≤ u * |x| + u * (u * |x|) + u * y := by
    calc u * |y * n| ≤ u * (|x| + u * |x| + y) := mul_le_mul_of_nonneg_left hynabs hu
      _ = _ := by ring
  have hd : -(y / 2) ≤ x - p := by nlinarith [abs_nonneg x]
  have hdm := abs_le.mp (R.rel (x - p))
  have h5 : u * |x - p| ≤ 1 / 16 * |x - p| := mul_le_mul_of_nonneg_right hu' (abs_nonneg _)
  cases abs_cases (x - p) <;> linarith

/-- **C03 (b).** With every operation rounded to relative accuracy `u`, the result stays in `[0, y)` for every
representable divisor `y > 0` and every `x` with `u|x| ≤ y/8` (for `double` and `y = 2π` that is
`|x| ≤ 7·10¹⁵`). -/
theorem C03_modulo_range_rounded {fl : ℝ → ℝ} {u : ℝ} (R : Rounding fl u) (x y : ℝ) (hy : 0 < y) (hfly : fl y = y)
    (hx : u * |x| ≤ y / 8) :
    0 ≤ floatingPointModuloRounded fl x y ∧ floatingPointModuloRounded fl x y < y := by
  have hfl0 : fl 0 = 0 := by have := R.rel 0; simpa using this
  exact C03_modulo_range_any_m fl R.mono x y _ hy hfly hfl0 (rounding_m_lower R hy hx)

/-- Without the `fl(y+m) == y` test of the code the claim would be false: a rounding that maps `y+m` to `y`
exists. -/
example : ∃ fl : ℝ → ℝ, Monotone fl ∧ fl 0 = 0 ∧ fl 4 = 4 ∧ fl (4 + (-1 / 4)) = 4 ∧
    fpModuloFrom fl 0 4 (-1 / 4) = 0 := by
  refine ⟨fun z => (⌈z⌉ : ℝ), fun a b h => ?_, by simp, ?_, ?_, ?_⟩
  · have := Int.ceil_mono h; simp only; exact_mod_cast this
  · have : ⌈(4 : ℝ)⌉ = 4 := by rw [Int.ceil_eq_iff]; norm_num
    simp only [this]; norm_num
  · have : ⌈(4 + (-1 / 4) : ℝ)⌉ = 4 := by rw [Int.ceil_eq_iff]; norm_num
    simp only [this]; norm_num
  · have h1 : ⌈(4 + (-1 / 4) : ℝ)⌉ = 4 := by rw [Int.ceil_eq_iff]; norm_num
    simp only [fpModuloFrom, h1]; norm_num

/-- non-vacuity of C03 (b): exact arithmetic is a rounding, and so is a genuinely inexact one. -/
example : Rounding id 0 := ⟨monotone_id, le_refl _, by norm_num, fun z => by simp⟩
example : Rounding (fun z => (1 + 1 / 32) * z) (1 / 32) :=
  ⟨fun a b h => mul_le_mul_of_nonneg_left h (by norm_num), by norm_num, by norm_num, fun z => by
    have : (1 + 1 / 32) * z - z = 1 / 32 * z := by ring
    rw [this, abs_mul, abs_of_pos (by norm_num : (0 : ℝ) < 1 / 32)]⟩

/-! ## C27 -/

/-- **C27 (a).** `compareRelative` is reflexive (for a nonnegative tolerance), symmetric and monotone in the tolerance. -/
theorem C27_compareRelative (a b t t' : ℝ) :
    (0 ≤ t → compareRelative a a t = true) ∧
    (compareRelative a b t = compareRelative b a t) ∧
    (t ≤ t' → compareRelative a b t = true → compareRelative a b t' = true) := by
  refine ⟨fun h => ?_, ?_, fun h h1 => ?_⟩
  · have h0 : |a - a| / max |a| |a| = 0 := by simp
    simp only [compareRelative, h0]
    split_ifs with h1 h2
    · rfl
    · exfalso; have : 0 ≤ t * (1 / 100) := by positivity
      linarith
    · rfl
  · simp only [compareRelative, abs_sub_comm a b, max_comm |a| |b|]
    congr 1
    apply propext
    tauto
  · simp only [compareRelative] at h1 ⊢
    split_ifs at h1 ⊢ with h2 h3 h4 <;> first | rfl | (exfalso; linarith) | (exfalso; simp at h1)

/-- **C27 (b).** What `compareRelative` accepts (outside its absolute special cases) is within `t` percent. -/
theorem C27_compareRelative_iff (a b t : ℝ)
    (h : ¬ ((|a| < 1 / 10 ^ 15 ∧ |b| < 1 / 10 ^ 15) ∨ (|a| = 0 ∧ |b| < 1 / 10 ^ 6) ∨ (|b| = 0 ∧ |a| < 1 / 10 ^ 6))) :
    compareRelative a b t = true ↔ |a - b| ≤ t / 100 * max |a| |b| := by
  have hm : 0 < max |a| |b| := by
    rcases lt_or_eq_of_le (le_max_of_le_left (abs_nonneg a) : 0 ≤ max |a| |b|) with h1 | h1
    · exact h1
    · exfalso; apply h; left
      have ha := le_max_left |a| |b|
      have hb := le_max_right |a| |b|
      rw [← h1] at ha hb
      constructor <;> linarith [abs_nonneg a, abs_nonneg b, (by norm_num : (0 : ℝ) < 1 / 10 ^ 15)]
  simp only [compareRelative, h, if_false, gt_iff_lt]
  split_ifs with h1
  · rw [lt_div_iff₀ hm] at h1
    simp only [Bool.false_eq_true, false_iff, not_le]; linarith
  · rw [not_lt, div_le_iff₀ hm] at h1
    simp only [true_iff]; linarith

lemma modulo_add_period (a : ℝ) {p : ℝ} (hp : 0 < p) (k : ℤ) :
    floatingPointModulo (a + k * p) p = floatingPointModulo a p := by
  obtain ⟨h1, -, -, i, hi⟩ := C01_modulo (a + k * p) p
  obtain ⟨h2, -, -, j, hj⟩ := C01_modulo a p
  refine unique_rep (a := 0) (k := i + k - j) hp ?_ ?_ ?_
  · have := h1 hp; constructor <;> linarith
  · have := h2 hp; constructor <;> linarith
  · rw [hi, hj]; push_cast; ring

/-- **C27 (c).** `compareRelativePeriodic` does not change when whole periods are added to either argument, is symmetric,
and is reflexive for a nonnegative tolerance. -/
theorem C27_compareRelativePeriodic (a b t : ℝ) {p : ℝ} (hp : 0 < p) (j k : ℤ) :
    compareRelativePeriodic (a + j * p) (b + k * p) p t = compareRelativePeriodic a b p t ∧
    compareRelativePeriodic a b p t = compareRelativePeriodic b a p t ∧
    (0 ≤ t → compareRelativePeriodic a a p t = true) := by
  have e1 : a + j * p - (b + k * p) = (a - b) + ((j - k : ℤ) : ℝ) * p := by push_cast; ring
  have e2 : b + k * p - (a + j * p) = (b - a) + ((k - j : ℤ) : ℝ) * p := by push_cast; ring
  refine ⟨?_, ?_, fun ht => ?_⟩
  · simp only [compareRelativePeriodic, e1, e2, modulo_add_period _ hp]
  · simp only [compareRelativePeriodic, min_comm (floatingPointModulo (a - b) p)]
    congr 1
    apply propext
    tauto
  · have h0 : floatingPointModulo (a - a) p = 0 := by
      rw [modulo_eq _ hp.ne']; simp
    simp only [compareRelativePeriodic, h0, min_self, zero_div]
    split_ifs with h1 h2
    · rfl
    · exfalso; have : 0 ≤ t * (1 / 100) := by positivity
      linarith
    · rfl

/-- non-vacuity of C27. -/
example : compareRelative 100 100.5 1 = true ∧ compareRelative 100 102 1 = false := by
  constructor
  · rw [C27_compareRelative_iff] <;> norm_num [abs_of_pos, abs_of_neg, max_def]
  · rw [← Bool.not_eq_true, C27_compareRelative_iff] <;> norm_num [abs_of_pos, abs_of_neg, max_def]

end Kindr
