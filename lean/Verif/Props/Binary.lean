import Verif.Model.Binary
import Verif.Spec.Binary
import Verif.Props.Scalar
import Mathlib.Analysis.Real.Pi.Bounds

/-!
# C80: the wrap functions in binary floating point, with the precisions of the C++ types
-/

set_option autoImplicit false

open Classical

noncomputable section
namespace Kindr
open Spec

/-! ## floating-point numbers -/

lemma isFloat_zero (p : ℕ) : IsFloat p 0 := ⟨0, 0, by simp, by simp⟩

lemma Spec.IsFloat.neg {p : ℕ} {x : ℝ} (h : IsFloat p x) : IsFloat p (-x) := by
  obtain ⟨n, e, hn, rfl⟩ := h
  exact ⟨-n, e, by rwa [abs_neg], by push_cast; ring⟩

lemma Spec.IsFloat.mono {p p' : ℕ} (hp : p ≤ p') {x : ℝ} (h : IsFloat p x) : IsFloat p' x := by
  obtain ⟨n, e, hn, rfl⟩ := h
  exact ⟨n, e, lt_of_lt_of_le hn (pow_le_pow_right₀ (by norm_num) hp), rfl⟩

lemma isFloat_two_zpow {p : ℕ} (hp : 0 < p) (e : ℤ) : IsFloat p ((2 : ℝ) ^ e) :=
  ⟨1, e, by simpa using Nat.one_lt_two_pow_iff.mpr hp.ne' |> fun h => (by exact_mod_cast h : (1 : ℤ) < 2 ^ p), by simp⟩

/-- An integer of absolute value at most `2^p` times a power of two is a floating-point number. -/
lemma isFloat_of_le {p : ℕ} (hp : 0 < p) {n : ℤ} (hn : |n| ≤ 2 ^ p) (e : ℤ) : IsFloat p (n * (2 : ℝ) ^ e) := by
  rcases lt_or_eq_of_le hn with h | h
  · exact ⟨n, e, h, rfl⟩
  · have key : (2 : ℝ) ^ p * 2 ^ e = 2 ^ (p + e) := by
      rw [zpow_add₀ (by norm_num), zpow_natCast]
    rcases abs_choice n with h' | h'
    · have : n = 2 ^ p := by rw [← h', h]
      rw [this]; push_cast; rw [key]; exact isFloat_two_zpow hp _
    · have : n = -2 ^ p := by rw [← h, h', neg_neg]
      rw [this]; push_cast; rw [neg_mul, key]; exact (isFloat_two_zpow hp _).neg

/-- `x` is a multiple of `2^k`. -/
def OnGrid (k : ℤ) (x : ℝ) : Prop := ∃ n : ℤ, x = n * (2 : ℝ) ^ k

lemma OnGrid.sub {k : ℤ} {x y : ℝ} (hx : OnGrid k x) (hy : OnGrid k y) : OnGrid k (x - y) := by
  obtain ⟨a, rfl⟩ := hx; obtain ⟨b, rfl⟩ := hy
  exact ⟨a - b, by push_cast; ring⟩

lemma OnGrid.add {k : ℤ} {x y : ℝ} (hx : OnGrid k x) (hy : OnGrid k y) : OnGrid k (x + y) := by
  obtain ⟨a, rfl⟩ := hx; obtain ⟨b, rfl⟩ := hy
  exact ⟨a + b, by push_cast; ring⟩

lemma OnGrid.neg {k : ℤ} {x : ℝ} (hx : OnGrid k x) : OnGrid k (-x) := by
  obtain ⟨a, rfl⟩ := hx; exact ⟨-a, by push_cast; ring⟩

lemma OnGrid.mul_int {k : ℤ} {x : ℝ} (hx : OnGrid k x) (n : ℤ) : OnGrid k (x * n) := by
  obtain ⟨a, rfl⟩ := hx; exact ⟨a * n, by push_cast; ring⟩

lemma onGrid_of_le {k e : ℤ} (h : k ≤ e) (n : ℤ) : OnGrid k (n * (2 : ℝ) ^ e) := by
  obtain ⟨j, hj⟩ := Int.eq_ofNat_of_zero_le (sub_nonneg.mpr h)
  refine ⟨n * 2 ^ j, ?_⟩
  have : e = (j : ℤ) + k := by omega
  rw [this, zpow_add₀ (by norm_num), zpow_natCast]; push_cast; ring

/-- A floating-point number of absolute value at least `2^e` is a multiple of `2^(e-p+1)`. -/
lemma Spec.IsFloat.onGrid {p : ℕ} {x : ℝ} (hx : IsFloat p x) {e : ℤ} (h : (2 : ℝ) ^ e ≤ |x|) : OnGrid (e - p + 1) x := by
  obtain ⟨n, e', hn, rfl⟩ := hx
  apply onGrid_of_le
  have h2 : (0 : ℝ) < 2 ^ e' := by positivity
  rw [abs_mul, abs_of_pos h2] at h
  have hn' : |(n : ℝ)| < 2 ^ p := by exact_mod_cast hn
  have : (2 : ℝ) ^ e < 2 ^ ((p : ℤ) + e') := by
    rw [zpow_add₀ (by norm_num), zpow_natCast]
    exact lt_of_le_of_lt h (mul_lt_mul_of_pos_right hn' h2)
  have := (zpow_lt_zpow_iff_right₀ (by norm_num : (1 : ℝ) < 2)).mp this
  omega

/-- A multiple of `2^k` of absolute value at most `2^(p+k)` is a floating-point number. -/
lemma OnGrid.isFloat {p : ℕ} (hp : 0 < p) {k : ℤ} {x : ℝ} (hx : OnGrid k x) (h : |x| ≤ 2 ^ (p + k)) : IsFloat p x := by
  obtain ⟨n, rfl⟩ := hx
  refine isFloat_of_le hp ?_ k
  have h2 : (0 : ℝ) < 2 ^ k := by positivity
  rw [abs_mul, abs_of_pos h2, zpow_add₀ (by norm_num), zpow_natCast] at h
  have := le_of_mul_le_mul_right h h2
  exact_mod_cast this

namespace Spec.BinaryRounding
variable {p : ℕ} {fl : ℝ → ℝ}

lemma neg (R : BinaryRounding p fl) : BinaryRounding p (fun x => -fl (-x)) where
  mono a b h := neg_le_neg (R.mono (neg_le_neg h))
  range x := (R.range _).neg
  fix x hx := by simp [R.fix (-x) hx.neg]

lemma map_zero (R : BinaryRounding p fl) : fl 0 = 0 := R.fix 0 (isFloat_zero p)

lemma nonneg (R : BinaryRounding p fl) {x : ℝ} (h : 0 ≤ x) : 0 ≤ fl x := by
  rw [← R.map_zero]; exact R.mono h

lemma nonpos (R : BinaryRounding p fl) {x : ℝ} (h : x ≤ 0) : fl x ≤ 0 := by
  rw [← R.map_zero]; exact R.mono h

private lemma onGrid_pos (R : BinaryRounding p fl) (hp : 0 < p) {k : ℤ} {x : ℝ} (hx : OnGrid k x) (h0 : 0 ≤ x) :
    OnGrid k (fl x) := by
  rcases le_total |x| (2 ^ (p + k)) with h | h
  · rw [R.fix x (hx.isFloat hp h)]; exact hx
  · rw [abs_of_nonneg h0] at h
    have h1 : (2 : ℝ) ^ ((p : ℤ) + k) ≤ |fl x| := by
      rw [abs_of_nonneg (R.nonneg h0)]
      calc (2 : ℝ) ^ ((p : ℤ) + k) = fl (2 ^ ((p : ℤ) + k)) := (R.fix _ (isFloat_two_zpow hp _)).symm
        _ ≤ fl x := R.mono h
    obtain ⟨n, hn⟩ := (R.range x).onGrid h1
    rw [hn]; exact onGrid_of_le (by omega) n

/-- Rounding keeps multiples of `2^k` multiples of `2^k`. -/
lemma onGrid (R : BinaryRounding p fl) (hp : 0 < p) {k : ℤ} {x : ℝ} (hx : OnGrid k x) : OnGrid k (fl x) := by
  rcases le_total 0 x with h | h
  · exact onGrid_pos R hp hx h
  · have := onGrid_pos R.neg hp hx.neg (neg_nonneg.mpr h)
    simpa using this.neg

private lemma rel_pos (R : BinaryRounding p fl) (hp : 0 < p) {x : ℝ} (h0 : 0 < x) :
    |fl x - x| ≤ 2⁻¹ ^ (p - 1) * |x| := by
  set e := Int.log 2 x with he
  have h1 : (2 : ℝ) ^ e ≤ x := by exact_mod_cast Int.zpow_log_le_self (b := 2) (by norm_num) h0
  have h2 : x < (2 : ℝ) ^ (e + 1) := by exact_mod_cast Int.lt_zpow_succ_log_self (b := 2) (by norm_num) x
  set g : ℝ := 2 ^ (e - p + 1) with hg
  have g0 : 0 < g := by positivity
  have hgx : g ≤ 2⁻¹ ^ (p - 1) * x := by
    have : g = 2⁻¹ ^ (p - 1) * 2 ^ e := by
      rw [hg, inv_pow, ← zpow_natCast, ← zpow_neg, ← zpow_add₀ (by norm_num)]
      congr 1; omega
    rw [this]; exact mul_le_mul_of_nonneg_left h1 (by positivity)
  have hbound : x / g < 2 ^ p := by
    rw [div_lt_iff₀ g0, hg, ← zpow_natCast, ← zpow_add₀ (by norm_num)]
    have : (p : ℤ) + (e - p + 1) = e + 1 := by ring
    rwa [this]
  set n := ⌊x / g⌋ with hn
  have n0 : 0 ≤ n := Int.floor_nonneg.mpr (by positivity)
  have nlt : n < 2 ^ p := by rw [hn, Int.floor_lt]; exact_mod_cast hbound
  have fl1 : fl (n * g) = n * g := R.fix _ (isFloat_of_le hp (by rw [abs_of_nonneg n0]; exact nlt.le) _)
  have fl2 : fl ((n + 1 : ℤ) * g) = (n + 1 : ℤ) * g :=
    R.fix _ (isFloat_of_le hp (by rw [abs_of_nonneg (by omega)]; omega) _)
  have a1 : (n : ℝ) * g ≤ x := by
    have := Int.floor_le (x / g)
    rwa [le_div_iff₀ g0] at this
  have a2 : x ≤ ((n + 1 : ℤ) : ℝ) * g := by
    have := (Int.lt_floor_add_one (x / g)).le
    rw [div_le_iff₀ g0] at this; push_cast; exact this
  have b1 := R.mono a1
  have b2 := R.mono a2
  rw [fl1] at b1
  rw [fl2] at b2
  push_cast at a2 b2
  rw [abs_of_pos h0]
  refine le_trans ?_ hgx
  rw [abs_le]; constructor <;> linarith

lemma rel (R : BinaryRounding p fl) (hp : 0 < p) (x : ℝ) : |fl x - x| ≤ 2⁻¹ ^ (p - 1) * |x| := by
  rcases lt_trichotomy x 0 with h | h | h
  · have := rel_pos R.neg hp (x := -x) (by linarith)
    simp only [neg_neg, abs_neg] at this
    have e : -fl x - -x = -(fl x - x) := by ring
    rwa [e, abs_neg] at this
  · subst h; simp [R.map_zero]
  · exact rel_pos R hp h

lemma rounding (R : BinaryRounding p fl) {p0 : ℕ} (hp0 : 5 ≤ p0) (hp : p0 ≤ p) : Rounding fl (2⁻¹ ^ (p0 - 1)) where
  mono := R.mono
  nonneg := by positivity
  small := by
    calc (2⁻¹ : ℝ) ^ (p0 - 1) ≤ 2⁻¹ ^ 4 := pow_le_pow_of_le_one (by norm_num) (by norm_num) (by omega)
      _ = 1 / 16 := by norm_num
  rel z := (R.rel (by omega) z).trans
    (mul_le_mul_of_nonneg_right (pow_le_pow_of_le_one (by norm_num) (by norm_num) (by omega)) (abs_nonneg _))

end Spec.BinaryRounding

/-! ## round to nearest, ties to even, is such a rounding -/

lemma roundTiesEven_near (z : ℝ) : |(roundTiesEven z : ℝ) - z| ≤ 1 / 2 := by
  have h0 := Int.fract_nonneg z
  have h1 := Int.fract_lt_one z
  have h2 := Int.floor_add_fract z
  unfold roundTiesEven
  split_ifs <;> push_cast <;> rw [abs_le] <;> constructor <;> linarith

lemma roundTiesEven_int (n : ℤ) : roundTiesEven (n : ℝ) = n := by
  unfold roundTiesEven
  rw [if_pos (by simp)]; simp

lemma roundTiesEven_mono : Monotone roundTiesEven := by
  intro a b h
  by_contra hc
  push Not at hc
  have ha := abs_le.mp (roundTiesEven_near a)
  have hb := abs_le.mp (roundTiesEven_near b)
  have hc1 : roundTiesEven b + 1 ≤ roundTiesEven a := hc
  have hc' : (roundTiesEven b : ℝ) + 1 ≤ roundTiesEven a := by exact_mod_cast hc1
  have e : a = b := by linarith
  subst e
  exact absurd hc (lt_irrefl _)

lemma roundTiesEven_neg (z : ℝ) : roundTiesEven (-z) = -roundTiesEven z := by
  rcases eq_or_ne (Int.fract z) 0 with h | h
  · obtain ⟨n, rfl⟩ : ∃ n : ℤ, z = n := ⟨⌊z⌋, by have := Int.floor_add_fract z; rw [h] at this; linarith⟩
    have := roundTiesEven_int (-n)
    push_cast at this
    rw [this, roundTiesEven_int]
  · have hf : Int.fract (-z) = 1 - Int.fract z := Int.fract_neg h
    have hfl : ⌊-z⌋ = -⌊z⌋ - 1 := by
      have h1 := Int.floor_add_fract (-z)
      have h2 := Int.floor_add_fract z
      rw [hf] at h1
      have : (⌊-z⌋ : ℝ) = -⌊z⌋ - 1 := by linarith
      exact_mod_cast this
    unfold roundTiesEven
    rw [hf, hfl]
    have hev : Even (-⌊z⌋ - 1) ↔ ¬ Even ⌊z⌋ := by
      rw [Int.even_sub_one, even_neg]
    simp only [hev]
    split_ifs <;> first | omega | (exfalso; linarith)

lemma roundEven_neg (p : ℕ) (x : ℝ) : roundEven p (-x) = -roundEven p x := by
  unfold roundEven
  rw [abs_neg, neg_div, roundTiesEven_neg]; push_cast; ring

lemma roundEven_zero (p : ℕ) : roundEven p 0 = 0 := by
  unfold roundEven
  rw [zero_div]
  have := roundTiesEven_int 0
  push_cast at this
  rw [this]; simp

/-- On the binade of `x > 0` the rounding works on a fixed grid. -/
lemma roundEven_pos {p : ℕ} (hp : 0 < p) {x : ℝ} (h0 : 0 < x) : ∃ e n : ℤ,
    (2 : ℝ) ^ e ≤ x ∧ x < 2 ^ (e + 1) ∧ roundEven p x = n * 2 ^ (e - ((p : ℤ) - 1)) ∧
    n = roundTiesEven (x / 2 ^ (e - ((p : ℤ) - 1))) ∧ 2 ^ (p - 1) ≤ n ∧ n ≤ 2 ^ p := by
  set e := Int.log 2 |x| with he
  have h1 : (2 : ℝ) ^ e ≤ x := by
    rw [he, abs_of_pos h0]; exact_mod_cast Int.zpow_log_le_self (b := 2) (by norm_num) h0
  have h2 : x < (2 : ℝ) ^ (e + 1) := by
    rw [he, abs_of_pos h0]; exact_mod_cast Int.lt_zpow_succ_log_self (b := 2) (by norm_num) x
  refine ⟨e, roundTiesEven (x / 2 ^ (e - ((p : ℤ) - 1))), h1, h2, rfl, rfl, ?_, ?_⟩
  · have := roundTiesEven_mono (a := ((2 ^ (p - 1) : ℤ) : ℝ)) (b := x / 2 ^ (e - ((p : ℤ) - 1))) (by
      rw [le_div_iff₀ (by positivity)]
      push_cast
      rw [← zpow_natCast, ← zpow_add₀ (by norm_num)]
      have : ((p - 1 : ℕ) : ℤ) + (e - ((p : ℤ) - 1)) = e := by omega
      rw [this]; exact h1)
    rwa [roundTiesEven_int] at this
  · have := roundTiesEven_mono (a := x / 2 ^ (e - ((p : ℤ) - 1))) (b := ((2 ^ p : ℤ) : ℝ)) (by
      rw [div_le_iff₀ (by positivity)]
      push_cast
      rw [← zpow_natCast, ← zpow_add₀ (by norm_num)]
      have : (p : ℤ) + (e - ((p : ℤ) - 1)) = e + 1 := by ring
      rw [this]; exact h2.le)
    rwa [roundTiesEven_int] at this

lemma roundEven_bounds {p : ℕ} (hp : 0 < p) {x : ℝ} (h0 : 0 < x) : ∃ e : ℤ,
    (2 : ℝ) ^ e ≤ x ∧ x < 2 ^ (e + 1) ∧ (2 : ℝ) ^ e ≤ roundEven p x ∧ roundEven p x ≤ 2 ^ (e + 1) := by
  obtain ⟨e, n, h1, h2, h3, -, h5, h6⟩ := roundEven_pos hp h0
  refine ⟨e, h1, h2, ?_, ?_⟩
  · rw [h3]
    have h5' : (2 : ℝ) ^ (p - 1) ≤ n := by exact_mod_cast h5
    calc (2 : ℝ) ^ e = 2 ^ (p - 1) * 2 ^ (e - ((p : ℤ) - 1)) := by
          rw [← zpow_natCast, ← zpow_add₀ (by norm_num)]; congr 1; omega
      _ ≤ _ := mul_le_mul_of_nonneg_right h5' (by positivity)
  · rw [h3]
    have h6' : (n : ℝ) ≤ 2 ^ p := by exact_mod_cast h6
    calc (n : ℝ) * 2 ^ (e - ((p : ℤ) - 1)) ≤ 2 ^ p * 2 ^ (e - ((p : ℤ) - 1)) :=
          mul_le_mul_of_nonneg_right h6' (by positivity)
      _ = 2 ^ (e + 1) := by rw [← zpow_natCast, ← zpow_add₀ (by norm_num)]; congr 1; omega

lemma roundEven_mono_pos {p : ℕ} (hp : 0 < p) {a b : ℝ} (ha : 0 < a) (h : a ≤ b) : roundEven p a ≤ roundEven p b := by
  obtain ⟨e, n, a1, a2, a3, a4, -, -⟩ := roundEven_pos hp ha
  obtain ⟨f, k, b1, b2, b3, b4, -, -⟩ := roundEven_pos hp (lt_of_lt_of_le ha h)
  have hef : e ≤ f := by
    have : (2 : ℝ) ^ e < 2 ^ (f + 1) := by linarith
    have := (zpow_lt_zpow_iff_right₀ (by norm_num : (1 : ℝ) < 2)).mp this
    omega
  rcases eq_or_lt_of_le hef with rfl | hlt
  · rw [a3, b3]
    refine mul_le_mul_of_nonneg_right ?_ (by positivity)
    rw [a4, b4]
    exact_mod_cast roundTiesEven_mono (div_le_div_of_nonneg_right h (by positivity))
  · obtain ⟨e', c1, c2, -, c4⟩ := roundEven_bounds hp ha
    obtain ⟨f', d1, d2, d3, -⟩ := roundEven_bounds hp (lt_of_lt_of_le ha h)
    have hlt' : e' < f' := by
      have u1 : (2 : ℝ) ^ e' < 2 ^ (e + 1) := by linarith
      have u2 : (2 : ℝ) ^ f < 2 ^ (f' + 1) := by linarith
      have := (zpow_lt_zpow_iff_right₀ (by norm_num : (1 : ℝ) < 2)).mp u1
      have := (zpow_lt_zpow_iff_right₀ (by norm_num : (1 : ℝ) < 2)).mp u2
      omega
    calc roundEven p a ≤ 2 ^ (e' + 1) := c4
      _ ≤ 2 ^ f' := zpow_le_zpow_right₀ (by norm_num) (by omega)
      _ ≤ _ := d3

lemma roundEven_nonneg {p : ℕ} (hp : 0 < p) {x : ℝ} (h : 0 ≤ x) : 0 ≤ roundEven p x := by
  rcases eq_or_lt_of_le h with h | h
  · rw [← h, roundEven_zero]
  · obtain ⟨e, -, -, h3, -⟩ := roundEven_bounds hp h
    exact le_trans (by positivity) h3

/-- IEEE round to nearest, ties to even, is a rounding in the sense of the specification, and its relative error is
at most `2⁻ᵖ`. -/
theorem roundEven_spec {p : ℕ} (hp : 0 < p) : BinaryRounding p (roundEven p) where
  mono a b h := by
    rcases lt_or_ge 0 a with ha | ha
    · exact roundEven_mono_pos hp ha h
    · rcases le_or_gt 0 b with hb | hb
      · have h1 : roundEven p a ≤ 0 := by
          have := roundEven_nonneg hp (x := -a) (by linarith)
          rw [roundEven_neg] at this; linarith
        exact h1.trans (roundEven_nonneg hp hb)
      · have := roundEven_mono_pos hp (a := -b) (b := -a) (by linarith) (by linarith)
        rw [roundEven_neg, roundEven_neg] at this; linarith
  range x := by
    have key : ∀ x : ℝ, 0 < x → IsFloat p (roundEven p x) := by
      intro x hx
      obtain ⟨e, n, -, -, h3, -, h5, h6⟩ := roundEven_pos hp hx
      rw [h3]
      refine isFloat_of_le hp ?_ _
      rw [abs_of_nonneg (le_trans (by positivity) h5)]; exact h6
    rcases lt_trichotomy x 0 with h | h | h
    · have := (key (-x) (by linarith)).neg
      rwa [roundEven_neg, neg_neg] at this
    · rw [h, roundEven_zero]; exact isFloat_zero p
    · exact key x h
  fix x hx := by
    have key : ∀ x : ℝ, IsFloat p x → 0 < x → roundEven p x = x := by
      intro x hx h0
      obtain ⟨e, n, h1, h2, h3, h4, h5, h6⟩ := roundEven_pos hp h0
      obtain ⟨k, hk⟩ := hx.onGrid (e := e) (by rwa [abs_of_pos h0])
      have hgrid : e - (p : ℤ) + 1 = e - ((p : ℤ) - 1) := by ring
      rw [hgrid] at hk
      have : x / 2 ^ (e - ((p : ℤ) - 1)) = k := by rw [hk]; field_simp
      rw [h3, h4, this, roundTiesEven_int, ← hk]
    rcases lt_trichotomy x 0 with h | h | h
    · have := key (-x) hx.neg (by linarith)
      rw [roundEven_neg] at this; linarith
    · rw [h, roundEven_zero]
    · exact key x hx h


/-! ## Evaluating the rounding -/

lemma roundEven_eq {p : ℕ} {x : ℝ} {e : ℤ} (h1 : (2 : ℝ) ^ e ≤ x) (h2 : x < 2 ^ (e + 1)) :
    roundEven p x = roundTiesEven (x / 2 ^ (e - ((p : ℤ) - 1))) * 2 ^ (e - ((p : ℤ) - 1)) := by
  have h0 : 0 < x := lt_of_lt_of_le (by positivity) h1
  have : Int.log 2 |x| = e := by
    rw [abs_of_pos h0]
    have a1 : e ≤ Int.log 2 x := (Int.zpow_le_iff_le_log (b := 2) (by norm_num) h0).mp (by exact_mod_cast h1)
    have a2 : Int.log 2 x < e + 1 := (Int.lt_zpow_iff_log_lt (b := 2) (by norm_num) h0).mp (by exact_mod_cast h2)
    omega
  unfold roundEven
  rw [this]

lemma roundTiesEven_of_near {z : ℝ} {n : ℤ} (h : |z - n| < 1 / 2) : roundTiesEven z = n := by
  have h1 := abs_le.mp (roundTiesEven_near z)
  have h2 := abs_lt.mp h
  have a1 : (roundTiesEven z : ℝ) < n + 1 := by linarith
  have a2 : (n : ℝ) - 1 < roundTiesEven z := by linarith
  have b1 : roundTiesEven z < n + 1 := by exact_mod_cast a1
  have b2 : n - 1 < roundTiesEven z := by exact_mod_cast a2
  omega

lemma roundTiesEven_tie {n : ℤ} (hn : Even n) : roundTiesEven ((n : ℝ) + 1 / 2) = n := by
  have hf : ⌊(n : ℝ) + 1 / 2⌋ = n := by rw [Int.floor_eq_iff]; constructor <;> linarith
  have hfr : Int.fract ((n : ℝ) + 1 / 2) = 1 / 2 := by
    have := Int.floor_add_fract ((n : ℝ) + 1 / 2); rw [hf] at this; linarith
  unfold roundTiesEven
  rw [hfr, hf, if_neg (lt_irrefl _), if_neg (lt_irrefl _), if_pos hn]

/-! ## The range of `floatingPointModulo<T>` -/

/-- The operations of `A` round to `p` (`T`), `pM`, `pD` and `pS` bits. -/
structure ModTypes.Rounds (A : ModTypes) (p pM pD pS : ℕ) : Prop where
  T : BinaryRounding p A.flT
  M : BinaryRounding pM A.flM
  D : BinaryRounding pD A.flD
  S : BinaryRounding pS A.flS

theorem ModTypes.double_rounds : ModTypes.double.Rounds 53 53 53 53 :=
  ⟨roundEven_spec (by norm_num), roundEven_spec (by norm_num), roundEven_spec (by norm_num), roundEven_spec (by norm_num)⟩
theorem ModTypes.floatFloorF_rounds : ModTypes.floatFloorF.Rounds 24 24 53 53 :=
  ⟨roundEven_spec (by norm_num), roundEven_spec (by norm_num), roundEven_spec (by norm_num), roundEven_spec (by norm_num)⟩
theorem ModTypes.floatFloorD_rounds : ModTypes.floatFloorD.Rounds 24 53 53 53 :=
  ⟨roundEven_spec (by norm_num), roundEven_spec (by norm_num), roundEven_spec (by norm_num), roundEven_spec (by norm_num)⟩

/-- What the quotient and the product can be off by. -/
lemma quotient_bounds {fl1 fl2 : ℝ → ℝ} {u : ℝ} (R1 : Rounding fl1 u) (R2 : Rounding fl2 u) {x y : ℝ} (hy : 0 < y) :
    -(u * |x|) ≤ x - y * ⌊fl1 (x / y)⌋ ∧ x - y * ⌊fl1 (x / y)⌋ ≤ y + u * |x| ∧
    |(x - fl2 (y * ⌊fl1 (x / y)⌋)) - (x - y * ⌊fl1 (x / y)⌋)| ≤ u * (|x| + u * |x| + y) := by
  have hu := R1.nonneg
  have hu' := R1.small
  set q := fl1 (x / y) with hq
  set n : ℝ := (⌊q⌋ : ℝ) with hn
  have h1 := abs_le.mp (R1.rel (x / y))
  have habs : |x / y| * y = |x| := by rw [abs_div, abs_of_pos hy]; field_simp
  have hq1 : q * y ≤ x + u * |x| := by
    have : q ≤ x / y + u * |x / y| := by linarith
    have := mul_le_mul_of_nonneg_right this hy.le
    calc q * y ≤ (x / y + u * |x / y|) * y := this
      _ = x / y * y + u * (|x / y| * y) := by ring
      _ = x + u * |x| := by rw [habs]; field_simp
  have hq2 : x - u * |x| ≤ q * y := by
    have : x / y - u * |x / y| ≤ q := by linarith
    have := mul_le_mul_of_nonneg_right this hy.le
    calc x - u * |x| = x / y * y - u * (|x / y| * y) := by rw [habs]; field_simp
      _ = (x / y - u * |x / y|) * y := by ring
      _ ≤ q * y := this
  have hn1 : n ≤ q := Int.floor_le q
  have hn2 : q - 1 ≤ n := by have := Int.lt_floor_add_one q; rw [← hn] at this; linarith
  have m1 : n * y ≤ q * y := mul_le_mul_of_nonneg_right hn1 hy.le
  have m2 : (q - 1) * y ≤ n * y := mul_le_mul_of_nonneg_right hn2 hy.le
  have hyn1 : y * n ≤ x + u * |x| := by linarith
  have hyn2 : x - u * |x| - y ≤ y * n := by linarith
  have hynabs : |y * n| ≤ |x| + u * |x| + y := by
    rw [abs_le]; constructor <;> cases abs_cases x <;> linarith
  refine ⟨by linarith, by linarith, ?_⟩
  have e : (x - fl2 (y * n)) - (x - y * n) = -(fl2 (y * n) - y * n) := by ring
  rw [e, abs_neg]
  exact (R2.rel _).trans (mul_le_mul_of_nonneg_left hynabs hu)

/-- `m` is never below `-y`. -/
lemma typed_m_lower {A : ModTypes} {p pM pD pS : ℕ} (R : A.Rounds p pM pD pS) (hp : 5 ≤ p) (hM : p ≤ pM) (hD : p ≤ pD)
    {x y : ℝ} (hy : 0 < y) (hyf : IsFloat p y) (hx : 2⁻¹ ^ (p - 1) * |x| ≤ y / 8) :
    -(y / 2) ≤ x - A.flM (y * ⌊A.flT (x / y)⌋) ∧ -y ≤ A.flD (A.flM (x - A.flM (y * ⌊A.flT (x / y)⌋))) := by
  obtain ⟨h1, -, h3⟩ := quotient_bounds (R.T.rounding hp le_rfl) (R.M.rounding hp hM) (x := x) hy
  set u : ℝ := 2⁻¹ ^ (p - 1) with hu
  have hu16 : u ≤ 1 / 16 := (R.T.rounding hp le_rfl).small
  have hu0 : 0 ≤ u := (R.T.rounding hp le_rfl).nonneg
  have h3' := abs_le.mp h3
  have a1 : u * (u * |x|) ≤ 1 / 16 * (y / 8) := mul_le_mul hu16 hx (by positivity) (by norm_num)
  have a2 : u * y ≤ 1 / 16 * y := mul_le_mul_of_nonneg_right hu16 hy.le
  have e : u * (|x| + u * |x| + y) = u * |x| + u * (u * |x|) + u * y := by ring
  rw [e] at h3'
  have hz : -(y / 2) ≤ x - A.flM (y * ⌊A.flT (x / y)⌋) := by linarith
  refine ⟨hz, ?_⟩
  have b1 := R.M.mono (show -y ≤ x - A.flM (y * ⌊A.flT (x / y)⌋) by linarith)
  rw [R.M.fix (-y) (hyf.neg.mono hM)] at b1
  have b2 := R.D.mono b1
  rwa [R.D.fix (-y) (hyf.neg.mono hD)] at b2

/-- **C80 (a).** Whatever rounding modes are in force and whichever overload of `floor` is selected, for every
representable divisor `y > 0` and every `x` with `2^(1-p)|x| ≤ y/8` the result of `floatingPointModulo<T>(x, y)` is
a value of type `T` in the *closed* interval `[0, y]`. -/
theorem C80_modulo_closed {A : ModTypes} {p pM pD pS : ℕ} (R : A.Rounds p pM pD pS) (hp : 5 ≤ p) (hM : p ≤ pM)
    (hD : p ≤ pD) (hS : p ≤ pS) {x y : ℝ} (hy : 0 < y) (hyf : IsFloat p y) (hx : 2⁻¹ ^ (p - 1) * |x| ≤ y / 8) :
    0 ≤ fpModuloTyped A x y ∧ fpModuloTyped A x y ≤ y ∧ IsFloat p (fpModuloTyped A x y) := by
  have hm := (typed_m_lower R hp hM hD hy hyf hx).2
  simp only [fpModuloTyped]
  generalize A.flD (A.flM (x - A.flM (y * ⌊A.flT (x / y)⌋))) = m at hm ⊢
  rw [if_neg hy.ne', if_pos hy]
  split_ifs with h1 h2 h3
  · exact ⟨le_refl _, hy.le, isFloat_zero p⟩
  · exact ⟨le_refl _, hy.le, isFloat_zero p⟩
  · refine ⟨R.T.nonneg (R.S.nonneg (by linarith)), ?_, R.T.range _⟩
    have b1 := R.S.mono (show y + m ≤ y by linarith)
    rw [R.S.fix y (hyf.mono hS)] at b1
    have b2 := R.T.mono b1
    rwa [R.T.fix y hyf] at b2
  · refine ⟨R.T.nonneg (not_lt.mp h2), ?_, R.T.range _⟩
    have b2 := R.T.mono (not_le.mp h1).le
    rwa [R.T.fix y hyf] at b2

/-- A floating-point number below `2^e` is at most `2^e(1 - 2⁻ᵖ)`. -/
lemma Spec.IsFloat.le_pred {p : ℕ} {x : ℝ} (hx : IsFloat p x) {e : ℤ} (h : x < 2 ^ e) :
    x ≤ (2 ^ p - 1 : ℤ) * (2 : ℝ) ^ (e - p) := by
  rcases lt_or_ge x ((2 : ℝ) ^ (e - 1)) with h1 | h1
  · have e1 : (2 : ℝ) ^ (e - 1) = 2 ^ e / 2 := by rw [zpow_sub₀ (by norm_num)]; norm_num
    have e2 : (2 : ℝ) ^ (e - p) = 2 ^ e / 2 ^ p := by rw [zpow_sub₀ (by norm_num), zpow_natCast]
    rcases Nat.eq_zero_or_pos p with rfl | hp
    · obtain ⟨n, e', hn, rfl⟩ := hx
      have : n = 0 := by simpa using hn
      subst this; simp
    · push_cast
      rw [e2]
      have hp2 : (2 : ℝ) ≤ 2 ^ p := by
        calc (2 : ℝ) = 2 ^ 1 := by norm_num
          _ ≤ 2 ^ p := pow_le_pow_right₀ (by norm_num) hp
      have h20 : (0 : ℝ) < 2 ^ e := by positivity
      have : 2 ^ e / 2 ≤ (2 ^ p - 1) * ((2 : ℝ) ^ e / 2 ^ p) := by
        rw [mul_div_assoc', div_le_div_iff₀ (by norm_num) (by positivity)]
        nlinarith
      linarith
  · have h0 : 0 < x := lt_of_lt_of_le (by positivity) h1
    obtain ⟨n, hn⟩ := hx.onGrid (e := e - 1) (by rwa [abs_of_pos h0])
    have eg : e - 1 - (p : ℤ) + 1 = e - p := by ring
    rw [eg] at hn
    have g0 : (0 : ℝ) < 2 ^ (e - (p : ℤ)) := by positivity
    rw [hn] at h ⊢
    have e2 : (2 : ℝ) ^ e = 2 ^ p * 2 ^ (e - (p : ℤ)) := by
      rw [← zpow_natCast, ← zpow_add₀ (by norm_num)]; congr 1; ring
    rw [e2] at h
    have h' := lt_of_mul_lt_mul_right h g0.le
    have h'' : n < 2 ^ p := by exact_mod_cast h'
    refine mul_le_mul_of_nonneg_right ?_ g0.le
    have : n ≤ 2 ^ p - 1 := by omega
    exact_mod_cast this

/-- **C80 (b).** If `floor` is the overload for `T` (always the case for `double`), the result for representable `x`
and `y > 0` with `2^(1-p)|x| ≤ y/8` is in the half-open interval `[0, y)`, whatever the rounding mode and although the
comparisons and `y+m` are evaluated in a wider type than the result is returned in. -/
theorem C80_modulo_half_open {A : ModTypes} {p pD pS : ℕ} (R : A.Rounds p p pD pS) (hp : 5 ≤ p)
    (hD : p ≤ pD) (hS : p ≤ pS) {x y : ℝ} (hxf : IsFloat p x) (hy : 0 < y) (hyf : IsFloat p y)
    (hx : 2⁻¹ ^ (p - 1) * |x| ≤ y / 8) :
    0 ≤ fpModuloTyped A x y ∧ fpModuloTyped A x y < y := by
  have hcl := C80_modulo_closed R hp le_rfl hD hS hy hyf hx
  refine ⟨hcl.1, ?_⟩
  have hp0 : 0 < p := by omega
  have hm := (typed_m_lower R hp le_rfl hD hy hyf hx).2
  have hmf : IsFloat p (A.flD (A.flM (x - A.flM (y * ⌊A.flT (x / y)⌋)))) := by
    rw [R.D.fix _ ((R.M.range _).mono hD)]; exact R.M.range _
  have hgrid : A.flD (A.flM (x - A.flM (y * ⌊A.flT (x / y)⌋))) < 0 →
      IsFloat p (y + A.flD (A.flM (x - A.flM (y * ⌊A.flT (x / y)⌋)))) := by
    intro hneg
    set e := Int.log 2 y with he
    have h1 : (2 : ℝ) ^ e ≤ y := by exact_mod_cast Int.zpow_log_le_self (b := 2) (by norm_num) hy
    have h2 : y < (2 : ℝ) ^ (e + 1) := by exact_mod_cast Int.lt_zpow_succ_log_self (b := 2) (by norm_num) y
    rcases le_or_gt ((2 : ℝ) ^ e) |x| with hxe | hxe
    · have gy : OnGrid (e - p + 1) y := hyf.onGrid (by rwa [abs_of_pos hy])
      have gx : OnGrid (e - p + 1) x := hxf.onGrid hxe
      have gm : OnGrid (e - p + 1) (A.flD (A.flM (x - A.flM (y * ⌊A.flT (x / y)⌋)))) := by
        refine R.D.onGrid (by omega) (R.M.onGrid hp0 (gx.sub (R.M.onGrid hp0 (gy.mul_int _))))
      refine (gy.add gm).isFloat hp0 ?_
      have : (p : ℤ) + (e - p + 1) = e + 1 := by ring
      rw [this, abs_of_nonneg (by linarith)]
      linarith
    · exfalso
      revert hneg
      rw [imp_false, not_lt]
      rcases le_or_gt 0 x with h0 | h0
      · have hq1 : A.flT (x / y) < 1 := by
          have hle : x / y ≤ (2 ^ p - 1 : ℤ) * (2 : ℝ) ^ (-(p : ℤ)) := by
            rw [div_le_iff₀ hy]
            have := hxf.le_pred (e := e) (by rwa [abs_of_nonneg h0] at hxe)
            refine this.trans ?_
            have hn0 : (0 : ℝ) ≤ ((2 ^ p - 1 : ℤ) : ℝ) := by
              push_cast; have : (1 : ℝ) ≤ 2 ^ p := one_le_pow₀ (by norm_num)
              linarith
            rw [mul_assoc]
            refine mul_le_mul_of_nonneg_left ?_ hn0
            calc (2 : ℝ) ^ (e - p) = 2 ^ (-(p : ℤ)) * 2 ^ e := by rw [← zpow_add₀ (by norm_num)]; congr 1; ring
              _ ≤ _ := mul_le_mul_of_nonneg_left h1 (by positivity)
          have hfl := R.T.mono hle
          have h1p : (1 : ℤ) ≤ 2 ^ p := one_le_pow₀ (by norm_num)
          rw [R.T.fix _ (isFloat_of_le hp0 (by rw [abs_of_nonneg (by omega)]; omega) _)] at hfl
          refine lt_of_le_of_lt hfl ?_
          push_cast
          rw [zpow_neg, zpow_natCast, mul_inv_lt_iff₀ (by positivity)]
          linarith
        have hq0 : 0 ≤ A.flT (x / y) := R.T.nonneg (by positivity)
        have hfloor : ⌊A.flT (x / y)⌋ = 0 := Int.floor_eq_zero_iff.mpr ⟨hq0, hq1⟩
        rw [hfloor]
        simp only [Int.cast_zero, mul_zero, R.M.map_zero, sub_zero]
        exact R.D.nonneg (R.M.nonneg h0)
      · have hxy : x / y < 0 := div_neg_of_neg_of_pos h0 hy
        have hq0 : A.flT (x / y) < 0 := by
          have hr := (abs_le.mp (R.T.rel hp0 (x / y))).2
          have hu : (2⁻¹ : ℝ) ^ (p - 1) ≤ 1 / 16 := (R.T.rounding hp le_rfl).small
          have := mul_le_mul_of_nonneg_right hu (abs_nonneg (x / y))
          rw [abs_of_neg hxy] at this hr
          linarith
        have hq1 : -1 ≤ A.flT (x / y) := by
          have : -1 ≤ x / y := by
            rw [le_div_iff₀ hy]
            rw [abs_of_neg h0] at hxe; linarith
          have := R.T.mono this
          have h1f : IsFloat p (-1) := by
            have := (isFloat_two_zpow hp0 0).neg
            simpa using this
          rwa [R.T.fix _ h1f] at this
        have hfloor : ⌊A.flT (x / y)⌋ = -1 := by
          rw [Int.floor_eq_iff]; push_cast; constructor <;> linarith
        rw [hfloor]
        push_cast
        rw [mul_neg_one, R.M.fix _ hyf.neg, sub_neg_eq_add]
        refine R.D.nonneg (R.M.nonneg ?_)
        rw [abs_of_neg h0] at hxe; linarith
  simp only [fpModuloTyped]
  generalize A.flD (A.flM (x - A.flM (y * ⌊A.flT (x / y)⌋))) = m at hm hmf hgrid ⊢
  rw [if_neg hy.ne', if_pos hy]
  split_ifs with h1 h2 h3
  · exact hy
  · exact hy
  · have hf := hgrid h2
    rw [R.S.fix _ (hf.mono hS), R.T.fix _ hf]; linarith
  · rw [R.T.fix _ hmf]; exact not_le.mp h1

/-- **C80 (c).** Accuracy, for every rounding mode and either overload of `floor`: the result is within
`8·2^(1-p)(|x| + y)` of `x - k y` for some integer `k`. -/
theorem C80_modulo_accuracy {A : ModTypes} {p pM pD pS : ℕ} (R : A.Rounds p pM pD pS) (hp : 5 ≤ p) (hM : p ≤ pM)
    (hD : p ≤ pD) (hS : p ≤ pS) {x y : ℝ} (hy : 0 < y) (hyf : IsFloat p y) (hx : 2⁻¹ ^ (p - 1) * |x| ≤ y / 8) :
    ∃ k : ℤ, |fpModuloTyped A x y - (x - k * y)| ≤ 8 * 2⁻¹ ^ (p - 1) * (|x| + y) := by
  have RT := R.T.rounding hp le_rfl
  have RM := R.M.rounding hp hM
  have RD := R.D.rounding hp hD
  have RS := R.S.rounding hp hS
  have hm := (typed_m_lower R hp hM hD hy hyf hx).2
  obtain ⟨z1, z2, z3⟩ := quotient_bounds RT RM (x := x) hy
  simp only [fpModuloTyped]
  set u : ℝ := 2⁻¹ ^ (p - 1) with hu
  have hu16 : u ≤ 1 / 16 := RT.small
  have hu0 : 0 ≤ u := RT.nonneg
  generalize ⌊A.flT (x / y)⌋ = n at *
  generalize A.flM (y * n) = c at *
  set z := x - c with hz
  set z0 := x - y * n with hz0
  have hX := abs_nonneg x
  set X := |x| with hXd
  have ux : u * X ≤ 1 / 16 * X := mul_le_mul_of_nonneg_right hu16 hX
  have uy : u * y ≤ 1 / 16 * y := mul_le_mul_of_nonneg_right hu16 hy.le
  have uX0 : 0 ≤ u * X := by positivity
  have uy0 : 0 ≤ u * y := by positivity
  have uuX : u * (u * X) ≤ 1 / 16 * (u * X) := mul_le_mul_of_nonneg_right hu16 uX0
  have uuy : u * (u * y) ≤ 1 / 16 * (u * y) := mul_le_mul_of_nonneg_right hu16 uy0
  have uuX0 : 0 ≤ u * (u * X) := by positivity
  have z3' : |z - z0| ≤ 17 / 16 * (u * X) + u * y := by
    refine z3.trans ?_
    have : u * (X + u * X + y) = u * X + u * (u * X) + u * y := by ring
    rw [this]; linarith
  have z3a := abs_le.mp z3'
  have hzabs : |z| ≤ y + 33 / 16 * (u * X) + u * y := by
    rw [abs_le]; constructor <;> linarith
  have e1 := RM.rel z
  set z' := A.flM z with hz'
  have hz'abs : |z'| ≤ 17 / 16 * |z| := by
    have := mul_le_mul_of_nonneg_right hu16 (abs_nonneg z)
    have h3 := abs_sub_abs_le_abs_sub z' z
    linarith
  have e2 := RD.rel z'
  set m := A.flD z' with hmd
  have uz : u * |z| ≤ u * y + 33 / 256 * (u * X) + 1 / 16 * (u * y) := by
    have := mul_le_mul_of_nonneg_left hzabs hu0
    have e : u * (y + 33 / 16 * (u * X) + u * y) = u * y + 33 / 16 * (u * (u * X)) + u * (u * y) := by ring
    rw [e] at this; linarith
  have uz' : u * |z'| ≤ 17 / 16 * (u * |z|) := by
    have := mul_le_mul_of_nonneg_left hz'abs hu0
    linarith
  have emz0 : |m - z0| ≤ 3 / 2 * (u * X) + 7 / 2 * (u * y) := by
    have t1 := abs_le.mp (e2.trans uz')
    have t2 := abs_le.mp e1
    rw [abs_le]; constructor <;> linarith
  have em := abs_le.mp emz0
  have eS : 8 * u * (X + y) = 8 * (u * X) + 8 * (u * y) := by ring
  rw [eS, if_neg hy.ne', if_pos hy]
  split_ifs with h1 h2 h3
  · refine ⟨n + 1, ?_⟩
    have : (0 : ℝ) - (x - ((n + 1 : ℤ) : ℝ) * y) = y - z0 := by rw [hz0]; push_cast; ring
    rw [this, abs_le]; constructor <;> linarith
  · refine ⟨n, ?_⟩
    have : (0 : ℝ) - (x - (n : ℝ) * y) = - z0 := by rw [hz0]; ring
    have r := RS.rel (y + m)
    rw [h3] at r
    have ym : |y + m| ≤ y := by rw [abs_le]; constructor <;> linarith
    have r' := abs_le.mp (r.trans (mul_le_mul_of_nonneg_left ym hu0))
    rw [this, abs_le]; constructor <;> linarith
  · refine ⟨n - 1, ?_⟩
    have ym : |y + m| ≤ y := by rw [abs_le]; constructor <;> linarith
    have r := (RS.rel (y + m)).trans (mul_le_mul_of_nonneg_left ym hu0)
    have hs1 : 0 ≤ A.flS (y + m) := R.S.nonneg (by linarith)
    have hs2 : A.flS (y + m) ≤ y := by
      have := R.S.mono (show y + m ≤ y by linarith)
      rwa [R.S.fix y (hyf.mono hS)] at this
    have sabs : |A.flS (y + m)| ≤ y := by rw [abs_le]; constructor <;> linarith
    have r2 := abs_le.mp ((RT.rel (A.flS (y + m))).trans (mul_le_mul_of_nonneg_left sabs hu0))
    have r1 := abs_le.mp r
    have : A.flT (A.flS (y + m)) - (x - ((n - 1 : ℤ) : ℝ) * y) =
        (A.flT (A.flS (y + m)) - A.flS (y + m)) + (A.flS (y + m) - (y + m)) + (m - z0) := by rw [hz0]; push_cast; ring
    rw [this, abs_le]; constructor <;> linarith
  · refine ⟨n, ?_⟩
    have mabs : |m| ≤ y := by rw [abs_le]; constructor <;> linarith
    have r := abs_le.mp ((RT.rel m).trans (mul_le_mul_of_nonneg_left mabs hu0))
    have : A.flT m - (x - (n : ℝ) * y) = (A.flT m - m) + (m - z0) := by rw [hz0]; ring
    rw [this, abs_le]; constructor <;> linarith

/-! ## The period constants -/

lemma mPi_near : |mPi - Real.pi| ≤ 2⁻¹ ^ 52 := by
  have h1 := Real.pi_gt_d20
  have h2 := Real.pi_lt_d20
  unfold mPi
  rw [abs_le]; constructor <;> norm_num at h1 h2 ⊢ <;> linarith

lemma mPi_lt_pi : mPi < Real.pi := by
  have h1 := Real.pi_gt_d20
  unfold mPi
  norm_num at h1 ⊢; linarith

lemma isFloat_mPi : IsFloat 53 mPi := ⟨884279719003555, -48, by norm_num, by unfold mPi; norm_num⟩
lemma isFloat_two_mPi : IsFloat 53 (2 * mPi) := ⟨884279719003555, -47, by norm_num, by unfold mPi; norm_num⟩

/-- `float(2.0*M_PI)` -/
lemma roundEven24_two_mPi : roundEven 24 (2 * mPi) = 13176795 / 2097152 := by
  rw [roundEven_eq (e := 2) (by unfold mPi; norm_num) (by unfold mPi; norm_num)]
  have : roundTiesEven (2 * mPi / 2 ^ ((2 : ℤ) - (((24 : ℕ) : ℤ) - 1))) = 13176795 := by
    apply roundTiesEven_of_near
    unfold mPi; norm_num [abs_lt]
  rw [this]; norm_num

/-- `float(M_PI)` -/
lemma roundEven24_mPi : roundEven 24 mPi = 13176795 / 4194304 := by
  rw [roundEven_eq (e := 1) (by unfold mPi; norm_num) (by unfold mPi; norm_num)]
  have : roundTiesEven (mPi / 2 ^ ((1 : ℤ) - (((24 : ℕ) : ℤ) - 1))) = 13176795 := by
    apply roundTiesEven_of_near
    unfold mPi; norm_num [abs_lt]
  rw [this]; norm_num

/-- **C80 (d), refutation.** With the C function `double floor(double)`, `floatingPointModulo<float>(-2⁻⁴⁰, float(2π))`
returns `float(2π)` itself: the half-open range documented in common.hpp:60 is left, and `wrapTwoPI<float>` returns a
value greater than `2π`. -/
theorem C80_float_not_half_open :
    fpModuloTyped ModTypes.floatFloorD (-(1 / 2 ^ 40)) (13176795 / 2097152) = 13176795 / 2097152 ∧
    wrapTwoPITyped ModTypes.floatFloorD (-(1 / 2 ^ 40)) = 13176795 / 2097152 ∧
    2 * Real.pi < wrapTwoPITyped ModTypes.floatFloorD (-(1 / 2 ^ 40)) := by
  have key : fpModuloTyped ModTypes.floatFloorD (-(1 / 2 ^ 40)) (13176795 / 2097152) = 13176795 / 2097152 := by
    have R24 : BinaryRounding 24 (roundEven 24) := roundEven_spec (by norm_num)
    have R53 : BinaryRounding 53 (roundEven 53) := roundEven_spec (by norm_num)
    have hq0 : roundEven 24 (-(1 / 2 ^ 40) / (13176795 / 2097152)) < 0 := by
      have hr := (abs_le.mp (R24.rel (by norm_num) (-(1 / 2 ^ 40) / (13176795 / 2097152)))).2
      rw [abs_of_neg (by norm_num)] at hr
      norm_num at hr ⊢
      linarith
    have hq1 : -1 ≤ roundEven 24 (-(1 / 2 ^ 40) / (13176795 / 2097152)) := by
      have := R24.mono (show (-1 : ℝ) ≤ -(1 / 2 ^ 40) / (13176795 / 2097152) by norm_num)
      rwa [R24.fix (-1) ⟨-1, 0, by norm_num, by norm_num⟩] at this
    have hfloor : ⌊roundEven 24 (-(1 / 2 ^ 40) / (13176795 / 2097152))⌋ = -1 := by
      rw [Int.floor_eq_iff]; push_cast; constructor <;> linarith
    have hprod : roundEven 53 (13176795 / 2097152 * ((-1 : ℤ) : ℝ)) = -(13176795 / 2097152) := by
      rw [show (13176795 / 2097152 * ((-1 : ℤ) : ℝ)) = -(13176795 / 2097152) by norm_num]
      exact R53.fix _ ⟨-13176795, -21, by norm_num, by norm_num⟩
    have hmval : roundEven 53 (-(1 / 2 ^ 40) - -(13176795 / 2097152)) =
        13176795 / 2097152 - 1 / 2 ^ 40 := by
      rw [R53.fix _ ⟨13176795 * 2 ^ 19 - 1, -40, by norm_num, by norm_num⟩]; norm_num
    have hm2 : roundEven 53 (13176795 / 2097152 - 1 / 2 ^ 40) = 13176795 / 2097152 - 1 / 2 ^ 40 :=
      R53.fix _ ⟨13176795 * 2 ^ 19 - 1, -40, by norm_num, by norm_num⟩
    have hres : roundEven 24 (13176795 / 2097152 - 1 / 2 ^ 40) = 13176795 / 2097152 := by
      rw [roundEven_eq (e := 2) (by norm_num) (by norm_num)]
      have : roundTiesEven ((13176795 / 2097152 - 1 / 2 ^ 40) / 2 ^ ((2 : ℤ) - (((24 : ℕ) : ℤ) - 1))) = 13176795 := by
        apply roundTiesEven_of_near
        norm_num [abs_lt]
      rw [this]; norm_num
    simp only [fpModuloTyped, ModTypes.floatFloorD, hfloor, hprod]
    rw [hmval, hm2, hres]
    norm_num
  have h2 : wrapTwoPITyped ModTypes.floatFloorD (-(1 / 2 ^ 40)) = 13176795 / 2097152 := by
    have : ModTypes.floatFloorD.flT (2 * mPi) = 13176795 / 2097152 := roundEven24_two_mPi
    unfold wrapTwoPITyped
    rw [this]; exact key
  refine ⟨key, h2, ?_⟩
  rw [h2]
  have := Real.pi_lt_d20
  norm_num at this ⊢
  linarith

/-! ## The wrap functions -/

lemma two_inv_pow_ge {p : ℕ} (h : p ≤ 53) : (2⁻¹ : ℝ) ^ 52 ≤ 2⁻¹ ^ (p - 1) :=
  pow_le_pow_of_le_one (by norm_num) (by norm_num) (by omega)

lemma mPi_bounds : 3.1415 < mPi ∧ mPi < 3.1416 := by unfold mPi; norm_num

/-- The period `T(2.0*M_PI)` against `2π`. -/
lemma period_bounds {A : ModTypes} {p pM pD pS : ℕ} (R : A.Rounds p pM pD pS) (hp : 5 ≤ p) (hp53 : p ≤ 53) :
    5.8 ≤ A.flT (2 * mPi) ∧ A.flT (2 * mPi) ≤ 6.7 ∧ |A.flT (2 * mPi) - 2 * Real.pi| ≤ 8.3 * 2⁻¹ ^ (p - 1) := by
  have RT := R.T.rounding hp le_rfl
  obtain ⟨b1, b2⟩ := mPi_bounds
  have h := RT.rel (2 * mPi)
  rw [abs_of_pos (by linarith : 0 < 2 * mPi)] at h
  have hs := RT.small
  have h0 := RT.nonneg
  have hpi := (mPi_near).trans (two_inv_pow_ge hp53)
  set u : ℝ := 2⁻¹ ^ (p - 1)
  have h1 : u * (2 * mPi) ≤ 6.2832 * u := by nlinarith
  have h2 := abs_le.mp h
  have h3 := abs_le.mp hpi
  refine ⟨?_, ?_, ?_⟩
  · norm_num at *; linarith
  · norm_num at *; linarith
  · rw [abs_le]; constructor <;> norm_num at * <;> linarith

lemma accuracy_two_pi {A : ModTypes} {p pM pD pS : ℕ} (R : A.Rounds p pM pD pS) (hp : 5 ≤ p) (hp53 : p ≤ 53)
    (hM : p ≤ pM) (hD : p ≤ pD) (hS : p ≤ pS) {x : ℝ} (hx : 2⁻¹ ^ (p - 1) * |x| ≤ 5.8 / 8) :
    ∃ k : ℤ, |fpModuloTyped A x (A.flT (2 * mPi)) - (x - k * (2 * Real.pi))| ≤ 12 * 2⁻¹ ^ (p - 1) * (|x| + 7) := by
  obtain ⟨y1, y2, y3⟩ := period_bounds R hp hp53
  have RT := R.T.rounding hp le_rfl
  have hyf : IsFloat p (A.flT (2 * mPi)) := R.T.range _
  set Y := A.flT (2 * mPi) with hY
  have hy : 0 < Y := by norm_num at y1; linarith
  have hx' : 2⁻¹ ^ (p - 1) * |x| ≤ Y / 8 := by norm_num at *; linarith
  obtain ⟨k, hk⟩ := C80_modulo_accuracy R hp hM hD hS hy hyf hx'
  obtain ⟨c1, c2, -⟩ := C80_modulo_closed R hp hM hD hS hy hyf hx'
  set r := fpModuloTyped A x Y with hr
  have hs := RT.small
  have h0 := RT.nonneg
  set u : ℝ := 2⁻¹ ^ (p - 1) with hu
  refine ⟨k, ?_⟩
  have hX := abs_nonneg x
  have hS0 : 0 ≤ |x| + Y := by linarith
  have h8 : 8 * u * (|x| + Y) ≤ 1 / 2 * (|x| + Y) := mul_le_mul_of_nonneg_right (by linarith) hS0
  have hkY : |(k : ℝ)| * Y ≤ 3 / 2 * (|x| + Y) + Y := by
    have e : |(k : ℝ)| * Y = |(k : ℝ) * Y| := by rw [abs_mul, abs_of_pos hy]
    rw [e]
    have a1 := abs_le.mp (hk.trans h8)
    rw [abs_le]; constructor <;> cases abs_cases x <;> linarith
  have hkabs : |(k : ℝ)| ≤ 5 / 2 * (|x| + Y) / Y := by
    rw [le_div_iff₀ hy]; linarith
  have hk5 : |(k : ℝ)| ≤ 0.45 * (|x| + Y) := by
    refine hkabs.trans ?_
    rw [div_le_iff₀ hy]
    have : 5.8 * (|x| + Y) ≤ Y * (|x| + Y) := mul_le_mul_of_nonneg_right y1 hS0
    norm_num at *; linarith
  have hprod : |(k : ℝ)| * |Y - 2 * Real.pi| ≤ 3.8 * (u * (|x| + Y)) := by
    calc |(k : ℝ)| * |Y - 2 * Real.pi| ≤ (0.45 * (|x| + Y)) * (8.3 * u) :=
          mul_le_mul hk5 y3 (abs_nonneg _) (by positivity)
      _ = 3.735 * (u * (|x| + Y)) := by ring
      _ ≤ 3.8 * (u * (|x| + Y)) := mul_le_mul_of_nonneg_right (by norm_num) (by positivity)
  have e : r - (x - k * (2 * Real.pi)) = (r - (x - k * Y)) + -(k * (Y - 2 * Real.pi)) := by ring
  rw [e]
  refine (abs_add_le _ _).trans ?_
  rw [abs_neg, abs_mul]
  have hfin : 8 * u * (|x| + Y) + 3.8 * (u * (|x| + Y)) ≤ 12 * u * (|x| + 7) := by
    have : u * (|x| + Y) ≤ u * (|x| + 7) := mul_le_mul_of_nonneg_left (by norm_num at y2; linarith) h0
    have h00 : 0 ≤ u * (|x| + Y) := by positivity
    norm_num; linarith
  linarith

/-- **C80 (e).** `wrapTwoPI<T>` for every rounding mode and either overload of `floor`: the result is within
`12·2^(1-p)(|a|+7)` of `a` minus a multiple of the true `2π`. -/
theorem C80_wrapTwoPI_accuracy {A : ModTypes} {p pM pD pS : ℕ} (R : A.Rounds p pM pD pS) (hp : 5 ≤ p) (hp53 : p ≤ 53)
    (hM : p ≤ pM) (hD : p ≤ pD) (hS : p ≤ pS) (a : ℝ) (ha : 2⁻¹ ^ (p - 1) * (|a| + 4) ≤ 1 / 2) :
    ∃ k : ℤ, |wrapTwoPITyped A a - (a - k * (2 * Real.pi))| ≤ 12 * 2⁻¹ ^ (p - 1) * (|a| + 7) := by
  refine accuracy_two_pi R hp hp53 hM hD hS ?_
  have h0 : (0 : ℝ) ≤ 2⁻¹ ^ (p - 1) := by positivity
  have : (2⁻¹ : ℝ) ^ (p - 1) * (|a| + 4) = 2⁻¹ ^ (p - 1) * |a| + 4 * 2⁻¹ ^ (p - 1) := by ring
  have h3 : (1 / 2 : ℝ) ≤ 5.8 / 8 := by norm_num
  linarith

/-- **C80 (f).** `wrapPosNegPI<T>` for every rounding mode and either overload of `floor`: the result is within
`16·2^(1-p)(|a|+10)` of `a` minus a multiple of the true `2π`. -/
theorem C80_wrapPosNegPI_accuracy {A : ModTypes} {p pM pD pS : ℕ} (R : A.Rounds p pM pD pS) (hp : 5 ≤ p) (hp53 : p ≤ 53)
    (hM : p ≤ pM) (hD : p ≤ pD) (hS : p ≤ pS) (a : ℝ) (ha : 2⁻¹ ^ (p - 1) * (|a| + 4) ≤ 1 / 2) :
    ∃ k : ℤ, |wrapPosNegPITyped A a - (a - k * (2 * Real.pi))| ≤ 16 * 2⁻¹ ^ (p - 1) * (|a| + 10) := by
  obtain ⟨y1, y2, -⟩ := period_bounds R hp hp53
  have RT := R.T.rounding hp le_rfl
  have RD := R.D.rounding hp hD
  obtain ⟨b1, b2⟩ := mPi_bounds
  have hs := RT.small
  have h0 := RT.nonneg
  have hyf : IsFloat p (A.flT (2 * mPi)) := R.T.range _
  have hA := abs_nonneg a
  have f1 := RT.rel mPi
  rw [abs_of_pos (show 0 < mPi by norm_num at b1; linarith)] at f1
  have f2 := RT.rel (a + A.flT mPi)
  have hacc := @accuracy_two_pi A p pM pD pS R hp hp53 hM hD hS (A.flT (a + A.flT mPi))
  have hcl := @C80_modulo_closed A p pM pD pS R hp hM hD hS (A.flT (a + A.flT mPi)) (A.flT (2 * mPi))
    (by norm_num at y1; linarith) hyf
  unfold wrapPosNegPITyped
  set Y := A.flT (2 * mPi) with hY
  set P := A.flT mPi with hP
  set X := A.flT (a + P) with hX
  set u : ℝ := 2⁻¹ ^ (p - 1) with hu
  have uPi : u * mPi ≤ 3.1416 * u := by nlinarith
  have f1' := abs_le.mp f1
  have uu : u * u ≤ 1 / 16 * u := mul_le_mul_of_nonneg_right hs h0
  have uA : u * |a| ≤ 1 / 16 * |a| := mul_le_mul_of_nonneg_right hs hA
  have hPb : 2.9 ≤ P ∧ P ≤ 3.4 := by constructor <;> norm_num at * <;> linarith
  have haP : |a + P| ≤ |a| + 3.4 := by
    refine (abs_add_le _ _).trans ?_
    rw [abs_of_pos (by norm_num at hPb; linarith : 0 < P)]; linarith [hPb.2]
  have f2' : |X - (a + P)| ≤ u * |a| + 3.4 * u := by
    refine f2.trans ((mul_le_mul_of_nonneg_left haP h0).trans (le_of_eq ?_)); ring
  have f2a := abs_le.mp f2'
  have haPa := abs_le.mp haP
  have hXabs : |X| ≤ 17 / 16 * |a| + 3.7 := by
    rw [abs_le]; constructor <;> norm_num at * <;> linarith
  have ha' : u * |a| + 4 * u ≤ 1 / 2 := by
    have e : u * (|a| + 4) = u * |a| + 4 * u := by ring
    linarith
  have huX : u * |X| ≤ 17 / 16 * (u * |a|) + 3.7 * u := by
    refine (mul_le_mul_of_nonneg_left hXabs h0).trans (le_of_eq ?_); ring
  have huX' : u * |X| ≤ 5.8 / 8 := by norm_num at *; linarith
  obtain ⟨k, hk⟩ := hacc huX'
  obtain ⟨c1, c2, -⟩ := hcl (by norm_num at *; linarith)
  refine ⟨k, ?_⟩
  set w := fpModuloTyped A X Y with hw
  have hwabs : |w - mPi| ≤ 3.6 := by
    rw [abs_le]; constructor <;> norm_num at * <;> linarith
  have g1 : |A.flD (w - mPi) - (w - mPi)| ≤ 3.6 * u := by
    refine (RD.rel (w - mPi)).trans ?_
    have := mul_le_mul_of_nonneg_left hwabs h0
    linarith
  have hd : |A.flD (w - mPi)| ≤ 3.9 := by
    have g1a := abs_le.mp g1
    have hwa := abs_le.mp hwabs
    rw [abs_le]; constructor <;> norm_num at * <;> linarith
  have g2 : |A.flT (A.flD (w - mPi)) - A.flD (w - mPi)| ≤ 3.9 * u := by
    refine (RT.rel _).trans ?_
    have := mul_le_mul_of_nonneg_left hd h0
    linarith
  have hk' : |w - (X - k * (2 * Real.pi))| ≤ 12 * (17 / 16 * (u * |a|) + 10.7 * u) := by
    refine hk.trans ?_
    have e : 12 * u * (|X| + 7) = 12 * (u * |X| + 7 * u) := by ring
    rw [e]; norm_num at *; linarith
  have k1 := abs_le.mp hk'
  have g1a := abs_le.mp g1
  have g2a := abs_le.mp g2
  have e : 16 * u * (|a| + 10) = 16 * (u * |a|) + 160 * u := by ring
  have hua0 : 0 ≤ u * |a| := by positivity
  rw [e, abs_le]; constructor <;> norm_num at * <;> linarith

/-- **C80 (g).** `wrapTwoPI<double>` stays in `[0, 2π)`, as documented, for every double `|a| ≤ 2⁵¹`; so does
`wrapTwoPI<float>` for every float `|a| ≤ 2²²` if `floor` is the `float` overload.  With the C function `floor(double)`
the result is in `[0, float(2π)]` and the right end, which exceeds `2π`, occurs (`C80_float_not_half_open`). -/
theorem C80_wrapTwoPI_range (a : ℝ) :
    (IsFloat 53 a → |a| ≤ 2 ^ 51 →
      0 ≤ wrapTwoPITyped ModTypes.double a ∧ wrapTwoPITyped ModTypes.double a < 2 * Real.pi) ∧
    (IsFloat 24 a → |a| ≤ 2 ^ 22 →
      (0 ≤ wrapTwoPITyped ModTypes.floatFloorF a ∧ wrapTwoPITyped ModTypes.floatFloorF a < 2 * Real.pi) ∧
      (0 ≤ wrapTwoPITyped ModTypes.floatFloorD a ∧ wrapTwoPITyped ModTypes.floatFloorD a ≤ 13176795 / 2097152)) := by
  refine ⟨fun hf ha => ?_, fun hf ha => ⟨?_, ?_⟩⟩
  · have hY : ModTypes.double.flT (2 * mPi) = 2 * mPi := ModTypes.double_rounds.T.fix _ isFloat_two_mPi
    unfold wrapTwoPITyped
    rw [hY]
    obtain ⟨b1, b2⟩ := mPi_bounds
    obtain ⟨h1, h2⟩ := C80_modulo_half_open ModTypes.double_rounds (by norm_num) (by norm_num) (by norm_num) hf
      (by norm_num at *; linarith) isFloat_two_mPi (by norm_num at *; linarith)
    exact ⟨h1, by linarith [mPi_lt_pi]⟩
  · have hY : ModTypes.floatFloorF.flT (2 * mPi) = 13176795 / 2097152 := roundEven24_two_mPi
    unfold wrapTwoPITyped
    rw [hY]
    have hYf : IsFloat 24 (13176795 / 2097152) := ⟨13176795, -21, by norm_num, by norm_num⟩
    have hsz : (2⁻¹ : ℝ) ^ (24 - 1) * |a| ≤ 13176795 / 2097152 / 8 := by norm_num at *; linarith
    obtain ⟨h1, h2⟩ := C80_modulo_half_open ModTypes.floatFloorF_rounds (by norm_num) (by norm_num) (by norm_num) hf
      (by norm_num) hYf hsz
    obtain ⟨-, -, h3⟩ := C80_modulo_closed ModTypes.floatFloorF_rounds (by norm_num) (by norm_num) (by norm_num)
      (by norm_num) (by norm_num) hYf hsz
    refine ⟨h1, ?_⟩
    rcases lt_or_ge (fpModuloTyped ModTypes.floatFloorF a (13176795 / 2097152)) 4 with h4 | h4
    · linarith [Real.pi_gt_three]
    · obtain ⟨n, hn⟩ := h3.onGrid (e := 2) (by rw [abs_of_nonneg h1]; norm_num; exact h4)
      rw [hn] at h2 ⊢
      have hlt : (n : ℝ) < 13176795 := by norm_num at h2; linarith
      have hlt' : n < 13176795 := by exact_mod_cast hlt
      have hle : (n : ℝ) ≤ 13176794 := by
        have : n ≤ 13176794 := by omega
        exact_mod_cast this
      have hpi := Real.pi_gt_d20
      norm_num at hpi ⊢
      linarith
  · have hY : ModTypes.floatFloorD.flT (2 * mPi) = 13176795 / 2097152 := roundEven24_two_mPi
    unfold wrapTwoPITyped
    rw [hY]
    have hYf : IsFloat 24 (13176795 / 2097152) := ⟨13176795, -21, by norm_num, by norm_num⟩
    have hsz : (2⁻¹ : ℝ) ^ (24 - 1) * |a| ≤ 13176795 / 2097152 / 8 := by norm_num at *; linarith
    obtain ⟨h1, h2, -⟩ := C80_modulo_closed ModTypes.floatFloorD_rounds (by norm_num) (by norm_num) (by norm_num)
      (by norm_num) (by norm_num) hYf hsz
    exact ⟨h1, h2⟩

/-- The largest value below `float(2π)` on the grid of the `float`s is `13176794·2⁻²¹`. -/
lemma float_pred {w : ℝ} (hf : IsFloat 24 w) (h0 : 0 ≤ w) (h : w < 13176795 / 2097152) : w ≤ 13176794 / 2097152 := by
  rcases lt_or_ge w 4 with h4 | h4
  · norm_num; linarith
  · obtain ⟨n, hn⟩ := hf.onGrid (e := 2) (by rw [abs_of_nonneg h0]; norm_num; exact h4)
    rw [hn] at h ⊢
    have hlt : (n : ℝ) < 13176795 := by norm_num at h; linarith
    have hlt' : n < 13176795 := by exact_mod_cast hlt
    have hle : (n : ℝ) ≤ 13176794 := by
      have : n ≤ 13176794 := by omega
      exact_mod_cast this
    norm_num
    linarith

/-- What lies strictly below `float(2π)` on the twice as fine grid is rounded down (the tie goes to the even neighbour). -/
lemma float_pred_half {w : ℝ} (hg : OnGrid (-22) w) (h : w < 13176795 / 2097152) :
    roundEven 24 w ≤ 13176794 / 2097152 := by
  have R24 : BinaryRounding 24 (roundEven 24) := roundEven_spec (by norm_num)
  obtain ⟨n, hn⟩ := hg
  have hlt : (n : ℝ) < 26353590 := by rw [hn] at h; norm_num at h; linarith
  have hlt' : n < 26353590 := by exact_mod_cast hlt
  have hle : (n : ℝ) ≤ 26353589 := by
    have : n ≤ 26353589 := by omega
    exact_mod_cast this
  have hw : w ≤ 26353589 / 4194304 := by rw [hn]; norm_num; linarith
  refine (R24.mono hw).trans (le_of_eq ?_)
  rw [roundEven_eq (e := 2) (by norm_num) (by norm_num)]
  have : roundTiesEven ((26353589 / 4194304) / 2 ^ ((2 : ℤ) - (((24 : ℕ) : ℤ) - 1))) = 13176794 := by
    have h := roundTiesEven_tie (n := 13176794) (by decide)
    rw [← h]; congr 1; norm_num
  rw [this]; norm_num

lemma fpModuloTyped_pos (A : ModTypes) {x y m : ℝ} (hy : 0 < y)
    (hm : m = A.flD (A.flM (x - A.flM (y * ⌊A.flT (x / y)⌋)))) :
    fpModuloTyped A x y = if m ≥ y then 0 else if m < 0 then
      (if A.flS (y + m) = y then 0 else A.flT (A.flS (y + m))) else A.flT m := by
  subst hm
  simp only [fpModuloTyped]
  rw [if_neg hy.ne', if_pos hy]

lemma floatD_modulo_le {x : ℝ} (h : OnGrid (-22) x ∨ (IsFloat 24 x ∧ 0 ≤ x ∧ x ≤ 5.5)) :
    fpModuloTyped ModTypes.floatFloorD x (13176795 / 2097152) ≤ 13176794 / 2097152 := by
  have R24 : BinaryRounding 24 (roundEven 24) := roundEven_spec (by norm_num)
  have R53 : BinaryRounding 53 (roundEven 53) := roundEven_spec (by norm_num)
  have hYg : OnGrid (-22) (13176795 / 2097152) := ⟨26353590, by norm_num⟩
  have hYf : IsFloat 53 (13176795 / 2097152) := ⟨13176795, -21, by norm_num, by norm_num⟩
  rcases h with h | ⟨hf, h0, h5⟩
  · have gm : OnGrid (-22) (roundEven 53 (roundEven 53 (x - roundEven 53 (13176795 / 2097152 *
        ⌊roundEven 24 (x / (13176795 / 2097152))⌋)))) :=
      R53.onGrid (by norm_num) (R53.onGrid (by norm_num) (h.sub (R53.onGrid (by norm_num) (hYg.mul_int _))))
    generalize hm : roundEven 53 (roundEven 53 (x - roundEven 53 (13176795 / 2097152 *
        ⌊roundEven 24 (x / (13176795 / 2097152))⌋))) = m at gm
    rw [fpModuloTyped_pos ModTypes.floatFloorD (m := m) (by norm_num) hm.symm]
    split_ifs with h1 h2 h3
    · norm_num
    · norm_num
    · refine float_pred_half (R53.onGrid (by norm_num) (hYg.add gm)) (lt_of_le_of_ne ?_ h3)
      exact (R53.mono (show 13176795 / 2097152 + m ≤ 13176795 / 2097152 by linarith)).trans (R53.fix _ hYf).le
    · exact float_pred_half gm (not_le.mp h1)
  · have hq0 : 0 ≤ roundEven 24 (x / (13176795 / 2097152)) := R24.nonneg (by positivity)
    have hq1 : roundEven 24 (x / (13176795 / 2097152)) < 1 := by
      have hle : x / (13176795 / 2097152) ≤ 15 / 16 := by
        rw [div_le_iff₀ (by norm_num)]; norm_num at h5 ⊢; linarith
      have := R24.mono hle
      rw [R24.fix (15 / 16) ⟨15, -4, by norm_num, by norm_num⟩] at this
      linarith
    have hfloor : ⌊roundEven 24 (x / (13176795 / 2097152))⌋ = 0 := Int.floor_eq_zero_iff.mpr ⟨hq0, hq1⟩
    have hm : roundEven 53 (roundEven 53 (x - roundEven 53 (13176795 / 2097152 *
        ⌊roundEven 24 (x / (13176795 / 2097152))⌋))) = x := by
      rw [hfloor]
      simp only [Int.cast_zero, mul_zero, R53.map_zero, sub_zero, R53.fix x (hf.mono (by norm_num))]
    rw [fpModuloTyped_pos ModTypes.floatFloorD (m := x) (by norm_num) hm.symm,
      if_neg (by norm_num at *; linarith), if_neg (by linarith)]
    refine (R24.fix x hf).le.trans ?_
    norm_num at *; linarith

/-- **C80 (h).** `wrapPosNegPI<double>` stays in `[-M_PI, M_PI)`, as documented, for every double `|a| ≤ 2⁵⁰`;
`wrapPosNegPI<float>` stays in `[-float(π), π)` for every float `|a| ≤ 2²¹` with either overload of `floor`. -/
theorem C80_wrapPosNegPI_range (a : ℝ) :
    (|a| ≤ 2 ^ 50 →
      -mPi ≤ wrapPosNegPITyped ModTypes.double a ∧ wrapPosNegPITyped ModTypes.double a < mPi) ∧
    (IsFloat 24 a → |a| ≤ 2 ^ 21 →
      (-(13176795 / 4194304) ≤ wrapPosNegPITyped ModTypes.floatFloorF a ∧
        wrapPosNegPITyped ModTypes.floatFloorF a < Real.pi) ∧
      (-(13176795 / 4194304) ≤ wrapPosNegPITyped ModTypes.floatFloorD a ∧
        wrapPosNegPITyped ModTypes.floatFloorD a < Real.pi)) := by
  obtain ⟨b1, b2⟩ := mPi_bounds
  have R24 : BinaryRounding 24 (roundEven 24) := roundEven_spec (by norm_num)
  have R53 : BinaryRounding 53 (roundEven 53) := roundEven_spec (by norm_num)
  refine ⟨fun ha => ?_, fun hf ha => ?_⟩
  · have hY : ModTypes.double.flT (2 * mPi) = 2 * mPi := R53.fix _ isFloat_two_mPi
    have hP : ModTypes.double.flT mPi = mPi := R53.fix _ isFloat_mPi
    unfold wrapPosNegPITyped
    rw [hY, hP]
    have hXr := (abs_le.mp (R53.rel (by norm_num) (a + mPi)))
    have hXf : IsFloat 53 (ModTypes.double.flT (a + mPi)) := R53.range _
    have haP : |a + mPi| ≤ 2 ^ 50 + 4 := by
      refine (abs_add_le _ _).trans ?_
      rw [abs_of_pos (show 0 < mPi by norm_num at b1; linarith)]; norm_num at *; linarith
    have hX : |ModTypes.double.flT (a + mPi)| ≤ 2 ^ 50 + 8 := by
      have e : ModTypes.double.flT (a + mPi) = roundEven 53 (a + mPi) := rfl
      have haP' := abs_le.mp haP
      rw [e, abs_le]
      have : (2⁻¹ : ℝ) ^ (53 - 1) * |a + mPi| ≤ 1 := by
        have := mul_le_mul_of_nonneg_left haP (show (0 : ℝ) ≤ 2⁻¹ ^ (53 - 1) by positivity)
        refine this.trans ?_
        norm_num
      constructor <;> linarith
    obtain ⟨h1, h2⟩ := C80_modulo_half_open ModTypes.double_rounds (by norm_num) (by norm_num) (by norm_num) hXf
      (y := 2 * mPi) (by norm_num at *; linarith) isFloat_two_mPi (by norm_num at *; linarith)
    have hcl := (C80_modulo_closed ModTypes.double_rounds (by norm_num) (by norm_num) (by norm_num) (by norm_num)
      (x := ModTypes.double.flT (a + mPi))
      (y := 2 * mPi) (by norm_num at *; linarith) isFloat_two_mPi (by norm_num at *; linarith)).2.2
    generalize fpModuloTyped ModTypes.double (ModTypes.double.flT (a + mPi)) (2 * mPi) = w at h1 h2 hcl ⊢
    have hdd : ∀ z, ModTypes.double.flT (ModTypes.double.flD z) = roundEven 53 z :=
      fun z => R53.fix _ (R53.range z)
    rw [hdd]
    refine ⟨?_, ?_⟩
    · have := R53.mono (show -mPi ≤ w - mPi by linarith)
      rwa [R53.fix _ isFloat_mPi.neg] at this
    · -- the largest double below `2 M_PI`
      have hw : w ≤ 2 * mPi - 1 / 2 ^ 50 := by
        rcases lt_or_ge w 4 with h4 | h4
        · norm_num at *; linarith
        · obtain ⟨n, hn⟩ := hcl.onGrid (e := 2) (by rw [abs_of_nonneg h1]; norm_num; exact h4)
          rw [hn] at h2 ⊢
          have hlt : (n : ℝ) < 7074237752028440 := by unfold mPi at h2; norm_num at h2; linarith
          have hlt' : n < 7074237752028440 := by exact_mod_cast hlt
          have hle : (n : ℝ) ≤ 7074237752028439 := by
            have : n ≤ 7074237752028439 := by omega
            exact_mod_cast this
          unfold mPi
          norm_num
          linarith
      have := R53.mono (show w - mPi ≤ mPi - 1 / 2 ^ 50 by linarith)
      rw [R53.fix (mPi - 1 / 2 ^ 50) ⟨884279719003555 * 4 - 1, -50, by norm_num, by unfold mPi; norm_num⟩] at this
      have : roundEven 53 (w - mPi) ≤ mPi - 1 / 2 ^ 50 := this
      norm_num at this ⊢; linarith
  · have hYf : IsFloat 24 (13176795 / 2097152) := ⟨13176795, -21, by norm_num, by norm_num⟩
    have hPf : IsFloat 24 (13176795 / 4194304) := ⟨13176795, -22, by norm_num, by norm_num⟩
    -- from the range of the modulo to the range of the result
    have fin : ∀ w : ℝ, 0 ≤ w → w ≤ 13176794 / 2097152 →
        -(13176795 / 4194304) ≤ roundEven 24 (roundEven 53 (w - mPi)) ∧
        roundEven 24 (roundEven 53 (w - mPi)) < Real.pi := by
      intro w h0 h1
      constructor
      · have h2 := R53.mono (show -(13176795 / 4194304) ≤ w - mPi by unfold mPi; norm_num; linarith)
        rw [R53.fix _ (hPf.neg.mono (by norm_num))] at h2
        have h3 := R24.mono h2
        rwa [R24.fix _ hPf.neg] at h3
      · have hcf : IsFloat 24 (13176794 / 4194304) := ⟨13176794, -22, by norm_num, by norm_num⟩
        have h2 := R53.mono (show w - mPi ≤ 13176794 / 4194304 by unfold mPi; norm_num at *; linarith)
        rw [R53.fix _ (hcf.mono (by norm_num))] at h2
        have h3 := R24.mono h2
        rw [R24.fix _ hcf] at h3
        have hpi := Real.pi_gt_d20
        norm_num at hpi h3
        linarith
    set X := roundEven 24 (a + 13176795 / 4194304) with hX
    have hXf : IsFloat 24 X := R24.range _
    have haP : |a + 13176795 / 4194304| ≤ 2 ^ 21 + 4 := by
      refine (abs_add_le _ _).trans ?_
      rw [abs_of_pos (by norm_num : (0 : ℝ) < 13176795 / 4194304)]; norm_num at *; linarith
    have hXabs : |X| ≤ 2 ^ 21 + 8 := by
      have hr := (abs_le.mp (R24.rel (by norm_num) (a + 13176795 / 4194304)))
      have haP' := abs_le.mp haP
      have : (2⁻¹ : ℝ) ^ (24 - 1) * |a + 13176795 / 4194304| ≤ 1 := by
        have := mul_le_mul_of_nonneg_left haP (show (0 : ℝ) ≤ 2⁻¹ ^ (24 - 1) by positivity)
        refine this.trans ?_
        norm_num
      rw [hX, abs_le]
      constructor <;> linarith
    have hsz : (2⁻¹ : ℝ) ^ (24 - 1) * |X| ≤ 13176795 / 2097152 / 8 := by
      have := mul_le_mul_of_nonneg_left hXabs (show (0 : ℝ) ≤ 2⁻¹ ^ (24 - 1) by positivity)
      refine this.trans ?_
      norm_num
    have hF : wrapPosNegPITyped ModTypes.floatFloorF a =
        roundEven 24 (roundEven 53 (fpModuloTyped ModTypes.floatFloorF X (13176795 / 2097152) - mPi)) := by
      simp only [wrapPosNegPITyped, ModTypes.floatFloorF, roundEven24_two_mPi, roundEven24_mPi, hX]
    have hDD : wrapPosNegPITyped ModTypes.floatFloorD a =
        roundEven 24 (roundEven 53 (fpModuloTyped ModTypes.floatFloorD X (13176795 / 2097152) - mPi)) := by
      simp only [wrapPosNegPITyped, ModTypes.floatFloorD, roundEven24_two_mPi, roundEven24_mPi, hX]
    refine ⟨?_, ?_⟩
    · rw [hF]
      obtain ⟨h1, h2⟩ := C80_modulo_half_open ModTypes.floatFloorF_rounds (by norm_num) (by norm_num) (by norm_num) hXf
        (by norm_num) hYf hsz
      obtain ⟨-, -, h3⟩ := C80_modulo_closed ModTypes.floatFloorF_rounds (by norm_num) (by norm_num) (by norm_num)
        (by norm_num) (by norm_num) hYf hsz
      exact fin _ h1 (float_pred h3 h1 h2)
    · rw [hDD]
      obtain ⟨h1, -, -⟩ := C80_modulo_closed ModTypes.floatFloorD_rounds (by norm_num) (by norm_num) (by norm_num)
        (by norm_num) (by norm_num) hYf hsz
      refine fin _ h1 (floatD_modulo_le ?_)
      rcases le_or_gt 2 |a| with h2 | h2
      · left
        have ga : OnGrid (-22) a := hf.onGrid (e := 1) (by norm_num; exact h2)
        exact R24.onGrid (by norm_num) (ga.add ⟨13176795, by norm_num⟩)
      · right
        have h2' := abs_lt.mp h2
        refine ⟨hXf, R24.nonneg (by norm_num; linarith), ?_⟩
        have := R24.mono (show a + 13176795 / 4194304 ≤ 11 / 2 by norm_num; linarith)
        rw [R24.fix (11 / 2) ⟨11, -1, by norm_num, by norm_num⟩] at this
        norm_num at this ⊢; exact this

/-- **C80 (i).** A value that is already in `[0, y)` is returned unchanged, bit for bit, for every rounding mode and either
overload of `floor`; hence wrapping is idempotent whenever the first result is in the half-open range. -/
theorem C80_modulo_fixed {A : ModTypes} {p pM pD pS : ℕ} (R : A.Rounds p pM pD pS) (hp : 0 < p) (hM : p ≤ pM)
    (hD : p ≤ pD) {x y : ℝ} (hxf : IsFloat p x) (hyf : IsFloat p y) (h0 : 0 ≤ x) (hxy : x < y) :
    fpModuloTyped A x y = x := by
  have hy : 0 < y := lt_of_le_of_lt h0 hxy
  set e := Int.log 2 y with he
  have h1 : (2 : ℝ) ^ e ≤ y := by exact_mod_cast Int.zpow_log_le_self (b := 2) (by norm_num) hy
  have h2 : y < (2 : ℝ) ^ (e + 1) := by exact_mod_cast Int.lt_zpow_succ_log_self (b := 2) (by norm_num) y
  have hpp : (1 : ℝ) ≤ 2 ^ p := one_le_pow₀ (by norm_num)
  have hle : x / y ≤ (2 ^ p - 1 : ℤ) * (2 : ℝ) ^ (-(p : ℤ)) := by
    have hval : ((2 ^ p - 1 : ℤ) : ℝ) * (2 : ℝ) ^ (-(p : ℤ)) = 1 - 2 ^ (-(p : ℤ)) := by
      push_cast; rw [sub_mul, one_mul, zpow_neg, zpow_natCast, mul_inv_cancel₀ (by positivity)]
    rw [hval, div_le_iff₀ hy]
    have hq0 : (0 : ℝ) < 2 ^ (-(p : ℤ)) := by positivity
    rcases le_or_gt ((2 : ℝ) ^ e) x with hxe | hxe
    · obtain ⟨n, hn⟩ := hxf.onGrid (e := e) (by rwa [abs_of_nonneg h0])
      obtain ⟨k, hk⟩ := hyf.onGrid (e := e) (by rwa [abs_of_pos hy])
      have g0 : (0 : ℝ) < 2 ^ (e - (p : ℤ) + 1) := by positivity
      rw [hn, hk] at hxy
      have hnk : (n : ℝ) < k := lt_of_mul_lt_mul_right hxy g0.le
      have hnk' : n < k := by exact_mod_cast hnk
      have hnk2 : (n : ℝ) + 1 ≤ k := by exact_mod_cast hnk'
      have hstep : x + 2 ^ (e - (p : ℤ) + 1) ≤ y := by
        have := mul_le_mul_of_nonneg_right hnk2 g0.le
        rw [add_mul, one_mul, ← hn, ← hk] at this; exact this
      have hge : 2 ^ (-(p : ℤ)) * y ≤ 2 ^ (e - (p : ℤ) + 1) := by
        have : (2 : ℝ) ^ (e - (p : ℤ) + 1) = 2 ^ (-(p : ℤ)) * 2 ^ (e + 1) := by
          rw [← zpow_add₀ (by norm_num)]; congr 1; ring
        rw [this]; exact mul_le_mul_of_nonneg_left h2.le hq0.le
      linarith
    · have := hxf.le_pred (e := e) hxe
      have hn0 : (0 : ℝ) ≤ 1 - 2 ^ (-(p : ℤ)) := by
        rw [← hval]; push_cast
        have : (0 : ℝ) ≤ 2 ^ p - 1 := by linarith
        positivity
      refine this.trans ?_
      have e2 : (2 : ℝ) ^ (e - (p : ℤ)) = 2 ^ (-(p : ℤ)) * 2 ^ e := by
        rw [← zpow_add₀ (by norm_num)]; congr 1; ring
      rw [e2, ← mul_assoc, hval]
      exact mul_le_mul_of_nonneg_left h1 hn0
  have hq1 : A.flT (x / y) < 1 := by
    have hfl := R.T.mono hle
    have h1p : (1 : ℤ) ≤ 2 ^ p := one_le_pow₀ (by norm_num)
    rw [R.T.fix _ (isFloat_of_le hp (by rw [abs_of_nonneg (by omega)]; omega) _)] at hfl
    refine lt_of_le_of_lt hfl ?_
    push_cast
    rw [zpow_neg, zpow_natCast, mul_inv_lt_iff₀ (by positivity)]
    linarith
  have hq0 : 0 ≤ A.flT (x / y) := R.T.nonneg (by positivity)
  have hfloor : ⌊A.flT (x / y)⌋ = 0 := Int.floor_eq_zero_iff.mpr ⟨hq0, hq1⟩
  have hm : x = A.flD (A.flM (x - A.flM (y * ⌊A.flT (x / y)⌋))) := by
    rw [hfloor]
    simp only [Int.cast_zero, mul_zero, R.M.map_zero, sub_zero, R.M.fix x (hxf.mono hM), R.D.fix x (hxf.mono hD)]
  rw [fpModuloTyped_pos A hy hm, if_neg (not_le.mpr hxy), if_neg (not_lt.mpr h0), R.T.fix x hxf]

/-- **C80 (j).** `wrapTwoPI<double>` is idempotent bit for bit on all doubles up to `2⁵¹`. -/
theorem C80_wrapTwoPI_idempotent (a : ℝ) (hf : IsFloat 53 a) (ha : |a| ≤ 2 ^ 51) :
    wrapTwoPITyped ModTypes.double (wrapTwoPITyped ModTypes.double a) = wrapTwoPITyped ModTypes.double a := by
  obtain ⟨b1, b2⟩ := mPi_bounds
  have hY : ModTypes.double.flT (2 * mPi) = 2 * mPi := ModTypes.double_rounds.T.fix _ isFloat_two_mPi
  unfold wrapTwoPITyped
  rw [hY]
  have hsz : (2⁻¹ : ℝ) ^ (53 - 1) * |a| ≤ 2 * mPi / 8 := by norm_num at *; linarith
  have hpos : 0 < 2 * mPi := by norm_num at *; linarith
  obtain ⟨h1, h2⟩ := C80_modulo_half_open ModTypes.double_rounds (by norm_num) (by norm_num) (by norm_num) hf
    hpos isFloat_two_mPi hsz
  obtain ⟨-, -, h3⟩ := C80_modulo_closed ModTypes.double_rounds (by norm_num) (by norm_num) (by norm_num) (by norm_num)
    hpos isFloat_two_mPi hsz
  exact C80_modulo_fixed ModTypes.double_rounds (by norm_num) (by norm_num) (by norm_num) h3 isFloat_two_mPi h1 h2

/-- non-vacuity of C80: `-1e-3`-like inputs satisfy the hypotheses, and the result for `-1/1024` is a genuinely wrapped
value. -/
example : IsFloat 53 (-(1 / 1024)) ∧ |(-(1 / 1024) : ℝ)| ≤ 2 ^ 51 ∧ IsFloat 24 (-(1 / 1024)) :=
  ⟨⟨-1, -10, by norm_num, by norm_num⟩, by norm_num [abs_of_nonneg], ⟨-1, -10, by norm_num, by norm_num⟩⟩
example : ∃ k : ℤ, |wrapTwoPITyped ModTypes.double 100 - (100 - k * (2 * Real.pi))| ≤ 12 * 2⁻¹ ^ (53 - 1) * (|100| + 7) :=
  C80_wrapTwoPI_accuracy ModTypes.double_rounds (by norm_num) (by norm_num) (by norm_num) (by norm_num) (by norm_num) 100
    (by norm_num)

end Kindr
