import Verif.Props.Bits
import Verif.Model.FloatUnique

/-!
# C104: wrapping an angle twice, and the unique half turn, in `double` and in `float`
-/

set_option autoImplicit false

open Classical

noncomputable section
namespace Kindr
open Spec

private lemma R53 : BinaryRounding 53 (roundEven 53) := roundEven_spec (by norm_num)
private lemma R24 : BinaryRounding 24 (roundEven 24) := roundEven_spec (by norm_num)

/-! ## `double` -/

lemma wrapDouble_eq (a : ℝ) : wrapPosNegPITyped ModTypes.double a =
    roundEven 53 (fpModuloTyped ModTypes.double (roundEven 53 (a + mPi)) (2 * mPi) - mPi) := by
  have hP : ModTypes.double.flT mPi = mPi := R53.fix _ isFloat_mPi
  have hY : ModTypes.double.flT (2 * mPi) = 2 * mPi := R53.fix _ isFloat_two_mPi
  unfold wrapPosNegPITyped
  rw [hP, hY]
  exact R53.fix _ (R53.range _)

/-- An angle in range whose sum with `M_PI` is representable is not changed. -/
lemma wrapDouble_fixed {h : ℝ} (hf : IsFloat 53 h) (h1 : -mPi ≤ h) (h2 : h < mPi) (hx : IsFloat 53 (h + mPi)) :
    wrapPosNegPITyped ModTypes.double h = h := by
  rw [wrapDouble_eq, R53.fix _ hx, C80_modulo_fixed ModTypes.double_rounds (by norm_num) (by norm_num) (by norm_num) hx isFloat_two_mPi (by linarith)
    (by linarith), add_sub_cancel_right, R53.fix _ hf]

lemma grid_mPi {k : ℤ} (hk : k ≤ -48) : OnGrid k mPi := by
  have : mPi = (884279719003555 : ℤ) * (2 : ℝ) ^ (-48 : ℤ) := by unfold mPi; norm_num
  rw [this]; exact onGrid_of_le hk _

/-- The result of the modulo minus `M_PI`: either exact, or at most `-M_PI/2`; in both cases its sum with `M_PI` is representable. -/
lemma sub_mPi {g : ℝ} (hg : IsFloat 53 g) (h0 : 0 ≤ g) (h1 : g < 2 * mPi) :
    -mPi ≤ roundEven 53 (g - mPi) ∧ roundEven 53 (g - mPi) < mPi ∧ IsFloat 53 (roundEven 53 (g - mPi) + mPi) ∧
    (mPi / 2 ≤ g → roundEven 53 (g - mPi) = g - mPi) := by
  obtain ⟨b1, b2⟩ := mPi_bounds
  norm_num at b1 b2
  have lo : -mPi ≤ roundEven 53 (g - mPi) := by
    have := R53.mono (show -mPi ≤ g - mPi by linarith)
    rwa [R53.fix _ isFloat_mPi.neg] at this
  rcases le_or_gt (mPi / 2) g with h | h
  · have ex : IsFloat 53 (g - mPi) := by
      rcases le_or_gt 4 g with h4 | h4
      · have gg : OnGrid (-50) g := hg.onGrid (e := 2) (by rw [abs_of_nonneg h0]; norm_num; linarith)
        refine (gg.sub (grid_mPi (by norm_num))).isFloat (by norm_num) ?_
        rw [abs_le]; norm_num; constructor <;> linarith
      · have gg : OnGrid (-52) g := hg.onGrid (e := 0) (by rw [abs_of_nonneg h0]; norm_num; linarith)
        refine (gg.sub (grid_mPi (by norm_num))).isFloat (by norm_num) ?_
        rw [abs_le]; norm_num; constructor <;> linarith
    rw [R53.fix _ ex]
    exact ⟨by linarith, by linarith, by rwa [sub_add_cancel], fun _ => rfl⟩
  · have hh : IsFloat 53 (mPi / 2) := ⟨884279719003555, -49, by norm_num, by unfold mPi; norm_num⟩
    have hi : roundEven 53 (g - mPi) ≤ -(mPi / 2) := by
      have := R53.mono (show g - mPi ≤ -(mPi / 2) by linarith)
      rwa [R53.fix _ hh.neg] at this
    have gg : OnGrid (-52) (roundEven 53 (g - mPi)) := (R53.range _).onGrid (e := 0) (by
      rw [abs_of_nonpos (by linarith)]; norm_num; linarith)
    refine ⟨lo, by linarith, (gg.add (grid_mPi (by norm_num))).isFloat (by norm_num) ?_, fun h' => by linarith⟩
    rw [abs_le]; norm_num; constructor <;> linarith

lemma modulo_double {x : ℝ} (hf : IsFloat 53 x) (hx : |x| ≤ 2 ^ 51) :
    IsFloat 53 (fpModuloTyped ModTypes.double x (2 * mPi)) ∧ 0 ≤ fpModuloTyped ModTypes.double x (2 * mPi) ∧
    fpModuloTyped ModTypes.double x (2 * mPi) < 2 * mPi := by
  obtain ⟨b1, b2⟩ := mPi_bounds
  have hsz : (2⁻¹ : ℝ) ^ (53 - 1) * |x| ≤ 2 * mPi / 8 := by norm_num at *; linarith
  have hpos : 0 < 2 * mPi := by norm_num at *; linarith
  obtain ⟨h1, h2⟩ := C80_modulo_half_open ModTypes.double_rounds (by norm_num) (by norm_num) (by norm_num) hf
    hpos isFloat_two_mPi hsz
  obtain ⟨-, -, h3⟩ := C80_modulo_closed ModTypes.double_rounds (by norm_num) (by norm_num) (by norm_num) (by norm_num)
    hpos isFloat_two_mPi hsz
  exact ⟨h3, h1, h2⟩

lemma sum_double {a : ℝ} (ha : |a| ≤ 2 ^ 50) : |roundEven 53 (a + mPi)| ≤ 2 ^ 51 := by
  obtain ⟨b1, b2⟩ := mPi_bounds
  norm_num at b1 b2
  have h := abs_le.mp (R53.rel (by norm_num) (a + mPi))
  have h2 : |a + mPi| ≤ 2 ^ 50 + 4 := (abs_add_le _ _).trans (by rw [abs_of_pos (show 0 < mPi by linarith)]; linarith)
  have h3 := abs_le.mp h2
  norm_num at h h2 h3 ⊢
  rw [abs_le]; constructor <;> linarith

/-- What `wrapPosNegPI<double>` returns: a double in `[-M_PI, M_PI)` that it does not change again. -/
lemma wrapDouble_spec {a : ℝ} (ha : |a| ≤ 2 ^ 50) : IsFloat 53 (wrapPosNegPITyped ModTypes.double a) ∧
    -mPi ≤ wrapPosNegPITyped ModTypes.double a ∧ wrapPosNegPITyped ModTypes.double a < mPi ∧
    wrapPosNegPITyped ModTypes.double (wrapPosNegPITyped ModTypes.double a) = wrapPosNegPITyped ModTypes.double a := by
  have e := wrapDouble_eq a
  obtain ⟨m1, m2, m3⟩ := modulo_double (R53.range (a + mPi)) (sum_double ha)
  obtain ⟨s1, s2, s3, -⟩ := sub_mPi m1 m2 m3
  rw [← e] at s1 s2 s3
  have hf : IsFloat 53 (wrapPosNegPITyped ModTypes.double a) := by rw [e]; exact R53.range _
  exact ⟨hf, s1, s2, wrapDouble_fixed hf s1 s2 s3⟩

/-- **C104 (a).** `wrapPosNegPI<double>` is idempotent bit for bit. -/
theorem C104_double_idempotent (a : ℝ) (ha : |a| ≤ 2 ^ 50) :
    wrapPosNegPITyped ModTypes.double (wrapPosNegPITyped ModTypes.double a) = wrapPosNegPITyped ModTypes.double a := (wrapDouble_spec ha).2.2.2

/-! ## `float` -/

/-- `float` with either overload of `floor`. -/
def floatTypes (floorD : Bool) : ModTypes := if floorD then ModTypes.floatFloorD else ModTypes.floatFloorF

lemma floatTypes_rounds (b : Bool) : (floatTypes b).Rounds 24 (if b then 53 else 24) 53 53 := by
  cases b
  · exact ModTypes.floatFloorF_rounds
  · exact ModTypes.floatFloorD_rounds

lemma floatTypes_T (b : Bool) : (floatTypes b).flT = roundEven 24 := by cases b <;> rfl
lemma floatTypes_D (b : Bool) : (floatTypes b).flD = roundEven 53 := by cases b <;> rfl

lemma wrapFloat_eq (b : Bool) (a : ℝ) : wrapPosNegPITyped (floatTypes b) a =
    roundEven 24 (roundEven 53 (fpModuloTyped (floatTypes b) (roundEven 24 (a + 13176795 / 4194304)) (13176795 / 2097152) - mPi)) := by
  unfold wrapPosNegPITyped
  rw [floatTypes_T, floatTypes_D, roundEven24_mPi, roundEven24_two_mPi]

/-- **C104 (b), finding.** `wrapPosNegPI<float>` is not idempotent: it moves every float in `[-2, 2 - float(M_PI))` up by one unit in the last place,
although the angle is in range already. -/
theorem C104_float_step (b : Bool) (h : ℝ) (hf : IsFloat 24 h) (h1 : -2 ≤ h) (h2 : h < 2 - 13176795 / 4194304) :
    wrapPosNegPITyped (floatTypes b) h = h + 2⁻¹ ^ 23 := by
  have hn : OnGrid (-23) h := hf.onGrid (e := 0) (by rw [abs_of_nonpos (by norm_num at h2; linarith)]; norm_num at h2 ⊢; linarith)
  have hs : IsFloat 24 (h + 13176795 / 4194304) := by
    refine (hn.add (y := 13176795 / 4194304) ⟨26353590, by norm_num⟩).isFloat (by norm_num) ?_
    norm_num at h2 ⊢
    rw [abs_le]; constructor <;> linarith
  rw [wrapFloat_eq, R24.fix _ hs, C80_modulo_fixed (floatTypes_rounds b) (by norm_num) (by cases b <;> norm_num) (by norm_num) hs FloatWide.isFloat_two_piF
    (by norm_num; linarith) (by norm_num at h2 ⊢; linarith)]
  have e : h + 13176795 / 4194304 - mPi = h + FloatWide.piGap := by unfold FloatWide.piGap; ring
  have hg : FloatWide.piGap = 24607325 * 2⁻¹ ^ 48 := FloatWide.piGap_eq
  have h53 : IsFloat 53 (h + FloatWide.piGap) := by
    have g1 : OnGrid (-48) h := by
      obtain ⟨n, hn⟩ := hn
      rw [hn]; exact onGrid_of_le (by norm_num) n
    refine (g1.add (y := FloatWide.piGap) ⟨24607325, by rw [hg]; norm_num⟩).isFloat (by norm_num) ?_
    norm_num at h2 hg ⊢
    rw [abs_le]; constructor <;> linarith
  rw [e, R53.fix _ h53]
  obtain ⟨n, hn⟩ := hn
  have key : roundEven 24 (-(h + FloatWide.piGap)) = -(h + 2⁻¹ ^ 23) := by
    rw [roundEven_eq (e := 0) (by norm_num at h2 hg ⊢; linarith) (by norm_num at h2 hg ⊢; linarith)]
    have : roundTiesEven (-(h + FloatWide.piGap) / 2 ^ ((0 : ℤ) - (((24 : ℕ) : ℤ) - 1))) = -n - 1 := by
      apply roundTiesEven_of_near
      have e1 : -(h + FloatWide.piGap) / 2 ^ ((0 : ℤ) - (((24 : ℕ) : ℤ) - 1)) - ((-n - 1 : ℤ) : ℝ) = 1 - 24607325 * 2⁻¹ ^ 25 := by
        rw [hn, hg]; push_cast; norm_num; ring
      rw [e1, abs_lt]; norm_num
    rw [this, hn]; push_cast; norm_num; ring
  rw [roundEven_neg] at key
  linarith

/-- **C104 (c), finding.** Hence an angle that is wrapped again and again drifts: after `n` calls it has moved by `n` units in the last place. -/
theorem C104_float_drift (b : Bool) (h : ℝ) (hf : IsFloat 24 h) (h1 : -2 ≤ h) (n : ℕ) (h2 : h + n * 2⁻¹ ^ 23 ≤ 2 - 13176795 / 4194304) :
    (wrapPosNegPITyped (floatTypes b))^[n] h = h + n * 2⁻¹ ^ 23 := by
  induction n with
  | zero => simp
  | succ n ih =>
    push_cast at h2
    have h3 : h + n * 2⁻¹ ^ 23 < 2 - 13176795 / 4194304 := by
      have : (0 : ℝ) < 2⁻¹ ^ 23 := by positivity
      linarith
    have h0 : (0 : ℝ) ≤ n * 2⁻¹ ^ 23 := by positivity
    rw [Function.iterate_succ_apply', ih h3.le, C104_float_step b _ ?_ (by linarith) h3]
    · push_cast; ring
    · have hn : OnGrid (-23) h := hf.onGrid (e := 0) (by rw [abs_of_nonpos (by norm_num at h3 h0; linarith)]; norm_num at h3 h0 ⊢; linarith)
      refine (hn.add (y := n * 2⁻¹ ^ 23) ⟨n, by norm_num⟩).isFloat (by norm_num) ?_
      rw [abs_le]; norm_num at h3 h0 ⊢; constructor <;> linarith

/-- `-2` wrapped 7 200 000 times (two hours at 1 kHz) has become more than `-1.142`: it has moved by more than `0.858` rad. -/
theorem C104_float_drift_example (b : Bool) : (wrapPosNegPITyped (floatTypes b))^[7200000] (-2) = -2 + 7200000 * 2⁻¹ ^ 23 ∧
    (858 / 1000 : ℝ) < 7200000 * 2⁻¹ ^ 23 := by
  refine ⟨?_, by norm_num⟩
  have := C104_float_drift b (-2) ⟨-1, 1, by norm_num, by norm_num⟩ le_rfl 7200000 (by norm_num)
  exact_mod_cast this

/-! ## The norm of a vector along a coordinate axis -/

/-- The representation of a positive float with the highest possible significand. -/
lemma Spec.IsFloat.normalized {p : ℕ} (hp : 0 < p) {x : ℝ} (hx : IsFloat p x) (h0 : 0 < x) :
    ∃ (m : ℕ) (e : ℤ), 2 ^ (p - 1) ≤ m ∧ m < 2 ^ p ∧ x = m * (2 : ℝ) ^ e := by
  obtain ⟨e, h1, h2⟩ : ∃ e : ℤ, (2 : ℝ) ^ e ≤ x ∧ x < 2 ^ (e + 1) :=
    ⟨Int.log 2 x, by exact_mod_cast Int.zpow_log_le_self (b := 2) (by norm_num) h0,
      by exact_mod_cast Int.lt_zpow_succ_log_self (b := 2) (by norm_num) x⟩
  obtain ⟨n, hn⟩ := hx.onGrid (e := e) (by rwa [abs_of_pos h0])
  have hg : (0 : ℝ) < 2 ^ (e - (p : ℤ) + 1) := by positivity
  have e1 : (2 : ℝ) ^ e = 2 ^ (p - 1) * 2 ^ (e - (p : ℤ) + 1) := by
    rw [← zpow_natCast, ← zpow_add₀ (by norm_num)]; congr 1; omega
  have e2 : (2 : ℝ) ^ (e + 1) = 2 ^ p * 2 ^ (e - (p : ℤ) + 1) := by
    rw [← zpow_natCast, ← zpow_add₀ (by norm_num)]; congr 1; omega
  rw [e1, hn] at h1
  rw [e2, hn] at h2
  have a1 : (2 : ℝ) ^ (p - 1) ≤ n := le_of_mul_le_mul_right h1 hg
  have a2 : (n : ℝ) < 2 ^ p := lt_of_mul_lt_mul_right h2 hg.le
  have b1 : (2 : ℤ) ^ (p - 1) ≤ n := by exact_mod_cast a1
  have b2 : n < (2 : ℤ) ^ p := by exact_mod_cast a2
  have b0 : 0 ≤ n := le_trans (by positivity) b1
  obtain ⟨m, rfl⟩ := Int.eq_ofNat_of_zero_le b0
  exact ⟨m, e - (p : ℤ) + 1, by exact_mod_cast b1, by exact_mod_cast b2, by exact_mod_cast hn⟩

/-- `std::sqrt(x*x)` is exactly `|x|` in binary floating point, round to nearest. -/
lemma roundEven_sqrt_sq {p : ℕ} (hp : 0 < p) {x : ℝ} (hx : IsFloat p x) : roundEven p (Real.sqrt (roundEven p (x * x))) = |x| := by
  have key : ∀ x : ℝ, IsFloat p x → 0 < x → roundEven p (Real.sqrt (roundEven p (x * x))) = x := by
    intro x hx h0
    obtain ⟨m, e, h1, h2, rfl⟩ := hx.normalized hp h0
    have hm1 : (2 : ℝ) ^ (p - 1) ≤ m := by exact_mod_cast h1
    have hm2 : (m : ℝ) + 1 ≤ 2 ^ p := by exact_mod_cast h2
    have hP : (2 : ℝ) ^ p = 2 * 2 ^ (p - 1) := by rw [← pow_succ']; congr 1; omega
    obtain ⟨Q, hQ⟩ : ∃ Q : ℝ, Q = 2 ^ (p - 1) := ⟨_, rfl⟩
    have hQ1 : 1 ≤ Q := by rw [hQ]; exact one_le_pow₀ (by norm_num)
    rw [← hQ] at hm1 hP
    rw [hP] at hm2
    have hE : (0 : ℝ) < 2 ^ e := by positivity
    -- the rounded square
    obtain ⟨y, hy, hy0, hyd⟩ : ∃ y : ℝ, roundEven p (m * 2 ^ e * (m * 2 ^ e)) = y * (2 ^ e * 2 ^ e) ∧ Q * Q ≤ y ∧ |y - m * m| < (Real.sqrt y + m) / 2 := by
      have hsq : ∀ y : ℝ, Q * Q ≤ y → Q ≤ Real.sqrt y := fun y hy => by
        rw [← Real.sqrt_mul_self (by linarith : (0 : ℝ) ≤ Q)]; exact Real.sqrt_le_sqrt hy
      have z1 : (2 : ℝ) ^ (2 * ((p : ℤ) - 1) + 2 * e) = Q * Q * (2 ^ e * 2 ^ e) := by
        rw [hQ, ← pow_add, ← zpow_natCast, ← zpow_add₀ (by norm_num), ← zpow_add₀ (by norm_num)]; congr 1; omega
      have z2 : (2 : ℝ) ^ (2 * ((p : ℤ) - 1) + 2 * e + 1) = 2 * (Q * Q) * (2 ^ e * 2 ^ e) := by
        rw [zpow_add₀ (by norm_num), z1]; ring
      have z3 : (2 : ℝ) ^ (2 * ((p : ℤ) - 1) + 2 * e + 1 + 1) = 4 * (Q * Q) * (2 ^ e * 2 ^ e) := by
        rw [zpow_add₀ (by norm_num), z2]; ring
      have g1 : (2 : ℝ) ^ (2 * ((p : ℤ) - 1) + 2 * e - ((p : ℤ) - 1)) = Q * (2 ^ e * 2 ^ e) := by
        rw [hQ, ← zpow_natCast, ← zpow_add₀ (by norm_num), ← zpow_add₀ (by norm_num)]; congr 1; omega
      have g2 : (2 : ℝ) ^ (2 * ((p : ℤ) - 1) + 2 * e + 1 - ((p : ℤ) - 1)) = 2 * Q * (2 ^ e * 2 ^ e) := by
        rw [show 2 * ((p : ℤ) - 1) + 2 * e + 1 - ((p : ℤ) - 1) = 2 * ((p : ℤ) - 1) + 2 * e - ((p : ℤ) - 1) + 1 by ring, zpow_add₀ (by norm_num), g1]; ring
      have hEE : (0 : ℝ) < 2 ^ e * 2 ^ e := by positivity
      have sq : (m : ℝ) * 2 ^ e * (m * 2 ^ e) = m * m * (2 ^ e * 2 ^ e) := by ring
      have hQi : Q = (((2 : ℤ) ^ (p - 1) : ℤ) : ℝ) := by rw [hQ]; push_cast; rfl
      have low : ∀ z : ℝ, Q ≤ z → Q ≤ roundTiesEven z := fun z hz => by
        rw [hQi] at hz ⊢
        have := roundTiesEven_mono hz
        rw [roundTiesEven_int] at this
        exact_mod_cast this
      rcases lt_or_ge ((m : ℝ) * m) (2 * (Q * Q)) with hA | hB
      · refine ⟨roundTiesEven (m * m / Q) * Q, ?_, ?_, ?_⟩
        · rw [sq, roundEven_eq (e := 2 * ((p : ℤ) - 1) + 2 * e) (by rw [z1]; exact mul_le_mul_of_nonneg_right (by nlinarith) hEE.le)
            (by rw [z2]; exact mul_lt_mul_of_pos_right hA hEE), g1]
          have : (m : ℝ) * m * (2 ^ e * 2 ^ e) / (Q * (2 ^ e * 2 ^ e)) = m * m / Q := by field_simp
          rw [this]; ring
        · exact mul_le_mul_of_nonneg_right (low _ (by rw [le_div_iff₀ (by linarith)]; nlinarith)) (by linarith)
        · have hy : Q * Q ≤ roundTiesEven (m * m / Q) * Q :=
            mul_le_mul_of_nonneg_right (low _ (by rw [le_div_iff₀ (by linarith)]; nlinarith)) (by linarith)
          have h3 := hsq _ hy
          have h4 := roundTiesEven_near (m * m / Q)
          have h5 : (roundTiesEven (m * m / Q) : ℝ) * Q - m * m = (roundTiesEven (m * m / Q) - m * m / Q) * Q := by
            field_simp
          rw [h5, abs_mul, abs_of_pos (show 0 < Q by linarith)]
          have h6 := mul_le_mul_of_nonneg_right h4 (show 0 ≤ Q by linarith)
          linarith
      · have hm3 : Q < m := by nlinarith
        refine ⟨roundTiesEven (m * m / (2 * Q)) * (2 * Q), ?_, ?_, ?_⟩
        · rw [sq, roundEven_eq (e := 2 * ((p : ℤ) - 1) + 2 * e + 1) (by rw [z2]; exact mul_le_mul_of_nonneg_right hB hEE.le)
            (by rw [z3]; exact mul_lt_mul_of_pos_right (by nlinarith) hEE), g2]
          have : (m : ℝ) * m * (2 ^ e * 2 ^ e) / (2 * Q * (2 ^ e * 2 ^ e)) = m * m / (2 * Q) := by field_simp
          rw [this]; ring
        · have := low (m * m / (2 * Q)) (by rw [le_div_iff₀ (by linarith)]; linarith)
          nlinarith
        · have l := low (m * m / (2 * Q)) (by rw [le_div_iff₀ (by linarith)]; linarith)
          have hy : Q * Q ≤ roundTiesEven (m * m / (2 * Q)) * (2 * Q) := by nlinarith
          have h3 := hsq _ hy
          have h4 := roundTiesEven_near (m * m / (2 * Q))
          have h5 : (roundTiesEven (m * m / (2 * Q)) : ℝ) * (2 * Q) - m * m = (roundTiesEven (m * m / (2 * Q)) - m * m / (2 * Q)) * (2 * Q) := by
            field_simp
          rw [h5, abs_mul, abs_of_pos (show 0 < 2 * Q by linarith)]
          have h6 := mul_le_mul_of_nonneg_right h4 (show 0 ≤ 2 * Q by linarith)
          linarith
    have hy1 : 0 ≤ y := le_trans (by positivity) hy0
    have hs : Q ≤ Real.sqrt y := by
      rw [← Real.sqrt_mul_self (by linarith : (0 : ℝ) ≤ Q)]; exact Real.sqrt_le_sqrt hy0
    have hss := Real.mul_self_sqrt hy1
    have near : |Real.sqrt y - m| < 1 / 2 := by
      have e1 : (Real.sqrt y - m) * (Real.sqrt y + m) = y - m * m := by nlinarith
      have pos : 0 < Real.sqrt y + m := by linarith
      rw [← e1, abs_mul, abs_of_pos pos] at hyd
      have : |Real.sqrt y - m| * (Real.sqrt y + m) < 1 / 2 * (Real.sqrt y + m) := by linarith
      exact lt_of_mul_lt_mul_right this pos.le
    have hn := abs_lt.mp near
    have es : Real.sqrt (y * (2 ^ e * 2 ^ e)) = Real.sqrt y * 2 ^ e := by
      rw [Real.sqrt_mul hy1, Real.sqrt_mul_self hE.le]
    have w1 : (2 : ℝ) ^ ((p : ℤ) - 1 + e) = Q * 2 ^ e := by
      rw [hQ, ← zpow_natCast, ← zpow_add₀ (by norm_num)]; congr 1; omega
    have w2 : (2 : ℝ) ^ ((p : ℤ) - 1 + e + 1) = 2 * Q * 2 ^ e := by rw [zpow_add₀ (by norm_num), w1]; ring
    have w3 : (2 : ℝ) ^ ((p : ℤ) - 1 + e - ((p : ℤ) - 1)) = 2 ^ e := by congr 1; omega
    rw [hy, es, roundEven_eq (e := (p : ℤ) - 1 + e) (by rw [w1]; exact mul_le_mul_of_nonneg_right hs hE.le)
      (by rw [w2]; exact mul_lt_mul_of_pos_right (by linarith) hE), w3, mul_div_cancel_right₀ _ hE.ne',
      roundTiesEven_of_near (n := (m : ℤ)) (by exact_mod_cast near)]
    push_cast; rfl
  rcases lt_trichotomy x 0 with h | h | h
  · have := key (-x) hx.neg (by linarith)
    rw [neg_mul_neg] at this
    rw [this, abs_of_neg h]
  · rw [h, mul_zero, roundEven_zero, Real.sqrt_zero, roundEven_zero, abs_zero]
  · rw [key x hx h, abs_of_pos h]

namespace FloatWide
open FloatLib

lemma ieeeDouble_wrap (a : ℝ) : ieeeDouble.wrapPosNegPI a = wrapPosNegPITyped ModTypes.double a := by
  change roundEven 53 (roundEven 53 (fpModuloTyped ModTypes.double (roundEven 53 (a + roundEven 53 (roundEven 53 Real.pi))) (roundEven 53 (2 * roundEven 53 Real.pi)) -
    roundEven 53 Real.pi)) = roundEven 53 (roundEven 53 (fpModuloTyped ModTypes.double (roundEven 53 (a + roundEven 53 mPi)) (roundEven 53 (2 * mPi)) - mPi))
  rw [roundEven53_pi]

lemma ieeeFloat_wrap (b : Bool) (a : ℝ) : (ieeeFloat b).wrapPosNegPI a = wrapPosNegPITyped (floatTypes b) a := by
  have e : (⟨(ieeeFloat b).fl, (ieeeFloat b).mid, (ieeeFloat b).wide, (ieeeFloat b).wide⟩ : ModTypes) = floatTypes b := by cases b <;> rfl
  unfold wrapPosNegPI wrapWide modulo wrapPosNegPITyped
  rw [e, floatTypes_T, floatTypes_D]
  change roundEven 24 (roundEven 53 (fpModuloTyped (floatTypes b) (roundEven 24 (a + roundEven 24 (roundEven 53 Real.pi))) (roundEven 24 (2 * roundEven 53 Real.pi)) -
    roundEven 53 Real.pi)) = _
  rw [roundEven53_pi]

/-- **C104 (d).** The norm of a vector along a coordinate axis is exact, in `float` and in `double`. -/
theorem C104_axis_norm (x : ℝ) :
    (IsFloat 53 x → ieeeDouble.norm3 ⟨x, 0, 0⟩ = |x| ∧ ieeeDouble.norm3 ⟨0, x, 0⟩ = |x| ∧ ieeeDouble.norm3 ⟨0, 0, x⟩ = |x|) ∧
    (∀ b, IsFloat 24 x → (ieeeFloat b).norm3 ⟨x, 0, 0⟩ = |x| ∧ (ieeeFloat b).norm3 ⟨0, x, 0⟩ = |x| ∧ (ieeeFloat b).norm3 ⟨0, 0, x⟩ = |x|) := by
  have key : ∀ {p : ℕ} (F : FloatLib), Ieee p F → F.fl = roundEven p → 0 < p → IsFloat p x →
      F.norm3 ⟨x, 0, 0⟩ = |x| ∧ F.norm3 ⟨0, x, 0⟩ = |x| ∧ F.norm3 ⟨0, 0, x⟩ = |x| := by
    intro p F I hF hp hx
    have := roundEven_sqrt_sq hp hx
    have ff : ∀ y, F.fl (F.fl y) = F.fl y := fun y => I.round.fix _ (I.round.range _)
    simp only [norm3, normSq3, mul_zero, fl0 I, add_zero, zero_add, ff]
    rw [hF]; exact ⟨this, this, this⟩
  exact ⟨fun h => key _ C103_ieee.1 rfl (by norm_num) h, fun b h => key _ (C103_ieee.2 b) rfl (by norm_num) h⟩

/-! ## `AngleAxis::getUnique()` -/

/-- The axis of a half turn with its sign made unique. -/
private def canon (n : V3) : V3 := if 0 < n.x ∨ n.x = 0 ∧ (0 < n.y ∨ n.y = 0 ∧ 0 ≤ n.z) then n else -n

private lemma canon_neg {n : V3} (hn : n ≠ 0) : canon (-n) = canon n := by
  have hz : ¬ (n.x = 0 ∧ n.y = 0 ∧ n.z = 0) := fun h => hn (V3.ext h.1 h.2.1 h.2.2)
  unfold canon
  simp only [V3.neg_x, V3.neg_y, V3.neg_z, neg_neg, neg_eq_zero, Left.neg_pos_iff, Left.nonneg_neg_iff]
  split_ifs with h1 h2 h2
  · exfalso
    rcases h1 with h1 | ⟨h1, h3 | ⟨h3, h4⟩⟩ <;> rcases h2 with h2 | ⟨h2, h5 | ⟨h5, h6⟩⟩ <;> first | linarith | exact hz ⟨h1, h3, by linarith⟩
  · rfl
  · rfl
  · exfalso
    rcases lt_trichotomy n.x 0 with h | h | h
    · exact h1 (Or.inl h)
    · rcases lt_trichotomy n.y 0 with h' | h' | h'
      · exact h1 (Or.inr ⟨h, Or.inl h'⟩)
      · rcases le_total n.z 0 with h'' | h''
        · exact h1 (Or.inr ⟨h, Or.inr ⟨h', h''⟩⟩)
        · exact h2 (Or.inr ⟨h, Or.inr ⟨h', h''⟩⟩)
      · exact h2 (Or.inr ⟨h, Or.inl h'⟩)
    · exact h2 (Or.inl h)

private lemma canon_canon (n : V3) : canon (canon n) = canon n := by
  by_cases hn : n = 0
  · subst hn
    have : canon 0 = 0 := by simp [canon]
    rw [this, this]
  · have h : canon n = n ∨ canon n = -n := by unfold canon; split_ifs <;> simp
    rcases h with h | h
    · rw [h]; exact h
    · rw [h, canon_neg hn, h]

private lemma modulo_self : fpModuloTyped ModTypes.double (2 * mPi) (2 * mPi) = 0 := by
  have hpos : 0 < 2 * mPi := by have := mPi_bounds.1; norm_num at this; linarith
  have one : ModTypes.double.flT (2 * mPi / (2 * mPi)) = 1 := by
    rw [div_self hpos.ne']; exact R53.fix _ (isFloat_one (by norm_num))
  have hm : (0 : ℝ) = ModTypes.double.flD (ModTypes.double.flM (2 * mPi - ModTypes.double.flM (2 * mPi * ⌊ModTypes.double.flT (2 * mPi / (2 * mPi))⌋))) := by
    rw [one, Int.floor_one, Int.cast_one, mul_one]
    have e2 : ModTypes.double.flM (2 * mPi) = 2 * mPi := R53.fix _ isFloat_two_mPi
    rw [e2, sub_self]
    exact ((congrArg _ R53.map_zero).trans R53.map_zero).symm
  rw [fpModuloTyped_pos ModTypes.double hpos hm, if_neg (by linarith), if_neg (lt_irrefl _)]
  exact R53.map_zero

private lemma wrapDouble_mPi : wrapPosNegPITyped ModTypes.double mPi = -mPi := by
  rw [wrapDouble_eq, ← two_mul, R53.fix _ isFloat_two_mPi, modulo_self, zero_sub, R53.fix _ isFloat_mPi.neg]

/-- If the wrapped angle is `-M_PI` the result is the canonical half turn. -/
private lemma aaDouble_half {θ : ℝ} (w : ieeeDouble.wrapPosNegPI θ = -mPi) (n : V3) : ieeeDouble.aaGetUnique ⟨θ, n⟩ = ⟨mPi, canon n⟩ := by
  obtain ⟨b1, b2⟩ := mPi_bounds
  norm_num at b1 b2
  have wp : ieeeDouble.wide Real.pi = mPi := roundEven53_pi
  simp only [aaGetUnique, w, wp, canon]
  rw [if_neg (by linarith), if_pos (by linarith), if_neg (by simp)]
  rcases lt_trichotomy n.x 0 with h | h | h
  · rw [if_pos h, neg_neg, if_neg]
    rintro (h' | ⟨h', -⟩) <;> linarith
  · rw [if_neg (by linarith), if_neg (by linarith)]
    rcases lt_trichotomy n.y 0 with hy | hy | hy
    · rw [if_pos hy, neg_neg, if_neg]
      rintro (h' | ⟨h', h'' | ⟨h'', -⟩⟩) <;> linarith
    · rw [if_neg (by linarith), if_neg (by linarith)]
      rcases lt_or_ge n.z 0 with hz | hz
      · rw [if_pos hz, neg_neg, if_neg]
        rintro (h' | ⟨h', h'' | ⟨h'', h3⟩⟩) <;> linarith
      · rw [if_neg (by linarith), neg_neg, if_pos (Or.inr ⟨h, Or.inr ⟨hy, hz⟩⟩)]
    · rw [if_neg (by linarith), if_pos hy, neg_neg, if_pos (Or.inr ⟨h, Or.inl hy⟩)]
  · rw [if_neg (by linarith), if_pos h, neg_neg, if_pos (Or.inl h)]

/-- **C104 (e).** In `double` a half turn has one unique form: `(M_PI, n)` and `(M_PI, -n)` give the same pair, one of the two, and it is not changed
again. -/
theorem C104_half_turn_double (n : V3) (hn : n ≠ 0) :
    ieeeDouble.aaGetUnique ⟨mPi, n⟩ = ieeeDouble.aaGetUnique ⟨mPi, -n⟩ ∧
    ieeeDouble.aaGetUnique (ieeeDouble.aaGetUnique ⟨mPi, n⟩) = ieeeDouble.aaGetUnique ⟨mPi, n⟩ ∧
    (ieeeDouble.aaGetUnique ⟨mPi, n⟩ = ⟨mPi, n⟩ ∨ ieeeDouble.aaGetUnique ⟨mPi, n⟩ = ⟨mPi, -n⟩) := by
  have w : ieeeDouble.wrapPosNegPI mPi = -mPi := by rw [ieeeDouble_wrap, wrapDouble_mPi]
  rw [aaDouble_half w, aaDouble_half w, aaDouble_half w, canon_neg hn, canon_canon]
  refine ⟨rfl, rfl, ?_⟩
  unfold canon; split_ifs <;> simp

/-- An angle in `[0, M_PI]` is wrapped to a nonnegative angle or to `-M_PI`. -/
private lemma wrapDouble_nonneg {θ : ℝ} (h0 : 0 ≤ θ) (h1 : θ ≤ mPi) :
    0 ≤ wrapPosNegPITyped ModTypes.double θ ∨ wrapPosNegPITyped ModTypes.double θ = -mPi := by
  have hg1 : mPi ≤ roundEven 53 (θ + mPi) := by
    have := R53.mono (show mPi ≤ θ + mPi by linarith)
    rwa [R53.fix _ isFloat_mPi] at this
  have hg2 : roundEven 53 (θ + mPi) ≤ 2 * mPi := by
    have := R53.mono (show θ + mPi ≤ 2 * mPi by linarith)
    rwa [R53.fix _ isFloat_two_mPi] at this
  rw [wrapDouble_eq]
  rcases lt_or_eq_of_le hg2 with h | h
  · left
    rw [C80_modulo_fixed ModTypes.double_rounds (by norm_num) (by norm_num) (by norm_num) (R53.range _) isFloat_two_mPi (by linarith) h]
    exact R53.nonneg (by linarith)
  · right
    rw [h, modulo_self, zero_sub, R53.fix _ isFloat_mPi.neg]

private lemma aaDouble_pos {θ : ℝ} (w : 0 < ieeeDouble.wrapPosNegPI θ) (n : V3) : ieeeDouble.aaGetUnique ⟨θ, n⟩ = ⟨ieeeDouble.wrapPosNegPI θ, n⟩ := by
  simp only [aaGetUnique]; rw [if_pos w]

private lemma aaDouble_zero {θ : ℝ} (w : ieeeDouble.wrapPosNegPI θ = 0) (n : V3) : ieeeDouble.aaGetUnique ⟨θ, n⟩ = ⟨0, ⟨1, 0, 0⟩⟩ := by
  simp only [aaGetUnique, w]; rw [if_neg (lt_irrefl _), if_neg (lt_irrefl _)]

private lemma mPi_small {θ : ℝ} (h0 : 0 ≤ θ) (h1 : θ ≤ mPi) : |θ| ≤ 2 ^ 50 := by
  have := mPi_bounds.2
  rw [abs_of_nonneg h0]; norm_num at this ⊢; linarith

private lemma aaDouble_stable {θ : ℝ} (h0 : 0 ≤ θ) (h1 : θ ≤ mPi) (n : V3) :
    ieeeDouble.aaGetUnique (ieeeDouble.aaGetUnique ⟨θ, n⟩) = ieeeDouble.aaGetUnique ⟨θ, n⟩ := by
  obtain ⟨-, s1, s2, s3⟩ := wrapDouble_spec (mPi_small h0 h1)
  have wn := wrapDouble_nonneg h0 h1
  rw [← ieeeDouble_wrap] at s1 s2 s3 wn
  rw [← ieeeDouble_wrap] at s3
  rcases wn with wn | wn
  · rcases lt_or_eq_of_le wn with w | w
    · rw [aaDouble_pos w, aaDouble_pos (by rw [s3]; exact w), s3]
    · have z : ieeeDouble.wrapPosNegPI 0 = 0 := by rw [← w] at s3; exact s3
      rw [aaDouble_zero w.symm, aaDouble_zero z]
  · have wm : ieeeDouble.wrapPosNegPI mPi = -mPi := by rw [ieeeDouble_wrap, wrapDouble_mPi]
    rw [aaDouble_half wn, aaDouble_half wm, canon_canon]

/-- The angle of the unique form is in `[0, M_PI]`. -/
private lemma aaDouble_range (a : AngAx) (ha : |a.angle| ≤ 2 ^ 50) :
    0 ≤ (ieeeDouble.aaGetUnique a).angle ∧ (ieeeDouble.aaGetUnique a).angle ≤ mPi := by
  obtain ⟨-, s1, s2, -⟩ := wrapDouble_spec ha
  have := mPi_bounds.1
  norm_num at this
  rw [← ieeeDouble_wrap] at s1 s2
  simp only [aaGetUnique]
  split_ifs <;> constructor <;> simp only <;> linarith

/-- **C104 (f).** `AngleAxis<double>::getUnique()`: the angle of the result is in `[0, M_PI]` exactly, and a second call may change the last bit of the
angle (when the first call changed its sign), but a third call changes nothing: `setUnique()` settles after at most two calls. -/
theorem C104_unique_double (a : AngAx) (ha : |a.angle| ≤ 2 ^ 50) :
    0 ≤ (ieeeDouble.aaGetUnique a).angle ∧ (ieeeDouble.aaGetUnique a).angle ≤ mPi ∧
    ieeeDouble.aaGetUnique (ieeeDouble.aaGetUnique (ieeeDouble.aaGetUnique a)) = ieeeDouble.aaGetUnique (ieeeDouble.aaGetUnique a) := by
  obtain ⟨h0, h1⟩ := aaDouble_range a ha
  exact ⟨h0, h1, aaDouble_stable h0 h1 _⟩

/-- **C104 (g), refutation.** A single call is not enough: the angle `-(3/2 + 2⁻⁵²)` becomes `3/2 + 2⁻⁵²` and then `3/2`. -/
theorem C104_unique_double_not_idempotent (n : V3) :
    ieeeDouble.aaGetUnique ⟨-(3 / 2 + 2⁻¹ ^ 52), n⟩ = ⟨3 / 2 + 2⁻¹ ^ 52, -n⟩ ∧ ieeeDouble.aaGetUnique ⟨3 / 2 + 2⁻¹ ^ 52, -n⟩ = ⟨3 / 2, -n⟩ := by
  obtain ⟨b1, b2⟩ := mPi_bounds
  norm_num at b1 b2
  have wp : ieeeDouble.wide Real.pi = mPi := roundEven53_pi
  have f1 : IsFloat 53 (-(3 / 2 + 2⁻¹ ^ 52)) := ⟨-(3 * 2 ^ 51 + 1), -52, by norm_num, by norm_num⟩
  have w1 : ieeeDouble.wrapPosNegPI (-(3 / 2 + 2⁻¹ ^ 52)) = -(3 / 2 + 2⁻¹ ^ 52) := by
    rw [ieeeDouble_wrap]
    refine wrapDouble_fixed f1 (by norm_num; linarith) (by norm_num; linarith) ?_
    have g : OnGrid (-52) (-(3 / 2 + 2⁻¹ ^ 52) + mPi) := OnGrid.add ⟨-(3 * 2 ^ 51 + 1), by norm_num⟩ (grid_mPi (by norm_num))
    refine g.isFloat (by norm_num) ?_
    rw [abs_le]; norm_num; constructor <;> linarith
  have w2 : ieeeDouble.wrapPosNegPI (3 / 2 + 2⁻¹ ^ 52) = 3 / 2 := by
    have hs : roundEven 53 (3 / 2 + 2⁻¹ ^ 52 + mPi) = 3 / 2 + mPi := by
      rw [roundEven_eq (e := 2) (by norm_num; linarith) (by norm_num; linarith)]
      have : roundTiesEven ((3 / 2 + 2⁻¹ ^ 52 + mPi) / 2 ^ ((2 : ℤ) - (((53 : ℕ) : ℤ) - 1))) = 3 * 2 ^ 49 + 884279719003555 * 4 := by
        apply roundTiesEven_of_near
        unfold mPi; norm_num [abs_lt]
      rw [this]; unfold mPi; norm_num
    have hf : IsFloat 53 (3 / 2 + mPi) := by
      rw [← hs]; exact R53.range _
    rw [ieeeDouble_wrap, wrapDouble_eq, hs, C80_modulo_fixed ModTypes.double_rounds (by norm_num) (by norm_num) (by norm_num) hf isFloat_two_mPi (by linarith)
      (by linarith), add_sub_cancel_right, R53.fix _ ⟨3, -1, by norm_num, by norm_num⟩]
  constructor
  · simp only [aaGetUnique, w1, wp]
    rw [if_neg (by norm_num), if_pos (by norm_num), if_pos (fun h => by norm_num at h; linarith), neg_neg]
  · simp only [aaGetUnique, w2]
    rw [if_pos (by norm_num)]

/-- `float(M_PI)` is wrapped to `-float(M_PI)`. -/
private lemma wrapFloat_pi (b : Bool) : (ieeeFloat b).wrapPosNegPI (13176795 / 4194304) = -(13176795 / 4194304) := by
  have hs : roundEven 24 (13176795 / 4194304 + 13176795 / 4194304) = 13176795 / 2097152 := by
    rw [show (13176795 / 4194304 + 13176795 / 4194304 : ℝ) = 13176795 / 2097152 by norm_num]; exact R24.fix _ isFloat_two_piF
  have hm : fpModuloTyped (floatTypes b) (13176795 / 2097152) (13176795 / 2097152) = 0 := by
    have R := floatTypes_rounds b
    have one : (floatTypes b).flT (13176795 / 2097152 / (13176795 / 2097152)) = 1 := by
      rw [div_self (by norm_num)]; exact R.T.fix _ (isFloat_one (by norm_num))
    have hm : (0 : ℝ) = (floatTypes b).flD ((floatTypes b).flM (13176795 / 2097152 - (floatTypes b).flM (13176795 / 2097152 *
        ⌊(floatTypes b).flT (13176795 / 2097152 / (13176795 / 2097152))⌋))) := by
      rw [one, Int.floor_one, Int.cast_one, mul_one, R.M.fix _ (isFloat_two_piF.mono (by cases b <;> norm_num)), sub_self, R.M.map_zero, R.D.map_zero]
    rw [fpModuloTyped_pos (floatTypes b) (by norm_num) hm, if_neg (by norm_num), if_neg (lt_irrefl _)]
    exact R.T.map_zero
  rw [ieeeFloat_wrap, wrapFloat_eq, hs, hm, zero_sub, R53.fix _ isFloat_mPi.neg, roundEven_neg, roundEven24_mPi]

/-- **C104 (h), finding.** In `float` the comparison of the wrapped angle with `-M_PI` (a `double` that is not a `float`) never succeeds: `getUnique()`
exchanges `(float(M_PI), n)` and `(float(M_PI), -n)`, so that a half turn has no unique form and `setUnique()` flips its axis at every call. -/
theorem C104_half_turn_float (b : Bool) (n : V3) :
    (ieeeFloat b).aaGetUnique ⟨13176795 / 4194304, n⟩ = ⟨13176795 / 4194304, -n⟩ ∧
    ∀ θ, (ieeeFloat b).wrapPosNegPI θ ≠ -(ieeeFloat b).wide Real.pi := by
  have wp : (ieeeFloat b).wide Real.pi = mPi := roundEven53_pi
  have ne : (13176795 / 4194304 : ℝ) ≠ mPi := by unfold mPi; norm_num
  refine ⟨?_, fun θ h => ?_⟩
  · simp only [aaGetUnique, wrapFloat_pi, wp]
    rw [if_neg (by norm_num), if_pos (by norm_num), if_pos (fun h => ne (by linarith)), neg_neg]
  · rw [wp] at h
    have hf : IsFloat 24 (-mPi) := by rw [← h]; exact R24.range _
    have := R24.fix _ hf
    rw [roundEven_neg, roundEven24_mPi] at this
    exact ne (by linarith)

/-- **C104 (i).** The same for rotation vectors along the first axis: in `double` `(±M_PI, 0, 0)` has the unique form `(M_PI, 0, 0)`, in `float` `getUnique()`
exchanges `(float(M_PI), 0, 0)` and `(-float(M_PI), 0, 0)`. -/
theorem C104_rotation_vector :
    ieeeDouble.rvGetUnique Prec.double ⟨⟨mPi, 0, 0⟩⟩ = ⟨⟨mPi, 0, 0⟩⟩ ∧ ieeeDouble.rvGetUnique Prec.double ⟨⟨-mPi, 0, 0⟩⟩ = ⟨⟨mPi, 0, 0⟩⟩ ∧
    ∀ b, (ieeeFloat b).rvGetUnique Prec.float ⟨⟨13176795 / 4194304, 0, 0⟩⟩ = ⟨⟨-(13176795 / 4194304), 0, 0⟩⟩ ∧
      (ieeeFloat b).rvGetUnique Prec.float ⟨⟨-(13176795 / 4194304), 0, 0⟩⟩ = ⟨⟨13176795 / 4194304, 0, 0⟩⟩ := by
  have hpos : 0 < mPi := by have := mPi_bounds.1; norm_num at this; linarith
  have I := C103_ieee.1
  have aa : ∀ {p : ℕ} {F : FloatLib} (_ : Ieee p F) (_ : 2 ≤ p) (P : Prec) {c s : ℝ}, 1 ≤ c → s = 1 ∨ s = -1 → F.norm3 ⟨s * c, 0, 0⟩ = c →
      F.aaOfRv P ⟨⟨s * c, 0, 0⟩⟩ = ⟨c, ⟨s, 0, 0⟩⟩ := by
    intro p F I hp P c s hc hs hn
    have h0 : c ≠ 0 := by linarith
    have hd := P.dp_le
    simp only [FloatLib.aaOfRv, hn, zero_div, fl0 I, mul_div_cancel_right₀ _ h0]
    rw [if_neg (by linarith)]
    rcases hs with rfl | rfl
    · rw [fl1 I hp]
    · rw [I.odd, fl1 I hp]
  have rv : ∀ {p : ℕ} {F : FloatLib} (_ : Ieee p F) {c s : ℝ}, IsFloat p c → s = 1 ∨ s = -1 → F.rvOfAa ⟨c, ⟨s, 0, 0⟩⟩ = ⟨⟨s * c, 0, 0⟩⟩ := by
    intro p F I c s hc hs
    simp only [FloatLib.rvOfAa, mul_zero, fl0 I]
    rcases hs with rfl | rfl
    · rw [mul_one, one_mul, I.round.fix _ hc]
    · rw [mul_neg_one, neg_one_mul, I.odd, I.round.fix _ hc]
  have wm : ieeeDouble.wrapPosNegPI mPi = -mPi := by rw [ieeeDouble_wrap, wrapDouble_mPi]
  have c1 : canon ⟨1, 0, 0⟩ = ⟨1, 0, 0⟩ := by simp [canon]
  have c2 : canon ⟨-1, 0, 0⟩ = ⟨1, 0, 0⟩ := by
    unfold canon; rw [if_neg (by norm_num)]; ext <;> simp
  have dbl : ∀ s : ℝ, s = 1 ∨ s = -1 → ieeeDouble.rvGetUnique Prec.double ⟨⟨s * mPi, 0, 0⟩⟩ = ⟨⟨mPi, 0, 0⟩⟩ := by
    intro s hs
    have hn : ieeeDouble.norm3 ⟨s * mPi, 0, 0⟩ = mPi := by
      rcases hs with rfl | rfl
      · rw [one_mul, ((C104_axis_norm mPi).1 isFloat_mPi).1, abs_of_pos hpos]
      · rw [neg_one_mul, ((C104_axis_norm (-mPi)).1 isFloat_mPi.neg).1, abs_neg, abs_of_pos hpos]
    unfold rvGetUnique
    rw [aa I (by norm_num) Prec.double (by have := mPi_bounds.1; norm_num at this; linarith) hs hn, aaDouble_half wm]
    have : canon ⟨s, 0, 0⟩ = ⟨1, 0, 0⟩ := by rcases hs with rfl | rfl <;> assumption
    rw [this, rv I isFloat_mPi (Or.inl rfl), one_mul]
  have d1 := dbl 1 (Or.inl rfl)
  have d2 := dbl (-1) (Or.inr rfl)
  rw [one_mul] at d1
  rw [neg_one_mul] at d2
  refine ⟨d1, d2, fun b => ?_⟩
  have Ib := C103_ieee.2 b
  have flt : ∀ s : ℝ, s = 1 ∨ s = -1 → (ieeeFloat b).rvGetUnique Prec.float ⟨⟨s * (13176795 / 4194304), 0, 0⟩⟩ = ⟨⟨-s * (13176795 / 4194304), 0, 0⟩⟩ := by
    intro s hs
    have hn : (ieeeFloat b).norm3 ⟨s * (13176795 / 4194304), 0, 0⟩ = 13176795 / 4194304 := by
      rcases hs with rfl | rfl
      · rw [one_mul, ((C104_axis_norm _).2 b isFloat_piF).1, abs_of_pos (by norm_num)]
      · rw [neg_one_mul, ((C104_axis_norm _).2 b isFloat_piF.neg).1, abs_neg, abs_of_pos (by norm_num)]
    unfold rvGetUnique
    rw [aa Ib (by norm_num) Prec.float (by norm_num) hs hn, (C104_half_turn_float b _).1]
    have : -(⟨s, 0, 0⟩ : V3) = ⟨-s, 0, 0⟩ := by ext <;> simp
    rw [this]
    refine rv Ib isFloat_piF ?_
    rcases hs with rfl | rfl
    · right; rfl
    · left; norm_num
  have f1 := flt 1 (Or.inl rfl)
  have f2 := flt (-1) (Or.inr rfl)
  rw [one_mul, neg_one_mul] at f1
  rw [neg_one_mul, neg_neg, one_mul] at f2
  exact ⟨f1, f2⟩

end FloatWide
end Kindr
