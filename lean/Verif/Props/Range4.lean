import Verif.Props.Range3

set_option autoImplicit false

open Classical

noncomputable section
namespace Kindr
open Spec
namespace Format
variable {f : Format}

/-! ## Scaling by powers of two -/

lemma log_scale (j : ℤ) {x : ℝ} (h : 0 < x) : Int.log 2 |2 ^ j * x| = Int.log 2 |x| + j := by
  have hp : (0 : ℝ) < 2 ^ j * x := by positivity
  rw [abs_of_pos hp, abs_of_pos h]
  have a1 : (2 : ℝ) ^ Int.log 2 x ≤ x := by exact_mod_cast Int.zpow_log_le_self (b := 2) (by norm_num) h
  have a2 : x < (2 : ℝ) ^ (Int.log 2 x + 1) := by exact_mod_cast Int.lt_zpow_succ_log_self (b := 2) (by norm_num) x
  have b1 : (2 : ℝ) ^ (Int.log 2 x + j) ≤ 2 ^ j * x := by
    rw [add_comm, zpow_add₀ (by norm_num)]; exact mul_le_mul_of_nonneg_left a1 (by positivity)
  have b2 : 2 ^ j * x < (2 : ℝ) ^ (Int.log 2 x + j + 1) := by
    rw [show Int.log 2 x + j + 1 = j + (Int.log 2 x + 1) by ring, zpow_add₀ (by norm_num)]
    exact mul_lt_mul_of_pos_left a2 (by positivity)
  have c1 := le_log b1
  have c2 := log_le hp b2
  rw [abs_of_pos hp] at c1 c2
  omega

lemma roundEven_scale (p : ℕ) (j : ℤ) {x : ℝ} (h : 0 ≤ x) : roundEven p (2 ^ j * x) = 2 ^ j * roundEven p x := by
  rcases eq_or_lt_of_le h with rfl | h
  · rw [mul_zero, roundEven_zero, mul_zero]
  unfold roundEven
  rw [log_scale j h, show Int.log 2 |x| + j - ((p : ℤ) - 1) = j + (Int.log 2 |x| - ((p : ℤ) - 1)) by ring, zpow_add₀ (by norm_num),
    mul_div_mul_left _ _ (by positivity)]
  ring

/-- Lower end of the normal numbers used here. -/
abbrev lo (f : Format) : ℝ := 2 ^ (f.emin + f.p)

/-- `x` is zero, or `x` and `2 ^ j * x` are normal and at most `2 ^ k`. -/
def Sc (f : Format) (j k : ℤ) (x : ℝ) : Prop := x = 0 ∨ (f.lo ≤ x ∧ f.lo ≤ 2 ^ j * x ∧ x ≤ 2 ^ k ∧ 2 ^ j * x ≤ 2 ^ k)

lemma Sc.nonneg {j k : ℤ} {x : ℝ} (h : f.Sc j k x) : 0 ≤ x := by
  rcases h with h | h
  · exact h.ge
  · exact le_trans (by positivity) h.1

lemma round_normal {x : ℝ} (h : f.lo ≤ x) : f.round x = roundEven f.p x :=
  round_eq_roundEven (le_trans (le_trans (zpow_le_zpow_right₀ (by norm_num) (by omega)) h) (le_abs_self x))

lemma round_scale (hf : f.Ok) {j k : ℤ} {x : ℝ} (h : f.Sc j k x) (hk : f.emin ≤ k) (hk' : k < f.emax) :
    ∃ y, f.arith.rnd x = .fin y ∧ f.arith.rnd (2 ^ j * x) = .fin (2 ^ j * y) ∧ f.Sc j k y := by
  have hx := h.nonneg
  have ep := hf.p; have em := hf.emin
  rcases h with rfl | ⟨h1, h2, h3, h4⟩
  · exact ⟨0, f.arith.rnd_zero, by rw [mul_zero]; exact f.arith.rnd_zero, .inl rfl⟩
  have hy : 0 ≤ 2 ^ j * x := by positivity
  have r1 := round_normal h1
  have r2 := round_normal h2
  rw [roundEven_scale _ _ hx, ← r1] at r2
  have n1 := round_nonneg (f := f) hx
  have n2 := round_nonneg (f := f) hy
  refine ⟨f.round x, rnd_fin hf hk hk' (by rw [abs_of_nonneg hx]; exact h3), ?_, .inr ⟨?_, ?_, ?_, ?_⟩⟩
  · rw [← r2]; exact rnd_fin hf hk hk' (by rw [abs_of_nonneg hy]; exact h4)
  · have := pow_le_round hf (j := f.emin + f.p) (by omega) (x := x) (by rw [abs_of_nonneg hx]; exact h1)
    rwa [abs_of_nonneg n1] at this
  · have := pow_le_round hf (j := f.emin + f.p) (by omega) (x := 2 ^ j * x) (by rw [abs_of_nonneg hy]; exact h2)
    rwa [abs_of_nonneg n2, r2] at this
  · have := round_le_pow hf hk (x := x) (by rw [abs_of_nonneg hx]; exact h3)
    rwa [abs_of_nonneg n1] at this
  · have := round_le_pow hf hk (x := 2 ^ j * x) (by rw [abs_of_nonneg hy]; exact h4)
    rwa [abs_of_nonneg n2, r2] at this

lemma Sc.add {j k : ℤ} {x y : ℝ} (hx : f.Sc j k x) (hy : f.Sc j k y) : f.Sc j (k + 1) (x + y) := by
  have e : (2 : ℝ) ^ (k + 1) = 2 ^ k * 2 := zpow_add_one₀ (by norm_num) k
  have kp : (0 : ℝ) < 2 ^ k := by positivity
  have lp : 0 < f.lo := by unfold lo; positivity
  rcases hx with rfl | ⟨a1, a2, a3, a4⟩ <;> rcases hy with rfl | ⟨b1, b2, b3, b4⟩
  · left; ring
  · right; rw [zero_add, e]; exact ⟨b1, b2, by linarith, by linarith⟩
  · right; rw [add_zero, e]; exact ⟨a1, a2, by linarith, by linarith⟩
  · right; rw [e]; exact ⟨by linarith, by linarith, by linarith, by linarith⟩

/-- The coefficients of a vector multiplied by `2 ^ j`. -/
def scale (j : ℤ) (v : V3) : V3 := ⟨2 ^ j * v.x, 2 ^ j * v.y, 2 ^ j * v.z⟩

lemma sc_sq {j : ℤ} {c : ℝ} (h1 : c = 0 ∨ (2 ^ (f.emin + f.p) ≤ c ^ 2 ∧ c ^ 2 ≤ 2 ^ (f.emax - 4)))
    (h2 : 2 ^ j * c = 0 ∨ (2 ^ (f.emin + f.p) ≤ (2 ^ j * c) ^ 2 ∧ (2 ^ j * c) ^ 2 ≤ 2 ^ (f.emax - 4))) : f.Sc (2 * j) (f.emax - 4) (c * c) := by
  rcases h1 with rfl | h1
  · left; ring
  have hp : (0 : ℝ) < 2 ^ j := by positivity
  have e : (2 : ℝ) ^ (2 * j) * (c * c) = (2 ^ j * c) ^ 2 := by
    rw [mul_comm 2 j, zpow_mul]
    norm_cast
    ring
  have hc : c ≠ 0 := by
    rintro rfl
    have := h1.1
    have h3 : (0 : ℝ) < 2 ^ (f.emin + f.p) := by positivity
    norm_num at this; linarith
  have h2 := h2.resolve_left (mul_ne_zero hp.ne' hc)
  right
  rw [e, ← sq]
  exact ⟨h1.1, h2.1, h1.2, h2.2⟩

/-- **C105 (f).** Scaling by a power of two changes neither the bits of the significand of `norm()` nor `normalized()`, as long as the squares of the
coefficients stay within the range. -/
theorem C105_scale (hf : f.Ok) (j : ℤ) {v : V3} (h1 : Plain f v) (h2 : Plain f (scale j v)) :
    (∃ n, f.arith.norm3 (emb3 v) = .fin n ∧ f.arith.norm3 (emb3 (scale j v)) = .fin (2 ^ j * n)) ∧
    f.arith.normalized (emb3 (scale j v)) = f.arith.normalized (emb3 v) := by
  have ep := hf.p; have em := hf.emin; have ex := hf.emax
  have sx := sc_sq (h1 v.x (.inl rfl)) (h2 _ (.inl rfl))
  have sy := sc_sq (h1 v.y (.inr (.inl rfl))) (h2 _ (.inr (.inl rfl)))
  have sz := sc_sq (h1 v.z (.inr (.inr rfl))) (h2 _ (.inr (.inr rfl)))
  have e2 : ∀ c : ℝ, (2 : ℝ) ^ (2 * j) * (c * c) = (2 ^ j * c) * (2 ^ j * c) := by
    intro c
    rw [mul_comm 2 j, zpow_mul]; norm_cast; ring
  obtain ⟨A, A1, A2, A3⟩ := round_scale hf sx (by omega) (by omega)
  obtain ⟨B, B1, B2, B3⟩ := round_scale hf sy (by omega) (by omega)
  obtain ⟨C, C1, C2, C3⟩ := round_scale hf sz (by omega) (by omega)
  obtain ⟨T, T1, T2, T3⟩ := round_scale hf (B3.add C3) (by omega) (by omega)
  have A3' : f.Sc (2 * j) (f.emax - 4 + 1) A := by
    have := A3.add (.inl rfl : f.Sc (2 * j) (f.emax - 4) 0)
    rwa [add_zero] at this
  obtain ⟨R, R1, R2, R3⟩ := round_scale hf (A3'.add T3) (by omega) (by omega)
  rw [mul_add] at T2 R2
  rw [e2] at A2 B2 C2
  have nv : f.arith.normSq3 (emb3 v) = .fin R := by
    simp only [XArith.normSq3, emb3, XArith.mul, A1, B1, C1, XArith.add, T1, R1]
  have ns : f.arith.normSq3 (emb3 (scale j v)) = .fin (2 ^ (2 * j) * R) := by
    simp only [XArith.normSq3, emb3, scale, XArith.mul, A2, B2, C2, XArith.add, T2, R2]
  have hR := R3.nonneg
  have hsq : Real.sqrt (2 ^ (2 * j) * R) = 2 ^ j * Real.sqrt R := by
    rw [Real.sqrt_mul (by positivity), mul_comm 2 j, zpow_mul, show ((2 : ℝ) ^ j) ^ (2 : ℤ) = ((2 : ℝ) ^ j) ^ 2 by norm_cast,
      Real.sqrt_sq (by positivity)]
  have lo1 : f.lo ^ 2 ≤ f.lo := by
    have h : f.lo ≤ 1 := zpow_le_one_of_nonpos₀ (by norm_num) (by omega)
    have h0 : 0 < f.lo := by unfold lo; positivity
    nlinarith
  have hi : ∀ r : ℝ, r ≤ 2 ^ (f.emax - 4 + 1 + 1) → Real.sqrt r ≤ 2 ^ (f.emax - 1) := by
    intro r hr
    have := sqrt_le_pow hf (r := r) (hr.trans (zpow_le_zpow_right₀ (by norm_num) (by omega)))
    rwa [abs_of_nonneg (Real.sqrt_nonneg _)] at this
  have sR : f.Sc j (f.emax - 1) (Real.sqrt R) := by
    rcases R3 with rfl | ⟨a1, a2, a3, a4⟩
    · left; simp
    · right
      rw [← hsq]
      exact ⟨Real.le_sqrt_of_sq_le (lo1.trans a1), Real.le_sqrt_of_sq_le (lo1.trans a2), hi _ a3, hi _ a4⟩
  obtain ⟨n, n1, n2, n3⟩ := round_scale hf sR (by omega) (by omega)
  have N1 : f.arith.norm3 (emb3 v) = .fin n := by
    simp only [XArith.norm3, nv, XArith.sqrt, if_neg (not_lt.mpr hR), n1]
  have N2 : f.arith.norm3 (emb3 (scale j v)) = .fin (2 ^ j * n) := by
    simp only [XArith.norm3, ns, XArith.sqrt, if_neg (not_lt.mpr (show (0 : ℝ) ≤ 2 ^ (2 * j) * R by positivity)), hsq, n2]
  refine ⟨⟨n, N1, N2⟩, ?_⟩
  by_cases hv : v = 0
  · have : scale j v = v := by
      subst hv; ext <;> simp [scale, V3.zero_x, V3.zero_y, V3.zero_z]
    rw [this]
  · have hR0 : R ≠ 0 := by
      rintro rfl
      have ⟨t1, t2, t3⟩ := (normSq_zero hf v).mp nv
      have z : ∀ c : ℝ, (c = 0 ∨ (2 ^ (f.emin + f.p) ≤ c ^ 2 ∧ c ^ 2 ≤ 2 ^ (f.emax - 4))) → c ^ 2 ≤ 2 ^ (f.emin - 1) → c = 0 := by
        intro c h h'
        refine h.resolve_right fun h => ?_
        have : (2 : ℝ) ^ (f.emin - 1) < 2 ^ (f.emin + f.p) := zpow_lt_zpow_right₀ (by norm_num) (by omega)
        linarith [h.1]
      exact hv (V3.ext (z _ (h1 v.x (.inl rfl)) t1) (z _ (h1 v.y (.inr (.inl rfl))) t2) (z _ (h1 v.z (.inr (.inr rfl))) t3))
    have hRp : 0 < R := lt_of_le_of_ne hR (Ne.symm hR0)
    have hn := (norm_lower hf nv N1 hR0).2.2
    have np : 0 < n := lt_of_lt_of_le (by have := Real.sqrt_pos.mpr hRp; positivity) hn
    have hj : (0 : ℝ) < 2 ^ j := by positivity
    unfold XArith.normalized
    rw [nv, ns, if_pos (show XR.lt (.fin 0) (.fin (2 ^ (2 * j) * R)) from by change (0 : ℝ) < _; positivity), if_pos (show XR.lt (.fin 0) (.fin R) from hRp), N1, N2]
    simp only [XArith.divV, emb3, scale, XArith.div, if_neg np.ne', if_neg (mul_pos hj np).ne', mul_div_mul_left _ _ hj.ne']

/-- **C105 (g).** `setFromVectors` returns the same bits for vectors scaled by powers of two. -/
theorem C105_setFromVectors_scale (hf : f.Ok) (P : Prec) (dp : ℝ) (svd : XV3 → XV3 → XV3) (k : Kind) (i j : ℤ) {v w : V3}
    (h1 : Plain f v) (h2 : Plain f (scale i v)) (h3 : Plain f w) (h4 : Plain f (scale j w)) :
    f.arith.setFromVectors P dp svd k (emb3 (scale i v)) (emb3 (scale j w)) = f.arith.setFromVectors P dp svd k (emb3 v) (emb3 w) := by
  obtain ⟨⟨n, n1, n2⟩, e1⟩ := C105_scale hf i h1 h2
  obtain ⟨⟨m, m1, m2⟩, e2⟩ := C105_scale hf j h3 h4
  have z : ∀ (l : ℤ) (v : V3) (n : ℝ), f.arith.norm3 (emb3 v) = .fin n → f.arith.norm3 (emb3 (scale l v)) = .fin (2 ^ l * n) →
      (Tiny f (scale l v) ↔ Tiny f v) := by
    intro l v n a b
    rw [← C105_norm_zero hf, ← C105_norm_zero hf, a, b]
    simp only [XR.fin.injEq, mul_eq_zero, or_iff_right (show (2 : ℝ) ^ l ≠ 0 by positivity)]
  have q : f.arith.quatFromTwoVectors dp svd (emb3 (scale i v)) (emb3 (scale j w)) = f.arith.quatFromTwoVectors dp svd (emb3 v) (emb3 w) := by
    unfold XArith.quatFromTwoVectors
    rw [e1, e2]
  have t : f.arith.setFromVectors P dp svd k (emb3 (scale i v)) (emb3 (scale j w)) = .throws ↔
      f.arith.setFromVectors P dp svd k (emb3 v) (emb3 w) = .throws := by
    rw [C105_throws hf, C105_throws hf, z i v n n1 n2, z j w m m1 m2, n1, n2, m1, m2]
    simp only [ne_eq, reduceCtorEq, not_false_eq_true]
  unfold XArith.setFromVectors at t ⊢
  rw [q] at t ⊢
  split_ifs at t ⊢ with a b <;> first | rfl | simp at t

end Format
end Kindr
