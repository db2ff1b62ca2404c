import Verif.Props.Range4

set_option autoImplicit false

open Classical

noncomputable section
namespace Kindr
open Spec
namespace Format

/-! ## Between the two: a vector of `double` whose normalized length is 3/4 -/

lemma round_float {f : Format} (hf : f.Ok) {x : ℝ} (hx : IsFloat f.p x) (h : (2 : ℝ) ^ (f.emin + (f.p - 1)) ≤ |x|) : f.round x = x := by
  rw [round_eq_roundEven h]
  exact (roundEven_spec (by have := hf.p; omega)).fix x hx

private lemma sq_v : Format.double.round (3 * 2 ^ (-539 : ℤ) * (3 * 2 ^ (-539 : ℤ))) = 2 ^ (-1074 : ℤ) := by
  have e : (3 : ℝ) * 2 ^ (-539 : ℤ) * (3 * 2 ^ (-539 : ℤ)) = 9 / 16 * 2 ^ (-1074 : ℤ) := by
    rw [show (-1074 : ℤ) = -539 + -539 + 4 by norm_num, zpow_add₀ (by norm_num), zpow_add₀ (by norm_num)]
    have : (2 : ℝ) ^ (4 : ℤ) = 16 := by norm_num
    rw [this]; ring
  have hp : (0 : ℝ) < 2 ^ (-1074 : ℤ) := by positivity
  have l : Int.log 2 |(9 : ℝ) / 16 * 2 ^ (-1074 : ℤ)| ≤ -1074 := log_le (by positivity) (by
    rw [zpow_add₀ (by norm_num)]; linarith)
  have q : Format.double.qexp (9 / 16 * 2 ^ (-1074 : ℤ)) = -1074 := by
    unfold qexp
    have : Format.double.emin = -1074 := rfl
    have : Format.double.p = 53 := rfl
    omega
  rw [e, round_def, q, mul_div_cancel_right₀ _ hp.ne']
  have : roundTiesEven (9 / 16) = 1 := by
    unfold roundTiesEven
    have : ⌊(9 / 16 : ℝ)⌋ = 0 := by rw [Int.floor_eq_iff]; norm_num
    unfold Int.fract
    rw [this]; norm_num
  rw [this]; simp

/-- Small dyadic numbers are exact in `double`. -/
private lemma ex (n : ℤ) (k : ℕ) (h0 : 0 < n) (h : n ≤ 1000) (hk : k ≤ 10) : Format.double.arith.rnd (n / 2 ^ k : ℝ) = .fin (n / 2 ^ k) := by
  have h0' : (1 : ℝ) ≤ n := by exact_mod_cast h0
  have h' : (n : ℝ) ≤ 1000 := by exact_mod_cast h
  have k1 : (1 : ℝ) ≤ 2 ^ k := one_le_pow₀ (by norm_num)
  have k2 : (2 : ℝ) ^ k ≤ 2 ^ 10 := pow_le_pow_right₀ (by norm_num) hk
  have hp : (0 : ℝ) < n / 2 ^ k := by positivity
  rw [rnd_fin double_ok (j := 10) (by norm_num [Format.double]) (by norm_num [Format.double])]
  · rw [round_float double_ok]
    · refine ⟨n, -k, ?_, ?_⟩
      · rw [abs_of_pos h0]; norm_num [Format.double]; omega
      · rw [zpow_neg, zpow_natCast]; rfl
    · rw [abs_of_pos hp]
      refine le_trans (zpow_le_zpow_right₀ (by norm_num) (show _ ≤ (-10 : ℤ) by norm_num [Format.double])) ?_
      rw [le_div_iff₀ (by positivity)]
      norm_num at k2 ⊢
      linarith
  · rw [abs_of_pos hp, div_le_iff₀ (by positivity)]
    have : (2 : ℝ) ^ (10 : ℤ) = 1024 := by norm_num
    rw [this]; linarith

/-- **C105 (h), finding.** In `double` the vector `v = (3 * 2 ^ -539, 0, 0)` (about `1.7e-162`) is not tiny, `v.normalized()` is `(0.75, 0, 0)`, and
`setFromVectors(v, v)` is a quaternion of length at most 0.9 instead of the identity. -/
theorem C105_between (P : Prec) {dp : ℝ} (hdp : dp ≤ 1) (svd : XV3 → XV3 → XV3) :
    Format.double.arith.normalized (emb3 ⟨3 * 2 ^ (-539 : ℤ), 0, 0⟩) = emb3 ⟨3 / 4, 0, 0⟩ ∧
    ∃ q : ℝ, q ≤ 9 / 10 ∧
      Format.double.arith.setFromVectors P dp svd .quat (emb3 ⟨3 * 2 ^ (-539 : ℤ), 0, 0⟩) (emb3 ⟨3 * 2 ^ (-539 : ℤ), 0, 0⟩) = .ok (embQ ⟨q, 0, 0, 0⟩) := by
  have hf := double_ok
  have r0 := Format.double.arith.rnd_zero
  have rp : ∀ j : ℤ, -1074 ≤ j → j < 1024 → Format.double.arith.rnd (2 ^ j) = .fin (2 ^ j) := fun j h1 h2 => rnd_pow hf h1 h2
  have n2 : Format.double.arith.normSq3 (emb3 ⟨3 * 2 ^ (-539 : ℤ), 0, 0⟩) = .fin (2 ^ (-1074 : ℤ)) := by
    have a : Format.double.arith.rnd (3 * 2 ^ (-539 : ℤ) * (3 * 2 ^ (-539 : ℤ))) = .fin (2 ^ (-1074 : ℤ)) := by
      rw [rnd_fin hf (j := 0) (by norm_num [Format.double]) (by norm_num [Format.double]), sq_v]
      rw [abs_of_pos (by positivity), zpow_zero]
      have : (2 : ℝ) ^ (-539 : ℤ) ≤ 2 ^ (-2 : ℤ) := zpow_le_zpow_right₀ (by norm_num) (by norm_num)
      have h2 : (2 : ℝ) ^ (-2 : ℤ) = 1 / 4 := by norm_num
      have h0 : (0 : ℝ) < 2 ^ (-539 : ℤ) := by positivity
      rw [h2] at this
      generalize (2 : ℝ) ^ (-539 : ℤ) = t at this h0
      nlinarith
    simp only [XArith.normSq3, emb3, XArith.mul, a, mul_zero, r0, XArith.add, add_zero]
    exact rp _ le_rfl (by norm_num)
  have sq : Real.sqrt (2 ^ (-1074 : ℤ)) = 2 ^ (-537 : ℤ) := by
    rw [show ((2 : ℝ) ^ (-1074 : ℤ)) = (2 ^ (-537 : ℤ)) ^ 2 by rw [← zpow_natCast, ← zpow_mul]; norm_num, Real.sqrt_sq (by positivity)]
  have n1 : Format.double.arith.norm3 (emb3 ⟨3 * 2 ^ (-539 : ℤ), 0, 0⟩) = .fin (2 ^ (-537 : ℤ)) := by
    simp only [XArith.norm3, n2, XArith.sqrt, if_neg (not_lt.mpr (show (0 : ℝ) ≤ 2 ^ (-1074 : ℤ) by positivity)), sq]
    exact rp _ (by norm_num) (by norm_num)
  have nz : (2 : ℝ) ^ (-537 : ℤ) ≠ 0 := by positivity
  have nn : Format.double.arith.normalized (emb3 ⟨3 * 2 ^ (-539 : ℤ), 0, 0⟩) = emb3 ⟨3 / 4, 0, 0⟩ := by
    unfold XArith.normalized
    rw [n2, if_pos (by change (0 : ℝ) < _; positivity), n1]
    have q : (3 : ℝ) * 2 ^ (-539 : ℤ) / 2 ^ (-537 : ℤ) = (3 : ℤ) / 2 ^ 2 := by
      rw [show (-539 : ℤ) = -537 + -2 by norm_num, zpow_add₀ (by norm_num)]
      field_simp
      norm_num
    simp only [XArith.divV, emb3, XArith.div, if_neg nz, zero_div, r0, q]
    rw [ex 3 2 (by norm_num) (by norm_num) (by norm_num)]
    norm_num
  refine ⟨nn, ?_⟩
  have hE : ∀ x : ℝ, 0 < x → x ≤ 2 → ∃ y, Format.double.arith.rnd x = .fin y ∧ |y - x| ≤ 1 / 100 := by
    intro x h1 h2
    refine ⟨Format.double.round x, rnd_fin hf (j := 1) (by norm_num [Format.double]) (by norm_num [Format.double]) (by rw [abs_of_pos h1, zpow_one]; exact h2), ?_⟩
    have e := err hf x
    have u := uu_le hf
    have n : Format.double.eta ≤ 1 / 2 ^ 12 := by
      unfold eta
      calc (2 : ℝ) ^ (Format.double.emin - 1) ≤ 2 ^ (-12 : ℤ) := zpow_le_zpow_right₀ (by norm_num) (by norm_num [Format.double])
        _ = _ := by norm_num
    rw [abs_of_pos h1] at e
    have := mul_le_mul u h2 h1.le (by norm_num)
    linarith
  have m9 : Format.double.arith.mul (.fin (3 / 4)) (.fin (3 / 4)) = .fin (9 / 16) := by
    have := ex 9 4 (by norm_num) (by norm_num) (by norm_num)
    norm_num at this
    change Format.double.arith.rnd (3 / 4 * (3 / 4)) = _
    norm_num [this]
  have m0 : ∀ x : ℝ, Format.double.arith.mul (.fin x) (.fin 0) = .fin 0 := fun x => by
    change Format.double.arith.rnd (x * 0) = _; rw [mul_zero, r0]
  have m0' : ∀ x : ℝ, Format.double.arith.mul (.fin 0) (.fin x) = .fin 0 := fun x => by
    change Format.double.arith.rnd (0 * x) = _; rw [zero_mul, r0]
  have s0 : Format.double.arith.sub (.fin 0) (.fin 0) = .fin 0 := by
    change Format.double.arith.rnd (0 + -0) = _; rw [neg_zero, add_zero, r0]
  have a9 : Format.double.arith.add (.fin (9 / 16)) (.fin 0) = .fin (9 / 16) := by
    have := ex 9 4 (by norm_num) (by norm_num) (by norm_num)
    norm_num at this
    change Format.double.arith.rnd (9 / 16 + 0) = _
    norm_num [this]
  have a25 : Format.double.arith.add (.fin 1) (.fin (9 / 16)) = .fin (25 / 16) := by
    have := ex 25 4 (by norm_num) (by norm_num) (by norm_num)
    norm_num at this
    change Format.double.arith.rnd (1 + 9 / 16) = _
    norm_num [this]
  have m25 : Format.double.arith.mul (.fin (25 / 16)) (.fin 2) = .fin (25 / 8) := by
    have := ex 25 3 (by norm_num) (by norm_num) (by norm_num)
    norm_num at this
    change Format.double.arith.rnd (25 / 16 * 2) = _
    norm_num [this]
  have k1 : Real.sqrt (25 / 8) ≤ 177 / 100 := Real.sqrt_le_iff.mpr ⟨by norm_num, by norm_num⟩
  have k2 : 1 ≤ Real.sqrt (25 / 8) := Real.le_sqrt_of_sq_le (by norm_num)
  obtain ⟨s, s1, s2⟩ := hE (Real.sqrt (25 / 8)) (by linarith) (by linarith)
  obtain ⟨s3, s4⟩ := abs_le.mp s2
  obtain ⟨q, q1, q2⟩ := hE (s * (1 / 2)) (by linarith) (by linarith)
  obtain ⟨q3, q4⟩ := abs_le.mp q2
  obtain ⟨i, i1, -⟩ := hE (1 / s) (by have : 0 < s := by linarith
                                      positivity) (by rw [div_le_iff₀ (by linarith)]; linarith)
  refine ⟨q, by linarith, ?_⟩
  have hs : Format.double.arith.sqrt (.fin (25 / 8)) = .fin s := by
    simp only [XArith.sqrt, if_neg (show ¬ (25 / 8 : ℝ) < 0 by norm_num), s1]
  have hi : Format.double.arith.div (.fin 1) (.fin s) = .fin i := by
    simp only [XArith.div, if_neg (show s ≠ 0 by linarith), i1]
  have hq : Format.double.arith.mul (.fin s) (.fin (1 / 2)) = .fin q := q1
  have hc : ¬ (Format.double.arith.mul (.fin (2 ^ (-537 : ℤ))) (.fin (2 ^ (-537 : ℤ)))).eq (.fin 0) := by
    change ¬ (Format.double.arith.rnd (2 ^ (-537 : ℤ) * 2 ^ (-537 : ℤ))).eq (.fin 0)
    rw [← zpow_add₀ (by norm_num), rp _ (by norm_num) (by norm_num)]
    change ¬ ((2 : ℝ) ^ (-537 + -537 : ℤ) = 0)
    positivity
  unfold XArith.setFromVectors
  rw [n1, if_pos hc]
  congr 1
  change Format.double.arith.quatFromTwoVectors _ _ _ _ = _
  unfold XArith.quatFromTwoVectors
  simp only [nn]
  simp only [XArith.dot3, XArith.crossV, emb3, m9, m0, m0', s0, a9]
  rw [if_neg (show ¬ (XR.fin (9 / 16)).lt (.fin (-1 + dp)) by change ¬ ((9 / 16 : ℝ) < -1 + dp); linarith)]
  simp only [a25, m25, hs, hi, hq, m0']
  rfl

/-! ## The hypotheses are met -/

example : Tiny Format.float ⟨2 ^ (-80 : ℤ), -2 ^ (-80 : ℤ), 0⟩ ∧ ¬ (⟨2 ^ (-80 : ℤ), -2 ^ (-80 : ℤ), 0⟩ : V3) = 0 := by
  have h : ((2 : ℝ) ^ (-80 : ℤ)) ^ 2 ≤ 2 ^ (Format.float.emin - 1) := by
    rw [← zpow_natCast, ← zpow_mul]
    exact zpow_le_zpow_right₀ (by norm_num) (by norm_num [Format.float])
  refine ⟨⟨h, by simpa using h, by simp; positivity⟩, fun h => ?_⟩
  have := congrArg V3.x h
  have h0 : (0 : ℝ) < 2 ^ (-80 : ℤ) := by positivity
  exact h0.ne' this

example : Huge Format.float ⟨1, 2 ^ (64 : ℤ), 0⟩ := by
  refine .inr (.inl ?_)
  rw [← zpow_natCast, ← zpow_mul]
  exact zpow_le_zpow_right₀ (by norm_num) (by norm_num [Format.float])

example : InRange Format.float ⟨3, 4, -5⟩ := by
  refine ⟨le_trans (zpow_le_one_of_nonpos₀ (by norm_num) (by norm_num [Format.float])) (by norm_num), ?_⟩
  refine le_trans ?_ (zpow_le_zpow_right₀ (by norm_num) (show (10 : ℤ) ≤ _ by norm_num [Format.float]))
  norm_num

example : Plain Format.double ⟨3, 0, -5⟩ ∧ Plain Format.double (scale 200 ⟨3, 0, -5⟩) := by
  have h : ∀ (j : ℤ) (c : ℝ), 0 ≤ j → j ≤ 200 → c ^ 2 ≤ 2 ^ (5 : ℤ) → 1 ≤ c ^ 2 →
      2 ^ (Format.double.emin + Format.double.p) ≤ (2 ^ j * c) ^ 2 ∧ (2 ^ j * c) ^ 2 ≤ 2 ^ (Format.double.emax - 4) := by
    intro j c j0 j1 c1 c2
    have e : (2 ^ j * c) ^ 2 = 2 ^ (2 * j) * c ^ 2 := by
      rw [mul_pow, ← zpow_natCast, ← zpow_mul]; norm_num [mul_comm]
    rw [e]
    constructor
    · refine le_trans (zpow_le_one_of_nonpos₀ (by norm_num) (by norm_num [Format.double])) ?_
      exact one_le_mul_of_one_le_of_one_le (one_le_zpow₀ (by norm_num) (by omega)) c2
    · refine le_trans (mul_le_mul_of_nonneg_left c1 (by positivity)) ?_
      rw [← zpow_add₀ (by norm_num)]
      exact zpow_le_zpow_right₀ (by norm_num) (by norm_num [Format.double]; omega)
  constructor
  · rintro c (rfl | rfl | rfl)
    · right; simpa using h 0 3 le_rfl (by norm_num) (by norm_num) (by norm_num)
    · left; rfl
    · right; simpa using h 0 (-5) le_rfl (by norm_num) (by norm_num) (by norm_num)
  · rintro c (rfl | rfl | rfl)
    · right; exact h 200 3 (by norm_num) (by norm_num) (by norm_num) (by norm_num)
    · left; simp [scale]
    · right; exact h 200 (-5) (by norm_num) (by norm_num) (by norm_num) (by norm_num)

end Format
end Kindr
