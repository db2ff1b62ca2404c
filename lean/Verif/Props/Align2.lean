import Verif.Props.Align1

set_option autoImplicit false

open Classical

noncomputable section
namespace Kindr
open Spec
namespace Align
variable {R : ℝ → ℝ} {u : ℝ}

set_option maxHeartbeats 1000000 in
/-- The scalar part and the factor of the vector part, computed from the rounded cosine. -/
lemma scalar_err (h : Rd R u) {d c' S : ℝ} (d0 : 140 * u ≤ d) (d2 : d ≤ 2) (hS : S ^ 2 = 2 * d) (S0 : 0 ≤ S) (hc : |c' - (d - 1)| ≤ 25 * u) :
    ∃ D r s w i : ℝ, D = R (1 + c') ∧ r = R (D * 2) ∧ s = R (Real.sqrt r) ∧ w = R (s * (1 / 2)) ∧ i = R (1 / s) ∧
      0 < S ∧ 280 * u ≤ S ^ 2 ∧ S ≤ 2 ∧
      |1 + c'| ≤ 3 ∧ |D * 2| ≤ 5 ∧ 0 < r ∧ |Real.sqrt r| ≤ 3 ∧ 0 < s ∧ 87 / 100 * S ≤ s ∧ |s * (1 / 2)| ≤ 3 ∧
      |w - S / 2| * S ≤ 21 * u ∧ |i - 1 / S| * S ^ 3 ≤ 47 * u := by
  have u0 := h.pos; have u1 := h.le
  have u2 : u ≤ 1 / 10 ^ 7 := by norm_num at u1 ⊢; linarith
  have Sp : 0 < S := by
    rcases eq_or_lt_of_le S0 with h | h
    · rw [← h] at hS; linarith
    · exact h
  have S2 : S ≤ 2 := le_trans (le_abs_self _) (abs_le_of_sq_le_sq (by rw [hS]; linarith) (by norm_num))
  have hS2 : 280 * u ≤ S ^ 2 := by linarith
  obtain ⟨hc1, hc2⟩ := abs_le.mp hc
  have g1 : |1 + c'| ≤ 21 / 10 := by rw [abs_le]; constructor <;> linarith
  obtain ⟨D, hD⟩ : ∃ D, D = R (1 + c') := ⟨_, rfl⟩
  have e1 := h.abs g1
  rw [← hD] at e1
  obtain ⟨e1a, e1b⟩ := abs_le.mp e1
  have g2 : |D * 2| ≤ 42 / 10 := by rw [abs_le]; constructor <;> linarith
  obtain ⟨r, hr⟩ : ∃ r, r = R (D * 2) := ⟨_, rfl⟩
  have e2 := h.abs g2
  rw [← hr] at e2
  obtain ⟨e2a, e2b⟩ := abs_le.mp e2
  have r1 : S ^ 2 - 59 * u ≤ r := by linarith
  have r2 : r ≤ S ^ 2 + 59 * u := by linarith
  have r0 : 0 < r := by linarith
  have q0 := Real.sqrt_nonneg r
  have q2 := Real.sq_sqrt r0.le
  obtain ⟨q, hq⟩ : ∃ q, q = Real.sqrt r := ⟨_, rfl⟩
  rw [← hq] at q0 q2
  have ql : 88 / 100 * S ≤ q := by
    refine le_trans (le_abs_self _) (abs_le_of_sq_le_sq ?_ q0)
    rw [q2, mul_pow]; linarith
  have qh : q ≤ 111 / 100 * S := by
    refine le_trans (le_abs_self _) (abs_le_of_sq_le_sq ?_ (by positivity))
    rw [q2, mul_pow]; linarith
  have qS : |q - S| * S ≤ 314 / 10 * u := by
    have k : |q - S| * (q + S) ≤ 59 * u := by
      rw [← abs_of_nonneg (show 0 ≤ q + S by linarith), ← abs_mul, show (q - S) * (q + S) = r - S ^ 2 by rw [← q2]; ring, abs_le]
      constructor <;> linarith
    have := mul_le_mul_of_nonneg_left (show 188 / 100 * S ≤ q + S by linarith) (abs_nonneg (q - S))
    linarith
  obtain ⟨s, hs⟩ : ∃ s, s = R q := ⟨_, rfl⟩
  have e3 := h.abs (show |q| ≤ 111 / 100 * S by rw [abs_of_nonneg q0]; exact qh)
  rw [← hs] at e3
  have SS : S ^ 2 ≤ 4 := by linarith
  have uSS : u * S ^ 2 ≤ u * 4 := mul_le_mul_of_nonneg_left SS u0.le
  have uS2 : u * S ≤ u * 2 := mul_le_mul_of_nonneg_left S2 u0.le
  have sS : |s - S| * S ≤ 36 * u := by
    have k := abs_sub_le s q S
    have k2 : |s - S| * S ≤ (u * (111 / 100 * S) + u / 10 ^ 6 + |q - S|) * S := mul_le_mul_of_nonneg_right (by linarith) S0
    have : (u * (111 / 100 * S) + u / 10 ^ 6 + |q - S|) * S = 111 / 100 * (u * S ^ 2) + u * S / 10 ^ 6 + |q - S| * S := by ring
    linarith
  have sS2 : |s - S| ≤ 13 / 100 * S := by
    have k : |s - S| * S ≤ 13 / 100 * S * S := by rw [mul_assoc, ← sq]; linarith
    exact le_of_mul_le_mul_right k Sp
  obtain ⟨s1, s2⟩ := abs_le.mp sS2
  have sl : 87 / 100 * S ≤ s := by linarith
  have sp : 0 < s := by linarith
  have g4 : |s * (1 / 2)| ≤ 57 / 100 * S := by rw [abs_of_pos (by linarith)]; linarith
  have e4 := h.abs g4
  have g5 : |1 / s| ≤ 115 / 100 / S := by
    rw [abs_of_pos (by positivity), div_le_div_iff₀ sp Sp]; linarith
  have e5 := h.abs g5
  obtain ⟨w, hw⟩ : ∃ w, w = R (s * (1 / 2)) := ⟨_, rfl⟩
  obtain ⟨i, hi⟩ : ∃ i, i = R (1 / s) := ⟨_, rfl⟩
  rw [← hw] at e4; rw [← hi] at e5
  refine ⟨D, r, s, w, i, hD, hr, by rw [hs, hq], hw, hi, Sp, hS2, S2, by linarith, by linarith, r0, ?_, sp, sl, by linarith, ?_, ?_⟩
  · rw [← hq, abs_of_nonneg q0]; linarith
  · have k := abs_sub_le w (s * (1 / 2)) (S / 2)
    have k1 : |s * (1 / 2) - S / 2| = |s - S| / 2 := by
      rw [show s * (1 / 2) - S / 2 = (s - S) / 2 by ring, abs_div, abs_two]
    have k2 : |w - S / 2| * S ≤ (u * (57 / 100 * S) + u / 10 ^ 6 + |s - S| / 2) * S := mul_le_mul_of_nonneg_right (by linarith) S0
    have : (u * (57 / 100 * S) + u / 10 ^ 6 + |s - S| / 2) * S = 57 / 100 * (u * S ^ 2) + u * S / 10 ^ 6 + |s - S| * S / 2 := by ring
    linarith
  · have k := abs_sub_le i (1 / s) (1 / S)
    have k1 : |1 / s - 1 / S| * S ^ 3 ≤ 414 / 10 * u := by
      rw [show 1 / s - 1 / S = (S - s) / (s * S) by field_simp, abs_div, abs_of_pos (mul_pos sp Sp), abs_sub_comm]
      rw [show |s - S| / (s * S) * S ^ 3 = |s - S| * S * (S / s) by field_simp]
      have : S / s ≤ 115 / 100 := by rw [div_le_iff₀ sp]; linarith
      have := mul_le_mul sS this (by positivity) (by positivity)
      linarith
    have k2 : |i - 1 / S| * S ^ 3 ≤ (u * (115 / 100 / S) + u / 10 ^ 6 + |1 / s - 1 / S|) * S ^ 3 := mul_le_mul_of_nonneg_right (by linarith) (by positivity)
    have k3 : (u * (115 / 100 / S) + u / 10 ^ 6 + |1 / s - 1 / S|) * S ^ 3 = 115 / 100 * (u * S ^ 2) + u * S ^ 3 / 10 ^ 6 + |1 / s - 1 / S| * S ^ 3 := by
      field_simp
    have k4 : u * S ^ 3 ≤ 8 * u := by
      have h3 : S ^ 3 ≤ 2 ^ 3 := pow_le_pow_left₀ S0 S2 3
      have := mul_le_mul_of_nonneg_left h3 u0.le
      linarith
    linarith

/-- A component of the vector part. -/
lemma vec_err (h : Rd R u) {d S X X' i : ℝ} (d2 : d ≤ 2) (hS : S ^ 2 = 2 * d) (Sp : 0 < S) (hS2 : 280 * u ≤ S ^ 2) (S2 : S ≤ 2)
    (hX : |X' - X| ≤ 20 * u) (X1 : |X| ≤ S) (hi : |i - 1 / S| * S ^ 3 ≤ 47 * u) :
    |R (X' * i) - X / S| ≤ 50 * u / d ∧ |X' * i| ≤ 2 := by
  have u0 := h.pos
  have dp : 0 < d := by nlinarith
  have i2 : |i - 1 / S| * S ≤ 17 / 100 := by
    have : |i - 1 / S| * S * S ^ 2 ≤ 17 / 100 * S ^ 2 := by
      rw [show |i - 1 / S| * S * S ^ 2 = |i - 1 / S| * S ^ 3 by ring]; linarith
    exact le_of_mul_le_mul_right this (by positivity)
  have i3 : |i| * S ≤ 117 / 100 := by
    have k : |i| ≤ |i - 1 / S| + 1 / S := by
      have := abs_sub_abs_le_abs_sub i (1 / S)
      rw [abs_of_pos (by positivity : 0 < 1 / S)] at this; linarith
    have k2 := mul_le_mul_of_nonneg_right k Sp.le
    rw [add_mul, one_div, inv_mul_cancel₀ Sp.ne', ← one_div] at k2
    linarith
  have main : |X' * i - X / S| * S ^ 2 ≤ 94 * u := by
    have e : X' * i - X / S = (X' - X) * i + X * (i - 1 / S) := by ring
    rw [e]
    have t := abs_add_le ((X' - X) * i) (X * (i - 1 / S))
    rw [abs_mul, abs_mul] at t
    have t2 := mul_le_mul_of_nonneg_right t (sq_nonneg S)
    have t3 : |X' - X| * (|i| * S) ≤ 20 * u * (117 / 100) := mul_le_mul hX i3 (by positivity) (by positivity)
    have t4 : |X| * (|i - 1 / S| * S ^ 2) ≤ S * (|i - 1 / S| * S ^ 2) := mul_le_mul_of_nonneg_right X1 (by positivity)
    have t5 : |X' - X| * (|i| * S) * S ≤ 20 * u * (117 / 100) * 2 := mul_le_mul t3 S2 Sp.le (by positivity)
    have : (|X' - X| * |i| + |X| * |i - 1 / S|) * S ^ 2 = |X' - X| * (|i| * S) * S + |X| * (|i - 1 / S| * S ^ 2) := by ring
    have t6 : S * (|i - 1 / S| * S ^ 2) = |i - 1 / S| * S ^ 3 := by ring
    linarith
  have XS : |X / S| ≤ 1 := by rw [abs_div, abs_of_pos Sp, div_le_one Sp]; exact X1
  have m2 : |X' * i - X / S| ≤ 34 / 100 := by
    have : |X' * i - X / S| * S ^ 2 ≤ 34 / 100 * S ^ 2 := by linarith
    exact le_of_mul_le_mul_right this (by positivity)
  have b : |X' * i| ≤ 134 / 100 := by
    have := abs_sub_abs_le_abs_sub (X' * i) (X / S); linarith
  refine ⟨?_, by linarith⟩
  have e := h.abs b
  have m3 : |X' * i - X / S| ≤ 47 * u / d := by
    rw [le_div_iff₀ dp]
    have : |X' * i - X / S| * (2 * d) ≤ 94 * u := by rw [← hS]; exact main
    linarith
  have m4 : u * (134 / 100) + u / 10 ^ 6 ≤ 3 * u / d := by
    rw [le_div_iff₀ dp]; nlinarith
  have := abs_sub_le (R (X' * i)) (X' * i) (X / S)
  have e2 : 50 * u / d = 47 * u / d + 3 * u / d := by ring
  linarith

end Align
end Kindr
