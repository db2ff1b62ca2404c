import Verif.Props.VecIeee3

/-!
# The mean of equal coefficients (C115, finding)
-/

set_option autoImplicit false

open Classical

noncomputable section
namespace Kindr
open Spec
namespace Format
variable {f : Format}

lemma qexp_of {x : ℝ} {e : ℤ} (h1 : 2 ^ e ≤ x) (h2 : x < 2 ^ (e + 1)) (h3 : f.emin ≤ e - (f.p - 1)) : f.qexp x = e - (f.p - 1) := by
  have x0 : 0 < x := lt_of_lt_of_le (by positivity) h1
  have a1 : e ≤ Int.log 2 x := (Int.zpow_le_iff_le_log (b := 2) (by norm_num) x0).mp (by exact_mod_cast h1)
  have a2 : Int.log 2 x < e + 1 := (Int.lt_zpow_iff_log_lt (b := 2) (by norm_num) x0).mp (by exact_mod_cast h2)
  unfold qexp
  rw [abs_of_pos x0]; omega

lemma shape_one {ι : Type} {t : SumOrder ι} (h : t.leaves.length = 1) : ∃ i, t = .leaf i := by
  cases t with
  | leaf i => exact ⟨i, rfl⟩
  | node l r =>
    have := leaves_pos l; have := leaves_pos r
    simp only [SumOrder.leaves, List.length_append] at h; omega

lemma shape_two {ι : Type} {t : SumOrder ι} (h : t.leaves.length = 2) : ∃ i j, t = .node (.leaf i) (.leaf j) := by
  cases t with
  | leaf i => simp [SumOrder.leaves] at h
  | node l r =>
    have h1 := leaves_pos l; have h2 := leaves_pos r
    simp only [SumOrder.leaves, List.length_append] at h
    obtain ⟨i, rfl⟩ := shape_one (t := l) (by omega)
    obtain ⟨j, rfl⟩ := shape_one (t := r) (by omega)
    exact ⟨i, j, rfl⟩

lemma add_comm_x (A : XArith) (a b : XR) : A.add a b = A.add b a := by
  cases a <;> cases b <;> simp [XArith.add, add_comm, eq_comm]
  split_ifs with h
  · rw [h]
  · rfl

/-- Three equal terms, in any order. -/
lemma three_equal (A : XArith) (c : XR) (t : SumOrder (Fin 3)) (ht : Complete t) : A.reduce (fun _ => c) t = A.add (A.add c c) c := by
  have h : t.leaves.length = 3 := complete_len ht
  cases t with
  | leaf i => simp [SumOrder.leaves] at h
  | node l r =>
    have h1 := leaves_pos l; have h2 := leaves_pos r
    simp only [SumOrder.leaves, List.length_append] at h
    rcases (show l.leaves.length = 1 ∨ l.leaves.length = 2 by omega) with h3 | h3
    · obtain ⟨i, rfl⟩ := shape_one h3
      obtain ⟨j, k, rfl⟩ := shape_two (t := r) (by omega)
      exact add_comm_x A _ _
    · obtain ⟨j, k, rfl⟩ := shape_two h3
      obtain ⟨i, rfl⟩ := shape_one (t := r) (by omega)
      rfl

lemma mean_equal (hf : AtLeastFloat f) {m j : ℤ} (h : 3 * m = 4 * j + 2) (hj : Even j) (j1 : (2 : ℝ) ^ (f.p - 1 : ℤ) ≤ j) (j2 : (j : ℝ) + 1 ≤ 2 ^ (f.p : ℤ))
    (m1 : (2 : ℝ) ^ (f.p - 1 : ℤ) + 1 ≤ m) (m2 : (m : ℝ) < 2 ^ (f.p : ℤ)) :
    Storable f m ∧ ∀ t : SumOrder (Fin 3), Complete t → f.arith.vMean t (embV ![(m : ℝ), m, m]) = .fin (m - 1) := by
  have hR : (3 * m : ℝ) = 4 * j + 2 := by exact_mod_cast h
  have P0 : (1 : ℝ) ≤ 2 ^ (f.p - 1 : ℤ) := by
    rw [show (1 : ℝ) = 2 ^ (0 : ℤ) by norm_num]
    exact zpow_le_zpow_right₀ (by norm_num) (by have := hf.p; omega)
  have Pp : (2 : ℝ) ^ (f.p : ℤ) = 2 * 2 ^ (f.p - 1 : ℤ) := by
    rw [show (2 : ℝ) ^ (f.p : ℤ) = 2 ^ ((f.p - 1 : ℤ) + 1) by congr 1; ring, zpow_add_one₀ (by norm_num)]; ring
  have Pp1 : (2 : ℝ) ^ ((f.p : ℤ) + 1) = 4 * 2 ^ (f.p - 1 : ℤ) := by
    rw [zpow_add_one₀ (by norm_num), Pp]; ring
  have Pp2 : (2 : ℝ) ^ ((f.p : ℤ) + 1 + 1) = 8 * 2 ^ (f.p - 1 : ℤ) := by
    rw [zpow_add_one₀ (by norm_num), Pp1]; ring
  have Pm : (2 : ℝ) ^ ((f.p : ℤ) + 2) ≤ 2 ^ f.emax := zpow_le_zpow_right₀ (by norm_num) (by have := hf.emax; omega)
  rw [show ((f.p : ℤ) + 2) = f.p + 1 + 1 by ring, Pp2] at Pm
  have e0 := hf.emin
  have m0 : (0 : ℝ) < m := by linarith
  have fin : ∀ {x y : ℝ}, f.round x = y → |y| < 2 ^ f.emax → f.arith.rnd x = .fin y := fun {x y} h1 h2 => by
    change (if 2 ^ f.emax ≤ |f.round _| then XR.inf _ else .fin (f.round _)) = _
    rw [h1, if_neg (not_le.mpr h2)]
  have r1 : f.round (m : ℝ) = m := round_onGrid (k := 0) (by omega) ⟨m, by simp⟩ (by rw [abs_of_pos m0, zero_add]; exact m2)
  have r2 : f.round (m + m : ℝ) = m + m := round_onGrid (k := 1) (by omega) ⟨m, by norm_num; ring⟩ (by
    rw [abs_of_pos (by linarith), add_comm 1 (f.p : ℤ), Pp1]; linarith)
  have r3 : f.round (m + m + m : ℝ) = 4 * j := by
    have e : (m + m + m : ℝ) = 4 * (j + 1 / 2) := by linarith
    have q : f.qexp (m + m + m : ℝ) = 2 := by
      rw [qexp_of (e := f.p + 1) (by rw [Pp1, e]; linarith) (by rw [Pp2, e]; linarith) (by omega)]; ring
    rw [round_def, q, e]
    norm_num
    rw [roundTiesEven_tie hj]; ring
  have r4 : f.round (4 * j / 3 : ℝ) = m - 1 := by
    have e : (4 * j / 3 : ℝ) = m - 2 / 3 := by linarith
    have q : f.qexp (4 * j / 3 : ℝ) = 0 := by
      rw [qexp_of (e := f.p - 1) (by rw [e]; linarith) (by rw [e, sub_add_cancel]; linarith) (by omega)]; ring
    rw [round_def, q, e, roundTiesEven_of_near (n := m - 1) (by push_cast; norm_num [abs_of_pos])]
    push_cast; norm_num
  have r5 : f.arith.rnd ((3 : ℕ) : ℝ) = .fin 3 := fin (round_onGrid (k := 0) (by omega) ⟨3, by norm_num⟩ (by
      rw [zero_add, Pp]
      have : (2 : ℝ) ≤ 2 ^ (f.p - 1 : ℤ) := by
        rw [show (2 : ℝ) = 2 ^ (1 : ℤ) by norm_num, ← zpow_mul]
        exact zpow_le_zpow_right₀ (by norm_num) (by have := hf.p; omega)
      norm_num; linarith)) (by norm_num; linarith)
  refine ⟨fin r1 (by rw [abs_of_pos m0]; linarith), fun t ht => ?_⟩
  have c : embV ![(m : ℝ), m, m] = fun _ => .fin (m : ℝ) := by funext i; fin_cases i <;> rfl
  unfold XArith.vMean XArith.vSum
  rw [c, three_equal _ _ t ht]
  have a1 : f.arith.add (.fin (m : ℝ)) (.fin m) = .fin (m + m) := fin r2 (by rw [abs_of_pos (by linarith)]; linarith)
  have a2 : f.arith.add (.fin (m + m : ℝ)) (.fin m) = .fin (4 * j) := fin r3 (by rw [abs_of_pos (by linarith)]; linarith)
  rw [a1, a2, r5]
  simp only [XArith.div, if_neg (show (3 : ℝ) ≠ 0 by norm_num)]
  exact fin r4 (by rw [abs_of_pos (by linarith)]; linarith)

/-- **C115 (finding).** `mean()` may be smaller than `min()`: in whatever order the sum is formed, the mean of three equal coefficients 11184814 is
11184813 in `float`, and of three coefficients 6004799503160662 it is 6004799503160661 in `double`. -/
theorem C115_mean_of_equal :
    (Storable float 11184814 ∧ ∀ t : SumOrder (Fin 3), Complete t → float.arith.vMean t (embV ![11184814, 11184814, 11184814]) = .fin 11184813) ∧
    (Storable double 6004799503160662 ∧ ∀ t : SumOrder (Fin 3), Complete t →
      double.arith.vMean t (embV ![6004799503160662, 6004799503160662, 6004799503160662]) = .fin 6004799503160661) := by
  have h1 := mean_equal float_alf (m := 11184814) (j := 8388610) (by norm_num) (by decide) (by norm_num [float]) (by norm_num [float]) (by norm_num [float]) (by norm_num [float])
  have h2 := mean_equal double_alf (m := 6004799503160662) (j := 4503599627370496) (by norm_num) (by decide) (by norm_num [double]) (by norm_num [double]) (by norm_num [double]) (by norm_num [double])
  norm_num at h1 h2
  exact ⟨h1, h2⟩

end Format
end Kindr
