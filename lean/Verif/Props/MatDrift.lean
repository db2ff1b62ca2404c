import Verif.Props.Fix
import Verif.Props.Group

/-!
# C60: concatenating a rotation *matrix* with a rotation of another class amplifies rounding errors

`RotationMatrix * RotationQuaternion` (or any other class but `RotationMatrix`) reads a quaternion off the matrix, multiplies, and
writes a matrix, never normalizing.  On an exact rotation matrix this is exact (C11).  Here: a matrix that is off by an
arbitrarily small amount is driven away by an amount of order one by multiplying it with the *identity* often enough.
-/

set_option autoImplicit false

open Classical

noncomputable section
namespace Kindr
open Spec

/-- The matrix written for the quaternion `(w, x, 0, 0)`. -/
def xTurn (w x : ℝ) : M3 := Quat.toRotationMatrix ⟨w, x, 0, 0⟩

lemma xTurn_eq (w x : ℝ) : xTurn w x = ⟨1, 0, 0, 0, 1 - 2 * x ^ 2, -(2 * w * x), 0, 2 * w * x, 1 - 2 * x ^ 2⟩ := by
  ext <;> simp [xTurn, Quat.toRotationMatrix] <;> ring

lemma ofMatrix_xTurn {w x : ℝ} (h : x ^ 2 < 3 / 4) :
    Quat.ofMatrix (xTurn w x) = ⟨Real.sqrt (1 - x ^ 2), w * x / Real.sqrt (1 - x ^ 2), 0, 0⟩ := by
  have ht : (xTurn w x).trace = 3 - 4 * x ^ 2 := by rw [xTurn_eq, M3.trace]; ring
  have hs : Real.sqrt (3 - 4 * x ^ 2 + 1) = 2 * Real.sqrt (1 - x ^ 2) := by
    rw [show 3 - 4 * x ^ 2 + 1 = 2 ^ 2 * (1 - x ^ 2) by ring, Real.sqrt_mul (by norm_num), Real.sqrt_sq (by norm_num)]
  have hpos : 0 < Real.sqrt (1 - x ^ 2) := Real.sqrt_pos.mpr (by linarith)
  have h0 : (xTurn w x).trace > 0 := by rw [ht]; linarith
  simp only [Quat.ofMatrix, h0, if_true]
  rw [ht, hs, xTurn_eq]
  ext <;> simp
  field_simp; ring

/-- One multiplication with the identity quaternion. -/
lemma mult_xTurn (P : Prec) {w x : ℝ} (h : x ^ 2 < 3 / 4) :
    mult P .mat .quat (xTurn w x) (1 : Quat) = xTurn (Real.sqrt (1 - x ^ 2)) (w * x / Real.sqrt (1 - x ^ 2)) := by
  change (Quat.ofMatrix (xTurn w x) * 1).toRotationMatrix = _
  rw [mul_one, ofMatrix_xTurn h]; rfl

/-- **C60 (a).** The deviation of the squared norm from one is multiplied by exactly `tan²` of half the rotation angle in every
multiplication with the identity quaternion, that is, by more than one for every rotation by more than a quarter turn. -/
theorem C60_amplification (P : Prec) (w x : ℝ) (h : x ^ 2 < 3 / 4) :
    ∃ w' x' : ℝ, mult P .mat .quat (Quat.toRotationMatrix ⟨w, x, 0, 0⟩) (1 : Quat) = Quat.toRotationMatrix ⟨w', x', 0, 0⟩ ∧
      w' ^ 2 + x' ^ 2 - 1 = (w ^ 2 + x ^ 2 - 1) * (x ^ 2 / (1 - x ^ 2)) ∧
      (1 / 2 < x ^ 2 → 1 < x ^ 2 / (1 - x ^ 2)) := by
  refine ⟨_, _, mult_xTurn P h, ?_, ?_⟩
  · have : (0 : ℝ) < 1 - x ^ 2 := by linarith
    rw [div_pow, Real.sq_sqrt this.le]; field_simp; ring
  · intro h2
    rw [lt_div_iff₀ (by linarith)]; linarith

lemma runHistory_replicate_succ (P : Prec) (M : M3) (n : ℕ) :
    runHistory P .mat M (List.replicate (n + 1) ⟨.quat, (1 : Quat), false⟩) =
      runHistory P .mat (mult P .mat .quat M (1 : Quat)) (List.replicate n ⟨.quat, (1 : Quat), false⟩) := by
  rw [List.replicate_succ, runHistory]; rfl

lemma abs_y_le_norm (v : V3) : |v.y| ≤ v.norm := by
  rw [V3.norm, ← Real.sqrt_sq_eq_abs]
  apply Real.sqrt_le_sqrt
  simp only [V3.normSq, V3.dot]; nlinarith [mul_self_nonneg v.x, mul_self_nonneg v.z]

/-- Induction on the number of steps that are certainly enough. -/
lemma drift (P : Prec) (n : ℕ) : ∀ (w x d : ℝ), 0 < w → 0 < x → 1 / 2 ≤ x ^ 2 → 0 < d → d ≤ w ^ 2 + x ^ 2 - 1 →
    3 / 4 - x ^ 2 ≤ n * d → ∃ (m : ℕ) (w' x' : ℝ), 3 / 4 ≤ x' ^ 2 ∧
      runHistory P .mat (xTurn w x) (List.replicate m ⟨.quat, (1 : Quat), false⟩) = xTurn w' x' := by
  induction n with
  | zero => intro w x d _ _ _ _ _ h; exact ⟨0, w, x, by simpa using h, rfl⟩
  | succ n ih =>
    intro w x d hw hx h2 hd hN hn
    by_cases h3 : 3 / 4 ≤ x ^ 2
    · exact ⟨0, w, x, h3, rfl⟩
    · have h3 := not_le.mp h3
      have hs : (0 : ℝ) < 1 - x ^ 2 := by linarith
      have hq := Real.sqrt_pos.mpr hs
      have hx2 : (w * x / Real.sqrt (1 - x ^ 2)) ^ 2 = w ^ 2 * x ^ 2 / (1 - x ^ 2) := by
        rw [div_pow, Real.sq_sqrt hs.le, mul_pow]
      have hgrow : x ^ 2 + d ≤ w ^ 2 * x ^ 2 / (1 - x ^ 2) := by
        rw [le_div_iff₀ hs]
        nlinarith
      have hd' : d ≤ Real.sqrt (1 - x ^ 2) ^ 2 + (w * x / Real.sqrt (1 - x ^ 2)) ^ 2 - 1 := by
        rw [hx2, Real.sq_sqrt hs.le]; linarith
      obtain ⟨m, w', x', h4, h5⟩ := ih _ _ d hq (div_pos (mul_pos hw hx) hq) (by rw [hx2]; linarith) hd hd' (by
        rw [hx2]; push_cast at hn; linarith)
      exact ⟨m + 1, w', x', h4, by rw [runHistory_replicate_succ, mult_xTurn P h3, h5]⟩

/-- **C60 (b), finding.** For every `δ > 0` there are an exact rotation matrix `R`, a matrix `M` that differs from it by at most
`δ` (and that the debug-build constructor accepts), and a number of multiplications with the identity quaternion after which
the image of the `y` axis has moved by more than `0.4`. -/
theorem C60_matrix_history_unstable (P : Prec) (δ : ℝ) (hδ : 0 < δ) :
    ∃ (R M : M3) (n : ℕ), IsSO3 R ∧ (∀ v : V3, (M.mulVec v - R.mulVec v).norm ≤ δ * v.norm) ∧ matCtorDbg M = .ok M ∧
      4 / 10 < (M3.mulVec (runHistory P .mat M (List.replicate n ⟨.quat, (1 : Quat), false⟩)) ⟨0, 1, 0⟩ -
        M.mulVec ⟨0, 1, 0⟩).norm := by
  set x : ℝ := Real.sqrt (51 / 100) with hx
  have hx2 : x ^ 2 = 51 / 100 := Real.sq_sqrt (by norm_num)
  have hxp : 0 < x := Real.sqrt_pos.mpr (by norm_num)
  set w₀ : ℝ := 7 / 10 with hw0
  set e : ℝ := min δ (1 / 10 ^ 8) / 2 with he
  have hep : 0 < e := by rw [he]; positivity
  have he1 : e ≤ δ / 2 := by rw [he]; exact div_le_div_of_nonneg_right (min_le_left _ _) (by norm_num)
  have he2 : e ≤ 1 / 10 ^ 8 / 2 := by rw [he]; exact div_le_div_of_nonneg_right (min_le_right _ _) (by norm_num)
  have hx1 : x ≤ 1 := by nlinarith
  set w : ℝ := w₀ + e with hw
  have hN : w ^ 2 + x ^ 2 - 1 = 14 / 10 * e + e ^ 2 := by rw [hw, hw0, hx2]; ring
  set g : ℝ := 4 * x ^ 2 * (14 / 10 * e + e ^ 2) with hgd
  have hg0 : 0 ≤ g := by rw [hgd]; positivity
  have hg1 : g ≤ 1 / 10 ^ 6 := by rw [hgd, hx2]; nlinarith
  obtain ⟨n, hn⟩ := exists_nat_ge ((3 / 4 - x ^ 2) / e)
  obtain ⟨m, w', x', h3, h4⟩ := drift P n w x e (by rw [hw, hw0]; linarith) hxp (by rw [hx2]; norm_num) hep
    (by rw [hN]; nlinarith) (by rw [div_le_iff₀ hep] at hn; exact hn)
  refine ⟨xTurn w₀ x, xTurn w x, m, ?_, fun v => ?_, ?_, ?_⟩
  · have hu : Quat.normSq ⟨w₀, x, 0, 0⟩ = 1 := by
      simp only [Quat.normSq]; rw [hw0]; linarith
    rw [xTurn, toRotationMatrix_eq hu]; exact sMat_isSO3 hu
  · have e1 : (xTurn w x).mulVec v - (xTurn w₀ x).mulVec v = (2 * e * x) • (⟨0, -v.z, v.y⟩ : V3) := by
      rw [xTurn_eq, xTurn_eq, hw]; ext <;> simp <;> ring
    have e2 : (⟨0, -v.z, v.y⟩ : V3).norm ≤ v.norm := by
      simp only [V3.norm]
      apply Real.sqrt_le_sqrt
      simp only [V3.normSq, V3.dot]; nlinarith [mul_self_nonneg v.x]
    rw [e1, V3.norm_smul, abs_of_nonneg (by positivity)]
    have h5 : 2 * e * x ≤ δ := by nlinarith
    exact mul_le_mul h5 e2 (V3.norm_nonneg _) hδ.le
  · have hg : xTurn w x * (xTurn w x).transpose = ⟨1, 0, 0, 0, 1 + g, 0, 0, 0, 1 + g⟩ := by
      rw [xTurn_eq, hgd]; ext <;> simp <;> first | ring1 | (linear_combination 4 * x ^ 2 * hN)
    have hdet : (xTurn w x).det = 1 + g := by
      rw [xTurn_eq, hgd]; simp only [M3.det]; linear_combination 4 * x ^ 2 * hN
    have hb : |1 + g - 1| ≤ 1 / 10 ^ 6 * max |1 + g| 1 := by
      have h6 : (1 : ℝ) / 10 ^ 6 * 1 ≤ 1 / 10 ^ 6 * max |1 + g| 1 :=
        mul_le_mul_of_nonneg_left (le_max_right _ _) (by norm_num)
      rw [show 1 + g - 1 = g by ring, abs_of_nonneg hg0]
      linarith
    rw [matCtorDbg_iff, hg, hdet]
    refine ⟨⟨by norm_num, hb, hb⟩, ⟨by norm_num, by norm_num, by norm_num⟩, hb⟩
  · rw [h4]
    have e3 : ((xTurn w' x').mulVec ⟨0, 1, 0⟩ - (xTurn w x).mulVec ⟨0, 1, 0⟩).y = 2 * x ^ 2 - 2 * x' ^ 2 := by
      rw [xTurn_eq, xTurn_eq]; simp
    have e4 := abs_y_le_norm ((xTurn w' x').mulVec ⟨0, 1, 0⟩ - (xTurn w x).mulVec ⟨0, 1, 0⟩)
    rw [e3, abs_of_nonpos (by rw [hx2]; linarith)] at e4
    have : (48 : ℝ) / 100 ≤ -(2 * x ^ 2 - 2 * x' ^ 2) := by rw [hx2]; linarith
    linarith

end Kindr
