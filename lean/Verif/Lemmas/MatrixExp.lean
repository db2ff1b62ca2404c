import Mathlib.Analysis.SpecialFunctions.Exponential
import Mathlib.Analysis.Normed.Algebra.MatrixExponential
import Mathlib.Analysis.Calculus.MeanValue
import Mathlib.Analysis.SpecialFunctions.Trigonometric.Deriv
import Verif.Spec.Matrix
import Verif.Model.Math
import Verif.Lemmas.RotVec

/-!
# Rodrigues' formula is the matrix exponential
-/

set_option autoImplicit false

open Classical

noncomputable section
namespace Kindr
open Spec

lemma toMat_mul (a b : M3) : toMat (a * b) = toMat a * toMat b := by
  ext i j; fin_cases i <;> fin_cases j <;> simp [toMat, Matrix.mul_apply, Fin.sum_univ_three]
lemma toMat_one : toMat 1 = 1 := by
  ext i j; fin_cases i <;> fin_cases j <;> simp [toMat]
lemma toMat_add (a b : M3) : toMat (a + b) = toMat a + toMat b := by
  ext i j; fin_cases i <;> fin_cases j <;> simp [toMat]
lemma toMat_smul (s : ℝ) (a : M3) : toMat (s • a) = s • toMat a := by
  ext i j; fin_cases i <;> fin_cases j <;> simp [toMat]
lemma toMat_injective {a b : M3} (h : toMat a = toMat b) : a = b := by
  have := fun i j => congrFun (congrFun h i) j
  have e00 := this 0 0; have e01 := this 0 1; have e02 := this 0 2
  have e10 := this 1 0; have e11 := this 1 1; have e12 := this 1 2
  have e20 := this 2 0; have e21 := this 2 1; have e22 := this 2 2
  simp [toMat] at e00 e01 e02 e10 e11 e12 e20 e21 e22
  ext <;> assumption
lemma toMat_skew (v : V3) : toMat (skew v) = crossMatrix v := rfl

/-- Rodrigues' formula in matrix form. -/
lemma rodMat_eq (θ : ℝ) {n : V3} (hn : n.normSq = 1) :
    rodMat θ n = 1 + Real.sin θ • skew n + (1 - Real.cos θ) • (skew n * skew n) := by
  simp only [V3.normSq, V3.dot] at hn
  ext <;> simp [rodMat, AngAx.toRotationMatrix, skew] <;> try ring1
  · linear_combination (1 - Real.cos θ) * hn
  · linear_combination (1 - Real.cos θ) * hn
  · linear_combination (1 - Real.cos θ) * hn

lemma skew_cube {n : V3} (hn : n.normSq = 1) : skew n * (skew n * skew n) = -skew n := by
  simp only [V3.normSq, V3.dot] at hn
  ext <;> simp [skew] <;> try ring1
  · linear_combination n.z * hn
  · linear_combination -n.y * hn
  · linear_combination -n.z * hn
  · linear_combination n.x * hn
  · linear_combination n.y * hn
  · linear_combination -n.x * hn

section
attribute [local instance] Matrix.linftyOpNormedRing Matrix.linftyOpNormedAlgebra

lemma exp_of_curve {A : Matrix (Fin 3) (Fin 3) ℝ} {F : ℝ → Matrix (Fin 3) (Fin 3) ℝ}
    (hF : ∀ t, HasDerivAt F (A * F t) t) (h0 : F 0 = 1) : F 1 = NormedSpace.exp A := by
  have hG : ∀ t, HasDerivAt (fun t : ℝ => NormedSpace.exp (t • (-A)) * F t) 0 t := by
    intro t
    have h1 := (hasDerivAt_exp_smul_const (𝕂 := ℝ) (-A) t).mul (hF t)
    have e : NormedSpace.exp (t • -A) * -A * F t + NormedSpace.exp (t • -A) * (A * F t) = 0 := by
      rw [Matrix.mul_neg, Matrix.neg_mul, Matrix.mul_assoc]; exact neg_add_cancel _
    exact h1.congr_deriv e
  have hc := is_const_of_deriv_eq_zero (fun t => (hG t).differentiableAt) (fun t => (hG t).deriv) 1 0
  simp only [one_smul, zero_smul, NormedSpace.exp_zero, h0, mul_one] at hc
  have h2 : NormedSpace.exp A * NormedSpace.exp (-A) = 1 := by
    rw [← Matrix.exp_add_of_commute _ _ (Commute.neg_right (Commute.refl A)), add_neg_cancel, NormedSpace.exp_zero]
  calc F 1 = (NormedSpace.exp A * NormedSpace.exp (-A)) * F 1 := by rw [h2, one_mul]
    _ = NormedSpace.exp A * (NormedSpace.exp (-A) * F 1) := mul_assoc _ _ _
    _ = NormedSpace.exp A := by rw [hc, mul_one]

/-- The rotation by `θ` about the unit axis `n` is the matrix exponential of `θ [n]×`. -/
lemma toMat_rodMat (θ : ℝ) {n : V3} (hn : n.normSq = 1) :
    toMat (rodMat θ n) = NormedSpace.exp (crossMatrix (θ • n)) := by
  set K := crossMatrix n with hK
  have hK3 : K * (K * K) = -K := by
    have := congrArg toMat (skew_cube hn)
    rw [toMat_mul, toMat_mul, toMat_skew] at this
    rw [this]
    ext i j; fin_cases i <;> fin_cases j <;> simp [toMat, skew, hK, crossMatrix]
  have hA : crossMatrix (θ • n) = θ • K := by
    ext i j; fin_cases i <;> fin_cases j <;> simp [hK, crossMatrix]
  have hR : ∀ t : ℝ, toMat (rodMat (t * θ) n) = 1 + Real.sin (t * θ) • K + (1 - Real.cos (t * θ)) • (K * K) := by
    intro t
    rw [rodMat_eq _ hn, toMat_add, toMat_add, toMat_one, toMat_smul, toMat_smul, toMat_mul, toMat_skew]
  have := exp_of_curve (A := crossMatrix (θ • n)) (F := fun t => toMat (rodMat (t * θ) n)) (fun t => ?_) ?_
  · simpa using this
  · simp only [hR]
    have hlin : HasDerivAt (fun t : ℝ => t * θ) θ t := by simpa using (hasDerivAt_id t).mul_const θ
    have h1 : HasDerivAt (fun t : ℝ => Real.sin (t * θ) • K) ((Real.cos (t * θ) * θ) • K) t :=
      (hlin.sin).smul_const K
    have h2 : HasDerivAt (fun t : ℝ => (1 - Real.cos (t * θ)) • (K * K)) ((Real.sin (t * θ) * θ) • (K * K)) t := by
      exact (((hlin.cos).const_sub 1).smul_const (K * K)).congr_deriv (by rw [neg_mul, neg_neg])
    have h3 := ((hasDerivAt_const t (1 : Matrix (Fin 3) (Fin 3) ℝ)).add h1).add h2
    refine h3.congr_deriv ?_
    rw [hA, Matrix.mul_add, Matrix.mul_add, Matrix.mul_one, Matrix.mul_smul, Matrix.mul_smul, Matrix.smul_mul,
      Matrix.smul_mul, hK3]
    module
  · simp [rodMat_zero, toMat_one]
end

lemma toMat_rv (v : V3) : toMat (dmat .rv (⟨v⟩ : RotVec)) = NormedSpace.exp (crossMatrix v) := by
  by_cases h : v = 0
  · subst h
    have : crossMatrix 0 = 0 := by ext i j; fin_cases i <;> fin_cases j <;> simp [crossMatrix]
    rw [dmat_rv_zero, toMat_one, this, NormedSpace.exp_zero]
  · have hn := (V3.norm_pos h).ne'
    rw [dmat_rv_ne h, toMat_rodMat _ (unit_dir hn), smul_smul, mul_one_div, div_self hn, one_smul]

end Kindr
