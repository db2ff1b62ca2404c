import Mathlib.LinearAlgebra.Matrix.NonsingularInverse
import Verif.Model.Math
import Verif.Lemmas.LinAlg

/-!
# C04: skew matrices; C44: pseudo-inverse
-/

set_option autoImplicit false

open Classical

noncomputable section
namespace Kindr

/-- **C04.** The skew matrix is the matrix of the cross product, is antisymmetric and linear; `vee` is its left inverse; the
round trip on a matrix is the identity exactly on the antisymmetric matrices. -/
theorem C04_skew (v u w : V3) (s : ℝ) (m : M3) :
    (skew v).mulVec u = v.cross u ∧ (skew v).transpose = -skew v ∧
    skew (v + w) = skew v + skew w ∧ skew (s • v) = s • skew v ∧
    vee (skew v) = v ∧ (skew (vee m) = m ↔ m.transpose = -m) ∧ (skew v = skew w ↔ v = w) := by
  have inj : ∀ v, vee (skew v) = v := fun v => by ext <;> simp [vee, skew]
  refine ⟨?_, ?_, ?_, ?_, inj v, ?_, fun h => by rw [← inj v, h, inj], fun h => by rw [h]⟩
  · ext <;> simp [skew, V3.cross] <;> ring
  · ext <;> simp [skew]
  · ext <;> simp [skew] <;> ring
  · ext <;> simp [skew]
  · constructor
    · intro h; rw [← h]; ext <;> simp [skew, vee]
    · intro h
      have h00 := congrArg M3.m00 h
      have h01 := congrArg M3.m01 h
      have h02 := congrArg M3.m02 h
      have h11 := congrArg M3.m11 h
      have h12 := congrArg M3.m12 h
      have h22 := congrArg M3.m22 h
      simp at h00 h01 h02 h11 h12 h22
      ext <;> simp [skew, vee] <;> linarith

/-- non-vacuity of the equivalence in C04: a matrix that is *not* recovered. -/
example : skew (vee 1) ≠ 1 := by
  intro h; have := congrArg M3.m00 h; simp [skew] at this

/-! ## C44 -/

/-- The four Penrose equations: `X` is the Moore-Penrose inverse of `A`. -/
def IsPenrose {r c : ℕ} (A : Matrix (Fin r) (Fin c) ℝ) (X : Matrix (Fin c) (Fin r) ℝ) : Prop :=
  A * X * A = A ∧ X * A * X = X ∧ (A * X).transpose = A * X ∧ (X * A).transpose = X * A

/-- The Moore-Penrose inverse is unique, so the equations determine the result of `pseudoInverse`. -/
theorem C44_penrose_unique {r c : ℕ} {A : Matrix (Fin r) (Fin c) ℝ} {X Y : Matrix (Fin c) (Fin r) ℝ}
    (hx : IsPenrose A X) (hy : IsPenrose A Y) : X = Y := by
  obtain ⟨x1, x2, x3, x4⟩ := hx
  obtain ⟨y1, y2, y3, y4⟩ := hy
  have e1 : A * X = A * Y := by
    have h1 : A * X = (A * Y) * (A * X) := by rw [← Matrix.mul_assoc, y1]
    have h2 : A * Y = (A * X) * (A * Y) := by rw [← Matrix.mul_assoc, x1]
    rw [h1, ← x3, ← y3, ← Matrix.transpose_mul, ← h2]
  have e2 : X * A = Y * A := by
    have h1 : X * A = (X * A) * (Y * A) := by rw [Matrix.mul_assoc X, ← Matrix.mul_assoc A, y1]
    have h2 : Y * A = (Y * A) * (X * A) := by rw [Matrix.mul_assoc Y, ← Matrix.mul_assoc A, x1]
    rw [h1, ← x4, ← y4, ← Matrix.transpose_mul, ← h2]
  calc X = X * A * X := x2.symm
    _ = Y * A * X := by rw [e2]
    _ = Y * (A * X) := Matrix.mul_assoc ..
    _ = Y * (A * Y) := by rw [e1]
    _ = Y * A * Y := (Matrix.mul_assoc ..).symm
    _ = Y := y2

/-- `svd` is a singular value decomposition of `A`: orthonormal columns, non-negative values, `A = U diag(s) Vᵀ`. -/
structure IsSvd {r c d : ℕ} (A : Matrix (Fin r) (Fin c) ℝ) (svd : Svd r c d) : Prop where
  orthU : svd.U.transpose * svd.U = 1
  orthV : svd.V.transpose * svd.V = 1
  nonneg : ∀ i, 0 ≤ svd.s i
  eq : A = svd.U * Matrix.diagonal svd.s * svd.V.transpose

/-- `A` with the singular values not exceeding `t` removed. -/
def truncated {r c d : ℕ} (svd : Svd r c d) (t : ℝ) : Matrix (Fin r) (Fin c) ℝ :=
  svd.U * Matrix.diagonal (fun i => if t < svd.s i then svd.s i else 0) * svd.V.transpose

/-- Algebra of products `U D Vᵀ · V E Uᵀ`. -/
lemma sandwich_mul {r c r' d : ℕ} (U : Matrix (Fin r) (Fin d) ℝ) (V : Matrix (Fin c) (Fin d) ℝ)
    (W : Matrix (Fin r') (Fin d) ℝ) (hV : V.transpose * V = 1) (a b : Fin d → ℝ) :
    (U * Matrix.diagonal a * V.transpose) * (V * Matrix.diagonal b * W.transpose) =
      U * Matrix.diagonal (fun i => a i * b i) * W.transpose := by
  rw [← Matrix.diagonal_mul_diagonal]
  simp only [Matrix.mul_assoc]
  rw [← Matrix.mul_assoc V.transpose, hV, Matrix.one_mul]

lemma sandwich_transpose {r d : ℕ} (U : Matrix (Fin r) (Fin d) ℝ) (a : Fin d → ℝ) :
    (U * Matrix.diagonal a * U.transpose).transpose = U * Matrix.diagonal a * U.transpose := by
  rw [Matrix.transpose_mul, Matrix.transpose_mul, Matrix.transpose_transpose, Matrix.diagonal_transpose,
    Matrix.mul_assoc]

/-- **C44 (general).** For every matrix of every size and every SVD of it, `pseudoInverse` is the Moore-Penrose inverse of the
matrix with the sub-tolerance singular values removed. -/
theorem C44_pseudoInverse_truncated {r c d : ℕ} (epsilon : ℝ) (he : 0 ≤ epsilon) (A : Matrix (Fin r) (Fin c) ℝ)
    (svd : Svd r c d) (h : IsSvd A svd) :
    IsPenrose (truncated svd (pinvTol epsilon svd)) (pseudoInverse epsilon svd) := by
  have ht : 0 ≤ pinvTol epsilon svd := by
    unfold pinvTol
    exact mul_nonneg (mul_nonneg he (Nat.cast_nonneg _)) (Real.iSup_nonneg fun i => abs_nonneg _)
  have e1 : truncated svd (pinvTol epsilon svd) * pseudoInverse epsilon svd =
      svd.U * Matrix.diagonal (fun i => if pinvTol epsilon svd < svd.s i then (1 : ℝ) else 0) * svd.U.transpose := by
    rw [truncated, pseudoInverse, sandwich_mul _ _ _ h.orthV]
    congr 3; funext i
    rw [abs_of_nonneg (h.nonneg i)]
    split_ifs with hi
    · exact mul_inv_cancel₀ (by linarith : svd.s i ≠ 0)
    · simp
  have e2 : pseudoInverse epsilon svd * truncated svd (pinvTol epsilon svd) =
      svd.V * Matrix.diagonal (fun i => if pinvTol epsilon svd < svd.s i then (1 : ℝ) else 0) * svd.V.transpose := by
    rw [truncated, pseudoInverse, sandwich_mul _ _ _ h.orthU]
    congr 3; funext i
    rw [abs_of_nonneg (h.nonneg i)]
    split_ifs with hi
    · exact inv_mul_cancel₀ (by linarith : svd.s i ≠ 0)
    · simp
  refine ⟨?_, ?_, ?_, ?_⟩
  · rw [e1, truncated, sandwich_mul _ _ _ h.orthU]
    congr 3; funext i; split_ifs <;> simp
  · rw [e2, pseudoInverse, sandwich_mul _ _ _ h.orthV]
    congr 3; funext i
    rw [abs_of_nonneg (h.nonneg i)]
    split_ifs <;> simp
  · rw [e1, sandwich_transpose]
  · rw [e2, sandwich_transpose]

/-- **C44.** If every nonzero singular value exceeds the tolerance, the result is *the* Moore-Penrose inverse of `A` (and hence
does not depend on which SVD Eigen computes). -/
theorem C44_pseudoInverse {r c d : ℕ} (epsilon : ℝ) (he : 0 ≤ epsilon) (A : Matrix (Fin r) (Fin c) ℝ)
    (svd : Svd r c d) (h : IsSvd A svd) (hs : ∀ i, svd.s i ≠ 0 → pinvTol epsilon svd < svd.s i) :
    IsPenrose A (pseudoInverse epsilon svd) ∧ ∀ X, IsPenrose A X → X = pseudoInverse epsilon svd := by
  have ht : truncated svd (pinvTol epsilon svd) = A := by
    rw [h.eq, truncated]
    congr 3; funext i
    by_cases h0 : svd.s i = 0
    · simp [h0]
    · rw [if_pos (hs i h0)]
  have := C44_pseudoInverse_truncated epsilon he A svd h
  rw [ht] at this
  exact ⟨this, fun X hX => C44_penrose_unique hX this⟩

/-- **C44, invertible matrices.** For an invertible square matrix with all singular values above the tolerance the result is
the inverse. -/
theorem C44_inverse {n d : ℕ} (epsilon : ℝ) (he : 0 ≤ epsilon) (A : Matrix (Fin n) (Fin n) ℝ)
    (svd : Svd n n d) (h : IsSvd A svd) (hs : ∀ i, svd.s i ≠ 0 → pinvTol epsilon svd < svd.s i)
    (hA : IsUnit A.det) : pseudoInverse epsilon svd * A = 1 ∧ A * pseudoInverse epsilon svd = 1 := by
  have hp : IsPenrose A A⁻¹ := by
    have h1 := Matrix.mul_nonsing_inv A hA
    have h2 := Matrix.nonsing_inv_mul A hA
    refine ⟨by rw [h1, Matrix.one_mul], by rw [h2, Matrix.one_mul], by rw [h1, Matrix.transpose_one],
      by rw [h2, Matrix.transpose_one]⟩
  rw [← (C44_pseudoInverse epsilon he A svd h hs).2 _ hp]
  exact ⟨Matrix.nonsing_inv_mul A hA, Matrix.mul_nonsing_inv A hA⟩

/-- non-vacuity of C44: a rank-deficient 2x2 matrix, with `epsilon = 1/1000`. -/
example : ∃ svd : Svd 2 2 2, IsSvd !![(5 : ℝ), 0; 0, 0] svd ∧
    ∀ i, svd.s i ≠ 0 → pinvTol (1 / 1000) svd < svd.s i := by
  refine ⟨⟨1, 1, ![5, 0]⟩, ⟨by simp, by simp, fun i => by fin_cases i <;> norm_num, ?_⟩, fun i hi => ?_⟩
  · ext i j; fin_cases i <;> fin_cases j <;> simp
  · have h5 : ⨆ i, |(![5, 0] : Fin 2 → ℝ) i| ≤ 5 := ciSup_le fun i => by fin_cases i <;> simp
    fin_cases i
    · simp only [pinvTol]
      norm_num at h5 ⊢
      linarith
    · simp at hi

end Kindr
