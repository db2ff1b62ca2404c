import Verif.Lemmas.Metric

/-!
# Norm inequalities for 3-vectors, error of an almost-unit quaternion
-/

set_option autoImplicit false

open Classical

noncomputable section
namespace Kindr
open Spec

lemma V3.lagrange (a b : V3) : (a.cross b).normSq + a.dot b ^ 2 = a.normSq * b.normSq := by
  simp only [V3.normSq, V3.dot, V3.cross]; ring

lemma V3.dot_abs_le (a b : V3) : |a.dot b| ≤ a.norm * b.norm := by
  apply abs_le_of_sq_le_sq _ (mul_nonneg a.norm_nonneg b.norm_nonneg)
  rw [mul_pow, V3.norm_sq, V3.norm_sq, ← V3.lagrange]
  linarith [V3.normSq_nonneg (a.cross b)]

lemma V3.norm_cross_le (a b : V3) : (a.cross b).norm ≤ a.norm * b.norm := by
  apply le_of_sq_le_sq _ (mul_nonneg a.norm_nonneg b.norm_nonneg)
  rw [mul_pow, V3.norm_sq, V3.norm_sq, V3.norm_sq, ← V3.lagrange]
  linarith [sq_nonneg (a.dot b)]

lemma V3.normSq_add (a b : V3) : (a + b).normSq = a.normSq + 2 * a.dot b + b.normSq := by
  simp only [V3.normSq, V3.dot, V3.add_x, V3.add_y, V3.add_z]; ring

lemma V3.norm_add_le (a b : V3) : (a + b).norm ≤ a.norm + b.norm := by
  apply le_of_sq_le_sq _ (add_nonneg a.norm_nonneg b.norm_nonneg)
  rw [V3.norm_sq, V3.normSq_add, ← V3.norm_sq, ← V3.norm_sq]
  have := (le_abs_self _).trans (V3.dot_abs_le a b)
  nlinarith

lemma V3.norm_sub_le (a b : V3) : (a - b).norm ≤ a.norm + b.norm := by
  rw [sub_eq_add_neg]; have := V3.norm_add_le a (-b); rwa [V3.norm_neg] at this

lemma V3.norm_sub_comm (a b : V3) : (a - b).norm = (b - a).norm := by
  rw [← neg_sub, V3.norm_neg]

/-- Difference of the sandwich actions of two quaternions that agree in the real part and have parallel imaginary parts. -/
lemma sandwich_diff {n : V3} (hn : n.normSq = 1) {c s s0 : ℝ} (hc : |c| ≤ 1) (h1 : |s| ≤ 1) (h2 : |s0| ≤ 1) (v : V3) :
    (sandwich ⟨c, s * n.x, s * n.y, s * n.z⟩ v - sandwich ⟨c, s0 * n.x, s0 * n.y, s0 * n.z⟩ v).norm
      ≤ 8 * |s - s0| * v.norm := by
  have hn1 : n.norm = 1 := V3.norm_eq_one_iff.mpr hn
  have e : sandwich ⟨c, s * n.x, s * n.y, s * n.z⟩ v - sandwich ⟨c, s0 * n.x, s0 * n.y, s0 * n.z⟩ v =
      (-((s - s0) * (s + s0))) • v + (2 * c * (s - s0)) • n.cross v + (2 * ((s - s0) * (s + s0)) * n.dot v) • n := by
    rw [sandwich_eq, sandwich_eq]
    simp only [V3.normSq, V3.dot] at hn
    ext <;> simp [sMat, V3.cross, V3.dot]
    · linear_combination (-(s - s0) * (s + s0) * v.x) * hn
    · linear_combination (-(s - s0) * (s + s0) * v.y) * hn
    · linear_combination (-(s - s0) * (s + s0) * v.z) * hn
  rw [e]
  have hd : |(s - s0) * (s + s0)| ≤ 2 * |s - s0| := by
    rw [abs_mul]; have := abs_add_le s s0; nlinarith [abs_nonneg (s - s0)]
  have hv := v.norm_nonneg
  have a1 : ((-((s - s0) * (s + s0))) • v).norm ≤ 2 * |s - s0| * v.norm := by
    rw [V3.norm_smul, abs_neg]; exact mul_le_mul_of_nonneg_right hd hv
  have a2 : ((2 * c * (s - s0)) • n.cross v).norm ≤ 2 * |s - s0| * v.norm := by
    rw [V3.norm_smul]
    have h3 := V3.norm_cross_le n v
    rw [hn1, one_mul] at h3
    have h4 : |2 * c * (s - s0)| ≤ 2 * |s - s0| := by
      rw [abs_mul, abs_mul, abs_two]; nlinarith [abs_nonneg (s - s0)]
    exact mul_le_mul h4 h3 (V3.norm_nonneg _) (by positivity)
  have a3 : ((2 * ((s - s0) * (s + s0)) * n.dot v) • n).norm ≤ 4 * |s - s0| * v.norm := by
    rw [V3.norm_smul, hn1, mul_one, abs_mul, abs_mul, abs_two]
    have h3 := V3.dot_abs_le n v
    rw [hn1, one_mul] at h3
    exact mul_le_mul (by linarith) h3 (abs_nonneg _) (by positivity)
  have := V3.norm_add_le ((-((s - s0) * (s + s0))) • v + (2 * c * (s - s0)) • n.cross v)
    ((2 * ((s - s0) * (s + s0)) * n.dot v) • n)
  have := V3.norm_add_le ((-((s - s0) * (s + s0))) • v) ((2 * c * (s - s0)) • n.cross v)
  linarith

/-- The same for the matrix Eigen computes from the quaternion (which differs from the sandwich if it is not unit). -/
lemma toRotationMatrix_diff {n : V3} (hn : n.normSq = 1) {c s s0 : ℝ} (hc : |c| ≤ 1) (h1 : |s| ≤ 1) (h2 : |s0| ≤ 1)
    (v : V3) :
    ((Quat.toRotationMatrix ⟨c, s * n.x, s * n.y, s * n.z⟩).mulVec v -
      (Quat.toRotationMatrix ⟨c, s0 * n.x, s0 * n.y, s0 * n.z⟩).mulVec v).norm ≤ 6 * |s - s0| * v.norm := by
  have hn1 : n.norm = 1 := V3.norm_eq_one_iff.mpr hn
  have e : (Quat.toRotationMatrix ⟨c, s * n.x, s * n.y, s * n.z⟩).mulVec v -
      (Quat.toRotationMatrix ⟨c, s0 * n.x, s0 * n.y, s0 * n.z⟩).mulVec v =
      (2 * c * (s - s0)) • n.cross v + (2 * ((s - s0) * (s + s0))) • n.cross (n.cross v) := by
    ext <;> simp [Quat.toRotationMatrix, V3.cross] <;> ring
  rw [e]
  have hd : |(s - s0) * (s + s0)| ≤ 2 * |s - s0| := by
    rw [abs_mul]; have := abs_add_le s s0; nlinarith [abs_nonneg (s - s0)]
  have hv := v.norm_nonneg
  have h3 := V3.norm_cross_le n v
  rw [hn1, one_mul] at h3
  have h5 := V3.norm_cross_le n (n.cross v)
  rw [hn1, one_mul] at h5
  have a2 : ((2 * c * (s - s0)) • n.cross v).norm ≤ 2 * |s - s0| * v.norm := by
    rw [V3.norm_smul]
    have h4 : |2 * c * (s - s0)| ≤ 2 * |s - s0| := by
      rw [abs_mul, abs_mul, abs_two]; nlinarith [abs_nonneg (s - s0)]
    exact mul_le_mul h4 h3 (V3.norm_nonneg _) (by positivity)
  have a3 : ((2 * ((s - s0) * (s + s0))) • n.cross (n.cross v)).norm ≤ 4 * |s - s0| * v.norm := by
    rw [V3.norm_smul, abs_mul, abs_two]
    exact mul_le_mul (by linarith) (h5.trans h3) (V3.norm_nonneg _) (by positivity)
  have := V3.norm_add_le ((2 * c * (s - s0)) • n.cross v) ((2 * ((s - s0) * (s + s0))) • n.cross (n.cross v))
  linarith

end Kindr
