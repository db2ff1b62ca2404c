import Verif.Lemmas.SO3

/-!
# Matrix → quaternion (Shoemake's algorithm as used by Eigen) is exact on SO(3)
-/

set_option autoImplicit false

open Classical

noncomputable section
namespace Kindr
open Spec

lemma sqrt_pos_sq {t : ℝ} (h : 0 < t) : 0 < Real.sqrt t ∧ Real.sqrt t * Real.sqrt t = t :=
  ⟨Real.sqrt_pos.mpr h, Real.mul_self_sqrt h.le⟩

/-- If the ten products of the coefficients have the right values, the quaternion is a unit quaternion of `m`. -/
lemma ofProducts {q : Quat} {m : M3}
    (ww : q.w * q.w = (1 + m.m00 + m.m11 + m.m22) / 4) (xx : q.x * q.x = (1 + m.m00 - m.m11 - m.m22) / 4)
    (yy : q.y * q.y = (1 - m.m00 + m.m11 - m.m22) / 4) (zz : q.z * q.z = (1 - m.m00 - m.m11 + m.m22) / 4)
    (wx : q.w * q.x = (m.m21 - m.m12) / 4) (wy : q.w * q.y = (m.m02 - m.m20) / 4)
    (wz : q.w * q.z = (m.m10 - m.m01) / 4) (xy : q.x * q.y = (m.m01 + m.m10) / 4)
    (xz : q.x * q.z = (m.m02 + m.m20) / 4) (yz : q.y * q.z = (m.m12 + m.m21) / 4) :
    q.normSq = 1 ∧ sMat q = m := by
  constructor
  · simp only [Quat.normSq]; linarith
  · ext <;> simp only [sMat] <;> linarith

lemma prod1 {s a : ℝ} (hs : s ≠ 0) : s / 2 * (a * (1 / 2 / s)) = a / 4 := by field_simp; ring
lemma prod2 {s a b d : ℝ} (hs : s ≠ 0) (h : a * b = s * s * d) :
    a * (1 / 2 / s) * (b * (1 / 2 / s)) = d / 4 := by
  have : a * (1 / 2 / s) * (b * (1 / 2 / s)) = a * b / (4 * (s * s)) := by field_simp; ring
  rw [this, h]; field_simp

lemma ofMatrix_spec {m : M3} (h : IsSO3 m) :
    (Quat.ofMatrix m).normSq = 1 ∧ sMat (Quat.ofMatrix m) = m := by
  have R := SO3.rel h
  obtain ⟨r00, r11, r22, r01, r02, r12, c00, c11, c22, c01, c02, c12, k00, k10, k20, k01, k11, k21, k02, k12, k22⟩ := R
  obtain ⟨m00, m01, m02, m10, m11, m12, m20, m21, m22⟩ := m
  simp only [] at *
  clear h
  -- 2x2 minors of the symmetric rank-one matrix 4 q qᵀ
  have aa : (m21 - m12) * (m21 - m12) = (1 + m00 + m11 + m22) * (1 + m00 - m11 - m22) := by
    linear_combination r11 + r22 - c00 - 2 * k00 * (-1)
  have bb : (m02 - m20) * (m02 - m20) = (1 + m00 + m11 + m22) * (1 - m00 + m11 - m22) := by
    linear_combination r22 + r00 - c11 - 2 * k11 * (-1)
  have cc : (m10 - m01) * (m10 - m01) = (1 + m00 + m11 + m22) * (1 - m00 - m11 + m22) := by
    linear_combination r00 + r11 - c22 - 2 * k22 * (-1)
  have ab : (m21 - m12) * (m02 - m20) = (1 + m00 + m11 + m22) * (m01 + m10) := by
    linear_combination k10 + k01 - c01 - r01
  have ac : (m21 - m12) * (m10 - m01) = (1 + m00 + m11 + m22) * (m02 + m20) := by
    linear_combination k02 + k20 - c02 - r02
  have bc : (m02 - m20) * (m10 - m01) = (1 + m00 + m11 + m22) * (m12 + m21) := by
    linear_combination k21 + k12 - c12 - r12
  have dd : (m01 + m10) * (m01 + m10) = (1 + m00 - m11 - m22) * (1 - m00 + m11 - m22) := by
    linear_combination r00 + r11 - c22 - 2 * k22
  have ee : (m02 + m20) * (m02 + m20) = (1 + m00 - m11 - m22) * (1 - m00 - m11 + m22) := by
    linear_combination r22 + r00 - c11 - 2 * k11
  have ff : (m12 + m21) * (m12 + m21) = (1 - m00 + m11 - m22) * (1 - m00 - m11 + m22) := by
    linear_combination r11 + r22 - c00 - 2 * k00
  have ad : (m21 - m12) * (m01 + m10) = (1 + m00 - m11 - m22) * (m02 - m20) := by
    linear_combination k02 - k20 + r02 - c02
  have ae : (m21 - m12) * (m02 + m20) = (1 + m00 - m11 - m22) * (m10 - m01) := by
    linear_combination k10 - k01 + c01 - r01
  have de : (m01 + m10) * (m02 + m20) = (1 + m00 - m11 - m22) * (m12 + m21) := by
    linear_combination k21 + k12 + c12 + r12
  have bd : (m02 - m20) * (m01 + m10) = (1 - m00 + m11 - m22) * (m21 - m12) := by
    linear_combination k21 - k12 - r12 + c12
  have bf : (m02 - m20) * (m12 + m21) = (1 - m00 + m11 - m22) * (m10 - m01) := by
    linear_combination k10 - k01 - c01 + r01
  have df : (m01 + m10) * (m12 + m21) = (1 - m00 + m11 - m22) * (m02 + m20) := by
    linear_combination k20 + k02 + c02 + r02
  have ce : (m10 - m01) * (m02 + m20) = (1 - m00 - m11 + m22) * (m21 - m12) := by
    linear_combination k21 - k12 + r12 - c12
  have cf : (m10 - m01) * (m12 + m21) = (1 - m00 - m11 + m22) * (m02 - m20) := by
    linear_combination k02 - k20 - r02 + c02
  have ef : (m02 + m20) * (m12 + m21) = (1 - m00 - m11 + m22) * (m01 + m10) := by
    linear_combination k01 + k10 + c01 + r01
  clear r00 r11 r22 r01 r02 r12 c00 c11 c22 c01 c02 c12 k00 k10 k20 k01 k11 k21 k02 k12 k22
  simp only [Quat.ofMatrix, M3.trace]
  split_ifs with h0 h1 h2 h2
  · obtain ⟨hs, s2⟩ := sqrt_pos_sq (t := m00 + m11 + m22 + 1) (by linarith)
    generalize Real.sqrt (m00 + m11 + m22 + 1) = s at *
    have hp : 1 + m00 + m11 + m22 = s * s := by linarith
    rw [hp] at aa bb cc ab ac bc
    apply ofProducts <;> simp only []
    · linarith
    · exact prod2 hs.ne' (by linarith [aa])
    · exact prod2 hs.ne' (by linarith [bb])
    · exact prod2 hs.ne' (by linarith [cc])
    · rw [prod1 hs.ne']; try ring
    · rw [prod1 hs.ne']; try ring
    · rw [prod1 hs.ne']; try ring
    · exact prod2 hs.ne' (by linarith [ab])
    · exact prod2 hs.ne' (by linarith [ac])
    · exact prod2 hs.ne' (by linarith [bc])
  · obtain ⟨hs, s2⟩ := sqrt_pos_sq (t := m22 - m00 - m11 + 1) (by linarith)
    generalize Real.sqrt (m22 - m00 - m11 + 1) = s at *
    have hp : 1 - m00 - m11 + m22 = s * s := by linarith
    rw [hp] at cc ee ff ce cf ef
    apply ofProducts <;> simp only []
    · exact prod2 hs.ne' (by linarith [cc])
    · exact prod2 hs.ne' (by linarith [ee])
    · exact prod2 hs.ne' (by linarith [ff])
    · linarith
    · exact prod2 hs.ne' (by linarith [ce])
    · exact prod2 hs.ne' (by linarith [cf])
    · rw [mul_comm, prod1 hs.ne']; try ring
    · exact prod2 hs.ne' (by linarith [ef])
    · rw [mul_comm, prod1 hs.ne']; try ring
    · rw [mul_comm, prod1 hs.ne']; try ring
  · obtain ⟨hs, s2⟩ := sqrt_pos_sq (t := m11 - m22 - m00 + 1) (by linarith)
    generalize Real.sqrt (m11 - m22 - m00 + 1) = s at *
    have hp : 1 - m00 + m11 - m22 = s * s := by linarith
    rw [hp] at bb dd ff bd bf df
    apply ofProducts <;> simp only []
    · exact prod2 hs.ne' (by linarith [bb])
    · exact prod2 hs.ne' (by linarith [dd])
    · linarith
    · exact prod2 hs.ne' (by linarith [ff])
    · exact prod2 hs.ne' (by linarith [bd])
    · rw [mul_comm, prod1 hs.ne']; try ring
    · exact prod2 hs.ne' (by linarith [bf])
    · rw [mul_comm, prod1 hs.ne']; try ring
    · exact prod2 hs.ne' (by linarith [df])
    · rw [prod1 hs.ne']; try ring
  · obtain ⟨hs, s2⟩ := sqrt_pos_sq (t := m22 - m00 - m11 + 1) (by linarith)
    generalize Real.sqrt (m22 - m00 - m11 + 1) = s at *
    have hp : 1 - m00 - m11 + m22 = s * s := by linarith
    rw [hp] at cc ee ff ce cf ef
    apply ofProducts <;> simp only []
    · exact prod2 hs.ne' (by linarith [cc])
    · exact prod2 hs.ne' (by linarith [ee])
    · exact prod2 hs.ne' (by linarith [ff])
    · linarith
    · exact prod2 hs.ne' (by linarith [ce])
    · exact prod2 hs.ne' (by linarith [cf])
    · rw [mul_comm, prod1 hs.ne']; try ring
    · exact prod2 hs.ne' (by linarith [ef])
    · rw [mul_comm, prod1 hs.ne']; try ring
    · rw [mul_comm, prod1 hs.ne']; try ring
  · obtain ⟨hs, s2⟩ := sqrt_pos_sq (t := m00 - m11 - m22 + 1) (by linarith)
    generalize Real.sqrt (m00 - m11 - m22 + 1) = s at *
    have hp : 1 + m00 - m11 - m22 = s * s := by linarith
    rw [hp] at aa dd ee ad ae de
    apply ofProducts <;> simp only []
    · exact prod2 hs.ne' (by linarith [aa])
    · linarith
    · exact prod2 hs.ne' (by linarith [dd])
    · exact prod2 hs.ne' (by linarith [ee])
    · rw [mul_comm, prod1 hs.ne']; try ring
    · exact prod2 hs.ne' (by linarith [ad])
    · exact prod2 hs.ne' (by linarith [ae])
    · rw [prod1 hs.ne']; try ring
    · rw [prod1 hs.ne']; try ring
    · exact prod2 hs.ne' (by linarith [de])
end Kindr
