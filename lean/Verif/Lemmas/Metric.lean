import Mathlib.Geometry.Euclidean.Triangle
import Mathlib.Geometry.Euclidean.Angle.Unoriented.TriangleInequality
import Verif.Props.Quaternion
import Verif.Props.Unique

/-!
# The rotation-angle metric on SO(3)
-/

set_option autoImplicit false

open Classical

noncomputable section
namespace Kindr
open Spec

/-- Every rotation matrix is a Rodrigues matrix with its rotation angle. -/
lemma exists_rodMat {m : M3} (h : IsSO3 m) :
    ∃ θ n, V3.normSq n = 1 ∧ 0 ≤ θ ∧ θ ≤ Real.pi ∧ m = rodMat θ n := by
  obtain ⟨h1, h2⟩ := ofMatrix_spec h
  obtain ⟨a1, a2, a3, -⟩ := ofQuat_spec h1
  exact ⟨_, _, a1, a2, a3, by rw [rodMat_ofQuat h1, h2]⟩

lemma cos_rotAngle {m : M3} (h : IsSO3 m) : Real.cos (rotAngle m) = (m.trace - 1) / 2 := by
  obtain ⟨θ, n, hn, h0, h1, rfl⟩ := exists_rodMat h
  rw [rotAngle_rodMat hn h0 h1, trace_rodMat θ hn]; ring

lemma trace_eq {m : M3} (h : IsSO3 m) : m.trace = 1 + 2 * Real.cos (rotAngle m) := by
  rw [cos_rotAngle h]; ring

lemma rotAngle_nonneg (m : M3) : 0 ≤ rotAngle m := Real.arccos_nonneg _
lemma rotAngle_le_pi (m : M3) : rotAngle m ≤ Real.pi := Real.arccos_le_pi _
lemma rotAngle_transpose (m : M3) : rotAngle m.transpose = rotAngle m := by
  rw [rotAngle, M3.trace_transpose, rotAngle]
lemma rotAngle_conj {r : M3} (h : IsSO3 r) (m : M3) : rotAngle (r * m * r.transpose) = rotAngle m := by
  rw [rotAngle, M3.trace_mul_comm, ← mul_assoc, SO3.tr_mul h, one_mul, rotAngle]

lemma rotAngle_eq_zero {m : M3} (h : IsSO3 m) : rotAngle m = 0 ↔ m = 1 := by
  constructor
  · intro h0
    obtain ⟨θ, n, hn, t0, t1, rfl⟩ := exists_rodMat h
    rw [rotAngle_rodMat hn t0 t1] at h0
    rw [h0, rodMat_zero]
  · rintro rfl; exact rotAngle_one

/-- Distance of two rotations in terms of unit quaternions: `cos(δ/2) = |⟨p,q⟩|`. -/
lemma rotAngle_quat {p q : Quat} (hp : p.normSq = 1) (hq : q.normSq = 1) :
    rotAngle (sMat p * (sMat q).transpose) =
      2 * Real.arccos |p.w * q.w + p.x * q.x + p.y * q.y + p.z * q.z| := by
  have hn : (p * q.conj).normSq = 1 := by rw [Quat.normSq_mul, Quat.normSq_conj, hp, hq, one_mul]
  have hw : (p * q.conj).w = p.w * q.w + p.x * q.x + p.y * q.y + p.z * q.z := by simp
  have htr := trace_sMat hn
  rw [← sMat_conj, ← sMat_mul, rotAngle]
  have hw1 : (p * q.conj).w ^ 2 ≤ 1 := by
    simp only [Quat.normSq] at hn
    nlinarith [sq_nonneg (p * q.conj).x, sq_nonneg (p * q.conj).y, sq_nonneg (p * q.conj).z]
  rw [← hw]
  set w := (p * q.conj).w
  have habs : |w| ≤ 1 := (sq_le_one_iff_abs_le_one w).mp hw1
  set α := Real.arccos |w| with hα
  have hcos : Real.cos α = |w| := Real.cos_arccos (by linarith [abs_nonneg w]) habs
  have hα0 : 0 ≤ α := Real.arccos_nonneg _
  have hα1 : α ≤ Real.pi / 2 := Real.arccos_le_pi_div_two.mpr (abs_nonneg w)
  have : ((sMat (p * q.conj)).trace - 1) / 2 = Real.cos (2 * α) := by
    rw [Real.cos_two_mul, hcos, sq_abs]; linarith
  rw [this, Real.arccos_cos (by linarith) (by linarith)]

lemma angle_toH {p q : Quat} (hp : p.normSq = 1) (hq : q.normSq = 1) :
    InnerProductGeometry.angle (toH p) (toH q) =
      Real.arccos (p.w * q.w + p.x * q.x + p.y * q.y + p.z * q.z) := by
  rw [InnerProductGeometry.angle, (normSq_eq_one_iff_norm p).mp hp, (normSq_eq_one_iff_norm q).mp hq,
    _root_.Quaternion.inner_def]
  congr 1
  simp

lemma exists_quat {m : M3} (h : IsSO3 m) : ∃ p : Quat, p.normSq = 1 ∧ sMat p = m := ⟨_, ofMatrix_spec h⟩

lemma exists_quat_pos {m : M3} (h : IsSO3 m) (p : Quat) : ∃ q : Quat, q.normSq = 1 ∧ sMat q = m ∧
    0 ≤ p.w * q.w + p.x * q.x + p.y * q.y + p.z * q.z := by
  obtain ⟨q, hq, hm⟩ := exists_quat h
  rcases le_total 0 (p.w * q.w + p.x * q.x + p.y * q.y + p.z * q.z) with h0 | h0
  · exact ⟨q, hq, hm, h0⟩
  · exact ⟨-q, by rw [Quat.normSq_neg, hq], by rw [sMat_neg, hm], by simp; linarith⟩

/-- Triangle inequality. -/
lemma rotAngle_triangle {a b c : M3} (ha : IsSO3 a) (hb : IsSO3 b) (hc : IsSO3 c) :
    rotAngle (a * c.transpose) ≤ rotAngle (a * b.transpose) + rotAngle (b * c.transpose) := by
  obtain ⟨p, hp, rfl⟩ := exists_quat ha
  obtain ⟨q, hq, rfl, h1⟩ := exists_quat_pos hb p
  obtain ⟨r, hr, rfl, h2⟩ := exists_quat_pos hc q
  rw [rotAngle_quat hp hr, rotAngle_quat hp hq, rotAngle_quat hq hr, abs_of_nonneg h1, abs_of_nonneg h2]
  have ht := InnerProductGeometry.angle_le_angle_add_angle (toH p) (toH q) (toH r)
  rw [angle_toH hp hq, angle_toH hq hr, angle_toH hp hr] at ht
  have := Real.arccos_le_arccos (le_abs_self (p.w * r.w + p.x * r.x + p.y * r.y + p.z * r.z))
  linarith

end Kindr
