import Verif.Props.FloatMat
import Verif.Props.MatlabRot

/-!
# Angle-axis pairs and rotation vectors of quaternions in floating point
-/

set_option autoImplicit false

open Classical

noncomputable section
namespace Kindr
open Spec

namespace FloatLib
variable (F : FloatLib)

/-- A vector divided by its rounded norm. -/
lemma div_norm_err {v : V3} (hv : v ≠ 0) {N : ℝ} (hN : |N - v.norm| ≤ 4.01 * F.u * v.norm) (σ : ℝ) (hσ : σ = 1 ∨ σ = -1) :
    ((⟨F.fl (v.x / (σ * N)), F.fl (v.y / (σ * N)), F.fl (v.z / (σ * N))⟩ : V3) - (1 / (σ * v.norm)) • v).norm ≤ 52 / 10 * F.u := by
  have hu := F.u_nonneg
  have hs := F.u_small
  have hp := V3.norm_pos hv
  set n := v.norm with hn
  obtain ⟨h1, h2⟩ := abs_le.mp hN
  have hup : F.u * n ≤ n / 10000000 := by nlinarith
  have hNp : 0 < N := by linarith
  have hr : |n / N - 1| ≤ 402 / 100 * F.u := by
    have e : n / N - 1 = (n - N) / N := by field_simp
    rw [e, abs_div, abs_of_pos hNp, div_le_iff₀ hNp, abs_sub_comm]
    nlinarith
  have hσ0 : σ ≠ 0 := by rcases hσ with rfl | rfl <;> norm_num
  have hσ1 : |σ| = 1 := by rcases hσ with rfl | rfl <;> norm_num
  have e0 : (⟨F.fl (v.x / (σ * N)), F.fl (v.y / (σ * N)), F.fl (v.z / (σ * N))⟩ : V3) = castV3 F.fl ((1 / (σ * N)) • v) := by
    ext <;> simp [castV3, div_eq_inv_mul]
  have e : castV3 F.fl ((1 / (σ * N)) • v) - (1 / (σ * n)) • v = (castV3 F.fl ((1 / (σ * N)) • v) - (1 / (σ * N)) • v) +
      (1 / (σ * N) - 1 / (σ * n)) • v := by ext <;> simp <;> ring
  rw [e0, e]
  refine (V3.norm_add_le _ _).trans ?_
  have k1 := castV3_err F.toFloatArith ((1 / (σ * N)) • v)
  rw [V3.norm_smul, ← hn, abs_div, abs_mul, hσ1, abs_one, one_mul, abs_of_pos hNp] at k1
  have k2 : (1 / N) * n ≤ 101 / 100 := by
    have := (abs_le.mp hr).2
    have e1 : 1 / N * n = n / N := by ring
    rw [e1]; linarith
  have k3 : ((1 / (σ * N) - 1 / (σ * n)) • v).norm ≤ 402 / 100 * F.u := by
    rw [V3.norm_smul, ← hn]
    have e1 : |1 / (σ * N) - 1 / (σ * n)| * n = |n / N - 1| := by
      have : 1 / (σ * N) - 1 / (σ * n) = (n / N - 1) / (σ * n) := by field_simp
      rw [this, abs_div, abs_mul, hσ1, one_mul, abs_of_pos hp]; field_simp
    rw [e1]; exact hr
  have k4 := mul_le_mul_of_nonneg_left k2 hu
  linarith

/-- Eigen's conversion of a quaternion to an angle and an axis with rounding. -/
lemma ofQuat_round {p u : Quat} (hu1 : u.normSq = 1) {c : ℝ} (hc : 0 < c) (hp : p = ⟨c * u.w, c * u.x, c * u.y, c * u.z⟩) :
    ∃ n : V3, n.normSq = 1 ∧ ((F.ofQuat p).axis - n).norm ≤ 52 / 10 * F.u ∧ Close (32 * F.u) (rodMat (F.ofQuat p).angle n) (sMat u) ∧
      |(F.ofQuat p).angle| ≤ 7 := by
  have hu := F.u_nonneg
  have hs := F.u_small
  have hE : AngAx.ofQuat p = AngAx.ofQuat u := by rw [hp, ofQuat_scale hc]
  have h1 := (ofQuat_spec hu1).1
  have h2 := rodMat_ofQuat hu1
  rw [← hE] at h1 h2
  refine ⟨(AngAx.ofQuat p).axis, h1, ?_⟩
  by_cases hv : p.vec = 0
  · have a1 : F.ofQuat p = ⟨0, ⟨1, 0, 0⟩⟩ := by
      have : F.norm3 p.vec = 0 := (F.norm3_eq_zero _).mpr hv
      simp only [FloatLib.ofQuat, this, ne_eq, not_true_eq_false, if_false]
    have a2 : AngAx.ofQuat p = ⟨0, ⟨1, 0, 0⟩⟩ := by
      have : p.vec.norm = 0 := by rw [hv, V3.norm_zero]
      simp only [AngAx.ofQuat, this, ne_eq, not_true_eq_false, if_false]
    rw [a1, ← h2, a2]
    exact ⟨by rw [sub_self, V3.norm_zero]; positivity, (Close.refl _).mono (by positivity), by norm_num⟩
  · have hN := F.norm3_err p.vec
    have hN0 : F.norm3 p.vec ≠ 0 := fun h => hv ((F.norm3_eq_zero _).mp h)
    have hNp : 0 < F.norm3 p.vec := lt_of_le_of_ne (F.norm3_nonneg _) (Ne.symm hN0)
    have hnp := V3.norm_pos hv
    have a1 : F.ofQuat p = ⟨F.fl (2 * F.atan2 (F.norm3 p.vec) |p.w|),
        ⟨F.fl (p.x / ((if p.w < 0 then -1 else 1) * F.norm3 p.vec)), F.fl (p.y / ((if p.w < 0 then -1 else 1) * F.norm3 p.vec)),
          F.fl (p.z / ((if p.w < 0 then -1 else 1) * F.norm3 p.vec))⟩⟩ := by
      simp only [FloatLib.ofQuat, ne_eq, hN0, not_false_eq_true, if_true]
      split_ifs <;> simp
    have a2 : AngAx.ofQuat p = ⟨2 * Kindr.atan2 p.vec.norm |p.w|, (1 / ((if p.w < 0 then -1 else 1) * p.vec.norm)) • p.vec⟩ := by
      simp only [AngAx.ofQuat, ne_eq, hnp.ne', not_false_eq_true, if_true]
      split_ifs <;> simp
    have hang : |(F.ofQuat p).angle - (AngAx.ofQuat p).angle| ≤ 32 * F.u := by
      rw [a1, a2]
      have b1 := F.atan2_err (F.norm3 p.vec) |p.w| (Or.inl hN0)
      have b2 := atan2_perturb hnp |p.w| hN (by linarith)
      have b3 : abs (Kindr.atan2 p.vec.norm (abs p.w)) ≤ 315 / 100 := (Complex.abs_arg_le_pi _).trans (by linarith [Real.pi_lt_d2])
      generalize F.atan2 (F.norm3 p.vec) |p.w| = A at *
      generalize Kindr.atan2 (F.norm3 p.vec) |p.w| = B at *
      generalize Kindr.atan2 p.vec.norm |p.w| = C at *
      obtain ⟨c1, c2⟩ := abs_le.mp b1
      obtain ⟨c3, c4⟩ := abs_le.mp b2
      refine F.fl_le (k := 2403 / 100) (M := 63 / 10) ?_ ?_ (by norm_num) (by norm_num)
      · rw [abs_le]; constructor <;> linarith
      · rw [abs_mul, abs_two]; linarith
    refine ⟨?_, ?_, ?_⟩
    · rw [a1, a2]
      exact F.div_norm_err hv hN _ (by split_ifs <;> simp)
    · rw [← h2]
      exact (Matlab.rodMat_close _ _ h1).mono hang
    · have b3 : |(AngAx.ofQuat p).angle| ≤ 63 / 10 := by
        rw [a2]
        have := Complex.abs_arg_le_pi (⟨|p.w|, p.vec.norm⟩ : ℂ)
        rw [abs_mul, abs_two]
        have h3 : abs (Kindr.atan2 p.vec.norm (abs p.w)) ≤ Real.pi := this
        linarith [Real.pi_lt_d2]
      obtain ⟨c1, c2⟩ := abs_le.mp hang
      obtain ⟨c3, c4⟩ := abs_le.mp b3
      rw [abs_le]; constructor <;> linarith

/-- The small-angle branch of the conversion of an almost-unit quaternion to a rotation vector. -/
lemma rv_small_branch {u : Quat} (hu : u.normSq = 1) {c η μ : ℝ} (hc : |c - 1| ≤ η) (hη : η ≤ 1 / 1000) (hμ1 : μ ≤ 1 / 20)
    (hm : u.vec.norm ≤ μ) :
    Close (2 * (μ * u.vec.norm ^ 2) + 2 * (η * μ)) (dmat .rv (⟨(if 0 < c * u.w then 2 else -2 : ℝ) • (c • u.vec)⟩ : RotVec)) (sMat u) := by
  have hη0 : 0 ≤ η := (abs_nonneg _).trans hc
  obtain ⟨hc1, hc2⟩ := abs_le.mp hc
  have hpos : 0 < c := by linarith
  have hm2 := vec_norm_sq hu
  have hμ0 : 0 ≤ μ := u.vec.norm_nonneg.trans hm
  by_cases hv : u.vec = 0
  · have h1 : sMat u = 1 := by
      rw [hv, V3.norm_zero] at hm2
      have hx : u.x = 0 := congrArg V3.x hv
      have hy : u.y = 0 := congrArg V3.y hv
      have hz : u.z = 0 := congrArg V3.z hv
      have hw : u.w ^ 2 = 1 := by linarith
      ext <;> simp [sMat, hx, hy, hz, hw]
    rw [h1, hv, smul_zero, smul_zero, dmat_rv_zero]
    exact (Close.refl _).mono (by positivity)
  · have hmpos := V3.norm_pos hv
    have hwne : u.w ≠ 0 := by
      intro e; rw [e] at hm2; nlinarith
    obtain ⟨σ, n, hn, hvn, hrod, hσ⟩ := half_angle_form hu hv hwne
    set m := u.vec.norm with hm'
    have hrv : (⟨(if 0 < c * u.w then 2 else -2 : ℝ) • (c • u.vec)⟩ : RotVec) = ⟨(2 * (c * m)) • n⟩ := by
      rcases hσ with ⟨rfl, hw⟩ | ⟨rfl, hw⟩
      · have h1 : 0 < c * u.w := mul_pos hpos hw
        simp only [h1, if_true]
        rw [hvn]; simp only [smul_smul]; congr 2; ring
      · have h1 : ¬ 0 < c * u.w := not_lt.mpr (mul_neg_of_pos_of_neg hpos hw).le
        simp only [h1, if_false]
        rw [hvn]; simp only [smul_smul]; congr 2; ring
    rw [hrv, dmat_rv_smul _ hn, hrod]
    apply close_of_rotAngle (rodMat_isSO3 _ hn) (rodMat_isSO3 _ hn)
    refine (rotAngle_rodMat_diff _ _ hn).trans ?_
    set α := Real.arcsin m with hα
    have hsin : Real.sin α = m := Real.sin_arcsin (by linarith) (by linarith)
    have hα0 : 0 < α := Real.arcsin_pos.mpr hmpos
    have hα2 : α ≤ Real.pi / 2 := Real.arcsin_le_pi_div_two _
    have hαm : α ≤ 63 / 40 * m := by
      have h1 := Real.mul_le_sin hα0.le hα2
      rw [hsin] at h1
      have hpi := Real.pi_lt_d2
      have hpi0 := Real.pi_pos
      have h2 : α = Real.pi / 2 * (2 / Real.pi * α) := by field_simp
      rw [h2]
      have h3 : 0 ≤ 2 / Real.pi * α := by positivity
      nlinarith
    have h1 := Real.sin_gt_sub_cube hα0
    have h2 := Real.sin_lt hα0
    rw [hsin] at h1 h2
    have h3 : α ^ 3 ≤ (63 / 40 * m) ^ 3 := pow_le_pow_left₀ hα0.le hαm 3
    have h4 : α - m ≤ m ^ 3 := by nlinarith [pow_pos hmpos 3]
    have h5 : m ^ 3 ≤ μ * m ^ 2 := by
      have : m ^ 3 = m * m ^ 2 := by ring
      rw [this]; exact mul_le_mul_of_nonneg_right hm (sq_nonneg _)
    have e : 2 * (c * m) - 2 * α = 2 * ((c - 1) * m) - 2 * (α - m) := by ring
    have h6 : |(c - 1) * m| ≤ η * μ := by
      rw [abs_mul, abs_of_pos hmpos]; exact mul_le_mul hc hm hmpos.le hη0
    obtain ⟨h7, h8⟩ := abs_le.mp h6
    rw [e]
    generalize μ * m ^ 2 = X at *
    generalize (c - 1) * m = Y at *
    generalize η * μ = Z at *
    rw [abs_le]; constructor <;> linarith

/-- The regular branch: exact if the arithmetic is exact. -/
lemma rv_regular_branch {p u : Quat} (hu : u.normSq = 1) {c : ℝ} (hc : 0 < c) (hp : p = ⟨c * u.w, c * u.x, c * u.y, c * u.z⟩)
    (hv : p.vec ≠ 0) : rodMat (2 * Kindr.atan2 p.vec.norm p.w) ((1 / p.vec.norm) • p.vec) = sMat u := by
  have hv' : u.vec ≠ 0 := fun e => hv (by rw [hp, vec_scale, e, smul_zero])
  have hmpos := V3.norm_pos hv'
  have hn := unit_dir hmpos.ne'
  have e1 : (1 / p.vec.norm) • p.vec = (1 / u.vec.norm) • u.vec := by
    rw [hp, vec_scale, V3.norm_smul, abs_of_pos hc, smul_smul]; congr 1; field_simp
  have e2 : Kindr.atan2 p.vec.norm p.w = Kindr.atan2 u.vec.norm u.w := by
    rw [hp, vec_scale, V3.norm_smul, abs_of_pos hc, atan2_scale hc]
  rw [e1, e2, ← sMat_ofAngleAxis _ hn]
  have hm2 := vec_norm_sq hu
  have : Quat.ofAngleAxis (2 * Kindr.atan2 u.vec.norm u.w) ((1 / u.vec.norm) • u.vec) = u := by
    have h1 : u.w ^ 2 + u.vec.norm ^ 2 = 1 := by linarith
    have e : 1 / 2 * (2 * Kindr.atan2 u.vec.norm u.w) = Kindr.atan2 u.vec.norm u.w := by ring
    ext <;> simp only [Quat.ofAngleAxis, e, cos_atan2 h1, sin_atan2 h1, V3.smul_x, V3.smul_y, V3.smul_z,
      Quat.vec_x, Quat.vec_y, Quat.vec_z] <;> field_simp
  rw [this]

end FloatLib
end Kindr
