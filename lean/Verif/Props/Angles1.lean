import Verif.Props.MixedEq
import Verif.Props.Lipschitz

/-!
# C107: the Euler angles a conversion returns
-/

set_option autoImplicit false

noncomputable section
namespace Kindr
open Spec

lemma atan2_flip {t : ℝ} (h1 : -Real.pi < t) (h2 : t ≤ Real.pi) :
    atan2 (-Real.sin t) (-Real.cos t) = if 0 < t then t - Real.pi else t + Real.pi := by
  have hpi := Real.pi_pos
  split_ifs with h
  · rw [← Real.sin_sub_pi, ← Real.cos_sub_pi]; exact atan2_polar_one (by linarith) (by linarith)
  · rw [← Real.sin_add_pi, ← Real.cos_add_pi]; exact atan2_polar_one (by linarith) (by linarith)

lemma atan2_pitch {t : ℝ} (h1 : -(Real.pi / 2) < t) (h2 : t < Real.pi / 2) :
    atan2 (Real.sin t) (-Real.cos t) = if 0 ≤ t then Real.pi - t else -Real.pi - t := by
  have hpi := Real.pi_pos
  split_ifs with h
  · rw [← Real.sin_pi_sub, ← Real.cos_pi_sub]; exact atan2_polar_one (by linarith) (by linarith)
  · have e1 : Real.sin t = Real.sin (-Real.pi - t) := by
      rw [show -Real.pi - t = -(t + Real.pi) by ring, Real.sin_neg, Real.sin_add_pi, neg_neg]
    have e2 : -Real.cos t = Real.cos (-Real.pi - t) := by
      rw [show -Real.pi - t = -(t + Real.pi) by ring, Real.cos_neg, Real.cos_add_pi]
    rw [e1, e2]; exact atan2_polar_one (by linarith) (by linarith)

lemma euler210_flip {x y z : ℝ} (hz : -Real.pi < z ∧ z < 0) (hy : -(Real.pi / 2) < y ∧ y < Real.pi / 2)
    (hx : -Real.pi < x ∧ x ≤ Real.pi) :
    eulerAngles210 (rZ z * rY y * rX x) =
      ⟨z + Real.pi, if 0 ≤ y then Real.pi - y else -Real.pi - y, if 0 < x then x - Real.pi else x + Real.pi⟩ := by
  have hc : 0 < Real.cos y := Real.cos_pos_of_mem_Ioo hy
  have hpi := Real.pi_pos
  have hx1 := Real.sin_sq_add_cos_sq x
  have hz1 := Real.sin_sq_add_cos_sq z
  have h10 : (rZ z * rY y * rX x).m10 = Real.cos y * Real.sin z := by simp [rX, rY, rZ]; ring
  have h00 : (rZ z * rY y * rX x).m00 = Real.cos y * Real.cos z := by simp [rX, rY, rZ]; ring
  have h20 : -(rZ z * rY y * rX x).m20 = Real.sin y := by simp [rX, rY, rZ]
  have hρ : Real.sqrt ((rZ z * rY y * rX x).m22 * (rZ z * rY y * rX x).m22 +
      (rZ z * rY y * rX x).m21 * (rZ z * rY y * rX x).m21) = Real.cos y := by
    have : (rZ z * rY y * rX x).m22 * (rZ z * rY y * rX x).m22 +
      (rZ z * rY y * rX x).m21 * (rZ z * rY y * rX x).m21 = Real.cos y ^ 2 := by
      simp [rX, rY, rZ]; linear_combination Real.cos y ^ 2 * hx1
    rw [this, Real.sqrt_sq hc.le]
  have e0 : atan2 (rZ z * rY y * rX x).m10 (rZ z * rY y * rX x).m00 = z := by
    rw [h10, h00]; exact atan2_polar hc (by linarith) (by linarith)
  have e1 : atan2 (-(rZ z * rY y * rX x).m20) (-Real.cos y) = if 0 ≤ y then Real.pi - y else -Real.pi - y := by
    rw [h20]; exact atan2_pitch hy.1 hy.2
  have hneg : ¬ (z > 0) := by linarith
  simp only [eulerAngles210, hρ, e0, e1, hz.2, hneg, if_true, if_false]
  have s2 : Real.sin (z + Real.pi) * (rZ z * rY y * rX x).m02 - Real.cos (z + Real.pi) * (rZ z * rY y * rX x).m12 = -Real.sin x := by
    rw [Real.sin_add_pi, Real.cos_add_pi]
    simp [rX, rY, rZ]
    linear_combination -Real.sin x * hz1
  have c2 : Real.cos (z + Real.pi) * (rZ z * rY y * rX x).m11 - Real.sin (z + Real.pi) * (rZ z * rY y * rX x).m01 = -Real.cos x := by
    rw [Real.sin_add_pi, Real.cos_add_pi]
    simp [rX, rY, rZ]
    linear_combination -Real.cos x * hz1
  rw [s2, c2, atan2_flip hx.1 hx.2]

lemma euler210_keep {x y z : ℝ} (hz : 0 ≤ z ∧ z ≤ Real.pi) (hy : -(Real.pi / 2) < y ∧ y < Real.pi / 2)
    (hx : -Real.pi < x ∧ x ≤ Real.pi) : eulerAngles210 (rZ z * rY y * rX x) = ⟨z, y, x⟩ := by
  have hc : 0 < Real.cos y := Real.cos_pos_of_mem_Ioo hy
  have hpi := Real.pi_pos
  have hx1 := Real.sin_sq_add_cos_sq x
  have hz1 := Real.sin_sq_add_cos_sq z
  have h10 : (rZ z * rY y * rX x).m10 = Real.cos y * Real.sin z := by simp [rX, rY, rZ]; ring
  have h00 : (rZ z * rY y * rX x).m00 = Real.cos y * Real.cos z := by simp [rX, rY, rZ]; ring
  have h20 : -(rZ z * rY y * rX x).m20 = Real.sin y := by simp [rX, rY, rZ]
  have hρ : Real.sqrt ((rZ z * rY y * rX x).m22 * (rZ z * rY y * rX x).m22 +
      (rZ z * rY y * rX x).m21 * (rZ z * rY y * rX x).m21) = Real.cos y := by
    have : (rZ z * rY y * rX x).m22 * (rZ z * rY y * rX x).m22 +
      (rZ z * rY y * rX x).m21 * (rZ z * rY y * rX x).m21 = Real.cos y ^ 2 := by
      simp [rX, rY, rZ]; linear_combination Real.cos y ^ 2 * hx1
    rw [this, Real.sqrt_sq hc.le]
  have e0 : atan2 (rZ z * rY y * rX x).m10 (rZ z * rY y * rX x).m00 = z := by
    rw [h10, h00]; exact atan2_polar hc (by linarith) (by linarith)
  have e1 : atan2 (-(rZ z * rY y * rX x).m20) (Real.cos y) = y := by
    rw [h20]; exact atan2_polar_one (by linarith) (by linarith)
  have hneg : ¬ (z < 0) := by linarith
  simp only [eulerAngles210, hρ, e0, e1, hneg, if_false]
  have s2 : Real.sin z * (rZ z * rY y * rX x).m02 - Real.cos z * (rZ z * rY y * rX x).m12 = Real.sin x := by
    simp [rX, rY, rZ]
    linear_combination Real.sin x * hz1
  have c2 : Real.cos z * (rZ z * rY y * rX x).m11 - Real.sin z * (rZ z * rY y * rX x).m01 = Real.cos x := by
    simp [rX, rY, rZ]
    linear_combination Real.cos x * hz1
  rw [s2, c2, atan2_polar_one (by linarith) (by linarith)]

lemma euler012_flip {x y z : ℝ} (hx : -Real.pi ≤ x ∧ x < 0) (hy : -(Real.pi / 2) < y ∧ y < Real.pi / 2)
    (hz : -Real.pi ≤ z ∧ z < Real.pi) :
    eulerAngles012 (rX x * rY y * rZ z) =
      ⟨x + Real.pi, if 0 < y then Real.pi - y else -Real.pi - y, if 0 ≤ z then z - Real.pi else z + Real.pi⟩ := by
  have hc : 0 < Real.cos y := Real.cos_pos_of_mem_Ioo hy
  have hpi := Real.pi_pos
  have hx1 := Real.sin_sq_add_cos_sq x
  have hz1 := Real.sin_sq_add_cos_sq z
  have h12 : (rX x * rY y * rZ z).m12 = Real.cos y * Real.sin (-x) := by rw [Real.sin_neg]; simp [rX, rY, rZ]; ring
  have h22 : (rX x * rY y * rZ z).m22 = Real.cos y * Real.cos (-x) := by rw [Real.cos_neg]; simp [rX, rY, rZ]; ring
  have h02 : -(rX x * rY y * rZ z).m02 = Real.sin (-y) := by rw [Real.sin_neg]; simp [rX, rY, rZ]
  have hρ : Real.sqrt ((rX x * rY y * rZ z).m00 * (rX x * rY y * rZ z).m00 +
      (rX x * rY y * rZ z).m01 * (rX x * rY y * rZ z).m01) = Real.cos (-y) := by
    have : (rX x * rY y * rZ z).m00 * (rX x * rY y * rZ z).m00 +
      (rX x * rY y * rZ z).m01 * (rX x * rY y * rZ z).m01 = Real.cos y ^ 2 := by
      simp [rX, rY, rZ]; linear_combination Real.cos y ^ 2 * hz1
    rw [this, Real.sqrt_sq hc.le, Real.cos_neg]
  have e0 : atan2 (rX x * rY y * rZ z).m12 (rX x * rY y * rZ z).m22 = -x := by
    rw [h12, h22]; exact atan2_polar hc (by linarith) (by linarith)
  have e1 : atan2 (-(rX x * rY y * rZ z).m02) (-Real.cos (-y)) = if 0 ≤ -y then Real.pi - -y else -Real.pi - -y := by
    rw [h02]; exact atan2_pitch (by linarith) (by linarith)
  have hneg : -x > 0 := by linarith
  simp only [eulerAngles012, hρ, e0, e1, hneg, if_true]
  have s2 : Real.sin (-x - Real.pi) * (rX x * rY y * rZ z).m20 - Real.cos (-x - Real.pi) * (rX x * rY y * rZ z).m10 = -Real.sin (-z) := by
    rw [Real.sin_sub_pi, Real.cos_sub_pi, Real.sin_neg, Real.cos_neg, Real.sin_neg]; simp [rX, rY, rZ]
    linear_combination Real.sin z * hx1
  have c2 : Real.cos (-x - Real.pi) * (rX x * rY y * rZ z).m11 - Real.sin (-x - Real.pi) * (rX x * rY y * rZ z).m21 = -Real.cos (-z) := by
    rw [Real.sin_sub_pi, Real.cos_sub_pi, Real.sin_neg, Real.cos_neg, Real.cos_neg]; simp [rX, rY, rZ]
    linear_combination -Real.cos z * hx1
  rw [s2, c2, atan2_flip (by linarith) (by linarith)]
  have k1 : -(-x - Real.pi) = x + Real.pi := by ring
  have k2 : -(if 0 ≤ -y then Real.pi - -y else -Real.pi - -y) = if 0 < y then Real.pi - y else -Real.pi - y := by
    split_ifs <;> linarith
  have k3 : -(if 0 < -z then -z - Real.pi else -z + Real.pi) = if 0 ≤ z then z - Real.pi else z + Real.pi := by
    split_ifs <;> linarith
  rw [k1, k2, k3]

/-- **C107 (a).** What `EulerAnglesZyx(R)` stores.  Let `(yaw, pitch, roll)` be the principal angles of the rotation,
`yaw, roll ∈ (-π, π]` and `pitch ∈ (-π/2, π/2)`.  For `yaw ≥ 0` they are stored; for `yaw < 0` the stored yaw is `yaw + π`, the stored
pitch is beyond a quarter turn and the stored roll differs by half a turn.  (Signed zeros: a value on the border may come out as `-π` instead
of `π`.) -/
theorem C107_zyx_values (P : Prec) (k : Kind) (hk : k ≠ .zyx) (r : Rep k) (hv : Valid k r) (hc : RvClear P k (den k r)) (yaw pitch roll : ℝ)
    (hr : SameRot (k₂ := .zyx) r (⟨⟨yaw, pitch, roll⟩⟩ : EulZyx)) (hyaw : -Real.pi < yaw ∧ yaw ≤ Real.pi)
    (hpitch : -(Real.pi / 2) < pitch ∧ pitch < Real.pi / 2) (hroll : -Real.pi < roll ∧ roll ≤ Real.pi) :
    (conv P .zyx k r : EulZyx).v =
      if 0 ≤ yaw then ⟨yaw, pitch, roll⟩
      else ⟨yaw + Real.pi, if 0 ≤ pitch then Real.pi - pitch else -Real.pi - pitch, if 0 < roll then roll - Real.pi else roll + Real.pi⟩ := by
  have hd : den k r = rZ yaw * rY pitch * rX roll := by
    rw [sameRot_iff, den_eq .zyx] at hr; rw [hr]; rfl
  rw [conv_zyx_eq hk hv hc, hd]
  split_ifs with h h1 h2 h2
  · exact euler210_keep ⟨h, hyaw.2⟩ hpitch hroll
  all_goals
    have := euler210_flip ⟨hyaw.1, lt_of_not_ge h⟩ hpitch hroll
    simp only [h1, h2, if_true, if_false] at this
    exact this

/-- **C107 (b).** What `EulerAnglesXyz(R)` stores, for the principal angles `roll, yaw ∈ [-π, π)`, `pitch ∈ (-π/2, π/2)` of the rotation. -/
theorem C107_xyz_values (P : Prec) (k : Kind) (hk : k ≠ .xyz) (r : Rep k) (hv : Valid k r) (hc : RvClear P k (den k r)) (roll pitch yaw : ℝ)
    (hr : SameRot (k₂ := .xyz) r (⟨⟨roll, pitch, yaw⟩⟩ : EulXyz)) (hroll : -Real.pi ≤ roll ∧ roll < Real.pi)
    (hpitch : -(Real.pi / 2) < pitch ∧ pitch < Real.pi / 2) (hyaw : -Real.pi ≤ yaw ∧ yaw < Real.pi) :
    (conv P .xyz k r : EulXyz).v =
      if 0 ≤ roll then ⟨roll, pitch, yaw⟩
      else ⟨roll + Real.pi, if 0 < pitch then Real.pi - pitch else -Real.pi - pitch, if 0 ≤ yaw then yaw - Real.pi else yaw + Real.pi⟩ := by
  have hd : den k r = rX roll * rY pitch * rZ yaw := by
    rw [sameRot_iff, den_eq .xyz] at hr; rw [hr]; rfl
  rw [conv_xyz_eq hk hv hc, hd]
  split_ifs with h h1 h2 h2
  · exact euler012_of_unique ⟨h, hroll.2⟩ hpitch hyaw
  all_goals
    have := euler012_flip ⟨hroll.1, lt_of_not_ge h⟩ hpitch hyaw
    simp only [h1, h2, if_true, if_false] at this
    exact this

/-- **C107 (c).** At gimbal lock the stored yaw of `EulerAnglesZyx(R)` (roll of `EulerAnglesXyz(R)`) is zero and the pitch a quarter turn. -/
theorem C107_gimbal_values (P : Prec) (k : Kind) (r : Rep k) (hv : Valid k r) (hc : RvClear P k (den k r)) (x y z : ℝ) (hy : Real.cos y = 0) :
    (k ≠ .zyx → SameRot (k₂ := .zyx) r (⟨⟨z, y, x⟩⟩ : EulZyx) →
      (conv P .zyx k r : EulZyx).z = 0 ∧ (conv P .zyx k r : EulZyx).y = Real.sin y * (Real.pi / 2) ∧
      ∃ n : ℤ, (conv P .zyx k r : EulZyx).x = x - Real.sin y * z + n * (2 * Real.pi)) ∧
    (k ≠ .xyz → SameRot (k₂ := .xyz) r (⟨⟨x, y, z⟩⟩ : EulXyz) →
      (conv P .xyz k r : EulXyz).x = 0 ∧ (conv P .xyz k r : EulXyz).y = Real.sin y * (Real.pi / 2) ∧
      ∃ n : ℤ, (conv P .xyz k r : EulXyz).z = z + Real.sin y * x + n * (2 * Real.pi)) := by
  have s1 : Real.sin y ^ 2 = 1 := by have := Real.sin_sq_add_cos_sq y; rw [hy] at this; linarith
  have at0 : ∀ x : ℝ, (x = 1 ∨ x = -1) → atan2 x 0 = x * (Real.pi / 2) := by
    rintro x (rfl | rfl)
    · have := atan2_polar_one (t := Real.pi / 2) (by linarith [Real.pi_pos]) (by linarith [Real.pi_pos])
      simpa using this
    · have := atan2_polar_one (t := -(Real.pi / 2)) (by linarith [Real.pi_pos]) (by linarith [Real.pi_pos])
      simpa using this
  have at00 : atan2 0 0 = 0 := by simp [atan2, Complex.arg]
  have per : ∀ t : ℝ, ∃ n : ℤ, atan2 (Real.sin t) (Real.cos t) = t + n * (2 * Real.pi) := by
    intro t
    have h2 : (0 : ℝ) < 2 * Real.pi := by linarith [Real.pi_pos]
    have hm := toIocMod_mem_Ioc h2 (-Real.pi) t
    have ha := toIocMod_add_toIocDiv_zsmul h2 (-Real.pi) t
    rw [zsmul_eq_mul] at ha
    refine ⟨-toIocDiv h2 (-Real.pi) t, ?_⟩
    have e : t = toIocMod h2 (-Real.pi) t + toIocDiv h2 (-Real.pi) t * (2 * Real.pi) := ha.symm
    have es : Real.sin t = Real.sin (toIocMod h2 (-Real.pi) t) := by
      conv_lhs => rw [e]
      exact Real.sin_add_int_mul_two_pi _ _
    have ec : Real.cos t = Real.cos (toIocMod h2 (-Real.pi) t) := by
      conv_lhs => rw [e]
      exact Real.cos_add_int_mul_two_pi _ _
    rw [es, ec, atan2_polar_one hm.1 (by linarith [hm.2])]
    push_cast
    linarith
  have sy : Real.sin y = 1 ∨ Real.sin y = -1 := by
    have : (Real.sin y - 1) * (Real.sin y + 1) = 0 := by nlinarith
    rcases mul_eq_zero.mp this with h | h
    · left; linarith
    · right; linarith
  refine ⟨fun hk hr => ?_, fun hk hr => ?_⟩
  · have hd : den k r = rZ z * rY y * rX x := by
      rw [sameRot_iff, den_eq .zyx] at hr; rw [hr]; rfl
    rw [conv_zyx_eq hk hv hc, hd]
    have e00 : (rZ z * rY y * rX x).m00 = 0 := by simp [rX, rY, rZ, hy]
    have e10 : (rZ z * rY y * rX x).m10 = 0 := by simp [rX, rY, rZ, hy]
    have e20 : (rZ z * rY y * rX x).m20 = -Real.sin y := by simp [rX, rY, rZ]
    have e22 : (rZ z * rY y * rX x).m22 = 0 := by simp [rX, rY, rZ, hy]
    have e21 : (rZ z * rY y * rX x).m21 = 0 := by simp [rX, rY, rZ, hy]
    have e12 : (rZ z * rY y * rX x).m12 = -Real.sin (x - Real.sin y * z) := by
      rcases sy with h | h <;> simp [rX, rY, rZ, h, Real.sin_sub, Real.sin_add] <;> ring
    have e11 : (rZ z * rY y * rX x).m11 = Real.cos (x - Real.sin y * z) := by
      rcases sy with h | h <;> simp [rX, rY, rZ, h, Real.cos_sub, Real.cos_add] <;> ring
    obtain ⟨n, hn⟩ := per (x - Real.sin y * z)
    have : eulerAngles210 (rZ z * rY y * rX x) = ⟨0, Real.sin y * (Real.pi / 2), x - Real.sin y * z + n * (2 * Real.pi)⟩ := by
      simp only [eulerAngles210, e00, e10, e20, e22, e21, at00, lt_irrefl, if_false, mul_zero, add_zero, Real.sqrt_zero, neg_neg, at0 _ sy, Real.sin_zero,
        Real.cos_zero, zero_mul, one_mul, e12, e11, sub_zero, zero_sub, hn]
    rw [this]
    exact ⟨rfl, rfl, n, rfl⟩
  · have hd : den k r = rX x * rY y * rZ z := by
      rw [sameRot_iff, den_eq .xyz] at hr; rw [hr]; rfl
    rw [conv_xyz_eq hk hv hc, hd]
    have e12 : (rX x * rY y * rZ z).m12 = 0 := by simp [rX, rY, rZ, hy]
    have e22 : (rX x * rY y * rZ z).m22 = 0 := by simp [rX, rY, rZ, hy]
    have e02 : (rX x * rY y * rZ z).m02 = Real.sin y := by simp [rX, rY, rZ]
    have e00 : (rX x * rY y * rZ z).m00 = 0 := by simp [rX, rY, rZ, hy]
    have e01 : (rX x * rY y * rZ z).m01 = 0 := by simp [rX, rY, rZ, hy]
    have e10 : (rX x * rY y * rZ z).m10 = Real.sin (z + Real.sin y * x) := by
      rcases sy with h | h <;> simp [rX, rY, rZ, h, Real.sin_sub, Real.sin_add, ← sub_eq_add_neg] <;> ring
    have e11 : (rX x * rY y * rZ z).m11 = Real.cos (z + Real.sin y * x) := by
      rcases sy with h | h <;> simp [rX, rY, rZ, h, Real.cos_sub, Real.cos_add, ← sub_eq_add_neg] <;> ring
    have sy' : -Real.sin y = 1 ∨ -Real.sin y = -1 := by rcases sy with h | h <;> [right; left] <;> linarith
    obtain ⟨n, hn⟩ := per (-(z + Real.sin y * x))
    rw [Real.sin_neg, Real.cos_neg] at hn
    have : eulerAngles012 (rX x * rY y * rZ z) = ⟨0, Real.sin y * (Real.pi / 2), z + Real.sin y * x + (-n : ℤ) * (2 * Real.pi)⟩ := by
      simp only [eulerAngles012, e12, e22, e02, e00, e01, at00, gt_iff_lt, lt_irrefl, if_false, mul_zero, add_zero, Real.sqrt_zero, at0 _ sy', Real.sin_zero,
        Real.cos_zero, zero_mul, one_mul, e10, e11, sub_zero, zero_sub, hn, neg_zero]
      ext <;> push_cast <;> simp
      ring
    rw [this]
    exact ⟨rfl, rfl, -n, rfl⟩

/-- **C107 (d).** The ranges of the stored angles, for every conversion and every rotation. -/
theorem C107_ranges (P : Prec) (k : Kind) (r : Rep k) :
    (k ≠ .zyx → 0 ≤ (conv P .zyx k r : EulZyx).z ∧ (conv P .zyx k r : EulZyx).z ≤ Real.pi ∧
      |(conv P .zyx k r : EulZyx).y| ≤ Real.pi ∧ |(conv P .zyx k r : EulZyx).x| ≤ Real.pi) ∧
    (k ≠ .xyz → 0 ≤ (conv P .xyz k r : EulXyz).x ∧ (conv P .xyz k r : EulXyz).x < Real.pi ∧
      |(conv P .xyz k r : EulXyz).y| ≤ Real.pi ∧ |(conv P .xyz k r : EulXyz).z| ≤ Real.pi) := by
  have q210 : ∀ q : Quat, 0 ≤ (zyxOfQuat q).z ∧ (zyxOfQuat q).z ≤ Real.pi ∧ |(zyxOfQuat q).y| ≤ Real.pi ∧ |(zyxOfQuat q).x| ≤ Real.pi := by
    intro q
    change 0 ≤ (eulerAngles210 q.toRotationMatrix).x ∧ (eulerAngles210 q.toRotationMatrix).x ≤ Real.pi ∧
      |(eulerAngles210 q.toRotationMatrix).y| ≤ Real.pi ∧ |(eulerAngles210 q.toRotationMatrix).z| ≤ Real.pi
    generalize q.toRotationMatrix = m
    have h1 := neg_pi_lt_atan2 m.m10 m.m00
    have h2 := atan2_le_pi m.m10 m.m00
    refine ⟨(euler210_range m).1, ?_, ?_, abs_atan2_le _ _⟩
    · simp only [eulerAngles210]
      split_ifs with h h' <;> simp only <;> linarith
    · simp only [eulerAngles210]
      split_ifs <;> exact abs_atan2_le _ _
  have q012 : ∀ q : Quat, 0 ≤ (xyzOfQuat q).x ∧ (xyzOfQuat q).x < Real.pi ∧ |(xyzOfQuat q).y| ≤ Real.pi ∧ |(xyzOfQuat q).z| ≤ Real.pi := by
    intro q
    change 0 ≤ (eulerAngles012 q.toRotationMatrix).x ∧ (eulerAngles012 q.toRotationMatrix).x < Real.pi ∧
      |(eulerAngles012 q.toRotationMatrix).y| ≤ Real.pi ∧ |(eulerAngles012 q.toRotationMatrix).z| ≤ Real.pi
    generalize q.toRotationMatrix = m
    refine ⟨(euler012_range m).1, (euler012_range m).2, ?_, ?_⟩
    · simp only [eulerAngles012, abs_neg]
      split_ifs <;> exact abs_atan2_le _ _
    · simp only [eulerAngles012, abs_neg]; exact abs_atan2_le _ _
  constructor <;> intro hk
  · cases k with
    | zyx => exact absurd rfl hk
    | _ => exact q210 _
  · cases k with
    | xyz => exact absurd rfl hk
    | _ => exact q012 _

/-- **C107 (e), finding.** However small a negative turn `-ε` about the z axis (x axis) is, its stored `EulerAnglesZyx` (`EulerAnglesXyz`) are all
more than a quarter turn away from those of the identity, which are zero. -/
theorem C107_identity_jump (P : Prec) (k : Kind) (r : Rep k) (hv : Valid k r) (hc : RvClear P k (den k r)) (ε : ℝ) (h0 : 0 < ε) (h1 : ε < Real.pi) :
    (k ≠ .zyx → den k r = rZ (-ε) →
      (conv P .zyx k r : EulZyx).z = Real.pi - ε ∧ |(conv P .zyx k r : EulZyx).y| = Real.pi ∧ |(conv P .zyx k r : EulZyx).x| = Real.pi) ∧
    (k ≠ .xyz → den k r = rX (-ε) →
      (conv P .xyz k r : EulXyz).x = Real.pi - ε ∧ |(conv P .xyz k r : EulXyz).y| = Real.pi ∧ |(conv P .xyz k r : EulXyz).z| = Real.pi) := by
  have hpi := Real.pi_pos
  constructor <;> intro hk hd
  · have hr : SameRot (k₂ := .zyx) r (⟨⟨-ε, 0, 0⟩⟩ : EulZyx) := by
      rw [sameRot_iff, den_eq .zyx, hd]
      change _ = rZ (-ε) * rY 0 * rX 0
      ext <;> simp [rX, rY, rZ]
    have := C107_zyx_values P k hk r hv hc _ _ _ hr ⟨by linarith, by linarith⟩ ⟨by linarith, by linarith⟩ ⟨by linarith, by linarith⟩
    rw [if_neg (by linarith), if_pos le_rfl, if_neg (lt_irrefl _)] at this
    generalize (conv P .zyx k r : EulZyx) = e at *
    obtain ⟨v⟩ := e
    simp only at this
    subst this
    refine ⟨?_, ?_, ?_⟩
    · change -ε + Real.pi = _; ring
    · change |Real.pi - 0| = _; rw [sub_zero, abs_of_pos hpi]
    · change |0 + Real.pi| = _; rw [zero_add, abs_of_pos hpi]
  · have hr : SameRot (k₂ := .xyz) r (⟨⟨-ε, 0, 0⟩⟩ : EulXyz) := by
      rw [sameRot_iff, den_eq .xyz, hd]
      change _ = rX (-ε) * rY 0 * rZ 0
      ext <;> simp [rX, rY, rZ]
    have := C107_xyz_values P k hk r hv hc _ _ _ hr ⟨by linarith, by linarith⟩ ⟨by linarith, by linarith⟩ ⟨by linarith, by linarith⟩
    rw [if_neg (by linarith), if_neg (lt_irrefl _), if_pos le_rfl] at this
    generalize (conv P .xyz k r : EulXyz) = e at *
    obtain ⟨v⟩ := e
    simp only at this
    subst this
    refine ⟨?_, ?_, ?_⟩
    · change -ε + Real.pi = _; ring
    · change |-Real.pi - 0| = _; rw [sub_zero, abs_neg, abs_of_pos hpi]
    · change |0 - Real.pi| = _; rw [zero_sub, abs_neg, abs_of_pos hpi]

end Kindr
