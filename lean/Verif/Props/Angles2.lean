import Verif.Props.Angles1

/-!
# C107: Euler angles of nearby rotations
-/

set_option autoImplicit false

noncomputable section
namespace Kindr
open Spec

/-- **C107 (f).** `EulerAnglesZyx(R).getUnique()` and `EulerAnglesXyz(R).getUnique()` are the principal angles, outside the gimbal-lock band. -/
theorem C107_unique (P : Prec) (k : Kind) (r : Rep k) (hv : Valid k r) (hc : RvClear P k (den k r)) (a b c : ℝ)
    (ha : -Real.pi ≤ a ∧ a < Real.pi) (hb : -(Real.pi / 2) < b ∧ b < Real.pi / 2) (hb' : OutsideGimbalBand b) (hc' : -Real.pi ≤ c ∧ c < Real.pi) :
    (SameRot (k₂ := .zyx) r (⟨⟨a, b, c⟩⟩ : EulZyx) → getUnique P .zyx (conv P .zyx k r) = (⟨⟨a, b, c⟩⟩ : EulZyx)) ∧
    (SameRot (k₂ := .xyz) r (⟨⟨a, b, c⟩⟩ : EulXyz) → getUnique P .xyz (conv P .xyz k r) = (⟨⟨a, b, c⟩⟩ : EulXyz)) := by
  have band : ∀ y : ℝ, Real.sin y = Real.sin b → OutsideGimbalBand y := by
    intro y h
    unfold OutsideGimbalBand at *
    have e1 : Real.cos y ^ 2 = Real.cos b ^ 2 := by rw [Real.cos_sq', Real.cos_sq', h]
    rw [sq_eq_sq_iff_abs_eq_abs] at e1
    rw [e1]; exact hb'
  constructor <;> intro hr
  · have d0 := (conv_nonrv (P := P) (d := .zyx) hv (by decide) hc).2
    rw [sameRot_iff] at hr
    rw [hr, den_eq .zyx, den_eq .zyx] at d0
    have hb2 : OutsideGimbalBand (conv P .zyx k r : EulZyx).y := by
      have m20 := congrArg M3.m20 d0
      simp [dmat, rX, rY, rZ] at m20
      exact band _ m20
    obtain ⟨d, hx, hy, hz, -⟩ := zyxGetUnique_regular hb2
    have hd := d.trans d0
    have m00 := congrArg M3.m00 hd
    have m10 := congrArg M3.m10 hd
    have m20 := congrArg M3.m20 hd
    have m21 := congrArg M3.m21 hd
    have m22 := congrArg M3.m22 hd
    simp [dmat, rX, rY, rZ] at m00 m10 m20 m21 m22
    obtain ⟨i, j, l⟩ := xyz_trig_unique hx hc' hy hb hz ha m20 ((mul_comm _ _).trans (m00.trans (mul_comm _ _)))
      ((mul_comm _ _).trans (m10.trans (mul_comm _ _))) m22 m21
    exact EulZyx.ext (V3.ext l j i)
  · have d0 := (conv_nonrv (P := P) (d := .xyz) hv (by decide) hc).2
    rw [sameRot_iff] at hr
    rw [hr, den_eq .xyz, den_eq .xyz] at d0
    have hb2 : OutsideGimbalBand (conv P .xyz k r : EulXyz).y := by
      have m02 := congrArg M3.m02 d0
      simp [dmat, rX, rY, rZ] at m02
      exact band _ m02
    obtain ⟨d, hx, hy, hz, -⟩ := xyzGetUnique_regular hb2
    have hd := d.trans d0
    have m00 := congrArg M3.m00 hd
    have m01 := congrArg M3.m01 hd
    have m02 := congrArg M3.m02 hd
    have m12 := congrArg M3.m12 hd
    have m22 := congrArg M3.m22 hd
    simp [dmat, rX, rY, rZ] at m00 m01 m02 m12 m22
    obtain ⟨i, j, l⟩ := xyz_trig_unique hx ha hy hb hz hc' m02 m00 m01
      ((mul_comm _ _).trans (m22.trans (mul_comm _ _))) ((mul_comm _ _).trans (m12.trans (mul_comm _ _)))
    exact EulXyz.ext (V3.ext i j l)

lemma diag_ge {m : M3} (h : IsSO3 m) : Real.cos (rotAngle m) ≤ m.m00 ∧ Real.cos (rotAngle m) ≤ m.m11 ∧ Real.cos (rotAngle m) ≤ m.m22 := by
  obtain ⟨θ, n, hn, h0, h1, rfl⟩ := exists_rodMat h
  rw [rotAngle_rodMat hn h0 h1]
  have := Real.cos_le_one θ
  refine ⟨?_, ?_, ?_⟩ <;> simp [rodMat, AngAx.toRotationMatrix] <;> nlinarith [mul_nonneg (sub_nonneg.mpr this) (sq_nonneg n.x), mul_nonneg (sub_nonneg.mpr this) (sq_nonneg n.y), mul_nonneg (sub_nonneg.mpr this) (sq_nonneg n.z)]

/-- **C107 (g).** How far the Euler angles of two rotations can be apart, for angles with pitch in `[-π/2, π/2]`.  `D` is the angle between the
rotations.  The pitches differ by at most `D`; the first angles, and the last angles, differ by at most `π/2 · D / sqrt (cos pitch₁ cos pitch₂)` up
to full turns. -/
theorem C107_modulus (e f : V3) (he : -(Real.pi / 2) ≤ e.y ∧ e.y ≤ Real.pi / 2) (hf : -(Real.pi / 2) ≤ f.y ∧ f.y ≤ Real.pi / 2) (D : ℝ)
    (hD : D = rotAngle (den .xyz (⟨e⟩ : EulXyz) * (den .xyz (⟨f⟩ : EulXyz)).transpose) ∨
      D = rotAngle (den .zyx (⟨e⟩ : EulZyx) * (den .zyx (⟨f⟩ : EulZyx)).transpose)) :
    |e.y - f.y| ≤ D ∧
    Real.cos e.y * Real.cos f.y * Real.sin ((e.x - f.x) / 2) ^ 2 ≤ Real.sin (D / 2) ^ 2 ∧
    Real.cos e.y * Real.cos f.y * Real.sin ((e.z - f.z) / 2) ^ 2 ≤ Real.sin (D / 2) ^ 2 ∧
    (∃ n : ℤ, Real.cos e.y * Real.cos f.y * (e.x - f.x - n * (2 * Real.pi)) ^ 2 ≤ (Real.pi / 2 * D) ^ 2) ∧
    (∃ n : ℤ, Real.cos e.y * Real.cos f.y * (e.z - f.z - n * (2 * Real.pi)) ^ 2 ≤ (Real.pi / 2 * D) ^ 2) := by
  have hpi := Real.pi_pos
  have ce : 0 ≤ Real.cos e.y := Real.cos_nonneg_of_mem_Icc he
  have cf : 0 ≤ Real.cos f.y := Real.cos_nonneg_of_mem_Icc hf
  have D0 : 0 ≤ D := by rcases hD with h | h <;> rw [h] <;> exact Real.arccos_nonneg _
  have D1 : D ≤ Real.pi := by rcases hD with h | h <;> rw [h] <;> exact Real.arccos_le_pi _
  have key : Real.cos D ≤ Real.sin e.y * Real.sin f.y + Real.cos e.y * Real.cos f.y * Real.cos (e.x - f.x) ∧
      Real.cos D ≤ Real.sin e.y * Real.sin f.y + Real.cos e.y * Real.cos f.y * Real.cos (e.z - f.z) := by
    have tr : ∀ a b : M3, rotAngle (a * b.transpose) = rotAngle (a.transpose * b) := by
      intro a b; unfold rotAngle; congr 3; simp [M3.trace]; ring
    have hs := rXYZ_isSO3
    rcases hD with h | h
    · rw [den_eq, den_eq] at h
      change D = rotAngle (rX e.x * rY e.y * rZ e.z * (rX f.x * rY f.y * rZ f.z).transpose) at h
      have oe := SO3.mul (SO3.mul (hs e.x).1 (hs e.y).2.1) (hs e.z).2.2
      have o := SO3.mul (SO3.mul (hs f.x).1 (hs f.y).2.1) (hs f.z).2.2
      have k1 := (diag_ge (SO3.mul (SO3.transpose oe) o)).2.2
      have k2 := (diag_ge (SO3.mul oe (SO3.transpose o))).1
      rw [← tr, ← h] at k1
      rw [← h] at k2
      refine ⟨k1.trans (le_of_eq ?_), k2.trans (le_of_eq ?_)⟩
      · simp [rX, rY, rZ, Real.cos_sub]; ring
      · simp [rX, rY, rZ, Real.cos_sub]; ring
    · rw [den_eq, den_eq] at h
      change D = rotAngle (rZ e.x * rY e.y * rX e.z * (rZ f.x * rY f.y * rX f.z).transpose) at h
      have oe := SO3.mul (SO3.mul (hs e.x).2.2 (hs e.y).2.1) (hs e.z).1
      have o := SO3.mul (SO3.mul (hs f.x).2.2 (hs f.y).2.1) (hs f.z).1
      have k1 := (diag_ge (SO3.mul (SO3.transpose oe) o)).1
      have k2 := (diag_ge (SO3.mul oe (SO3.transpose o))).2.2
      rw [← tr, ← h] at k1
      rw [← h] at k2
      refine ⟨k1.trans (le_of_eq ?_), k2.trans (le_of_eq ?_)⟩
      · simp [rX, rY, rZ, Real.cos_sub]; ring
      · simp [rX, rY, rZ, Real.cos_sub]; ring
  have half : ∀ t : ℝ, Real.cos D ≤ Real.sin e.y * Real.sin f.y + Real.cos e.y * Real.cos f.y * Real.cos t →
      Real.cos e.y * Real.cos f.y * Real.sin (t / 2) ^ 2 ≤ Real.sin (D / 2) ^ 2 := by
    intro t ht
    have h1 := Real.cos_le_one (e.y - f.y)
    rw [Real.cos_sub] at h1
    rw [sin_half_sq, sin_half_sq]
    linarith
  have lin : ∀ t : ℝ, Real.cos e.y * Real.cos f.y * Real.sin (t / 2) ^ 2 ≤ Real.sin (D / 2) ^ 2 →
      ∃ n : ℤ, Real.cos e.y * Real.cos f.y * (t - n * (2 * Real.pi)) ^ 2 ≤ (Real.pi / 2 * D) ^ 2 := by
    intro t ht
    have h2 : (0 : ℝ) < 2 * Real.pi := by linarith
    have hm := toIocMod_mem_Ioc h2 (-Real.pi) t
    have ha := toIocMod_add_toIocDiv_zsmul h2 (-Real.pi) t
    rw [zsmul_eq_mul] at ha
    obtain ⟨w, hw⟩ : ∃ w, w = toIocMod h2 (-Real.pi) t := ⟨_, rfl⟩
    obtain ⟨n, hn⟩ : ∃ n, n = toIocDiv h2 (-Real.pi) t := ⟨_, rfl⟩
    rw [← hw, ← hn] at ha
    rw [← hw] at hm
    refine ⟨n, ?_⟩
    have e1 : t - n * (2 * Real.pi) = w := by linarith
    rw [e1]
    have e2 : Real.sin (t / 2) ^ 2 = Real.sin (w / 2) ^ 2 := by
      rw [sin_half_sq, sin_half_sq, ← ha, Real.cos_add_int_mul_two_pi]
    rw [e2] at ht
    have w1 : |w| ≤ Real.pi := abs_le.mpr ⟨hm.1.le, by linarith [hm.2]⟩
    have jl : |w| / Real.pi ≤ Real.sin (|w| / 2) := by
      have := Real.mul_le_sin (x := |w| / 2) (by positivity) (by linarith)
      calc |w| / Real.pi = 2 / Real.pi * (|w| / 2) := by ring
        _ ≤ _ := this
    have jr : Real.sin (D / 2) ≤ D / 2 := Real.sin_le (by linarith)
    have jr0 : 0 ≤ Real.sin (D / 2) := Real.sin_nonneg_of_nonneg_of_le_pi (by linarith) (by linarith)
    have s1 : w ^ 2 / Real.pi ^ 2 ≤ Real.sin (w / 2) ^ 2 := by
      have : (|w| / Real.pi) ^ 2 ≤ Real.sin (|w| / 2) ^ 2 := pow_le_pow_left₀ (by positivity) jl 2
      rw [div_pow, sq_abs, sin_half_sq, Real.cos_abs, ← sin_half_sq] at this
      exact this
    have s2 : Real.sin (D / 2) ^ 2 ≤ (D / 2) ^ 2 := pow_le_pow_left₀ jr0 jr 2
    have s3 := mul_le_mul_of_nonneg_left s1 (mul_nonneg ce cf)
    have s4 : Real.cos e.y * Real.cos f.y * (w ^ 2 / Real.pi ^ 2) ≤ (D / 2) ^ 2 := by linarith
    rw [← mul_div_assoc, div_le_iff₀ (by positivity)] at s4
    calc _ ≤ _ := s4
      _ = _ := by ring
  refine ⟨?_, half _ key.1, half _ key.2, lin _ (half _ key.1), lin _ (half _ key.2)⟩
  have h1 : Real.cos D ≤ Real.cos (e.y - f.y) := by
    rw [Real.cos_sub]
    have := mul_le_mul_of_nonneg_left (Real.cos_le_one (e.x - f.x)) (mul_nonneg ce cf)
    linarith [key.1]
  rw [← Real.cos_abs (e.y - f.y)] at h1
  by_contra hlt
  push Not at hlt
  have h2 : |e.y - f.y| ≤ Real.pi := by rw [abs_le]; constructor <;> linarith
  exact absurd h1 (not_le.mpr (Real.cos_lt_cos_of_nonneg_of_le_pi D0 h2 hlt))

/-- **C107 (h).** The factor `1 / cos pitch` in (g) cannot be avoided: at pitch `π/2 - ε` the first angle may be turned by any `α`, against the
last one, and the rotation changes by at most `2 ε`. -/
theorem C107_gimbal_jump (α ε : ℝ) (h0 : 0 ≤ ε) :
    rotAngle (den .xyz (⟨⟨α, Real.pi / 2 - ε, -α⟩⟩ : EulXyz) * (den .xyz (⟨⟨0, Real.pi / 2 - ε, 0⟩⟩ : EulXyz)).transpose) ≤ 2 * ε ∧
    rotAngle (den .zyx (⟨⟨α, Real.pi / 2 - ε, α⟩⟩ : EulZyx) * (den .zyx (⟨⟨0, Real.pi / 2 - ε, 0⟩⟩ : EulZyx)).transpose) ≤ 2 * ε := by
  have hs := rXYZ_isSO3
  have tri : ∀ {a b c : M3}, IsSO3 a → IsSO3 b → IsSO3 c → rotAngle (a * b.transpose) ≤ rotAngle (a * c.transpose) + rotAngle (c * b.transpose) := by
    intro a b c ha hb hc
    have := rotAngle_mul_le (SO3.mul ha (SO3.transpose hc)) (SO3.mul hc (SO3.transpose hb))
    rwa [mul_assoc, ← mul_assoc c.transpose, SO3.tr_mul hc, one_mul] at this
  have hsub : ∀ x : ℝ, |x - x| = 0 := fun x => by rw [sub_self, abs_zero]
  have a1 : |Real.pi / 2 - ε - Real.pi / 2| = ε := by rw [show Real.pi / 2 - ε - Real.pi / 2 = -ε by ring, abs_neg, abs_of_nonneg h0]
  have a2 : |Real.pi / 2 - (Real.pi / 2 - ε)| = ε := by rw [show Real.pi / 2 - (Real.pi / 2 - ε) = ε by ring, abs_of_nonneg h0]
  have so : ∀ k (r : Rep k), Valid k r → IsSO3 (den k r) := fun k r h => by rw [den_eq]; exact dmat_isSO3 k r h
  constructor
  · have l : den .xyz (⟨⟨α, Real.pi / 2, -α⟩⟩ : EulXyz) = den .xyz (⟨⟨0, Real.pi / 2, 0⟩⟩ : EulXyz) := by
      rw [den_eq, den_eq]
      have := Real.sin_sq_add_cos_sq α
      ext <;> simp [dmat, rX, rY, rZ, EulXyz.x, EulXyz.y, EulXyz.z] <;> nlinarith
    have h1 := (C93_euler_angles ⟨α, Real.pi / 2 - ε, -α⟩ ⟨α, Real.pi / 2, -α⟩).1
    have h2 := (C93_euler_angles ⟨0, Real.pi / 2, 0⟩ ⟨0, Real.pi / 2 - ε, 0⟩).1
    simp only [hsub, a1, a2] at h1 h2
    rw [l] at h1
    have h3 := tri (so .xyz (⟨⟨α, Real.pi / 2 - ε, -α⟩⟩ : EulXyz) trivial) (so .xyz (⟨⟨0, Real.pi / 2 - ε, 0⟩⟩ : EulXyz) trivial)
      (so .xyz (⟨⟨0, Real.pi / 2, 0⟩⟩ : EulXyz) trivial)
    linarith
  · have l : den .zyx (⟨⟨α, Real.pi / 2, α⟩⟩ : EulZyx) = den .zyx (⟨⟨0, Real.pi / 2, 0⟩⟩ : EulZyx) := by
      rw [den_eq, den_eq]
      have := Real.sin_sq_add_cos_sq α
      ext <;> simp [dmat, rX, rY, rZ, EulZyx.x, EulZyx.y, EulZyx.z] <;> nlinarith
    have h1 := (C93_euler_angles ⟨α, Real.pi / 2 - ε, α⟩ ⟨α, Real.pi / 2, α⟩).2
    have h2 := (C93_euler_angles ⟨0, Real.pi / 2, 0⟩ ⟨0, Real.pi / 2 - ε, 0⟩).2
    simp only [hsub, a1, a2] at h1 h2
    rw [l] at h1
    have h3 := tri (so .zyx (⟨⟨α, Real.pi / 2 - ε, α⟩⟩ : EulZyx) trivial) (so .zyx (⟨⟨0, Real.pi / 2 - ε, 0⟩⟩ : EulZyx) trivial)
      (so .zyx (⟨⟨0, Real.pi / 2, 0⟩⟩ : EulZyx) trivial)
    linarith

end Kindr
