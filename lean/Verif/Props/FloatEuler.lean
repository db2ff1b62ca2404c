import Verif.Props.FloatRv2

/-!
# Euler angles in floating point
-/

set_option autoImplicit false

open Classical

noncomputable section
namespace Kindr
open Spec

/-- The unit complex number of an angle that belongs to a complex number near `z`. -/
lemma cis_near {z z' : ℂ} {b : ℝ} {κ ι : ℝ} (h1 : ‖z' - z‖ ≤ κ) (h2 : |‖z‖ - 1| ≤ ι) (hc : ‖z'‖ * Real.cos b = z'.re)
    (hs : ‖z'‖ * Real.sin b = z'.im) : ‖(⟨Real.cos b, Real.sin b⟩ : ℂ) - z‖ ≤ 2 * κ + ι := by
  have hcis : ‖(⟨Real.cos b, Real.sin b⟩ : ℂ)‖ = 1 := by
    rw [norm_mk]
    have := Real.sin_sq_add_cos_sq b
    rw [Real.sqrt_eq_one]; nlinarith
  have e : (⟨Real.cos b, Real.sin b⟩ : ℂ) - z = ((1 - ‖z'‖ : ℝ) : ℂ) * ⟨Real.cos b, Real.sin b⟩ + (z' - z) := by
    apply Complex.ext
    · simp; rw [← hc]; ring
    · simp; rw [← hs]; ring
  rw [e]
  refine (norm_add_le _ _).trans ?_
  rw [norm_mul, hcis, mul_one, Complex.norm_real, Real.norm_eq_abs]
  have h3 := abs_norm_sub_norm_le z' z
  have e2 : 1 - ‖z'‖ = -((‖z'‖ - ‖z‖) + (‖z‖ - 1)) := by ring
  rw [e2, abs_neg]
  have := abs_add_le (‖z'‖ - ‖z‖) (‖z‖ - 1)
  linarith

lemma cis_sub_le (a b : ℝ) : ‖(⟨Real.cos a, Real.sin a⟩ : ℂ) - ⟨Real.cos b, Real.sin b⟩‖ ≤ |a - b| := by
  have e : (⟨Real.cos a, Real.sin a⟩ : ℂ) - ⟨Real.cos b, Real.sin b⟩ = ⟨Real.cos a - Real.cos b, Real.sin a - Real.sin b⟩ := by
    apply Complex.ext <;> simp
  rw [e, norm_mk]
  apply Real.sqrt_le_iff.mpr ⟨abs_nonneg _, ?_⟩
  have h := one_sub_cos_le (a - b)
  rw [Real.cos_sub] at h
  rw [sq_abs]
  nlinarith [Real.sin_sq_add_cos_sq a, Real.sin_sq_add_cos_sq b]

lemma norm_mk_le {x y a b : ℝ} (hx : |x| ≤ a) (hy : |y| ≤ b) : ‖(⟨x, y⟩ : ℂ)‖ ≤ a + b := by
  have e : (⟨x, y⟩ : ℂ) = (x : ℂ) + (y : ℂ) * Complex.I := by apply Complex.ext <;> simp
  rw [e]
  refine (norm_add_le _ _).trans ?_
  rw [norm_mul, Complex.norm_I, mul_one, Complex.norm_real, Complex.norm_real]
  exact add_le_add hx hy

lemma norm_mk_sub (x y x' y' : ℝ) : (⟨x, y⟩ : ℂ) - ⟨x', y'⟩ = ⟨x - x', y - y'⟩ := by apply Complex.ext <;> simp

/-- Entries of close matrices. -/
lemma Close.cols {X Y : M3} {κ : ℝ} (hc : Close κ X Y) :
    (X.m00 - Y.m00) ^ 2 + (X.m10 - Y.m10) ^ 2 + (X.m20 - Y.m20) ^ 2 ≤ κ ^ 2 := by
  have h1 := hc ⟨1, 0, 0⟩
  rw [V3.norm_eq_one_iff.mpr (by norm_num [V3.normSq, V3.dot] : (⟨1, 0, 0⟩ : V3).normSq = 1), mul_one] at h1
  have h2 := pow_le_pow_left₀ (V3.norm_nonneg _) h1 2
  rw [V3.norm_sq] at h2
  simp [V3.normSq, V3.dot] at h2
  linarith
lemma Close.row1 {X Y : M3} {κ : ℝ} (hc : Close κ X Y) :
    (X.m10 - Y.m10) ^ 2 + (X.m11 - Y.m11) ^ 2 + (X.m12 - Y.m12) ^ 2 ≤ κ ^ 2 := by
  have h1 := hc.transpose ⟨0, 1, 0⟩
  rw [V3.norm_eq_one_iff.mpr (by norm_num [V3.normSq, V3.dot] : (⟨0, 1, 0⟩ : V3).normSq = 1), mul_one] at h1
  have h2 := pow_le_pow_left₀ (V3.norm_nonneg _) h1 2
  rw [V3.norm_sq] at h2
  simp [V3.normSq, V3.dot] at h2
  linarith
lemma Close.row2 {X Y : M3} {κ : ℝ} (hc : Close κ X Y) :
    (X.m20 - Y.m20) ^ 2 + (X.m21 - Y.m21) ^ 2 + (X.m22 - Y.m22) ^ 2 ≤ κ ^ 2 := by
  have h1 := hc.transpose ⟨0, 0, 1⟩
  rw [V3.norm_eq_one_iff.mpr (by norm_num [V3.normSq, V3.dot] : (⟨0, 0, 1⟩ : V3).normSq = 1), mul_one] at h1
  have h2 := pow_le_pow_left₀ (V3.norm_nonneg _) h1 2
  rw [V3.norm_sq] at h2
  simp [V3.normSq, V3.dot] at h2
  linarith
lemma Close.row0 {X Y : M3} {κ : ℝ} (hc : Close κ X Y) :
    (X.m00 - Y.m00) ^ 2 + (X.m01 - Y.m01) ^ 2 + (X.m02 - Y.m02) ^ 2 ≤ κ ^ 2 := by
  have h1 := hc.transpose ⟨1, 0, 0⟩
  rw [V3.norm_eq_one_iff.mpr (by norm_num [V3.normSq, V3.dot] : (⟨1, 0, 0⟩ : V3).normSq = 1), mul_one] at h1
  have h2 := pow_le_pow_left₀ (V3.norm_nonneg _) h1 2
  rw [V3.norm_sq] at h2
  simp [V3.normSq, V3.dot] at h2
  linarith

lemma Close.entry {X Y : M3} {κ : ℝ} (h : Close κ X Y) : EntryClose κ X Y := by
  have k := h.nonneg
  have h0 := h.row0; have h1 := h.row1; have h2 := h.row2
  have s := fun x : ℝ => sq_nonneg x
  refine ⟨?_, ?_, ?_, ?_, ?_, ?_, ?_, ?_, ?_⟩ <;> refine abs_le_of_sq_le_sq ?_ k
  · linarith [s (X.m01 - Y.m01), s (X.m02 - Y.m02)]
  · linarith [s (X.m00 - Y.m00), s (X.m02 - Y.m02)]
  · linarith [s (X.m00 - Y.m00), s (X.m01 - Y.m01)]
  · linarith [s (X.m11 - Y.m11), s (X.m12 - Y.m12)]
  · linarith [s (X.m10 - Y.m10), s (X.m12 - Y.m12)]
  · linarith [s (X.m10 - Y.m10), s (X.m11 - Y.m11)]
  · linarith [s (X.m21 - Y.m21), s (X.m22 - Y.m22)]
  · linarith [s (X.m20 - Y.m20), s (X.m22 - Y.m22)]
  · linarith [s (X.m20 - Y.m20), s (X.m21 - Y.m21)]

set_option maxHeartbeats 1000000 in
/-- Backward stability of the Euler-angle extraction with errors `ω` in every step. -/
lemma euler_stable {M R : M3} (hR : IsSO3 R) {ε ω : ℝ} (h : Close ε M R) (hε : ε ≤ 1 / 100) (hω : ω ≤ 1 / 100) (hω0 : 0 ≤ ω)
    {τ : ℝ} (hτ : τ = 1 ∨ τ = -1) {a b g b0 g0 : ℝ} {zb zg : ℂ}
    (ha1 : |Real.cos a * M.m10 - Real.sin a * M.m00| ≤ ω)
    (ha0 : |Real.cos a * M.m00 + Real.sin a * M.m10 - τ * Real.sqrt (M.m00 * M.m00 + M.m10 * M.m10)| ≤ ω)
    (hb1 : ‖zb - ⟨τ * Real.sqrt (M.m22 * M.m22 + M.m21 * M.m21), -M.m20⟩‖ ≤ ω)
    (hbc : ‖zb‖ * Real.cos b0 = zb.re) (hbs : ‖zb‖ * Real.sin b0 = zb.im) (hb : |b - b0| ≤ ω)
    (hg1 : ‖zg - ⟨Real.cos a * M.m11 - Real.sin a * M.m01, Real.sin a * M.m02 - Real.cos a * M.m12⟩‖ ≤ ω)
    (hgc : ‖zg‖ * Real.cos g0 = zg.re) (hgs : ‖zg‖ * Real.sin g0 = zg.im) (hg : |g - g0| ≤ ω) :
    Close (24 * ε + 24 * ω) (rZ a * rY b * rX g) R := by
  have hε0 := h.nonneg
  obtain ⟨c2, hc2⟩ : ∃ c2, c2 = Real.sqrt (M.m22 * M.m22 + M.m21 * M.m21) := ⟨_, rfl⟩
  obtain ⟨ρ, hρ⟩ : ∃ ρ, ρ = Real.sqrt (M.m00 * M.m00 + M.m10 * M.m10) := ⟨_, rfl⟩
  rw [← hc2] at hb1
  rw [← hρ] at ha0
  have RR := SO3.rel hR
  have hrr : R.m22 * R.m22 + R.m21 * R.m21 = R.m00 * R.m00 + R.m10 * R.m10 := by linarith [RR.r22, RR.c00]
  have hc2ρ : |c2 - ρ| ≤ 2 * ε := by
    have k1 := sqrt_pair_sub (a := M.m22) (b := M.m21) (c := R.m22) (d := R.m21) (ε := ε)
      (by linarith [h.row2, sq_nonneg (M.m20 - R.m20)]) hε0
    have k2 := sqrt_pair_sub (a := M.m00) (b := M.m10) (c := R.m00) (d := R.m10) (ε := ε)
      (by linarith [h.cols, sq_nonneg (M.m20 - R.m20)]) hε0
    rw [hrr, ← hc2] at k1
    rw [← hρ] at k2
    obtain ⟨k3, k4⟩ := abs_le.mp k1
    obtain ⟨k5, k6⟩ := abs_le.mp k2
    rw [abs_le]; constructor <;> linarith
  have hτ1 : |τ| = 1 := by rcases hτ with rfl | rfl <;> norm_num
  have hZ := rZ_isSO3 a
  obtain ⟨Q, hQ⟩ : ∃ Q, Q = (rZ a).transpose * R := ⟨_, rfl⟩
  obtain ⟨Q', hQ'⟩ : ∃ Q', Q' = (rZ a).transpose * M := ⟨_, rfl⟩
  have hQS : IsSO3 Q := hQ ▸ SO3.mul (SO3.transpose hZ) hR
  have hQQ : Close ε Q' Q := by rw [hQ, hQ']; exact h.mul_left (SO3.transpose hZ)
  have RQ := SO3.rel hQS
  have q10 : Q'.m10 = Real.cos a * M.m10 - Real.sin a * M.m00 := by simp [hQ', rZ]; ring
  have q00 : Q'.m00 = Real.cos a * M.m00 + Real.sin a * M.m10 := by simp [hQ', rZ]
  have q20 : Q'.m20 = M.m20 := by simp [hQ', rZ]
  have q11 : Q'.m11 = Real.cos a * M.m11 - Real.sin a * M.m01 := by simp [hQ', rZ]; ring
  have q12 : -Q'.m12 = Real.sin a * M.m02 - Real.cos a * M.m12 := by simp [hQ', rZ]; ring
  rw [← q10] at ha1
  rw [← q00] at ha0
  rw [← q11, ← q12] at hg1
  rw [← q20] at hb1
  have hc := hQQ.cols
  have hr := hQQ.row1
  have ht : |Q.m10| ≤ ε + ω := by
    have h1 := hQQ.entry.2.2.2.1
    have e : Q.m10 = -(Q'.m10 - Q.m10) + Q'.m10 := by ring
    rw [e]; refine (abs_add_le _ _).trans ?_
    rw [abs_neg]; linarith
  have ht2 : Q.m10 ^ 2 ≤ (ε + ω) ^ 2 := by rw [← sq_abs]; exact pow_le_pow_left₀ (abs_nonneg _) ht 2
  -- the second angle
  have hB : ‖(⟨Real.cos b, Real.sin b⟩ : ℂ) - ⟨Q.m00, -Q.m20⟩‖ ≤ 7 * ε + 6 * ω := by
    have k1 : ‖zb - ⟨Q.m00, -Q.m20⟩‖ ≤ 3 * ε + 2 * ω := by
      have e : zb - ⟨Q.m00, -Q.m20⟩ = (zb - ⟨τ * c2, -Q'.m20⟩) + (⟨τ * (c2 - ρ), 0⟩ + (⟨τ * ρ - Q'.m00, 0⟩ +
          (⟨Q'.m00 - Q.m00, -(Q'.m20 - Q.m20)⟩ : ℂ))) := by
        apply Complex.ext <;> simp <;> ring
      rw [e]
      refine (norm_add_le _ _).trans ?_
      have n1 : ‖(⟨τ * (c2 - ρ), 0⟩ : ℂ)‖ ≤ 2 * ε + 0 :=
        norm_mk_le (by rw [abs_mul, hτ1, one_mul]; exact hc2ρ) (by rw [abs_zero])
      have n2 : ‖(⟨τ * ρ - Q'.m00, 0⟩ : ℂ)‖ ≤ ω + 0 := norm_mk_le (by rw [abs_sub_comm]; exact ha0) (by rw [abs_zero])
      have n3 : ‖(⟨Q'.m00 - Q.m00, -(Q'.m20 - Q.m20)⟩ : ℂ)‖ ≤ ε := by
        rw [norm_mk]
        apply Real.sqrt_le_iff.mpr ⟨hε0, ?_⟩
        linarith [sq_nonneg (Q'.m10 - Q.m10), sq (Q'.m00 - Q.m00), sq (Q'.m20 - Q.m20), neg_mul_neg (Q'.m20 - Q.m20) (Q'.m20 - Q.m20)]
      have n4 := norm_add_le (⟨τ * ρ - Q'.m00, 0⟩ : ℂ) ⟨Q'.m00 - Q.m00, -(Q'.m20 - Q.m20)⟩
      have n5 := norm_add_le (⟨τ * (c2 - ρ), 0⟩ : ℂ) (⟨τ * ρ - Q'.m00, 0⟩ + ⟨Q'.m00 - Q.m00, -(Q'.m20 - Q.m20)⟩)
      linarith
    have k2 : |‖(⟨Q.m00, -Q.m20⟩ : ℂ)‖ - 1| ≤ ε + ω := by
      rw [norm_mk]
      exact sqrt_one_sub_sq (t := Q.m10) (by linarith [RQ.c00, sq Q.m00, sq Q.m10, sq Q.m20, neg_mul_neg Q.m20 Q.m20]) ht2 (by linarith) (by linarith)
    have k3 := cis_near k1 k2 hbc hbs
    have k4 := cis_sub_le b b0
    have e : (⟨Real.cos b, Real.sin b⟩ : ℂ) - ⟨Q.m00, -Q.m20⟩ = ((⟨Real.cos b, Real.sin b⟩ : ℂ) - ⟨Real.cos b0, Real.sin b0⟩) +
        (⟨Real.cos b0, Real.sin b0⟩ - ⟨Q.m00, -Q.m20⟩) := by ring
    rw [e]; exact (norm_add_le _ _).trans (by linarith)
  -- the third angle
  have hG : ‖(⟨Real.cos g, Real.sin g⟩ : ℂ) - ⟨Q.m11, -Q.m12⟩‖ ≤ 3 * ε + 4 * ω := by
    have k1 : ‖zg - ⟨Q.m11, -Q.m12⟩‖ ≤ ε + ω := by
      have e : zg - ⟨Q.m11, -Q.m12⟩ = (zg - ⟨Q'.m11, -Q'.m12⟩) + (⟨Q'.m11 - Q.m11, -(Q'.m12 - Q.m12)⟩ : ℂ) := by
        apply Complex.ext <;> simp <;> ring
      rw [e]
      refine (norm_add_le _ _).trans ?_
      have n3 : ‖(⟨Q'.m11 - Q.m11, -(Q'.m12 - Q.m12)⟩ : ℂ)‖ ≤ ε := by
        rw [norm_mk]
        apply Real.sqrt_le_iff.mpr ⟨hε0, ?_⟩
        linarith [sq_nonneg (Q'.m10 - Q.m10), sq (Q'.m11 - Q.m11), sq (Q'.m12 - Q.m12), neg_mul_neg (Q'.m12 - Q.m12) (Q'.m12 - Q.m12)]
      linarith
    have k2 : |‖(⟨Q.m11, -Q.m12⟩ : ℂ)‖ - 1| ≤ ε + ω := by
      rw [norm_mk]
      exact sqrt_one_sub_sq (t := Q.m10) (by linarith [RQ.r11, sq Q.m10, sq Q.m11, sq Q.m12, neg_mul_neg Q.m12 Q.m12]) ht2 (by linarith) (by linarith)
    have k3 := cis_near k1 k2 hgc hgs
    have k4 := cis_sub_le g g0
    have e : (⟨Real.cos g, Real.sin g⟩ : ℂ) - ⟨Q.m11, -Q.m12⟩ = ((⟨Real.cos g, Real.sin g⟩ : ℂ) - ⟨Real.cos g0, Real.sin g0⟩) +
        (⟨Real.cos g0, Real.sin g0⟩ - ⟨Q.m11, -Q.m12⟩) := by ring
    rw [e]; exact (norm_add_le _ _).trans (by linarith)
  have sqn : ∀ {x y κ : ℝ}, ‖(⟨x, y⟩ : ℂ)‖ ≤ κ → x * x + y * y ≤ κ ^ 2 := fun {x y κ} hk => by
    have h1 := pow_le_pow_left₀ (norm_nonneg _) hk 2
    rw [norm_mk, Real.sq_sqrt (add_nonneg (mul_self_nonneg x) (mul_self_nonneg y))] at h1; exact h1
  rw [norm_mk_sub] at hB hG
  have hB2 := sqn hB
  have hG2 := sqn hG
  -- what is left
  have hY := rY_isSO3 b
  have hX := rX_isSO3 g
  obtain ⟨T, hT⟩ : ∃ T, T = (rY b).transpose * Q * (rX g).transpose := ⟨_, rfl⟩
  have hTS : IsSO3 T := hT ▸ SO3.mul (SO3.mul (SO3.transpose hY) hQS) (SO3.transpose hX)
  have hεω : 0 ≤ ε * ω := mul_nonneg hε0 hω0
  have hx : (T.mulVec ⟨1, 0, 0⟩ - ⟨1, 0, 0⟩).norm ≤ 8 * ε + 7 * ω := by
    have e : T.mulVec ⟨1, 0, 0⟩ - ⟨1, 0, 0⟩ = (rY b).transpose.mulVec ⟨Q.m00 - Real.cos b, Q.m10, Q.m20 + Real.sin b⟩ := by
      have := Real.sin_sq_add_cos_sq b
      ext <;> simp [hT, rX, rY] <;> first | ring1 | linear_combination this
    rw [e, SO3.mulVec_norm (SO3.transpose hY)]
    apply le_of_sq_le_sq _ (by linarith)
    rw [V3.norm_sq]; simp only [V3.normSq, V3.dot]
    have e1 : (Q.m00 - Real.cos b) * (Q.m00 - Real.cos b) + Q.m10 * Q.m10 + (Q.m20 + Real.sin b) * (Q.m20 + Real.sin b) =
      ((Real.cos b - Q.m00) * (Real.cos b - Q.m00) + (Real.sin b - -Q.m20) * (Real.sin b - -Q.m20)) + Q.m10 ^ 2 := by ring
    rw [e1]
    have e2 : (8 * ε + 7 * ω) ^ 2 = (7 * ε + 6 * ω) ^ 2 + (ε + ω) ^ 2 + (14 * ε ^ 2 + 26 * (ε * ω) + 12 * ω ^ 2) := by ring
    rw [e2]; linarith [sq_nonneg ε, sq_nonneg ω]
  have hy : (T.mulVec ⟨0, 1, 0⟩ - ⟨0, 1, 0⟩).norm ≤ 4 * ε + 5 * ω := by
    have e0 : (T.mulVec ⟨0, 1, 0⟩ - ⟨0, 1, 0⟩).norm = (T.transpose.mulVec ⟨0, 1, 0⟩ - ⟨0, 1, 0⟩).norm := by
      rw [← SO3.mulVec_norm (SO3.transpose hTS), M3.mulVec_sub, M3.mulVec_mulVec, SO3.tr_mul hTS, M3.one_mulVec,
        V3.norm_sub_comm]
    have e : T.transpose.mulVec ⟨0, 1, 0⟩ - ⟨0, 1, 0⟩ = (rX g).mulVec ⟨Q.m10, Q.m11 - Real.cos g, Q.m12 + Real.sin g⟩ := by
      have := Real.sin_sq_add_cos_sq g
      ext <;> simp [hT, rX, rY] <;> first | ring1 | linear_combination this
    rw [e0, e, SO3.mulVec_norm hX]
    apply le_of_sq_le_sq _ (by linarith)
    rw [V3.norm_sq]; simp only [V3.normSq, V3.dot]
    have e1 : Q.m10 * Q.m10 + (Q.m11 - Real.cos g) * (Q.m11 - Real.cos g) + (Q.m12 + Real.sin g) * (Q.m12 + Real.sin g) =
      ((Real.cos g - Q.m11) * (Real.cos g - Q.m11) + (Real.sin g - -Q.m12) * (Real.sin g - -Q.m12)) + Q.m10 ^ 2 := by ring
    rw [e1]
    have e2 : (4 * ε + 5 * ω) ^ 2 = (3 * ε + 4 * ω) ^ 2 + (ε + ω) ^ 2 + (6 * ε ^ 2 + 14 * (ε * ω) + 8 * ω ^ 2) := by ring
    rw [e2]; linarith [sq_nonneg ε, sq_nonneg ω]
  have hfin := close_one_of_xy hTS hx hy
  have hfin2 := ((hfin.mul_left (SO3.mul hZ hY)).mul_right hX)
  have e1 : rZ a * rY b * T * rX g = R := by
    rw [hT, hQ]
    have hx1 := SO3.tr_mul hX
    have hy1 := hY.1
    have hz1 := hZ.1
    calc rZ a * rY b * ((rY b).transpose * ((rZ a).transpose * R) * (rX g).transpose) * rX g
        = rZ a * (rY b * (rY b).transpose) * ((rZ a).transpose * R) * ((rX g).transpose * rX g) := by simp only [mul_assoc]
      _ = R := by rw [hx1, hy1, mul_one, mul_one, ← mul_assoc, hz1, one_mul]
  rw [e1, mul_one] at hfin2
  exact hfin2.symm.mono (by linarith)

namespace FloatLib
variable (F : FloatLib)

/-- What the library's `atan2` computes. -/
lemma atan2_spec (y x : ℝ) : ∃ a0 : ℝ, |F.atan2 y x - a0| ≤ 8 * F.u ∧ |a0| ≤ 4 ∧
    ‖(⟨x, y⟩ : ℂ)‖ * Real.cos a0 = x ∧ ‖(⟨x, y⟩ : ℂ)‖ * Real.sin a0 = y := by
  have hu := F.u_nonneg
  have hpi := Real.pi_lt_d2
  have hpi0 := Real.pi_pos
  by_cases h : y ≠ 0 ∨ 0 < x
  · refine ⟨Kindr.atan2 y x, F.atan2_err y x h, (Complex.abs_arg_le_pi _).trans (by linarith), ?_, ?_⟩
    · rw [norm_mk]; exact atan2_mul_cos y x
    · rw [norm_mk]; exact atan2_mul_sin y x
  · push Not at h
    obtain ⟨rfl, hx⟩ := h
    rcases hx.lt_or_eq with hx | rfl
    · have hn : ‖(⟨x, 0⟩ : ℂ)‖ = -x := by rw [norm_mk, mul_zero, add_zero, Real.sqrt_mul_self_eq_abs, abs_of_neg hx]
      rcases F.atan2_neg x hx with k | k
      · exact ⟨Real.pi, k, by rw [abs_of_pos hpi0]; linarith, by rw [hn, Real.cos_pi]; ring, by rw [Real.sin_pi, mul_zero]⟩
      · exact ⟨-Real.pi, k, by rw [abs_neg, abs_of_pos hpi0]; linarith, by rw [hn, Real.cos_neg, Real.cos_pi]; ring,
          by rw [Real.sin_neg, Real.sin_pi]; ring⟩
    · have hn : ‖(⟨0, 0⟩ : ℂ)‖ = 0 := by rw [norm_mk]; simp
      exact ⟨F.atan2 0 0, by rw [sub_self, abs_zero]; positivity, F.atan2_zero, by rw [hn, zero_mul], by rw [hn, zero_mul]⟩

/-- `fl(fl(s m) - fl(c n))`. -/
lemma two_term {s c s' c' m n : ℝ} (hs : |s' - s| ≤ 2 * F.u) (hc : |c' - c| ≤ 2 * F.u) (bs : |s| ≤ 1) (bc : |c| ≤ 1)
    (hm : |m| ≤ 102 / 100) (hn : |n| ≤ 102 / 100) : |F.fl (F.fl (s' * m) - F.fl (c' * n)) - (s * m - c * n)| ≤ 85 / 10 * F.u := by
  have hu := F.u_nonneg
  have one : ∀ {s s' m : ℝ}, |s' - s| ≤ 2 * F.u → |s| ≤ 1 → |m| ≤ 102 / 100 → |F.fl (s' * m) - s * m| ≤ 31 / 10 * F.u := by
    intro s s' m h1 h2 h3
    refine F.fl_le (k := 204 / 100) (M := 102 / 100) ?_ ?_ (by norm_num) (by norm_num)
    · have e : s' * m - s * m = (s' - s) * m := by ring
      rw [e, abs_mul]
      have := mul_le_mul h1 h3 (abs_nonneg _) (by positivity)
      linarith
    · rw [abs_mul]
      have := mul_le_mul h2 h3 (abs_nonneg _) (by norm_num)
      linarith
  have h1 := one hs bs hm
  have h2 := one hc bc hn
  refine F.fl_le (k := 62 / 10) (M := 204 / 100) ?_ ?_ (by norm_num) (by norm_num)
  · have e : F.fl (s' * m) - F.fl (c' * n) - (s * m - c * n) = (F.fl (s' * m) - s * m) - (F.fl (c' * n) - c * n) := by ring
    rw [e]; exact (abs_sub _ _).trans (by linarith)
  · refine (abs_sub _ _).trans ?_
    rw [abs_mul, abs_mul]
    have k1 := mul_le_mul bs hm (abs_nonneg _) (by norm_num)
    have k2 := mul_le_mul bc hn (abs_nonneg _) (by norm_num)
    linarith

/-- `fl(sqrt(fl(fl(x x) + fl(y y))))`. -/
lemma hypot_err (x y : ℝ) : |F.fl (Real.sqrt (F.fl (F.fl (x * x) + F.fl (y * y)))) - Real.sqrt (x * x + y * y)| ≤
    301 / 100 * F.u * Real.sqrt (x * x + y * y) := by
  have p : ∀ x : ℝ, Err F.u 1 (F.fl (x * x)) (x * x) (x * x) := fun x => by
    have := Err.prod F.toFloatArith x x
    rwa [abs_mul_abs_self] at this
  have hu := F.u_nonneg
  have h1 := ((p x).add (p y)).rnd (F := F.toFloatArith)
  have hk : (1 + F.u) ^ 2 ≤ 2 := by nlinarith [F.u_small]
  have h3 := ((h1.sqrt (F := F.toFloatArith) hk).rnd (F := F.toFloatArith)).2
  refine h3.trans (mul_le_mul_of_nonneg_right ?_ (Real.sqrt_nonneg _))
  have := (pow4_le F.toFloatArith).2.1
  norm_num at this ⊢; linarith

set_option maxHeartbeats 1000000 in
/-- The Euler-angle extraction with rounding. -/
lemma euler_round {M R : M3} (hR : IsSO3 R) {ε : ℝ} (h : Close ε M R) (hε : ε ≤ 1 / 100) {a b g C2 : ℝ}
    (hC : C2 = F.fl (Real.sqrt (F.fl (F.fl (M.m22 * M.m22) + F.fl (M.m21 * M.m21)))))
    (hab : (a = F.atan2 M.m10 M.m00 ∧ b = F.atan2 (-M.m20) C2) ∨
      ((a = F.fl (F.atan2 M.m10 M.m00 - F.fl Real.pi) ∨ a = F.fl (F.atan2 M.m10 M.m00 + F.fl Real.pi)) ∧ b = F.atan2 (-M.m20) (-C2)))
    (hg : g = F.atan2 (F.fl (F.fl (F.sin a * M.m02) - F.fl (F.cos a * M.m12))) (F.fl (F.fl (F.cos a * M.m11) - F.fl (F.sin a * M.m01)))) :
    Close (24 * ε + 456 * F.u) (rZ a * rY b * rX g) R := by
  have hu := F.u_nonneg
  have hs := F.u_small
  have hε0 := h.nonneg
  have hpi := Real.pi_lt_d2
  have hpi0 := Real.pi_pos
  obtain ⟨m00, m01, m02, m10, m11, m12, m20, m21, m22⟩ : EntryClose (102 / 100) M ⟨0, 0, 0, 0, 0, 0, 0, 0, 0⟩ := by
    have e1 := h.entry
    have e2 := so3_entry_le hR
    have t : ∀ {x y : ℝ}, |x - y| ≤ ε → |y - 0| ≤ 1 → |x - 0| ≤ 102 / 100 := fun {x y} h1 h2 => by
      have e : x - 0 = (x - y) + (y - 0) := by ring
      rw [e]; exact (abs_add_le _ _).trans (by linarith)
    obtain ⟨a1, a2, a3, a4, a5, a6, a7, a8, a9⟩ := e1
    obtain ⟨b1, b2, b3, b4, b5, b6, b7, b8, b9⟩ := e2
    exact ⟨t a1 b1, t a2 b2, t a3 b3, t a4 b4, t a5 b5, t a6 b6, t a7 b7, t a8 b8, t a9 b9⟩
  simp only [sub_zero] at m00 m01 m02 m10 m11 m12 m20 m21 m22
  obtain ⟨a0, ha, ha4, hac, has⟩ := F.atan2_spec M.m10 M.m00
  -- the first angle
  obtain ⟨τ, hτ, a1, hta, hca, hsa, hbe⟩ : ∃ τ : ℝ, (τ = 1 ∨ τ = -1) ∧ ∃ a1, |a - a1| ≤ 185 / 10 * F.u ∧ Real.cos a1 = τ * Real.cos a0 ∧
      Real.sin a1 = τ * Real.sin a0 ∧ b = F.atan2 (-M.m20) (τ * C2) := by
    have hflpi : |F.fl Real.pi - Real.pi| ≤ 315 / 100 * F.u := F.fl_exact (by rw [abs_of_pos hpi0]; linarith)
    obtain ⟨p1, p2⟩ := abs_le.mp hflpi
    obtain ⟨q1, q2⟩ := abs_le.mp ha
    obtain ⟨r1, r2⟩ := abs_le.mp ha4
    rcases hab with ⟨h1, h2⟩ | ⟨h1 | h1, h2⟩
    · exact ⟨1, Or.inl rfl, a0, by rw [h1]; linarith, by ring, by ring, by rw [h2, one_mul]⟩
    · refine ⟨-1, Or.inr rfl, a0 - Real.pi, ?_, by rw [Real.cos_sub_pi]; ring, by rw [Real.sin_sub_pi]; ring, by rw [h2, neg_one_mul]⟩
      rw [h1]
      refine F.fl_le (k := 1116 / 100) (M := 72 / 10) ?_ ?_ (by norm_num) ?_
      · rw [abs_le]; constructor <;> linarith
      · rw [abs_le]; constructor <;> linarith
      · norm_num
    · refine ⟨-1, Or.inr rfl, a0 + Real.pi, ?_, by rw [Real.cos_add_pi]; ring, by rw [Real.sin_add_pi]; ring, by rw [h2, neg_one_mul]⟩
      rw [h1]
      refine F.fl_le (k := 1116 / 100) (M := 72 / 10) ?_ ?_ (by norm_num) ?_
      · rw [abs_le]; constructor <;> linarith
      · rw [abs_le]; constructor <;> linarith
      · norm_num
  have RR := SO3.rel hR
  have hρ : ‖(⟨M.m00, M.m10⟩ : ℂ)‖ ≤ 101 / 100 := by
    have k2 := (abs_le.mp (sqrt_pair_sub (a := M.m00) (b := M.m10) (c := R.m00) (d := R.m10) (ε := ε)
      (by linarith [h.cols, sq_nonneg (M.m20 - R.m20)]) hε0)).2
    have k3 : Real.sqrt (R.m00 * R.m00 + R.m10 * R.m10) ≤ 1 :=
      Real.sqrt_le_iff.mpr ⟨by norm_num, by nlinarith [RR.c00, sq_nonneg R.m20]⟩
    rw [norm_mk]; linarith
  have hc2 : Real.sqrt (M.m22 * M.m22 + M.m21 * M.m21) ≤ 101 / 100 := by
    have k2 := (abs_le.mp (sqrt_pair_sub (a := M.m22) (b := M.m21) (c := R.m22) (d := R.m21) (ε := ε)
      (by linarith [h.row2, sq_nonneg (M.m20 - R.m20)]) hε0)).2
    have k3 : Real.sqrt (R.m22 * R.m22 + R.m21 * R.m21) ≤ 1 :=
      Real.sqrt_le_iff.mpr ⟨by norm_num, by nlinarith [RR.r22, sq_nonneg R.m20]⟩
    linarith
  have hC2 : |C2 - Real.sqrt (M.m22 * M.m22 + M.m21 * M.m21)| ≤ 19 * F.u := by
    rw [hC]
    refine (F.hypot_err _ _).trans ?_
    have := mul_le_mul_of_nonneg_left hc2 hu
    nlinarith
  have hτ1 : |τ| = 1 := by rcases hτ with rfl | rfl <;> norm_num
  have hw : ‖(⟨Real.cos a * M.m00 + Real.sin a * M.m10 - τ * ‖(⟨M.m00, M.m10⟩ : ℂ)‖, Real.cos a * M.m10 - Real.sin a * M.m00⟩ : ℂ)‖ ≤
      19 * F.u := by
    have e : (⟨Real.cos a * M.m00 + Real.sin a * M.m10 - τ * ‖(⟨M.m00, M.m10⟩ : ℂ)‖, Real.cos a * M.m10 - Real.sin a * M.m00⟩ : ℂ) =
        (starRingEnd ℂ) ((⟨Real.cos a, Real.sin a⟩ : ℂ) - ⟨Real.cos a1, Real.sin a1⟩) * ⟨M.m00, M.m10⟩ := by
      have hcs := Real.sin_sq_add_cos_sq a0
      apply Complex.ext
      · simp only [Complex.mul_re, Complex.conj_re, Complex.conj_im, Complex.sub_re, Complex.sub_im, hca, hsa]
        generalize ‖(⟨M.m00, M.m10⟩ : ℂ)‖ = ρ at *
        rw [← hac, ← has]; linear_combination (τ * ρ) * hcs
      · simp only [Complex.mul_im, Complex.conj_re, Complex.conj_im, Complex.sub_re, Complex.sub_im, hca, hsa]
        generalize ‖(⟨M.m00, M.m10⟩ : ℂ)‖ = ρ at *
        rw [← hac, ← has]; ring
    rw [e, norm_mul, RCLike.norm_conj]
    have k := (cis_sub_le a a1).trans hta
    have := mul_le_mul k hρ (norm_nonneg _) (by positivity)
    linarith
  obtain ⟨b0, hb, hb4, hbc, hbs⟩ := F.atan2_spec (-M.m20) (τ * C2)
  obtain ⟨g0, hg0, hg4, hgc, hgs⟩ := F.atan2_spec (F.fl (F.fl (F.sin a * M.m02) - F.fl (F.cos a * M.m12))) (F.fl (F.fl (F.cos a * M.m11) - F.fl (F.sin a * M.m01)))
  have hst := euler_stable hR h hε (ω := 19 * F.u) (by linarith) (by positivity) hτ (a := a) (b := b) (g := g) (b0 := b0) (g0 := g0)
    (zb := ⟨τ * C2, -M.m20⟩) (zg := ⟨F.fl (F.fl (F.cos a * M.m11) - F.fl (F.sin a * M.m01)), F.fl (F.fl (F.sin a * M.m02) - F.fl (F.cos a * M.m12))⟩)
    ((Complex.abs_im_le_norm _).trans hw) (by rw [← norm_mk]; exact (Complex.abs_re_le_norm _).trans hw)
    ?_ hbc hbs ?_ ?_ hgc hgs ?_
  · exact hst.mono (by linarith)
  · rw [norm_mk_sub]
    refine (norm_mk_le (a := 19 * F.u) (b := 0) ?_ ?_).trans (by linarith)
    · rw [← mul_sub, abs_mul, hτ1, one_mul]; exact hC2
    · rw [sub_self, abs_zero]
  · rw [hbe]; linarith
  · rw [norm_mk_sub]
    refine (norm_mk_le (F.two_term (F.cos_err a) (F.sin_err a) (Real.abs_cos_le_one a) (Real.abs_sin_le_one a) m11 m01)
      (F.two_term (F.sin_err a) (F.cos_err a) (Real.abs_sin_le_one a) (Real.abs_cos_le_one a) m02 m12)).trans ?_
    linarith
  · rw [hg]; linarith

lemma euler210_round {M R : M3} (hR : IsSO3 R) {ε : ℝ} (h : Close ε M R) (hε : ε ≤ 1 / 100) :
    Close (24 * ε + 456 * F.u) (rZ (F.eulerAngles210 M).x * rY (F.eulerAngles210 M).y * rX (F.eulerAngles210 M).z) R := by
  refine F.euler_round hR h hε rfl ?_ ?_
  · by_cases hp : F.atan2 M.m10 M.m00 < 0
    · have : ¬ F.atan2 M.m10 M.m00 > 0 := not_lt.mpr hp.le
      right
      simp only [FloatLib.eulerAngles210, hp, if_true, this, if_false]
      exact ⟨Or.inr trivial, trivial⟩
    · left
      simp only [FloatLib.eulerAngles210, hp, if_false]
      exact ⟨trivial, trivial⟩
  · rfl

lemma euler012_round {M R : M3} (hR : IsSO3 R) {ε : ℝ} (h : Close ε M R) (hε : ε ≤ 1 / 100) :
    Close (24 * ε + 456 * F.u) (rX (F.eulerAngles012 M).x * rY (F.eulerAngles012 M).y * rZ (F.eulerAngles012 M).z) R := by
  have k : Close (24 * ε + 456 * F.u) (rZ (-(F.eulerAngles012 M).x) * rY (-(F.eulerAngles012 M).y) * rX (-(F.eulerAngles012 M).z)) (revM R) := by
    refine F.euler_round (revM_isSO3 hR) h.rev hε rfl ?_ ?_
    · by_cases hp : F.atan2 M.m12 M.m22 > 0
      · right
        simp only [FloatLib.eulerAngles012, hp, if_true, neg_neg]
        exact ⟨Or.inl rfl, rfl⟩
      · left
        simp only [FloatLib.eulerAngles012, hp, if_false, neg_neg]
        exact ⟨rfl, rfl⟩
    · simp only [FloatLib.eulerAngles012, neg_neg]; rfl
  have k2 := k.rev
  rwa [revM_mul, revM_mul, revM_rZ, revM_rY, revM_rX, revM_revM, neg_neg, neg_neg, neg_neg] at k2

/-- `ConversionTraits<EulerAnglesXyz, RotationQuaternion>` with rounding. -/
lemma xyzOfQuat_round {p : Quat} {R : M3} {η δ : ℝ} (h : NearQ η δ p R) (hη : η ≤ 1 / 1000) :
    Close (97 * η + 960 * F.u + δ) (dmat .xyz (F.xyzOfQuat p)) R := by
  have hu0 := F.u_nonneg
  have hs := F.u_small
  obtain ⟨c, u, hu, hp, hc, hcl⟩ := h
  have h0 : NearQ η 0 p (sMat u) := ⟨c, u, hu, hp, hc, Close.refl _⟩
  have hη0 := h0.nonneg.1
  have hn : p.normSq ≤ 103 / 100 := by
    have := (abs_le.mp (sq_sub_one_le hc (by linarith))).2
    have e : p.normSq = c ^ 2 * u.normSq := by rw [hp]; simp only [Quat.normSq]; ring
    rw [e, hu]; linarith
  have h1 := (F.toRotationMatrix_round hn).trans (h0.toRotationMatrix (by linarith))
  exact ((F.euler012_round (sMat_isSO3 hu) h1 (by linarith)).trans hcl).mono (by linarith)

/-- `ConversionTraits<EulerAnglesZyx, RotationQuaternion>` with rounding. -/
lemma zyxOfQuat_round {p : Quat} {R : M3} {η δ : ℝ} (h : NearQ η δ p R) (hη : η ≤ 1 / 1000) :
    Close (97 * η + 960 * F.u + δ) (dmat .zyx (F.zyxOfQuat p)) R := by
  have hu0 := F.u_nonneg
  have hs := F.u_small
  obtain ⟨c, u, hu, hp, hc, hcl⟩ := h
  have h0 : NearQ η 0 p (sMat u) := ⟨c, u, hu, hp, hc, Close.refl _⟩
  have hη0 := h0.nonneg.1
  have hn : p.normSq ≤ 103 / 100 := by
    have := (abs_le.mp (sq_sub_one_le hc (by linarith))).2
    have e : p.normSq = c ^ 2 * u.normSq := by rw [hp]; simp only [Quat.normSq]; ring
    rw [e, hu]; linarith
  have h1 := (F.toRotationMatrix_round hn).trans (h0.toRotationMatrix (by linarith))
  exact ((F.euler210_round (sMat_isSO3 hu) h1 (by linarith)).trans hcl).mono (by linarith)

end FloatLib
end Kindr
