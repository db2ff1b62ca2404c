import Verif.Model.Matlab
import Verif.Spec.Matlab
import Verif.Lemmas.Perturb
import Verif.Props.EulerRates
import Verif.Lemmas.EulerUnique

/-!
# C61-C63: Euler angles of the Matlab library
-/

set_option autoImplicit false

open Classical

noncomputable section
namespace Kindr
open Spec

namespace Matlab

/-! ## Elementary rotations -/

lemma snap_true (c : ℝ) : snap true c = c := by simp [snap]

lemma snap_close (sym : Bool) (c : ℝ) : |snap sym c - c| ≤ eps := by
  have he : (0 : ℝ) ≤ eps := by simp [eps]
  unfold snap
  split_ifs with h1 h2
  · simpa using he
  · rw [abs_sub_comm]; exact h2.le
  · simpa using he

lemma getX_true (a : ℝ) : getRotationMatrixX true a = rX a := by simp [getRotationMatrixX, snap_true, rX]
lemma getY_true (a : ℝ) : getRotationMatrixY true a = rY a := by simp [getRotationMatrixY, snap_true, rY]
lemma getZ_true (a : ℝ) : getRotationMatrixZ true a = rZ a := by simp [getRotationMatrixZ, snap_true, rZ]

lemma planar_close {a b u v : ℝ} {e : ℝ} (ha : |a| ≤ e) (hb : |b| ≤ e) :
    (a * u - b * v) ^ 2 + (b * u + a * v) ^ 2 ≤ (2 * e) ^ 2 * (u ^ 2 + v ^ 2) := by
  have h1 : a ^ 2 ≤ e ^ 2 := sq_le_sq' (abs_le.mp ha).1 (abs_le.mp ha).2
  have h2 : b ^ 2 ≤ e ^ 2 := sq_le_sq' (abs_le.mp hb).1 (abs_le.mp hb).2
  have h3 : 0 ≤ u ^ 2 + v ^ 2 := by positivity
  have e1 : (a * u - b * v) ^ 2 + (b * u + a * v) ^ 2 = (a ^ 2 + b ^ 2) * (u ^ 2 + v ^ 2) := by ring
  rw [e1]
  exact mul_le_mul_of_nonneg_right (by nlinarith [sq_nonneg e]) h3

lemma eps_nonneg : (0 : ℝ) ≤ eps := by simp [eps]

lemma norm_le_of_sq {v w : V3} {d : ℝ} (hd : 0 ≤ d) (h : v.x ^ 2 + v.y ^ 2 + v.z ^ 2 ≤ d ^ 2 * (w.x ^ 2 + w.y ^ 2 + w.z ^ 2)) :
    v.norm ≤ d * w.norm := by
  apply le_of_sq_le_sq _ (mul_nonneg hd w.norm_nonneg)
  rw [mul_pow, V3.norm_sq, V3.norm_sq]
  simp only [V3.normSq, V3.dot]
  nlinarith

lemma getX_close (sym : Bool) (a : ℝ) : Close (2 * eps) (getRotationMatrixX sym a) (rX a) := fun v => by
  apply norm_le_of_sq (by have := eps_nonneg; linarith)
  have := planar_close (u := v.y) (v := v.z) (snap_close sym (Real.cos a)) (snap_close sym (Real.sin a))
  have h2 : 0 ≤ (2 * eps) ^ 2 * v.x ^ 2 := by positivity
  simp [getRotationMatrixX, rX]
  nlinarith

lemma getY_close (sym : Bool) (a : ℝ) : Close (2 * eps) (getRotationMatrixY sym a) (rY a) := fun v => by
  apply norm_le_of_sq (by have := eps_nonneg; linarith)
  have := planar_close (u := v.z) (v := v.x) (snap_close sym (Real.cos a)) (snap_close sym (Real.sin a))
  have h2 : 0 ≤ (2 * eps) ^ 2 * v.y ^ 2 := by positivity
  simp [getRotationMatrixY, rY]
  nlinarith

lemma getZ_close (sym : Bool) (a : ℝ) : Close (2 * eps) (getRotationMatrixZ sym a) (rZ a) := fun v => by
  apply norm_le_of_sq (by have := eps_nonneg; linarith)
  have := planar_close (u := v.x) (v := v.y) (snap_close sym (Real.cos a)) (snap_close sym (Real.sin a))
  have h2 : 0 ≤ (2 * eps) ^ 2 * v.z ^ 2 := by positivity
  simp [getRotationMatrixZ, rZ]
  nlinarith

/-- Product of perturbed rotations. -/
lemma close_mul {A A' B B' : M3} {δ ε : ℝ} (h : Close δ A A') (h' : Close ε B B') (hA : IsSO3 A') (hB : IsSO3 B') :
    Close (δ + ε + δ * ε) (A * B) (A' * B') := fun v => by
  have h1 := h (B.mulVec v)
  have h2 := h' v
  have hd := h.nonneg
  have e : (A * B).mulVec v - (A' * B').mulVec v =
      (A.mulVec (B.mulVec v) - A'.mulVec (B.mulVec v)) + A'.mulVec (B.mulVec v - B'.mulVec v) := by
    rw [← M3.mulVec_mulVec, ← M3.mulVec_mulVec]
    ext <;> simp <;> ring
  have e2 : B.mulVec v = (B.mulVec v - B'.mulVec v) + B'.mulVec v := by ext <;> simp
  have h3 : (B.mulVec v).norm ≤ ε * v.norm + v.norm := by
    have := V3.norm_add_le (B.mulVec v - B'.mulVec v) (B'.mulVec v)
    rw [← e2, SO3.mulVec_norm hB] at this
    linarith
  have h4 : (A'.mulVec (B.mulVec v - B'.mulVec v)).norm = (B.mulVec v - B'.mulVec v).norm := SO3.mulVec_norm hA _
  rw [e]
  refine (V3.norm_add_le _ _).trans ?_
  rw [h4]
  nlinarith [mul_le_mul_of_nonneg_left h3 hd]

lemma close_mul3 {A A' B B' C C' : M3} (h1 : Close (2 * eps) A A') (h2 : Close (2 * eps) B B') (h3 : Close (2 * eps) C C')
    (hA : IsSO3 A') (hB : IsSO3 B') (hC : IsSO3 C') : Close (7 * eps) (A * B * C) (A' * B' * C') := by
  refine (close_mul (close_mul h1 h2 hA hB) h3 (SO3.mul hA hB) hC).mono ?_
  norm_num [eps]

/-- **C61 (a).** The elementary rotation matrices turn every vector about their axis by the given angle: exactly for symbolic
input, and within `2 eps` of the vector's length for numeric input, where a cosine or sine within `eps` of an integer is
replaced by that integer. -/
theorem C61_elementary (sym : Bool) (a : ℝ) (v : V3) :
    ((getRotationMatrixX sym a).mulVec v - rotX a v).norm ≤ (if sym then 0 else 2 * eps) * v.norm ∧
    ((getRotationMatrixY sym a).mulVec v - rotY a v).norm ≤ (if sym then 0 else 2 * eps) * v.norm ∧
    ((getRotationMatrixZ sym a).mulVec v - rotZ a v).norm ≤ (if sym then 0 else 2 * eps) * v.norm := by
  rw [rotX_eq, rotY_eq, rotZ_eq]
  cases sym with
  | true => rw [getX_true, getY_true, getZ_true]; exact ⟨Close.refl _ v, Close.refl _ v, Close.refl _ v⟩
  | false => exact ⟨getX_close false a v, getY_close false a v, getZ_close false a v⟩

/-- The snapping changes a coefficient only into an integer less than `eps` away. -/
theorem C61_snap (c : ℝ) : snap false c = c ∨ (∃ n : ℤ, snap false c = n ∧ |c - n| < eps) := by
  have hr : ∃ n : ℤ, round c = n := by
    unfold round
    split_ifs
    · exact ⟨_, rfl⟩
    · exact ⟨-⌊-c + 1 / 2⌋, by push_cast; rfl⟩
  obtain ⟨n, hn⟩ := hr
  by_cases h : |c - round c| < eps
  · exact Or.inr ⟨n, by rw [← hn]; simp [snap, h], by rw [← hn]; exact h⟩
  · exact Or.inl (by simp [snap, h])

/-- Every coefficient within `eps` of an integer is replaced by it. -/
theorem C61_snap_hits (c : ℝ) (n : ℤ) (h : |c - n| < eps) : snap false c = n := by
  have he : eps < 1 / 2 := by norm_num [eps]
  obtain ⟨h1, h2⟩ := abs_lt.mp h
  have hr : round c = n := by
    unfold round
    split_ifs with h0
    · have : ⌊c + 1 / 2⌋ = n := Int.floor_eq_iff.mpr ⟨by linarith, by linarith⟩
      rw [this]
    · have : ⌊-c + 1 / 2⌋ = -n := Int.floor_eq_iff.mpr ⟨by push_cast; linarith, by push_cast; linarith⟩
      rw [this]; push_cast; ring
  simp [snap, hr, h]

/-- **C61 (b).** The Euler-angle maps are the successive rotations in the order their names say: exactly for symbolic
input and within `7 eps` of the vector's length for numeric input. -/
theorem C61_euler_maps (sym : Bool) (a v : V3) :
    ((mapEulerAnglesXYZToRotationMatrix sym a).mulVec v - rotX a.x (rotY a.y (rotZ a.z v))).norm ≤
      (if sym then 0 else 7 * eps) * v.norm ∧
    ((mapEulerAnglesZYXToRotationMatrix sym a).mulVec v - rotZ a.x (rotY a.y (rotX a.z v))).norm ≤
      (if sym then 0 else 7 * eps) * v.norm ∧
    ((mapEulerAnglesZYZToRotationMatrix sym a).mulVec v - rotZ a.x (rotY a.y (rotZ a.z v))).norm ≤
      (if sym then 0 else 7 * eps) * v.norm ∧
    ((mapEulerAnglesZXZToRotationMatrix sym a).mulVec v - rotZ a.x (rotX a.y (rotZ a.z v))).norm ≤
      (if sym then 0 else 7 * eps) * v.norm := by
  simp only [rotX_eq, rotY_eq, rotZ_eq, M3.mulVec_mulVec]
  simp only [← mul_assoc]
  cases sym with
  | true =>
    simp only [mapEulerAnglesXYZToRotationMatrix, mapEulerAnglesZYXToRotationMatrix, mapEulerAnglesZYZToRotationMatrix,
      mapEulerAnglesZXZToRotationMatrix, getX_true, getY_true, getZ_true]
    exact ⟨Close.refl _ v, Close.refl _ v, Close.refl _ v, Close.refl _ v⟩
  | false =>
    exact ⟨close_mul3 (getX_close _ _) (getY_close _ _) (getZ_close _ _) (rX_isSO3 _) (rY_isSO3 _) (rZ_isSO3 _) v,
      close_mul3 (getZ_close _ _) (getY_close _ _) (getX_close _ _) (rZ_isSO3 _) (rY_isSO3 _) (rX_isSO3 _) v,
      close_mul3 (getZ_close _ _) (getY_close _ _) (getZ_close _ _) (rZ_isSO3 _) (rY_isSO3 _) (rZ_isSO3 _) v,
      close_mul3 (getZ_close _ _) (getX_close _ _) (getZ_close _ _) (rZ_isSO3 _) (rX_isSO3 _) (rZ_isSO3 _) v⟩

/-- The snapping is visible: `getRotationMatrixX(pi)` has exact zeros and ones, and so do all multiples of a quarter turn. -/
example : getRotationMatrixX false Real.pi = ⟨1, 0, 0, 0, -1, 0, 0, 0, -1⟩ := by
  have h1 : snap false (-1) = -1 := by
    have := C61_snap_hits (-1) (-1) (by norm_num [eps]); simpa using this
  have h2 : snap false 0 = 0 := by
    have := C61_snap_hits 0 0 (by norm_num [eps]); simpa using this
  simp [getRotationMatrixX, h1, h2]

/-- Snapping really changes values: a small positive angle has a cosine that is replaced by 1 while the sine is kept. -/
example : ∃ a : ℝ, 0 < a ∧ snap false (Real.cos a) = 1 ∧ Real.cos a ≠ 1 ∧ snap false (Real.sin a) = Real.sin a := by
  have ha : (0 : ℝ) < 1 / 2 ^ 26 := by norm_num
  have hpi := Real.pi_gt_three
  have h1 := Real.one_sub_sq_div_two_le_cos (x := (1 / 2 ^ 26 : ℝ))
  have h2 : Real.cos (1 / 2 ^ 26) < 1 := by
    have := Real.cos_lt_cos_of_nonneg_of_le_pi (le_refl _) (by norm_num; linarith) ha
    rwa [Real.cos_zero] at this
  have h3 : Real.sin (1 / 2 ^ 26) < 1 / 2 ^ 26 := Real.sin_lt ha
  have h4 := Real.sin_gt_sub_cube ha
  refine ⟨1 / 2 ^ 26, ha, ?_, h2.ne, ?_⟩
  · have := C61_snap_hits (Real.cos (1 / 2 ^ 26)) 1 (by
      rw [abs_lt]; push_cast; constructor <;> norm_num [eps] at * <;> linarith)
    simpa using this
  · rcases C61_snap (Real.sin (1 / 2 ^ 26)) with h | ⟨n, -, hn⟩
    · exact h
    · exfalso
      obtain ⟨n1, n2⟩ := abs_lt.mp hn
      norm_num [eps] at n1 n2 h3 h4
      have u1 : (n : ℝ) < 1 := by linarith
      have u2 : (-1 : ℝ) < n := by linarith
      have u3 : n < 1 := by exact_mod_cast u1
      have u4 : -1 < n := by exact_mod_cast u2
      have : n = 0 := by omega
      subst this
      norm_num at n2
      linarith

/-! ## C62: extraction of Euler angles -/

lemma atan2_polar {r θ : ℝ} (hr : 0 < r) (h1 : -Real.pi < θ) (h2 : θ ≤ Real.pi) :
    atan2 (r * Real.sin θ) (r * Real.cos θ) = θ := by
  have := Complex.arg_mul_cos_add_sin_mul_I hr ⟨h1, h2⟩
  refine Eq.trans ?_ this
  rw [atan2]
  congr 1
  apply Complex.ext <;> simp [Complex.cos_ofReal_re, Complex.sin_ofReal_re]

lemma atan2_polar_one {θ : ℝ} (h1 : -Real.pi < θ) (h2 : θ ≤ Real.pi) :
    atan2 (Real.sin θ) (Real.cos θ) = θ := by
  have := atan2_polar one_pos h1 h2; simpa using this

lemma sqrt_sq_add {a b : ℝ} : Real.sqrt (a ^ 2 + b ^ 2) ^ 2 = a ^ 2 + b ^ 2 := Real.sq_sqrt (by positivity)

lemma polar (b a : ℝ) : Real.sqrt (a ^ 2 + b ^ 2) * Real.cos (atan2 b a) = a ∧
    Real.sqrt (a ^ 2 + b ^ 2) * Real.sin (atan2 b a) = b := by
  have h1 := atan2_mul_cos b a
  have h2 := atan2_mul_sin b a
  rw [← sq, ← sq] at h1 h2
  exact ⟨h1, h2⟩

lemma atan2_abs_le {y x : ℝ} (h : 0 ≤ x) : |atan2 y x| ≤ Real.pi / 2 := Complex.abs_arg_le_pi_div_two_iff.mpr h

lemma xyz_extract {C : M3} (h : IsSO3 C) (hl : C.m00 ^ 2 + C.m01 ^ 2 ≠ 0) :
    rX (getEulAngXYZFromRotationMatrix C).x * rY (getEulAngXYZFromRotationMatrix C).y *
      rZ (getEulAngXYZFromRotationMatrix C).z = C := by
  have R := SO3.rel h
  simp only [getEulAngXYZFromRotationMatrix]
  set ρ := Real.sqrt (C.m00 ^ 2 + C.m01 ^ 2) with hρ
  have hρ2 : ρ ^ 2 = C.m00 ^ 2 + C.m01 ^ 2 := sqrt_sq_add
  have hp : ρ ^ 2 ≠ 0 := by rw [hρ2]; exact hl
  have hy : ρ ^ 2 + C.m02 ^ 2 = 1 := by rw [hρ2]; exact R.r00
  obtain ⟨x1, x2⟩ := polar (-C.m12) C.m22
  obtain ⟨z1, z2⟩ := polar (-C.m01) C.m00
  have e1 : C.m22 ^ 2 + (-C.m12) ^ 2 = C.m00 ^ 2 + C.m01 ^ 2 := by nlinarith [R.r00, R.c22]
  have e2 : C.m00 ^ 2 + (-C.m01) ^ 2 = C.m00 ^ 2 + C.m01 ^ 2 := by ring
  rw [e1, ← hρ] at x1 x2
  rw [e2, ← hρ] at z1 z2
  have y1 := cos_atan2 hy
  have y2 := sin_atan2 hy
  generalize atan2 (-C.m12) C.m22 = x at *
  generalize atan2 (-C.m01) C.m00 = z at *
  generalize atan2 C.m02 ρ = y at *
  ext <;> simp [rX, rY, rZ, y1, y2]
  · linarith
  · linarith
  · apply mul_left_cancel₀ hp
    linear_combination ρ * Real.sin z * x1 + C.m22 * z2 + C.m02 * (ρ * Real.cos z * x2 - C.m12 * z1) - C.m10 * hρ2 -
      C.m00 * R.r01 + C.m01 * R.k22
  · apply mul_left_cancel₀ hp
    linear_combination ρ * Real.cos z * x1 + C.m22 * z1 - C.m02 * (ρ * Real.sin z * x2 - C.m12 * z2) - C.m11 * hρ2 -
      C.m01 * R.r01 - C.m00 * R.k22
  · linarith
  · apply mul_left_cancel₀ hp
    linear_combination ρ * Real.sin z * x2 - C.m12 * z2 - C.m02 * (ρ * Real.cos z * x1 + C.m22 * z1) - C.m20 * hρ2 -
      C.m00 * R.r02 - C.m01 * R.k12
  · apply mul_left_cancel₀ hp
    linear_combination ρ * Real.cos z * x2 - C.m12 * z1 + C.m02 * (ρ * Real.sin z * x1 + C.m22 * z2) - C.m21 * hρ2 -
      C.m01 * R.r02 + C.m00 * R.k12
  · linarith

lemma zyx_extract {C : M3} (h : IsSO3 C) (hl : C.m21 ^ 2 + C.m22 ^ 2 ≠ 0) :
    rZ (getEulAngZYXFromRotationMatrix C).x * rY (getEulAngZYXFromRotationMatrix C).y *
      rX (getEulAngZYXFromRotationMatrix C).z = C := by
  have R := SO3.rel h
  simp only [getEulAngZYXFromRotationMatrix]
  set ρ := Real.sqrt (C.m21 ^ 2 + C.m22 ^ 2) with hρ
  have hρ1 : ρ ^ 2 = C.m21 ^ 2 + C.m22 ^ 2 := sqrt_sq_add
  have hρ2 : ρ ^ 2 = C.m00 ^ 2 + C.m10 ^ 2 := by rw [hρ1]; nlinarith [R.r22, R.c00]
  have hp : ρ ^ 2 ≠ 0 := by rw [hρ1]; exact hl
  have hy : ρ ^ 2 + (-C.m20) ^ 2 = 1 := by rw [hρ1]; nlinarith [R.r22]
  obtain ⟨x1, x2⟩ := polar C.m21 C.m22
  obtain ⟨z1, z2⟩ := polar C.m10 C.m00
  have e1 : C.m22 ^ 2 + C.m21 ^ 2 = C.m21 ^ 2 + C.m22 ^ 2 := by ring
  have e2 : C.m00 ^ 2 + C.m10 ^ 2 = C.m21 ^ 2 + C.m22 ^ 2 := by rw [← hρ1, hρ2]
  rw [e1, ← hρ] at x1 x2
  rw [e2, ← hρ] at z1 z2
  have y1 := cos_atan2 hy
  have y2 := sin_atan2 hy
  generalize atan2 C.m21 C.m22 = x at *
  generalize atan2 C.m10 C.m00 = z at *
  generalize atan2 (-C.m20) ρ = y at *
  ext <;> simp [rX, rY, rZ, y1, y2]
  · linarith
  · apply mul_left_cancel₀ hp
    linear_combination -C.m20 * (ρ * Real.sin x * z1 + C.m00 * x2) - ρ * Real.cos x * z2 - C.m10 * x1 - C.m01 * hρ2 -
      C.m00 * R.c01 + C.m10 * R.k22
  · apply mul_left_cancel₀ hp
    linear_combination -C.m20 * (ρ * Real.cos x * z1 + C.m00 * x1) + ρ * Real.sin x * z2 + C.m10 * x2 - C.m02 * hρ2 -
      C.m00 * R.c02 - C.m10 * R.k21
  · linarith
  · apply mul_left_cancel₀ hp
    linear_combination -C.m20 * (ρ * Real.sin x * z2 + C.m10 * x2) + ρ * Real.cos x * z1 + C.m00 * x1 - C.m11 * hρ2 -
      C.m10 * R.c01 - C.m00 * R.k22
  · apply mul_left_cancel₀ hp
    linear_combination -C.m20 * (ρ * Real.cos x * z2 + C.m10 * x1) - ρ * Real.sin x * z1 - C.m00 * x2 - C.m12 * hρ2 -
      C.m10 * R.c02 + C.m00 * R.k21
  · linarith
  · linarith

lemma zyz_extract {C : M3} (h : IsSO3 C) (hl : C.m02 ^ 2 + C.m12 ^ 2 ≠ 0) :
    rZ (getEulAngZYZFromRotationMatrix C).x * rY (getEulAngZYZFromRotationMatrix C).y *
      rZ (getEulAngZYZFromRotationMatrix C).z = C := by
  have R := SO3.rel h
  simp only [getEulAngZYZFromRotationMatrix]
  set ρ := Real.sqrt (C.m02 ^ 2 + C.m12 ^ 2) with hρ
  have hρ2 : ρ ^ 2 = C.m02 ^ 2 + C.m12 ^ 2 := sqrt_sq_add
  have hp : ρ ^ 2 ≠ 0 := by rw [hρ2]; exact hl
  have hy : C.m22 ^ 2 + ρ ^ 2 = 1 := by rw [hρ2]; nlinarith [R.c22]
  obtain ⟨x1, x2⟩ := polar C.m12 C.m02
  obtain ⟨z1, z2⟩ := polar C.m21 (-C.m20)
  have e2 : (-C.m20) ^ 2 + C.m21 ^ 2 = C.m02 ^ 2 + C.m12 ^ 2 := by nlinarith [R.r22, R.c22]
  rw [← hρ] at x1 x2
  rw [e2, ← hρ] at z1 z2
  have y1 := cos_atan2 hy
  have y2 := sin_atan2 hy
  generalize atan2 C.m12 C.m02 = x at *
  generalize atan2 C.m21 (-C.m20) = z at *
  generalize atan2 ρ C.m22 = y at *
  ext <;> simp [rX, rY, rZ, y1, y2]
  · apply mul_left_cancel₀ hp
    linear_combination C.m22 * (ρ * Real.cos z * x1 + C.m02 * z1) - (ρ * Real.sin z * x2 + C.m12 * z2) - C.m00 * hρ2 -
      C.m02 * R.c02 + C.m12 * R.k21
  · apply mul_left_cancel₀ hp
    linear_combination -C.m22 * (ρ * Real.sin z * x1 + C.m02 * z2) - (ρ * Real.cos z * x2 + C.m12 * z1) - C.m01 * hρ2 -
      C.m02 * R.c12 - C.m12 * R.k20
  · linarith
  · apply mul_left_cancel₀ hp
    linear_combination C.m22 * (ρ * Real.cos z * x2 + C.m12 * z1) + (ρ * Real.sin z * x1 + C.m02 * z2) - C.m10 * hρ2 -
      C.m12 * R.c02 - C.m02 * R.k21
  · apply mul_left_cancel₀ hp
    linear_combination -C.m22 * (ρ * Real.sin z * x2 + C.m12 * z2) + (ρ * Real.cos z * x1 + C.m02 * z1) - C.m11 * hρ2 -
      C.m12 * R.c12 + C.m02 * R.k20
  · linarith
  · linarith
  · linarith

lemma zxz_extract {C : M3} (h : IsSO3 C) (hl : C.m02 ^ 2 + C.m12 ^ 2 ≠ 0) :
    rZ (getEulAngZXZFromRotationMatrix C).x * rX (getEulAngZXZFromRotationMatrix C).y *
      rZ (getEulAngZXZFromRotationMatrix C).z = C := by
  have R := SO3.rel h
  simp only [getEulAngZXZFromRotationMatrix]
  set ρ := Real.sqrt (C.m02 ^ 2 + C.m12 ^ 2) with hρ
  have hρ2 : ρ ^ 2 = C.m02 ^ 2 + C.m12 ^ 2 := sqrt_sq_add
  have hp : ρ ^ 2 ≠ 0 := by rw [hρ2]; exact hl
  have hy : C.m22 ^ 2 + ρ ^ 2 = 1 := by rw [hρ2]; nlinarith [R.c22]
  obtain ⟨x1, x2⟩ := polar C.m02 (-C.m12)
  obtain ⟨z1, z2⟩ := polar C.m20 C.m21
  have e1 : (-C.m12) ^ 2 + C.m02 ^ 2 = C.m02 ^ 2 + C.m12 ^ 2 := by ring
  have e2 : C.m21 ^ 2 + C.m20 ^ 2 = C.m02 ^ 2 + C.m12 ^ 2 := by nlinarith [R.r22, R.c22]
  rw [e1, ← hρ] at x1 x2
  rw [e2, ← hρ] at z1 z2
  have y1 := cos_atan2 hy
  have y2 := sin_atan2 hy
  generalize atan2 C.m02 (-C.m12) = x at *
  generalize atan2 C.m20 C.m21 = z at *
  generalize atan2 ρ C.m22 = y at *
  ext <;> simp [rX, rY, rZ, y1, y2]
  · apply mul_left_cancel₀ hp
    linear_combination ρ * Real.cos z * x1 - C.m12 * z1 - C.m22 * (ρ * Real.sin z * x2 + C.m02 * z2) - C.m00 * hρ2 -
      C.m02 * R.c02 + C.m12 * R.k21
  · apply mul_left_cancel₀ hp
    linear_combination -(ρ * Real.sin z * x1 - C.m12 * z2) - C.m22 * (ρ * Real.cos z * x2 + C.m02 * z1) - C.m01 * hρ2 -
      C.m02 * R.c12 - C.m12 * R.k20
  · linarith
  · apply mul_left_cancel₀ hp
    linear_combination (ρ * Real.cos z * x2 + C.m02 * z1) + C.m22 * (ρ * Real.sin z * x1 - C.m12 * z2) - C.m10 * hρ2 -
      C.m12 * R.c02 - C.m02 * R.k21
  · apply mul_left_cancel₀ hp
    linear_combination -(ρ * Real.sin z * x2 + C.m02 * z2) + C.m22 * (ρ * Real.cos z * x1 - C.m12 * z1) - C.m11 * hρ2 -
      C.m12 * R.c12 + C.m02 * R.k20
  · linarith
  · linarith
  · linarith

/-- **C62 (a).** Away from gimbal lock every rotation matrix is reproduced by the extracted angles, which lie in
`(-π, π] × [-π/2, π/2] × (-π, π]` (XYZ, ZYX) respectively `(-π, π] × [0, π] × (-π, π]` (ZYZ, ZXZ). -/
theorem C62_extract (C : M3) (h : IsSO3 C) :
    (C.m00 ^ 2 + C.m01 ^ 2 ≠ 0 → ∀ v, rotX (getEulAngXYZFromRotationMatrix C).x (rotY (getEulAngXYZFromRotationMatrix C).y
      (rotZ (getEulAngXYZFromRotationMatrix C).z v)) = C.mulVec v) ∧
    (C.m21 ^ 2 + C.m22 ^ 2 ≠ 0 → ∀ v, rotZ (getEulAngZYXFromRotationMatrix C).x (rotY (getEulAngZYXFromRotationMatrix C).y
      (rotX (getEulAngZYXFromRotationMatrix C).z v)) = C.mulVec v) ∧
    (C.m02 ^ 2 + C.m12 ^ 2 ≠ 0 → ∀ v, rotZ (getEulAngZYZFromRotationMatrix C).x (rotY (getEulAngZYZFromRotationMatrix C).y
      (rotZ (getEulAngZYZFromRotationMatrix C).z v)) = C.mulVec v) ∧
    (C.m02 ^ 2 + C.m12 ^ 2 ≠ 0 → ∀ v, rotZ (getEulAngZXZFromRotationMatrix C).x (rotX (getEulAngZXZFromRotationMatrix C).y
      (rotZ (getEulAngZXZFromRotationMatrix C).z v)) = C.mulVec v) := by
  simp only [rotX_eq, rotY_eq, rotZ_eq, M3.mulVec_mulVec]
  simp only [← mul_assoc]
  exact ⟨fun hl v => by rw [xyz_extract h hl], fun hl v => by rw [zyx_extract h hl], fun hl v => by rw [zyz_extract h hl],
    fun hl v => by rw [zxz_extract h hl]⟩

/-- **C62 (b).** Ranges of the extracted angles, for every matrix. -/
theorem C62_ranges (C : M3) (e : V3) :
    (e = getEulAngXYZFromRotationMatrix C ∨ e = getEulAngZYXFromRotationMatrix C →
      -Real.pi < e.x ∧ e.x ≤ Real.pi ∧ |e.y| ≤ Real.pi / 2 ∧ -Real.pi < e.z ∧ e.z ≤ Real.pi) ∧
    (e = getEulAngZYZFromRotationMatrix C ∨ e = getEulAngZXZFromRotationMatrix C →
      -Real.pi < e.x ∧ e.x ≤ Real.pi ∧ 0 ≤ e.y ∧ e.y ≤ Real.pi ∧ -Real.pi < e.z ∧ e.z ≤ Real.pi) := by
  constructor
  · rintro (rfl | rfl)
    · exact ⟨neg_pi_lt_atan2 _ _, atan2_le_pi _ _, atan2_abs_le (Real.sqrt_nonneg _), neg_pi_lt_atan2 _ _, atan2_le_pi _ _⟩
    · exact ⟨neg_pi_lt_atan2 _ _, atan2_le_pi _ _, atan2_abs_le (Real.sqrt_nonneg _), neg_pi_lt_atan2 _ _, atan2_le_pi _ _⟩
  · rintro (rfl | rfl)
    · exact ⟨neg_pi_lt_atan2 _ _, atan2_le_pi _ _, atan2_nonneg (Real.sqrt_nonneg _), atan2_le_pi _ _, neg_pi_lt_atan2 _ _,
        atan2_le_pi _ _⟩
    · exact ⟨neg_pi_lt_atan2 _ _, atan2_le_pi _ _, atan2_nonneg (Real.sqrt_nonneg _), atan2_le_pi _ _, neg_pi_lt_atan2 _ _,
        atan2_le_pi _ _⟩

lemma sqrt_of {a b c : ℝ} (h : a ^ 2 + b ^ 2 = c ^ 2) (hc : 0 ≤ c) : Real.sqrt (a ^ 2 + b ^ 2) = c := by
  rw [h, Real.sqrt_sq hc]

lemma atan2_scaled {u v r θ : ℝ} (hr : 0 < r) (h1 : -Real.pi < θ) (h2 : θ ≤ Real.pi) (hu : u = r * Real.sin θ)
    (hv : v = r * Real.cos θ) : atan2 u v = θ := by rw [hu, hv]; exact atan2_polar hr h1 h2

/-- **C62 (c).** Conversely, angles in the open range are recovered from the matrix they are mapped to. -/
theorem C62_roundtrip (e : V3) (hx : -Real.pi < e.x ∧ e.x ≤ Real.pi) (hz : -Real.pi < e.z ∧ e.z ≤ Real.pi) :
    (|e.y| < Real.pi / 2 →
      getEulAngXYZFromRotationMatrix (mapEulerAnglesXYZToRotationMatrix true e) = e ∧
      getEulAngZYXFromRotationMatrix (mapEulerAnglesZYXToRotationMatrix true e) = e) ∧
    (0 < e.y ∧ e.y < Real.pi →
      getEulAngZYZFromRotationMatrix (mapEulerAnglesZYZToRotationMatrix true e) = e ∧
      getEulAngZXZFromRotationMatrix (mapEulerAnglesZXZToRotationMatrix true e) = e) := by
  have hpi := Real.pi_pos
  have sx := Real.sin_sq_add_cos_sq e.x
  have sz := Real.sin_sq_add_cos_sq e.z
  simp only [mapEulerAnglesXYZToRotationMatrix, mapEulerAnglesZYXToRotationMatrix, mapEulerAnglesZYZToRotationMatrix,
    mapEulerAnglesZXZToRotationMatrix, getX_true, getY_true, getZ_true]
  constructor
  · intro hy
    obtain ⟨y1, y2⟩ := abs_lt.mp hy
    have hc : 0 < Real.cos e.y := Real.cos_pos_of_mem_Ioo ⟨by linarith, by linarith⟩
    constructor
    · apply V3.ext
      · exact atan2_scaled hc hx.1 hx.2 (by simp [rX, rY, rZ]; ring) (by simp [rX, rY, rZ]; ring)
      · simp only [getEulAngXYZFromRotationMatrix]
        rw [sqrt_of (c := Real.cos e.y) (by simp [rX, rY, rZ]; linear_combination Real.cos e.y ^ 2 * sz) hc.le]
        have : (rX e.x * rY e.y * rZ e.z).m02 = Real.sin e.y := by simp [rX, rY, rZ]
        rw [this]; exact atan2_polar_one (by linarith) (by linarith)
      · exact atan2_scaled hc hz.1 hz.2 (by simp [rX, rY, rZ]) (by simp [rX, rY, rZ])
    · apply V3.ext
      · exact atan2_scaled hc hx.1 hx.2 (by simp [rX, rY, rZ]; ring) (by simp [rX, rY, rZ]; ring)
      · simp only [getEulAngZYXFromRotationMatrix]
        rw [sqrt_of (c := Real.cos e.y) (by simp [rX, rY, rZ]; linear_combination Real.cos e.y ^ 2 * sz) hc.le]
        have : -(rZ e.x * rY e.y * rX e.z).m20 = Real.sin e.y := by simp [rX, rY, rZ]
        rw [this]; exact atan2_polar_one (by linarith) (by linarith)
      · exact atan2_scaled hc hz.1 hz.2 (by simp [rX, rY, rZ]) (by simp [rX, rY, rZ])
  · rintro ⟨y1, y2⟩
    have hs : 0 < Real.sin e.y := Real.sin_pos_of_pos_of_lt_pi y1 y2
    constructor
    · apply V3.ext
      · exact atan2_scaled hs hx.1 hx.2 (by simp [rX, rY, rZ]; ring) (by simp [rX, rY, rZ]; ring)
      · simp only [getEulAngZYZFromRotationMatrix]
        rw [sqrt_of (c := Real.sin e.y) (by simp [rX, rY, rZ]; linear_combination Real.sin e.y ^ 2 * sx) hs.le]
        have : (rZ e.x * rY e.y * rZ e.z).m22 = Real.cos e.y := by simp [rX, rY, rZ]
        rw [this]; exact atan2_polar_one (by linarith) (by linarith)
      · exact atan2_scaled hs hz.1 hz.2 (by simp [rX, rY, rZ]) (by simp [rX, rY, rZ])
    · apply V3.ext
      · exact atan2_scaled hs hx.1 hx.2 (by simp [rX, rY, rZ]; ring) (by simp [rX, rY, rZ]; ring)
      · simp only [getEulAngZXZFromRotationMatrix]
        rw [sqrt_of (c := Real.sin e.y) (by simp [rX, rY, rZ]; linear_combination Real.sin e.y ^ 2 * sx) hs.le]
        have : (rZ e.x * rX e.y * rZ e.z).m22 = Real.cos e.y := by simp [rX, rY, rZ]
        rw [this]; exact atan2_polar_one (by linarith) (by linarith)
      · exact atan2_scaled hs hz.1 hz.2 (by simp [rX, rY, rZ]) (by simp [rX, rY, rZ])

/-- **C62 (d).** Finding: at gimbal lock the extraction loses the remaining angle.  All rotations `R_Y(π/2) R_Z(a)` give the same
XYZ angles, all `R_Y(π/2) R_X(a)` the same ZYX angles, and all `R_Z(a)` the same ZYZ and the same ZXZ angles, so at most one of
these rotations is reproduced by the angles returned. -/
theorem C62_lock (a b : ℝ) :
    getEulAngXYZFromRotationMatrix (rY (Real.pi / 2) * rZ a) = getEulAngXYZFromRotationMatrix (rY (Real.pi / 2) * rZ b) ∧
    getEulAngZYXFromRotationMatrix (rY (Real.pi / 2) * rX a) = getEulAngZYXFromRotationMatrix (rY (Real.pi / 2) * rX b) ∧
    getEulAngZYZFromRotationMatrix (rZ a) = getEulAngZYZFromRotationMatrix (rZ b) ∧
    getEulAngZXZFromRotationMatrix (rZ a) = getEulAngZXZFromRotationMatrix (rZ b) := by
  refine ⟨?_, ?_, ?_, ?_⟩
  · simp [getEulAngXYZFromRotationMatrix, rY, rZ]
  · simp [getEulAngZYXFromRotationMatrix, rY, rX]
  · simp [getEulAngZYZFromRotationMatrix, rZ]
  · simp [getEulAngZXZFromRotationMatrix, rZ]

/-- Consequence of (d): there are rotation matrices for which mapping the extracted angles back gives a different rotation,
for each of the four conventions. -/
theorem C62_lock_not_reproduced :
    (∃ C, IsSO3 C ∧ mapEulerAnglesXYZToRotationMatrix true (getEulAngXYZFromRotationMatrix C) ≠ C) ∧
    (∃ C, IsSO3 C ∧ mapEulerAnglesZYXToRotationMatrix true (getEulAngZYXFromRotationMatrix C) ≠ C) ∧
    (∃ C, IsSO3 C ∧ mapEulerAnglesZYZToRotationMatrix true (getEulAngZYZFromRotationMatrix C) ≠ C) ∧
    (∃ C, IsSO3 C ∧ mapEulerAnglesZXZToRotationMatrix true (getEulAngZXZFromRotationMatrix C) ≠ C) := by
  have key : ∀ {A B : M3} {g : M3 → V3} {f : V3 → M3}, IsSO3 A → IsSO3 B → g A = g B → A ≠ B → ∃ C, IsSO3 C ∧ f (g C) ≠ C := by
    intro A B g f hA hB hg hAB
    by_contra hc
    push Not at hc
    exact hAB ((hc A hA).symm.trans ((congrArg f hg).trans (hc B hB)))
  obtain ⟨l1, l2, l3, l4⟩ := C62_lock 0 (Real.pi / 2)
  have n1 : rY (Real.pi / 2) * rZ 0 ≠ rY (Real.pi / 2) * rZ (Real.pi / 2) := fun h => by
    have := congrArg M3.m11 h; simp [rY, rZ] at this
  have n2 : rY (Real.pi / 2) * rX 0 ≠ rY (Real.pi / 2) * rX (Real.pi / 2) := fun h => by
    have := congrArg M3.m11 h; simp [rY, rX] at this
  have n3 : rZ 0 ≠ rZ (Real.pi / 2) := fun h => by
    have := congrArg M3.m11 h; simp [rZ] at this
  exact ⟨key (SO3.mul (rY_isSO3 _) (rZ_isSO3 _)) (SO3.mul (rY_isSO3 _) (rZ_isSO3 _)) l1 n1,
    key (SO3.mul (rY_isSO3 _) (rX_isSO3 _)) (SO3.mul (rY_isSO3 _) (rX_isSO3 _)) l2 n2,
    key (rZ_isSO3 _) (rZ_isSO3 _) l3 n3, key (rZ_isSO3 _) (rZ_isSO3 _) l4 n3⟩

/-- The hypotheses of C62 (a) hold for a non-trivial rotation. -/
example : IsSO3 (rX 1 * rY 1) ∧ (rX 1 * rY 1).m00 ^ 2 + (rX 1 * rY 1).m01 ^ 2 ≠ 0 := by
  refine ⟨SO3.mul (rX_isSO3 _) (rY_isSO3 _), ?_⟩
  have := Real.cos_one_pos
  simp [rX, rY]; exact this.ne'

/-! ## C63: Euler rates to angular velocities and accelerations -/

lemma worldVelocity_iff {R : ℝ → M3} {t : ℝ} {w : V3} :
    WorldVelocity R t w ↔ HasDerivM R (Kindr.skew w * R t) t := by
  have e : ∀ u, (Kindr.skew w * R t).mulVec u = w.cross ((R t).mulVec u) := fun u => by
    rw [← M3.mulVec_mulVec, skew_mulVec]
  constructor
  · intro h
    refine HasDerivM.of_mulVec fun u => ?_
    rw [e]; exact h u
  · intro h u
    have := h.mulVec u
    rwa [e] at this

lemma bodyVelocity_iff {R : ℝ → M3} {t : ℝ} {w : V3} :
    BodyVelocity R t w ↔ HasDerivM R (R t * Kindr.skew w) t := by
  have e : ∀ u, (R t * Kindr.skew w).mulVec u = (R t).mulVec (w.cross u) := fun u => by
    rw [← M3.mulVec_mulVec, skew_mulVec]
  constructor
  · intro h
    refine HasDerivM.of_mulVec fun u => ?_
    rw [e]; exact h u
  · intro h u
    have := h.mulVec u
    rwa [e] at this

lemma worldVelocity_unique {R : ℝ → M3} {t : ℝ} (hR : IsSO3 (R t)) {w w' : V3}
    (h : WorldVelocity R t w) (h' : WorldVelocity R t w') : w = w' := by
  have e := (worldVelocity_iff.mp h).unique (worldVelocity_iff.mp h')
  apply skew_injective
  have := congrArg (· * (R t).transpose) e
  simpa only [mul_assoc, hR.1, mul_one] using this

lemma mapZYX_true (a : V3) : mapEulerAnglesZYXToRotationMatrix true a = rZ a.x * rY a.y * rX a.z := by
  simp only [mapEulerAnglesZYXToRotationMatrix, getX_true, getY_true, getZ_true]
lemma mapZYZ_true (a : V3) : mapEulerAnglesZYZToRotationMatrix true a = rZ a.x * rY a.y * rZ a.z := by
  simp only [mapEulerAnglesZYZToRotationMatrix, getY_true, getZ_true]
lemma mapZXZ_true (a : V3) : mapEulerAnglesZXZToRotationMatrix true a = rZ a.x * rX a.y * rZ a.z := by
  simp only [mapEulerAnglesZXZToRotationMatrix, getX_true, getZ_true]

/-- **C63 (a).** For every differentiable triple of ZYX angles, the world-frame rate matrix times the angle rates is the angular
velocity of the moving rotation in world coordinates, and the base-frame rate matrix times the rates is the one in body
coordinates. -/
theorem C63_zyx_rates (a : ℝ → V3) (d : V3) (t : ℝ) (hd : HasDerivV a d t) :
    WorldVelocity (fun s => mapEulerAnglesZYXToRotationMatrix true (a s)) t
      ((getMapEulAngZYXDiffToAngVelInWorldFrame (a t)).mulVec d) ∧
    BodyVelocity (fun s => mapEulerAnglesZYXToRotationMatrix true (a s)) t
      ((getMapEulAngZYXDiffToAngVelInBaseFrame true (a t)).mulVec d) := by
  obtain ⟨hz, hy, hx⟩ := hd
  have hw : HasDerivM (fun s => mapEulerAnglesZYXToRotationMatrix true (a s))
      (Kindr.skew ((getMapEulAngZYXDiffToAngVelInWorldFrame (a t)).mulVec d) *
        mapEulerAnglesZYXToRotationMatrix true (a t)) t := by
    simp only [mapZYX_true]
    have h := global_mul (global_mul (hasDerivM_rZ hz) (hasDerivM_rY hy) (rZ_isSO3 _)) (hasDerivM_rX hx)
      (SO3.mul (rZ_isSO3 _) (rY_isSO3 _))
    refine HasDerivM.congr h ?_
    congr 1
    congr 1
    ext <;> simp [getMapEulAngZYXDiffToAngVelInWorldFrame, rZ, rY] <;> first | ring1 | (left; ring1)
  refine ⟨worldVelocity_iff.mpr hw, bodyVelocity_iff.mpr (hw.congr ?_)⟩
  have hso : IsSO3 (mapEulerAnglesZYXToRotationMatrix true (a t)) := by
    rw [mapZYX_true]; exact SO3.mul (SO3.mul (rZ_isSO3 _) (rY_isSO3 _)) (rX_isSO3 _)
  have hH : getMapEulAngZYXDiffToAngVelInBaseFrame true (a t) =
      (mapEulerAnglesZYXToRotationMatrix true (a t)).transpose * getMapEulAngZYXDiffToAngVelInWorldFrame (a t) := rfl
  rw [skew_conj hso, hH, ← M3.mulVec_mulVec, M3.mulVec_mulVec, hso.1, M3.one_mulVec]

/-- **C63 (b).** The same for the ZXZ angles, world frame. -/
theorem C63_zxz_rates (a : ℝ → V3) (d : V3) (t : ℝ) (hd : HasDerivV a d t) :
    WorldVelocity (fun s => mapEulerAnglesZXZToRotationMatrix true (a s)) t
      ((getMapEulAngZXZDiffToAngVelInWorldFrame (a t)).mulVec d) := by
  obtain ⟨hz, hx, hz'⟩ := hd
  rw [worldVelocity_iff]
  simp only [mapZXZ_true]
  have h := global_mul (global_mul (hasDerivM_rZ hz) (hasDerivM_rX hx) (rZ_isSO3 _)) (hasDerivM_rZ hz')
    (SO3.mul (rZ_isSO3 _) (rX_isSO3 _))
  refine HasDerivM.congr h ?_
  congr 1
  congr 1
  ext <;> simp [getMapEulAngZXZDiffToAngVelInWorldFrame, rZ, rX] <;> first | ring1 | (left; ring1)

/-- The world-frame velocity of a moving ZYZ triple. -/
lemma zyz_true_rates (a : ℝ → V3) (d : V3) (t : ℝ) (hd : HasDerivV a d t) :
    WorldVelocity (fun s => mapEulerAnglesZYZToRotationMatrix true (a s)) t
      ⟨-Real.sin (a t).x * d.y + Real.sin (a t).y * Real.cos (a t).x * d.z,
       Real.cos (a t).x * d.y + Real.sin (a t).y * Real.sin (a t).x * d.z, d.x + Real.cos (a t).y * d.z⟩ := by
  obtain ⟨hz, hx, hz'⟩ := hd
  rw [worldVelocity_iff]
  simp only [mapZYZ_true]
  have h := global_mul (global_mul (hasDerivM_rZ hz) (hasDerivM_rY hx) (rZ_isSO3 _)) (hasDerivM_rZ hz')
    (SO3.mul (rZ_isSO3 _) (rY_isSO3 _))
  refine HasDerivM.congr h ?_
  congr 1
  congr 1
  ext <;> simp [rZ, rY] <;> first | ring1 | (left; ring1)

/-- **C63 (c).** Finding: the ZYZ rate matrix (a copy of the ZYX one) is wrong for every motion whose third rate is not zero:
whatever the true angular velocity `w` is, the computed one differs from it by exactly `√2 |dz2|`. -/
theorem C63_zyz_rates_wrong (a : ℝ → V3) (d : V3) (t : ℝ) (hd : HasDerivV a d t) (w : V3)
    (hw : WorldVelocity (fun s => mapEulerAnglesZYZToRotationMatrix true (a s)) t w) :
    ((getMapEulAngZYZDiffToAngVelInWorldFrame (a t)).mulVec d - w).norm = Real.sqrt 2 * |d.z| := by
  have hso : IsSO3 (mapEulerAnglesZYZToRotationMatrix true (a t)) := by
    rw [mapZYZ_true]; exact SO3.mul (SO3.mul (rZ_isSO3 _) (rY_isSO3 _)) (rZ_isSO3 _)
  rw [worldVelocity_unique (R := fun s => mapEulerAnglesZYZToRotationMatrix true (a s)) hso hw (zyz_true_rates a d t hd)]
  rw [V3.norm, ← Real.sqrt_sq_eq_abs, ← Real.sqrt_mul (by norm_num)]
  congr 1
  have h1 := Real.sin_sq_add_cos_sq (a t).x
  have h2 := Real.sin_sq_add_cos_sq (a t).y
  simp [V3.normSq, V3.dot, getMapEulAngZYZDiffToAngVelInWorldFrame]
  generalize Real.sin (a t).x = s at *
  generalize Real.cos (a t).x = c at *
  generalize Real.sin (a t).y = s' at *
  generalize Real.cos (a t).y = c' at *
  linear_combination d.z ^ 2 * (c' - s') ^ 2 * h1 + 2 * d.z ^ 2 * h2

/-- Hypotheses of (c) are met, with a non-zero error: spinning about the last axis. -/
example : ∃ (a : ℝ → V3) (d w : V3) (t : ℝ), HasDerivV a d t ∧ d.z ≠ 0 ∧
    WorldVelocity (fun s => mapEulerAnglesZYZToRotationMatrix true (a s)) t w := by
  have hd : HasDerivV (fun s => (⟨0, 1, s⟩ : V3)) ⟨0, 0, 1⟩ 0 :=
    ⟨hasDerivAt_const _ _, hasDerivAt_const _ _, hasDerivAt_id _⟩
  exact ⟨_, _, _, _, hd, by norm_num, zyz_true_rates _ _ _ hd⟩

lemma zyx_dE (a : ℝ → V3) (d : V3) (t : ℝ) (hd : HasDerivV a d t) :
    HasDerivM (fun s => getMapEulAngZYXDiffToAngVelInWorldFrame (a s))
      (getMapEulAngZYXDDiffToAngAccInWorldFrame (a t) d) t := by
  obtain ⟨hz, hy, hx⟩ := hd
  have cz := hz.cos
  have sz := hz.sin
  have cy := hy.cos
  have sy := hy.sin
  refine ⟨⟨?_, ?_, ?_⟩, ⟨?_, ?_, ?_⟩, ?_, ?_, ?_⟩
  · exact hasDerivAt_const _ _
  · exact sz.neg.congr_deriv (by simp [getMapEulAngZYXDDiffToAngAccInWorldFrame]; ring)
  · exact (cy.mul cz).congr_deriv (by simp [getMapEulAngZYXDDiffToAngAccInWorldFrame]; ring)
  · exact hasDerivAt_const _ _
  · exact cz.congr_deriv (by simp [getMapEulAngZYXDDiffToAngAccInWorldFrame]; ring)
  · exact (cy.mul sz).congr_deriv (by simp [getMapEulAngZYXDDiffToAngAccInWorldFrame]; ring)
  · exact hasDerivAt_const _ _
  · exact hasDerivAt_const _ _
  · exact sy.neg.congr_deriv (by simp [getMapEulAngZYXDDiffToAngAccInWorldFrame]; ring)

lemma HasDerivM.mulVec_fun {f : ℝ → M3} {f' : M3} {g : ℝ → V3} {g' : V3} {t : ℝ} (hf : HasDerivM f f' t)
    (hg : HasDerivV g g' t) : HasDerivV (fun s => (f s).mulVec (g s)) ((f t).mulVec g' + f'.mulVec (g t)) t := by
  obtain ⟨⟨a0, a1, a2⟩, ⟨a3, a4, a5⟩, a6, a7, a8⟩ := hf
  obtain ⟨g0, g1, g2⟩ := hg
  refine ⟨?_, ?_, ?_⟩
  · exact (((a0.mul g0).add (a1.mul g1)).add (a2.mul g2)).congr_deriv (by simp; ring)
  · exact (((a3.mul g0).add (a4.mul g1)).add (a5.mul g2)).congr_deriv (by simp; ring)
  · exact (((a6.mul g0).add (a7.mul g1)).add (a8.mul g2)).congr_deriv (by simp; ring)

/-- **C63 (d).** The world-frame acceleration matrix is the time derivative of the world-frame rate matrix: for every twice
differentiable motion, the angular acceleration (the derivative of the angular velocity) is `E ddot + dE dot`. -/
theorem C63_zyx_acceleration (a : ℝ → V3) (d : ℝ → V3) (dd : V3) (t : ℝ) (hd : ∀ s, HasDerivV a (d s) s)
    (hdd : HasDerivV d dd t) :
    ∃ w : ℝ → V3, (∀ s, WorldVelocity (fun s => mapEulerAnglesZYXToRotationMatrix true (a s)) s (w s)) ∧
      HasDerivV w ((getMapEulAngZYXDiffToAngVelInWorldFrame (a t)).mulVec dd +
        (getMapEulAngZYXDDiffToAngAccInWorldFrame (a t) (d t)).mulVec (d t)) t :=
  ⟨fun s => (getMapEulAngZYXDiffToAngVelInWorldFrame (a s)).mulVec (d s), fun s => (C63_zyx_rates a (d s) s (hd s)).1,
    HasDerivM.mulVec_fun (zyx_dE a (d t) t (hd t)) hdd⟩

/-- Matlab's `skew` is the cross-product matrix. -/
lemma skew_eq (v : V3) : skew v = Kindr.skew v := rfl

/-- **C63 (e).** Finding: the base-frame acceleration matrix is not the time derivative of the base-frame rate matrix.  The code
differentiates `R_IB E` instead of `R_IB' E`.  Even when it is given the true world-frame angular velocity, there are motions for
which the result differs from the derivative, and for which the angular acceleration it yields in body coordinates is wrong. -/
theorem C63_zyx_base_acceleration_wrong :
    ∃ (a : ℝ → V3) (d : V3) (t : ℝ) (H' : M3), HasDerivV a d t ∧
      HasDerivM (fun s => getMapEulAngZYXDiffToAngVelInBaseFrame true (a s)) H' t ∧
      WorldVelocity (fun s => mapEulerAnglesZYXToRotationMatrix true (a s)) t
        ((getMapEulAngZYXDiffToAngVelInWorldFrame (a t)).mulVec d) ∧
      (getMapEulAngZYXDDiffToAngAccInBaseFrame true (a t) d
        ((getMapEulAngZYXDiffToAngVelInWorldFrame (a t)).mulVec d)).mulVec d ≠ H'.mulVec d := by
  have hd : HasDerivV (fun s => (⟨s, 0, s - Real.pi / 2⟩ : V3)) ⟨1, 0, 1⟩ (Real.pi / 2) :=
    ⟨hasDerivAt_id _, hasDerivAt_const _ _, (hasDerivAt_id _).sub_const _⟩
  have h1 := C63_zyx_rates _ _ _ hd
  have hR := (worldVelocity_iff.mp h1.1).transpose
  have hE := zyx_dE _ _ _ hd
  refine ⟨_, _, _, _, hd, hR.mul hE, h1.1, ?_⟩
  intro hc
  have h2 := congrArg V3.y hc
  simp [getMapEulAngZYXDDiffToAngAccInBaseFrame, mapZYX_true, getMapEulAngZYXDDiffToAngAccInWorldFrame,
    getMapEulAngZYXDiffToAngVelInWorldFrame, skew, Kindr.skew, rX, rY, rZ] at h2
  norm_num at h2

end Matlab
end Kindr
