import Verif.Lemmas.Norm
import Verif.Lemmas.Metric
import Verif.Props.Quaternion
import Verif.Props.SmallAngle

/-!
# Perturbation theory: matrices that are almost rotations, quaternions that are almost unit quaternions

Used for the uniform accuracy theorems (C59): the small-angle branch of the rotation-vector conversion yields a quaternion whose
norm is not exactly one; everything computed from it afterwards is bounded here.
-/

set_option autoImplicit false

open Classical

noncomputable section
namespace Kindr
open Spec

/-- `A` and `B` differ by at most `δ` in operator norm. -/
def Close (δ : ℝ) (A B : M3) : Prop := ∀ v : V3, (A.mulVec v - B.mulVec v).norm ≤ δ * v.norm

namespace Close
variable {δ ε : ℝ} {A B C D : M3}

lemma refl (A : M3) : Close 0 A A := fun v => by simp

lemma of_eq (h : A = B) : Close 0 A B := h ▸ refl A

lemma mono (h : Close δ A B) (hd : δ ≤ ε) : Close ε A B := fun v =>
  (h v).trans (mul_le_mul_of_nonneg_right hd v.norm_nonneg)

lemma symm (h : Close δ A B) : Close δ B A := fun v => by rw [V3.norm_sub_comm]; exact h v

lemma trans (h : Close δ A B) (h' : Close ε B C) : Close (δ + ε) A C := fun v => by
  have e : A.mulVec v - C.mulVec v = (A.mulVec v - B.mulVec v) + (B.mulVec v - C.mulVec v) := by abel
  rw [e, add_mul]
  exact (V3.norm_add_le _ _).trans (add_le_add (h v) (h' v))

/-- Products; the inner factor of the first product and the outer factor of the second are isometries. -/
lemma mul (h : Close δ A C) (h' : Close ε B D) (hB : IsSO3 B) (hC : IsSO3 C) : Close (δ + ε) (A * B) (C * D) := fun v => by
  have e : (A * B).mulVec v - (C * D).mulVec v =
      (A.mulVec (B.mulVec v) - C.mulVec (B.mulVec v)) + C.mulVec (B.mulVec v - D.mulVec v) := by
    rw [M3.mulVec_sub, M3.mulVec_mulVec, M3.mulVec_mulVec, M3.mulVec_mulVec]; abel
  rw [e, add_mul]
  refine (V3.norm_add_le _ _).trans (add_le_add ?_ ?_)
  · have := h (B.mulVec v); rwa [SO3.mulVec_norm hB] at this
  · rw [SO3.mulVec_norm hC]; exact h' v

lemma nonneg (h : Close δ A B) : 0 ≤ δ := by
  have h1 := (V3.norm_nonneg _).trans (h ⟨1, 0, 0⟩)
  have h2 : (⟨1, 0, 0⟩ : V3).norm = 1 := V3.norm_eq_one_iff.mpr (by norm_num [V3.normSq, V3.dot])
  rwa [h2, mul_one] at h1

/-- Closeness passes to the transposes (the operator norm of a matrix and its transpose agree). -/
lemma transpose (h : Close δ A B) : Close δ A.transpose B.transpose := fun v => by
  set w := A.transpose.mulVec v - B.transpose.mulVec v with hw
  by_cases h0 : w = 0
  · rw [h0, V3.norm_zero]; exact mul_nonneg h.nonneg v.norm_nonneg
  have hpos := V3.norm_pos h0
  have e : w.normSq = v.dot (A.mulVec w - B.mulVec w) := by
    have : w.normSq = w.dot (A.transpose.mulVec v - B.transpose.mulVec v) := by rw [← hw]; rfl
    rw [this]
    simp only [V3.dot, V3.sub_x, V3.sub_y, V3.sub_z, M3.mulVec_x, M3.mulVec_y, M3.mulVec_z, M3.transpose_m00,
      M3.transpose_m01, M3.transpose_m02, M3.transpose_m10, M3.transpose_m11, M3.transpose_m12, M3.transpose_m20,
      M3.transpose_m21, M3.transpose_m22]
    ring
  have h1 := (le_abs_self _).trans (V3.dot_abs_le v (A.mulVec w - B.mulVec w))
  rw [← e, ← V3.norm_sq] at h1
  have h2 := mul_le_mul_of_nonneg_left (h w) v.norm_nonneg
  have h3 : w.norm * w.norm ≤ (δ * v.norm) * w.norm := by nlinarith
  exact le_of_mul_le_mul_right h3 hpos

lemma mul_left (h : Close δ A B) (hC : IsSO3 C) : Close δ (C * A) (C * B) := fun v => by
  rw [← M3.mulVec_mulVec, ← M3.mulVec_mulVec, ← M3.mulVec_sub, SO3.mulVec_norm hC]; exact h v

lemma mul_right (h : Close δ A B) (hC : IsSO3 C) : Close δ (A * C) (B * C) := fun v => by
  rw [← M3.mulVec_mulVec, ← M3.mulVec_mulVec]
  have := h (C.mulVec v)
  rwa [SO3.mulVec_norm hC] at this

end Close

/-! ## Closeness and the relative rotation angle -/

lemma rodMat_sub_normSq (θ : ℝ) {n : V3} (hn : n.normSq = 1) (w : V3) :
    ((rodMat θ n).mulVec w - w).normSq = 2 * (1 - Real.cos θ) * (n.cross w).normSq := by
  rw [← rodrigues_eq]
  have h1 := Real.sin_sq_add_cos_sq θ
  simp only [V3.normSq, V3.dot] at hn
  simp only [rodrigues, V3.normSq, V3.dot, V3.cross, V3.sub_x, V3.sub_y, V3.sub_z, V3.add_x, V3.add_y, V3.add_z, V3.smul_x,
    V3.smul_y, V3.smul_z]
  generalize Real.cos θ = c at *
  generalize Real.sin θ = s at *
  obtain ⟨a, b, d⟩ := n
  obtain ⟨x, y, z⟩ := w
  simp only at *
  linear_combination ((b * z - d * y) * (b * z - d * y) + (d * x - a * z) * (d * x - a * z) + (a * y - b * x) * (a * y - b * x)) * h1 +
    ((1 - c) ^ 2 * ((a * x + b * y + d * z) ^ 2 - (x * x + y * y + z * z))) * hn

lemma one_sub_cos_le (θ : ℝ) : 2 * (1 - Real.cos θ) ≤ θ ^ 2 := by
  have := Real.one_sub_sq_div_two_le_cos (x := θ); linarith

lemma close_of_rotAngle {A B : M3} (hA : IsSO3 A) (hB : IsSO3 B) {δ : ℝ} (h : rotAngle (A * B.transpose) ≤ δ) :
    Close δ A B := by
  intro v
  have hAB := SO3.mul hA (SO3.transpose hB)
  obtain ⟨θ, n, hn, h0, h1, e⟩ := exists_rodMat hAB
  rw [e, rotAngle_rodMat hn h0 h1] at h
  have hv : A.mulVec v = (rodMat θ n).mulVec (B.mulVec v) := by
    rw [← e, M3.mulVec_mulVec, mul_assoc, SO3.tr_mul hB, mul_one]
  rw [hv, ← SO3.mulVec_norm hB v]
  set w := B.mulVec v
  apply le_of_sq_le_sq _ (mul_nonneg (h0.trans h) w.norm_nonneg)
  rw [V3.norm_sq, rodMat_sub_normSq θ hn, mul_pow, V3.norm_sq]
  have h2 := V3.lagrange n w
  rw [hn, one_mul] at h2
  have h3 : (n.cross w).normSq ≤ w.normSq := by nlinarith [sq_nonneg (n.dot w)]
  have h4 : θ ^ 2 ≤ δ ^ 2 := pow_le_pow_left₀ h0 h 2
  have h5 := one_sub_cos_le θ
  have h6 : 2 * (1 - Real.cos θ) ≤ δ ^ 2 := h5.trans h4
  exact mul_le_mul h6 h3 (V3.normSq_nonneg _) (sq_nonneg _)

lemma rotAngle_of_close {A B : M3} (hA : IsSO3 A) (hB : IsSO3 B) {δ : ℝ} (h : Close δ A B) :
    rotAngle (A * B.transpose) ≤ 2 * δ := by
  have hAB := SO3.mul hA (SO3.transpose hB)
  set θ := rotAngle (A * B.transpose) with hθ
  have h0 : 0 ≤ θ := rotAngle_nonneg _
  have hpi : θ ≤ Real.pi := rotAngle_le_pi _
  have htr := trace_eq hAB
  rw [← hθ] at htr
  have hd := h.nonneg
  have key : ∀ v : V3, v.normSq = 1 → (A.mulVec v - B.mulVec v).normSq ≤ δ ^ 2 := fun v hv => by
    have := h v
    rw [V3.norm_eq_one_iff.mpr hv, mul_one] at this
    rw [← V3.norm_sq]; exact pow_le_pow_left₀ (V3.norm_nonneg _) this 2
  have k1 := key ⟨1, 0, 0⟩ (by norm_num [V3.normSq, V3.dot])
  have k2 := key ⟨0, 1, 0⟩ (by norm_num [V3.normSq, V3.dot])
  have k3 := key ⟨0, 0, 1⟩ (by norm_num [V3.normSq, V3.dot])
  simp [V3.normSq, V3.dot] at k1 k2 k3
  have RA := SO3.rel hA
  have RB := SO3.rel hB
  simp [M3.trace] at htr
  have hs : 4 * (1 - Real.cos θ) ≤ 3 * δ ^ 2 := by
    linarith [RA.c00, RA.c11, RA.c22, RB.c00, RB.c11, RB.c22]
  have hsin := mul_le_sin' (x := θ / 2) (by linarith) (by linarith)
  have hsq := sin_half_sq θ
  have e : 2 / Real.pi * (θ / 2) = θ / Real.pi := by ring
  rw [e] at hsin
  have h1 : (θ / Real.pi) ^ 2 ≤ Real.sin (θ / 2) ^ 2 := pow_le_pow_left₀ (by positivity) hsin 2
  have h2 : (θ / Real.pi) ^ 2 ≤ 3 / 8 * δ ^ 2 := by linarith
  have hp := Real.pi_lt_d2
  have hp0 := Real.pi_pos
  rw [div_pow, div_le_iff₀ (by positivity)] at h2
  apply le_of_sq_le_sq _ (by linarith)
  have : Real.pi ^ 2 ≤ 10 := by nlinarith
  nlinarith [sq_nonneg δ]

/-- The rotation angle is 2-Lipschitz with respect to closeness. -/
lemma rotAngle_close {A B : M3} (hA : IsSO3 A) (hB : IsSO3 B) {δ : ℝ} (h : Close δ A B) : |rotAngle A - rotAngle B| ≤ 2 * δ := by
  have h1 := rotAngle_of_close hA hB h
  have t1 := rotAngle_triangle hA hB SO3.one
  have t2 := rotAngle_triangle hB hA SO3.one
  have e : rotAngle (B * A.transpose) = rotAngle (A * B.transpose) := by
    rw [← rotAngle_transpose, M3.transpose_mul, M3.transpose_transpose]
  rw [M3.transpose_one, mul_one, mul_one] at t1 t2
  rw [abs_le]; constructor <;> linarith

/-! ## Quaternions that are almost unit -/

/-- `p` is `c` times a unit quaternion whose rotation is `δ`-close to `R`, with `|c - 1| ≤ η`. -/
def NearQ (η δ : ℝ) (p : Quat) (R : M3) : Prop :=
  ∃ (c : ℝ) (u : Quat), u.normSq = 1 ∧ p = ⟨c * u.w, c * u.x, c * u.y, c * u.z⟩ ∧ |c - 1| ≤ η ∧ Close δ (sMat u) R

lemma NearQ.of_unit {p : Quat} (h : p.normSq = 1) : NearQ 0 0 p (sMat p) :=
  ⟨1, p, h, by simp, by simp, Close.refl _⟩

lemma NearQ.mono {η δ η' δ' : ℝ} {p : Quat} {R : M3} (h : NearQ η δ p R) (h1 : η ≤ η') (h2 : δ ≤ δ') : NearQ η' δ' p R := by
  obtain ⟨c, u, hu, e, hc, hcl⟩ := h
  exact ⟨c, u, hu, e, hc.trans h1, hcl.mono h2⟩

lemma NearQ.close {η δ ε : ℝ} {p : Quat} {R S : M3} (h : NearQ η δ p R) (h2 : Close ε R S) : NearQ η (δ + ε) p S := by
  obtain ⟨c, u, hu, e, hc, hcl⟩ := h
  exact ⟨c, u, hu, e, hc, hcl.trans h2⟩

lemma NearQ.mul {η δ η' δ' : ℝ} {p q : Quat} {R S : M3} (h : NearQ η δ p R) (h' : NearQ η' δ' q S) (hR : IsSO3 R) :
    NearQ (η + η' + η * η') (δ + δ') (p * q) (R * S) := by
  obtain ⟨c, u, hu, rfl, hc, hcl⟩ := h
  obtain ⟨d, w, hw, rfl, hd, hdl⟩ := h'
  refine ⟨c * d, u * w, by rw [Quat.normSq_mul, hu, hw, one_mul], ?_, ?_, ?_⟩
  · ext <;> simp <;> ring
  · have e : c * d - 1 = (c - 1) + (d - 1) + (c - 1) * (d - 1) := by ring
    rw [e]
    refine (abs_add_le _ _).trans (add_le_add ((abs_add_le _ _).trans (add_le_add hc hd)) ?_)
    rw [abs_mul]; exact mul_le_mul hc hd (abs_nonneg _) ((abs_nonneg _).trans hc)
  · rw [sMat_mul]; exact hcl.mul hdl (sMat_isSO3 hw) hR

lemma norm_pureH (v : V3) : ‖pureH v‖ = v.norm := by
  have : pureH v = toH ⟨0, v.x, v.y, v.z⟩ := rfl
  rw [this, norm_toH, Quat.norm, V3.norm]
  congr 1
  simp only [Quat.normSq, V3.normSq, V3.dot]; ring

lemma pureH_sandwich (q : Quat) (v : V3) : pureH (sandwich q v) = toH q * pureH v * star (toH q) := by
  ext <;> simp [sandwich]; ring

/-- The sandwich product is Lipschitz in the quaternion. -/
lemma sandwich_lipschitz (p q : Quat) (v : V3) :
    (sandwich p v - sandwich q v).norm ≤ (p.norm + q.norm) * ‖toH p - toH q‖ * v.norm := by
  have e : pureH (sandwich p v - sandwich q v) =
      (toH p - toH q) * pureH v * star (toH p) + toH q * pureH v * star (toH p - toH q) := by
    have h : pureH (sandwich p v - sandwich q v) = pureH (sandwich p v) - pureH (sandwich q v) := by
      ext <;> simp
    rw [h, pureH_sandwich, pureH_sandwich, star_sub]; noncomm_ring
  rw [← norm_pureH, e]
  refine (norm_add_le _ _).trans ?_
  rw [norm_mul, norm_mul, norm_mul, norm_mul, norm_star, norm_star, norm_pureH, norm_toH, norm_toH]
  linarith

lemma unit_norm {u : Quat} (h : u.normSq = 1) : u.norm = 1 := by rw [Quat.norm, h, Real.sqrt_one]

lemma sMat_lipschitz {p q : Quat} (hp : p.normSq = 1) (hq : q.normSq = 1) {η : ℝ} (h : ‖toH p - toH q‖ ≤ η) :
    Close (2 * η) (sMat p) (sMat q) := fun v => by
  rw [← sandwich_eq, ← sandwich_eq]
  refine (sandwich_lipschitz p q v).trans ?_
  rw [unit_norm hp, unit_norm hq]
  have := v.norm_nonneg
  nlinarith

/-- Any quaternion within `η < 1` of a unit quaternion `u` is near the rotation of `u`. -/
lemma nearQ_of_dist {p u : Quat} (hu : u.normSq = 1) {η : ℝ} (h : ‖toH p - toH u‖ ≤ η) (hη : η < 1) :
    NearQ η (4 * η) p (sMat u) := by
  have h1 : |p.norm - 1| ≤ η := by
    have := abs_norm_sub_norm_le (toH p) (toH u)
    rw [norm_toH, norm_toH, unit_norm hu] at this
    exact this.trans h
  have hpos : 0 < p.norm := by have := (abs_le.mp h1).1; linarith
  set c := p.norm with hc
  have hc2 : c * c = p.normSq := Real.mul_self_sqrt p.normSq_nonneg
  set w : Quat := ⟨p.w / c, p.x / c, p.y / c, p.z / c⟩ with hw
  have hw1 : w.normSq = 1 := by
    have : w.normSq = p.normSq / (c * c) := by simp only [hw, Quat.normSq]; field_simp
    rw [this, hc2, div_self]; rw [← hc2]; positivity
  have hpw : p = ⟨c * w.w, c * w.x, c * w.y, c * w.z⟩ := by
    ext <;> simp only [hw] <;> field_simp
  refine ⟨c, w, hw1, hpw, h1, ?_⟩
  have hd : ‖toH w - toH p‖ ≤ η := by
    have e : toH w - toH p = (1 - c) • toH w := by
      rw [sub_smul, one_smul]; congr 1
      rw [hpw]; ext <;> simp
    rw [e, norm_smul, norm_toH, unit_norm hw1, mul_one, Real.norm_eq_abs, abs_sub_comm]; exact h1
  have hd2 : ‖toH w - toH u‖ ≤ 2 * η := by
    have e : toH w - toH u = (toH w - toH p) + (toH p - toH u) := by abel
    rw [e]; refine (norm_add_le _ _).trans ?_; linarith
  have := sMat_lipschitz hw1 hu hd2
  exact this.mono (by linarith)

/-! ### What the conversions make of an almost-unit quaternion -/

lemma sMat_scale (c : ℝ) (u : Quat) : sMat ⟨c * u.w, c * u.x, c * u.y, c * u.z⟩ = c ^ 2 • sMat u := by
  ext <;> simp [sMat] <;> ring

lemma toRotationMatrix_scale (c : ℝ) {u : Quat} (hu : u.normSq = 1) :
    Quat.toRotationMatrix ⟨c * u.w, c * u.x, c * u.y, c * u.z⟩ = (1 - c ^ 2) • (1 : M3) + c ^ 2 • sMat u := by
  simp only [Quat.normSq] at hu
  ext <;> simp [sMat, Quat.toRotationMatrix] <;> first | ring1 | linear_combination (c ^ 2) * hu | linear_combination (-c ^ 2) * hu

lemma sq_sub_one_le {c η : ℝ} (h : |c - 1| ≤ η) (hη : η ≤ 1 / 100) : |c ^ 2 - 1| ≤ 201 / 100 * η := by
  obtain ⟨h1, h2⟩ := abs_le.mp h
  have e : c ^ 2 - 1 = (c - 1) * (c + 1) := by ring
  rw [e, abs_mul]
  have h3 : |c + 1| ≤ 201 / 100 := by rw [abs_le]; constructor <;> linarith
  have := mul_le_mul h h3 (abs_nonneg _) ((abs_nonneg _).trans h)
  linarith

variable {η δ : ℝ} {p : Quat} {R : M3}

lemma NearQ.sandwich (h : NearQ η δ p R) (hη : η ≤ 1 / 100) : Close (201 / 100 * η + δ) (sMat p) R := by
  obtain ⟨c, u, hu, rfl, hc, hcl⟩ := h
  refine Close.trans (B := sMat u) ?_ hcl
  intro v
  rw [sMat_scale, M3.smul_mulVec]
  have e : c ^ 2 • (sMat u).mulVec v - (sMat u).mulVec v = (c ^ 2 - 1) • (sMat u).mulVec v := by rw [sub_smul, one_smul]
  rw [e, V3.norm_smul, SO3.mulVec_norm (sMat_isSO3 hu)]
  exact mul_le_mul_of_nonneg_right (sq_sub_one_le hc hη) v.norm_nonneg

lemma NearQ.toRotationMatrix (h : NearQ η δ p R) (hη : η ≤ 1 / 100) :
    Close (402 / 100 * η + δ) p.toRotationMatrix R := by
  obtain ⟨c, u, hu, rfl, hc, hcl⟩ := h
  refine Close.trans (B := sMat u) ?_ hcl
  intro v
  rw [toRotationMatrix_scale c hu, M3.add_mulVec, M3.smul_mulVec, M3.smul_mulVec, M3.one_mulVec]
  have e : (1 - c ^ 2) • v + c ^ 2 • (sMat u).mulVec v - (sMat u).mulVec v =
      (c ^ 2 - 1) • ((sMat u).mulVec v - v) := by
    ext <;> simp <;> ring
  rw [e, V3.norm_smul]
  have h1 := V3.norm_sub_le ((sMat u).mulVec v) v
  rw [SO3.mulVec_norm (sMat_isSO3 hu)] at h1
  have h2 := sq_sub_one_le hc hη
  have := mul_le_mul h2 h1 (V3.norm_nonneg _) ((abs_nonneg _).trans h2)
  linarith

lemma atan2_scale {c : ℝ} (hc : 0 < c) (y x : ℝ) : atan2 (c * y) (c * x) = atan2 y x := by
  have : (⟨c * x, c * y⟩ : ℂ) = (c : ℂ) * ⟨x, y⟩ := by
    apply Complex.ext <;> simp
  rw [atan2, atan2, this, Complex.arg_real_mul _ hc]

lemma vec_scale (c : ℝ) (u : Quat) : Quat.vec ⟨c * u.w, c * u.x, c * u.y, c * u.z⟩ = c • u.vec := by
  ext <;> simp [Quat.vec]

lemma ofQuat_scale {c : ℝ} (hc : 0 < c) (u : Quat) :
    AngAx.ofQuat ⟨c * u.w, c * u.x, c * u.y, c * u.z⟩ = AngAx.ofQuat u := by
  simp only [AngAx.ofQuat, vec_scale, V3.norm_smul, abs_of_pos hc, abs_mul, atan2_scale hc]
  by_cases h0 : u.vec.norm = 0
  · simp [h0]
  · have h1 : c * u.vec.norm ≠ 0 := mul_ne_zero hc.ne' h0
    rw [if_pos h1, if_pos h0]
    have h2 : (c * u.w < 0) ↔ u.w < 0 := by
      constructor
      · intro h; by_contra h'; push Not at h'; have := mul_nonneg hc.le h'; linarith
      · intro h; exact mul_neg_of_pos_of_neg hc h
    simp only [h2]
    congr 1
    split_ifs <;> rw [smul_smul] <;> congr 1 <;> field_simp

lemma NearQ.ofQuat (h : NearQ η δ p R) (hη : η ≤ 1 / 100) :
    (AngAx.ofQuat p).axis.normSq = 1 ∧ Close δ (rodMat (AngAx.ofQuat p).angle (AngAx.ofQuat p).axis) R := by
  obtain ⟨c, u, hu, rfl, hc, hcl⟩ := h
  have hpos : 0 < c := by have := (abs_le.mp hc).1; linarith
  rw [ofQuat_scale hpos]
  exact ⟨(ofQuat_spec hu).1, by rw [rodMat_ofQuat hu]; exact hcl⟩

/-- A unit quaternion with small nonzero imaginary part in half-angle form. -/
lemma half_angle_form {u : Quat} (hu : u.normSq = 1) (hv : u.vec ≠ 0) (hw : u.w ≠ 0) :
    ∃ (σ : ℝ) (n : V3), n.normSq = 1 ∧ u.vec = (σ * u.vec.norm) • n ∧ sMat u = rodMat (2 * Real.arcsin u.vec.norm) n ∧
      ((σ = 1 ∧ 0 < u.w) ∨ (σ = -1 ∧ u.w < 0)) := by
  set m := u.vec.norm with hm
  have hpos : 0 < m := V3.norm_pos hv
  have hm2 : m ^ 2 = 1 - u.w ^ 2 := vec_norm_sq hu
  have hm1 : m ≤ 1 := by nlinarith [sq_nonneg u.w]
  have hsin : Real.sin (Real.arcsin m) = m := Real.sin_arcsin (by linarith) hm1
  have hcos : Real.cos (Real.arcsin m) = |u.w| := by
    rw [Real.cos_arcsin, hm2, ← Real.sqrt_sq_eq_abs]; congr 1; ring
  obtain ⟨σ, hσ⟩ : ∃ σ : ℝ, (σ = 1 ∧ 0 < u.w) ∨ (σ = -1 ∧ u.w < 0) := by
    rcases lt_or_gt_of_ne hw with h | h
    · exact ⟨-1, Or.inr ⟨rfl, h⟩⟩
    · exact ⟨1, Or.inl ⟨rfl, h⟩⟩
  have hσ2 : σ * σ = 1 := by rcases hσ with ⟨rfl, -⟩ | ⟨rfl, -⟩ <;> norm_num
  have hσw : |u.w| = σ * u.w := by
    rcases hσ with ⟨rfl, h⟩ | ⟨rfl, h⟩
    · rw [abs_of_pos h, one_mul]
    · rw [abs_of_neg h]; ring
  have hn1 : ((σ / m) • u.vec).normSq = 1 := by
    rw [V3.normSq_smul, ← V3.norm_sq, ← hm, div_pow, sq σ, hσ2]; field_simp
  refine ⟨σ, (σ / m) • u.vec, hn1, ?_, ?_, hσ⟩
  · rw [smul_smul]
    have : σ * m * (σ / m) = 1 := by field_simp; linarith
    rw [this, one_smul]
  · rw [← sMat_ofAngleAxis _ hn1]
    have e : 1 / 2 * (2 * Real.arcsin m) = Real.arcsin m := by ring
    have hq : Quat.ofAngleAxis (2 * Real.arcsin m) ((σ / m) • u.vec) = ⟨σ * u.w, σ * u.x, σ * u.y, σ * u.z⟩ := by
      simp only [Quat.ofAngleAxis, e, hsin, hcos, hσw]
      ext <;> simp <;> field_simp
    rw [hq, sMat_scale, sq, hσ2, one_smul]

set_option maxHeartbeats 1000000 in
/-- `RotationVector(q)` for an almost-unit quaternion; `μ` bounds the sine of half the angle in the small-angle branch. -/
lemma NearQ.rvOfQuat_gen {P : Prec} (h : NearQ η δ p R) (hη : η ≤ 1 / 1000) {μ : ℝ} (hμ0 : 0 ≤ μ) (hμ1 : μ ≤ 1 / 20)
    (hμ : P.dp + 201 / 100 * η ≤ μ ^ 2) :
    Close (2 * μ * (P.dp + 201 / 100 * η) + 2 * μ * η + δ) (dmat .rv (rvOfQuat P p)) R := by
  obtain ⟨c, u, hu, rfl, hc, hcl⟩ := h
  have hη0 : 0 ≤ η := (abs_nonneg _).trans hc
  have hdp := P.dp_le
  have hdp0 := P.dp_pos
  obtain ⟨hc1, hc2⟩ := abs_le.mp hc
  have hpos : 0 < c := by linarith
  suffices hs : Close (2 * μ * (P.dp + 201 / 100 * η) + 2 * μ * η) (dmat .rv (Kindr.rvOfQuat P ⟨c * u.w, c * u.x, c * u.y, c * u.z⟩)) (sMat u) from
    hs.trans hcl
  have hm2 := vec_norm_sq hu
  by_cases hv : u.vec = 0
  · -- zero rotation
    have h0 : Kindr.rvOfQuat P ⟨c * u.w, c * u.x, c * u.y, c * u.z⟩ = ⟨0⟩ := by
      simp only [Kindr.rvOfQuat, vec_scale, hv, smul_zero, ite_self]
    have h1 : sMat u = 1 := by
      rw [hv, V3.norm_zero] at hm2
      have hx : u.x = 0 := congrArg V3.x hv
      have hy : u.y = 0 := congrArg V3.y hv
      have hz : u.z = 0 := congrArg V3.z hv
      have hw : u.w ^ 2 = 1 := by linarith
      ext <;> simp [sMat, hx, hy, hz, hw]
    rw [h0, h1, dmat_rv_zero]
    exact (Close.refl _).mono (by positivity)
  · have hmpos := V3.norm_pos hv
    by_cases hb : 1 - c * u.w * (c * u.w) < P.dp
    · -- small branch
      have hcu : 1 - P.dp < c ^ 2 * u.w ^ 2 := by nlinarith
      have hwne : u.w ≠ 0 := by
        intro e; rw [e] at hcu; norm_num at hcu; linarith
      obtain ⟨σ, n, hn, hvn, hrod, hσ⟩ := half_angle_form hu hv hwne
      set m := u.vec.norm with hm
      have hrv : Kindr.rvOfQuat P ⟨c * u.w, c * u.x, c * u.y, c * u.z⟩ = ⟨(2 * (c * m)) • n⟩ := by
        simp only [Kindr.rvOfQuat, hb, if_true, vec_scale]
        rcases hσ with ⟨rfl, hw⟩ | ⟨rfl, hw⟩
        · have h1 : c * u.w > 0 := mul_pos hpos hw
          simp only [h1, if_true]
          rw [hvn]; simp only [smul_smul]; congr 2; ring
        · have h1 : ¬ c * u.w > 0 := not_lt.mpr (mul_neg_of_pos_of_neg hpos hw).le
          simp only [h1, if_false]
          rw [hvn]; simp only [smul_smul]; congr 2; ring
      rw [hrv, dmat_rv_smul _ hn, hrod]
      apply close_of_rotAngle (rodMat_isSO3 _ hn) (rodMat_isSO3 _ hn)
      refine (rotAngle_rodMat_diff _ _ hn).trans ?_
      have hcsq := (abs_le.mp (sq_sub_one_le hc (by linarith))).2
      have hw1 : u.w ^ 2 ≤ 1 := by nlinarith
      have hm3 : m ^ 2 ≤ P.dp + 201 / 100 * η := by
        have : c ^ 2 * u.w ^ 2 ≤ u.w ^ 2 + 201 / 100 * η := by nlinarith [sq_nonneg u.w]
        linarith
      have hm4 : m ≤ μ := le_of_sq_le_sq (hm3.trans hμ) hμ0
      set α := Real.arcsin m with hα
      have hsin : Real.sin α = m := Real.sin_arcsin (by linarith) (by linarith)
      have hα0 : 0 < α := Real.arcsin_pos.mpr hmpos
      have hα2 : α ≤ Real.pi / 2 := Real.arcsin_le_pi_div_two _
      have hαm : α ≤ 63 / 40 * m := by
        have h1 := Real.mul_le_sin hα0.le hα2
        rw [hsin] at h1
        have hpi := Real.pi_lt_d2
        have hpi0 := Real.pi_pos
        have h2 : α = Real.pi / 2 * (2 / Real.pi * α) := by field_simp
        rw [h2]
        have h3 : 0 ≤ 2 / Real.pi * α := by positivity
        nlinarith
      have h1 := Real.sin_gt_sub_cube hα0
      have h2 := Real.sin_lt hα0
      rw [hsin] at h1 h2
      have h3 : α ^ 3 ≤ (63 / 40 * m) ^ 3 := pow_le_pow_left₀ hα0.le hαm 3
      have h4 : α - m ≤ m ^ 3 := by nlinarith [pow_pos hmpos 3]
      have h5 : m ^ 3 ≤ μ * (P.dp + 201 / 100 * η) := by
        have : m ^ 3 = m * m ^ 2 := by ring
        rw [this]; exact mul_le_mul hm4 hm3 (sq_nonneg _) hμ0
      have e : 2 * (c * m) - 2 * α = 2 * ((c - 1) * m) - 2 * (α - m) := by ring
      have h6 : |(c - 1) * m| ≤ η * μ := by
        rw [abs_mul, abs_of_pos hmpos]; exact mul_le_mul hc hm4 hmpos.le hη0
      obtain ⟨h7, h8⟩ := abs_le.mp h6
      rw [e]
      clear hm3 hη hμ hμ1 hc1 hc2 hcsq hw1 hm4 hα2 hαm h3 hdp e h6
      have h9 : 2 * μ * (P.dp + 201 / 100 * η) + 2 * μ * η = 2 * (μ * (P.dp + 201 / 100 * η)) + 2 * (η * μ) := by ring
      rw [h9]
      generalize μ * (P.dp + 201 / 100 * η) = X at *
      generalize (c - 1) * m = Y at *
      generalize η * μ = Z at *
      rw [abs_le]; constructor <;> linarith
    · -- regular branch: scale invariant
      have hn := unit_dir hmpos.ne'
      have hrv : Kindr.rvOfQuat P ⟨c * u.w, c * u.x, c * u.y, c * u.z⟩ =
          ⟨(2 * atan2 u.vec.norm u.w) • ((1 / u.vec.norm) • u.vec)⟩ := by
        simp only [Kindr.rvOfQuat, hb, if_false, vec_scale, V3.norm_smul, abs_of_pos hpos, atan2_scale hpos, smul_smul]
        congr 2; field_simp
      rw [hrv, dmat_rv_smul _ hn, ← sMat_ofAngleAxis _ hn]
      have : Quat.ofAngleAxis (2 * atan2 u.vec.norm u.w) ((1 / u.vec.norm) • u.vec) = u := by
        have h1 : u.w ^ 2 + u.vec.norm ^ 2 = 1 := by linarith
        have e : 1 / 2 * (2 * atan2 u.vec.norm u.w) = atan2 u.vec.norm u.w := by ring
        ext <;> simp only [Quat.ofAngleAxis, e, cos_atan2 h1, sin_atan2 h1, V3.smul_x, V3.smul_y, V3.smul_z,
          Quat.vec_x, Quat.vec_y, Quat.vec_z] <;> field_simp
      rw [this]
      exact (Close.refl _).mono (by positivity)

/-- `RotationVector(q)` for an almost-unit quaternion. -/
lemma NearQ.rvOfQuat {P : Prec} (h : NearQ η δ p R) (hη : η ≤ 1 / 10 ^ 6) :
    Close (P.dp / 100 + η + δ) (dmat .rv (rvOfQuat P p)) R := by
  have hdp := P.dp_le
  have hdp0 := P.dp_pos
  have hη0 : 0 ≤ η := by obtain ⟨c, u, hu, -, hc, -⟩ := h; exact (abs_nonneg _).trans hc
  refine (h.rvOfQuat_gen (P := P) (μ := 4 / 1000) (by linarith) (by norm_num) (by norm_num) ?_).mono (by linarith)
  norm_num at hη hdp ⊢; linarith

/-- The same for less accurate quaternions. -/
lemma NearQ.rvOfQuat' {P : Prec} (h : NearQ η δ p R) (hη : η ≤ 1 / 1000) :
    Close (P.dp / 10 + η + δ) (dmat .rv (Kindr.rvOfQuat P p)) R := by
  have hdp := P.dp_le
  have hdp0 := P.dp_pos
  have hη0 : 0 ≤ η := by obtain ⟨c, u, hu, -, hc, -⟩ := h; exact (abs_nonneg _).trans hc
  refine (h.rvOfQuat_gen (P := P) (μ := 1 / 20) hη (by norm_num) (by norm_num) ?_).mono (by linarith)
  norm_num at hη hdp ⊢; linarith

/-! ### Euler angles of an almost-rotation -/

/-- Normalizing a pair of numbers of almost unit length. -/
lemma unit_pair {x y x' y' κ ι : ℝ} (h1 : (x' - x) ^ 2 + (y' - y) ^ 2 ≤ κ ^ 2) (hκ : 0 ≤ κ)
    (h2 : |Real.sqrt (x * x + y * y) - 1| ≤ ι) :
    (Real.cos (atan2 y' x') - x) ^ 2 + (Real.sin (atan2 y' x') - y) ^ 2 ≤ (2 * κ + ι) ^ 2 := by
  have hι : 0 ≤ ι := (abs_nonneg _).trans h2
  -- in the complex plane
  set z : ℂ := ⟨x, y⟩ with hz
  set z' : ℂ := ⟨x', y'⟩ with hz'
  have hzn : ‖z‖ = Real.sqrt (x * x + y * y) := norm_mk x y
  have hd : ‖z' - z‖ ≤ κ := by
    have e : z' - z = ⟨x' - x, y' - y⟩ := by apply Complex.ext <;> simp [hz, hz']
    rw [e, norm_mk]
    apply Real.sqrt_le_iff.mpr ⟨hκ, by nlinarith⟩
  have hn : |‖z'‖ - 1| ≤ κ + ι := by
    have h3 := abs_norm_sub_norm_le z' z
    have e : ‖z'‖ - 1 = (‖z'‖ - ‖z‖) + (‖z‖ - 1) := by ring
    rw [e, ← hzn] at *
    exact (abs_add_le _ _).trans (add_le_add (h3.trans hd) h2)
  set w : ℂ := ⟨Real.cos (atan2 y' x'), Real.sin (atan2 y' x')⟩ with hw
  have hw1 : ‖w‖ = 1 := by
    rw [hw, norm_mk, Real.sqrt_eq_one]
    have := Real.sin_sq_add_cos_sq (atan2 y' x'); linarith
  have hzw : z' = (‖z'‖ : ℂ) * w := by
    have e1 := atan2_mul_cos y' x'
    have e2 := atan2_mul_sin y' x'
    rw [← norm_mk] at e1 e2
    apply Complex.ext
    · simp only [Complex.mul_re, Complex.ofReal_re, Complex.ofReal_im, zero_mul, sub_zero, hw]; exact e1.symm
    · simp only [Complex.mul_im, Complex.ofReal_re, Complex.ofReal_im, zero_mul, add_zero, hw]; exact e2.symm
  have hwz : ‖w - z'‖ ≤ κ + ι := by
    have e : w - z' = ((1 - ‖z'‖ : ℝ) : ℂ) * w := by
      conv_lhs => rw [hzw]
      push_cast; ring
    rw [e, norm_mul, hw1, mul_one, Complex.norm_real, Real.norm_eq_abs, abs_sub_comm]; exact hn
  have hfin : ‖w - z‖ ≤ 2 * κ + ι := by
    have e : w - z = (w - z') + (z' - z) := by ring
    rw [e]; refine (norm_add_le _ _).trans ?_; linarith
  have e : w - z = ⟨Real.cos (atan2 y' x') - x, Real.sin (atan2 y' x') - y⟩ := by apply Complex.ext <;> simp [hz, hw]
  rw [e, norm_mk] at hfin
  have := (Real.sqrt_le_iff.mp hfin).2
  nlinarith

/-- A rotation that almost fixes `e_x` and almost fixes `e_y` is almost the identity. -/
lemma close_one_of_xy {T : M3} (hT : IsSO3 T) {a b : ℝ}
    (hx : (T.mulVec ⟨1, 0, 0⟩ - ⟨1, 0, 0⟩).norm ≤ a) (hy : (T.mulVec ⟨0, 1, 0⟩ - ⟨0, 1, 0⟩).norm ≤ b) :
    Close (2 * a + 2 * b) T 1 := by
  intro v
  have ha : 0 ≤ a := (V3.norm_nonneg _).trans hx
  have hb : 0 ≤ b := (V3.norm_nonneg _).trans hy
  have ex : (⟨1, 0, 0⟩ : V3).norm = 1 := V3.norm_eq_one_iff.mpr (by norm_num [V3.normSq, V3.dot])
  have ey : (⟨0, 1, 0⟩ : V3).norm = 1 := V3.norm_eq_one_iff.mpr (by norm_num [V3.normSq, V3.dot])
  have hz : (T.mulVec ⟨0, 0, 1⟩ - ⟨0, 0, 1⟩).norm ≤ a + b := by
    have e0 : (⟨0, 0, 1⟩ : V3) = (⟨1, 0, 0⟩ : V3).cross ⟨0, 1, 0⟩ := by ext <;> simp [V3.cross]
    have e : T.mulVec ⟨0, 0, 1⟩ - ⟨0, 0, 1⟩ =
        (T.mulVec ⟨1, 0, 0⟩ - ⟨1, 0, 0⟩).cross (T.mulVec ⟨0, 1, 0⟩) +
        (⟨1, 0, 0⟩ : V3).cross (T.mulVec ⟨0, 1, 0⟩ - ⟨0, 1, 0⟩) := by
      rw [e0, ← SO3.mulVec_cross hT]
      ext <;> simp [V3.cross] <;> ring
    rw [e]
    refine (V3.norm_add_le _ _).trans (add_le_add ((V3.norm_cross_le _ _).trans ?_) ((V3.norm_cross_le _ _).trans ?_))
    · rw [SO3.mulVec_norm hT, ey, mul_one]; exact hx
    · rw [ex, one_mul]; exact hy
  have e : T.mulVec v - (1 : M3).mulVec v = v.x • (T.mulVec ⟨1, 0, 0⟩ - ⟨1, 0, 0⟩) +
      v.y • (T.mulVec ⟨0, 1, 0⟩ - ⟨0, 1, 0⟩) + v.z • (T.mulVec ⟨0, 0, 1⟩ - ⟨0, 0, 1⟩) := by
    ext <;> simp <;> ring
  have comp : ∀ t : ℝ, t ^ 2 ≤ v.normSq → |t| ≤ v.norm := fun t ht => by
    apply abs_le_of_sq_le_sq _ v.norm_nonneg; rw [V3.norm_sq]; exact ht
  have cx := comp v.x (by simp only [V3.normSq, V3.dot]; nlinarith [sq_nonneg v.y, sq_nonneg v.z])
  have cy := comp v.y (by simp only [V3.normSq, V3.dot]; nlinarith [sq_nonneg v.x, sq_nonneg v.z])
  have cz := comp v.z (by simp only [V3.normSq, V3.dot]; nlinarith [sq_nonneg v.x, sq_nonneg v.y])
  rw [e]
  refine (V3.norm_add_le _ _).trans ?_
  have h1 := V3.norm_add_le (v.x • (T.mulVec ⟨1, 0, 0⟩ - ⟨1, 0, 0⟩)) (v.y • (T.mulVec ⟨0, 1, 0⟩ - ⟨0, 1, 0⟩))
  rw [V3.norm_smul, V3.norm_smul] at h1
  rw [V3.norm_smul]
  have m1 := mul_le_mul cx hx (V3.norm_nonneg _) v.norm_nonneg
  have m2 := mul_le_mul cy hy (V3.norm_nonneg _) v.norm_nonneg
  have m3 := mul_le_mul cz hz (V3.norm_nonneg _) v.norm_nonneg
  nlinarith

/-- Eigen's extraction of the Euler angles `(a, b, c)` of `M = Rz(a) Ry(b) Rx(c)`, with the choice of the branch `p` and of the
sign of the half turn left open. -/
def eulerCore (p : Prop) (sg : ℝ) (M : M3) : V3 :=
  let r := if p then (atan2 M.m10 M.m00 + sg, atan2 (-M.m20) (-Real.sqrt (M.m22 * M.m22 + M.m21 * M.m21)))
    else (atan2 M.m10 M.m00, atan2 (-M.m20) (Real.sqrt (M.m22 * M.m22 + M.m21 * M.m21)))
  ⟨r.1, r.2, atan2 (Real.sin r.1 * M.m02 - Real.cos r.1 * M.m12) (Real.cos r.1 * M.m11 - Real.sin r.1 * M.m01)⟩

lemma sqrt_pair_sub {a b c d ε : ℝ} (h : (a - c) ^ 2 + (b - d) ^ 2 ≤ ε ^ 2) (hε : 0 ≤ ε) :
    |Real.sqrt (a * a + b * b) - Real.sqrt (c * c + d * d)| ≤ ε := by
  have h1 := abs_norm_sub_norm_le (⟨a, b⟩ : ℂ) ⟨c, d⟩
  have e : (⟨a, b⟩ : ℂ) - ⟨c, d⟩ = ⟨a - c, b - d⟩ := by apply Complex.ext <;> simp
  rw [e, norm_mk, norm_mk, norm_mk] at h1
  refine h1.trans (Real.sqrt_le_iff.mpr ⟨hε, by nlinarith⟩)

lemma sqrt_one_sub_sq {x y t ε : ℝ} (h : x * x + y * y = 1 - t * t) (ht : t ^ 2 ≤ ε ^ 2) (hε : 0 ≤ ε) (h1 : ε ≤ 1 / 10) :
    |Real.sqrt (x * x + y * y) - 1| ≤ ε := by
  rw [h, abs_le]
  constructor
  · have : 1 - ε ≤ Real.sqrt (1 - t * t) := by
      apply Real.le_sqrt_of_sq_le; nlinarith
    linarith
  · have : Real.sqrt (1 - t * t) ≤ 1 := by
      rw [Real.sqrt_le_iff]; exact ⟨zero_le_one, by nlinarith [mul_self_nonneg t]⟩
    linarith

set_option maxHeartbeats 800000 in
/-- Backward stability of the Euler-angle extraction: if `M` is within `ε` of a rotation `R`, then the rotation with the extracted
angles is within `24 ε` of `R` — including in and near gimbal lock. -/
lemma eulerCore_close (p : Prop) {sg : ℝ} (hsg : sg = Real.pi ∨ sg = -Real.pi) {M R : M3} (hR : IsSO3 R) {ε : ℝ}
    (h : Close ε M R) (hε : ε ≤ 1 / 100) :
    Close (24 * ε) (rZ (eulerCore p sg M).x * rY (eulerCore p sg M).y * rX (eulerCore p sg M).z) R := by
  have hε0 := h.nonneg
  set c2 := Real.sqrt (M.m22 * M.m22 + M.m21 * M.m21) with hc2
  obtain ⟨τ, hτ, hca, hsa, hb⟩ : ∃ τ : ℝ, τ * τ = 1 ∧
      Real.cos (eulerCore p sg M).x = τ * Real.cos (atan2 M.m10 M.m00) ∧
      Real.sin (eulerCore p sg M).x = τ * Real.sin (atan2 M.m10 M.m00) ∧
      (eulerCore p sg M).y = atan2 (-M.m20) (τ * c2) := by
    by_cases hp : p
    · refine ⟨-1, by norm_num, ?_, ?_, ?_⟩
      · simp only [eulerCore, hp, if_true]
        rcases hsg with rfl | rfl
        · rw [Real.cos_add_pi]; ring
        · rw [← sub_eq_add_neg, Real.cos_sub_pi]; ring
      · simp only [eulerCore, hp, if_true]
        rcases hsg with rfl | rfl
        · rw [Real.sin_add_pi]; ring
        · rw [← sub_eq_add_neg, Real.sin_sub_pi]; ring
      · simp only [eulerCore, hp, if_true, neg_one_mul]; rfl
    · exact ⟨1, by norm_num, by simp [eulerCore, hp], by simp [eulerCore, hp], by simp [eulerCore, hp, hc2]⟩
  have hg : (eulerCore p sg M).z = atan2 (Real.sin (eulerCore p sg M).x * M.m02 - Real.cos (eulerCore p sg M).x * M.m12)
      (Real.cos (eulerCore p sg M).x * M.m11 - Real.sin (eulerCore p sg M).x * M.m01) := rfl
  generalize (eulerCore p sg M).x = a at *
  generalize (eulerCore p sg M).y = b at *
  generalize (eulerCore p sg M).z = g at *
  set ρ := Real.sqrt (M.m00 * M.m00 + M.m10 * M.m10) with hρ
  have ha1 : ρ * Real.cos (atan2 M.m10 M.m00) = M.m00 := atan2_mul_cos _ _
  have ha2 : ρ * Real.sin (atan2 M.m10 M.m00) = M.m10 := atan2_mul_sin _ _
  have hcs := Real.sin_sq_add_cos_sq (atan2 M.m10 M.m00)
  generalize Real.cos (atan2 M.m10 M.m00) = ca at *
  generalize Real.sin (atan2 M.m10 M.m00) = sa at *
  -- entries of the residual
  have hcol : ∀ {X Y : M3} {κ : ℝ}, Close κ X Y →
      (X.m00 - Y.m00) ^ 2 + (X.m10 - Y.m10) ^ 2 + (X.m20 - Y.m20) ^ 2 ≤ κ ^ 2 := fun {X Y κ} hc => by
    have h1 := hc ⟨1, 0, 0⟩
    rw [V3.norm_eq_one_iff.mpr (by norm_num [V3.normSq, V3.dot] : (⟨1, 0, 0⟩ : V3).normSq = 1), mul_one] at h1
    have h2 := pow_le_pow_left₀ (V3.norm_nonneg _) h1 2
    rw [V3.norm_sq] at h2
    simp [V3.normSq, V3.dot] at h2
    linarith
  have hrow1 : ∀ {X Y : M3} {κ : ℝ}, Close κ X Y →
      (X.m10 - Y.m10) ^ 2 + (X.m11 - Y.m11) ^ 2 + (X.m12 - Y.m12) ^ 2 ≤ κ ^ 2 := fun {X Y κ} hc => by
    have h1 := hc.transpose ⟨0, 1, 0⟩
    rw [V3.norm_eq_one_iff.mpr (by norm_num [V3.normSq, V3.dot] : (⟨0, 1, 0⟩ : V3).normSq = 1), mul_one] at h1
    have h2 := pow_le_pow_left₀ (V3.norm_nonneg _) h1 2
    rw [V3.norm_sq] at h2
    simp [V3.normSq, V3.dot] at h2
    linarith
  have hrow2 : ∀ {X Y : M3} {κ : ℝ}, Close κ X Y →
      (X.m20 - Y.m20) ^ 2 + (X.m21 - Y.m21) ^ 2 + (X.m22 - Y.m22) ^ 2 ≤ κ ^ 2 := fun {X Y κ} hc => by
    have h1 := hc.transpose ⟨0, 0, 1⟩
    rw [V3.norm_eq_one_iff.mpr (by norm_num [V3.normSq, V3.dot] : (⟨0, 0, 1⟩ : V3).normSq = 1), mul_one] at h1
    have h2 := pow_le_pow_left₀ (V3.norm_nonneg _) h1 2
    rw [V3.norm_sq] at h2
    simp [V3.normSq, V3.dot] at h2
    linarith
  have RR := SO3.rel hR
  -- the two ways to compute |cos b|
  have hrr : R.m22 * R.m22 + R.m21 * R.m21 = R.m00 * R.m00 + R.m10 * R.m10 := by linarith [RR.r22, RR.c00]
  have hc2ρ : |c2 - ρ| ≤ 2 * ε := by
    have k1 := sqrt_pair_sub (a := M.m22) (b := M.m21) (c := R.m22) (d := R.m21) (ε := ε)
      (by linarith [hrow2 h, sq_nonneg (M.m20 - R.m20)]) hε0
    have k2 := sqrt_pair_sub (a := M.m00) (b := M.m10) (c := R.m00) (d := R.m10) (ε := ε)
      (by linarith [hcol h, sq_nonneg (M.m20 - R.m20)]) hε0
    rw [hrr, ← hc2] at k1
    rw [← hρ] at k2
    obtain ⟨k3, k4⟩ := abs_le.mp k1
    obtain ⟨k5, k6⟩ := abs_le.mp k2
    rw [abs_le]; constructor <;> linarith
  -- rotate the first angle away
  have hZ := rZ_isSO3 a
  set Q := (rZ a).transpose * R with hQ
  set Q' := (rZ a).transpose * M with hQ'
  have hQS : IsSO3 Q := SO3.mul (SO3.transpose hZ) hR
  have hQQ : Close ε Q' Q := h.mul_left (SO3.transpose hZ)
  have RQ := SO3.rel hQS
  have q10 : Q'.m10 = 0 := by
    simp [hQ', rZ, hca, hsa]; rw [← ha1, ← ha2]; ring
  have q00 : Q'.m00 = τ * ρ := by
    simp [hQ', rZ, hca, hsa]; rw [← ha1, ← ha2]; linear_combination (τ * ρ) * hcs
  have q20 : Q'.m20 = M.m20 := by simp [hQ', rZ]
  have q11 : Q'.m11 = Real.cos a * M.m11 - Real.sin a * M.m01 := by simp [hQ', rZ]; ring
  have q12 : -Q'.m12 = Real.sin a * M.m02 - Real.cos a * M.m12 := by simp [hQ', rZ]; ring
  have hc := hcol hQQ
  have hr := hrow1 hQQ
  rw [q10] at hc hr
  have ht : Q.m10 ^ 2 ≤ ε ^ 2 := by
    have e : (0 - Q.m10) ^ 2 = Q.m10 ^ 2 := by ring
    rw [e] at hc; linarith [sq_nonneg (Q'.m00 - Q.m00), sq_nonneg (Q'.m20 - Q.m20)]
  -- the second angle
  have hB : (Real.cos b - Q.m00) ^ 2 + (Real.sin b - -Q.m20) ^ 2 ≤ (2 * (3 * ε) + ε) ^ 2 := by
    rw [hb]
    apply unit_pair _ (by linarith) (sqrt_one_sub_sq (t := Q.m10) (by linarith [RQ.c00, sq Q.m00, sq Q.m10, sq Q.m20, neg_mul_neg Q.m20 Q.m20]) ht hε0 (by linarith))
    obtain ⟨k1, k2⟩ := abs_le.mp hc2ρ
    have hd : (τ * c2 - τ * ρ) ^ 2 ≤ (2 * ε) ^ 2 := by
      have : (τ * c2 - τ * ρ) ^ 2 = (c2 - ρ) ^ 2 := by linear_combination (c2 - ρ) ^ 2 * hτ
      rw [this]; exact sq_le_sq' (by linarith) k2
    rw [q00, q20] at hc
    set d := τ * c2 - τ * ρ with hdd
    set e := τ * ρ - Q.m00 with hee
    set f := M.m20 - Q.m20 with hff
    have hde : d * e ≤ 2 * ε * ε := by
      have h1 : |d| ≤ 2 * ε := abs_le_of_sq_le_sq hd (by linarith)
      have h2 : |e| ≤ ε := abs_le_of_sq_le_sq (by linarith [sq_nonneg f, sq_nonneg (0 - Q.m10)]) hε0
      have := mul_le_mul h1 h2 (abs_nonneg _) (by linarith)
      rw [← abs_mul] at this
      exact (le_abs_self _).trans this
    have e1 : τ * c2 - Q.m00 = d + e := by rw [hdd, hee]; ring
    have e2 : -M.m20 - -Q.m20 = -f := by rw [hff]; ring
    rw [e1, e2]
    have e3 : (d + e) ^ 2 + (-f) ^ 2 = d ^ 2 + 2 * (d * e) + (e ^ 2 + f ^ 2) := by ring
    have e4 : (3 * ε) ^ 2 = (2 * ε) ^ 2 + 2 * (2 * ε * ε) + ε ^ 2 := by ring
    rw [e3, e4]
    linarith [sq_nonneg (0 - Q.m10)]
  -- the third angle
  have hG : (Real.cos g - Q.m11) ^ 2 + (Real.sin g - -Q.m12) ^ 2 ≤ (2 * ε + ε) ^ 2 := by
    rw [hg, ← q11, ← q12]
    apply unit_pair _ hε0 (sqrt_one_sub_sq (t := Q.m10) (by linarith [RQ.r11, sq Q.m10, sq Q.m11, sq Q.m12, neg_mul_neg Q.m12 Q.m12]) ht hε0 (by linarith))
    have e3 : (-Q'.m12 - -Q.m12) ^ 2 = (Q'.m12 - Q.m12) ^ 2 := by ring
    rw [e3]
    linarith [sq_nonneg (0 - Q.m10)]
  -- what is left
  have hY := rY_isSO3 b
  have hX := rX_isSO3 g
  set T := (rY b).transpose * Q * (rX g).transpose with hT
  have hTS : IsSO3 T := SO3.mul (SO3.mul (SO3.transpose hY) hQS) (SO3.transpose hX)
  have hx : (T.mulVec ⟨1, 0, 0⟩ - ⟨1, 0, 0⟩).norm ≤ 8 * ε := by
    have e : T.mulVec ⟨1, 0, 0⟩ - ⟨1, 0, 0⟩ = (rY b).transpose.mulVec ⟨Q.m00 - Real.cos b, Q.m10, Q.m20 + Real.sin b⟩ := by
      have := Real.sin_sq_add_cos_sq b
      ext <;> simp [hT, rX, rY] <;> first | ring1 | linear_combination this
    rw [e, SO3.mulVec_norm (SO3.transpose hY)]
    apply le_of_sq_le_sq _ (by linarith)
    rw [V3.norm_sq]; simp only [V3.normSq, V3.dot]
    have e1 : (8 * ε) ^ 2 = (2 * (3 * ε) + ε) ^ 2 + ε ^ 2 + 14 * ε ^ 2 := by ring
    rw [e1]; linarith [sq_nonneg ε, sq Q.m10, sq_abs ε]
  have hy : (T.mulVec ⟨0, 1, 0⟩ - ⟨0, 1, 0⟩).norm ≤ 4 * ε := by
    have e0 : (T.mulVec ⟨0, 1, 0⟩ - ⟨0, 1, 0⟩).norm = (T.transpose.mulVec ⟨0, 1, 0⟩ - ⟨0, 1, 0⟩).norm := by
      rw [← SO3.mulVec_norm (SO3.transpose hTS), M3.mulVec_sub, M3.mulVec_mulVec, SO3.tr_mul hTS, M3.one_mulVec,
        V3.norm_sub_comm]
    have e : T.transpose.mulVec ⟨0, 1, 0⟩ - ⟨0, 1, 0⟩ = (rX g).mulVec ⟨Q.m10, Q.m11 - Real.cos g, Q.m12 + Real.sin g⟩ := by
      have := Real.sin_sq_add_cos_sq g
      ext <;> simp [hT, rX, rY] <;> first | ring1 | linear_combination this
    rw [e0, e, SO3.mulVec_norm hX]
    apply le_of_sq_le_sq _ (by linarith)
    rw [V3.norm_sq]; simp only [V3.normSq, V3.dot]
    have e1 : (4 * ε) ^ 2 = (2 * ε + ε) ^ 2 + ε ^ 2 + 6 * ε ^ 2 := by ring
    rw [e1]; linarith [sq_nonneg ε, sq Q.m10, sq_abs ε]
  have hfin := close_one_of_xy hTS hx hy
  have hfin2 := ((hfin.mul_left (SO3.mul hZ hY)).mul_right hX)
  have e1 : rZ a * rY b * T * rX g = R := by
    rw [hT, hQ]
    have hx1 := SO3.tr_mul hX
    have hy1 := hY.1
    have hz1 := hZ.1
    calc rZ a * rY b * ((rY b).transpose * ((rZ a).transpose * R) * (rX g).transpose) * rX g
        = rZ a * (rY b * (rY b).transpose) * ((rZ a).transpose * R) * ((rX g).transpose * rX g) := by simp only [mul_assoc]
      _ = R := by rw [hx1, hy1, mul_one, mul_one, ← mul_assoc, hz1, one_mul]
  rw [e1, mul_one] at hfin2
  exact hfin2.symm.mono (by linarith)

lemma euler210_close {M R : M3} (hR : IsSO3 R) {ε : ℝ} (h : Close ε M R) (hε : ε ≤ 1 / 100) :
    Close (24 * ε) (rZ (eulerAngles210 M).x * rY (eulerAngles210 M).y * rX (eulerAngles210 M).z) R := by
  have e : eulerAngles210 M = eulerCore (atan2 M.m10 M.m00 < 0) Real.pi M := by
    simp only [eulerAngles210, eulerCore]
    by_cases hp : atan2 M.m10 M.m00 < 0
    · have : ¬ atan2 M.m10 M.m00 > 0 := not_lt.mpr hp.le
      simp only [hp, if_true, this, if_false]
    · simp only [hp, if_false]
  rw [e]; exact eulerCore_close _ (Or.inl rfl) hR h hε

/-- Reversing the order of the coordinates. -/
def revM (m : M3) : M3 := ⟨m.m22, m.m21, m.m20, m.m12, m.m11, m.m10, m.m02, m.m01, m.m00⟩
/-- Reversing the order of the coordinates. -/
def revV (v : V3) : V3 := ⟨v.z, v.y, v.x⟩

lemma revV_norm (v : V3) : (revV v).norm = v.norm := by
  simp only [V3.norm]; congr 1; simp only [revV, V3.normSq, V3.dot]; ring
lemma revM_mulVec (m : M3) (v : V3) : (revM m).mulVec v = revV (m.mulVec (revV v)) := by
  ext <;> simp [revM, revV] <;> ring
lemma revM_mul (a b : M3) : revM (a * b) = revM a * revM b := by ext <;> simp [revM] <;> ring
lemma revM_revM (a : M3) : revM (revM a) = a := rfl
lemma revM_isSO3 {m : M3} (h : IsSO3 m) : IsSO3 (revM m) := by
  obtain ⟨h1, h2⟩ := h
  constructor
  · have : revM m * (revM m).transpose = revM (m * m.transpose) := by rw [revM_mul]; rfl
    rw [this, h1]; rfl
  · rw [← h2]; simp [revM, M3.det]; ring
lemma Close.rev {δ : ℝ} {A B : M3} (h : Close δ A B) : Close δ (revM A) (revM B) := fun v => by
  have e : (revM A).mulVec v - (revM B).mulVec v = revV (A.mulVec (revV v) - B.mulVec (revV v)) := by
    rw [revM_mulVec, revM_mulVec]; rfl
  rw [e, revV_norm, ← revV_norm v]; exact h _
lemma revM_rZ (a : ℝ) : revM (rZ a) = rX (-a) := by ext <;> simp [revM, rZ, rX]
lemma revM_rY (a : ℝ) : revM (rY a) = rY (-a) := by ext <;> simp [revM, rY]
lemma revM_rX (a : ℝ) : revM (rX a) = rZ (-a) := by ext <;> simp [revM, rZ, rX]

lemma euler012_close {M R : M3} (hR : IsSO3 R) {ε : ℝ} (h : Close ε M R) (hε : ε ≤ 1 / 100) :
    Close (24 * ε) (rX (eulerAngles012 M).x * rY (eulerAngles012 M).y * rZ (eulerAngles012 M).z) R := by
  have e : eulerAngles012 M = -eulerCore (atan2 M.m12 M.m22 > 0) (-Real.pi) (revM M) := by
    simp only [eulerAngles012, eulerCore, revM]
    by_cases hp : atan2 M.m12 M.m22 > 0
    · simp only [hp, if_true, ← sub_eq_add_neg]; rfl
    · simp only [hp, if_false]; rfl
  have k := (eulerCore_close (atan2 M.m12 M.m22 > 0) (Or.inr rfl) (revM_isSO3 hR) h.rev hε).rev
  rw [revM_mul, revM_mul, revM_rZ, revM_rY, revM_rX, revM_revM] at k
  rw [e]; exact k

lemma NearQ.xyzOfQuat (h : NearQ η δ p R) (hR : IsSO3 R) (hη : η ≤ 1 / 1000) (hδ : δ ≤ 1 / 1000) :
    Close (24 * (402 / 100 * η + δ)) (dmat .xyz (xyzOfQuat p)) R :=
  euler012_close hR (h.toRotationMatrix (by linarith)) (by linarith)

lemma NearQ.zyxOfQuat (h : NearQ η δ p R) (hR : IsSO3 R) (hη : η ≤ 1 / 1000) (hδ : δ ≤ 1 / 1000) :
    Close (24 * (402 / 100 * η + δ)) (dmat .zyx (zyxOfQuat p)) R :=
  euler210_close hR (h.toRotationMatrix (by linarith)) (by linarith)

/-! ### Shoemake's algorithm on the matrix of an almost-unit quaternion -/

/-- One of the three branches of Shoemake's algorithm in which an imaginary component `t ≠ 0` is the pivot. -/
lemma shoemake_pivot {t : ℝ} (ht : t ≠ 0) : ∃ σ : ℝ, (σ = 1 ∨ σ = -1) ∧ Real.sqrt (4 * t ^ 2) / 2 = σ * t ∧
    ∀ a b : ℝ, (4 * (a * t)) * (1 / 2 / Real.sqrt (4 * t ^ 2)) = σ * a ∧ b = b := by
  have h4 : Real.sqrt (4 * t ^ 2) = 2 * |t| := by
    rw [show 4 * t ^ 2 = (2 * t) ^ 2 by ring, Real.sqrt_sq_eq_abs, abs_mul]; norm_num
  rw [h4]
  rcases lt_or_gt_of_ne ht with h | h
  · refine ⟨-1, Or.inr rfl, by rw [abs_of_neg h]; ring, fun a b => ⟨?_, rfl⟩⟩
    rw [abs_of_neg h]; field_simp; ring
  · refine ⟨1, Or.inl rfl, by rw [abs_of_pos h]; ring, fun a b => ⟨?_, rfl⟩⟩
    rw [abs_of_pos h]; field_simp; ring

lemma NearQ.sign (h : NearQ η δ p R) {σ : ℝ} (hσ : σ = 1 ∨ σ = -1) :
    NearQ η δ ⟨σ * p.w, σ * p.x, σ * p.y, σ * p.z⟩ R := by
  obtain ⟨c, u, hu, rfl, hc, hcl⟩ := h
  rcases hσ with rfl | rfl
  · exact ⟨c, u, hu, by simp, hc, hcl⟩
  · refine ⟨c, -u, by simpa using hu, ?_, hc, by simpa using hcl⟩
    ext <;> simp

lemma norm_toH_le {q : Quat} {a b : ℝ} (ha : |q.w| ≤ a) (hb : q.vec.norm ≤ b) : q.norm ≤ a + b := by
  have ha0 := (abs_nonneg _).trans ha
  have hb0 := q.vec.norm_nonneg.trans hb
  rw [Quat.norm]
  apply Real.sqrt_le_iff.mpr ⟨by linarith, ?_⟩
  have e : q.normSq = |q.w| ^ 2 + q.vec.norm ^ 2 := by
    rw [sq_abs, V3.norm_sq]; simp only [Quat.normSq, V3.normSq, V3.dot, Quat.vec]; ring
  rw [e]
  have h1 := pow_le_pow_left₀ (abs_nonneg _) ha 2
  have h2 := pow_le_pow_left₀ q.vec.norm_nonneg hb 2
  nlinarith

set_option maxHeartbeats 800000 in
/-- Reading the quaternion back from the matrix of an almost-unit quaternion. -/
lemma NearQ.ofMatrix (h : NearQ η δ p R) (hη : η ≤ 1 / 1000) :
    NearQ (14 * η) (56 * η + δ) (Quat.ofMatrix p.toRotationMatrix) R := by
  have h' := h
  obtain ⟨c, u, hu, hp, hc, hcl⟩ := h
  have hη0 : 0 ≤ η := (abs_nonneg _).trans hc
  have hup : NearQ (14 * η) (56 * η + δ) p R := h'.mono (by linarith) (by linarith)
  obtain ⟨k1, k2⟩ := abs_le.mp (sq_sub_one_le hc (by linarith))
  have hcp : p.w ^ 2 + p.x ^ 2 + p.y ^ 2 + p.z ^ 2 = c ^ 2 := by
    rw [hp]; simp only [Quat.normSq] at hu; linear_combination c ^ 2 * hu
  have htr : p.toRotationMatrix.trace = 3 - 4 * (p.x ^ 2 + p.y ^ 2 + p.z ^ 2) := by
    simp only [M3.trace, Quat.toRotationMatrix]; ring
  have d0 : p.toRotationMatrix.m00 = 1 - 2 * (p.y ^ 2 + p.z ^ 2) := by simp only [Quat.toRotationMatrix]; ring
  have d1 : p.toRotationMatrix.m11 = 1 - 2 * (p.x ^ 2 + p.z ^ 2) := by simp only [Quat.toRotationMatrix]; ring
  have d2 : p.toRotationMatrix.m22 = 1 - 2 * (p.x ^ 2 + p.y ^ 2) := by simp only [Quat.toRotationMatrix]; ring
  have o1 : p.toRotationMatrix.m21 - p.toRotationMatrix.m12 = 4 * (p.w * p.x) := by simp only [Quat.toRotationMatrix]; ring
  have o2 : p.toRotationMatrix.m02 - p.toRotationMatrix.m20 = 4 * (p.w * p.y) := by simp only [Quat.toRotationMatrix]; ring
  have o3 : p.toRotationMatrix.m10 - p.toRotationMatrix.m01 = 4 * (p.w * p.z) := by simp only [Quat.toRotationMatrix]; ring
  have s1 : p.toRotationMatrix.m21 + p.toRotationMatrix.m12 = 4 * (p.y * p.z) := by simp only [Quat.toRotationMatrix]; ring
  have s2 : p.toRotationMatrix.m02 + p.toRotationMatrix.m20 = 4 * (p.x * p.z) := by simp only [Quat.toRotationMatrix]; ring
  have s3 : p.toRotationMatrix.m10 + p.toRotationMatrix.m01 = 4 * (p.x * p.y) := by simp only [Quat.toRotationMatrix]; ring
  by_cases ht : p.toRotationMatrix.trace > 0
  · -- trace branch
    simp only [Quat.ofMatrix, ht, if_true, o1, o2, o3]
    set V := p.x ^ 2 + p.y ^ 2 + p.z ^ 2 with hV
    rw [htr] at ht ⊢
    set ŵ := Real.sqrt (1 - V) with hŵ
    have hsq : Real.sqrt (3 - 4 * V + 1) = 2 * ŵ := by
      rw [show 3 - 4 * V + 1 = 2 ^ 2 * (1 - V) by ring, Real.sqrt_mul (by norm_num), Real.sqrt_sq (by norm_num)]
    have hŵ2 : ŵ ^ 2 = 1 - V := Real.sq_sqrt (by linarith)
    have hŵpos : 1 / 2 < ŵ := by
      rw [hŵ]; apply Real.lt_sqrt_of_sq_lt; linarith
    have hŵ0 : ŵ ≠ 0 := by linarith
    rw [hsq]
    have hwne : p.w ≠ 0 := by
      intro e
      rw [e] at hcp
      have : V = c ^ 2 := by rw [← hcp, hV]; ring
      linarith
    obtain ⟨σ, hσ, hσw⟩ : ∃ σ : ℝ, (σ = 1 ∨ σ = -1) ∧ |p.w| = σ * p.w := by
      rcases lt_or_gt_of_ne hwne with hw | hw
      · exact ⟨-1, Or.inr rfl, by rw [abs_of_neg hw]; ring⟩
      · exact ⟨1, Or.inl rfl, by rw [abs_of_pos hw]; ring⟩
    have hσ2 : σ * σ = 1 := by rcases hσ with rfl | rfl <;> norm_num
    -- the real part is off by at most 4.02 η
    have haw2 : |p.w| ^ 2 = p.w ^ 2 := sq_abs p.w
    have haw0 := abs_nonneg p.w
    generalize |p.w| = aw at *
    have hdw : |ŵ - aw| ≤ 402 / 100 * η := by
      have e : (ŵ - aw) * (ŵ + aw) = 1 - c ^ 2 := by
        have : p.w ^ 2 = c ^ 2 - V := by rw [← hcp, hV]; ring
        linear_combination hŵ2 - haw2 - this
      have h1 : |ŵ - aw| * (ŵ + aw) ≤ 201 / 100 * η := by
        have h0 : 0 ≤ ŵ + aw := by linarith
        rw [← abs_of_nonneg h0, ← abs_mul, e, abs_sub_comm]
        exact abs_le.mpr ⟨k1, k2⟩
      have h2 := abs_nonneg (ŵ - aw)
      have h4 := mul_le_mul_of_nonneg_left (by linarith : 1 / 2 ≤ ŵ + aw) h2
      linarith
    have hdist : ‖toH ⟨2 * ŵ / 2, 4 * (p.w * p.x) * (1 / 2 / (2 * ŵ)), 4 * (p.w * p.y) * (1 / 2 / (2 * ŵ)),
        4 * (p.w * p.z) * (1 / 2 / (2 * ŵ))⟩ - toH ⟨σ * u.w, σ * u.x, σ * u.y, σ * u.z⟩‖ ≤ 14 * η := by
      set A : Quat := ⟨2 * ŵ / 2, 4 * (p.w * p.x) * (1 / 2 / (2 * ŵ)), 4 * (p.w * p.y) * (1 / 2 / (2 * ŵ)),
        4 * (p.w * p.z) * (1 / 2 / (2 * ŵ))⟩ with hA
      have e1 : toH A - toH ⟨σ * u.w, σ * u.x, σ * u.y, σ * u.z⟩ =
          toH ⟨ŵ - aw, (p.w / ŵ - σ) * p.x, (p.w / ŵ - σ) * p.y, (p.w / ŵ - σ) * p.z⟩ + ((c - 1) * σ) • toH u := by
        have hpw : p.w = c * u.w := by rw [hp]
        have hpx : p.x = c * u.x := by rw [hp]
        have hpy : p.y = c * u.y := by rw [hp]
        have hpz : p.z = c * u.z := by rw [hp]
        rw [hσw]
        ext
        · simp only [Quaternion.re_sub, Quaternion.re_add, Quaternion.re_smul, toH_re, hA, smul_eq_mul]
          rw [hpw]; field_simp; ring
        · simp only [Quaternion.imI_sub, Quaternion.imI_add, Quaternion.imI_smul, toH_imI, hA, smul_eq_mul]
          rw [hpx]; field_simp; ring
        · simp only [Quaternion.imJ_sub, Quaternion.imJ_add, Quaternion.imJ_smul, toH_imJ, hA, smul_eq_mul]
          rw [hpy]; field_simp; ring
        · simp only [Quaternion.imK_sub, Quaternion.imK_add, Quaternion.imK_smul, toH_imK, hA, smul_eq_mul]
          rw [hpz]; field_simp; ring
      rw [e1]
      refine (norm_add_le _ _).trans ?_
      have e2 : ‖((c - 1) * σ) • toH u‖ ≤ η := by
        rw [norm_smul, norm_toH, unit_norm hu, mul_one, Real.norm_eq_abs, abs_mul]
        have : |σ| = 1 := by rcases hσ with rfl | rfl <;> norm_num
        rw [this, mul_one]; exact hc
      have e3 : ‖toH ⟨ŵ - aw, (p.w / ŵ - σ) * p.x, (p.w / ŵ - σ) * p.y, (p.w / ŵ - σ) * p.z⟩‖ ≤
          402 / 100 * η + 804 / 100 * η := by
        rw [norm_toH]
        apply norm_toH_le hdw
        have e4 : Quat.vec ⟨ŵ - aw, (p.w / ŵ - σ) * p.x, (p.w / ŵ - σ) * p.y, (p.w / ŵ - σ) * p.z⟩ =
            (p.w / ŵ - σ) • p.vec := by ext <;> simp [Quat.vec]
        rw [e4, V3.norm_smul]
        have e5 : p.vec.norm ≤ 1 := by
          apply le_of_sq_le_sq _ (by norm_num)
          rw [V3.norm_sq]
          have : p.vec.normSq = V := by simp only [V3.normSq, V3.dot, Quat.vec, hV]; ring
          rw [this]; linarith
        have e6 : |p.w / ŵ - σ| ≤ 804 / 100 * η := by
          have : p.w / ŵ - σ = -(σ * (ŵ - aw)) / ŵ := by
            rw [hσw]; field_simp; linear_combination (-p.w) * hσ2
          rw [this, abs_div, abs_neg, abs_mul, abs_of_pos (by linarith : 0 < ŵ)]
          have : |σ| = 1 := by rcases hσ with rfl | rfl <;> norm_num
          rw [this, one_mul, div_le_iff₀ (by linarith)]
          refine hdw.trans ?_
          have : 804 / 100 * η * (1 / 2) ≤ 804 / 100 * η * ŵ := mul_le_mul_of_nonneg_left hŵpos.le (by linarith)
          linarith
        have := mul_le_mul e6 e5 (V3.norm_nonneg _) (by linarith)
        linarith
      linarith
    have hσu : (⟨σ * u.w, σ * u.x, σ * u.y, σ * u.z⟩ : Quat).normSq = 1 := by
      simp only [Quat.normSq] at hu ⊢; linear_combination (σ * σ) * hu + hσ2
    have := nearQ_of_dist hσu hdist (by linarith)
    rw [sMat_scale, sq, hσ2, one_smul] at this
    have := this.close hcl
    exact this.mono (le_refl _) (by linarith)
  · have hV : 3 / 4 ≤ p.x ^ 2 + p.y ^ 2 + p.z ^ 2 := by rw [htr] at ht; linarith
    have piv : ∀ {t : ℝ}, t ≠ 0 → ∀ {q : Quat}, (∀ σ : ℝ, (σ = 1 ∨ σ = -1) → Real.sqrt (4 * t ^ 2) / 2 = σ * t →
        (∀ a : ℝ, (4 * (a * t)) * (1 / 2 / Real.sqrt (4 * t ^ 2)) = σ * a) →
          q = ⟨σ * p.w, σ * p.x, σ * p.y, σ * p.z⟩) → NearQ (14 * η) (56 * η + δ) q R := by
      intro t ht0 q hq
      obtain ⟨σ, hσ, h1, h2⟩ := shoemake_pivot ht0
      rw [hq σ hσ h1 (fun a => (h2 a 0).1)]
      exact hup.sign hσ
    have cz : p.toRotationMatrix.m22 - p.toRotationMatrix.m00 - p.toRotationMatrix.m11 + 1 = 4 * p.z ^ 2 := by
      rw [d0, d1, d2]; ring
    have cy : p.toRotationMatrix.m11 - p.toRotationMatrix.m22 - p.toRotationMatrix.m00 + 1 = 4 * p.y ^ 2 := by
      rw [d0, d1, d2]; ring
    have cx : p.toRotationMatrix.m00 - p.toRotationMatrix.m11 - p.toRotationMatrix.m22 + 1 = 4 * p.x ^ 2 := by
      rw [d0, d1, d2]; ring
    have s1' : p.toRotationMatrix.m12 + p.toRotationMatrix.m21 = 4 * (p.y * p.z) := by rw [add_comm]; exact s1
    have s2' : p.toRotationMatrix.m20 + p.toRotationMatrix.m02 = 4 * (p.z * p.x) := by rw [add_comm, s2]; ring
    have s3' : p.toRotationMatrix.m01 + p.toRotationMatrix.m10 = 4 * (p.x * p.y) := by rw [add_comm]; exact s3
    have s3'' : p.toRotationMatrix.m10 + p.toRotationMatrix.m01 = 4 * (p.y * p.x) := by rw [s3]; ring
    have s1'' : p.toRotationMatrix.m21 + p.toRotationMatrix.m12 = 4 * (p.z * p.y) := by rw [s1]; ring
    simp only [Quat.ofMatrix, ht, if_false]
    split_ifs with c1 c2' c3
    · have hz : p.z ≠ 0 := by
        intro e; rw [d1, d0] at c1; rw [d2, d1] at c2'; rw [e] at c2' c1 hV; nlinarith [sq_nonneg p.x, sq_nonneg p.y]
      refine piv hz (fun σ _ h1 h2 => ?_)
      rw [cz, o3, s2, s1', h1, h2, h2, h2]
    · have hy : p.y ≠ 0 := by
        intro e; rw [d1, d0] at c1; rw [e] at c1; nlinarith [sq_nonneg p.x]
      refine piv hy (fun σ _ h1 h2 => ?_)
      rw [cy, o2, s3', s1'', h1, h2, h2, h2]
    · have hz : p.z ≠ 0 := by
        intro e; rw [d2, d0] at c3; rw [e] at c3; nlinarith [sq_nonneg p.x]
      refine piv hz (fun σ _ h1 h2 => ?_)
      rw [cz, o3, s2, s1', h1, h2, h2, h2]
    · have hx : p.x ≠ 0 := by
        intro e; rw [d1, d0] at c1; rw [d2, d0] at c3; rw [e] at c1 c3 hV; nlinarith [sq_nonneg p.z, sq_nonneg p.y]
      refine piv hx (fun σ _ h1 h2 => ?_)
      rw [cx, o1, s3'', s2', h1, h2, h2, h2]

end Kindr
