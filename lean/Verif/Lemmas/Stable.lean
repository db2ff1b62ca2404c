import Verif.Lemmas.Near
import Verif.Spec.Matrix

/-!
# Stability of the conversions from a rotation matrix

Eigen's (Shoemake's) algorithm applied to a matrix whose entries are only close to those of a rotation.
-/

set_option autoImplicit false

noncomputable section
namespace Kindr
open Spec

lemma pivot_stable {T t d : ℝ} (hT : 98 / 100 ≤ T) (h : |T - 4 * t ^ 2| ≤ 3 * d) (hd : d ≤ 1 / 1000) :
    ∃ σ : ℝ, (σ = 1 ∨ σ = -1) ∧ |Real.sqrt T / 2 - σ * t| ≤ d ∧
      ∀ a x : ℝ, |a - 4 * (t * x)| ≤ 2 * d → |x| ≤ 1 → |a * (1 / 2 / Real.sqrt T) - σ * x| ≤ 27 / 10 * d := by
  have hd0 : 0 ≤ d := by have := (abs_nonneg _).trans h; linarith
  obtain ⟨σ, hσ, hσt⟩ : ∃ σ : ℝ, (σ = 1 ∨ σ = -1) ∧ |t| = σ * t := by
    rcases le_total 0 t with h0 | h0
    · exact ⟨1, Or.inl rfl, by rw [abs_of_nonneg h0, one_mul]⟩
    · exact ⟨-1, Or.inr rfl, by rw [abs_of_nonpos h0]; ring⟩
  have hσ2 : σ * σ = 1 := by rcases hσ with rfl | rfl <;> norm_num
  have ht2 : |t| ^ 2 = t ^ 2 := sq_abs t
  have ht0 := abs_nonneg t
  generalize |t| = r at *
  set s := Real.sqrt T with hs
  have hs2 : s ^ 2 = T := Real.sq_sqrt (by linarith)
  have hs1 : 98 / 100 ≤ s := by apply Real.le_sqrt_of_sq_le; linarith
  have ht1 : 48 / 100 ≤ r := by
    by_contra hc
    push Not at hc
    have : r ^ 2 < 48 / 100 * (48 / 100) := by rw [sq]; exact mul_lt_mul'' hc hc ht0 ht0
    have := (abs_le.mp h).2
    linarith
  have hst : |s - 2 * r| ≤ 16 / 10 * d := by
    have e : (s - 2 * r) * (s + 2 * r) = T - 4 * t ^ 2 := by rw [← hs2, ← ht2]; ring
    have h1 : |s - 2 * r| * (s + 2 * r) ≤ 3 * d := by
      have h0 : 0 ≤ s + 2 * r := by linarith
      calc _ = |(s - 2 * r) * (s + 2 * r)| := by rw [abs_mul, abs_of_nonneg h0]
        _ ≤ _ := by rw [e]; exact h
    have h2 := abs_nonneg (s - 2 * r)
    have h4 := mul_le_mul_of_nonneg_left (by linarith : 19 / 10 ≤ s + 2 * r) h2
    linarith
  refine ⟨σ, hσ, ?_, ?_⟩
  · rw [← hσt]
    obtain ⟨k1, k2⟩ := abs_le.mp hst
    rw [abs_le]; constructor <;> linarith
  · intro a x ha hx
    have hsp : 0 < s := by linarith
    have e : a * (1 / 2 / s) - σ * x = ((a - 4 * (t * x)) * (1 / 2) + σ * x * (2 * r - s)) / s := by
      have : t = σ * r := by rw [hσt, ← mul_assoc, hσ2, one_mul]
      rw [this]; field_simp; ring
    rw [e, abs_div, abs_of_pos hsp, div_le_iff₀ hsp]
    have hsx : |σ * x| ≤ 1 := by rcases hσ with rfl | rfl <;> simpa using hx
    have h1 : |(a - 4 * (t * x)) * (1 / 2)| ≤ d := by rw [abs_mul, abs_of_pos (by norm_num : (0 : ℝ) < 1 / 2)]; linarith
    have h2 : |σ * x * (2 * r - s)| ≤ 16 / 10 * d := by
      rw [abs_mul, abs_sub_comm]
      calc _ ≤ 1 * (16 / 10 * d) := mul_le_mul hsx hst (abs_nonneg _) zero_le_one
        _ = _ := one_mul _
    refine (abs_add_le _ _).trans ?_
    have h3 := mul_le_mul_of_nonneg_left hs1 (by linarith : 0 ≤ 27 / 10 * d)
    linarith

lemma dist_le_of_comp {p q : Quat} {d : ℝ} {a b c e : ℝ} (hd : 0 ≤ d) (h0 : |p.w - q.w| ≤ a) (h1 : |p.x - q.x| ≤ b)
    (h2 : |p.y - q.y| ≤ c) (h3 : |p.z - q.z| ≤ e) (h : a ^ 2 + b ^ 2 + c ^ 2 + e ^ 2 ≤ d ^ 2) : ‖toH p - toH q‖ ≤ d := by
  have k : ‖toH p - toH q‖ ^ 2 ≤ d ^ 2 := by
    rw [sq ‖_‖, ← Quaternion.normSq_eq_norm_mul_self, Quaternion.normSq_def']
    change (p.w - q.w) ^ 2 + (p.x - q.x) ^ 2 + (p.y - q.y) ^ 2 + (p.z - q.z) ^ 2 ≤ _
    have s : ∀ {x y : ℝ}, |x| ≤ y → x ^ 2 ≤ y ^ 2 := fun {x y} hx => by
      rw [← sq_abs]; exact pow_le_pow_left₀ (abs_nonneg _) hx 2
    have := s h0; have := s h1; have := s h2; have := s h3
    linarith
  exact abs_le_of_sq_le_sq' k hd |>.2

lemma sMat_sign {u : Quat} {σ : ℝ} (hσ : σ = 1 ∨ σ = -1) : sMat ⟨σ * u.w, σ * u.x, σ * u.y, σ * u.z⟩ = sMat u := by
  rcases hσ with rfl | rfl <;> ext <;> simp [sMat]

/-- Shoemake's algorithm is stable: on a matrix within `d` of a rotation `R` it returns a quaternion within `5 d` of one of the
two unit quaternions of `R`. -/
lemma ofMatrix_stable {A R : M3} (hR : IsSO3 R) {d : ℝ} (h : EntryClose d A R) (hd : d ≤ 1 / 1000) :
    ∃ u : Quat, u.normSq = 1 ∧ sMat u = R ∧ ‖toH (Quat.ofMatrix A) - toH u‖ ≤ 5 * d := by
  obtain ⟨hu, hs⟩ := ofMatrix_spec hR
  generalize Quat.ofMatrix R = u at *
  subst hs
  obtain ⟨a00, a01, a02, a10, a11, a12, a20, a21, a22⟩ := h
  have hd0 : 0 ≤ d := (abs_nonneg _).trans a00
  obtain ⟨l00, g00⟩ := abs_le.mp a00
  obtain ⟨l01, g01⟩ := abs_le.mp a01
  obtain ⟨l02, g02⟩ := abs_le.mp a02
  obtain ⟨l10, g10⟩ := abs_le.mp a10
  obtain ⟨l11, g11⟩ := abs_le.mp a11
  obtain ⟨l12, g12⟩ := abs_le.mp a12
  obtain ⟨l20, g20⟩ := abs_le.mp a20
  obtain ⟨l21, g21⟩ := abs_le.mp a21
  obtain ⟨l22, g22⟩ := abs_le.mp a22
  clear a00 a01 a02 a10 a11 a12 a20 a21 a22
  have hu2 : u.w ^ 2 + u.x ^ 2 + u.y ^ 2 + u.z ^ 2 = 1 := by rw [← hu, Quat.normSq]; ring
  have o1 : (sMat u).m21 - (sMat u).m12 = 4 * (u.w * u.x) := by simp only [sMat]; ring
  have o2 : (sMat u).m02 - (sMat u).m20 = 4 * (u.w * u.y) := by simp only [sMat]; ring
  have o3 : (sMat u).m10 - (sMat u).m01 = 4 * (u.w * u.z) := by simp only [sMat]; ring
  have s1 : (sMat u).m21 + (sMat u).m12 = 4 * (u.y * u.z) := by simp only [sMat]; ring
  have s2 : (sMat u).m02 + (sMat u).m20 = 4 * (u.x * u.z) := by simp only [sMat]; ring
  have s3 : (sMat u).m10 + (sMat u).m01 = 4 * (u.x * u.y) := by simp only [sMat]; ring
  have d0 : (sMat u).m00 = 2 * u.w ^ 2 + 2 * u.x ^ 2 - 1 := by rw [← hu2]; simp only [sMat]; ring
  have d1 : (sMat u).m11 = 2 * u.w ^ 2 + 2 * u.y ^ 2 - 1 := by rw [← hu2]; simp only [sMat]; ring
  have d2 : (sMat u).m22 = 2 * u.w ^ 2 + 2 * u.z ^ 2 - 1 := by rw [← hu2]; simp only [sMat]; ring
  have comp : ∀ {t r : ℝ}, t ^ 2 + r = 1 → 0 ≤ r → |t| ≤ 1 := fun {t r} h1 h2 =>
    abs_le_of_sq_le_sq (by linarith) zero_le_one
  have cw : |u.w| ≤ 1 := comp (r := u.x ^ 2 + u.y ^ 2 + u.z ^ 2) (by linarith) (by positivity)
  have cx : |u.x| ≤ 1 := comp (r := u.w ^ 2 + u.y ^ 2 + u.z ^ 2) (by linarith) (by positivity)
  have cy : |u.y| ≤ 1 := comp (r := u.w ^ 2 + u.x ^ 2 + u.z ^ 2) (by linarith) (by positivity)
  have cz : |u.z| ≤ 1 := comp (r := u.w ^ 2 + u.x ^ 2 + u.y ^ 2) (by linarith) (by positivity)
  have hfin : d ^ 2 + (27 / 10 * d) ^ 2 + (27 / 10 * d) ^ 2 + (27 / 10 * d) ^ 2 ≤ (5 * d) ^ 2 := by ring_nf; linarith [sq_nonneg d]
  have h5 : 0 ≤ 5 * d := by linarith
  have mk : ∀ {σ : ℝ} {p : Quat} {a b c e : ℝ}, (σ = 1 ∨ σ = -1) → |p.w - σ * u.w| ≤ a → |p.x - σ * u.x| ≤ b →
      |p.y - σ * u.y| ≤ c → |p.z - σ * u.z| ≤ e → a ^ 2 + b ^ 2 + c ^ 2 + e ^ 2 ≤ (5 * d) ^ 2 →
      ∃ v : Quat, v.normSq = 1 ∧ sMat v = sMat u ∧ ‖toH p - toH v‖ ≤ 5 * d := fun {σ p a b c e} hσ k0 k1 k2 k3 k => by
    refine ⟨⟨σ * u.w, σ * u.x, σ * u.y, σ * u.z⟩, ?_, sMat_sign hσ, dist_le_of_comp h5 k0 k1 k2 k3 k⟩
    have : σ * σ = 1 := by rcases hσ with rfl | rfl <;> norm_num
    simp only [Quat.normSq]; linear_combination (u.w ^ 2 + u.x ^ 2 + u.y ^ 2 + u.z ^ 2) * this + hu2
  generalize sMat u = S at *
  simp only [Quat.ofMatrix, M3.trace]
  split_ifs with c0 c1 c2 c2
  · obtain ⟨σ, hσ, p0, pp⟩ := pivot_stable (T := A.m00 + A.m11 + A.m22 + 1) (t := u.w) (d := d) (by linarith)
      (by rw [abs_le]; constructor <;> linarith) hd
    refine mk hσ p0 (pp _ _ ?_ cx) (pp _ _ ?_ cy) (pp _ _ ?_ cz) (by linarith)
    all_goals rw [abs_le]; constructor <;> linarith
  · obtain ⟨σ, hσ, p0, pp⟩ := pivot_stable (T := A.m22 - A.m00 - A.m11 + 1) (t := u.z) (d := d) (by linarith)
      (by rw [abs_le]; constructor <;> linarith) hd
    refine mk hσ (pp _ _ ?_ cw) (pp _ _ ?_ cx) (pp _ _ ?_ cy) p0 (by linarith)
    all_goals rw [abs_le]; constructor <;> linarith
  · obtain ⟨σ, hσ, p0, pp⟩ := pivot_stable (T := A.m11 - A.m22 - A.m00 + 1) (t := u.y) (d := d) (by linarith)
      (by rw [abs_le]; constructor <;> linarith) hd
    refine mk hσ (pp _ _ ?_ cw) (pp _ _ ?_ cx) p0 (pp _ _ ?_ cz) (by linarith)
    all_goals rw [abs_le]; constructor <;> linarith
  · obtain ⟨σ, hσ, p0, pp⟩ := pivot_stable (T := A.m22 - A.m00 - A.m11 + 1) (t := u.z) (d := d) (by linarith)
      (by rw [abs_le]; constructor <;> linarith) hd
    refine mk hσ (pp _ _ ?_ cw) (pp _ _ ?_ cx) (pp _ _ ?_ cy) p0 (by linarith)
    all_goals rw [abs_le]; constructor <;> linarith
  · obtain ⟨σ, hσ, p0, pp⟩ := pivot_stable (T := A.m00 - A.m11 - A.m22 + 1) (t := u.x) (d := d) (by linarith)
      (by rw [abs_le]; constructor <;> linarith) hd
    refine mk hσ (pp _ _ ?_ cw) p0 (pp _ _ ?_ cy) (pp _ _ ?_ cz) (by linarith)
    all_goals rw [abs_le]; constructor <;> linarith

/-- The quaternion of a matrix close to a rotation. -/
lemma ofMatrix_near {A R : M3} (hR : IsSO3 R) {d : ℝ} (h : EntryClose d A R) (hd : d ≤ 1 / 1000) :
    NearQ (5 * d) (20 * d) (Quat.ofMatrix A) R := by
  obtain ⟨u, hu, rfl, hn⟩ := ofMatrix_stable hR h hd
  exact (nearQ_of_dist hu hn (by linarith)).mono le_rfl (by linarith)

end Kindr
