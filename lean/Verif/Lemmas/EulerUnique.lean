import Verif.Lemmas.Metric

/-!
# Lemmas about the Euler-angle `getUnique()` functions
-/

set_option autoImplicit false

open Classical

noncomputable section
namespace Kindr
open Spec

lemma cos_wrap (a : ℝ) : Real.cos (wrapPosNegPI a) = Real.cos a := by
  obtain ⟨k, hk⟩ := wrapPosNegPI_congr a
  rw [hk, Real.cos_add_int_mul_two_pi]
lemma sin_wrap (a : ℝ) : Real.sin (wrapPosNegPI a) = Real.sin a := by
  obtain ⟨k, hk⟩ := wrapPosNegPI_congr a
  rw [hk, Real.sin_add_int_mul_two_pi]

/-- The angle shifted by half a turn inside `[-π,π)`. -/
def flipPi (x : ℝ) : ℝ := if x < 0 then x + Real.pi else x - Real.pi

lemma flipPi_mem {x : ℝ} (h : -Real.pi ≤ x ∧ x < Real.pi) : -Real.pi ≤ flipPi x ∧ flipPi x < Real.pi := by
  unfold flipPi; split_ifs with h0 <;> constructor <;> linarith [Real.pi_pos]
lemma cos_flipPi (x : ℝ) : Real.cos (flipPi x) = -Real.cos x := by
  unfold flipPi; split_ifs
  · exact Real.cos_add_pi x
  · exact Real.cos_sub_pi x
lemma sin_flipPi (x : ℝ) : Real.sin (flipPi x) = -Real.sin x := by
  unfold flipPi; split_ifs
  · exact Real.sin_add_pi x
  · exact Real.sin_sub_pi x

lemma eulerTol_pos : 0 < eulerTol := by norm_num [eulerTol]
lemma eulerTol_lt : eulerTol < Real.pi / 2 := by
  have := Real.pi_gt_three; unfold eulerTol; linarith

/-- The four outcomes of the unique-form algorithm. -/
lemma eulerUniqueBody_cases (v : V3) :
    let x := wrapPosNegPI v.x
    let y := wrapPosNegPI v.y
    let z := wrapPosNegPI v.z
    (-Real.pi / 2 + eulerTol < y ∧ y < Real.pi / 2 - eulerTol ∧ eulerUniqueBody v = ⟨x, y, z⟩) ∨
    (y < -Real.pi / 2 - eulerTol ∧ eulerUniqueBody v = ⟨flipPi x, -(y + Real.pi), flipPi z⟩) ∨
    (Real.pi / 2 + eulerTol < y ∧ eulerUniqueBody v = ⟨flipPi x, -(y - Real.pi), flipPi z⟩) ∨
    (-Real.pi / 2 - eulerTol ≤ y ∧ y ≤ -Real.pi / 2 + eulerTol ∧ eulerUniqueBody v = ⟨x - z, y, 0⟩) ∨
    (Real.pi / 2 - eulerTol ≤ y ∧ y ≤ Real.pi / 2 + eulerTol ∧ eulerUniqueBody v = ⟨x + z, y, 0⟩) := by
  intro x y z
  have e : eulerUniqueBody v =
      if y < -Real.pi / 2 - eulerTol then ⟨flipPi x, -(y + Real.pi), flipPi z⟩
      else if -Real.pi / 2 - eulerTol ≤ y ∧ y ≤ -Real.pi / 2 + eulerTol then ⟨x - z, y, 0⟩
      else if -Real.pi / 2 + eulerTol < y ∧ y < Real.pi / 2 - eulerTol then ⟨x, y, z⟩
      else if Real.pi / 2 - eulerTol ≤ y ∧ y ≤ Real.pi / 2 + eulerTol then ⟨x + z, y, 0⟩
      else ⟨flipPi x, -(y - Real.pi), flipPi z⟩ := rfl
  rw [e]
  split_ifs with h1 h2 h3 h4
  · exact Or.inr (Or.inl ⟨h1, rfl⟩)
  · exact Or.inr (Or.inr (Or.inr (Or.inl ⟨h2.1, h2.2, rfl⟩)))
  · exact Or.inl ⟨h3.1, h3.2, rfl⟩
  · exact Or.inr (Or.inr (Or.inr (Or.inr ⟨h4.1, h4.2, rfl⟩)))
  · refine Or.inr (Or.inr (Or.inl ⟨?_, rfl⟩))
    by_contra hc
    have hb1 : -Real.pi / 2 + eulerTol < y := by
      by_contra hb; exact h2 ⟨not_lt.mp h1, not_lt.mp hb⟩
    have hb2 : Real.pi / 2 - eulerTol ≤ y := by
      by_contra hb; exact h3 ⟨hb1, not_le.mp hb⟩
    exact h4 ⟨hb2, not_lt.mp hc⟩

lemma abs_sin_le_sin {δ : ℝ} (h : |δ| ≤ eulerTol) : |Real.sin δ| ≤ Real.sin eulerTol := by
  obtain ⟨h1, h2⟩ := abs_le.mp h
  have ht := eulerTol_lt
  rw [abs_le, ← Real.sin_neg]
  exact ⟨Real.sin_le_sin_of_le_of_le_pi_div_two (by linarith) (by linarith) h1,
    Real.sin_le_sin_of_le_of_le_pi_div_two (by linarith) (by linarith) h2⟩

/-- Outside the gimbal-lock bands: ranges, and the trigonometric values change by a common sign. -/
lemma eulerUniqueBody_regular {v : V3} (h : Real.sin eulerTol < |Real.cos v.y|) :
    let u := eulerUniqueBody v
    (-Real.pi ≤ u.x ∧ u.x < Real.pi) ∧ (-Real.pi / 2 + eulerTol < u.y ∧ u.y < Real.pi / 2 - eulerTol) ∧
    (-Real.pi ≤ u.z ∧ u.z < Real.pi) ∧
    ∃ s : ℝ, s * s = 1 ∧ Real.cos u.x = s * Real.cos v.x ∧ Real.sin u.x = s * Real.sin v.x ∧
      Real.cos u.y = s * Real.cos v.y ∧ Real.sin u.y = Real.sin v.y ∧
      Real.cos u.z = s * Real.cos v.z ∧ Real.sin u.z = s * Real.sin v.z := by
  intro u
  have hx := wrapPosNegPI_mem v.x
  have hy := wrapPosNegPI_mem v.y
  have hz := wrapPosNegPI_mem v.z
  have ht := eulerTol_pos
  have ht' := eulerTol_lt
  rcases eulerUniqueBody_cases v with ⟨h1, h2, e⟩ | ⟨h1, e⟩ | ⟨h1, e⟩ | ⟨h1, h2, e⟩ | ⟨h1, h2, e⟩
  · have eu : u = _ := e
    rw [eu]
    exact ⟨hx, ⟨h1, h2⟩, hz, 1, by ring, by rw [cos_wrap, one_mul], by rw [sin_wrap, one_mul],
      by rw [cos_wrap, one_mul], by rw [sin_wrap], by rw [cos_wrap, one_mul], by rw [sin_wrap, one_mul]⟩
  · have eu : u = _ := e
    rw [eu]
    exact ⟨flipPi_mem hx, ⟨by simp only; linarith, by simp only; linarith⟩, flipPi_mem hz, -1, by ring,
      by rw [cos_flipPi, cos_wrap]; ring, by rw [sin_flipPi, sin_wrap]; ring,
      by rw [Real.cos_neg, Real.cos_add_pi, cos_wrap]; ring,
      by rw [Real.sin_neg, Real.sin_add_pi, sin_wrap]; ring,
      by rw [cos_flipPi, cos_wrap]; ring, by rw [sin_flipPi, sin_wrap]; ring⟩
  · have eu : u = _ := e
    rw [eu]
    exact ⟨flipPi_mem hx, ⟨by simp only; linarith, by simp only; linarith⟩, flipPi_mem hz, -1, by ring,
      by rw [cos_flipPi, cos_wrap]; ring, by rw [sin_flipPi, sin_wrap]; ring,
      by rw [Real.cos_neg, Real.cos_sub_pi, cos_wrap]; ring,
      by rw [Real.sin_neg, Real.sin_sub_pi, sin_wrap]; ring,
      by rw [cos_flipPi, cos_wrap]; ring, by rw [sin_flipPi, sin_wrap]; ring⟩
  · exfalso
    have := abs_sin_le_sin (δ := wrapPosNegPI v.y + Real.pi / 2) (abs_le.mpr ⟨by linarith, by linarith⟩)
    rw [Real.sin_add_pi_div_two, cos_wrap] at this
    linarith
  · exfalso
    have := abs_sin_le_sin (δ := wrapPosNegPI v.y - Real.pi / 2) (abs_le.mpr ⟨by linarith, by linarith⟩)
    rw [Real.sin_sub_pi_div_two, cos_wrap, abs_neg] at this
    linarith

lemma xyz_sign {x y z x' y' z' s : ℝ} (hs : s * s = 1)
    (c1 : Real.cos x' = s * Real.cos x) (c2 : Real.sin x' = s * Real.sin x)
    (c3 : Real.cos y' = s * Real.cos y) (c4 : Real.sin y' = Real.sin y)
    (c5 : Real.cos z' = s * Real.cos z) (c6 : Real.sin z' = s * Real.sin z) :
    rX x' * rY y' * rZ z' = rX x * rY y * rZ z ∧ rZ z' * rY y' * rX x' = rZ z * rY y * rX x := by
  have h2 : s ^ 2 = 1 := by rw [pow_two]; exact hs
  constructor
  · ext <;> simp [rX, rY, rZ, c1, c2, c3, c4, c5, c6] <;> ring_nf <;> simp [h2]
  · ext <;> simp [rX, rY, rZ, c1, c2, c3, c4, c5, c6] <;> ring_nf <;> simp [h2]

/-- Euler angles in the open pitch range are determined by the sines and cosines. -/
lemma angle_eq_of_cos_sin {a b : ℝ} (ha : -Real.pi ≤ a ∧ a < Real.pi) (hb : -Real.pi ≤ b ∧ b < Real.pi)
    (hc : Real.cos a = Real.cos b) (hs : Real.sin a = Real.sin b) : a = b := by
  have : Real.cos (a - b) = 1 := by
    rw [Real.cos_sub, hc, hs]; nlinarith [Real.sin_sq_add_cos_sq b]
  have := (Real.cos_eq_one_iff_of_lt_of_lt (by linarith) (by linarith)).mp this
  linarith

lemma rZ_add (a b : ℝ) : rZ (a + b) = rZ a * rZ b := by
  ext <;> simp [rZ, Real.cos_add, Real.sin_add] <;> ring
lemma rY_add (a b : ℝ) : rY (a + b) = rY a * rY b := by
  ext <;> simp [rY, Real.cos_add, Real.sin_add] <;> ring
lemma rX_add (a b : ℝ) : rX (a + b) = rX a * rX b := by
  ext <;> simp [rX, Real.cos_add, Real.sin_add] <;> ring
lemma rX_transpose (a : ℝ) : (rX a).transpose = rX (-a) := by ext <;> simp [rX]
lemma rY_transpose (a : ℝ) : (rY a).transpose = rY (-a) := by ext <;> simp [rY]
lemma rZ_transpose (a : ℝ) : (rZ a).transpose = rZ (-a) := by ext <;> simp [rZ]

/-- Gimbal lock, upper pole. -/
lemma gimbal_pos (z : ℝ) : rX z * rY (Real.pi / 2) = rY (Real.pi / 2) * rZ z := by
  ext <;> simp [rX, rY, rZ]
/-- Gimbal lock, lower pole. -/
lemma gimbal_neg (z : ℝ) : rX (-z) * rY (-(Real.pi / 2)) = rY (-(Real.pi / 2)) * rZ z := by
  ext <;> simp [rX, rY, rZ]
lemma gimbal_pos' (z : ℝ) : rZ (-z) * rY (Real.pi / 2) = rY (Real.pi / 2) * rX z := by
  ext <;> simp [rX, rY, rZ]
lemma gimbal_neg' (z : ℝ) : rZ z * rY (-(Real.pi / 2)) = rY (-(Real.pi / 2)) * rX z := by
  ext <;> simp [rX, rY, rZ]

lemma trace_rX (a : ℝ) : (rX a).trace = 1 + 2 * Real.cos a := by simp [M3.trace, rX]; ring
lemma trace_rY (a : ℝ) : (rY a).trace = 1 + 2 * Real.cos a := by simp [M3.trace, rY]; ring
lemma trace_rZ (a : ℝ) : (rZ a).trace = 1 + 2 * Real.cos a := by simp [M3.trace, rZ]; ring
lemma rotAngle_of_trace {m : M3} {a : ℝ} (h : m.trace = 1 + 2 * Real.cos a) : rotAngle m ≤ |a| := by
  rw [rotAngle, h]
  have : (1 + 2 * Real.cos a - 1) / 2 = Real.cos |a| := by rw [Real.cos_abs]; ring
  rw [this]
  rcases le_total |a| Real.pi with h | h
  · rw [Real.arccos_cos (abs_nonneg _) h]
  · exact (Real.arccos_le_pi _).trans h

lemma rotAngle_mul_le {a b : M3} (ha : IsSO3 a) (hb : IsSO3 b) : rotAngle (a * b) ≤ rotAngle a + rotAngle b := by
  have := rotAngle_triangle ha SO3.one (SO3.transpose hb)
  simpa using this

/-- Commutator of small rotations. -/
lemma rotAngle_commutator {r : M3} (h : IsSO3 r) (δ : ℝ) :
    rotAngle (r * rY δ * r.transpose * rY (-δ)) ≤ 2 * |δ| := by
  have h1 := rotAngle_mul_le (a := r * rY δ * r.transpose) (b := rY (-δ))
    (SO3.mul (SO3.mul h (rY_isSO3 _)) (SO3.transpose h)) (rY_isSO3 _)
  rw [rotAngle_conj h] at h1
  have h2 := rotAngle_of_trace (trace_rY δ)
  have h3 := rotAngle_of_trace (trace_rY (-δ))
  rw [abs_neg] at h3
  linarith

/-- Inside the bands. -/
lemma eulerUniqueBody_band {v : V3} (h : ¬ (Real.sin eulerTol < |Real.cos v.y|)) :
    (|wrapPosNegPI v.y + Real.pi / 2| ≤ eulerTol ∧
      eulerUniqueBody v = ⟨wrapPosNegPI v.x - wrapPosNegPI v.z, wrapPosNegPI v.y, 0⟩) ∨
    (|wrapPosNegPI v.y - Real.pi / 2| ≤ eulerTol ∧
      eulerUniqueBody v = ⟨wrapPosNegPI v.x + wrapPosNegPI v.z, wrapPosNegPI v.y, 0⟩) := by
  have hcos : Real.cos (wrapPosNegPI v.y) = Real.cos v.y := cos_wrap _
  have hy := wrapPosNegPI_mem v.y
  have ht0 := eulerTol_pos
  have ht := eulerTol_lt
  rcases eulerUniqueBody_cases v with ⟨h1, h2, -⟩ | ⟨h1, -⟩ | ⟨h1, -⟩ | ⟨h1, h2, he⟩ | ⟨h1, h2, he⟩
  · exfalso; apply h
    rw [← hcos, ← Real.sin_add_pi_div_two]
    have hpos : 0 < Real.sin (wrapPosNegPI v.y + Real.pi / 2) :=
      Real.sin_pos_of_pos_of_lt_pi (by linarith) (by linarith)
    rw [abs_of_pos hpos]
    rcases le_total (wrapPosNegPI v.y) 0 with h0 | h0
    · exact Real.sin_lt_sin_of_lt_of_le_pi_div_two (by linarith) (by linarith) (by linarith)
    · rw [← Real.sin_pi_sub (wrapPosNegPI v.y + Real.pi / 2)]
      exact Real.sin_lt_sin_of_lt_of_le_pi_div_two (by linarith) (by linarith) (by linarith)
  · exfalso; apply h
    rw [← hcos, ← Real.sin_add_pi_div_two, ← abs_neg, ← Real.sin_neg]
    have hl := Real.sin_lt_sin_of_lt_of_le_pi_div_two (x := eulerTol) (y := -(wrapPosNegPI v.y + Real.pi / 2))
      (by linarith) (by linarith) (by linarith)
    exact hl.trans_le (le_abs_self _)
  · exfalso; apply h
    rw [← hcos, ← abs_neg, ← Real.sin_sub_pi_div_two]
    have hl := Real.sin_lt_sin_of_lt_of_le_pi_div_two (x := eulerTol) (y := wrapPosNegPI v.y - Real.pi / 2)
      (by linarith) (by linarith) (by linarith)
    exact hl.trans_le (le_abs_self _)
  · exact Or.inl ⟨abs_le.mpr ⟨by linarith, by linarith⟩, he⟩
  · exact Or.inr ⟨abs_le.mpr ⟨by linarith, by linarith⟩, he⟩

end Kindr
