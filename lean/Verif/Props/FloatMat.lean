import Verif.Props.FloatRv

/-!
# Conversions from quaternions and angle-axis pairs in floating point
-/

set_option autoImplicit false

open Classical

noncomputable section
namespace Kindr
open Spec

namespace FloatLib
variable (F : FloatLib)

/-- The rounded rotation matrix of an almost-unit quaternion. -/
lemma toRotationMatrix_round {q : Quat} (hq : q.normSq ≤ 103 / 100) : Close (21 * F.u) (F.toRotationMatrix q) q.toRotationMatrix := by
  have hu := F.u_nonneg
  have hn : q.w * q.w + q.x * q.x + q.y * q.y + q.z * q.z ≤ 103 / 100 := hq
  have nn := mul_self_nonneg (R := ℝ)
  have t : ∀ a b : ℝ, Err F.u 2 (F.fl (F.fl (2 * a) * b)) (2 * a * b) (2 * |a| * |b|) := by
    intro a b
    have := (((Err.exact F.u 2).mul hu (Err.exact F.u a)).rnd (F := F.toFloatArith)).mul hu (Err.exact F.u b) |>.rnd (F := F.toFloatArith)
    rwa [abs_two] at this
  have p4 := (pow4_le F.toFloatArith).1
  have fin : ∀ {A a M : ℝ}, 0 ≤ M → Err F.u 4 A a M → |A - a| ≤ 4.01 * F.u * M := fun hM h =>
    h.2.trans (mul_le_mul_of_nonneg_right p4 hM)
  have off : ∀ a b c d : ℝ, a * a + b * b + c * c + d * d ≤ 103 / 100 →
      |F.fl (F.fl (F.fl (2 * a) * b) + F.fl (F.fl (2 * c) * d)) - (2 * a * b + 2 * c * d)| ≤ 414 / 100 * F.u ∧
      |F.fl (F.fl (F.fl (2 * a) * b) - F.fl (F.fl (2 * c) * d)) - (2 * a * b - 2 * c * d)| ≤ 414 / 100 * F.u := by
    intro a b c d h
    have hb : 2 * |a| * |b| + 2 * |c| * |d| ≤ 103 / 100 := by
      have := two_abs_mul_le a b; have := two_abs_mul_le c d; linarith
    exact ⟨(fin (by norm_num) (((((t a b).add (t c d)).bound hu hb).rnd (F := F.toFloatArith)).mono hu (by norm_num))).trans (by linarith),
      (fin (by norm_num) (((((t a b).sub (t c d)).bound hu hb).rnd (F := F.toFloatArith)).mono hu (by norm_num))).trans (by linarith)⟩
  have diag : ∀ a b : ℝ, a * a + b * b ≤ 103 / 100 →
      |F.fl (1 - F.fl (F.fl (F.fl (2 * a) * a) + F.fl (F.fl (2 * b) * b))) - (1 - (2 * a * a + 2 * b * b))| ≤ 3 * (414 / 100 * F.u) := by
    intro a b h
    have hb : 2 * |a| * |a| + 2 * |b| * |b| ≤ 206 / 100 := by
      have := abs_mul_abs_self a; have := abs_mul_abs_self b; nlinarith
    have h1 := (((t a a).add (t b b)).bound hu hb).rnd (F := F.toFloatArith)
    have h2 := (((Err.exact F.u 1).mono hu (Nat.zero_le 3)).sub h1).rnd (F := F.toFloatArith)
    rw [abs_one] at h2
    exact (fin (by norm_num) h2).trans (by linarith)
  intro v
  have key : ∀ {A B C a b c x y z : ℝ}, |A - a| ≤ x → |B - b| ≤ y → |C - c| ≤ z →
      |A * v.x + B * v.y + C * v.z - (a * v.x + b * v.y + c * v.z)| ≤ x * |v.x| + y * |v.y| + z * |v.z| := by
    intro A B C a b c x y z h1 h2 h3
    have e : A * v.x + B * v.y + C * v.z - (a * v.x + b * v.y + c * v.z) = (A - a) * v.x + (B - b) * v.y + (C - c) * v.z := by ring
    rw [e]
    refine (abs_add_le _ _).trans (add_le_add ((abs_add_le _ _).trans (add_le_add ?_ ?_)) ?_) <;>
      rw [abs_mul] <;> apply mul_le_mul_of_nonneg_right _ (abs_nonneg _) <;> assumption
  have h := V3.norm_le_of_abs (v := (F.toRotationMatrix q).mulVec v - q.toRotationMatrix.mulVec v)
    (b := (414 / 100 * F.u) • ⟨3 * |v.x| + |v.y| + |v.z|, |v.x| + 3 * |v.y| + |v.z|, |v.x| + |v.y| + 3 * |v.z|⟩)
    ((key (diag q.y q.z (by linarith [nn q.w, nn q.x])) (off q.y q.x q.z q.w (by linarith)).2
      (off q.z q.x q.y q.w (by linarith)).1).trans (by simp only [V3.smul_x]; linarith))
    ((key (off q.y q.x q.z q.w (by linarith)).1 (diag q.x q.z (by linarith [nn q.w, nn q.y]))
      (off q.z q.y q.x q.w (by linarith)).2).trans (by simp only [V3.smul_y]; linarith))
    ((key (off q.z q.x q.y q.w (by linarith)).2 (off q.z q.y q.x q.w (by linarith)).1
      (diag q.x q.y (by linarith [nn q.w, nn q.z]))).trans (by simp only [V3.smul_z]; linarith))
  refine h.trans ?_
  rw [V3.norm_smul_nonneg (by linarith)]
  have := mul_le_mul_of_nonneg_left (norm_5 v) (by linarith : 0 ≤ 414 / 100 * F.u)
  have := mul_nonneg hu v.norm_nonneg
  linarith

/-- The rounded rotation matrix of an angle and an approximately unit axis. -/
lemma matOfAa_round (a : AngAx) (ha : a.axis.norm ≤ 101 / 100) : EntryClose (16 * F.u) (F.matOfAa a) (rodMat a.angle a.axis) := by
  have hu := F.u_nonneg
  have hs := F.u_small
  obtain ⟨n1, n2, n3⟩ := abs_comp_le a.axis
  have hs0 := F.sin_err a.angle
  have hc0 := F.cos_err a.angle
  have bs := Real.abs_sin_le_one a.angle
  have bc := Real.abs_cos_le_one a.angle
  have hc' := F.abs_cos_le a.angle
  have hd0 : |F.fl (1 - F.cos a.angle) - (1 - Real.cos a.angle)| ≤ 41 / 10 * F.u :=
    F.fl_le (k := 2) (M := 2) (by rw [abs_sub_comm] at hc0; convert hc0 using 2; ring)
      (by obtain ⟨k1, k2⟩ := abs_le.mp bc; rw [abs_le]; constructor <;> linarith) (by norm_num) (by norm_num)
  have bd : |1 - Real.cos a.angle| ≤ 2 := by obtain ⟨k1, k2⟩ := abs_le.mp bc; rw [abs_le]; constructor <;> linarith
  simp only [EntryClose, rodMat, FloatLib.matOfAa, AngAx.toRotationMatrix, V3.smul_x, V3.smul_y, V3.smul_z]
  generalize a.axis.x = x at *
  generalize a.axis.y = y at *
  generalize a.axis.z = z at *
  generalize F.sin a.angle = S at *
  generalize Real.sin a.angle = s at *
  generalize F.cos a.angle = C at *
  generalize Real.cos a.angle = c at *
  generalize F.fl (1 - C) = D at *
  have hx := n1.trans ha; have hy := n2.trans ha; have hz := n3.trans ha
  -- `fl (S * t)`
  have sn : ∀ {t : ℝ}, |t| ≤ 101 / 100 → |F.fl (S * t) - s * t| ≤ 31 / 10 * F.u ∧ |s * t| ≤ 101 / 100 := fun {t} ht => by
    have b : |s * t| ≤ 101 / 100 := by rw [abs_mul]; nlinarith [abs_nonneg s, abs_nonneg t]
    refine ⟨F.fl_le (k := 202 / 100) ?_ b (by norm_num) (by norm_num), b⟩
    have := abs_mul_sub_le hs0 (by simp : |t - t| ≤ 0) bs ht
    linarith
  have dn : ∀ {t : ℝ}, |t| ≤ 101 / 100 → |F.fl (D * t) - (1 - c) * t| ≤ 62 / 10 * F.u ∧ |(1 - c) * t| ≤ 202 / 100 := fun {t} ht => by
    have b : |(1 - c) * t| ≤ 202 / 100 := by rw [abs_mul]; nlinarith [abs_nonneg (1 - c), abs_nonneg t]
    refine ⟨F.fl_le (k := 4141 / 1000) ?_ b (by norm_num) (by norm_num), b⟩
    have := abs_mul_sub_le hd0 (by simp : |t - t| ≤ 0) bd ht
    linarith
  have dnn : ∀ {t r : ℝ}, |t| ≤ 101 / 100 → |r| ≤ 101 / 100 →
      |F.fl (F.fl (D * t) * r) - (1 - c) * t * r| ≤ 84 / 10 * F.u ∧ |(1 - c) * t * r| ≤ 2041 / 1000 := fun {t r} ht hr => by
    obtain ⟨h1, h2⟩ := dn ht
    have b : |(1 - c) * t * r| ≤ 2041 / 1000 := by
      rw [abs_mul]
      have := mul_le_mul h2 hr (abs_nonneg _) (by norm_num)
      linarith
    refine ⟨F.fl_le (k := 63 / 10) ?_ b (by norm_num) (by norm_num), b⟩
    have := abs_mul_sub_le h1 (by simp : |r - r| ≤ 0) h2 hr
    linarith
  have comb : ∀ {A a B b : ℝ}, |A - a| ≤ 84 / 10 * F.u → |B - b| ≤ 31 / 10 * F.u → |a| ≤ 2041 / 1000 → |b| ≤ 101 / 100 →
      |F.fl (A + B) - (a + b)| ≤ 16 * F.u ∧ |F.fl (A - B) - (a - b)| ≤ 16 * F.u := fun {A a B b} h1 h2 h3 h4 => by
    obtain ⟨a1, a2⟩ := abs_le.mp h1
    obtain ⟨b1, b2⟩ := abs_le.mp h2
    obtain ⟨c1, c2⟩ := abs_le.mp h3
    obtain ⟨d1, d2⟩ := abs_le.mp h4
    exact ⟨F.fl_le (k := 115 / 10) (M := 3051 / 1000) (by rw [abs_le]; constructor <;> linarith) (by rw [abs_le]; constructor <;> linarith) (by norm_num) (by norm_num),
      F.fl_le (k := 115 / 10) (M := 3051 / 1000) (by rw [abs_le]; constructor <;> linarith) (by rw [abs_le]; constructor <;> linarith) (by norm_num) (by norm_num)⟩
  have hcc : |C - c| ≤ 31 / 10 * F.u := hc0.trans (by linarith)
  have bcc : |c| ≤ 101 / 100 := bc.trans (by norm_num)
  refine ⟨(comb (dnn hx hx).1 hcc (dnn hx hx).2 bcc).1, (comb (dnn hx hy).1 (sn hz).1 (dnn hx hy).2 (sn hz).2).2,
    (comb (dnn hx hz).1 (sn hy).1 (dnn hx hz).2 (sn hy).2).1, (comb (dnn hx hy).1 (sn hz).1 (dnn hx hy).2 (sn hz).2).1,
    (comb (dnn hy hy).1 hcc (dnn hy hy).2 bcc).1, (comb (dnn hy hz).1 (sn hx).1 (dnn hy hz).2 (sn hx).2).2,
    (comb (dnn hx hz).1 (sn hy).1 (dnn hx hz).2 (sn hy).2).2, (comb (dnn hy hz).1 (sn hx).1 (dnn hy hz).2 (sn hx).2).1,
    (comb (dnn hz hz).1 hcc (dnn hz hz).2 bcc).1⟩

/-! ### The arc tangent of a slightly wrong length -/

lemma abs_arctan_le (x : ℝ) : |Real.arctan x| ≤ |x| := by
  have key : ∀ {y : ℝ}, 0 ≤ y → Real.arctan y ≤ y := fun {y} hy => by
    rcases hy.eq_or_lt with h | h
    · rw [← h, Real.arctan_zero]
    · have h1 := Real.arctan_pos.mpr h
      have h2 := Real.lt_tan h1 (Real.arctan_lt_pi_div_two y)
      rw [Real.tan_arctan] at h2; exact h2.le
  rcases le_total 0 x with h | h
  · rw [abs_of_nonneg h, abs_of_nonneg (Real.arctan_nonneg.mpr h)]; exact key h
  · have : Real.arctan x ≤ 0 := by
      have := Real.arctan_nonneg.mpr (neg_nonneg.mpr h); rw [Real.arctan_neg] at this; linarith
    rw [abs_of_nonpos h, abs_of_nonpos this, ← Real.arctan_neg]; exact key (neg_nonneg.mpr h)

lemma atan2_eq_arctan {n : ℝ} (hn : 0 < n) (w : ℝ) : Kindr.atan2 n w = Real.pi / 2 - Real.arctan (w / n) := by
  have h1 := Real.neg_pi_div_two_lt_arctan (w / n)
  have h2 := Real.arctan_lt_pi_div_two (w / n)
  have hr : 0 < n * Real.sqrt (1 + (w / n) ^ 2) := by positivity
  have k := Complex.arg_mul_cos_add_sin_mul_I hr (θ := Real.pi / 2 - Real.arctan (w / n))
    ⟨by linarith [Real.pi_pos], by linarith⟩
  rw [← k, Kindr.atan2]
  congr 1
  have hs : Real.sqrt (1 + (w / n) ^ 2) ≠ 0 := by positivity
  apply Complex.ext
  · have : Real.cos (Real.pi / 2 - Real.arctan (w / n)) = w / n / Real.sqrt (1 + (w / n) ^ 2) := by
      rw [Real.cos_pi_div_two_sub, Real.sin_arctan]
    simp only [← Complex.ofReal_cos, ← Complex.ofReal_sin, Complex.mul_re, Complex.ofReal_re, Complex.ofReal_im, Complex.add_re,
      Complex.mul_im, Complex.I_re, Complex.I_im, Complex.add_im]
    rw [this]; field_simp; ring
  · have : Real.sin (Real.pi / 2 - Real.arctan (w / n)) = 1 / Real.sqrt (1 + (w / n) ^ 2) := by
      rw [Real.sin_pi_div_two_sub, Real.cos_arctan]
    simp only [← Complex.ofReal_cos, ← Complex.ofReal_sin, Complex.mul_re, Complex.ofReal_re, Complex.ofReal_im, Complex.add_re,
      Complex.mul_im, Complex.I_re, Complex.I_im, Complex.add_im]
    rw [this]; field_simp; ring

lemma atan2_perturb {n N : ℝ} (hn : 0 < n) (w : ℝ) {e : ℝ} (h : |N - n| ≤ e * n) (he : e ≤ 1 / 10) :
    |Kindr.atan2 N w - Kindr.atan2 n w| ≤ e := by
  obtain ⟨h1, h2⟩ := abs_le.mp h
  have he0 : 0 ≤ e := by
    by_contra hc; push Not at hc
    have := mul_neg_of_neg_of_pos hc hn
    have := abs_nonneg (N - n); linarith
  have hN : 9 / 10 * n ≤ N := by nlinarith
  have hN0 : 0 < N := by linarith
  rw [atan2_eq_arctan hn, atan2_eq_arctan hN0]
  have e1 : Real.pi / 2 - Real.arctan (w / N) - (Real.pi / 2 - Real.arctan (w / n)) = Real.arctan (w / n) + Real.arctan (-(w / N)) := by
    rw [Real.arctan_neg]; ring
  have hp : 0 ≤ w / n * (w / N) := by
    have : w / n * (w / N) = w ^ 2 / (n * N) := by field_simp
    rw [this]; positivity
  rw [e1, Real.arctan_add (by rw [mul_neg]; linarith)]
  refine (abs_arctan_le _).trans ?_
  have e2 : (w / n + -(w / N)) / (1 - w / n * -(w / N)) = w * (N - n) / (n * N + w ^ 2) := by
    have : 1 - w / n * -(w / N) = (n * N + w ^ 2) / (n * N) := by field_simp; ring
    rw [this]; field_simp; ring
  have hpos : 0 < n * N + w ^ 2 := by positivity
  rw [e2, abs_div, abs_of_pos hpos, div_le_iff₀ hpos, abs_mul]
  have k1 : |w| * |N - n| ≤ |w| * (e * n) := mul_le_mul_of_nonneg_left h (abs_nonneg _)
  have k2 : |w| * n ≤ n * N + w ^ 2 := by
    rw [← sq_abs w]
    nlinarith [sq_nonneg (|w| - n / 2), abs_nonneg w]
  have := mul_le_mul_of_nonneg_left k2 he0
  linarith

end FloatLib
end Kindr
