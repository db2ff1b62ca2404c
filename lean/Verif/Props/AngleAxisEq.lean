import Verif.Lemmas.Norm
import Verif.Props.Unique

/-!
# C49: `operator==` of angle-axis values compares with a relative tolerance of 0.01 percent
-/

set_option autoImplicit false

open Classical

noncomputable section
namespace Kindr
open Spec

lemma compareRelative_close {a b : ℝ} (h : compareRelative a b (1 / 100) = true) :
    |a - b| ≤ 1 / 10 ^ 4 * max |a| |b| + 1 / 10 ^ 6 := by
  have hm : 0 ≤ max |a| |b| := le_max_of_le_left (abs_nonneg a)
  by_cases hs : (|a| < 1 / 10 ^ 15 ∧ |b| < 1 / 10 ^ 15) ∨ (|a| = 0 ∧ |b| < 1 / 10 ^ 6) ∨ (|b| = 0 ∧ |a| < 1 / 10 ^ 6)
  · have h1 : |a - b| ≤ |a| + |b| := abs_sub a b
    have h2 : (1 : ℝ) / 10 ^ 15 + 1 / 10 ^ 15 ≤ 1 / 10 ^ 6 := by norm_num
    rcases hs with ⟨p, q⟩ | ⟨p, q⟩ | ⟨p, q⟩ <;> nlinarith
  · have := (C27_compareRelative_iff a b (1 / 100) hs).mp h
    linarith

lemma abs_sin_sub_le (a b : ℝ) : |Real.sin a - Real.sin b| ≤ |a - b| := by
  rw [Real.sin_sub_sin, abs_mul, abs_mul, abs_two]
  have h1 := Real.abs_sin_le_abs (x := (a - b) / 2)
  have h2 := Real.abs_cos_le_one ((a + b) / 2)
  have h3 : |(a - b) / 2| = |a - b| / 2 := by rw [abs_div, abs_two]
  nlinarith [abs_nonneg (Real.sin ((a - b) / 2)), abs_nonneg (a - b), abs_nonneg (Real.cos ((a + b) / 2))]

lemma abs_cos_sub_le (a b : ℝ) : |Real.cos a - Real.cos b| ≤ |a - b| := by
  rw [Real.cos_sub_cos, abs_mul, abs_mul, abs_neg, abs_two]
  have h1 := Real.abs_sin_le_abs (x := (a - b) / 2)
  have h2 := Real.abs_sin_le_one ((a + b) / 2)
  have h3 : |(a - b) / 2| = |a - b| / 2 := by rw [abs_div, abs_two]
  nlinarith [abs_nonneg (Real.sin ((a - b) / 2)), abs_nonneg (a - b), abs_nonneg (Real.sin ((a + b) / 2))]

lemma V3.norm_le_abs_sum (v : V3) : v.norm ≤ |v.x| + |v.y| + |v.z| := by
  rw [V3.norm]
  apply Real.sqrt_le_iff.mpr
  refine ⟨by positivity, ?_⟩
  simp only [V3.normSq, V3.dot]
  nlinarith [abs_mul_abs_self v.x, abs_mul_abs_self v.y, abs_mul_abs_self v.z, mul_nonneg (abs_nonneg v.x) (abs_nonneg v.y),
    mul_nonneg (abs_nonneg v.y) (abs_nonneg v.z), mul_nonneg (abs_nonneg v.x) (abs_nonneg v.z)]

/-- Rodrigues' formula depends Lipschitz-continuously on angle and axis. -/
lemma rodrigues_lipschitz {θ θ' : ℝ} {n n' : V3} (hn : n.normSq = 1) (hn' : n'.normSq = 1) (v : V3) :
    (rodrigues θ n v - rodrigues θ' n' v).norm ≤ (3 * |θ - θ'| + 5 * (n - n').norm) * v.norm := by
  have e : rodrigues θ n v - rodrigues θ' n' v =
      (((Real.cos θ - Real.cos θ') • v + (Real.sin θ - Real.sin θ') • n.cross v) +
        Real.sin θ' • (n - n').cross v) + (((Real.cos θ' - Real.cos θ) * n.dot v) • n +
        (((1 - Real.cos θ') * n.dot v) • (n - n') + ((1 - Real.cos θ') * (n - n').dot v) • n')) := by
    ext <;> simp [rodrigues, V3.cross, V3.dot] <;> ring
  have h1 := V3.norm_eq_one_iff.mpr hn
  have h1' := V3.norm_eq_one_iff.mpr hn'
  have hs := abs_sin_sub_le θ θ'
  have hc := abs_cos_sub_le θ θ'
  have hv := v.norm_nonneg
  have hd := (n - n').norm_nonneg
  have b1 : ((Real.cos θ - Real.cos θ') • v).norm ≤ |θ - θ'| * v.norm := by
    rw [V3.norm_smul]; exact mul_le_mul_of_nonneg_right hc hv
  have b2 : ((Real.sin θ - Real.sin θ') • n.cross v).norm ≤ |θ - θ'| * v.norm := by
    rw [V3.norm_smul]
    have := V3.norm_cross_le n v
    rw [h1, one_mul] at this
    exact mul_le_mul hs this (V3.norm_nonneg _) (abs_nonneg _)
  have b3 : (Real.sin θ' • (n - n').cross v).norm ≤ (n - n').norm * v.norm := by
    rw [V3.norm_smul]
    have := V3.norm_cross_le (n - n') v
    calc _ ≤ 1 * ((n - n').norm * v.norm) :=
          mul_le_mul (Real.abs_sin_le_one _) this (V3.norm_nonneg _) zero_le_one
      _ = _ := one_mul _
  have hdot : |n.dot v| ≤ v.norm := by have := V3.dot_abs_le n v; rwa [h1, one_mul] at this
  have hdot' : |(n - n').dot v| ≤ (n - n').norm * v.norm := V3.dot_abs_le _ _
  have hcos : |1 - Real.cos θ'| ≤ 2 := by
    rw [abs_le]; constructor <;> linarith [Real.neg_one_le_cos θ', Real.cos_le_one θ']
  have b4 : (((Real.cos θ' - Real.cos θ) * n.dot v) • n).norm ≤ |θ - θ'| * v.norm := by
    rw [V3.norm_smul, h1, mul_one, abs_mul, abs_sub_comm]
    exact mul_le_mul hc hdot (abs_nonneg _) (abs_nonneg _)
  have b5 : (((1 - Real.cos θ') * n.dot v) • (n - n')).norm ≤ 2 * v.norm * (n - n').norm := by
    rw [V3.norm_smul, abs_mul]
    exact mul_le_mul_of_nonneg_right (mul_le_mul hcos hdot (abs_nonneg _) (by norm_num)) hd
  have b6 : (((1 - Real.cos θ') * (n - n').dot v) • n').norm ≤ 2 * ((n - n').norm * v.norm) := by
    rw [V3.norm_smul, h1', mul_one, abs_mul]
    exact mul_le_mul hcos hdot' (abs_nonneg _) (by norm_num)
  rw [e]
  refine (V3.norm_add_le _ _).trans ?_
  have t1 := V3.norm_add_le ((Real.cos θ - Real.cos θ') • v + (Real.sin θ - Real.sin θ') • n.cross v)
    (Real.sin θ' • (n - n').cross v)
  have t2 := V3.norm_add_le ((Real.cos θ - Real.cos θ') • v) ((Real.sin θ - Real.sin θ') • n.cross v)
  have t3 := V3.norm_add_le (((Real.cos θ' - Real.cos θ) * n.dot v) • n)
    (((1 - Real.cos θ') * n.dot v) • (n - n') + ((1 - Real.cos θ') * (n - n').dot v) • n')
  have t4 := V3.norm_add_le (((1 - Real.cos θ') * n.dot v) • (n - n')) (((1 - Real.cos θ') * (n - n').dot v) • n')
  linarith

/-- **C49 (`_partial`: transitivity fails, see `C49_not_transitive_counterexample`).** `operator==` of angle-axis values is
reflexive, symmetric, true for any two values of the same rotation, and only true when the two rotations move no vector
apart by more than 1/400 of its length. -/
theorem C49_angle_axis_eq_partial (P : Prec) (a b : AngAx) (ha : Valid .aa a) (hb : Valid .aa b) :
    eqSame P .aa a a = true ∧
    eqSame P .aa a b = eqSame P .aa b a ∧
    (SameRot (k₁ := .aa) (k₂ := .aa) a b → eqSame P .aa a b = true) ∧
    (eqSame P .aa a b = true → ∀ v, (act .aa a v - act .aa b v).norm ≤ 1 / 400 * v.norm) := by
  refine ⟨C15_eq_of_same P a a ha ha (fun _ => rfl), ?_, C15_eq_of_same P a b ha hb, fun h v => ?_⟩
  · simp only [eqSame, isEqualSame]
    rw [(C27_compareRelative (AngAx.angle (getUnique P .aa a)) _ (1 / 100) 0).2.1,
      (C27_compareRelative (AngAx.axis (getUnique P .aa a)).x _ (1 / 100) 0).2.1,
      (C27_compareRelative (AngAx.axis (getUnique P .aa a)).y _ (1 / 100) 0).2.1,
      (C27_compareRelative (AngAx.axis (getUnique P .aa a)).z _ (1 / 100) 0).2.1]
  · obtain ⟨-, s1, c1, -⟩ := C15_angle_axis_unique P a a ha ha
    obtain ⟨-, s2, c2, -⟩ := C15_angle_axis_unique P b b hb hb
    rw [← s1 v, ← s2 v]
    simp only [eqSame] at h
    generalize getUnique P .aa a = A at *
    generalize getUnique P .aa b = B at *
    change (rodrigues (AngAx.angle A) (AngAx.axis A) v - rodrigues (AngAx.angle B) (AngAx.axis B) v).norm ≤ _
    simp only [isEqualSame, Bool.and_eq_true] at h
    obtain ⟨⟨⟨h0, h1⟩, h2⟩, h3⟩ := h
    have comp : ∀ {n : V3}, n.normSq = 1 → |n.x| ≤ 1 ∧ |n.y| ≤ 1 ∧ |n.z| ≤ 1 := by
      intro n hn
      simp only [V3.normSq, V3.dot] at hn
      refine ⟨?_, ?_, ?_⟩ <;> rw [abs_le_one_iff_mul_self_le_one] <;>
        nlinarith [mul_self_nonneg n.x, mul_self_nonneg n.y, mul_self_nonneg n.z]
    obtain ⟨ax, ay, az⟩ := comp c1.1
    obtain ⟨bx, bY, bz⟩ := comp c2.1
    have k0 := compareRelative_close h0
    have k1 := compareRelative_close h1
    have k2 := compareRelative_close h2
    have k3 := compareRelative_close h3
    have m0 : max |AngAx.angle A| |AngAx.angle B| ≤ Real.pi := by
      apply max_le
      · rw [abs_of_nonneg c1.2.1]; exact c1.2.2.1
      · rw [abs_of_nonneg c2.2.1]; exact c2.2.2.1
    have m1 := max_le ax bx
    have m2 := max_le ay bY
    have m3 := max_le az bz
    have hpi := Real.pi_lt_d2
    refine (rodrigues_lipschitz c1.1 c2.1 v).trans (mul_le_mul_of_nonneg_right ?_ v.norm_nonneg)
    have hsum := V3.norm_le_abs_sum (AngAx.axis A - AngAx.axis B)
    simp only [V3.sub_x, V3.sub_y, V3.sub_z] at hsum
    nlinarith

/-- **C49, refutation of transitivity.** Rotations about z by 1, 1.00009 and 1.00018 rad: neighbours compare equal, the
outer two do not. -/
theorem C49_not_transitive_counterexample (P : Prec) : ∃ a b c : AngAx, Valid .aa a ∧ Valid .aa b ∧ Valid .aa c ∧
    eqSame P .aa a b = true ∧ eqSame P .aa b c = true ∧ eqSame P .aa a c = false := by
  have h3 := Real.pi_gt_three
  have hu : ∀ t : ℝ, 0 < t → t < 2 → aaGetUnique ⟨t, ⟨0, 0, 1⟩⟩ = ⟨t, ⟨0, 0, 1⟩⟩ := by
    intro t h0 h2
    refine canonicalAA_unique (aaGetUnique_spec (by norm_num [V3.normSq, V3.dot])).1 ?_
      (aaGetUnique_spec (by norm_num [V3.normSq, V3.dot])).2
    exact ⟨by norm_num [V3.normSq, V3.dot], h0.le, by simp only; linarith, fun h => absurd h h0.ne',
      fun h => by simp only at h; linarith⟩
  have key : ∀ s t : ℝ, 0 < s → s < 2 → 0 < t → t < 2 → eqSame P .aa (⟨s, ⟨0, 0, 1⟩⟩ : AngAx) (⟨t, ⟨0, 0, 1⟩⟩ : AngAx) =
      compareRelative s t (1 / 100) := by
    intro s t s0 s2 t0 t2
    have hc : ∀ x : ℝ, compareRelative x x (1 / 100) = true := fun x => (C27_compareRelative x x (1 / 100) 0).1 (by norm_num)
    change isEqualSame .aa (aaGetUnique _) (aaGetUnique _) = _
    rw [hu s s0 s2, hu t t0 t2]
    simp only [isEqualSame, hc, Bool.and_true]
  have side : ∀ s t : ℝ, 1 ≤ s → 1 ≤ t →
      ¬ ((|s| < 1 / 10 ^ 15 ∧ |t| < 1 / 10 ^ 15) ∨ (|s| = 0 ∧ |t| < 1 / 10 ^ 6) ∨ (|t| = 0 ∧ |s| < 1 / 10 ^ 6)) := by
    intro s t hs ht
    rw [abs_of_pos (by linarith), abs_of_pos (by linarith)]
    rintro (⟨h, -⟩ | ⟨h, -⟩ | ⟨h, -⟩)
    · norm_num at h; linarith
    · linarith
    · linarith
  refine ⟨⟨1, ⟨0, 0, 1⟩⟩, ⟨1.00009, ⟨0, 0, 1⟩⟩, ⟨1.00018, ⟨0, 0, 1⟩⟩, by norm_num [Valid], by norm_num [Valid],
    by norm_num [Valid], ?_, ?_, ?_⟩
  · rw [key _ _ (by norm_num) (by norm_num) (by norm_num) (by norm_num), C27_compareRelative_iff _ _ _ (side _ _ (by norm_num) (by norm_num))]
    norm_num [abs_of_pos, abs_of_neg]
  · rw [key _ _ (by norm_num) (by norm_num) (by norm_num) (by norm_num), C27_compareRelative_iff _ _ _ (side _ _ (by norm_num) (by norm_num))]
    norm_num [abs_of_pos, abs_of_neg]
  · rw [key _ _ (by norm_num) (by norm_num) (by norm_num) (by norm_num), Bool.eq_false_iff]
    rw [ne_eq, C27_compareRelative_iff _ _ _ (side _ _ (by norm_num) (by norm_num))]
    norm_num [abs_of_pos, abs_of_neg]

/-- non-vacuity of C49: two different angle-axis values of the same rotation. -/
example : Valid .aa (⟨1, ⟨0, 3 / 5, 4 / 5⟩⟩ : AngAx) ∧ Valid .aa (⟨-1, ⟨0, -3 / 5, -4 / 5⟩⟩ : AngAx) := by
  constructor <;> norm_num [Valid]

end Kindr
