import Verif.Props.ExpLog
import Verif.Props.Convention
import Verif.Props.MatlabRot

/-!
# C97: interpolated paths

`a.interpolate(b, t)` for `t` from 0 to 1 is a path from `a` to `b`.  The path does not depend on the classes in which the end
points are stored, on the world frame or on the body frame; it can be reversed, subdivided and inverted.  All this holds as long as
the end points are less than a half turn apart, and reversal fails for every pair of end points exactly a half turn apart.
-/

set_option autoImplicit false

open Classical

noncomputable section
namespace Kindr
open Spec

/-- A rotation vector shorter than `π` is determined by its length and its rotation. -/
lemma rv_unique {v w : V3} (hn : v.norm = w.norm) (hpi : v.norm < Real.pi)
    (h : den .rv (⟨v⟩ : RotVec) = den .rv (⟨w⟩ : RotVec)) : v = w := by
  by_cases hv : v = 0
  · subst hv
    rw [V3.norm_zero] at hn
    exact (V3.norm_eq_zero.mp hn.symm).symm
  have p := V3.norm_pos hv
  have hw : w ≠ 0 := by
    rintro rfl
    rw [V3.norm_zero] at hn
    exact p.ne' hn
  rw [den_eq, den_eq, dmat_rv_ne hv, dmat_rv_ne hw, ← hn] at h
  have hs : Real.sin v.norm ≠ 0 := (Real.sin_pos_of_pos_of_lt_pi p hpi).ne'
  have e1 := congrArg (fun m : M3 => m.m21 - m.m12) h
  have e2 := congrArg (fun m : M3 => m.m02 - m.m20) h
  have e3 := congrArg (fun m : M3 => m.m10 - m.m01) h
  simp only [rodMat, AngAx.toRotationMatrix, V3.smul_x, V3.smul_y, V3.smul_z] at e1 e2 e3
  have hp := p.ne'
  have c : ∀ x y : ℝ, Real.sin v.norm * (1 / v.norm * x) = Real.sin v.norm * (1 / v.norm * y) → x = y := by
    intro x y hxy
    have := mul_left_cancel₀ hs hxy
    field_simp at this
    exact this
  ext
  · exact c _ _ (by linarith)
  · exact c _ _ (by linarith)
  · exact c _ _ (by linarith)

/-- The path: `exp(t w)` after the first end point, `w` being the rotation vector from the first to the second. -/
lemma interp_path {P : Prec} {k₁ k₂ : Kind} {a : Rep k₁} {b : Rep k₂} {t : ℝ} (ha : Valid k₁ a) (hb : Valid k₂ b)
    (h : InterpClear P k₁ k₂ a b t) {w : V3} (hpi : w.norm < Real.pi)
    (hw : den .rv (⟨w⟩ : RotVec) = den k₂ b * (den k₁ a).transpose) :
    den k₁ (interpolate P k₁ k₂ a b t) = den .rv (⟨clamp01 t • w⟩ : RotVec) * den k₁ a := by
  obtain ⟨w', n', d', -, e⟩ := interp_spec ha hb h
  have hn : w.norm = w'.norm := by rw [n', ← hw, rotAngle_rv hpi.le]
  rw [e, rv_unique hn hpi (hw.trans d'.symm)]

/-- A rotation vector of a relative rotation of less than a half turn. -/
lemma exists_rel {k₁ k₂ : Kind} {a : Rep k₁} {b : Rep k₂} (ha : Valid k₁ a) (hb : Valid k₂ b)
    (h : rotAngle (den k₂ b * (den k₁ a).transpose) < Real.pi) :
    ∃ w : V3, w.norm < Real.pi ∧ den .rv (⟨w⟩ : RotVec) = den k₂ b * (den k₁ a).transpose ∧
      den .rv (⟨w⟩ : RotVec) * den k₁ a = den k₂ b := by
  have hA := den_isSO3 ha
  obtain ⟨w, h1, h2⟩ := Matlab.exists_rv (SO3.mul (den_isSO3 hb) (SO3.transpose hA))
  exact ⟨w, h1.trans_lt h, h2.symm, by rw [← h2, mul_assoc, SO3.tr_mul hA, mul_one]⟩

lemma rv_neg_transpose (w : V3) : den .rv (⟨-w⟩ : RotVec) = (den .rv (⟨w⟩ : RotVec)).transpose :=
  (inverted_spec (k := .rv) (r := (⟨w⟩ : RotVec)) trivial).2

lemma rv_smul_one (w : V3) : den .rv (⟨w⟩ : RotVec) = den .rv (⟨(1 : ℝ) • w⟩ : RotVec) := by rw [one_smul]

lemma clamp_of_mem {t : ℝ} (h0 : 0 ≤ t) (h1 : t ≤ 1) : clamp01 t = t := by
  unfold clamp01; rw [min_eq_left h1, max_eq_right h0]

lemma clamp_one_sub (t : ℝ) : clamp01 (1 - t) = 1 - clamp01 t := by
  unfold clamp01
  rcases le_total t 0 with h | h
  · rw [min_eq_right (by linarith), max_eq_right (by norm_num), min_eq_left (by linarith), max_eq_left h]; norm_num
  · rcases le_total t 1 with h1 | h1
    · rw [min_eq_left (by linarith), max_eq_right (by linarith), min_eq_left h1, max_eq_right h]
    · rw [min_eq_left (by linarith), max_eq_left (by linarith), min_eq_right h1, max_eq_right (by norm_num)]; norm_num

lemma clamp_mem (t : ℝ) : 0 ≤ clamp01 t ∧ clamp01 t ≤ 1 :=
  ⟨le_max_left _ _, max_le zero_le_one (min_le_right _ _)⟩

/-- **C97, classes.** The path depends only on the rotations of the end points, not on the classes that store them. -/
theorem C97_classes (P : Prec) (k₁ k₂ k₃ k₄ : Kind) (a : Rep k₁) (b : Rep k₂) (a' : Rep k₃) (b' : Rep k₄) (t : ℝ)
    (ha : Valid k₁ a) (hb : Valid k₂ b) (ha' : Valid k₃ a') (hb' : Valid k₄ b') (hA : SameRot a a') (hB : SameRot b b')
    (hpi : rotAngle (den k₂ b * (den k₁ a).transpose) < Real.pi) (h : InterpClear P k₁ k₂ a b t)
    (h' : InterpClear P k₃ k₄ a' b' t) :
    SameRot (interpolate P k₁ k₂ a b t) (interpolate P k₃ k₄ a' b' t) := by
  obtain ⟨w, n, d, -⟩ := exists_rel ha hb hpi
  rw [sameRot_iff] at hA hB ⊢
  rw [interp_path ha hb h n d, interp_path ha' hb' h' n (by rw [d, hA, hB]), hA]

/-- **C97, frames.** Rotating both end points by a fixed rotation `r` rotates the whole path: on the left (another world frame), and on
the right (another body frame).  Inverting both end points inverts the path. -/
theorem C97_frames (P : Prec) (k₁ k₂ k₃ k₄ k : Kind) (a : Rep k₁) (b : Rep k₂) (a' : Rep k₃) (b' : Rep k₄) (r : Rep k) (t : ℝ)
    (ha : Valid k₁ a) (hb : Valid k₂ b) (ha' : Valid k₃ a') (hb' : Valid k₄ b') (hr : Valid k r)
    (hpi : rotAngle (den k₂ b * (den k₁ a).transpose) < Real.pi) (h : InterpClear P k₁ k₂ a b t)
    (h' : InterpClear P k₃ k₄ a' b' t) :
    ((∀ v, act k₃ a' v = act k r (act k₁ a v)) → (∀ v, act k₄ b' v = act k r (act k₂ b v)) →
      ∀ v, act k₃ (interpolate P k₃ k₄ a' b' t) v = act k r (act k₁ (interpolate P k₁ k₂ a b t) v)) ∧
    ((∀ v, act k₃ a' v = act k₁ a (act k r v)) → (∀ v, act k₄ b' v = act k₂ b (act k r v)) →
      ∀ v, act k₃ (interpolate P k₃ k₄ a' b' t) v = act k₁ (interpolate P k₁ k₂ a b t) (act k r v)) ∧
    ((∀ v, act k₃ a' (act k₁ a v) = v) → (∀ v, act k₄ b' (act k₂ b v) = v) →
      ∀ v, act k₃ (interpolate P k₃ k₄ a' b' t) (act k₁ (interpolate P k₁ k₂ a b t) v) = v) := by
  obtain ⟨w, n, d, -⟩ := exists_rel ha hb hpi
  have hR := den_isSO3 hr
  have hA := den_isSO3 ha
  have hB := den_isSO3 hb
  have e := interp_path ha hb h n d
  have mat : ∀ X Y : M3, (∀ v, X.mulVec v = Y.mulVec v) → X = Y := fun X Y h => M3.ext_mulVec h
  refine ⟨fun h1 h2 v => ?_, fun h1 h2 v => ?_, fun h1 h2 v => ?_⟩
  · have e1 : den k₃ a' = den k r * den k₁ a := mat _ _ (fun v => by rw [← act_eq, h1, act_eq, act_eq, M3.mulVec_mulVec])
    have e2 : den k₄ b' = den k r * den k₂ b := mat _ _ (fun v => by rw [← act_eq, h2, act_eq, act_eq, M3.mulVec_mulVec])
    have d' : den .rv (⟨(den k r).mulVec w⟩ : RotVec) = den k₄ b' * (den k₃ a').transpose := by
      have := den_rv_rotated hR w
      calc _ = den .rv (⟨(den k r).mulVec w⟩ : RotVec) * den k r * (den k r).transpose := by rw [mul_assoc, hR.1, mul_one]
        _ = _ := by rw [this, d, e1, e2, M3.transpose_mul]; simp only [mul_assoc]
    have e' := interp_path ha' hb' h' (by rw [SO3.mulVec_norm hR]; exact n) d'
    rw [act_eq, act_eq k, act_eq k₁, M3.mulVec_mulVec, e', e, e1, ← mul_assoc, ← mul_assoc, ← M3.mulVec_smul, den_rv_rotated hR]
  · have e1 : den k₃ a' = den k₁ a * den k r := mat _ _ (fun v => by rw [← act_eq, h1, act_eq, act_eq, M3.mulVec_mulVec])
    have e2 : den k₄ b' = den k₂ b * den k r := mat _ _ (fun v => by rw [← act_eq, h2, act_eq, act_eq, M3.mulVec_mulVec])
    have d' : den .rv (⟨w⟩ : RotVec) = den k₄ b' * (den k₃ a').transpose := by
      rw [d, e1, e2, M3.transpose_mul, mul_assoc, ← mul_assoc (den k r), hR.1, one_mul]
    rw [act_eq, act_eq k₁, act_eq k, M3.mulVec_mulVec, interp_path ha' hb' h' n d', e, e1, mul_assoc]
  · have e1 : den k₃ a' * den k₁ a = 1 := mat _ _ (fun v => by rw [← M3.mulVec_mulVec, ← act_eq, ← act_eq, h1, M3.one_mulVec])
    have e2 : den k₄ b' * den k₂ b = 1 := mat _ _ (fun v => by rw [← M3.mulVec_mulVec, ← act_eq, ← act_eq, h2, M3.one_mulVec])
    have f1 : den k₃ a' = (den k₁ a).transpose := by
      calc _ = den k₃ a' * (den k₁ a * (den k₁ a).transpose) := by rw [hA.1, mul_one]
        _ = _ := by rw [← mul_assoc, e1, one_mul]
    have f2 : den k₄ b' = (den k₂ b).transpose := by
      calc _ = den k₄ b' * (den k₂ b * (den k₂ b).transpose) := by rw [hB.1, mul_one]
        _ = _ := by rw [← mul_assoc, e2, one_mul]
    have hT := SO3.transpose hA
    have rot := den_rv_rotated hT (-w)
    have d' : den .rv (⟨(den k₁ a).transpose.mulVec (-w)⟩ : RotVec) = den k₄ b' * (den k₃ a').transpose := by
      calc _ = den .rv (⟨(den k₁ a).transpose.mulVec (-w)⟩ : RotVec) * (den k₁ a).transpose * den k₁ a := by
            rw [mul_assoc, SO3.tr_mul hA, mul_one]
        _ = _ := by
            rw [rot, rv_neg_transpose, d, f1, f2, M3.transpose_mul, M3.transpose_transpose, ← mul_assoc, SO3.tr_mul hA, one_mul]
    have e' := interp_path ha' hb' h' (by rw [SO3.mulVec_norm hT, V3.norm_neg]; exact n) d'
    have rot' := den_rv_rotated hT (clamp01 t • (-w))
    rw [act_eq, act_eq k₁, M3.mulVec_mulVec, e', e, f1, ← M3.mulVec_smul, rot', mul_assoc, ← mul_assoc (den .rv _),
      smul_neg, ← neg_smul, den_rv_smul_mul, neg_add_cancel, zero_smul, den_eq .rv, dmat_rv_zero, one_mul, SO3.tr_mul hA, M3.one_mulVec]

/-- **C97, reversal.** Going back from `b` to `a` runs through the same rotations. -/
theorem C97_reversal (P : Prec) (k₁ k₂ : Kind) (a : Rep k₁) (b : Rep k₂) (t : ℝ) (ha : Valid k₁ a) (hb : Valid k₂ b)
    (hpi : rotAngle (den k₂ b * (den k₁ a).transpose) < Real.pi) (h : InterpClear P k₁ k₂ a b t)
    (h' : InterpClear P k₂ k₁ b a (1 - t)) :
    SameRot (interpolate P k₂ k₁ b a (1 - t)) (interpolate P k₁ k₂ a b t) := by
  obtain ⟨w, n, d, dB⟩ := exists_rel ha hb hpi
  have d' : den .rv (⟨-w⟩ : RotVec) = den k₁ a * (den k₂ b).transpose := by
    rw [rv_neg_transpose, d, M3.transpose_mul, M3.transpose_transpose]
  rw [sameRot_iff, interp_path ha hb h n d, interp_path hb ha h' (by rw [V3.norm_neg]; exact n) d', clamp_one_sub, ← dB, ← mul_assoc,
    smul_neg, ← neg_smul, rv_smul_one w, den_rv_smul_mul]
  congr 4
  ring

/-- **C97, subdivision.** Interpolating between two points of the path stays on the path: the point at `t` between the points at `s₁` and
`s₂` is the point at `(1-t) s₁ + t s₂`. -/
theorem C97_subdivision (P : Prec) (k₁ k₂ : Kind) (a : Rep k₁) (b : Rep k₂) (s₁ s₂ t : ℝ) (ha : Valid k₁ a) (hb : Valid k₂ b)
    (hs₁ : 0 ≤ s₁ ∧ s₁ ≤ 1) (hs₂ : 0 ≤ s₂ ∧ s₂ ≤ 1) (ht : 0 ≤ t ∧ t ≤ 1)
    (hpi : rotAngle (den k₂ b * (den k₁ a).transpose) < Real.pi) (h₁ : InterpClear P k₁ k₂ a b s₁) (h₂ : InterpClear P k₁ k₂ a b s₂)
    (h₃ : InterpClear P k₁ k₁ (interpolate P k₁ k₂ a b s₁) (interpolate P k₁ k₂ a b s₂) t)
    (h₄ : InterpClear P k₁ k₂ a b ((1 - t) * s₁ + t * s₂)) :
    SameRot (interpolate P k₁ k₁ (interpolate P k₁ k₂ a b s₁) (interpolate P k₁ k₂ a b s₂) t)
      (interpolate P k₁ k₂ a b ((1 - t) * s₁ + t * s₂)) := by
  obtain ⟨w, n, d, -⟩ := exists_rel ha hb hpi
  have hA := den_isSO3 ha
  obtain ⟨-, -, -, v₁, -⟩ := interp_spec ha hb h₁
  obtain ⟨-, -, -, v₂, -⟩ := interp_spec ha hb h₂
  have e₁ := interp_path ha hb h₁ n d
  have e₂ := interp_path ha hb h₂ n d
  have e₄ := interp_path ha hb h₄ n d
  have hc : 0 ≤ (1 - t) * s₁ + t * s₂ ∧ (1 - t) * s₁ + t * s₂ ≤ 1 := by
    constructor
    · have := mul_nonneg (sub_nonneg.mpr ht.2) hs₁.1
      have := mul_nonneg ht.1 hs₂.1
      linarith
    · have := mul_le_mul_of_nonneg_left hs₁.2 (sub_nonneg.mpr ht.2)
      have := mul_le_mul_of_nonneg_left hs₂.2 ht.1
      linarith
  rw [clamp_of_mem hs₁.1 hs₁.2] at e₁
  rw [clamp_of_mem hs₂.1 hs₂.2] at e₂
  rw [clamp_of_mem hc.1 hc.2] at e₄
  have d' : den .rv (⟨(s₂ - s₁) • w⟩ : RotVec) =
      den k₁ (interpolate P k₁ k₂ a b s₂) * (den k₁ (interpolate P k₁ k₂ a b s₁)).transpose := by
    rw [e₁, e₂, M3.transpose_mul, mul_assoc, ← mul_assoc (den k₁ a), hA.1, one_mul, ← rv_neg_transpose, ← neg_smul, den_rv_smul_mul,
      sub_eq_add_neg]
  have hn : ((s₂ - s₁) • w).norm < Real.pi := by
    rw [V3.norm_smul]
    have : |s₂ - s₁| ≤ 1 := abs_le.mpr ⟨by linarith [hs₁.2, hs₂.1], by linarith [hs₁.1, hs₂.2]⟩
    calc _ ≤ 1 * w.norm := mul_le_mul_of_nonneg_right this w.norm_nonneg
      _ < _ := by rw [one_mul]; exact n
  rw [sameRot_iff, interp_path v₁ v₂ h₃ hn d', e₁, e₄, clamp_of_mem ht.1 ht.2, ← mul_assoc, smul_smul, den_rv_smul_mul]
  congr 4
  ring

/-- **C97, constant speed.** Any two points of the path are as far apart as their parameters, in units of the distance of the end points. -/
theorem C97_speed (P : Prec) (k₁ k₂ : Kind) (a : Rep k₁) (b : Rep k₂) (s₁ s₂ : ℝ) (ha : Valid k₁ a) (hb : Valid k₂ b)
    (hs₁ : 0 ≤ s₁ ∧ s₁ ≤ 1) (hs₂ : 0 ≤ s₂ ∧ s₂ ≤ 1)
    (hpi : rotAngle (den k₂ b * (den k₁ a).transpose) < Real.pi) (h₁ : InterpClear P k₁ k₂ a b s₁) (h₂ : InterpClear P k₁ k₂ a b s₂) :
    rotAngle (den k₁ (interpolate P k₁ k₂ a b s₂) * (den k₁ (interpolate P k₁ k₂ a b s₁)).transpose) =
      |s₂ - s₁| * rotAngle (den k₂ b * (den k₁ a).transpose) := by
  obtain ⟨w, n, d, -⟩ := exists_rel ha hb hpi
  have hA := den_isSO3 ha
  have hN : w.norm = rotAngle (den k₂ b * (den k₁ a).transpose) := by rw [← d, rotAngle_rv n.le]
  have : |s₂ - s₁| ≤ 1 := abs_le.mpr ⟨by linarith [hs₁.2, hs₂.1], by linarith [hs₁.1, hs₂.2]⟩
  have hn : ((s₂ - s₁) • w).norm ≤ Real.pi := by
    rw [V3.norm_smul]
    calc _ ≤ 1 * w.norm := mul_le_mul_of_nonneg_right this w.norm_nonneg
      _ ≤ _ := by rw [one_mul]; exact n.le
  rw [interp_path ha hb h₁ n d, interp_path ha hb h₂ n d, clamp_of_mem hs₁.1 hs₁.2, clamp_of_mem hs₂.1 hs₂.2, M3.transpose_mul, mul_assoc,
    ← mul_assoc (den k₁ a), hA.1, one_mul, ← rv_neg_transpose, ← neg_smul, den_rv_smul_mul, ← sub_eq_add_neg, rotAngle_rv hn, V3.norm_smul, hN]

/-! ## Half turns -/

lemma log_congr {P : Prec} {k₁ k₂ : Kind} {x : Rep k₁} {y : Rep k₂} (hx : Valid k₁ x) (hy : Valid k₂ y) (h : den k₁ x = den k₂ y)
    (hc : Clear P (den k₁ x)) : logarithmicMap P k₁ x = logarithmicMap P k₂ y := by
  rw [den_eq] at hc
  rw [den_eq, den_eq] at h
  obtain ⟨-, d1⟩ := conv_clear P .rv k₁ x hx hc
  obtain ⟨-, d2⟩ := conv_clear P .rv k₂ y hy (by rw [← h]; exact hc)
  have c1 := (clear_rv (P := P) (r := conv P .rv k₁ x) (by rw [d1]; exact hc)).imp id (fun h => h.2)
  have c2 := (clear_rv (P := P) (r := conv P .rv k₂ y) (by rw [d2, ← h]; exact hc)).imp id (fun h => h.2)
  rw [logarithmicMap, logarithmicMap, rvGetUnique_congr c1 c2 (d1.trans (h.trans d2.symm))]

/-- **C97, half turns.** If the end points are exactly a half turn apart there are two shortest paths, and the library takes one of them
from `a` to `b` and the other one from `b` to `a`: the points at the same place are `2π min(t, 1-t)` apart, in the middle a half turn. -/
theorem C97_half_turn (P : Prec) (k₁ k₂ : Kind) (a : Rep k₁) (b : Rep k₂) (t : ℝ) (ha : Valid k₁ a) (hb : Valid k₂ b)
    (ht : 0 ≤ t ∧ t ≤ 1) (hpi : rotAngle (den k₂ b * (den k₁ a).transpose) = Real.pi) (h : InterpClear P k₁ k₂ a b t)
    (h' : InterpClear P k₂ k₁ b a (1 - t)) :
    rotAngle (den k₂ (interpolate P k₂ k₁ b a (1 - t)) * (den k₁ (interpolate P k₁ k₂ a b t)).transpose) =
      2 * Real.pi * min t (1 - t) := by
  have hA := den_isSO3 ha
  have hB := den_isSO3 hb
  obtain ⟨θ, n, hn, h0, h1, eH⟩ := exists_rodMat (SO3.mul hB (SO3.transpose hA))
  have hθ : θ = Real.pi := by rw [← hpi, eH, rotAngle_rodMat hn h0 h1]
  subst hθ
  have sym : den k₁ a * (den k₂ b).transpose = den k₂ b * (den k₁ a).transpose := by
    have : (den k₂ b * (den k₁ a).transpose).transpose = den k₁ a * (den k₂ b).transpose := by
      rw [M3.transpose_mul, M3.transpose_transpose]
    rw [← this, eH]
    simp only [rodMat, AngAx.toRotationMatrix, M3.transpose, Real.sin_pi, Real.cos_pi]
    ext <;> simp
  -- the same logarithm in both directions
  have exact : ∀ {k k' : Kind} {x : Rep k} {y : Rep k'} {s : ℝ}, Valid k x → Valid k' y → InterpClear P k k' x y s →
      (boxMinus P k' k y x).norm = rotAngle (den k' y * (den k x).transpose) ∧
      den .rv (⟨boxMinus P k' k y x⟩ : RotVec) = den k' y * (den k x).transpose ∧
      den k (interpolate P k k' x y s) = den .rv (⟨clamp01 s • boxMinus P k' k y x⟩ : RotVec) * den k x := by
    intro k k' x y s hx hy hc
    obtain ⟨hp, hr, hw⟩ := hc
    obtain ⟨vm, dm⟩ := relative_spec hy hx hp
    obtain ⟨dl, nl⟩ := log_spec vm (by rw [dm]; exact hr)
    rw [dm] at nl
    obtain ⟨h1, h2⟩ := hw (boxMinus P k' k y x) (nl.trans_le (rotAngle_le_pi _)) (dl.trans dm)
    refine ⟨nl, dl.trans dm, ?_⟩
    have e : interpolate P k k' x y s = boxPlus P k x (clamp01 s • boxMinus P k' k y x) := by
      rw [interpolate, clamp_eq]
    obtain ⟨ve, de⟩ := exp_spec (P := P) (k := k) h1
    obtain ⟨v3, d3⟩ := mult_spec (P := P) ve hx (fun _ => by rw [de]; exact h1) hp.2.1 (by rw [de]; exact h2)
    rw [de] at d3
    rw [e]
    exact d3
  obtain ⟨n1, d1, e1⟩ := exact ha hb h
  obtain ⟨n2, d2, e2⟩ := exact hb ha h'
  have same : boxMinus P k₁ k₂ a b = boxMinus P k₂ k₁ b a := by
    obtain ⟨v1, m1⟩ := relative_spec ha hb h'.1
    obtain ⟨v2, m2⟩ := relative_spec hb ha h.1
    exact log_congr v1 v2 (by rw [m1, m2, sym]) (by rw [m1]; exact h'.2.1)
  rw [same] at e2
  obtain ⟨w, hw⟩ : ∃ w, w = boxMinus P k₂ k₁ b a := ⟨_, rfl⟩
  rw [← hw] at n1 d1 e1 e2
  rw [hpi] at n1
  have dB : den .rv (⟨w⟩ : RotVec) * den k₁ a = den k₂ b := by rw [d1, mul_assoc, SO3.tr_mul hA, mul_one]
  have two : den .rv (⟨(2 : ℝ) • w⟩ : RotVec) = 1 := by
    have : (2 : ℝ) = 1 + 1 := by norm_num
    rw [this, ← den_rv_smul_mul, one_smul]
    calc _ = den .rv (⟨w⟩ : RotVec) * (den .rv (⟨w⟩ : RotVec)).transpose := by
          congr 1
          rw [d1, M3.transpose_mul, M3.transpose_transpose, sym]
      _ = 1 := (den_isSO3 (k := .rv) (r := (⟨w⟩ : RotVec)) trivial).1
  have key : den k₂ (interpolate P k₂ k₁ b a (1 - t)) * (den k₁ (interpolate P k₁ k₂ a b t)).transpose =
      den .rv (⟨(2 - 2 * t) • w⟩ : RotVec) := by
    rw [e1, e2, clamp_one_sub, clamp_of_mem ht.1 ht.2, ← dB, M3.transpose_mul, ← rv_neg_transpose, ← neg_smul, rv_smul_one w]
    calc _ = den .rv (⟨(1 - t) • w⟩ : RotVec) * den .rv (⟨(1 : ℝ) • w⟩ : RotVec) * (den k₁ a * (den k₁ a).transpose) *
          den .rv (⟨(-t) • w⟩ : RotVec) := by simp only [mul_assoc]
      _ = _ := by
        rw [hA.1, mul_one, den_rv_smul_mul, den_rv_smul_mul]
        congr 3
        ring
  rw [key]
  rcases le_total t (1 / 2) with hh | hh
  · have : den .rv (⟨(2 - 2 * t) • w⟩ : RotVec) = den .rv (⟨(-(2 * t)) • w⟩ : RotVec) := by
      rw [sub_eq_add_neg, ← den_rv_smul_mul, two, one_mul]
    have nn : ((-(2 * t)) • w).norm = 2 * t * Real.pi := by
      rw [V3.norm_smul, n1, abs_neg, abs_of_nonneg (by linarith [ht.1])]
    rw [this, rotAngle_rv (by rw [nn]; nlinarith [Real.pi_pos]), nn, min_eq_left (by linarith)]
    ring
  · have nn : ((2 - 2 * t) • w).norm = (2 - 2 * t) * Real.pi := by
      rw [V3.norm_smul, n1, abs_of_nonneg (by linarith [ht.2])]
    rw [rotAngle_rv (by rw [nn]; nlinarith [Real.pi_pos]), nn, min_eq_right (by linarith)]
    ring

/-! ## The hypotheses are met -/

/-- The clearance condition for the classes other than `RotationVector`, in terms of the distance of the end points. -/
lemma interpClear_of_nonrv {P : Prec} {k₁ k₂ : Kind} {a : Rep k₁} {b : Rep k₂} {t : ℝ} (h₁ : k₁ ≠ .rv) (h₂ : k₂ ≠ .rv) (ha : Valid k₁ a)
    (hb : Valid k₂ b) (h : 4 / 100 ≤ clamp01 t * rotAngle (den k₂ b * (den k₁ a).transpose)) : InterpClear P k₁ k₂ a b t := by
  obtain ⟨c0, c1⟩ := clamp_mem t
  have hp := rotAngle_le_pi (den k₂ b * (den k₁ a).transpose)
  have hnn := rotAngle_nonneg (den k₂ b * (den k₁ a).transpose)
  have hle : clamp01 t * rotAngle (den k₂ b * (den k₁ a).transpose) ≤ rotAngle (den k₂ b * (den k₁ a).transpose) :=
    mul_le_of_le_one_left hnn c1
  obtain ⟨w, n, e⟩ := Matlab.exists_rv (SO3.mul (den_isSO3 hb) (SO3.transpose (den_isSO3 ha)))
  refine ⟨pairClear_of_nonrv h₂ h₁, ?_, fun w' hw' e' => ⟨?_, fun h => absurd h h₁⟩⟩
  · rw [e]
    exact clear_of_norm' (by rw [n]; linarith) (by rw [n]; exact hp)
  · have n' : w'.norm = rotAngle (den k₂ b * (den k₁ a).transpose) := by rw [← e', rotAngle_rv hw']
    apply clear_of_norm' <;> rw [V3.norm_smul, n', abs_of_nonneg c0] <;> linarith

/-- Reversal holds e.g. for all matrices and quaternions at least 0.4 rad and less than a half turn apart, in the middle half of the path. -/
theorem C97_example_reversal (P : Prec) (m : M3) (q : Quat) (t : ℝ) (hm : Valid .mat m) (hq : Valid .quat q) (ht : 1 / 4 ≤ t ∧ t ≤ 3 / 4)
    (h0 : 4 / 10 ≤ rotAngle (den .quat q * (den .mat m).transpose)) (hpi : rotAngle (den .quat q * (den .mat m).transpose) < Real.pi) :
    SameRot (interpolate P .quat .mat q m (1 - t)) (interpolate P .mat .quat m q t) := by
  refine C97_reversal P .mat .quat m q t hm hq hpi (interpClear_of_nonrv (by decide) (by decide) hm hq ?_)
    (interpClear_of_nonrv (by decide) (by decide) hq hm ?_)
  · rw [clamp_of_mem (by linarith [ht.1]) (by linarith [ht.2])]
    nlinarith [ht.1]
  · have e : den .mat m * (den .quat q).transpose = (den .quat q * (den .mat m).transpose).transpose := by
      rw [M3.transpose_mul, M3.transpose_transpose]
    rw [clamp_of_mem (by linarith [ht.2]) (by linarith [ht.1]), e, rotAngle_transpose]
    nlinarith [ht.2]

/-- Half way between the identity and any half turn, the two paths are a half turn apart. -/
theorem C97_example_half_turn (P : Prec) (n : V3) (hn : n.normSq = 1) :
    rotAngle (den .aa (interpolate P .aa .mat (⟨Real.pi, n⟩ : AngAx) (1 : M3) (1 / 2)) *
      (den .mat (interpolate P .mat .aa (1 : M3) (⟨Real.pi, n⟩ : AngAx) (1 / 2))).transpose) = Real.pi := by
  have hm : Valid .mat (1 : M3) := SO3.one
  have ha : Valid .aa (⟨Real.pi, n⟩ : AngAx) := (valid_aa_iff _).mpr hn
  have hd : den .aa (⟨Real.pi, n⟩ : AngAx) * (den .mat (1 : M3)).transpose = rodMat Real.pi n := by
    rw [den_eq, den_eq]
    have e : dmat .mat (1 : M3) = 1 := rfl
    rw [e, M3.transpose_one, mul_one]; rfl
  have hang : rotAngle (den .aa (⟨Real.pi, n⟩ : AngAx) * (den .mat (1 : M3)).transpose) = Real.pi := by
    rw [hd, rotAngle_rodMat hn Real.pi_pos.le le_rfl]
  have hang' : rotAngle (den .mat (1 : M3) * (den .aa (⟨Real.pi, n⟩ : AngAx)).transpose) = Real.pi := by
    rw [← rotAngle_transpose, M3.transpose_mul, M3.transpose_transpose]
    exact hang
  have hc : clamp01 (1 / 2) = 1 / 2 := clamp_of_mem (by norm_num) (by norm_num)
  have h2 : (1 : ℝ) - 1 / 2 = 1 / 2 := by norm_num
  have hp := Real.pi_gt_three
  have := C97_half_turn P .mat .aa (1 : M3) (⟨Real.pi, n⟩ : AngAx) (1 / 2) hm ha ⟨by norm_num, by norm_num⟩ hang
    (interpClear_of_nonrv (by decide) (by decide) hm ha (by rw [hc, hang]; linarith))
    (interpClear_of_nonrv (by decide) (by decide) ha hm (by rw [h2, hc, hang']; linarith))
  rw [h2] at this
  rw [this, min_self]
  ring

/-- The conditions of the class, frame and subdivision theorems hold e.g. for any two matrices between 0.8 rad and a half turn apart. -/
example (P : Prec) (m m' : M3) (q : Quat) (hm : Valid .mat m) (hm' : Valid .mat m') (hq : Valid .quat q)
    (h0 : 8 / 10 ≤ rotAngle (den .mat m' * (den .mat m).transpose)) (hs : SameRot (k₁ := .mat) (k₂ := .quat) m q)
    (hpi : rotAngle (den .mat m' * (den .mat m).transpose) < Real.pi) :
    SameRot (interpolate P .mat .mat m m' (1 / 2)) (interpolate P .quat .mat q m' (1 / 2)) := by
  have hc : clamp01 (1 / 2) = 1 / 2 := clamp_of_mem (by norm_num) (by norm_num)
  refine C97_classes P .mat .mat .quat .mat m m' q m' (1 / 2) hm hm' hq hm' hs ((sameRot_iff ..).mpr rfl) hpi
    (interpClear_of_nonrv (by decide) (by decide) hm hm' (by rw [hc]; linarith)) (interpClear_of_nonrv (by decide) (by decide) hq hm' ?_)
  rw [hc, ← (sameRot_iff ..).mp hs]
  linarith

example (P : Prec) (m m' : M3) (hm : Valid .mat m) (hm' : Valid .mat m')
    (h0 : 8 / 10 ≤ rotAngle (den .mat m' * (den .mat m).transpose))
    (hpi : rotAngle (den .mat m' * (den .mat m).transpose) < Real.pi) :
    SameRot (interpolate P .mat .mat (interpolate P .mat .mat m m' (1 / 4)) (interpolate P .mat .mat m m' (3 / 4)) (1 / 2))
      (interpolate P .mat .mat m m' (1 / 2)) := by
  have c1 : clamp01 (1 / 4) = 1 / 4 := clamp_of_mem (by norm_num) (by norm_num)
  have c2 : clamp01 (1 / 2) = 1 / 2 := clamp_of_mem (by norm_num) (by norm_num)
  have c3 : clamp01 (3 / 4) = 3 / 4 := clamp_of_mem (by norm_num) (by norm_num)
  have i1 : InterpClear P .mat .mat m m' (1 / 4) := interpClear_of_nonrv (by decide) (by decide) hm hm' (by rw [c1]; linarith)
  have i2 : InterpClear P .mat .mat m m' (1 / 2) := interpClear_of_nonrv (by decide) (by decide) hm hm' (by rw [c2]; linarith)
  have i3 : InterpClear P .mat .mat m m' (3 / 4) := interpClear_of_nonrv (by decide) (by decide) hm hm' (by rw [c3]; linarith)
  obtain ⟨w, n, d, -⟩ := exists_rel hm hm' hpi
  have e1 := interp_path hm hm' i1 n d
  have e3 := interp_path hm hm' i3 n d
  obtain ⟨-, -, -, v1, -⟩ := interp_spec hm hm' i1
  obtain ⟨-, -, -, v3, -⟩ := interp_spec hm hm' i3
  have hN : w.norm = rotAngle (den .mat m' * (den .mat m).transpose) := by rw [← d, rotAngle_rv n.le]
  have H : (1 - 1 / 2) * (1 / 4) + 1 / 2 * (3 / 4) = (1 / 2 : ℝ) := by norm_num
  have := C97_subdivision P .mat .mat m m' (1 / 4) (3 / 4) (1 / 2) hm hm' ⟨by norm_num, by norm_num⟩ ⟨by norm_num, by norm_num⟩
    ⟨by norm_num, by norm_num⟩ hpi i1 i3 (interpClear_of_nonrv (by decide) (by decide) v1 v3 ?_) (by rw [H]; exact i2)
  · rw [H] at this
    exact this
  · rw [e1, e3, c1, c3, M3.transpose_mul, mul_assoc, ← mul_assoc (den .mat m), (den_isSO3 (k := .mat) hm).1, one_mul, ← rv_neg_transpose, ← neg_smul,
      den_rv_smul_mul, c2, rotAngle_rv (by rw [V3.norm_smul, abs_of_nonneg (by norm_num)]; linarith [w.norm_nonneg]), V3.norm_smul,
      abs_of_nonneg (by norm_num)]
    linarith

end Kindr
