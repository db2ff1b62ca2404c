import Verif.Lemmas.MatrixExp
import Verif.Props.Metric

/-!
# C21, C22, C23: exponential and logarithmic map, box operations, interpolation
-/

set_option autoImplicit false

open Classical

noncomputable section
namespace Kindr
open Spec

lemma mul_le_sin' {x : ℝ} (h0 : 0 ≤ x) (h1 : x ≤ Real.pi / 2) : 2 / Real.pi * x ≤ Real.sin x := Real.mul_le_sin h0 h1

/-- A rotation vector of length between `π·√threshold` and `π` is not tiny. -/
lemma clear_of_norm {P : Prec} {v : V3} (h : v = 0 ∨ (smallThreshold P ≤ (v.norm / Real.pi) ^ 2 ∧ v.norm ≤ Real.pi)) :
    Clear P (den .rv (⟨v⟩ : RotVec)) := by
  rw [den_eq]
  rcases h with rfl | ⟨h1, h2⟩
  · left; exact dmat_rv_zero
  · right
    have hv : v ≠ 0 := by
      rintro rfl
      have := smallThreshold_pos P
      simp at h1; linarith
    have hpos := V3.norm_pos hv
    rw [dmat_rv_ne hv, trace_rodMat _ (unit_dir hpos.ne')]
    have hs := mul_le_sin' (x := v.norm / 2) (by linarith) (by linarith)
    have e : 2 / Real.pi * (v.norm / 2) = v.norm / Real.pi := by field_simp
    rw [e] at hs
    have h3 : (v.norm / Real.pi) ^ 2 ≤ Real.sin (v.norm / 2) ^ 2 :=
      pow_le_pow_left₀ (div_nonneg hpos.le Real.pi_pos.le) hs 2
    rw [sin_half_sq] at h3
    linarith

/-- The thresholds of the two scalar types: rotation angles above `2e-4` rad (`double`) and `0.04` rad (`float`) are never
tiny. -/
lemma smallThreshold_double : smallThreshold Prec.double = 1 / 2 ^ 28 := by
  have h : Prec.double.eps ^ (1 / 4 : ℝ) = 1 / 2 ^ 13 := by
    have : Prec.double.eps = (1 / 2 ^ 13 : ℝ) ^ (4 : ℝ) := by norm_num [Prec.double]
    rw [this, ← Real.rpow_mul (by norm_num)]; norm_num
  rw [smallThreshold, h]
  have : Prec.double.dp = 1 / 1000000000000 := rfl
  rw [this, max_eq_right (by norm_num)]; norm_num

lemma smallThreshold_le (P : Prec) : smallThreshold P ≤ 1 / 10000 := by
  have h : (P.eps ^ (1 / 4 : ℝ)) ^ 2 = P.eps ^ (1 / 2 : ℝ) := by
    rw [← Real.rpow_natCast, ← Real.rpow_mul P.eps_pos.le]; norm_num
  have h2 : P.eps ^ (1 / 2 : ℝ) ≤ 4 / 10000 := by
    rw [← Real.sqrt_eq_rpow]
    apply Real.sqrt_le_iff.mpr
    refine ⟨by norm_num, P.eps_le.trans (by norm_num)⟩
  rw [smallThreshold, h]
  exact max_le (P.dp_le.trans (by norm_num)) (by linarith)

lemma clear_of_norm' {P : Prec} {v : V3} (h1 : 4 / 100 ≤ v.norm) (h2 : v.norm ≤ Real.pi) :
    Clear P (den .rv (⟨v⟩ : RotVec)) := by
  apply clear_of_norm; right; refine ⟨(smallThreshold_le P).trans ?_, h2⟩
  have hpi := Real.pi_lt_four
  have h3 : 1 / 100 ≤ v.norm / Real.pi := by
    rw [le_div_iff₀ Real.pi_pos]; linarith
  have := pow_le_pow_left₀ (by norm_num) h3 2
  norm_num at this ⊢; linarith

/-! ## C21 -/

lemma rvGetUnique_norm_le (P : Prec) (r : RotVec) : (rvGetUnique P r).v.norm ≤ Real.pi := by
  rcases lt_or_ge r.v.norm P.dp with h | h
  · rw [rvGetUnique_small h]; simp [Real.pi_pos.le]
  · rw [(rvGetUnique_spec (Or.inr h)).2]; exact rotAngle_le_pi _

lemma log_spec {P : Prec} {k : Kind} {r : Rep k} (hv : Valid k r) (hc : Clear P (den k r)) :
    den .rv (⟨logarithmicMap P k r⟩ : RotVec) = den k r ∧ (logarithmicMap P k r).norm = rotAngle (den k r) := by
  obtain ⟨-, d1⟩ := conv_clear P .rv k r hv (by rw [← den_eq]; exact hc)
  have h := clear_rv (P := P) (r := conv P .rv k r) (by rw [d1, ← den_eq]; exact hc)
  have h' : RotVec.v (conv P .rv k r) = 0 ∨ P.dp ≤ (RotVec.v (conv P .rv k r)).norm := h.imp id (fun h => h.2)
  obtain ⟨s, n⟩ := rvGetUnique_spec h'
  rw [den_eq, den_eq, ← d1]
  exact ⟨s, n⟩

lemma exp_spec {P : Prec} {k : Kind} {v : V3} (hc : Clear P (den .rv (⟨v⟩ : RotVec))) :
    Valid k (exponentialMap P k v) ∧ den k (exponentialMap P k v) = den .rv (⟨v⟩ : RotVec) := by
  have := conv_clear P k .rv (⟨v⟩ : RotVec) trivial (by rw [← den_eq]; exact hc)
  rw [den_eq, den_eq]; exact this

/-- **C21 (1).** `exponentialMap(R.logarithmicMap())` represents `R`; the norm of the logarithm is the rotation angle. -/
theorem C21_exp_log (P : Prec) (k : Kind) (r : Rep k) (hv : Valid k r) (hc : Clear P (den k r)) :
    Valid k (exponentialMap P k (logarithmicMap P k r)) ∧
    SameRot (exponentialMap P k (logarithmicMap P k r)) r ∧
    (logarithmicMap P k r).norm = rotAngle (den k r) := by
  obtain ⟨d, n⟩ := log_spec hv hc
  obtain ⟨v1, d1⟩ := exp_spec (P := P) (k := k) (v := logarithmicMap P k r) (by rw [d]; exact hc)
  exact ⟨v1, (sameRot_iff ..).mpr (d1.trans d), n⟩

/-- **C21 (2).** The logarithm never exceeds `π` in norm, for *any* stored value. -/
theorem C21_log_norm_le_pi (P : Prec) (k : Kind) (r : Rep k) : (logarithmicMap P k r).norm ≤ Real.pi :=
  rvGetUnique_norm_le P _

lemma rvGetUnique_of_lt {P : Prec} {v : V3} (h : v = 0 ∨ P.dp ≤ v.norm) (hpi : v.norm < Real.pi) :
    rvGetUnique P ⟨v⟩ = ⟨v⟩ := by
  rcases h with rfl | h
  · exact rvGetUnique_small (by simpa using P.dp_pos)
  · have hpos := lt_of_lt_of_le P.dp_pos h
    have hw : wrapPosNegPI v.norm = v.norm := wrapPosNegPI_of_mem (by linarith [Real.pi_pos]) hpi
    rw [rvGetUnique, aaOfRv_eq (r := ⟨v⟩) h, aaGetUnique]
    simp only [hw, gt_iff_lt, hpos, if_true, rvOfAa]
    rw [smul_smul, mul_one_div, div_self hpos.ne', one_smul]

/-- Two rotation vectors (zero or above the cut-off) with the same rotation have the same unique form. -/
lemma rvGetUnique_congr {P : Prec} {a b : RotVec} (ha : a.v = 0 ∨ P.dp ≤ a.v.norm) (hb : b.v = 0 ∨ P.dp ≤ b.v.norm)
    (h : dmat .rv a = dmat .rv b) : rvGetUnique P a = rvGetUnique P b := by
  have := (C16_rotation_vector_unique P a b ha hb).2.2.2
  rw [sameRot_iff, den_eq, den_eq] at this
  exact this.mp h

lemma log_of_den {P : Prec} {k : Kind} {r : Rep k} {v : V3} (hv : Valid k r) (hd : den k r = den .rv (⟨v⟩ : RotVec))
    (hc : Clear P (den .rv (⟨v⟩ : RotVec))) (hpi : v.norm < Real.pi) : logarithmicMap P k r = v := by
  rw [den_eq, den_eq] at hd
  rw [den_eq] at hc
  obtain ⟨-, d1⟩ := conv_clear P .rv k r hv (by rw [hd]; exact hc)
  have h := (clear_rv (P := P) (r := conv P .rv k r) (by rw [d1, hd]; exact hc)).imp id (fun h => h.2)
  have h0 := (clear_rv (P := P) (r := (⟨v⟩ : RotVec)) hc).imp id (fun h => h.2)
  rw [logarithmicMap, rvGetUnique_congr h h0 (d1.trans hd), rvGetUnique_of_lt h0 hpi]

/-- **C21 (3).** `exponentialMap(v).logarithmicMap() = v` for `|v| < π` outside the small-angle region. -/
theorem C21_log_exp (P : Prec) (k : Kind) (v : V3) (hc : Clear P (den .rv (⟨v⟩ : RotVec))) (hpi : v.norm < Real.pi) :
    logarithmicMap P k (exponentialMap P k v) = v := by
  obtain ⟨v1, d1⟩ := exp_spec (P := P) (k := k) hc
  exact log_of_den v1 d1 hc hpi

/-- **C21 (4).** The exponential map *is* the matrix exponential of the skew matrix (Mathlib's `NormedSpace.exp`). -/
theorem C21_matrix_exponential (P : Prec) (k : Kind) (v : V3) (hc : Clear P (den .rv (⟨v⟩ : RotVec))) :
    toMat (den k (exponentialMap P k v)) = NormedSpace.exp (crossMatrix v) := by
  rw [(exp_spec (P := P) (k := k) hc).2, den_eq, toMat_rv]

/-- non-vacuity of C21: every vector with `0.04 ≤ |v| ≤ π` qualifies (here `(0,3/5,4/5)` with norm 1), for every scalar type;
for `double` every vector with `2e-4 ≤ |v| ≤ π`. -/
example (P : Prec) : Clear P (den .rv (⟨⟨0, 3 / 5, 4 / 5⟩⟩ : RotVec)) := by
  have h : (⟨0, 3 / 5, 4 / 5⟩ : V3).norm = 1 := V3.norm_eq_one_iff.mpr (by norm_num [V3.normSq, V3.dot])
  exact clear_of_norm' (by rw [h]; norm_num) (by rw [h]; linarith [Real.pi_gt_three])

example (v : V3) (h : 2 / 10000 ≤ v.norm) (h' : v.norm ≤ Real.pi) : Clear Prec.double (den .rv (⟨v⟩ : RotVec)) := by
  refine clear_of_norm (Or.inr ⟨?_, h'⟩)
  rw [smallThreshold_double]
  have hpi := Real.pi_lt_d2
  have h3 : 63 / 1000000 ≤ v.norm / Real.pi := by
    rw [le_div_iff₀ Real.pi_pos]; nlinarith
  have := pow_le_pow_left₀ (by norm_num) h3 2
  norm_num at this ⊢; linarith

/-! ## C22 -/

/-- **C22 (1).** `B.boxPlus(A.boxMinus(B))` represents `A`, and `|A.boxMinus(B)|` is the disparity angle. -/
theorem C22_boxPlus_boxMinus (P : Prec) (k₁ k₂ : Kind) (a : Rep k₁) (b : Rep k₂) (ha : Valid k₁ a) (hb : Valid k₂ b)
    (h : PairClear P k₁ k₂ a b) (hr : Clear P (den k₁ a * (den k₂ b).transpose)) (hf : RvClear P k₂ (den k₁ a)) :
    Valid k₂ (boxPlus P k₂ b (boxMinus P k₁ k₂ a b)) ∧ SameRot (boxPlus P k₂ b (boxMinus P k₁ k₂ a b)) a ∧
    (boxMinus P k₁ k₂ a b).norm = disparityAngle P k₁ k₂ a b := by
  obtain ⟨vm, dm⟩ := relative_spec ha hb h
  obtain ⟨dl, nl⟩ := log_spec vm (by rw [dm]; exact hr)
  obtain ⟨ve, de⟩ := exp_spec (P := P) (k := k₂) (v := boxMinus P k₁ k₂ a b)
    (by rw [boxMinus, dl, dm]; exact hr)
  have hd : den k₂ (exponentialMap P k₂ (boxMinus P k₁ k₂ a b)) = den k₁ a * (den k₂ b).transpose := by
    rw [de, boxMinus, dl, dm]
  have hprod : den k₁ a * (den k₂ b).transpose * den k₂ b = den k₁ a := by
    rw [mul_assoc, SO3.tr_mul (den_isSO3 hb), mul_one]
  obtain ⟨v3, d3⟩ := mult_spec (P := P) ve hb (fun hk => by rw [hd]; exact hr) h.2.1 (by rw [hd, hprod]; exact hf)
  refine ⟨v3, (sameRot_iff ..).mpr ?_, ?_⟩
  · refine d3.trans ?_; rw [hd, hprod]
  · rw [disparity_eq ha hb h, ← dm]; exact nl

/-- **C22 (2).** `(A.boxPlus(v)).boxMinus(A) = v` for `|v| < π`, and `A.boxPlus(0)` represents `A`. -/
theorem C22_boxMinus_boxPlus (P : Prec) (k : Kind) (a : Rep k) (ha : Valid k a) (hca : RvClear P k (den k a)) :
    (∀ v : V3, Clear P (den .rv (⟨v⟩ : RotVec)) → v.norm < Real.pi →
      RvClear P k (den .rv (⟨v⟩ : RotVec) * den k a) → boxMinus P k k (boxPlus P k a v) a = v) ∧
    SameRot (boxPlus P k a 0) a := by
  have hA := den_isSO3 ha
  have key : ∀ v : V3, Clear P (den .rv (⟨v⟩ : RotVec)) → RvClear P k (den .rv (⟨v⟩ : RotVec) * den k a) →
      Valid k (boxPlus P k a v) ∧ den k (boxPlus P k a v) = den .rv (⟨v⟩ : RotVec) * den k a := by
    intro v hc hf
    obtain ⟨ve, de⟩ := exp_spec (P := P) (k := k) hc
    obtain ⟨v3, d3⟩ := mult_spec (P := P) ve ha (fun _ => by rw [de]; exact hc) hca (by rw [de]; exact hf)
    exact ⟨v3, d3.trans (by rw [de])⟩
  constructor
  · intro v hc hpi hf
    obtain ⟨vb, db⟩ := key v hc hf
    have e : den .rv (⟨v⟩ : RotVec) * den k a * (den k a).transpose = den .rv (⟨v⟩ : RotVec) := by
      rw [mul_assoc, hA.1, mul_one]
    have hp : PairClear P k k (boxPlus P k a v) a :=
      ⟨by rw [db]; exact hf, hca, fun _ => by rw [db, e]; exact hc⟩
    obtain ⟨vm, dm⟩ := relative_spec vb ha hp
    exact log_of_den vm (by rw [dm, db, e]) hc hpi
  · have h0 : den .rv (⟨0⟩ : RotVec) = 1 := by rw [den_eq, dmat_rv_zero]
    obtain ⟨-, db⟩ := key 0 (by rw [h0]; exact clear_one P) (by rw [h0, one_mul]; exact hca)
    rw [sameRot_iff, db, h0, one_mul]

/-! ## C23 -/

lemma den_rv_smul_mul (s t : ℝ) (w : V3) :
    den .rv (⟨s • w⟩ : RotVec) * den .rv (⟨t • w⟩ : RotVec) = den .rv (⟨(s + t) • w⟩ : RotVec) := by
  simp only [den_eq]
  apply toMat_injective
  rw [toMat_mul, toMat_rv, toMat_rv, toMat_rv]
  have e : ∀ c : ℝ, crossMatrix (c • w) = c • crossMatrix w := fun c => by
    ext i j; fin_cases i <;> fin_cases j <;> simp [crossMatrix]
  rw [e, e, e, ← Matrix.exp_add_of_commute, ← add_smul]
  exact (Commute.refl _).smul_left _ |>.smul_right _

lemma rotAngle_rv {v : V3} (h : v.norm ≤ Real.pi) : rotAngle (den .rv (⟨v⟩ : RotVec)) = v.norm := by
  rw [den_eq]
  by_cases hv : v = 0
  · subst hv; rw [dmat_rv_zero, rotAngle_one, V3.norm_zero]
  · rw [dmat_rv_ne hv, rotAngle_rodMat (unit_dir (V3.norm_pos hv).ne') v.norm_nonneg h]

/-- The ratio actually used by `interpolate`. -/
def clamp01 (t : ℝ) : ℝ := max 0 (min t 1)

lemma clamp_eq (t : ℝ) : (if t > 1 then 1 else if t < 0 then 0 else t) = clamp01 t := by
  unfold clamp01
  split_ifs with h1 h2
  · rw [min_eq_right h1.le, max_eq_right zero_le_one]
  · rw [min_eq_left (not_lt.mp h1), max_eq_left h2.le]
  · rw [min_eq_left (not_lt.mp h1), max_eq_right (not_lt.mp h2)]

/-- The side conditions of `A.interpolate(B, t)`: no tiny nonzero rotation occurs in a rotation vector on the way. -/
def InterpClear (P : Prec) (k₁ k₂ : Kind) (a : Rep k₁) (b : Rep k₂) (t : ℝ) : Prop :=
  PairClear P k₂ k₁ b a ∧ Clear P (den k₂ b * (den k₁ a).transpose) ∧
  (∀ w : V3, w.norm ≤ Real.pi → den .rv (⟨w⟩ : RotVec) = den k₂ b * (den k₁ a).transpose →
    Clear P (den .rv (⟨clamp01 t • w⟩ : RotVec)) ∧ RvClear P k₁ (den .rv (⟨clamp01 t • w⟩ : RotVec) * den k₁ a))

lemma interp_spec {P : Prec} {k₁ k₂ : Kind} {a : Rep k₁} {b : Rep k₂} {t : ℝ} (ha : Valid k₁ a) (hb : Valid k₂ b)
    (h : InterpClear P k₁ k₂ a b t) : ∃ w : V3, w.norm = rotAngle (den k₂ b * (den k₁ a).transpose) ∧
      den .rv (⟨w⟩ : RotVec) = den k₂ b * (den k₁ a).transpose ∧
      Valid k₁ (interpolate P k₁ k₂ a b t) ∧
      den k₁ (interpolate P k₁ k₂ a b t) = den .rv (⟨clamp01 t • w⟩ : RotVec) * den k₁ a := by
  obtain ⟨hp, hr, hw⟩ := h
  obtain ⟨vm, dm⟩ := relative_spec hb ha hp
  obtain ⟨dl, nl⟩ := log_spec vm (by rw [dm]; exact hr)
  rw [dm] at nl
  obtain ⟨h1, h2⟩ := hw (boxMinus P k₂ k₁ b a) (nl.trans_le (rotAngle_le_pi _)) (dl.trans dm)
  refine ⟨boxMinus P k₂ k₁ b a, nl, dl.trans dm, ?_⟩
  have e : interpolate P k₁ k₂ a b t = boxPlus P k₁ a (clamp01 t • boxMinus P k₂ k₁ b a) := by
    rw [interpolate, clamp_eq]
  obtain ⟨ve, de⟩ := exp_spec (P := P) (k := k₁) h1
  obtain ⟨v3, d3⟩ := mult_spec (P := P) ve ha (fun _ => by rw [de]; exact h1) hp.2.1 (by rw [de]; exact h2)
  rw [de] at d3
  rw [e]
  exact ⟨v3, d3⟩

/-- **C23.** `A.interpolate(B, t)` is a valid rotation at distance `t·δ` from `A` and `(1-t)·δ` from `B`, where `δ` is the
distance of `A` and `B` and `t` is clamped to `[0,1]`; it represents `A` for `t ≤ 0` and `B` for `t ≥ 1`. -/
theorem C23_interpolate (P : Prec) (k₁ k₂ : Kind) (a : Rep k₁) (b : Rep k₂) (t : ℝ) (ha : Valid k₁ a)
    (hb : Valid k₂ b) (h : InterpClear P k₁ k₂ a b t) :
    Valid k₁ (interpolate P k₁ k₂ a b t) ∧
    (t ≤ 0 → SameRot (interpolate P k₁ k₂ a b t) a) ∧
    (1 ≤ t → SameRot (interpolate P k₁ k₂ a b t) b) ∧
    (0 ≤ t → t ≤ 1 →
      rotAngle (den k₁ (interpolate P k₁ k₂ a b t) * (den k₁ a).transpose) =
        t * rotAngle (den k₂ b * (den k₁ a).transpose) ∧
      rotAngle (den k₂ b * (den k₁ (interpolate P k₁ k₂ a b t)).transpose) =
        (1 - t) * rotAngle (den k₂ b * (den k₁ a).transpose)) := by
  obtain ⟨w, nw, dw, vi, di⟩ := interp_spec ha hb h
  have hA := den_isSO3 ha
  have hwpi : w.norm ≤ Real.pi := by rw [nw]; exact rotAngle_le_pi _
  have hB : den .rv (⟨w⟩ : RotVec) * den k₁ a = den k₂ b := by
    rw [dw, mul_assoc, SO3.tr_mul hA, mul_one]
  refine ⟨vi, fun ht => ?_, fun ht => ?_, fun h0 h1 => ?_⟩
  · have : clamp01 t = 0 := by unfold clamp01; rw [min_eq_left (by linarith), max_eq_left ht]
    rw [sameRot_iff, di, this, zero_smul, den_eq, dmat_rv_zero, one_mul]
  · have : clamp01 t = 1 := by unfold clamp01; rw [min_eq_right ht, max_eq_right zero_le_one]
    rw [sameRot_iff, di, this, one_smul, hB]
  · have hc : clamp01 t = t := by unfold clamp01; rw [min_eq_left h1, max_eq_right h0]
    rw [hc] at di
    constructor
    · rw [di, mul_assoc, hA.1, mul_one, rotAngle_rv, V3.norm_smul, nw, abs_of_nonneg h0]
      rw [V3.norm_smul, abs_of_nonneg h0]; nlinarith [w.norm_nonneg]
    · have e : den k₂ b * (den k₁ (interpolate P k₁ k₂ a b t)).transpose = den .rv (⟨(1 - t) • w⟩ : RotVec) := by
        have hrv : (den .rv (⟨t • w⟩ : RotVec)).transpose = den .rv (⟨(-t) • w⟩ : RotVec) := by
          have := (inverted_spec (k := .rv) (r := (⟨t • w⟩ : RotVec)) trivial).2
          rw [← this, inverted]; simp only [neg_smul]
        have h1w : den .rv (⟨w⟩ : RotVec) = den .rv (⟨(1 : ℝ) • w⟩ : RotVec) := by rw [one_smul]
        rw [di, M3.transpose_mul, ← hB, mul_assoc, ← mul_assoc (den k₁ a), hA.1, one_mul, hrv, h1w,
          den_rv_smul_mul, sub_eq_add_neg]
      rw [e, rotAngle_rv, V3.norm_smul, nw, abs_of_nonneg (by linarith)]
      rw [V3.norm_smul, abs_of_nonneg (by linarith)]; nlinarith [w.norm_nonneg]

/-- non-vacuity of C23: interpolating half way from the identity matrix to a quarter turn. -/
example : InterpClear Prec.double .mat .aa (1 : M3) (⟨Real.pi / 2, ⟨0, 0, 1⟩⟩ : AngAx) (1 / 2) := by
  have hz : (⟨0, 0, 1⟩ : V3).normSq = 1 := by norm_num [V3.normSq, V3.dot]
  have hd : den .aa (⟨Real.pi / 2, ⟨0, 0, 1⟩⟩ : AngAx) * (den .mat (1 : M3)).transpose =
      rodMat (Real.pi / 2) ⟨0, 0, 1⟩ := by
    rw [den_eq, den_eq]
    have e : dmat .mat (1 : M3) = 1 := rfl
    rw [e, M3.transpose_one, mul_one]; rfl
  have hang : rotAngle (rodMat (Real.pi / 2) ⟨0, 0, 1⟩) = Real.pi / 2 :=
    rotAngle_rodMat hz (by positivity) (by linarith [Real.pi_pos])
  have hpi := Real.pi_gt_three
  refine ⟨pairClear_of_nonrv (by decide) (by decide), ?_, fun w hw e => ⟨?_, fun h => absurd h (by decide)⟩⟩
  · rw [hd]; right
    rw [trace_rodMat _ hz, Real.cos_pi_div_two]
    exact (smallThreshold_le _).trans (by norm_num)
  · rw [hd] at e
    have hn : w.norm = Real.pi / 2 := by rw [← rotAngle_rv hw, e, hang]
    have hc : clamp01 (1 / 2) = 1 / 2 := by unfold clamp01; norm_num
    rw [hc]
    apply clear_of_norm' <;> rw [V3.norm_smul, hn, abs_of_pos (by norm_num)] <;> linarith

end Kindr
