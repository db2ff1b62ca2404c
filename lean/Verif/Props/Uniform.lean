import Verif.Lemmas.Near
import Verif.Props.Group
import Verif.Model.Pose

/-!
# C59: uniform accuracy on *all* valid inputs, tiny rotations included

The exact theorems C05–C23 exclude tiny nonzero rotation vectors, for which the code switches to approximations.
Here nothing is excluded: every operation, in every class, for every valid input, is within an explicit error of the exact
result.  `dp` is `dummy_precision` (1e-12 / 1e-5), `eps` the machine epsilon of the scalar type (2⁻⁵² / 2⁻²³).
-/

set_option autoImplicit false

open Classical

noncomputable section
namespace Kindr
open Spec

lemma Close.act {δ : ℝ} {k : Kind} {r : Rep k} {R : M3} (h : Close δ (den k r) R) (v : V3) :
    (act k r v - R.mulVec v).norm ≤ δ * v.norm := by rw [act_eq]; exact h v

/-- **C59 (a).** Every conversion, for every valid value. -/
theorem C59_conversion (P : Prec) (d s : Kind) (r : Rep s) (h : Valid s r) (v : V3) :
    (act d (conv P d s r) v - act s r v).norm ≤ (P.dp + P.eps / 25) * v.norm := by
  have he := P.eps_pos
  have := (conv_near P d s h).close (by linarith) (by linarith [eps_small P])
  rw [act_eq s]
  exact (this.mono (by linarith)).act v

lemma rotate_close (P : Prec) {k : Kind} {r : Rep k} (h : Valid k r) (v : V3) :
    (rotate P k r v - act k r v).norm ≤ P.eps / 400 * v.norm := by
  have he := P.eps_pos
  by_cases hx : ExactBranch P .mat k r
  · rw [rotate_spec h hx, act_eq, sub_self, V3.norm_zero]
    have := v.norm_nonneg; positivity
  · cases k <;> first | exact absurd trivial hx | skip
    have h2 : ¬ (r.v = 0 ∨ P.eps ^ (1 / 4 : ℝ) ≤ r.v.norm) := hx
    push Not at h2
    obtain ⟨_, _, _, _, _, _, _, h3⟩ := C08_rv_to_quat P r h2.2
    exact h3 v

/-- **C59 (b).** `rotate()` and `inverseRotate()`, for every valid value: both are within `eps/400` of the exact action and its
inverse. -/
theorem C59_rotate (P : Prec) (k : Kind) (r : Rep k) (h : Valid k r) (v : V3) :
    (rotate P k r v - act k r v).norm ≤ P.eps / 400 * v.norm ∧
    (act k r (inverseRotate P k r v) - v).norm ≤ P.eps / 400 * v.norm := by
  refine ⟨rotate_close P h v, ?_⟩
  obtain ⟨h1, h2⟩ := inverted_spec h
  have h3 := rotate_close P h1 v
  have hs := den_isSO3 h
  have e : act k r (inverseRotate P k r v) - v = (den k r).mulVec (rotate P k (inverted k r) v - act k (inverted k r) v) := by
    rw [M3.mulVec_sub, act_eq k (inverted k r), h2, M3.mulVec_mulVec, hs.1, M3.one_mulVec, act_eq]; rfl
  rw [e, SO3.mulVec_norm hs]
  exact h3

/-- **C59 (c).** Concatenation, for every pair of classes and all valid operands. -/
theorem C59_concatenation (P : Prec) (k₁ k₂ : Kind) (a : Rep k₁) (b : Rep k₂) (ha : Valid k₁ a) (hb : Valid k₂ b) (v : V3) :
    (act k₁ (mult P k₁ k₂ a b) v - act k₁ a (act k₂ b v)).norm ≤ (P.dp / 100 + P.eps / 10) * v.norm := by
  have he := P.eps_pos
  have := (mult_near_valid P ha hb).close (by linarith) (by linarith [eps_small P])
  rw [act_eq k₁ a, act_eq k₂ b, M3.mulVec_mulVec]
  exact (this.mono (by linarith)).act v

/-! ### Disparity angle -/

lemma rel_near (P : Prec) {k₁ k₂ : Kind} {a : Rep k₁} {b : Rep k₂} (ha : Valid k₁ a) (hb : Valid k₂ b) :
    Near (P.eps / 1500) (P.dp / 100 + P.eps / 12) k₁ (mult P k₁ k₂ a (inverted k₂ b)) (den k₁ a * (den k₂ b).transpose) := by
  obtain ⟨h1, h2⟩ := inverted_spec hb
  rw [← h2]; exact mult_near_valid P ha h1

/-- **C59 (d).** `getDisparityAngle` is within `3·dp + eps` of the exact rotation angle of `A·B⁻¹`. -/
theorem C59_disparity_angle (P : Prec) (k₁ k₂ : Kind) (a : Rep k₁) (b : Rep k₂) (ha : Valid k₁ a) (hb : Valid k₂ b) :
    |disparityAngle P k₁ k₂ a b - rotAngle (den k₁ a * (den k₂ b).transpose)| ≤ 3 * P.dp + P.eps := by
  have he := P.eps_pos
  have hdp := P.dp_pos
  have hS := SO3.mul (den_isSO3 ha) (SO3.transpose (den_isSO3 hb))
  obtain ⟨h1, h2⟩ := (rel_near P ha hb).toAa (P := P) (by linarith) (by linarith [eps_small P])
  have hrod := rodMat_isSO3 (AngAx.angle (conv P .aa k₁ (mult P k₁ k₂ a (inverted k₂ b)))) h1
  have h3 := rotAngle_close hrod hS h2
  have e : disparityAngle P k₁ k₂ a b = rotAngle (dmat .aa (conv P .aa k₁ (mult P k₁ k₂ a (inverted k₂ b)))) := by
    change |wrapPosNegPI _| = Real.arccos ((M3.trace (rodMat _ _) - 1) / 2)
    rw [abs_wrap, trace_rodMat _ h1]; congr 1; ring
  rw [e]
  exact h3.trans (by linarith)

/-- **C59 (e).** `isNear(B, tol)` can only be wrong if the exact angle is within `3·dp + eps` of the tolerance. -/
theorem C59_isNear (P : Prec) (k₁ k₂ : Kind) (a : Rep k₁) (b : Rep k₂) (tol : ℝ) (ha : Valid k₁ a) (hb : Valid k₂ b) :
    (rotAngle (den k₁ a * (den k₂ b).transpose) ≤ tol - (3 * P.dp + P.eps) → isNear P k₁ k₂ a b tol = true) ∧
    (isNear P k₁ k₂ a b tol = true → rotAngle (den k₁ a * (den k₂ b).transpose) ≤ tol + (3 * P.dp + P.eps)) := by
  obtain ⟨h1, h2⟩ := abs_le.mp (C59_disparity_angle P k₁ k₂ a b ha hb)
  simp only [isNear, decide_eq_true_eq]
  constructor <;> intro h <;> linarith

/-! ### Logarithm, box operations, interpolation -/

lemma rvGetUnique_close (P : Prec) (r : RotVec) : Close P.dp (dmat .rv (rvGetUnique P r)) (dmat .rv r) := by
  by_cases h : r.v.norm < P.dp
  · rw [rvGetUnique_small h]
    refine close_of_rotAngle (dmat_isSO3 .rv ⟨0⟩ trivial) (dmat_isSO3 .rv r trivial) ?_
    rw [dmat_rv_zero, one_mul, rotAngle_transpose]
    exact (rotAngle_rv_le r).trans h.le
  · rw [(rvGetUnique_spec (Or.inr (not_lt.mp h))).1]
    exact (Close.refl _).mono P.dp_pos.le

lemma log_close {P : Prec} {k : Kind} {r : Rep k} {R : M3} {η δ : ℝ} (h : Near η δ k r R) (h0 : 0 ≤ η) (hη : η ≤ 1 / 10 ^ 8) :
    Close (101 / 100 * P.dp + 70 * η + δ) (den .rv (⟨logarithmicMap P k r⟩ : RotVec)) R := by
  rw [den_eq]
  exact ((rvGetUnique_close P _).trans (h.toRv (P := P) h0 hη)).mono (by linarith)

/-- **C59 (f).** `logarithmicMap()` of every valid value: its length is at most `π`, it is the rotation angle up to `4·dp`, and
the exponential of the result is the rotation up to `2·dp`. -/
theorem C59_logarithmicMap (P : Prec) (k : Kind) (r : Rep k) (h : Valid k r) :
    (logarithmicMap P k r).norm ≤ Real.pi ∧
    |(logarithmicMap P k r).norm - rotAngle (den k r)| ≤ 4 * P.dp ∧
    ∀ v : V3, (act .rv (⟨logarithmicMap P k r⟩ : RotVec) v - act k r v).norm ≤ 2 * P.dp * v.norm := by
  have hdp := P.dp_pos
  have hn : (logarithmicMap P k r).norm ≤ Real.pi := rvGetUnique_norm_le P _
  have hc : Close (2 * P.dp) (den .rv (⟨logarithmicMap P k r⟩ : RotVec)) (den k r) :=
    (log_close (near_of_valid h) le_rfl (by norm_num)).mono (by linarith)
  refine ⟨hn, ?_, fun v => by rw [act_eq k]; exact hc.act v⟩
  have := rotAngle_close (den_isSO3 (k := .rv) (r := ⟨logarithmicMap P k r⟩) trivial) (den_isSO3 h) hc
  rw [rotAngle_rv hn] at this
  exact this.trans (by linarith)

lemma boxMinus_close (P : Prec) {k₁ k₂ : Kind} {a : Rep k₁} {b : Rep k₂} (ha : Valid k₁ a) (hb : Valid k₂ b) :
    Close (2 * P.dp + P.eps / 4) (den .rv (⟨boxMinus P k₁ k₂ a b⟩ : RotVec)) (den k₁ a * (den k₂ b).transpose) := by
  have he := P.eps_pos
  have hdp := P.dp_pos
  exact (log_close (rel_near P ha hb) (by linarith) (by linarith [eps_small P])).mono (by linarith)

/-- **C59 (g).** `A.boxMinus(B)` for all valid `A`, `B`: at most `π` long, and rotating `B` by it gives `A`. -/
theorem C59_boxMinus (P : Prec) (k₁ k₂ : Kind) (a : Rep k₁) (b : Rep k₂) (ha : Valid k₁ a) (hb : Valid k₂ b) :
    (boxMinus P k₁ k₂ a b).norm ≤ Real.pi ∧
    |(boxMinus P k₁ k₂ a b).norm - rotAngle (den k₁ a * (den k₂ b).transpose)| ≤ 4 * P.dp + P.eps / 2 ∧
    ∀ v : V3, (act .rv (⟨boxMinus P k₁ k₂ a b⟩ : RotVec) (act k₂ b v) - act k₁ a v).norm ≤
      (2 * P.dp + P.eps / 4) * v.norm := by
  have hn : (boxMinus P k₁ k₂ a b).norm ≤ Real.pi := rvGetUnique_norm_le P _
  have hc := boxMinus_close P ha hb
  have hS := SO3.mul (den_isSO3 ha) (SO3.transpose (den_isSO3 hb))
  refine ⟨hn, ?_, fun v => ?_⟩
  · have := rotAngle_close (den_isSO3 (k := .rv) (r := ⟨boxMinus P k₁ k₂ a b⟩) trivial) hS hc
    rw [rotAngle_rv hn] at this
    exact this.trans (by linarith)
  · have := hc.act (act k₂ b v)
    rw [act_eq k₂, M3.mulVec_mulVec, mul_assoc, SO3.tr_mul (den_isSO3 hb), mul_one,
      SO3.mulVec_norm (den_isSO3 hb), ← act_eq, ← act_eq] at this
    rw [act_eq k₁]; rw [act_eq k₁] at this; exact this

lemma boxPlus_close (P : Prec) {k : Kind} {a : Rep k} (ha : Valid k a) (w : V3) :
    Close (2 * P.dp + P.eps) (den k (boxPlus P k a w)) (den .rv (⟨w⟩ : RotVec) * den k a) := by
  have he := P.eps_pos
  have hdp := P.dp_pos
  have hW := den_isSO3 (k := .rv) (r := (⟨w⟩ : RotVec)) trivial
  have h1 : Near (P.eps / 3200) (P.dp + P.eps / 30) k (exponentialMap P k w) (den .rv (⟨w⟩ : RotVec)) :=
    conv_near P k .rv (r := (⟨w⟩ : RotVec)) trivial
  by_cases hm : k = .mat
  · subst hm
    have h2 := h1.close (by linarith) (by linarith [eps_small P])
    have h3 := h2.mul (Close.refl (den .mat a)) (den_isSO3 ha) hW
    have e : den .mat (boxPlus P .mat a w) = den .mat (exponentialMap P .mat w) * den .mat a := by
      simp only [den_eq]; rfl
    rw [e]
    exact h3.mono (by linarith)
  · have h2 := mult_near (P := P) h1 (near_of_valid ha) hW (by linarith) (by linarith [eps_small P]) le_rfl (by norm_num)
      (fun h => hm h.1)
    have h3 := h2.close (by linarith) (by linarith [eps_small P])
    exact h3.mono (by linarith)

/-- **C59 (h).** `A.boxPlus(w)` for every valid `A` and every vector `w`. -/
theorem C59_boxPlus (P : Prec) (k : Kind) (a : Rep k) (ha : Valid k a) (w v : V3) :
    (act k (boxPlus P k a w) v - act .rv (⟨w⟩ : RotVec) (act k a v)).norm ≤ (2 * P.dp + P.eps) * v.norm := by
  rw [act_eq .rv, act_eq k a, M3.mulVec_mulVec]
  exact (boxPlus_close P ha w).act v

/-- **C59 (i).** `A.interpolate(B, t)` for all valid `A`, `B` and every `t`: there is one rotation vector `w` of length at most
`π` (and equal to the exact distance of `A` and `B` up to `4·dp + eps/2`) such that the result follows the exact geodesic
`exp(t·w)·A` (`t` clamped to `[0,1]`) to within `2·dp + eps`, and that geodesic ends in `B` up to `2·dp + eps/4`. -/
theorem C59_interpolate (P : Prec) (k₁ k₂ : Kind) (a : Rep k₁) (b : Rep k₂) (ha : Valid k₁ a) (hb : Valid k₂ b) :
    ∃ w : V3, w.norm ≤ Real.pi ∧
      |w.norm - rotAngle (den k₂ b * (den k₁ a).transpose)| ≤ 4 * P.dp + P.eps / 2 ∧
      (∀ v : V3, (act .rv (⟨w⟩ : RotVec) (act k₁ a v) - act k₂ b v).norm ≤ (2 * P.dp + P.eps / 4) * v.norm) ∧
      ∀ (t : ℝ) (v : V3),
        (act k₁ (interpolate P k₁ k₂ a b t) v - act .rv (⟨max 0 (min t 1) • w⟩ : RotVec) (act k₁ a v)).norm ≤
          (2 * P.dp + P.eps) * v.norm := by
  obtain ⟨h1, h2, h3⟩ := C59_boxMinus P k₂ k₁ b a hb ha
  refine ⟨boxMinus P k₂ k₁ b a, h1, h2, h3, fun t v => ?_⟩
  have e : interpolate P k₁ k₂ a b t = boxPlus P k₁ a (clamp01 t • boxMinus P k₂ k₁ b a) := by
    rw [interpolate, clamp_eq]
  rw [e]
  exact C59_boxPlus P k₁ a ha (clamp01 t • boxMinus P k₂ k₁ b a) v

/-- The exact geodesic of C59 (i) really has constant speed: `exp(t·w)·exp(s·w)⁻¹` is a rotation by the angle
`(t-s)·|w|` for `0 ≤ s ≤ t ≤ 1`. -/
theorem C59_geodesic_speed (w : V3) (hw : w.norm ≤ Real.pi) (s t : ℝ) (h0 : 0 ≤ s) (hst : s ≤ t) (h1 : t ≤ 1) :
    rotAngle (den .rv (⟨t • w⟩ : RotVec) * (den .rv (⟨s • w⟩ : RotVec)).transpose) = (t - s) * w.norm := by
  have hrv : (den .rv (⟨s • w⟩ : RotVec)).transpose = den .rv (⟨(-s) • w⟩ : RotVec) := by
    have := (inverted_spec (k := .rv) (r := (⟨s • w⟩ : RotVec)) trivial).2
    rw [← this, inverted]; simp only [neg_smul]
  have hn : ((t - s) • w).norm = (t - s) * w.norm := by rw [V3.norm_smul, abs_of_nonneg (by linarith)]
  rw [hrv, den_rv_smul_mul, ← sub_eq_add_neg, rotAngle_rv, hn]
  rw [hn]; nlinarith [w.norm_nonneg]

/-! ### Histories -/

/-- Linear error growth: after `n` concatenations with valid rotations of arbitrary classes, each possibly inverted, an
accumulator that is an `AngleAxis`, a `RotationVector` or a set of Euler angles is within `n·(dp/100 + eps/12)` of the exact
composition. -/
theorem C59_history (P : Prec) (k : Kind) (hk : k ≠ .quat) (hk' : k ≠ .mat) (acc : Rep k) (l : List Step)
    (hacc : Valid k acc) (hl : ∀ s ∈ l, Valid s.kind s.val) (v : V3) :
    Valid k (runHistory P k acc l) ∧
    (act k (runHistory P k acc l) v - composeActs (act k acc) l v).norm ≤ l.length * (P.dp / 100 + P.eps / 12) * v.norm := by
  have he := P.eps_pos
  have hdp := P.dp_pos
  -- the composition in matrix form
  have hcomp : ∀ (l : List Step) (f : V3 → V3) (R : M3), (∀ v, f v = R.mulVec v) → (∀ s ∈ l, Valid s.kind s.val) →
      ∀ v, composeActs f l v = (l.foldl (fun m s => m * s.matrix) R).mulVec v := by
    intro l
    induction l with
    | nil => intro f R hf _ v; exact hf v
    | cons s l ih =>
      intro f R hf hl v
      refine ih _ _ (fun v => ?_) (fun t ht => hl t (by simp [ht])) v
      rw [hf, Step.apply, act_eq, M3.mulVec_mulVec]; rfl
  have key : ∀ (l : List Step) (acc : Rep k) (R : M3) (δ : ℝ), Valid k acc → Close δ (den k acc) R →
      (∀ s ∈ l, Valid s.kind s.val) → Valid k (runHistory P k acc l) ∧
      Close (δ + l.length * (P.dp / 100 + P.eps / 12)) (den k (runHistory P k acc l)) (l.foldl (fun m s => m * s.matrix) R) := by
    intro l
    induction l with
    | nil => intro acc R δ hv hc _; exact ⟨hv, hc.mono (by simp)⟩
    | cons s l ih =>
      intro acc R δ hv hc hl
      have hf := Step.factor_valid (hl s (by simp))
      have h1 := mult_near_valid P hv hf
      have h2 : Valid k (mult P k s.kind acc s.factor) ∧
          Close (P.dp / 100 + P.eps / 12) (den k (mult P k s.kind acc s.factor)) (den k acc * den s.kind s.factor) := by
        revert h1
        cases k
        · exact absurd rfl hk
        · exact absurd rfl hk'
        · intro h1; rw [den_eq .aa (mult _ _ _ _ _)]; exact ⟨(valid_aa_iff _).mpr h1.1, h1.2⟩
        all_goals intro h1; rw [den_eq _ (mult _ _ _ _ _)]; exact ⟨trivial, h1⟩
      have h3 : Close (P.dp / 100 + P.eps / 12 + δ) (den k (mult P k s.kind acc s.factor)) (R * s.matrix) :=
        h2.2.trans (hc.mul_right (den_isSO3 hf))
      obtain ⟨v1, c1⟩ := ih _ _ _ h2.1 h3 (fun t ht => hl t (by simp [ht]))
      refine ⟨v1, c1.mono ?_⟩
      push_cast [List.length_cons]
      linarith
  obtain ⟨h1, h2⟩ := key l acc (den k acc) 0 hacc (Close.refl _) hl
  refine ⟨h1, ?_⟩
  rw [hcomp l (act k acc) (den k acc) (act_eq k acc) hl v, act_eq]
  refine (h2 v).trans (by rw [zero_add])

/-- The same for a quaternion accumulator, which is never renormalized: as long as `n·eps ≤ 1` the error is at most
`n·eps/300` and the norm stays within `n·eps/1600` of one. -/
theorem C59_history_quat (P : Prec) (acc : Quat) (l : List Step) (hacc : Valid .quat acc)
    (hl : ∀ s ∈ l, Valid s.kind s.val) (hn : l.length * P.eps ≤ 1) (v : V3) :
    |Quat.norm (runHistory P .quat acc l) - 1| ≤ l.length * P.eps / 1600 ∧
    (act .quat (runHistory P .quat acc l) v - composeActs (act .quat acc) l v).norm ≤ l.length * P.eps / 300 * v.norm := by
  have he := P.eps_pos
  have hcomp : ∀ (l : List Step) (f : V3 → V3) (R : M3), (∀ v, f v = R.mulVec v) →
      ∀ v, composeActs f l v = (l.foldl (fun m s => m * s.matrix) R).mulVec v := by
    intro l
    induction l with
    | nil => intro f R hf v; exact hf v
    | cons s l ih =>
      intro f R hf v
      refine ih _ _ (fun v => ?_) v
      rw [hf, Step.apply, act_eq, M3.mulVec_mulVec]; rfl
  have key : ∀ (l : List Step) (acc : Quat) (R : M3) (η δ : ℝ), IsSO3 R → NearQ η δ acc R →
      (∀ s ∈ l, Valid s.kind s.val) →
      NearQ ((1 + η) * (1 + P.eps / 3200) ^ l.length - 1) (δ + l.length * (P.eps / 800))
        (runHistory P .quat acc l) (l.foldl (fun m s => m * s.matrix) R) := by
    intro l
    induction l with
    | nil => intro acc R η δ _ h _; exact h.mono (by simp) (by simp)
    | cons s l ih =>
      intro acc R η δ hR h hl
      have hf := Step.factor_valid (hl s (by simp))
      have h1 := (near_of_valid hf).toQuat (P := P) le_rfl (by norm_num)
      have h2 := h.mul h1 hR
      have h3 := ih (acc * conv P .quat s.kind s.factor) (R * s.matrix) _ _ (SO3.mul hR (den_isSO3 hf)) h2
        (fun t ht => hl t (by simp [ht]))
      have e : runHistory P .quat acc (s :: l) = runHistory P .quat (acc * conv P .quat s.kind s.factor) l := by
        have : mult P .quat s.kind acc s.factor = acc * (conv P .quat s.kind s.factor : Quat) := by
          rw [mult_eq P .quat s.kind acc s.factor (fun h => by cases h.1)]; rfl
        rw [runHistory, this]
      rw [e]
      refine NearQ.mono h3 ?_ ?_
      · rw [List.length_cons, pow_succ]
        apply le_of_eq; ring
      · push_cast [List.length_cons]; linarith
  have h1 := (valid_quat_iff _).mp hacc
  have h2 := key l acc (den .quat acc) 0 0 (den_isSO3 hacc)
    (by have := NearQ.of_unit h1; rw [den_eq]; exact this) hl
  have hpow : (1 + P.eps / 3200) ^ l.length - 1 ≤ l.length * P.eps / 1600 := by
    have hx : 1 + P.eps / 3200 ≤ Real.exp (P.eps / 3200) := by linarith [Real.add_one_le_exp (P.eps / 3200)]
    have h3 : (1 + P.eps / 3200) ^ l.length ≤ Real.exp (l.length * (P.eps / 3200)) := by
      rw [Real.exp_nat_mul]; exact pow_le_pow_left₀ (by linarith) hx _
    have h4 : 0 ≤ l.length * P.eps := by positivity
    have h5 := Real.abs_exp_sub_one_le (x := l.length * (P.eps / 3200)) (by
      rw [abs_of_nonneg (by positivity)]; linarith)
    rw [abs_of_nonneg (a := (l.length : ℝ) * (P.eps / 3200)) (by positivity)] at h5
    have := (abs_le.mp h5).2
    linarith
  rw [add_zero, one_mul, zero_add] at h2
  have h3 := h2.mono hpow le_rfl
  have hlen : (0 : ℝ) ≤ l.length * P.eps := by positivity
  constructor
  · obtain ⟨c, u, hu, e, hc, -⟩ := h3
    have hcpos : 0 < c := by have := (abs_le.mp hc).1; linarith
    have : Quat.norm (runHistory P .quat acc l) = c := by
      rw [e, Quat.norm]
      have : Quat.normSq ⟨c * u.w, c * u.x, c * u.y, c * u.z⟩ = c ^ 2 := by
        simp only [Quat.normSq] at hu ⊢; linear_combination c ^ 2 * hu
      rw [this, Real.sqrt_sq hcpos.le]
    rw [this]; exact hc
  · rw [hcomp l (act .quat acc) (den .quat acc) (act_eq .quat acc) v]
    have h4 := h3.sandwich (by linarith)
    rw [act_eq, den_eq]
    refine (h4 v).trans (mul_le_mul_of_nonneg_right (by linarith) v.norm_nonneg)

/-! ### Poses -/

/-- **C59 (j).** Transforming a point, transforming it back, and composing transformations, for all poses with a valid
rotation. -/
theorem C59_pose (P : Prec) (k₁ k₂ : Kind) (A : Pose k₁) (B : Pose k₂) (hA : Valid k₁ A.rotation) (hB : Valid k₂ B.rotation)
    (p : V3) :
    (Pose.transform P k₁ A p - (act k₁ A.rotation p + A.position)).norm ≤ P.eps / 400 * p.norm ∧
    (act k₁ A.rotation (Pose.inverseTransform P k₁ A p) + A.position - p).norm ≤ P.eps / 400 * (p - A.position).norm ∧
    (Pose.mult P k₁ k₂ A B).position = A.position + rotate P k₁ A.rotation B.position ∧
    ((Pose.mult P k₁ k₂ A B).position - (act k₁ A.rotation B.position + A.position)).norm ≤
      P.eps / 400 * B.position.norm ∧
    (act k₁ (Pose.mult P k₁ k₂ A B).rotation p - act k₁ A.rotation (act k₂ B.rotation p)).norm ≤
      (P.dp / 100 + P.eps / 10) * p.norm := by
  refine ⟨?_, ?_, rfl, ?_, C59_concatenation P k₁ k₂ _ _ hA hB p⟩
  · have := (C59_rotate P k₁ A.rotation hA p).1
    rw [Pose.transform]; rwa [add_sub_add_right_eq_sub]
  · have := (C59_rotate P k₁ A.rotation hA (p - A.position)).2
    have e : act k₁ A.rotation (Pose.inverseTransform P k₁ A p) + A.position - p =
        act k₁ A.rotation (inverseRotate P k₁ A.rotation (p - A.position)) - (p - A.position) := by
      rw [Pose.inverseTransform]; abel
    rw [e]; exact this
  · have := (C59_rotate P k₁ A.rotation hA B.position).1
    have e : (Pose.mult P k₁ k₂ A B).position - (act k₁ A.rotation B.position + A.position) =
        rotate P k₁ A.rotation B.position - act k₁ A.rotation B.position := by
      have h1 : (Pose.mult P k₁ k₂ A B).position = A.position + rotate P k₁ A.rotation B.position := rfl
      rw [h1]; ext <;> simp <;> ring
    rw [e]; exact this

/-- The bounds in numbers, `double`: conversions 1.1e-12, concatenation 1.1e-14, angles 3.1e-12. -/
theorem C59_double_numbers :
    Prec.double.dp + Prec.double.eps / 25 ≤ 11 / 10 ^ 13 ∧ Prec.double.dp / 100 + Prec.double.eps / 10 ≤ 11 / 10 ^ 15 ∧
    3 * Prec.double.dp + Prec.double.eps ≤ 31 / 10 ^ 13 ∧ 2 * Prec.double.dp + Prec.double.eps ≤ 21 / 10 ^ 13 := by
  refine ⟨?_, ?_, ?_, ?_⟩ <;> norm_num [Prec.double]

/-- non-vacuity: a tiny nonzero rotation vector (excluded by every exact theorem) is a valid input of all of C59, and a history
of three steps containing it meets the hypotheses. -/
example : Valid .rv (⟨⟨1 / 10 ^ 13, 0, 0⟩⟩ : RotVec) ∧ ¬ (Prec.double.dp ≤ (1 / 10 ^ 13 : ℝ)) ∧
    ∀ s ∈ ([⟨.rv, (⟨⟨1 / 10 ^ 13, 0, 0⟩⟩ : RotVec), true⟩, ⟨.xyz, EulXyz.mk3 1 (Real.pi / 2) 5, false⟩,
      ⟨.quat, (⟨3 / 5, 0, 4 / 5, 0⟩ : Quat), true⟩] : List Step), Valid s.kind s.val := by
  refine ⟨trivial, by norm_num [Prec.double], ?_⟩
  intro s hs
  simp only [List.mem_cons, List.not_mem_nil, or_false] at hs
  rcases hs with rfl | rfl | rfl
  · exact trivial
  · exact trivial
  · norm_num [Valid]

end Kindr
