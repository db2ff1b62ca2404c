import Verif.Spec.Defined
import Verif.Props.Vectors2Rot
import Verif.Props.Program
import Verif.Props.SpecialFinite
import Verif.Props.SmallAngle
import Verif.Props.Group
import Verif.Lemmas.Norm

/-!
# C95: no operation on admissible rotations divides by zero or takes the root of a negative number
-/

set_option autoImplicit false
set_option linter.unusedSimpArgs false

open Classical

noncomputable section
namespace Kindr
open Spec

local notation "𝔼" => XArith.exact

lemma exact_addV (a b : V3) : (𝔼).addV (emb3 a) (emb3 b) = emb3 (a + b) := rfl
lemma exact_subV (a b : V3) : (𝔼).subV (emb3 a) (emb3 b) = emb3 (a - b) := by
  simp only [XArith.subV, emb3, exact_sub]; rfl
lemma exact_crossV (a b : V3) : (𝔼).crossV (emb3 a) (emb3 b) = emb3 (a.cross b) := by
  simp only [XArith.crossV, emb3, exact_sub, exact_mul]; rfl
lemma exact_dot3 (a b : V3) : (𝔼).dot3 (emb3 a) (emb3 b) = .fin (a.dot b) := rfl
lemma exact_mulVec (m : M3) (v : V3) : (𝔼).mulVec (embM m) (emb3 v) = emb3 (m.mulVec v) := rfl
lemma exact_transpose (m : M3) : (embM m).transpose = embM m.transpose := rfl
lemma exact_matMul (a b : M3) : (𝔼).matMul (embM a) (embM b) = embM (a * b) := rfl
lemma exact_smulM (s : ℝ) (m : M3) : (𝔼).smulM (.fin s) (embM m) = embM (s • m) := rfl
lemma exact_addM (a b : M3) : (𝔼).addM (embM a) (embM b) = embM (a + b) := rfl

lemma exact_quatOfRv (P : Prec) (r : RotVec) : (𝔼).quatOfRv P (emb3 r.v) = embQ (quatOfRv P r) := by
  unfold XArith.quatOfRv quatOfRv isLessThenEpsilons4thRoot
  simp only [exact_norm3, exact_mul, exact_sub, exact_sin, exact_cos, fin_lt]
  by_cases h : r.v.norm < P.eps ^ (1 / 4 : ℝ)
  · simp only [if_pos h, exact_smulV]
    rfl
  · have hn : r.v.norm ≠ 0 := by
      intro h0
      rw [h0] at h
      exact h (Real.rpow_pos_of_pos P.eps_pos _)
    simp only [if_neg h, exact_div hn, exact_smulV]
    rfl

lemma exact_matOfQuat (q : Quat) : (𝔼).matOfQuat (embQ q) = embM q.toRotationMatrix := by
  simp only [XArith.matOfQuat, embQ, exact_mul, exact_add, exact_sub]
  rfl

lemma exact_matOfAa (a : AngAx) : (𝔼).matOfAa (embA a) = embM a.toRotationMatrix := by
  simp only [XArith.matOfAa, embA, exact_cos, exact_sin, exact_sub, emb3]
  rfl

lemma exact_euler012 (m : M3) : (𝔼).eulerAngles012 (embM m) = emb3 (eulerAngles012 m) := by
  have h0 : 0 ≤ m.m00 * m.m00 + m.m01 * m.m01 := add_nonneg (mul_self_nonneg _) (mul_self_nonneg _)
  unfold XArith.eulerAngles012 eulerAngles012
  simp only [embM, exact_atan2, exact_mul, exact_add, exact_sqrt h0, fin_lt, fin_neg, exact_sub, gt_iff_lt]
  by_cases h : 0 < atan2 m.m12 m.m22
  · simp only [if_pos h, exact_sin, exact_cos, exact_mul, exact_sub, exact_atan2, fin_neg, emb3]
  · simp only [if_neg h, exact_sin, exact_cos, exact_mul, exact_sub, exact_atan2, fin_neg, emb3]

lemma exact_euler210 (m : M3) : (𝔼).eulerAngles210 (embM m) = emb3 (eulerAngles210 m) := by
  have h0 : 0 ≤ m.m22 * m.m22 + m.m21 * m.m21 := add_nonneg (mul_self_nonneg _) (mul_self_nonneg _)
  unfold XArith.eulerAngles210 eulerAngles210
  simp only [embM, exact_atan2, exact_mul, exact_add, exact_sqrt h0, fin_lt, fin_neg, exact_sub, gt_iff_lt]
  by_cases h : atan2 m.m10 m.m00 < 0
  · have h' : ¬ 0 < atan2 m.m10 m.m00 := by linarith
    simp only [if_pos h, if_neg h', exact_sin, exact_cos, exact_mul, exact_sub, exact_atan2, emb3]
  · simp only [if_neg h, exact_sin, exact_cos, exact_mul, exact_sub, exact_atan2, emb3]

lemma exact_quatOfXyz (e : EulXyz) : (𝔼).quatOfXyz (emb3 e.v) = embQ (quatOfXyz e) :=
  exact_quatOfThree ⟨EulXyz.x e, V3.unitX⟩ ⟨EulXyz.y e, V3.unitY⟩ ⟨EulXyz.z e, V3.unitZ⟩
lemma exact_quatOfZyx (e : EulZyx) : (𝔼).quatOfZyx (emb3 e.v) = embQ (quatOfZyx e) :=
  exact_quatOfThree ⟨EulZyx.z e, V3.unitZ⟩ ⟨EulZyx.y e, V3.unitY⟩ ⟨EulZyx.x e, V3.unitX⟩
lemma exact_xyzOfQuat (q : Quat) : (𝔼).xyzOfQuat (embQ q) = emb3 (xyzOfQuat q).v := by
  unfold XArith.xyzOfQuat xyzOfQuat
  rw [exact_matOfQuat, exact_euler012]
  rfl
lemma exact_zyxOfQuat (q : Quat) : (𝔼).zyxOfQuat (embQ q) = emb3 (zyxOfQuat q).v := by
  unfold XArith.zyxOfQuat zyxOfQuat
  rw [exact_matOfQuat, exact_euler210]
  rfl

/-! ## Conversions -/

lemma quatOfMat_vec_eq_zero {m : M3} (h : (Quat.ofMatrix m).vec = 0) :
    m = m.transpose ∧ 0 < m.trace ∧ (Quat.ofMatrix m).w ^ 2 = (m.trace + 1) / 4 := by
  have hs : ∀ {t : ℝ}, 1 ≤ t → Real.sqrt t ≠ 0 := fun h => (Real.sqrt_pos.mpr (by linarith)).ne'
  obtain ⟨m00, m01, m02, m10, m11, m12, m20, m21, m22⟩ := m
  unfold Quat.ofMatrix at h ⊢
  simp only [M3.trace, gt_iff_lt] at h ⊢
  have hh : ∀ {t : ℝ}, 1 ≤ t → Real.sqrt t / 2 = 0 → False := fun h h1 => hs h (by linarith)
  split_ifs at h ⊢ with h0 h1 h2 h2
  · have h3 : (1:ℝ) / 2 / Real.sqrt (m00 + m11 + m22 + 1) ≠ 0 := div_ne_zero (by norm_num) (hs (by linarith))
    have e1 := congrArg V3.x h
    have e2 := congrArg V3.y h
    have e3 := congrArg V3.z h
    simp only [Quat.vec, V3.zero_x, V3.zero_y, V3.zero_z, mul_eq_zero, h3, or_false] at e1 e2 e3
    refine ⟨?_, h0, ?_⟩
    · simp only [M3.transpose, M3.mk.injEq, true_and, and_true]
      refine ⟨?_, ?_, ?_, ?_, ?_, ?_⟩ <;> linarith
    · rw [div_pow, Real.sq_sqrt (by linarith)]; ring
  · exact (hh (t := m22 - m00 - m11 + 1) (by rcases le_total 0 m22 with h | h <;> linarith) (congrArg V3.z h)).elim
  · exact (hh (t := m11 - m22 - m00 + 1) (by rcases le_total 0 m11 with h | h <;> linarith) (congrArg V3.y h)).elim
  · exact (hh (t := m22 - m00 - m11 + 1) (by rcases le_total 0 m22 with h | h <;> linarith) (congrArg V3.z h)).elim
  · exact (hh (t := m00 - m11 - m22 + 1) (by rcases le_total 0 m00 with h | h <;> linarith) (congrArg V3.x h)).elim

lemma quatOfMat_symm {m : M3} (h : m = m.transpose) (h0 : 0 < m.trace) :
    (Quat.ofMatrix m).vec = 0 ∧ (Quat.ofMatrix m).w ^ 2 = (m.trace + 1) / 4 := by
  obtain ⟨m00, m01, m02, m10, m11, m12, m20, m21, m22⟩ := m
  simp only [M3.transpose, M3.mk.injEq, true_and, and_true] at h
  obtain ⟨e1, e2, e3, e4, e5, e6⟩ := h
  subst e1 e2 e4
  unfold Quat.ofMatrix
  simp only [M3.trace, gt_iff_lt] at h0 ⊢
  rw [if_pos h0]
  refine ⟨?_, ?_⟩
  · ext <;> simp [Quat.vec]
  · simp only
    rw [div_pow, Real.sq_sqrt (by linarith)]; ring

lemma logDefined_mat_iff (P : Prec) (m : M3) : LogDefined P .mat m ↔ LogDefined P .quat (Quat.ofMatrix m) := by
  simp only [LogDefined]
  constructor
  · intro h
    by_contra hc
    push Not at hc
    obtain ⟨h1, h2, h3⟩ := quatOfMat_vec_eq_zero hc.1
    rw [h3] at hc
    rcases h with h | h | h
    · exact h h1
    · linarith
    · linarith [hc.2]
  · intro h
    by_contra hc
    push Not at hc
    obtain ⟨h1, h2⟩ := quatOfMat_symm hc.1 hc.2.1
    rcases h with h | h
    · exact h h1
    · rw [h2] at h; linarith [hc.2.2]

lemma exact_rvOfQuat_defined (P : Prec) (q : Quat) (hq : LogDefined P .quat q) :
    (𝔼).rvOfQuat P (embQ q) = emb3 (rvOfQuat P q).v := by
  unfold XArith.rvOfQuat rvOfQuat
  have e : (embQ q).w = .fin q.w := rfl
  simp only [embQ_vec, e, exact_mul, exact_sub, fin_lt, gt_iff_lt, exact_norm3, exact_smulV, exact_atan2]
  split_ifs with h1 h2
  · rfl
  · rfl
  · have hn : q.vec.norm ≠ 0 := by
      intro h0
      rcases hq with h | h
      · exact h (V3.norm_eq_zero.mp h0)
      · exact h1 (by rw [← sq]; exact h)
    rw [exact_div hn, exact_smulV]

lemma exact_rvOfQuat_undefined (P : Prec) (q : Quat) (hq : ¬ LogDefined P .quat q) :
    (𝔼).rvOfQuat P (embQ q) = nan3 := by
  simp only [LogDefined, not_or, not_not] at hq
  obtain ⟨h0, h1⟩ := hq
  have h1' : ¬ 1 - q.w * q.w < P.dp := by rw [← sq]; exact h1
  have hn : q.vec.norm = 0 := by rw [h0]; exact V3.norm_eq_zero.mpr rfl
  have hx : q.x = 0 := congrArg V3.x h0
  have hy : q.y = 0 := congrArg V3.y h0
  have hz : q.z = 0 := congrArg V3.z h0
  unfold XArith.rvOfQuat
  have e : (embQ q).w = .fin q.w := rfl
  simp only [embQ_vec, e, exact_mul, exact_sub, fin_lt, exact_norm3, exact_smulV, exact_atan2]
  rw [if_neg h1', hn]
  have hd : (𝔼).div (.fin (2 * atan2 0 q.w)) (.fin 0) = .nan ∨ ∃ b, (𝔼).div (.fin (2 * atan2 0 q.w)) (.fin 0) = .inf b := by
    simp only [XArith.div, if_true]
    split_ifs
    · exact Or.inl rfl
    · exact Or.inr ⟨_, rfl⟩
  simp only [XArith.smulV, emb3, Quat.vec, hx, hy, hz, nan3]
  rcases hd with h | ⟨b, h⟩
  · rw [h]; rfl
  · rw [h]; simp [XArith.mul]

lemma exact_conv (P : Prec) (d s : Kind) (r : Rep s) (h : d = .rv → LogDefined P s r) :
    (𝔼).conv P d s (embRot s r) = embRot d (conv P d s r) := by
  have q1 : ∀ q : Quat, (𝔼).xyzOfQuat (embQ q) = emb3 (xyzOfQuat q).v := exact_xyzOfQuat
  have q2 : ∀ q : Quat, (𝔼).zyxOfQuat (embQ q) = emb3 (zyxOfQuat q).v := exact_zyxOfQuat
  cases d <;> cases s
  · rfl
  · exact exact_quatOfMat r
  · exact exact_quatOfAa r
  · exact exact_quatOfRv P r
  · exact exact_quatOfXyz r
  · exact exact_quatOfZyx r
  · exact exact_matOfQuat r
  · rfl
  · exact exact_matOfAa r
  · exact (congrArg _ (exact_quatOfRv P r)).trans (exact_matOfQuat _)
  · exact (congrArg _ (exact_quatOfXyz r)).trans (exact_matOfQuat _)
  · exact (congrArg _ (exact_quatOfZyx r)).trans (exact_matOfQuat _)
  · exact exact_aaOfQuat r
  · exact (congrArg _ (exact_quatOfMat r)).trans (exact_aaOfQuat _)
  · rfl
  · exact exact_aaOfRv P r
  · exact (congrArg _ (exact_quatOfXyz r)).trans (exact_aaOfQuat _)
  · exact (congrArg _ (exact_quatOfZyx r)).trans (exact_aaOfQuat _)
  · exact exact_rvOfQuat_defined P r (h rfl)
  · exact (congrArg _ (exact_quatOfMat r)).trans (exact_rvOfQuat_defined P _ ((logDefined_mat_iff P r).mp (h rfl)))
  · exact exact_rvOfAa r
  · rfl
  · exact (congrArg (fun q => (𝔼).rvOfAa ((𝔼).aaOfQuat q)) (exact_quatOfXyz r)).trans
      ((congrArg _ (exact_aaOfQuat _)).trans (exact_rvOfAa _))
  · exact (congrArg (fun q => (𝔼).rvOfAa ((𝔼).aaOfQuat q)) (exact_quatOfZyx r)).trans
      ((congrArg _ (exact_aaOfQuat _)).trans (exact_rvOfAa _))
  · exact q1 r
  · exact (congrArg _ (exact_quatOfMat r)).trans (q1 _)
  · exact (congrArg _ (exact_quatOfAa r)).trans (q1 _)
  · exact (congrArg (fun a => (𝔼).xyzOfQuat ((𝔼).quatOfAa a)) (exact_aaOfRv P r)).trans
      ((congrArg _ (exact_quatOfAa _)).trans (q1 _))
  · rfl
  · exact (congrArg _ (exact_quatOfZyx r)).trans (q1 _)
  · exact q2 r
  · exact (congrArg _ (exact_quatOfMat r)).trans (q2 _)
  · exact (congrArg _ (exact_quatOfAa r)).trans (q2 _)
  · exact (congrArg _ (exact_quatOfRv P r)).trans (q2 _)
  · exact (congrArg _ (exact_quatOfXyz r)).trans (q2 _)
  · rfl

/-- **C95, conversions.** All 36 conversions, on *every* finite stored value (admissible or not), in exact arithmetic with the IEEE
rules for division by zero and roots of negative numbers: the result is finite and is the value of the main model, unless the
destination is a `RotationVector` and the source a quaternion `(w, 0, 0, 0)` with `1 - w² ≥ dummy precision` or a symmetric matrix with
trace in `(0, 3 - 4 · dummy precision]`; then all three coefficients are NaN. -/
theorem C95_conversions (P : Prec) (d s : Kind) (r : Rep s) :
    ((d = .rv → LogDefined P s r) → (𝔼).conv P d s (embRot s r) = embRot d (conv P d s r)) ∧
    (¬ LogDefined P s r → (𝔼).conv P .rv s (embRot s r) = nan3) := by
  refine ⟨exact_conv P d s r, fun h => ?_⟩
  cases s
  · exact exact_rvOfQuat_undefined P r h
  · exact (congrArg _ (exact_quatOfMat r)).trans
      (exact_rvOfQuat_undefined P _ (fun h' => h ((logDefined_mat_iff P r).mpr h')))
  all_goals exact absurd trivial h

/-! ## Operations -/

lemma exact_inverted (k : Kind) (r : Rep k) : (𝔼).inverted k (embRot k r) = embRot k (inverted k r) := by
  have hinv : ∀ q : Quat, XArith.quatInverted (embQ q) = embQ (UnitQuaternion.inverted q) := fun q => rfl
  cases k
  · rfl
  · rfl
  · rfl
  · rfl
  · exact (congrArg (fun q => (𝔼).xyzOfQuat (XArith.quatInverted q)) (exact_quatOfXyz r)).trans
      ((congrArg _ (hinv _)).trans (exact_xyzOfQuat _))
  · exact (congrArg (fun q => (𝔼).zyxOfQuat (XArith.quatInverted q)) (exact_quatOfZyx r)).trans
      ((congrArg _ (hinv _)).trans (exact_zyxOfQuat _))

lemma exact_identity (k : Kind) : XArith.identity k = embRot k (identity k) := by cases k <;> rfl

lemma exact_toQuat (P : Prec) (k : Kind) (r : Rep k) :
    (𝔼).conv P .quat k (embRot k r) = embQ (conv P .quat k r) := exact_conv P .quat k r (by simp)

lemma exact_mult (P : Prec) (k₁ k₂ : Kind) (a : Rep k₁) (b : Rep k₂)
    (h : k₁ = .rv → LogDefined P .quat ((conv P .quat k₁ a : Quat) * (conv P .quat k₂ b : Quat) : Quat)) :
    (𝔼).mult P k₁ k₂ (embRot k₁ a) (embRot k₂ b) = embRot k₁ (mult P k₁ k₂ a b) := by
  by_cases hm : k₁ = .mat ∧ k₂ = .mat
  · obtain ⟨rfl, rfl⟩ := hm
    exact exact_matMul a b
  · have e1 : (𝔼).mult P k₁ k₂ (embRot k₁ a) (embRot k₂ b) = (𝔼).conv P k₁ .quat ((𝔼).quatMul
        ((𝔼).conv P .quat k₁ (embRot k₁ a)) ((𝔼).conv P .quat k₂ (embRot k₂ b))) := by
      cases k₁ <;> cases k₂ <;> first | rfl | exact absurd ⟨rfl, rfl⟩ hm
    have e2 : mult P k₁ k₂ a b = conv P k₁ .quat ((conv P .quat k₁ a : Quat) * (conv P .quat k₂ b : Quat) : Quat) := by
      cases k₁ <;> cases k₂ <;> first | rfl | exact absurd ⟨rfl, rfl⟩ hm
    rw [e1, e2, exact_toQuat, exact_toQuat, exact_quatMul]
    exact exact_conv P k₁ .quat _ h

lemma exact_rotate (P : Prec) (k : Kind) (r : Rep k) (v : V3) :
    (𝔼).rotate P k (embRot k r) (emb3 v) = emb3 (rotate P k r v) := by
  unfold XArith.rotate rotate
  rw [exact_conv P .mat k r (by simp)]
  exact exact_mulVec _ v

lemma exact_inverseRotate (P : Prec) (k : Kind) (r : Rep k) (v : V3) :
    (𝔼).inverseRotate P k (embRot k r) (emb3 v) = emb3 (inverseRotate P k r v) := by
  unfold XArith.inverseRotate inverseRotate
  rw [exact_inverted, exact_rotate]

lemma exact_eulerUniqueBody (v : V3) : (𝔼).eulerUniqueBody (emb3 v) = emb3 (eulerUniqueBody v) := by
  unfold XArith.eulerUniqueBody eulerUniqueBody
  have hw : ∀ x : ℝ, floatingPointModulo (x + Real.pi) (2 * Real.pi) - Real.pi = wrapPosNegPI x := fun x => rfl
  simp only [emb3, exact_wrapPosNegPI, hw, fin_lt, fin_le, exact_add, exact_sub, fin_neg]
  split_ifs <;> rfl

lemma exact_getUnique (P : Prec) (k : Kind) (r : Rep k) :
    (𝔼).getUnique P k (embRot k r) = embRot k (getUnique P k r) := by
  cases k
  · change XArith.quatGetUnique (embQ r) = embQ (quatGetUnique r)
    unfold XArith.quatGetUnique quatGetUnique
    simp only [embQ, fin_lt, gt_iff_lt, XQuat.neg, fin_neg]
    split_ifs <;> rfl
  · rfl
  · exact exact_aaGetUnique r
  · exact exact_rvGetUnique P r
  · exact exact_eulerUniqueBody (EulXyz.v r)
  · exact exact_eulerUniqueBody (EulZyx.v r)

lemma exact_log (P : Prec) (k : Kind) (r : Rep k) (h : LogDefined P k r) :
    (𝔼).logarithmicMap P k (embRot k r) = emb3 (logarithmicMap P k r) := by
  change (𝔼).rvGetUnique P ((𝔼).conv P .rv k (embRot k r)) = _
  rw [exact_conv P .rv k r (fun _ => h)]
  exact exact_rvGetUnique P _

/-! Lower bound on the norm of the quaternions that occur. -/

lemma quatOfRv_low (P : Prec) (r : RotVec) : 1 - P.eps / 48 ≤ (quatOfRv P r).normSq := by
  by_cases h : r.v.norm < P.eps ^ (1 / 4 : ℝ)
  · have h0 : 0 ≤ r.v.norm := V3.norm_nonneg _
    obtain ⟨t, ht⟩ : ∃ t, t = r.v.norm := ⟨_, rfl⟩
    rw [← ht] at h h0
    have e : (quatOfRv P r).normSq = Real.cos (t * (1 / 2)) ^ 2 + (1 / 2 - t * t * (1 / 48)) ^ 2 * t ^ 2 := by
      have e0 : t ^ 2 = r.v.normSq := by rw [ht, V3.norm_sq]
      rw [e0]
      simp only [quatOfRv, isLessThenEpsilons4thRoot, ← ht, h, if_true, Quat.normSq, V3.smul_x, V3.smul_y, V3.smul_z, V3.normSq,
        V3.dot]
      ring
    have h4 : t ^ 4 ≤ P.eps := by
      rw [← e4_pow P]; exact pow_le_pow_left₀ h0 h.le 4
    have hs : Real.sin (t * (1 / 2)) ^ 2 ≤ (t * (1 / 2)) ^ 2 := by
      have h1 := Real.sin_le (x := t * (1 / 2)) (by linarith)
      have h2 : 0 ≤ Real.sin (t * (1 / 2)) := Real.sin_nonneg_of_nonneg_of_le_pi (by linarith) (by
        have := e4_le_one P
        linarith [Real.pi_gt_three])
      exact pow_le_pow_left₀ h2 h1 2
    rw [e]
    nlinarith [Real.sin_sq_add_cos_sq (t * (1 / 2)), sq_nonneg (t ^ 3)]
  · have := (quatOfRv_spec (P := P) (r := r) (Or.inr (not_lt.mp h))).1
    rw [this]
    linarith [P.eps_pos]

lemma toQuat_low (P : Prec) (k : Kind) (r : Rep k) (h : Valid k r) : 1 - P.eps / 48 ≤ (conv P .quat k r : Quat).normSq := by
  by_cases hk : k = .rv
  · subst hk; exact quatOfRv_low P r
  · have := (conv_spec P .quat k r h (by cases k <;> trivial)).1
    rw [(valid_quat_iff _).mp this]
    linarith [P.eps_pos]

lemma mul_low (P : Prec) {p q : Quat} (hp : 1 - P.eps / 48 ≤ p.normSq) (hq : 1 - P.eps / 48 ≤ q.normSq) :
    1 - P.eps / 24 ≤ (p * q).normSq := by
  rw [Quat.normSq_mul]
  have h1 := P.eps_le
  have h2 : (0 : ℝ) ≤ 1 - P.eps / 48 := by norm_num at h1; linarith
  nlinarith [mul_le_mul hp hq h2 (h2.trans hp), sq_nonneg P.eps]

lemma logDefined_of_low {P : Prec} (hP : P.eps ≤ P.dp) {q : Quat} (h : 1 - P.eps / 24 ≤ q.normSq) : LogDefined P .quat q := by
  by_contra hc
  simp only [LogDefined, not_or, not_not, not_lt] at hc
  obtain ⟨h0, h1⟩ := hc
  have hx : q.x = 0 := congrArg V3.x h0
  have hy : q.y = 0 := congrArg V3.y h0
  have hz : q.z = 0 := congrArg V3.z h0
  simp only [Quat.normSq, hx, hy, hz] at h
  have := P.eps_pos
  nlinarith

lemma logDefined_mat_of_low {P : Prec} {q : Quat} (h : 1 - P.eps / 24 ≤ q.normSq) :
    LogDefined P .mat q.toRotationMatrix := by
  by_contra hc
  simp only [LogDefined, not_or, not_not, not_lt, not_le] at hc
  obtain ⟨h0, h1, h2⟩ := hc
  have hd := P.dp_pos
  have he := P.eps_le
  norm_num at he
  have e1 := congrArg M3.m01 h0
  have e2 := congrArg M3.m02 h0
  have e3 := congrArg M3.m12 h0
  simp only [Quat.toRotationMatrix, M3.transpose, M3.trace] at e1 e2 e3 h1 h2
  have a1 : q.w * q.z = 0 := by linarith
  have a2 : q.w * q.y = 0 := by linarith
  have a3 : q.w * q.x = 0 := by linarith
  simp only [Quat.normSq] at h
  by_cases hw : q.w = 0
  · rw [hw] at h
    nlinarith
  · have b1 := (mul_eq_zero.mp a1).resolve_left hw
    have b2 := (mul_eq_zero.mp a2).resolve_left hw
    have b3 := (mul_eq_zero.mp a3).resolve_left hw
    rw [b1, b2, b3] at h2
    nlinarith

lemma logDefined_valid {P : Prec} (hP : P.eps ≤ P.dp) {k : Kind} {r : Rep k} (h : Valid k r) : LogDefined P k r := by
  have he := P.eps_pos
  cases k
  · exact logDefined_of_low hP (by rw [(valid_quat_iff _).mp h]; linarith)
  · exact (logDefined_mat_iff P r).mpr (logDefined_of_low hP (by rw [(ofMatrix_spec h).1]; linarith))
  all_goals trivial

lemma logDefined_mult {P : Prec} (hP : P.eps ≤ P.dp) {k₁ k₂ : Kind} {a : Rep k₁} {b : Rep k₂} (ha : Valid k₁ a)
    (hb : Valid k₂ b) : LogDefined P k₁ (mult P k₁ k₂ a b) := by
  have hl := mul_low P (toQuat_low P k₁ a ha) (toQuat_low P k₂ b hb)
  cases k₁
  · cases k₂ <;> exact logDefined_of_low hP hl
  · cases k₂
    case mat => exact logDefined_valid hP (k := .mat) (SO3.mul ha hb)
    all_goals exact logDefined_mat_of_low hl
  all_goals trivial

lemma exact_mult_valid {P : Prec} (hP : P.eps ≤ P.dp) {k₁ k₂ : Kind} {a : Rep k₁} {b : Rep k₂} (ha : Valid k₁ a)
    (hb : Valid k₂ b) : (𝔼).mult P k₁ k₂ (embRot k₁ a) (embRot k₂ b) = embRot k₁ (mult P k₁ k₂ a b) :=
  exact_mult P k₁ k₂ a b (fun _ => logDefined_of_low hP (mul_low P (toQuat_low P k₁ a ha) (toQuat_low P k₂ b hb)))

lemma exact_exp (P : Prec) (k : Kind) (v : V3) : (𝔼).exponentialMap P k (emb3 v) = embRot k (exponentialMap P k v) :=
  exact_conv P k .rv (⟨v⟩ : RotVec) (fun _ => trivial)

lemma exact_boxPlus {P : Prec} (hP : P.eps ≤ P.dp) {k : Kind} {a : Rep k} (ha : Valid k a) (v : V3) :
    (𝔼).boxPlus P k (embRot k a) (emb3 v) = embRot k (boxPlus P k a v) := by
  unfold XArith.boxPlus boxPlus
  rw [exact_exp]
  apply exact_mult
  rintro rfl
  exact logDefined_of_low hP (mul_low P (toQuat_low P .rv (⟨v⟩ : RotVec) trivial) (toQuat_low P .rv a ha))

lemma exact_boxMinus {P : Prec} (hP : P.eps ≤ P.dp) {k₁ k₂ : Kind} {a : Rep k₁} {b : Rep k₂} (ha : Valid k₁ a)
    (hb : Valid k₂ b) : (𝔼).boxMinus P k₁ k₂ (embRot k₁ a) (embRot k₂ b) = emb3 (boxMinus P k₁ k₂ a b) := by
  unfold XArith.boxMinus boxMinus
  have hi := (inverted_spec hb).1
  rw [exact_inverted, exact_mult_valid hP ha hi]
  exact exact_log P k₁ _ (logDefined_mult hP ha hi)

lemma exact_disparity {P : Prec} (hP : P.eps ≤ P.dp) {k₁ k₂ : Kind} {a : Rep k₁} {b : Rep k₂} (ha : Valid k₁ a)
    (hb : Valid k₂ b) : (𝔼).disparityAngle P k₁ k₂ (embRot k₁ a) (embRot k₂ b) = .fin (disparityAngle P k₁ k₂ a b) := by
  unfold XArith.disparityAngle disparityAngle
  have hi := (inverted_spec hb).1
  rw [exact_inverted, exact_mult_valid hP ha hi, exact_conv P .aa k₁ _ (by simp)]
  have e : ∀ x : AngAx, (embRot .aa x : XAA).angle = .fin x.angle := fun x => rfl
  rw [e, exact_wrapPosNegPI, fin_abs]
  rfl

lemma exact_interpolate {P : Prec} (hP : P.eps ≤ P.dp) {k₁ k₂ : Kind} {a : Rep k₁} {b : Rep k₂} (ha : Valid k₁ a)
    (hb : Valid k₂ b) (t : ℝ) :
    (𝔼).interpolate P k₁ k₂ (embRot k₁ a) (embRot k₂ b) (.fin t) = embRot k₁ (interpolate P k₁ k₂ a b t) := by
  unfold XArith.interpolate interpolate
  have e : (if XR.lt (.fin 1) (.fin t) then XR.fin 1 else if (XR.fin t).lt (.fin 0) then .fin 0 else .fin t) =
      .fin (if t > 1 then 1 else if t < 0 then 0 else t) := by
    simp only [fin_lt, gt_iff_lt]
    split_ifs <;> rfl
  simp only [e, exact_boxMinus hP hb ha, exact_smulV]
  exact exact_boxPlus hP ha _

/-- **C95, operations.** For every pair of classes, all admissible rotations, all vectors and all ratios: in exact arithmetic with the
IEEE rules for division by zero and roots of negative numbers, every operation of the rotation interface returns exactly the
value of the main model.  In particular all results are finite: no operation divides by zero or takes the root of a negative
number on the way.  (`eps ≤ dummy precision` holds for `double` and `float`: `C95_precisions`.) -/
theorem C95_operations (P : Prec) (hP : P.eps ≤ P.dp) (k₁ k₂ : Kind) (a : Rep k₁) (b : Rep k₂) (ha : Valid k₁ a)
    (hb : Valid k₂ b) (v : V3) (t tol : ℝ) :
    (𝔼).conv P k₁ k₂ (embRot k₂ b) = embRot k₁ (conv P k₁ k₂ b) ∧
    (𝔼).mult P k₁ k₂ (embRot k₁ a) (embRot k₂ b) = embRot k₁ (mult P k₁ k₂ a b) ∧
    (𝔼).inverted k₁ (embRot k₁ a) = embRot k₁ (inverted k₁ a) ∧
    (𝔼).getUnique P k₁ (embRot k₁ a) = embRot k₁ (getUnique P k₁ a) ∧
    (𝔼).rotate P k₁ (embRot k₁ a) (emb3 v) = emb3 (rotate P k₁ a v) ∧
    (𝔼).inverseRotate P k₁ (embRot k₁ a) (emb3 v) = emb3 (inverseRotate P k₁ a v) ∧
    (𝔼).disparityAngle P k₁ k₂ (embRot k₁ a) (embRot k₂ b) = .fin (disparityAngle P k₁ k₂ a b) ∧
    (𝔼).isNear P k₁ k₂ (embRot k₁ a) (embRot k₂ b) (.fin tol) = isNear P k₁ k₂ a b tol ∧
    (𝔼).exponentialMap P k₁ (emb3 v) = embRot k₁ (exponentialMap P k₁ v) ∧
    (𝔼).logarithmicMap P k₁ (embRot k₁ a) = emb3 (logarithmicMap P k₁ a) ∧
    (𝔼).boxPlus P k₁ (embRot k₁ a) (emb3 v) = embRot k₁ (boxPlus P k₁ a v) ∧
    (𝔼).boxMinus P k₁ k₂ (embRot k₁ a) (embRot k₂ b) = emb3 (boxMinus P k₁ k₂ a b) ∧
    (𝔼).interpolate P k₁ k₂ (embRot k₁ a) (embRot k₂ b) (.fin t) = embRot k₁ (interpolate P k₁ k₂ a b t) := by
  refine ⟨exact_conv P k₁ k₂ b (fun _ => logDefined_valid hP hb), exact_mult_valid hP ha hb, exact_inverted k₁ a,
    exact_getUnique P k₁ a, exact_rotate P k₁ a v, exact_inverseRotate P k₁ a v, exact_disparity hP ha hb, ?_,
    exact_exp P k₁ v, exact_log P k₁ a (logDefined_valid hP ha), exact_boxPlus hP ha v, exact_boxMinus hP ha hb,
    exact_interpolate hP ha hb t⟩
  unfold XArith.isNear isNear
  rw [exact_disparity hP ha hb]
  simp only [fin_le]

/-- **C95.** Both precisions of the library meet the hypothesis. -/
theorem C95_precisions : Prec.double.eps ≤ Prec.double.dp ∧ Prec.float.eps ≤ Prec.float.dp := by
  constructor <;> norm_num [Prec.double, Prec.float]

/-! ## `setFromVectors`, `fix` -/

lemma exact_quatFromTwoVectors (dp : ℝ) (hdp : 0 < dp) (svd : V3 → V3 → V3) (xsvd : XV3 → XV3 → XV3)
    (hsvd : ∀ a b, xsvd (emb3 a) (emb3 b) = emb3 (svd a b)) (a b : V3) (hd1 : dp ≤ 1) :
    (𝔼).quatFromTwoVectors dp xsvd (emb3 a) (emb3 b) = embQ (quatFromTwoVectors dp svd a b) := by
  unfold XArith.quatFromTwoVectors quatFromTwoVectors
  simp only [exact_normalized, exact_dot3, fin_lt, hsvd]
  by_cases h : b.normalized.dot a.normalized < -1 + dp
  · have h1 : -1 ≤ max (b.normalized.dot a.normalized) (-1) := le_max_right _ _
    have h2 : max (b.normalized.dot a.normalized) (-1) ≤ -1 + dp := max_le h.le (by linarith)
    have e1 : (0 : ℝ) ≤ (1 + max (b.normalized.dot a.normalized) (-1)) * (1 / 2) := by linarith
    have e2 : (0 : ℝ) ≤ 1 - (1 + max (b.normalized.dot a.normalized) (-1)) * (1 / 2) := by linarith
    simp only [if_pos h, fin_max, exact_add, exact_mul, exact_sub, exact_sqrt e1, exact_sqrt e2, emb3, embQ]
  · have e1 : (0 : ℝ) < (1 + b.normalized.dot a.normalized) * 2 := by push Not at h; linarith
    simp only [if_neg h, exact_add, exact_mul, exact_sqrt e1.le, exact_div (Real.sqrt_pos.mpr e1).ne', exact_crossV]
    simp only [emb3, embQ, exact_mul]

lemma logDefined_unit {P : Prec} {q : Quat} (h : q.normSq = 1) : LogDefined P .quat q := by
  by_contra hc
  simp only [LogDefined, not_or, not_not, not_lt] at hc
  obtain ⟨h0, h1⟩ := hc
  have hx : q.x = 0 := congrArg V3.x h0
  have hy : q.y = 0 := congrArg V3.y h0
  have hz : q.z = 0 := congrArg V3.z h0
  simp only [Quat.normSq, hx, hy, hz] at h
  have := P.dp_pos
  nlinarith

/-- **C95, `setFromVectors`.** For every class and *all* vectors `setFromVectors` throws exactly when the main model does (one
vector is zero) and otherwise stores the finite value of the main model; no root of a negative number and no division by
zero occurs in either branch of Eigen's `setFromTwoVectors`, whatever common normal its SVD returns. -/
theorem C95_setFromVectors (P : Prec) (dpE : ℝ) (hdp : 0 < dpE) (hd1 : dpE ≤ 1) (svd : V3 → V3 → V3)
    (hsvd : IsSvdAxis svd) (xsvd : XV3 → XV3 → XV3)
    (hx : ∀ a b, xsvd (emb3 a) (emb3 b) = emb3 (svd a b)) (k : Kind) (v w : V3) :
    (𝔼).setFromVectors P dpE xsvd k (emb3 v) (emb3 w) = Spec.mapRes (embRot k) (setFromVectors P dpE svd k v w) := by
  unfold XArith.setFromVectors setFromVectors
  simp only [exact_norm3, exact_mul, fin_eq]
  by_cases h : v.norm * w.norm = 0
  · rw [if_neg (not_not.mpr h), if_neg (not_not.mpr h)]; rfl
  · rw [if_pos h, if_pos h, exact_quatFromTwoVectors dpE hdp svd xsvd hx v w hd1]
    have hv : v ≠ 0 := fun h0 => h (by rw [h0, V3.norm_zero, zero_mul])
    have hw : w ≠ 0 := fun h0 => h (by rw [h0, V3.norm_zero, mul_zero])
    exact congrArg Res.ok (exact_conv P k .quat _ (fun _ =>
      logDefined_unit (quatFromTwoVectors_spec hdp hsvd hv hw).1))

lemma exact_det (m : M3) : (𝔼).det (embM m) = .fin m.det := by
  simp only [XArith.det, embM, exact_mul, exact_sub, exact_add]; rfl

lemma exact_quatFix (q : Quat) : (𝔼).quatFix (embQ q) = embQ (quatFix q) := by
  unfold XArith.quatFix quatFix Quat.normalized
  have e : (𝔼).add ((𝔼).add ((𝔼).add ((𝔼).mul (embQ q).w (embQ q).w) ((𝔼).mul (embQ q).x (embQ q).x))
      ((𝔼).mul (embQ q).y (embQ q).y)) ((𝔼).mul (embQ q).z (embQ q).z) = .fin q.normSq := rfl
  simp only [e, fin_lt, exact_quatNorm]
  by_cases h : 0 < q.normSq
  · have hn : q.norm ≠ 0 := (Real.sqrt_pos.mpr h).ne'
    simp only [if_pos h, embQ, exact_div hn]
  · simp only [if_neg h]

/-- **C95, `fix()`.** For every finite stored value of every class `fix()` returns the finite value of the main model, except for
matrices with determinant at most zero, where *every* coefficient it stores is infinite or NaN (all NaN if the determinant is
negative). -/
theorem C95_fix (k : Kind) (r : Rep k) (m : M3) :
    (∀ s, fix k r = some s → (𝔼).fix k (embRot k r) = embRot k s) ∧
    (fix k r = none ↔ k = .mat ∧ ∀ h : k = .mat, (h ▸ r : Rep .mat).det ≤ 0) ∧
    (m.det < 0 → (𝔼).fix .mat (embM m) = ⟨.nan, .nan, .nan, .nan, .nan, .nan, .nan, .nan, .nan⟩) ∧
    (m.det = 0 → ∀ i j : Fin 3, ¬ ((fun v : XV3 => ![v.x, v.y, v.z]) (XArith.row ((𝔼).fix .mat (embM m)) i) j).IsFinite) := by
  have hm : ∀ m : M3, 0 < m.det → (𝔼).smulM ((𝔼).div (.fin 1) ((𝔼).powThird ((𝔼).det (embM m)))) (embM m) =
      embM ((1 / m.det ^ (1 / 3 : ℝ)) • m) := by
    intro m h
    have e : (𝔼).powThird (.fin m.det) = .fin (m.det ^ (1 / 3 : ℝ)) := by
      simp only [XArith.powThird, if_neg (not_lt.mpr h.le)]; rfl
    rw [exact_det, e, exact_div (Real.rpow_pos_of_pos h _).ne']
    exact exact_smulM _ m
  refine ⟨?_, ?_, ?_, ?_⟩
  · intro s hs
    cases k
    · rw [← Option.some.inj hs]; exact exact_quatFix r
    · have hs' : matFix r = some s := hs
      unfold matFix at hs'
      split_ifs at hs' with h
      rw [← Option.some.inj hs']
      exact hm r h
    · rw [← Option.some.inj hs]
      exact congrArg (XAA.mk _) (exact_normalized (AngAx.axis r))
    all_goals (rw [← Option.some.inj hs]; rfl)
  · cases k
    case mat =>
      have : fix .mat r = matFix r := rfl
      rw [this, matFix]
      by_cases h : M3.det r > 0
      · rw [if_pos h]
        simp only [reduceCtorEq, true_and, false_iff, not_forall]
        exact ⟨trivial, not_le.mpr h⟩
      · rw [if_neg h]
        simp only [true_and, true_iff]
        exact fun _ => not_lt.mp h
    all_goals simp [fix]
  · intro h
    change (𝔼).smulM ((𝔼).div (.fin 1) ((𝔼).powThird ((𝔼).det (embM m)))) (embM m) = _
    have e : (𝔼).powThird (.fin m.det) = .nan := by simp only [XArith.powThird, if_pos h]
    rw [exact_det, e]
    rfl
  · intro h
    have e1 : (𝔼).fix .mat (embM m) = (𝔼).smulM (.inf false) (embM m) := by
      change (𝔼).smulM ((𝔼).div (.fin 1) ((𝔼).powThird ((𝔼).det (embM m)))) (embM m) = _
      have e : (𝔼).powThird (.fin m.det) = .fin 0 := by
        simp only [XArith.powThird, if_neg (not_lt.mpr h.ge)]
        rw [h, Real.zero_rpow (by norm_num)]
        rfl
      rw [exact_det, e]
      congr 1
      simp [XArith.div]
    rw [e1]
    have hx : ∀ x : ℝ, ¬ ((𝔼).mul (.inf false) (.fin x)).IsFinite := by
      intro x
      simp only [XArith.mul]
      split_ifs <;> simp [XR.IsFinite]
    intro i j
    fin_cases i <;> fin_cases j <;> exact hx _

/-! ## Rates, Jacobian, poses -/

/-- **C95, Euler rates.** The four guarded mappings throw exactly when the cosine of the second angle is zero and return the finite
matrix of the main model otherwise; in `EulerAnglesZyx`, where the reciprocal is computed before the check, the infinity is
discarded.  The unguarded mappings always return the finite matrix of the main model. -/
theorem C95_euler_rates (e : EulXyz) (f : EulZyx) (d : XyzDiff) :
    (𝔼).xyzLocalToDiff (emb3 e.v) = Spec.mapRes embM (xyzLocalToDiff e) ∧
    (𝔼).xyzGlobalToDiff (emb3 e.v) = Spec.mapRes embM (xyzGlobalToDiff e) ∧
    (𝔼).zyxLocalToDiff (emb3 f.v) = Spec.mapRes embM (zyxLocalToDiff f) ∧
    (𝔼).xyzLocalToSecondDiff (emb3 d.v) (emb3 e.v) = Spec.mapRes embM (xyzLocalToSecondDiff d e) ∧
    (𝔼).xyzGlobalToSecondDiff (emb3 d.v) (emb3 e.v) = Spec.mapRes embM (xyzGlobalToSecondDiff d e) ∧
    (𝔼).xyzDiffToLocal (emb3 e.v) = embM (xyzDiffToLocal e) ∧
    (𝔼).xyzDiffToGlobal (emb3 e.v) = embM (xyzDiffToGlobal e) ∧
    (𝔼).zyxDiffToLocal (emb3 f.v) = embM (zyxDiffToLocal f) ∧
    (𝔼).xyzSecondDiffToLocal (emb3 d.v) (emb3 e.v) = embM (xyzSecondDiffToLocal d e) ∧
    (𝔼).xyzSecondDiffToGlobal (emb3 d.v) (emb3 e.v) = embM (xyzSecondDiffToGlobal d e) := by
  have hy : (emb3 e.v).y = .fin e.y := rfl
  have hx : (emb3 e.v).x = .fin e.x := rfl
  have hz : (emb3 e.v).z = .fin e.z := rfl
  have gy : (emb3 f.v).y = .fin f.y := rfl
  have gx : (emb3 f.v).x = .fin f.z := rfl
  have gz : (emb3 f.v).z = .fin f.x := rfl
  refine ⟨?_, ?_, ?_, ?_, ?_, ?_, ?_, ?_, ?_, ?_⟩
  · unfold XArith.xyzLocalToDiff xyzLocalToDiff
    simp only [hx, hy, hz, exact_cos, exact_sin, fin_eq, ne_eq]
    by_cases h : Real.cos e.y = 0
    · simp only [h, not_true_eq_false, if_false, Spec.mapRes]
    · simp only [h, not_false_eq_true, if_true, Spec.mapRes, exact_div h, exact_mul, fin_neg, embM]
  · unfold XArith.xyzGlobalToDiff xyzGlobalToDiff
    simp only [hx, hy, hz, exact_cos, exact_sin, fin_eq, ne_eq]
    by_cases h : Real.cos e.y = 0
    · simp only [h, not_true_eq_false, if_false, Spec.mapRes]
    · simp only [h, not_false_eq_true, if_true, Spec.mapRes, exact_div h, exact_mul, fin_neg, embM]
  · unfold XArith.zyxLocalToDiff zyxLocalToDiff
    simp only [gx, gy, gz, exact_cos, exact_sin, fin_eq, ne_eq]
    by_cases h : Real.cos f.y = 0
    · simp only [h, not_true_eq_false, if_false, Spec.mapRes]
    · simp only [h, not_false_eq_true, if_true, Spec.mapRes, exact_div h, exact_mul, fin_neg, embM]
  · unfold XArith.xyzLocalToSecondDiff xyzLocalToSecondDiff
    simp only [hx, hy, hz, exact_cos, exact_sin, fin_eq, ne_eq]
    by_cases h : Real.cos e.y = 0
    · simp only [h, not_true_eq_false, if_false, Spec.mapRes]
    · have h2 : Real.cos e.y * Real.cos e.y ≠ 0 := mul_ne_zero h h
      simp only [h, not_false_eq_true, if_true, Spec.mapRes, exact_div h, exact_mul, exact_div h2, emb3, fin_neg, exact_add,
        exact_sub, embM]
  · unfold XArith.xyzGlobalToSecondDiff xyzGlobalToSecondDiff
    simp only [hx, hy, hz, exact_cos, exact_sin, fin_eq, ne_eq]
    by_cases h : Real.cos e.y = 0
    · simp only [h, not_true_eq_false, if_false, Spec.mapRes]
    · have h2 : Real.cos e.y * Real.cos e.y ≠ 0 := mul_ne_zero h h
      simp only [h, not_false_eq_true, if_true, Spec.mapRes, exact_div h, exact_mul, exact_div h2, emb3, fin_neg, exact_add,
        exact_sub, embM]
  · rfl
  · rfl
  · rfl
  · simp only [XArith.xyzSecondDiffToLocal, emb3, exact_cos, exact_sin, exact_mul, exact_sub, fin_neg]
    rfl
  · simp only [XArith.xyzSecondDiffToGlobal, emb3, exact_cos, exact_sin, exact_mul, exact_sub, exact_add, fin_neg]
    rfl

/-- **C95, Jacobian and poses.** `getJacobianOfExponentialMap` is finite for every vector, and `transform`, `inverseTransform` and
the position of a product of poses for every pose and point. -/
theorem C95_jacobian_poses (P : Prec) (k : Kind) (T : Pose k) (p : V3) :
    (𝔼).getJacobianOfExponentialMap (emb3 p) = embM (getJacobianOfExponentialMap p) ∧
    (𝔼).transform P k (emb3 T.position) (embRot k T.rotation) (emb3 p) = emb3 (T.transform P k p) ∧
    (𝔼).inverseTransform P k (emb3 T.position) (embRot k T.rotation) (emb3 p) = emb3 (T.inverseTransform P k p) ∧
    (∀ k₂ (U : Pose k₂), (𝔼).posePosition P k (emb3 T.position) (embRot k T.rotation) (emb3 U.position) =
      emb3 (Pose.mult P k k₂ T U).position) := by
  refine ⟨?_, ?_, ?_, ?_⟩
  · unfold XArith.getJacobianOfExponentialMap getJacobianOfExponentialMap
    have hs : XArith.skew (emb3 p) = embM (skew p) := rfl
    have hi : (XArith.identity .mat : XM3) = embM (1 : M3) := rfl
    simp only [exact_norm3, fin_lt, hs, hi]
    by_cases h : p.norm < 1 / 10000
    · rw [if_pos h, if_pos h, exact_smulM, exact_addM]
    · have hn : p.norm ≠ 0 := by
        intro h0; rw [h0] at h; norm_num at h
      rw [if_neg h, if_neg h]
      simp only [exact_cos, exact_sin, exact_sub, exact_mul, exact_div (mul_ne_zero hn hn),
        exact_div (mul_ne_zero (mul_ne_zero hn hn) hn), exact_matMul, exact_smulM, exact_addM]
  · unfold XArith.transform Pose.transform
    rw [exact_rotate, exact_addV]
  · unfold XArith.inverseTransform Pose.inverseTransform
    rw [exact_subV, exact_inverseRotate]
  · intro k₂ U
    unfold XArith.posePosition Pose.mult
    rw [exact_rotate, exact_addV]

/-! ## Programs -/

lemma trace_adj_mul (X Y : M3) : (X * Y).trace ^ 2 - ((X * Y) * (X * Y)).trace = 2 * (Y.adj * X.adj).trace := by
  obtain ⟨a, b, c, d, e, f, g, h, i⟩ := X
  obtain ⟨a', b', c', d', e', f', g', h', i'⟩ := Y
  simp [M3.trace, M3.adj]
  ring

lemma adj_toRot (q : Quat) (A : M3) : (A.transpose * q.toRotationMatrix.adj).trace =
    (q.toRotationMatrix * A).trace + 4 * (q.normSq - 1) * q.vec.dot (A.mulVec q.vec) := by
  obtain ⟨w, x, y, z⟩ := q
  obtain ⟨a, b, c, d, e, f, g, h, i⟩ := A
  simp [M3.trace, M3.adj, M3.transpose, Quat.toRotationMatrix, Quat.normSq, V3.dot, M3.mulVec, Quat.vec]
  ring

lemma trace_toRot_sq (q : Quat) : (q.toRotationMatrix * q.toRotationMatrix.transpose).trace =
    3 + 8 * (q.normSq - 1) * q.vec.normSq := by
  simp [M3.trace, M3.transpose, Quat.toRotationMatrix, Quat.normSq, V3.normSq, V3.dot, Quat.vec]
  ring

lemma symm_trace_of_low {q : Quat} {A : M3} (hA : IsSO3 A) (h : (q.toRotationMatrix * A) = (q.toRotationMatrix * A).transpose)
    (h0 : 0 < (q.toRotationMatrix * A).trace) : 3 - 16 * max 0 (1 - q.normSq) ≤ (q.toRotationMatrix * A).trace := by
  have e1 := trace_adj_mul q.toRotationMatrix A
  have e2 : (q.toRotationMatrix * A) * (q.toRotationMatrix * A) = q.toRotationMatrix * q.toRotationMatrix.transpose := by
    nth_rw 2 [h]
    rw [M3.transpose_mul, mul_assoc, ← mul_assoc A, hA.1, one_mul]
  rw [e2, trace_toRot_sq, SO3.adj_eq hA, adj_toRot] at e1
  have hd := V3.dot_abs_le q.vec (A.mulVec q.vec)
  rw [SO3.mulVec_norm hA, ← sq, V3.norm_sq] at hd
  obtain ⟨d, hdd⟩ : ∃ d, d = q.vec.dot (A.mulVec q.vec) := ⟨_, rfl⟩
  obtain ⟨T, hT⟩ : ∃ T, T = (q.toRotationMatrix * A).trace := ⟨_, rfl⟩
  have hN : q.normSq = q.w ^ 2 + q.vec.normSq := by simp [Quat.normSq, Quat.vec, V3.normSq, V3.dot]; ring
  obtain ⟨n, hn⟩ : ∃ n, n = q.vec.normSq := ⟨_, rfl⟩
  obtain ⟨N, hNN⟩ : ∃ N, N = q.normSq := ⟨_, rfl⟩
  rw [← hdd, ← hT, ← hn, ← hNN] at e1
  rw [← hdd, ← hn] at hd
  rw [← hn, ← hNN] at hN
  rw [← hT] at h0 ⊢
  rw [← hNN]
  obtain ⟨d1, d2⟩ := abs_le.mp hd
  have key : (3 - T) * (T + 1) = 8 * (1 - N) * (n + d) := by linarith
  have hw := sq_nonneg q.w
  rcases le_total N 1 with h1 | h1
  · rw [max_eq_right (by linarith)]
    have hb : 8 * (1 - N) * (n + d) ≤ 8 * (1 - N) * 2 := mul_le_mul_of_nonneg_left (by linarith) (by linarith)
    by_contra hc
    push Not at hc
    nlinarith
  · rw [max_eq_left (by linarith)]
    have hb : 8 * (1 - N) * (n + d) ≤ 0 := mul_nonpos_of_nonpos_of_nonneg (by linarith) (by linarith)
    by_contra hc
    push Not at hc
    nlinarith
lemma exact_boxPlus_conv {P : Prec} (hP : P.eps ≤ P.dp) {d k : Kind} {a : Rep k} (ha : Valid k a) (w : V3) :
    (𝔼).conv P d k ((𝔼).boxPlus P k (embRot k a) (emb3 w)) = embRot d (conv P d k (boxPlus P k a w)) := by
  rw [exact_boxPlus hP ha]
  refine exact_conv P d k _ (fun _ => ?_)
  have hr := quatOfRv_low P (⟨w⟩ : RotVec)
  have he := P.eps_pos
  cases k
  · exact logDefined_of_low hP (mul_low P hr (toQuat_low P .quat a ha))
  · by_contra hc
    simp only [LogDefined, not_or, not_not, not_lt, not_le] at hc
    obtain ⟨h0, h1, h2⟩ := hc
    have := symm_trace_of_low (q := quatOfRv P (⟨w⟩ : RotVec)) ha h0 h1
    have h3 : max 0 (1 - (quatOfRv P (⟨w⟩ : RotVec)).normSq) ≤ P.eps / 48 := max_le (by linarith) (by linarith)
    have h4 : (boxPlus P .mat a w : M3).trace = ((quatOfRv P (⟨w⟩ : RotVec)).toRotationMatrix * (a : M3)).trace := rfl
    rw [h4] at h2
    linarith
  all_goals trivial

lemma exact_step {P : Prec} (hP : P.eps ≤ P.dp) (cls : ℕ → Kind) (σ : (i : ℕ) → Rep (cls i)) (c : Cmd)
    (hv : ∀ i, Valid (cls i) (σ i)) :
    xStep 𝔼 P cls (fun i => embRot (cls i) (σ i)) c =
      (fun i => embRot (cls i) ((step P cls σ c).1 i), (step P cls σ c).2.map embOut) := by
  have upd : ∀ (d : ℕ) (x : Rep (cls d)) (y : XRep (cls d)), y = embRot (cls d) x →
      Function.update (fun i => embRot (cls i) (σ i)) d y = fun i => embRot (cls i) (Function.update σ d x i) := by
    rintro d x y rfl
    funext i
    by_cases h : i = d
    · subst h; rw [Function.update_self, Function.update_self]
    · rw [Function.update_of_ne h, Function.update_of_ne h]
  cases c with
  | assign d s => exact Prod.ext (upd d _ _ (exact_conv P _ _ _ (fun _ => logDefined_valid hP (hv s)))) rfl
  | mul d a b =>
    refine Prod.ext (upd d _ _ ?_) rfl
    rw [exact_mult_valid hP (hv a) (hv b)]
    exact exact_conv P _ _ _ (fun _ => logDefined_mult hP (hv a) (hv b))
  | inv d a =>
    refine Prod.ext (upd d _ _ ?_) rfl
    rw [exact_inverted]
    exact exact_conv P _ _ _ (fun _ => logDefined_valid hP (inverted_spec (hv a)).1)
  | setIdentity d => exact Prod.ext (upd d _ _ (exact_identity _)) rfl
  | exp d w => exact Prod.ext (upd d _ _ (exact_exp P _ w)) rfl
  | boxPlus d a w => exact Prod.ext (upd d _ _ (exact_boxPlus_conv hP (hv a) w)) rfl
  | setUnique d => exact Prod.ext (upd d _ _ (exact_getUnique P _ _)) rfl
  | rotate a v =>
    simp only [xStep, step, List.map_cons, List.map_nil, embOut, exact_rotate]
    rfl
  | inverseRotate a v =>
    simp only [xStep, step, List.map_cons, List.map_nil, embOut, exact_inverseRotate]
    rfl
  | disparity a b =>
    simp only [xStep, step, List.map_cons, List.map_nil, embOut, exact_disparity hP (hv a) (hv b)]
  | isNear a b tol =>
    have := (C95_operations P hP _ _ _ _ (hv a) (hv b) 0 0 tol).2.2.2.2.2.2.2.1
    simp only [xStep, step, List.map_cons, List.map_nil, embOut, this]

/-- **C95, programs.** Every program over rotation variables of any classes whose variables hold admissible values before each
command prints and leaves only finite values: run in the arithmetic with infinities and NaN it gives, variable by variable and
line by line, the values of the main model. -/
theorem C95_programs (P : Prec) (hP : P.eps ≤ P.dp) (cls : ℕ → Kind) (σ : (i : ℕ) → Rep (cls i)) (p : List Cmd)
    (h : AlwaysValid P cls σ p) :
    xRun 𝔼 P cls (fun i => embRot (cls i) (σ i)) p =
      (fun i => embRot (cls i) ((run P cls σ p).1 i), (run P cls σ p).2.map embOut) := by
  induction p generalizing σ with
  | nil => rfl
  | cons c p ih =>
    have := exact_step hP cls σ c h.1
    simp only [xRun, run, this, ih _ h.2, List.map_append]

/-- **C95, programs that stay admissible.** The side conditions of C77 imply `AlwaysValid`: from admissible variables standing for the
matrices `S`, every program that meets them when run on exact matrices never produces an infinity or NaN. -/
theorem C95_programs_ok (P : Prec) (hP : P.eps ≤ P.dp) (cls : ℕ → Kind) (σ : (i : ℕ) → Rep (cls i)) (S : Store) (p : List Cmd)
    (hv : ∀ i, Valid (cls i) (σ i)) (hS : ∀ i v, toVec (act (cls i) (σ i) v) = (S i).mulVec (toVec v))
    (hp : ProgramOk P cls S p) :
    xRun 𝔼 P cls (fun i => embRot (cls i) (σ i)) p =
      (fun i => embRot (cls i) ((run P cls σ p).1 i), (run P cls σ p).2.map embOut) := by
  refine C95_programs P hP cls σ p ?_
  induction p generalizing σ S with
  | nil => trivial
  | cons c p ih =>
    refine ⟨hv, ?_⟩
    obtain ⟨-, h1, h2⟩ := C77_program_refinement P cls σ S [c] hv hS ⟨hp.1, trivial⟩
    exact ih _ _ h1 h2 hp.2

/-- The hypotheses can be met, and the exception is real: a quaternion with scalar part `9/10` and zero vector part (norm `9/10`) is
converted to three NaNs, the symmetric matrix `diag(1/2, 1/2, 1/2)` too, while an admissible quaternion is converted to a finite
vector; a program over variables of four classes whose variables stay admissible. -/
theorem C95_example (P : Prec) :
    (𝔼).conv P .rv .quat (embQ ⟨9 / 10, 0, 0, 0⟩) = nan3 ∧
    (𝔼).conv P .rv .mat (embM ⟨1 / 2, 0, 0, 0, 1 / 2, 0, 0, 0, 1 / 2⟩) = nan3 ∧
    LogDefined P .quat (⟨3 / 5, 4 / 5, 0, 0⟩ : Quat) ∧
    (let cls : ℕ → Kind := fun i => if i = 0 then .rv else if i = 1 then .quat else if i = 2 then .zyx else .mat
     AlwaysValid P cls (fun i => identity (cls i)) [.setIdentity 1, .rotate 3 ⟨1, 0, 0⟩, .inv 3 3, .disparity 1 2]) := by
  have hd := P.dp_le
  have hd0 := P.dp_pos
  refine ⟨?_, ?_, ?_, ?_⟩
  · refine (C95_conversions P .rv .quat (⟨9 / 10, 0, 0, 0⟩ : Quat)).2 ?_
    simp only [LogDefined, not_or, not_not, not_lt]
    refine ⟨by ext <;> rfl, ?_⟩
    linarith
  · refine (C95_conversions P .rv .mat (⟨1 / 2, 0, 0, 0, 1 / 2, 0, 0, 0, 1 / 2⟩ : M3)).2 ?_
    simp only [LogDefined, not_or, not_not, not_lt, not_le, M3.transpose, M3.trace, true_and]
    constructor <;> linarith
  · left
    intro h
    have := congrArg V3.x h
    norm_num [Quat.vec] at this
  · intro cls
    have hi : ∀ i, Valid (cls i) (identity (cls i)) := fun i => (identity_spec (cls i)).1
    have hup : ∀ (σ : (i : ℕ) → Rep (cls i)) d (x : Rep (cls d)), (∀ i, Valid (cls i) (σ i)) → Valid (cls d) x →
        ∀ i, Valid (cls i) (Function.update σ d x i) := by
      intro σ d x h hx i
      by_cases e : i = d
      · subst e; rw [Function.update_self]; exact hx
      · rw [Function.update_of_ne e]; exact h i
    have h1 := hup (fun i => identity (cls i)) 1 (identity (cls 1)) hi (hi 1)
    have h3 : Valid (cls 3) (inverted (cls 3) (Function.update (fun i => identity (cls i)) 1 (identity (cls 1)) 3)) :=
      (inverted_spec (h1 3)).1
    exact ⟨hi, h1, h1, hup _ 3 _ h1 h3, trivial⟩

end Kindr
