import Verif.Props.Special
import Verif.Lemmas.Group

/-!
# C72: on finite rotations the special-value model is the real-number model
-/

set_option autoImplicit false

open Classical

noncomputable section
namespace Kindr
open Spec

local notation "𝔼" => XArith.exact

lemma exact_modulo (x y : ℝ) : (𝔼).floatingPointModulo (.fin x) (.fin y) = .fin (floatingPointModulo x y) := by
  by_cases hy : y = 0
  · subst hy
    simp [XArith.floatingPointModulo, floatingPointModulo, fpModuloFrom]
  · unfold XArith.floatingPointModulo floatingPointModulo fpModuloFrom
    simp only [exact_div hy, fin_floor, exact_mul, exact_sub, exact_add, fin_eq, fin_lt, fin_le, id, ge_iff_le, gt_iff_lt]
    split_ifs <;> rfl

lemma exact_wrapPosNegPI (x : ℝ) : (𝔼).wrapPosNegPI (.fin x) = .fin (wrapPosNegPI x) := by
  simp only [XArith.wrapPosNegPI, exact_add, exact_modulo, exact_sub, wrapPosNegPI]

lemma exact_aaGetUnique (a : AngAx) : (𝔼).aaGetUnique (embA a) = embA (aaGetUnique a) := by
  unfold XArith.aaGetUnique aaGetUnique
  simp only [embA, emb3, exact_wrapPosNegPI, fin_lt, fin_eq, gt_iff_lt, ne_eq, XV3.neg, fin_neg]
  split_ifs <;> rfl

lemma exact_smulV (s : ℝ) (v : V3) : (𝔼).smulV (.fin s) (emb3 v) = emb3 (s • v) := by
  simp [XArith.smulV, emb3]

lemma exact_divV {n : ℝ} (hn : n ≠ 0) (v : V3) : (𝔼).divV (emb3 v) (.fin n) = emb3 ((1 / n) • v) := by
  simp only [XArith.divV, emb3, exact_div hn, XV3.mk.injEq, XR.fin.injEq, V3.smul_x, V3.smul_y, V3.smul_z]
  refine ⟨?_, ?_, ?_⟩ <;> ring

lemma exact_normalized (v : V3) : (𝔼).normalized (emb3 v) = emb3 v.normalized := by
  have h1 : (𝔼).normSq3 (emb3 v) = .fin v.normSq := by
    simp only [XArith.normSq3, emb3, exact_mul, exact_add, ← add_assoc]; rfl
  unfold XArith.normalized V3.normalized
  simp only [h1, fin_lt, exact_norm3]
  by_cases h : 0 < v.normSq
  · rw [if_pos h, if_pos h, exact_divV]
    exact (Real.sqrt_pos.mpr h).ne'
  · rw [if_neg h, if_neg h]

lemma exact_aaOfRv (P : Prec) (r : RotVec) : (𝔼).aaOfRv P (emb3 r.v) = embA (aaOfRv P r) := by
  unfold XArith.aaOfRv aaOfRv
  simp only [exact_norm3, fin_lt, exact_normalized]
  split_ifs <;> rfl

lemma exact_rvOfAa (a : AngAx) : (𝔼).rvOfAa (embA a) = emb3 (rvOfAa a).v := exact_smulV a.angle a.axis

lemma exact_rvGetUnique (P : Prec) (r : RotVec) : (𝔼).rvGetUnique P (emb3 r.v) = emb3 (rvGetUnique P r).v := by
  unfold XArith.rvGetUnique rvGetUnique
  rw [exact_aaOfRv, exact_aaGetUnique, exact_rvOfAa]

lemma embQ_vec (q : Quat) : (embQ q).vec = emb3 q.vec := rfl

lemma exact_rvOfQuat (P : Prec) (q : Quat) (hq : q.normSq = 1) : (𝔼).rvOfQuat P (embQ q) = emb3 (rvOfQuat P q).v := by
  unfold XArith.rvOfQuat rvOfQuat
  have e : (embQ q).w = .fin q.w := rfl
  simp only [embQ_vec, e, exact_mul, exact_sub, fin_lt, gt_iff_lt, exact_norm3, exact_smulV, exact_atan2]
  split_ifs with h1 h2
  · rfl
  · rfl
  · have hn : q.vec.norm ≠ 0 := by
      have h3 : q.vec.norm * q.vec.norm = 1 - q.w * q.w := by
        have := vec_norm_sq hq
        linarith [this, sq (q.vec.norm), sq q.w]
      intro h0
      rw [h0] at h3
      have := P.dp_pos
      linarith
    rw [exact_div hn, exact_smulV]

lemma exact_quatOfMat (m : M3) : (𝔼).quatOfMat (embM m) = embQ (Quat.ofMatrix m) := by
  have hs : ∀ {t : ℝ}, 1 ≤ t → Real.sqrt t ≠ 0 := fun h => (Real.sqrt_pos.mpr (by linarith)).ne'
  obtain ⟨m00, m01, m02, m10, m11, m12, m20, m21, m22⟩ := m
  unfold XArith.quatOfMat Quat.ofMatrix
  simp only [embM, embQ, exact_add, exact_sub, fin_lt, gt_iff_lt, M3.trace]
  have fin : ∀ {t : ℝ}, 1 ≤ t → (𝔼).sqrt (.fin t) = .fin (Real.sqrt t) ∧
      (𝔼).div (.fin (1 / 2)) (.fin (Real.sqrt t)) = .fin (1 / 2 / Real.sqrt t) :=
    fun h => ⟨exact_sqrt (by linarith), exact_div (hs h)⟩
  have half : ∀ t : ℝ, 1 / 2 * t = t / 2 := fun t => by ring
  split_ifs with h0 h1 h2 h2
  · obtain ⟨f1, f2⟩ := fin (t := m00 + m11 + m22 + 1) (by linarith)
    simp only [f1, f2, exact_mul, half]
  · obtain ⟨f1, f2⟩ := fin (t := m22 - m00 - m11 + 1) (by rcases le_total 0 m22 with h | h <;> linarith)
    simp only [f1, f2, exact_mul, half]
  · obtain ⟨f1, f2⟩ := fin (t := m11 - m22 - m00 + 1) (by rcases le_total 0 m11 with h | h <;> linarith)
    simp only [f1, f2, exact_mul, half]
  · obtain ⟨f1, f2⟩ := fin (t := m22 - m00 - m11 + 1) (by rcases le_total 0 m22 with h | h <;> linarith)
    simp only [f1, f2, exact_mul, half]
  · obtain ⟨f1, f2⟩ := fin (t := m00 - m11 - m22 + 1) (by rcases le_total 0 m00 with h | h <;> linarith)
    simp only [f1, f2, exact_mul, half]

lemma exact_quatOfAa (a : AngAx) : (𝔼).quatOfAa (embA a) = embQ (Quat.ofAngleAxis a.angle a.axis) := by
  simp only [XArith.quatOfAa, embA, emb3, embQ, exact_mul, exact_sin, exact_cos, Quat.ofAngleAxis]

lemma exact_quatMul (a b : Quat) : (𝔼).quatMul (embQ a) (embQ b) = embQ (a * b) := by
  simp only [XArith.quatMul, embQ, exact_mul, exact_sub, exact_add]
  rfl

lemma exact_aaOfQuat (q : Quat) : (𝔼).aaOfQuat (embQ q) = embA (AngAx.ofQuat q) := by
  unfold XArith.aaOfQuat AngAx.ofQuat
  have e : (embQ q).w = .fin q.w := rfl
  simp only [embQ_vec, e, exact_norm3, fin_eq, fin_abs, exact_atan2, exact_mul, fin_lt, fin_neg]
  by_cases h : q.vec.norm = 0
  · simp [h, embA, emb3]
  · rw [if_pos h, if_pos h]
    have : (if q.w < 0 then XR.fin (-q.vec.norm) else XR.fin q.vec.norm) = .fin (if q.w < 0 then -q.vec.norm else q.vec.norm) := by
      split_ifs <;> rfl
    rw [this, exact_divV]
    · rfl
    · split_ifs
      · exact neg_ne_zero.mpr h
      · exact h

lemma exact_quatOfThree (a b c : AngAx) : (𝔼).quatOfThree (embA a) (embA b) (embA c) =
    embQ (Quat.ofAngleAxis a.angle a.axis * Quat.ofAngleAxis b.angle b.axis * Quat.ofAngleAxis c.angle c.axis) := by
  unfold XArith.quatOfThree
  rw [exact_quatOfAa, exact_quatOfAa, exact_quatOfAa, exact_quatMul, exact_quatMul]

/-- **C72, finite rotations.** For valid finite rotations of every class and in exact arithmetic, the special-value model of
`getUnique()`, `logarithmicMap()`, `boxMinus` and `isNear` is the real-number model, so all theorems about these
functions apply; the behaviour above is confined to non-finite values. -/
theorem C72_finite_agrees (P : Prec) (k : Kind) (r : Rep k) (h : Valid k r) :
    (𝔼).logarithmicMap P k (embRot k r) = emb3 (logarithmicMap P k r) ∧
    (∀ v : RotVec, (𝔼).rvGetUnique P (emb3 v.v) = emb3 (rvGetUnique P v).v) ∧
    (∀ a : AngAx, (𝔼).aaGetUnique (embA a) = embA (aaGetUnique a)) ∧
    (∀ q : Quat, XArith.quatGetUnique (embQ q) = embQ (quatGetUnique q)) ∧
    (∀ p q : Quat, Valid .quat p → Valid .quat q →
      (𝔼).boxMinusQuat P (embQ p) (embQ q) = emb3 (boxMinus P .quat .quat p q) ∧
      (∀ tol : ℝ, (𝔼).isNearQuat (embQ p) (embQ q) (.fin tol) = isNear P .quat .quat p q tol)) := by
  have hq : ∀ q : Quat, Valid .quat q → (𝔼).logarithmicMap P .quat (embQ q) = emb3 (logarithmicMap P .quat q) := by
    intro q hq
    unfold XArith.logarithmicMap logarithmicMap
    change (𝔼).rvGetUnique P ((𝔼).rvOfQuat P (embQ q)) = emb3 (rvGetUnique P (rvOfQuat P q)).v
    rw [exact_rvOfQuat P q ((valid_quat_iff q).mp hq), exact_rvGetUnique]
  have hinv : ∀ q : Quat, XArith.quatInverted (embQ q) = embQ (inverted .quat q) := fun q => rfl
  refine ⟨?_, exact_rvGetUnique P, exact_aaGetUnique, ?_, ?_⟩
  · cases k with
    | quat => exact hq r h
    | mat =>
      have hm : IsSO3 (r : M3) := h
      change (𝔼).rvGetUnique P ((𝔼).rvOfQuat P ((𝔼).quatOfMat (embM r))) = emb3 (rvGetUnique P (rvOfQuat P (Quat.ofMatrix r))).v
      rw [exact_quatOfMat, exact_rvOfQuat P _ (ofMatrix_spec hm).1, exact_rvGetUnique]
    | aa =>
      change (𝔼).rvGetUnique P ((𝔼).rvOfAa (embA r)) = emb3 (rvGetUnique P (rvOfAa r)).v
      rw [exact_rvOfAa, exact_rvGetUnique]
    | rv => exact exact_rvGetUnique P r
    | xyz =>
      change (𝔼).rvGetUnique P ((𝔼).rvOfAa ((𝔼).aaOfQuat ((𝔼).quatOfThree
        (embA ⟨EulXyz.x r, V3.unitX⟩) (embA ⟨EulXyz.y r, V3.unitY⟩) (embA ⟨EulXyz.z r, V3.unitZ⟩)))) =
        emb3 (rvGetUnique P (rvOfAa (aaOfXyz r))).v
      rw [exact_quatOfThree, exact_aaOfQuat, exact_rvOfAa, exact_rvGetUnique]
      rfl
    | zyx =>
      change (𝔼).rvGetUnique P ((𝔼).rvOfAa ((𝔼).aaOfQuat ((𝔼).quatOfThree
        (embA ⟨EulZyx.z r, V3.unitZ⟩) (embA ⟨EulZyx.y r, V3.unitY⟩) (embA ⟨EulZyx.x r, V3.unitX⟩)))) =
        emb3 (rvGetUnique P (rvOfAa (aaOfZyx r))).v
      rw [exact_quatOfThree, exact_aaOfQuat, exact_rvOfAa, exact_rvGetUnique]
      rfl
  · intro q
    unfold XArith.quatGetUnique quatGetUnique
    simp only [embQ, fin_lt, gt_iff_lt, XQuat.neg, fin_neg]
    split_ifs <;> rfl
  · intro p q hp hq'
    have hm : Valid .quat (p * inverted .quat q : Quat) := by
      rw [valid_quat_iff] at *
      change (p * q.conj).normSq = 1
      rw [Quat.normSq_mul, Quat.normSq_conj, hp, hq', one_mul]
    refine ⟨?_, ?_⟩
    · unfold XArith.boxMinusQuat boxMinus
      rw [hinv, exact_quatMul]
      exact hq _ hm
    · intro tol
      unfold XArith.isNearQuat isNear XArith.disparityAngleQuat disparityAngle
      rw [hinv, exact_quatMul, exact_aaOfQuat]
      simp only [embA, exact_add, exact_modulo, exact_sub, fin_abs, fin_le]
      rfl

/-- **C72, comparison of finite rotations.** On finite values in exact arithmetic the special-value model of `operator==` is the
real-number one, for the three classes it covers. -/
theorem C72_comparison_finite_agrees (P : Prec) (a b : AngAx) (r s : RotVec) (p q : Quat) :
    (𝔼).aaEq (embA a) (embA b) = eqSame P .aa a b ∧
    (𝔼).rvEq P (emb3 r.v) (emb3 s.v) = eqSame P .rv r s ∧
    XArith.quatEq (embQ p) (embQ q) = eqSame P .quat p q := by
  have hq : ∀ q : Quat, XArith.quatGetUnique (embQ q) = embQ (quatGetUnique q) := by
    intro q
    unfold XArith.quatGetUnique quatGetUnique
    simp only [embQ, fin_lt, gt_iff_lt, XQuat.neg, fin_neg]
    split_ifs <;> rfl
  have hfe : ∀ x y : ℝ, (XR.fin x).eq (.fin y) ↔ x = y := fun x y => Iff.rfl
  refine ⟨?_, ?_, ?_⟩
  · unfold XArith.aaEq
    rw [exact_aaGetUnique, exact_aaGetUnique]
    simp only [embA, emb3, exact_compareRelative]
    rfl
  · unfold XArith.rvEq
    rw [exact_rvGetUnique, exact_rvGetUnique]
    simp only [emb3, hfe]
    change _ = decide _
    rw [decide_eq_decide]
    exact V3.ext_iff.symm
  · unfold XArith.quatEq
    rw [hq, hq]
    simp only [embQ, hfe]
    change _ = decide _
    rw [decide_eq_decide]
    exact Iff.rfl

end Kindr
