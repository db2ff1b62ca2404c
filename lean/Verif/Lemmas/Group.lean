import Verif.Lemmas.RotVec

/-!
# Group operations on the level of denotations
-/

set_option autoImplicit false

open Classical

noncomputable section
namespace Kindr
open Spec

lemma exact_to_nonrv {P : Prec} {d s : Kind} {r : Rep s} (hd : d ≠ .rv) (h : RvClear P s (den s r)) :
    ExactBranch P d s r := by
  by_cases hs : s = .rv
  · exact exactBranch_of_clear d s r (by rw [← den_eq]; exact h hs)
  · cases s <;> cases d <;> first | exact trivial | exact absurd rfl hs | exact absurd rfl hd

lemma exact_from_nonrv {P : Prec} {d s : Kind} {r : Rep s} (hs : s ≠ .rv) (h : RvClear P d (den s r)) :
    ExactBranch P d s r := by
  by_cases hd : d = .rv
  · exact exactBranch_of_clear d s r (by rw [← den_eq]; exact h hd)
  · cases s <;> cases d <;> first | exact trivial | exact absurd rfl hs | exact absurd rfl hd

/-- Conversion to quaternions, matrices etc. -/
lemma conv_nonrv {P : Prec} {d s : Kind} {r : Rep s} (hv : Valid s r) (hd : d ≠ .rv) (h : RvClear P s (den s r)) :
    Valid d (conv P d s r) ∧ den d (conv P d s r) = den s r := by
  simpa only [den_eq] using conv_spec P d s r hv (exact_to_nonrv hd h)

lemma conv_from_nonrv {P : Prec} {d s : Kind} {r : Rep s} (hv : Valid s r) (hs : s ≠ .rv)
    (h : RvClear P d (den s r)) :
    Valid d (conv P d s r) ∧ den d (conv P d s r) = den s r := by
  simpa only [den_eq] using conv_spec P d s r hv (exact_from_nonrv hs h)

lemma conv_any {P : Prec} {d s : Kind} {r : Rep s} (hv : Valid s r) (h : RvClear P s (den s r))
    (h' : RvClear P d (den s r)) :
    Valid d (conv P d s r) ∧ den d (conv P d s r) = den s r := by
  by_cases hs : s = .rv
  · simpa only [den_eq] using conv_clear P d s r hv (by rw [← den_eq]; exact h hs)
  · exact conv_from_nonrv hv hs h'

lemma rotate_spec {P : Prec} {k : Kind} {r : Rep k} (hv : Valid k r) (h : ExactBranch P .mat k r) (v : V3) :
    rotate P k r v = (den k r).mulVec v := by
  have := (conv_spec P .mat k r hv h).2
  rw [den_eq, ← this]; rfl

lemma mult_eq (P : Prec) (k₁ k₂ : Kind) (a : Rep k₁) (b : Rep k₂) (h : ¬ (k₁ = .mat ∧ k₂ = .mat)) :
    mult P k₁ k₂ a b =
      conv P k₁ .quat ((conv P .quat k₁ a : Quat) * (conv P .quat k₂ b : Quat) : Quat) := by
  cases k₁ <;> cases k₂ <;> first | rfl | exact absurd ⟨rfl, rfl⟩ h

lemma quatMul_spec {p q : Quat} (hp : Valid .quat p) (hq : Valid .quat q) :
    Valid .quat (p * q) ∧ den .quat (p * q) = den .quat p * den .quat q := by
  constructor
  · rw [valid_quat_iff] at *; rw [Quat.normSq_mul, hp, hq, one_mul]
  · simp only [den_eq]; exact sMat_mul p q

lemma mult_spec {P : Prec} {k₁ k₂ : Kind} {a : Rep k₁} {b : Rep k₂} (ha : Valid k₁ a) (hb : Valid k₂ b)
    (ca : RvClear P k₁ (den k₁ a)) (cb : RvClear P k₂ (den k₂ b))
    (cab : RvClear P k₁ (den k₁ a * den k₂ b)) :
    Valid k₁ (mult P k₁ k₂ a b) ∧ den k₁ (mult P k₁ k₂ a b) = den k₁ a * den k₂ b := by
  by_cases h : k₁ = .mat ∧ k₂ = .mat
  · obtain ⟨rfl, rfl⟩ := h
    constructor
    · exact SO3.mul ha hb
    · simp only [den_eq]; rfl
  · rw [mult_eq P k₁ k₂ a b h]
    obtain ⟨v1, d1⟩ := conv_nonrv (d := .quat) ha (by decide) ca
    obtain ⟨v2, d2⟩ := conv_nonrv (d := .quat) hb (by decide) cb
    obtain ⟨v3, d3⟩ := quatMul_spec v1 v2
    rw [d1, d2] at d3
    obtain ⟨v4, d4⟩ := conv_from_nonrv (P := P) (d := k₁) (s := .quat) v3 (by decide) (by rw [d3]; exact cab)
    exact ⟨v4, by rw [d4, d3]⟩

lemma inverted_spec {k : Kind} {r : Rep k} (h : Valid k r) :
    Valid k (inverted k r) ∧ den k (inverted k r) = (den k r).transpose := by
  simp only [den_eq]
  cases k
  · exact ⟨by rw [valid_quat_iff] at *; rw [← h]; exact Quat.normSq_conj _, sMat_conj _⟩
  · exact ⟨SO3.transpose h, rfl⟩
  · refine ⟨?_, ?_⟩
    · rw [valid_aa_iff] at *; rw [← h]; exact V3.normSq_neg _
    · simp only [dmat, inverted, aaInverted, AngAx.inverse, neg_neg, rodMat_transpose]
  · refine ⟨trivial, ?_⟩
    simp only [dmat, inverted, V3.norm_neg]
    split_ifs
    · simp
    · rw [rodMat_transpose, smul_neg]
  · refine ⟨trivial, ?_⟩
    have hq := quatOfXyz_unit r
    have : (UnitQuaternion.inverted (quatOfXyz r)).normSq = 1 := by rw [← hq]; exact Quat.normSq_conj _
    refine (xyzOfQuat_spec this).trans ?_
    simp only [UnitQuaternion.inverted, UnitQuaternion.conjugated, sMat_conj]
    rw [sMat_quatOfXyz]; rfl
  · refine ⟨trivial, ?_⟩
    have hq := quatOfZyx_unit r
    have : (UnitQuaternion.inverted (quatOfZyx r)).normSq = 1 := by rw [← hq]; exact Quat.normSq_conj _
    refine (zyxOfQuat_spec this).trans ?_
    simp only [UnitQuaternion.inverted, UnitQuaternion.conjugated, sMat_conj]
    rw [sMat_quatOfZyx]; rfl

lemma identity_spec (k : Kind) : Valid k (identity k) ∧ den k (identity k) = 1 := by
  simp only [den_eq]
  cases k
  · exact ⟨by simp [Valid, identity], sMat_one⟩
  · exact ⟨SO3.one, rfl⟩
  · exact ⟨by simp [Valid, identity], rodMat_zero _⟩
  · exact ⟨trivial, dmat_rv_zero⟩
  · refine ⟨trivial, ?_⟩
    ext <;> simp [dmat, identity, rX, rY, rZ, EulXyz.x, EulXyz.y, EulXyz.z]
  · refine ⟨trivial, ?_⟩
    ext <;> simp [dmat, identity, rX, rY, rZ, EulZyx.x, EulZyx.y, EulZyx.z]

lemma clear_one (P : Prec) : Clear P 1 := Or.inl rfl
lemma clear_transpose {P : Prec} {m : M3} (h : Clear P m) : Clear P m.transpose := by
  rcases h with rfl | h
  · left; simp
  · right; rwa [M3.trace_transpose]
lemma rvClear_transpose {P : Prec} {k : Kind} {m : M3} (h : RvClear P k m) : RvClear P k m.transpose :=
  fun hk => clear_transpose (h hk)
lemma rvClear_one (P : Prec) (k : Kind) : RvClear P k 1 := fun _ => clear_one P

/-- Unit quaternions with the same rotation agree up to sign. -/
lemma double_cover {p q : Quat} (hp : p.normSq = 1) (hq : q.normSq = 1) (h : sMat p = sMat q) :
    p = q ∨ p = -q := by
  have h1 : sMat (p * q.conj) = 1 := by
    rw [sMat_mul, sMat_conj, h, (sMat_isSO3 hq).1]
  have hn : (p * q.conj).normSq = 1 := by rw [Quat.normSq_mul, Quat.normSq_conj, hp, hq, one_mul]
  have hv := vec_eq_zero_of_one hn h1
  have hx : (p * q.conj).x = 0 := congrArg V3.x hv
  have hy : (p * q.conj).y = 0 := congrArg V3.y hv
  have hz : (p * q.conj).z = 0 := congrArg V3.z hv
  have hw : (p * q.conj).w ^ 2 = 1 := by
    simp only [Quat.normSq, hx, hy, hz] at hn; linarith
  have hqq : q.conj * q = 1 := by
    ext <;> simp [Quat.normSq] at * <;> linarith
  have hpq : p = (p * q.conj) * q := by rw [mul_assoc, hqq, mul_one]
  rcases eq_or_eq_neg_of_sq_eq_sq (p * q.conj).w 1 (by rw [hw, one_pow]) with h2 | h2
  · left
    have : p * q.conj = 1 := by ext <;> assumption
    rw [this, one_mul] at hpq; exact hpq
  · right
    have : p * q.conj = -1 := by ext <;> simp only [Quat.neg_w, Quat.neg_x, Quat.neg_y, Quat.neg_z,
      Quat.one_w, Quat.one_x, Quat.one_y, Quat.one_z, neg_zero] <;> assumption
    rw [this] at hpq; rw [hpq]; ext <;> simp

end Kindr
