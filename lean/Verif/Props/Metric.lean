import Verif.Lemmas.Metric

/-!
# C19, C20: the disparity angle and `isNear`
-/

set_option autoImplicit false

open Classical

noncomputable section
namespace Kindr
open Spec

/-- No rotation vector among the operands of a comparison of `a` and `b` (the operands themselves and the relative
rotation, which is computed in the class of the left operand) is a tiny nonzero rotation.
Nothing is required when the classes are not `RotationVector`. -/
def PairClear (P : Prec) (k₁ k₂ : Kind) (a : Rep k₁) (b : Rep k₂) : Prop :=
  RvClear P k₁ (den k₁ a) ∧ RvClear P k₂ (den k₂ b) ∧ RvClear P k₁ (den k₁ a * (den k₂ b).transpose)

lemma pairClear_of_nonrv {P : Prec} {k₁ k₂ : Kind} {a : Rep k₁} {b : Rep k₂} (h1 : k₁ ≠ .rv) (h2 : k₂ ≠ .rv) :
    PairClear P k₁ k₂ a b :=
  ⟨fun h => absurd h h1, fun h => absurd h h2, fun h => absurd h h1⟩

lemma abs_wrap (θ : ℝ) : |wrapPosNegPI θ| = Real.arccos (Real.cos θ) := by
  obtain ⟨k, hk⟩ := wrapPosNegPI_congr θ
  obtain ⟨h1, h2⟩ := wrapPosNegPI_mem θ
  have hc : Real.cos θ = Real.cos |wrapPosNegPI θ| := by
    rw [Real.cos_abs, hk, Real.cos_add_int_mul_two_pi]
  rw [hc, Real.arccos_cos (abs_nonneg _) (abs_le.mpr ⟨h1, h2.le⟩)]

lemma relative_spec {P : Prec} {k₁ k₂ : Kind} {a : Rep k₁} {b : Rep k₂} (ha : Valid k₁ a) (hb : Valid k₂ b)
    (h : PairClear P k₁ k₂ a b) :
    Valid k₁ (mult P k₁ k₂ a (inverted k₂ b)) ∧
      den k₁ (mult P k₁ k₂ a (inverted k₂ b)) = den k₁ a * (den k₂ b).transpose := by
  obtain ⟨c1, c2, c3⟩ := h
  obtain ⟨vi, di⟩ := inverted_spec hb
  have := mult_spec (P := P) ha vi c1 (by rw [di]; exact rvClear_transpose c2) (by rw [di]; exact c3)
  rwa [di] at this

lemma disparity_eq {P : Prec} {k₁ k₂ : Kind} {a : Rep k₁} {b : Rep k₂} (ha : Valid k₁ a) (hb : Valid k₂ b)
    (h : PairClear P k₁ k₂ a b) :
    disparityAngle P k₁ k₂ a b = rotAngle (den k₁ a * (den k₂ b).transpose) := by
  obtain ⟨vm, dm⟩ := relative_spec ha hb h
  obtain ⟨v3, d3⟩ := conv_nonrv (P := P) (d := .aa) vm (by decide) (by rw [dm]; exact h.2.2)
  rw [dm, den_eq] at d3
  change |wrapPosNegPI _| = _
  rw [abs_wrap, rotAngle, ← d3]
  rw [valid_aa_iff] at v3
  have := trace_rodMat (AngAx.angle (conv P .aa k₁ (mult P k₁ k₂ a (inverted k₂ b)))) v3
  change _ = Real.arccos ((M3.trace (rodMat _ _) - 1) / 2)
  rw [this]; congr 1; ring

lemma den_mul_tr_eq_one {k₁ k₂ : Kind} {a : Rep k₁} {b : Rep k₂} (hb : Valid k₂ b) :
    den k₁ a * (den k₂ b).transpose = 1 ↔ SameRot a b := by
  rw [sameRot_iff]
  have hB := den_isSO3 hb
  constructor
  · intro h
    have := congrArg (· * den k₂ b) h
    simpa only [mul_assoc, SO3.tr_mul hB, mul_one, one_mul] using this
  · intro h; rw [h]; exact hB.1

/-- **C19 (1).** `getDisparityAngle` lies in `[0,π]`, is *the* rotation angle of `A·B⁻¹` (`tr = 1 + 2 cos`), and is zero
exactly for equal rotations. -/
theorem C19_disparity_angle (P : Prec) (k₁ k₂ : Kind) (a : Rep k₁) (b : Rep k₂) (ha : Valid k₁ a)
    (hb : Valid k₂ b) (h : PairClear P k₁ k₂ a b) :
    0 ≤ disparityAngle P k₁ k₂ a b ∧ disparityAngle P k₁ k₂ a b ≤ Real.pi ∧
    (den k₁ a * (den k₂ b).transpose).trace = 1 + 2 * Real.cos (disparityAngle P k₁ k₂ a b) ∧
    (disparityAngle P k₁ k₂ a b = 0 ↔ SameRot a b) := by
  have hs := SO3.mul (den_isSO3 ha) (SO3.transpose (den_isSO3 hb))
  rw [disparity_eq ha hb h]
  refine ⟨rotAngle_nonneg _, rotAngle_le_pi _, trace_eq hs, ?_⟩
  rw [rotAngle_eq_zero hs, den_mul_tr_eq_one hb]

/-- **C19 (2).** Symmetry. -/
theorem C19_symmetric (P : Prec) (k₁ k₂ : Kind) (a : Rep k₁) (b : Rep k₂) (ha : Valid k₁ a)
    (hb : Valid k₂ b) (h : PairClear P k₁ k₂ a b) (h' : PairClear P k₂ k₁ b a) :
    disparityAngle P k₁ k₂ a b = disparityAngle P k₂ k₁ b a := by
  rw [disparity_eq ha hb h, disparity_eq hb ha h', ← rotAngle_transpose, M3.transpose_mul, M3.transpose_transpose]

/-- **C19 (3).** Invariance under multiplying both arguments by a common rotation, on the right and on the left. -/
theorem C19_bi_invariant (P : Prec) (k₁ k₂ k₃ : Kind) (a : Rep k₁) (b : Rep k₂) (c : Rep k₃) (ha : Valid k₁ a)
    (hb : Valid k₂ b) (hc : Valid k₃ c) (h : PairClear P k₁ k₂ a b) :
    (RvClear P k₃ (den k₃ c) → RvClear P k₁ (den k₁ a * den k₃ c) → RvClear P k₂ (den k₂ b * den k₃ c) →
      disparityAngle P k₁ k₂ (mult P k₁ k₃ a c) (mult P k₂ k₃ b c) = disparityAngle P k₁ k₂ a b) ∧
    (RvClear P k₃ (den k₃ c) → RvClear P k₃ (den k₃ c * den k₁ a) → RvClear P k₃ (den k₃ c * den k₂ b) →
      PairClear P k₃ k₃ (mult P k₃ k₁ c a) (mult P k₃ k₂ c b) →
      disparityAngle P k₃ k₃ (mult P k₃ k₁ c a) (mult P k₃ k₂ c b) = disparityAngle P k₁ k₂ a b) := by
  have hA := den_isSO3 ha
  have hB := den_isSO3 hb
  have hC := den_isSO3 hc
  constructor
  · intro c1 c2 c3
    obtain ⟨v1, d1⟩ := mult_spec (P := P) ha hc h.1 c1 c2
    obtain ⟨v2, d2⟩ := mult_spec (P := P) hb hc h.2.1 c1 c3
    have e : (den k₁ a * den k₃ c) * (den k₂ b * den k₃ c).transpose = den k₁ a * (den k₂ b).transpose := by
      rw [M3.transpose_mul, mul_assoc, ← mul_assoc (den k₃ c), hC.1, one_mul]
    rw [disparity_eq v1 v2 ⟨by rw [d1]; exact c2, by rw [d2]; exact c3, by rw [d1, d2, e]; exact h.2.2⟩,
      disparity_eq ha hb h, d1, d2, e]
  · intro c1 c2 c3 h'
    obtain ⟨v1, d1⟩ := mult_spec (P := P) hc ha c1 h.1 c2
    obtain ⟨v2, d2⟩ := mult_spec (P := P) hc hb c1 h.2.1 c3
    rw [disparity_eq v1 v2 h', disparity_eq ha hb h, d1, d2, M3.transpose_mul, ← mul_assoc, mul_assoc (den k₃ c),
      rotAngle_conj hC]

/-- **C19 (4).** Triangle inequality. -/
theorem C19_triangle (P : Prec) (k₁ k₂ k₃ : Kind) (a : Rep k₁) (b : Rep k₂) (c : Rep k₃) (ha : Valid k₁ a)
    (hb : Valid k₂ b) (hc : Valid k₃ c) (h12 : PairClear P k₁ k₂ a b) (h23 : PairClear P k₂ k₃ b c)
    (h13 : PairClear P k₁ k₃ a c) :
    disparityAngle P k₁ k₃ a c ≤ disparityAngle P k₁ k₂ a b + disparityAngle P k₂ k₃ b c := by
  rw [disparity_eq ha hb h12, disparity_eq hb hc h23, disparity_eq ha hc h13]
  exact rotAngle_triangle (den_isSO3 ha) (den_isSO3 hb) (den_isSO3 hc)

/-- **C19, unconditional** for the five classes other than `RotationVector`: the disparity angle is a metric (up to the
choice of representative) on all valid values. -/
theorem C19_metric_unconditional (P : Prec) (k₁ k₂ k₃ : Kind) (h1 : k₁ ≠ .rv) (h2 : k₂ ≠ .rv) (h3 : k₃ ≠ .rv)
    (a : Rep k₁) (b : Rep k₂) (c : Rep k₃) (ha : Valid k₁ a) (hb : Valid k₂ b) (hc : Valid k₃ c) :
    (disparityAngle P k₁ k₂ a b = 0 ↔ SameRot a b) ∧
    disparityAngle P k₁ k₂ a b = disparityAngle P k₂ k₁ b a ∧
    disparityAngle P k₁ k₃ a c ≤ disparityAngle P k₁ k₂ a b + disparityAngle P k₂ k₃ b c ∧
    disparityAngle P k₁ k₂ (mult P k₁ k₃ a c) (mult P k₂ k₃ b c) = disparityAngle P k₁ k₂ a b ∧
    disparityAngle P k₃ k₃ (mult P k₃ k₁ c a) (mult P k₃ k₂ c b) = disparityAngle P k₁ k₂ a b := by
  have n : ∀ {k : Kind} {m : M3}, k ≠ .rv → RvClear P k m := fun hk e => absurd e hk
  obtain ⟨b1, b2⟩ := C19_bi_invariant P k₁ k₂ k₃ a b c ha hb hc (pairClear_of_nonrv h1 h2)
  exact ⟨(C19_disparity_angle P k₁ k₂ a b ha hb (pairClear_of_nonrv h1 h2)).2.2.2,
    C19_symmetric P k₁ k₂ a b ha hb (pairClear_of_nonrv h1 h2) (pairClear_of_nonrv h2 h1),
    C19_triangle P k₁ k₂ k₃ a b c ha hb hc (pairClear_of_nonrv h1 h2) (pairClear_of_nonrv h2 h3)
      (pairClear_of_nonrv h1 h3),
    b1 (n h3) (n h1) (n h2), b2 (n h3) (n h3) (n h3) (pairClear_of_nonrv h3 h3)⟩

/-- non-vacuity of C19: a quarter turn about z as quaternion against the identity matrix has disparity `π/2`. -/
example : disparityAngle Prec.double .aa .mat (⟨Real.pi / 2, ⟨0, 0, 1⟩⟩ : AngAx) (1 : M3) = Real.pi / 2 := by
  have ha : Valid .aa (⟨Real.pi / 2, ⟨0, 0, 1⟩⟩ : AngAx) := by norm_num [Valid]
  have hb : Valid .mat (1 : M3) := SO3.one
  rw [disparity_eq ha hb (pairClear_of_nonrv (by decide) (by decide)), den_eq, den_eq]
  have e : dmat .mat (1 : M3) = 1 := rfl
  rw [e, M3.transpose_one, mul_one]
  exact rotAngle_rodMat (by norm_num [V3.normSq, V3.dot]) (by positivity) (by linarith [Real.pi_pos])

/-- **C20.** `isNear` is the closed ball of the disparity metric. -/
theorem C20_isNear (P : Prec) (k₁ k₂ : Kind) (a : Rep k₁) (b : Rep k₂) (ha : Valid k₁ a)
    (hb : Valid k₂ b) (h : PairClear P k₁ k₂ a b) (tol : ℝ) :
    (isNear P k₁ k₂ a b tol = true ↔ rotAngle (den k₁ a * (den k₂ b).transpose) ≤ tol) ∧
    (SameRot a b → 0 ≤ tol → isNear P k₁ k₂ a b tol = true) ∧
    (PairClear P k₂ k₁ b a → isNear P k₁ k₂ a b tol = isNear P k₂ k₁ b a tol) ∧
    (∀ tol', tol ≤ tol' → isNear P k₁ k₂ a b tol = true → isNear P k₁ k₂ a b tol' = true) ∧
    (Real.pi ≤ tol → isNear P k₁ k₂ a b tol = true) ∧
    (tol < 0 → isNear P k₁ k₂ a b tol = false) ∧
    (isNear P k₁ k₂ a b 0 = true ↔ SameRot a b) := by
  obtain ⟨h0, hpi, -, hz⟩ := C19_disparity_angle P k₁ k₂ a b ha hb h
  have key : ∀ t, isNear P k₁ k₂ a b t = true ↔ disparityAngle P k₁ k₂ a b ≤ t := fun t => by
    unfold isNear; exact decide_eq_true_iff
  refine ⟨by rw [key, disparity_eq ha hb h], fun hs ht => ?_, fun h' => ?_, fun t ht hn => ?_, fun ht => ?_,
    fun ht => ?_, ?_⟩
  · rw [key, hz.mpr hs]; exact ht
  · unfold isNear; rw [C19_symmetric P k₁ k₂ a b ha hb h h']
  · rw [key] at *; linarith
  · rw [key]; linarith
  · rw [← Bool.not_eq_true, key]; linarith
  · rw [key, ← hz]; exact ⟨fun e => le_antisymm e h0, fun e => e.le⟩

/-- **C20, reflexivity**: every valid value of any class other than `RotationVector`, and every rotation vector that is not
tiny, is near itself; the tolerances of `isNear` add up along chains. -/
theorem C20_refl_trans (P : Prec) (k₁ k₂ k₃ : Kind) (a : Rep k₁) (b : Rep k₂) (c : Rep k₃) (ha : Valid k₁ a)
    (hb : Valid k₂ b) (hc : Valid k₃ c) :
    (RvClear P k₁ (den k₁ a) → isNear P k₁ k₁ a a 0 = true) ∧
    (PairClear P k₁ k₂ a b → PairClear P k₂ k₃ b c → PairClear P k₁ k₃ a c → ∀ s t,
      isNear P k₁ k₂ a b s = true → isNear P k₂ k₃ b c t = true → isNear P k₁ k₃ a c (s + t) = true) := by
  constructor
  · intro h
    have hp : PairClear P k₁ k₁ a a := ⟨h, h, by rw [(den_isSO3 ha).1]; exact rvClear_one P k₁⟩
    exact ((C20_isNear P k₁ k₁ a a ha ha hp 0).2.2.2.2.2.2).mpr (fun _ => rfl)
  · intro h12 h23 h13 s t hs ht
    have := C19_triangle P k₁ k₂ k₃ a b c ha hb hc h12 h23 h13
    simp only [isNear, decide_eq_true_eq] at *
    linarith

end Kindr
