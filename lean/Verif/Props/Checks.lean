import Verif.Props.SpecialFinite
import Verif.Props.Metric

/-!
# C70, C73, C74: test tools, assertion macros and matrix checks
-/

set_option autoImplicit false

open Classical

noncomputable section
namespace Kindr
open Spec

/-! ## C70 -/

/-- **C70.** The test helper `calcRotationQuatDisparityAngle` is, for all unit quaternions, the angle of the rotation between
the two and equal to `getDisparityAngle`; it is symmetric, does not depend on the signs of the quaternions and is zero
exactly for quaternions of the same rotation. -/
theorem C70_test_disparity (P : Prec) (p q : Quat) (hp : Valid .quat p) (hq : Valid .quat q) :
    quatDisparity p q = rotAngle ((den .quat p).transpose * den .quat q) ∧
    quatDisparity p q = disparityAngle P .quat .quat p q ∧
    quatDisparity p q = quatDisparity q p ∧
    quatDisparity (-p) q = quatDisparity p q ∧ quatDisparity p (-q) = quatDisparity p q ∧
    (quatDisparity p q = 0 ↔ SameRot (k₁ := .quat) (k₂ := .quat) p q) := by
  have key : ∀ {p q : Quat}, Valid .quat p → Valid .quat q →
      quatDisparity p q = rotAngle ((den .quat p).transpose * den .quat q) := by
    intro p q hp hq
    rw [valid_quat_iff] at hp hq
    have hc : (p.conj).normSq = 1 := by rw [Quat.normSq_conj]; exact hp
    have hc' : (q.conj).normSq = 1 := by rw [Quat.normSq_conj]; exact hq
    have h1 := rotAngle_quat hc hc'
    rw [sMat_conj, sMat_conj, M3.transpose_transpose] at h1
    have h2 : (den .quat p).transpose * den .quat q = (sMat p).transpose * sMat q := by
      rw [den_eq, den_eq]; rfl
    rw [h2, h1]
    unfold quatDisparity quatDisparityToIdentity
    have h3 : (mult Prec.double .quat .quat (inverted .quat p) q : Quat).w =
        p.conj.w * q.conj.w + p.conj.x * q.conj.x + p.conj.y * q.conj.y + p.conj.z * q.conj.z := by
      have : (mult Prec.double .quat .quat (inverted .quat p) q : Quat) = p.conj * q := rfl
      rw [this]; simp
    rw [h3, mul_comm]
  have hdisp : disparityAngle P .quat .quat p q = rotAngle (den .quat p * (den .quat q).transpose) :=
    disparity_eq hp hq (pairClear_of_nonrv (by simp) (by simp))
  have hcomm : rotAngle ((den .quat p).transpose * den .quat q) = rotAngle (den .quat p * (den .quat q).transpose) := by
    rw [← rotAngle_transpose, M3.transpose_mul, M3.transpose_transpose, rotAngle, rotAngle, M3.trace_mul_comm]
  have hneg : ∀ {p : Quat}, Valid .quat p → Valid .quat (-p) ∧ den .quat (-p : Quat) = den .quat p := by
    intro p hp
    refine ⟨?_, ?_⟩
    · rw [valid_quat_iff] at *
      rw [← hp]; simp [Quat.normSq]
    · rw [den_eq, den_eq]
      exact sMat_neg p
  have hz : rotAngle (den .quat p * (den .quat q).transpose) = 0 ↔ SameRot (k₁ := .quat) (k₂ := .quat) p q := by
    rw [rotAngle_eq_zero (SO3.mul (den_isSO3 hp) (SO3.transpose (den_isSO3 hq))), den_mul_tr_eq_one hq]
  refine ⟨key hp hq, ?_, ?_, ?_, ?_, ?_⟩
  · rw [key hp hq, hdisp, hcomm]
  · rw [key hp hq, key hq hp, ← rotAngle_transpose, M3.transpose_mul, M3.transpose_transpose]
  · rw [key (hneg hp).1 hq, key hp hq, (hneg hp).2]
  · rw [key hp (hneg hq).1, key hp hq, (hneg hq).2]
  · rw [key hp hq, hcomm, hz]

/-- Non-vacuity: two different unit quaternions; their distance is `π`. -/
example : quatDisparity ⟨1, 0, 0, 0⟩ ⟨0, 1, 0, 0⟩ = Real.pi := by
  have h : (mult Prec.double .quat .quat (inverted .quat (⟨1, 0, 0, 0⟩ : Quat)) (⟨0, 1, 0, 0⟩ : Quat) : Quat) =
      Quat.conj ⟨1, 0, 0, 0⟩ * ⟨0, 1, 0, 0⟩ := rfl
  unfold quatDisparity quatDisparityToIdentity
  rw [h]; simp

/-! ## C73 -/

lemma lt_toEx {a b : XR} (ha : a ≠ .nan) (hb : b ≠ .nan) : a.lt b ↔ toEx a < toEx b := by
  cases a with
  | nan => exact absurd rfl ha
  | fin x => cases b with
    | nan => exact absurd rfl hb
    | fin y => simp [toEx]
    | inf c => cases c <;> simp [toEx, XR.lt]
  | inf d => cases b with
    | nan => exact absurd rfl hb
    | fin y => cases d <;> simp [toEx, XR.lt]
    | inf c => cases c <;> cases d <;> simp [toEx, XR.lt]

lemma eq_toEx {a b : XR} (ha : a ≠ .nan) (hb : b ≠ .nan) : a.eq b ↔ toEx a = toEx b := by
  cases a with
  | nan => exact absurd rfl ha
  | fin x => cases b with
    | nan => exact absurd rfl hb
    | fin y => simp [toEx]
    | inf c => cases c <;> simp [toEx, XR.eq]
  | inf d => cases b with
    | nan => exact absurd rfl hb
    | fin y => cases d <;> simp [toEx, XR.eq]
    | inf c => cases c <;> cases d <;> simp [toEx, XR.eq]

lemma le_toEx {a b : XR} (ha : a ≠ .nan) (hb : b ≠ .nan) : a.le b ↔ toEx a ≤ toEx b := by
  rw [le_iff_lt_or_eq, ← lt_toEx ha hb, ← eq_toEx ha hb]; rfl

/-- **C73, ordered values.** On values that are not NaN (infinities included) each assertion macro throws exactly when the
relation in its name fails in the order of the extended real numbers. -/
theorem C73_macros_ordered (v l u : XR) (hv : v ≠ .nan) (hl : l ≠ .nan) (hu : u ≠ .nan) (c : Prop) :
    (assertTrue c = .ok () ↔ c) ∧ (assertFalse c = .ok () ↔ ¬ c) ∧
    (assertGeLt v l u = .ok () ↔ toEx l ≤ toEx v ∧ toEx v < toEx u) ∧
    (assertLt v u = .ok () ↔ toEx v < toEx u) ∧ (assertGe v l = .ok () ↔ toEx l ≤ toEx v) ∧
    (assertLe v u = .ok () ↔ toEx v ≤ toEx u) ∧ (assertGt v l = .ok () ↔ toEx l < toEx v) ∧
    (assertEq v l = .ok () ↔ toEx v = toEx l) ∧ (assertNe v l = .ok () ↔ toEx v ≠ toEx l) := by
  refine ⟨?_, ?_, ?_, ?_, ?_, ?_, ?_, ?_, ?_⟩
  · by_cases h : c <;> simp [assertTrue, h]
  · by_cases h : c <;> simp [assertFalse, h]
  · rw [← not_lt, ← not_le (a := toEx u), ← lt_toEx hv hl, ← le_toEx hu hv, ← not_or]
    by_cases h : v.lt l ∨ u.le v <;> simp [assertGeLt, h]
  · rw [← not_le, ← le_toEx hu hv]
    by_cases h : u.le v <;> simp [assertLt, h]
  · rw [← not_lt, ← lt_toEx hv hl]
    by_cases h : v.lt l <;> simp [assertGe, h]
  · rw [← not_lt, ← lt_toEx hu hv]
    by_cases h : u.lt v <;> simp [assertLe, h]
  · rw [← not_le, ← le_toEx hv hl]
    by_cases h : v.le l <;> simp [assertGt, h]
  · rw [← eq_toEx hv hl]
    by_cases h : v.eq l <;> simp [assertEq, h]
  · rw [ne_eq, ← eq_toEx hv hl]
    by_cases h : v.eq l <;> simp [assertNe, h]

/-- **C73, absolute tolerance.** On finite numbers in exact arithmetic `KINDR_ASSERT_NEAR(value, testValue, err)` passes exactly
if the two numbers are at most `|err|` apart; with any rounding it throws if one of the three is NaN, and for an infinite
value with a finite test value and tolerance. -/
theorem C73_near (A : XArith) (v t e : XR) :
    (∀ x y z : ℝ, assertNear XArith.exact (.fin x) (.fin y) (.fin z) = .ok () ↔ |x - y| ≤ |z|) ∧
    (v = .nan ∨ t = .nan ∨ e = .nan → assertNear A v t e = .throws) ∧
    (∀ b y z, v = .inf b → t = .fin y → e = .fin z → assertNear A v t e = .throws) := by
  refine ⟨?_, ?_, ?_⟩
  · intro x y z
    unfold assertNear
    rw [exact_sub, fin_abs, fin_abs, fin_le, abs_sub_comm]
    by_cases h : |x - y| ≤ |z| <;> simp [h]
  · rintro (rfl | rfl | rfl) <;> simp [assertNear]
  · rintro b y z rfl rfl rfl
    cases b <;> simp [assertNear, XArith.sub, XArith.add, XR.neg, XR.abs, XR.le, XR.lt, XR.eq]

/-- **C73, NaN.** With a NaN value, the checks written as a negated comparison pass: `GE_LT`, `LT`, `GE`, `LE`, `GT` and `NE`
accept NaN whatever the bounds are; only `EQ` rejects it. -/
theorem C73_macros_nan (l u : XR) :
    assertGeLt .nan l u = .ok () ∧ assertLt .nan u = .ok () ∧ assertGe .nan l = .ok () ∧ assertLe .nan u = .ok () ∧
    assertGt .nan l = .ok () ∧ assertNe .nan l = .ok () ∧ assertEq .nan l = .throws := by
  simp [assertGeLt, assertLt, assertGe, assertLe, assertGt, assertNe, assertEq, XR.le]

/-! ## C74 -/

lemma loopCols_none (ok : ℕ → ℕ → Bool) (r : ℕ) : ∀ fuel c0,
    loopCols ok r c0 fuel = none ↔ ∀ c, c0 ≤ c → c < c0 + fuel → ok r c = true
  | 0, c0 => by
      simp only [loopCols, true_iff]
      intro c h1 h2; omega
  | fuel + 1, c0 => by
      unfold loopCols
      by_cases h : ok r c0 = true
      · rw [if_pos h, loopCols_none ok r fuel (c0 + 1)]
        constructor
        · intro h' c h1 h2
          rcases Nat.eq_or_lt_of_le h1 with rfl | h3
          · exact h
          · exact h' c h3 (by omega)
        · intro h' c h1 h2
          exact h' c (by omega) (by omega)
      · rw [if_neg h]
        constructor
        · intro h'; cases h'
        · intro h'; exact absurd (h' c0 le_rfl (by omega)) h

lemma loopCols_some (ok : ℕ → ℕ → Bool) (r : ℕ) : ∀ fuel c0 p,
    loopCols ok r c0 fuel = some p → p.1 = r ∧ c0 ≤ p.2 ∧ p.2 < c0 + fuel ∧ ok r p.2 = false ∧
      ∀ c, c0 ≤ c → c < p.2 → ok r c = true
  | 0, c0, p, h => by cases h
  | fuel + 1, c0, p, h => by
      unfold loopCols at h
      by_cases h0 : ok r c0 = true
      · rw [if_pos h0] at h
        obtain ⟨a, b, c, d, e⟩ := loopCols_some ok r fuel (c0 + 1) p h
        refine ⟨a, by omega, by omega, d, ?_⟩
        intro c' h1 h2
        rcases Nat.eq_or_lt_of_le h1 with rfl | h3
        · exact h0
        · exact e c' h3 h2
      · rw [if_neg h0] at h
        cases h
        refine ⟨rfl, le_rfl, by simp, by simpa using h0, ?_⟩
        intro c' h1 h2
        simp only at h2
        omega

lemma loopRows_none (ok : ℕ → ℕ → Bool) (cols : ℕ) : ∀ fuel r0,
    loopRows ok cols r0 fuel = none ↔ ∀ r c, r0 ≤ r → r < r0 + fuel → c < cols → ok r c = true
  | 0, r0 => by
      simp only [loopRows, true_iff]
      intro r c h1 h2; omega
  | fuel + 1, r0 => by
      unfold loopRows
      cases hc : loopCols ok r0 0 cols with
      | none =>
        rw [loopCols_none] at hc
        simp only
        rw [loopRows_none ok cols fuel (r0 + 1)]
        constructor
        · intro h' r c h1 h2 h3
          rcases Nat.eq_or_lt_of_le h1 with rfl | h4
          · exact hc c (Nat.zero_le _) (by omega)
          · exact h' r c h4 (by omega) h3
        · intro h' r c h1 h2 h3
          exact h' r c (by omega) (by omega) h3
      | some p =>
        obtain ⟨_, _, a, b, _⟩ := loopCols_some ok r0 cols 0 p hc
        simp only [reduceCtorEq, false_iff]
        intro h'
        have := h' r0 p.2 le_rfl (by omega) (by omega)
        rw [b] at this; cases this

lemma loopRows_some (ok : ℕ → ℕ → Bool) (cols : ℕ) : ∀ fuel r0 p,
    loopRows ok cols r0 fuel = some p → r0 ≤ p.1 ∧ p.1 < r0 + fuel ∧ p.2 < cols ∧ ok p.1 p.2 = false ∧
      ∀ r c, r0 ≤ r → c < cols → (r < p.1 ∨ (r = p.1 ∧ c < p.2)) → ok r c = true
  | 0, r0, p, h => by cases h
  | fuel + 1, r0, p, h => by
      unfold loopRows at h
      cases hc : loopCols ok r0 0 cols with
      | none =>
        rw [hc] at h
        simp only at h
        rw [loopCols_none] at hc
        obtain ⟨a, b, c, d, e⟩ := loopRows_some ok cols fuel (r0 + 1) p h
        refine ⟨by omega, by omega, c, d, ?_⟩
        intro r c' h1 h2 h3
        rcases Nat.eq_or_lt_of_le h1 with rfl | h4
        · exact hc c' (Nat.zero_le _) (by omega)
        · exact e r c' h4 h2 h3
      | some q =>
        rw [hc] at h
        simp only [Option.some.injEq] at h
        subst h
        obtain ⟨a, b, c, d, e⟩ := loopCols_some ok r0 cols 0 q hc
        refine ⟨by omega, by omega, by omega, by rw [a]; exact d, ?_⟩
        intro r c' h1 h2 h3
        rcases h3 with h3 | ⟨h3, h4⟩
        · omega
        · have : r = r0 := by omega
          subst this
          exact e c' (Nat.zero_le _) h4

lemma matCheck_pass {α : Type} (ok : α → α → Bool) (a b : DynMat α) :
    matCheck ok a b = .pass ↔ AllCoeffs (fun x y => ok x y = true) a b := by
  unfold matCheck AllCoeffs
  by_cases h1 : a.rows = b.rows
  · by_cases h2 : a.cols = b.cols
    · rw [if_neg (not_not.mpr h1), if_neg (not_not.mpr h2)]
      cases hl : loopRows (fun r c => ok (a.coeff r c) (b.coeff r c)) a.cols 0 a.rows with
      | none =>
        rw [loopRows_none] at hl
        simp only [true_iff]
        exact ⟨h1, h2, fun r c hr hc => hl r c (Nat.zero_le _) (by omega) hc⟩
      | some p =>
        obtain ⟨_, a2, a3, a4, _⟩ := loopRows_some _ _ _ _ _ hl
        simp only [reduceCtorEq, false_iff]
        rintro ⟨_, _, h⟩
        have := h p.1 p.2 (by omega) a3
        rw [this] at a4; cases a4
    · rw [if_neg (not_not.mpr h1), if_pos h2]
      simp [h2]
  · rw [if_pos h1]
    simp [h1]

/-- **C74, verdict.** For matrices of every size, each matrix assertion passes exactly when the sizes agree and *every*
coefficient satisfies the criterion of the assertion. -/
theorem C74_verdict (A : XArith) (atol tol : XR) (a b : DynMat XR) :
    (mxAssertEqual a b = .pass ↔ AllCoeffs (fun x y => x.eq y) a b) ∧
    (mxAssertNear A tol a b = .pass ↔ AllCoeffs (fun x y => (A.sub x y).abs.le tol) a b) ∧
    (mxAssertRelative A tol a b = .pass ↔ AllCoeffs (fun x y => A.compareRelative x y tol = true) a b) ∧
    (mxAssertAbsRel A atol tol a b = .pass ↔
      AllCoeffs (fun x y => (A.sub y x).abs.le (A.add (A.mul x.abs tol) atol)) a b) ∧
    (matIsFinite a = .ok () ↔ ∀ r c, r < a.rows → c < a.cols → (a.coeff r c).IsFinite) := by
  refine ⟨?_, ?_, ?_, ?_, ?_⟩
  · unfold mxAssertEqual; rw [matCheck_pass]; simp only [decide_eq_true_eq]
  · unfold mxAssertNear; rw [matCheck_pass]; simp only [decide_eq_true_eq]
  · unfold mxAssertRelative; rw [matCheck_pass]
  · unfold mxAssertAbsRel; rw [matCheck_pass]; simp only [decide_eq_true_eq]
  · unfold matIsFinite
    cases hl : loopRows (fun r c => decide (a.coeff r c).IsFinite) a.cols 0 a.rows with
    | none =>
      rw [loopRows_none] at hl
      simp only [true_iff]
      exact fun r c hr hc => of_decide_eq_true (hl r c (Nat.zero_le _) (by omega) hc)
    | some p =>
      obtain ⟨_, a2, a3, a4, _⟩ := loopRows_some _ _ _ _ _ hl
      simp only [reduceCtorEq, false_iff]
      intro h
      exact of_decide_eq_false a4 (h p.1 p.2 (by omega) a3)

/-- **C74, diagnosis.** The reported position is the first offending coefficient in row-major order, and a size error is
reported exactly if the sizes differ. -/
theorem C74_diagnosis {α : Type} (ok : α → α → Bool) (a b : DynMat α) :
    (matCheck ok a b = .sizeMismatch ↔ a.rows ≠ b.rows ∨ a.cols ≠ b.cols) ∧
    (∀ r c, matCheck ok a b = .failAt r c ↔ a.rows = b.rows ∧ a.cols = b.cols ∧ r < a.rows ∧ c < a.cols ∧
      ok (a.coeff r c) (b.coeff r c) = false ∧
      ∀ r' c', c' < a.cols → (r' < r ∨ (r' = r ∧ c' < c)) → ok (a.coeff r' c') (b.coeff r' c') = true) := by
  unfold matCheck
  by_cases h1 : a.rows = b.rows
  · by_cases h2 : a.cols = b.cols
    · rw [if_neg (not_not.mpr h1), if_neg (not_not.mpr h2)]
      cases hl : loopRows (fun r c => ok (a.coeff r c) (b.coeff r c)) a.cols 0 a.rows with
      | none =>
        rw [loopRows_none] at hl
        simp only [reduceCtorEq, false_iff]
        refine ⟨by simp [h1, h2], ?_⟩
        rintro r c ⟨_, _, hr, hc, hf, _⟩
        have := hl r c (Nat.zero_le _) (by omega) hc
        rw [hf] at this; cases this
      | some p =>
        obtain ⟨_, a2, a3, a4, a5⟩ := loopRows_some _ _ _ _ _ hl
        obtain ⟨pr, pc⟩ := p
        simp only [reduceCtorEq, false_iff, MatCheck.failAt.injEq] at *
        refine ⟨by simp [h1, h2], ?_⟩
        intro r c
        constructor
        · rintro ⟨rfl, rfl⟩
          exact ⟨h1, h2, by omega, a3, a4, fun r' c' hc' hlt => a5 r' c' (Nat.zero_le _) hc' hlt⟩
        · rintro ⟨_, _, hr, hc, hf, hall⟩
          rcases lt_trichotomy pr r with h | h | h
          · have := hall pr pc a3 (Or.inl h)
            rw [a4] at this; cases this
          · subst h
            rcases lt_trichotomy pc c with h | h | h
            · have := hall pr pc a3 (Or.inr ⟨rfl, h⟩)
              rw [a4] at this; cases this
            · exact ⟨rfl, h⟩
            · have := a5 pr c (Nat.zero_le _) hc (Or.inr ⟨rfl, h⟩)
              rw [hf] at this; cases this
          · have := a5 r c (Nat.zero_le _) hc (Or.inl h)
            rw [hf] at this; cases this
    · rw [if_neg (not_not.mpr h1), if_pos h2]
      simp [h2]
  · rw [if_pos h1]
    simp [h1]

/-- **C74, NaN.** Matrices that contain a NaN are rejected by `assertEqual`, `assertNear`, `KINDR_ASSERT_DOUBLE_MX_EQ_ABS_REL`
and `KINDR_ASSERT_MAT_IS_FINITE`, but a matrix of NaNs passes the relative check against every matrix of the same size. -/
theorem C74_nan (A : XArith) (atol tol : XR) (a b : DynMat XR) :
    (MatHasNaN a → mxAssertEqual a b ≠ .pass ∧ mxAssertNear A tol a b ≠ .pass ∧ mxAssertAbsRel A atol tol a b ≠ .pass ∧
      matIsFinite a = .throws) ∧
    (a.rows = b.rows → a.cols = b.cols → (∀ r c, r < a.rows → c < a.cols → a.coeff r c = .nan) →
      mxAssertRelative A tol a b = .pass) := by
  obtain ⟨v1, v2, v3, v4, v5⟩ := C74_verdict A atol tol a b
  refine ⟨?_, ?_⟩
  · rintro ⟨r, c, hr, hc, hn⟩
    refine ⟨?_, ?_, ?_, ?_⟩
    · intro h
      have := (v1.mp h).2.2 r c hr hc
      rw [hn] at this; simp at this
    · intro h
      have := (v2.mp h).2.2 r c hr hc
      rw [hn] at this; simp at this
    · intro h
      have := (v4.mp h).2.2 r c hr hc
      rw [hn] at this; simp at this
    · cases hm : matIsFinite a with
      | throws => rfl
      | ok u =>
        have := v5.mp hm r c hr hc
        rw [hn] at this; exact absurd this (fun h => h)
  · intro h1 h2 hall
    rw [v3]
    refine ⟨h1, h2, fun r c hr hc => ?_⟩
    refine C71_compareRelative_nonfinite _ _ _ _ (Or.inl ?_)
    rw [hall r c hr hc]; exact fun h => h

/-- Non-vacuity: a 2×3 matrix with one wrong entry is reported at that entry. -/
example : mxAssertEqual ⟨2, 3, fun _ _ => .fin 1⟩ ⟨2, 3, fun r c => if r = 1 ∧ c = 2 then .nan else .fin 1⟩ = .failAt 1 2 := by
  refine ((C74_diagnosis _ _ _).2 1 2).mpr ⟨rfl, rfl, by norm_num, by norm_num, by simp [XR.eq], ?_⟩
  rintro r c hc (h | ⟨rfl, h⟩)
  · have : ¬ (r = 1 ∧ c = 2) := by omega
    simp [this, XR.eq]
  · have : c ≠ 2 := by omega
    simp [this, XR.eq]

end Kindr
