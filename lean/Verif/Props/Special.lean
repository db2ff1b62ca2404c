import Verif.Spec.Special

/-!
# C71, C72: NaN and infinities
-/

set_option autoImplicit false

open Classical

noncomputable section
namespace Kindr
open Spec

namespace XArith
variable {A : XArith}

@[simp] lemma fin_isFinite (x : ℝ) : (XR.fin x).IsFinite := trivial
@[simp] lemma inf_isFinite (b : Bool) : ¬ (XR.inf b).IsFinite := fun h => h
@[simp] lemma nan_isFinite : ¬ (XR.nan).IsFinite := fun h => h

@[simp] lemma add_nan (a : XR) : A.add a .nan = .nan := by cases a <;> rfl
@[simp] lemma nan_add (a : XR) : A.add .nan a = .nan := by cases a <;> rfl
@[simp] lemma sub_nan (a : XR) : A.sub a .nan = .nan := by cases a <;> rfl
@[simp] lemma nan_sub (a : XR) : A.sub .nan a = .nan := by cases a <;> rfl
@[simp] lemma mul_nan (a : XR) : A.mul a .nan = .nan := by cases a <;> rfl
@[simp] lemma nan_mul (a : XR) : A.mul .nan a = .nan := by cases a <;> rfl
@[simp] lemma div_nan (a : XR) : A.div a .nan = .nan := by cases a <;> rfl
@[simp] lemma nan_div (a : XR) : A.div .nan a = .nan := by cases a <;> rfl
@[simp] lemma sqrt_nan : A.sqrt .nan = .nan := rfl
@[simp] lemma sin_nan : A.sin .nan = .nan := rfl
@[simp] lemma cos_nan : A.cos .nan = .nan := rfl
@[simp] lemma atan2_nan (a : XR) : A.atan2 a .nan = .nan := by cases a <;> rfl
@[simp] lemma nan_atan2 (a : XR) : A.atan2 .nan a = .nan := by cases a <;> rfl
@[simp] lemma neg_nan : XR.neg .nan = .nan := rfl
@[simp] lemma abs_nan : XR.abs .nan = .nan := rfl
@[simp] lemma lt_nan (a : XR) : ¬ XR.lt a .nan := by cases a <;> exact fun h => h
@[simp] lemma nan_lt (a : XR) : ¬ XR.lt .nan a := by cases a <;> exact fun h => h
@[simp] lemma eq_nan (a : XR) : ¬ XR.eq a .nan := by cases a <;> exact fun h => h
@[simp] lemma nan_eq (a : XR) : ¬ XR.eq .nan a := by cases a <;> exact fun h => h
@[simp] lemma le_nan (a : XR) : ¬ XR.le a .nan := by simp [XR.le]
@[simp] lemma nan_le (a : XR) : ¬ XR.le .nan a := by simp [XR.le]

lemma add_left {a : XR} (b : XR) (h : ¬ a.IsFinite) : ¬ (A.add a b).IsFinite := by
  cases a <;> cases b <;> simp_all [add]
  split_ifs <;> simp
lemma add_right (a : XR) {b : XR} (h : ¬ b.IsFinite) : ¬ (A.add a b).IsFinite := by
  cases a <;> cases b <;> simp_all [add]
  split_ifs <;> simp
lemma sub_left {a : XR} (b : XR) (h : ¬ a.IsFinite) : ¬ (A.sub a b).IsFinite := add_left _ h
lemma neg_nf {b : XR} (h : ¬ b.IsFinite) : ¬ b.neg.IsFinite := by cases b <;> simp_all [XR.neg]
lemma sub_right (a : XR) {b : XR} (h : ¬ b.IsFinite) : ¬ (A.sub a b).IsFinite := add_right _ (neg_nf h)
lemma mul_left {a : XR} (b : XR) (h : ¬ a.IsFinite) : ¬ (A.mul a b).IsFinite := by
  cases a <;> cases b <;> simp_all [mul]
  split_ifs <;> simp
lemma mul_right (a : XR) {b : XR} (h : ¬ b.IsFinite) : ¬ (A.mul a b).IsFinite := by
  cases a <;> cases b <;> simp_all [mul]
  split_ifs <;> simp
lemma sqrt_nf {a : XR} (h : ¬ a.IsFinite) : ¬ (A.sqrt a).IsFinite := by
  cases a <;> simp_all [sqrt]
  split_ifs <;> simp

/-- `sqrt` never returns minus infinity, so a non-finite square root is not below any finite number. -/
lemma sqrt_not_lt {a : XR} (h : ¬ a.IsFinite) (x : ℝ) : ¬ (A.sqrt a).lt (.fin x) := by
  cases a with
  | fin => exact absurd trivial h
  | inf b => cases b <;> simp [sqrt, XR.lt]
  | nan => simp

lemma normSq3_nf {v : XV3} (h : NonFinite3 v) : ¬ (A.normSq3 v).IsFinite := by
  rcases h with h | h | h
  · exact add_left _ (mul_left _ h)
  · exact add_right _ (add_left _ (mul_left _ h))
  · exact add_right _ (add_right _ (mul_left _ h))

lemma norm3_nf {v : XV3} (h : NonFinite3 v) : ¬ (A.norm3 v).IsFinite := sqrt_nf (normSq3_nf h)

lemma norm3_nan {v : XV3} (h : v.x = .nan ∨ v.y = .nan ∨ v.z = .nan) : A.norm3 v = .nan := by
  rcases h with h | h | h <;> simp [norm3, normSq3, h]

/-! ## Relative comparison and debug checks -/

lemma compareRelative_nf {a b : XR} (h : ¬ a.IsFinite ∨ ¬ b.IsFinite) (tol : XR) : A.compareRelative a b tol = true := by
  have key : A.div (A.sub a b).abs (a.abs.max b.abs) = .nan := by
    cases a with
    | nan => simp
    | fin x =>
      cases b with
      | nan => simp
      | fin y => simp at h
      | inf c => cases c <;> simp [sub, add, XR.neg, XR.abs, XR.max, XR.lt, div]
    | inf c =>
      cases b with
      | nan => simp
      | fin y => cases c <;> simp [sub, add, XR.neg, XR.abs, XR.max, XR.lt, div]
      | inf d => cases c <;> cases d <;> simp [sub, add, XR.neg, XR.abs, XR.max, XR.lt, div]
  simp only [compareRelative, key, lt_nan, if_false, ite_self]

end XArith

open XArith

/-- **C71, relative comparison.** `compareRelative(a, b, tol)` returns true whenever one of the two numbers is infinite or NaN,
whatever the other number and the tolerance are. -/
theorem C71_compareRelative_nonfinite (A : XArith) (a b tol : XR) (h : ¬ a.IsFinite ∨ ¬ b.IsFinite) :
    A.compareRelative a b tol = true := compareRelative_nf h tol

@[simp] lemma fin_lt (x y : ℝ) : (XR.fin x).lt (.fin y) ↔ x < y := Iff.rfl
@[simp] lemma fin_eq (x y : ℝ) : (XR.fin x).eq (.fin y) ↔ x = y := Iff.rfl
@[simp] lemma fin_le (x y : ℝ) : (XR.fin x).le (.fin y) ↔ x ≤ y := le_iff_lt_or_eq.symm
@[simp] lemma fin_neg (x : ℝ) : (XR.fin x).neg = .fin (-x) := rfl
@[simp] lemma fin_abs (x : ℝ) : (XR.fin x).abs = .fin |x| := rfl
@[simp] lemma fin_floor (x : ℝ) : (XR.fin x).floor = .fin ⌊x⌋ := rfl
lemma fin_max (x y : ℝ) : (XR.fin x).max (.fin y) = .fin (max x y) := by
  simp only [XR.max, fin_lt]
  split_ifs with h1
  · rw [max_eq_right h1.le]
  · rw [max_eq_left (not_lt.mp h1)]
@[simp] lemma exact_add (x y : ℝ) : XArith.exact.add (.fin x) (.fin y) = .fin (x + y) := rfl
@[simp] lemma exact_sub (x y : ℝ) : XArith.exact.sub (.fin x) (.fin y) = .fin (x - y) := by
  rw [sub_eq_add_neg]; rfl
@[simp] lemma exact_mul (x y : ℝ) : XArith.exact.mul (.fin x) (.fin y) = .fin (x * y) := rfl
lemma exact_div {x y : ℝ} (h : y ≠ 0) : XArith.exact.div (.fin x) (.fin y) = .fin (x / y) := by
  simp only [XArith.div, if_neg h]; rfl
lemma exact_sqrt {x : ℝ} (h : 0 ≤ x) : XArith.exact.sqrt (.fin x) = .fin (Real.sqrt x) := by
  simp only [XArith.sqrt, if_neg (not_lt.mpr h)]; rfl
@[simp] lemma exact_sin (x : ℝ) : XArith.exact.sin (.fin x) = .fin (Real.sin x) := rfl
@[simp] lemma exact_cos (x : ℝ) : XArith.exact.cos (.fin x) = .fin (Real.cos x) := rfl
@[simp] lemma exact_atan2 (y x : ℝ) : XArith.exact.atan2 (.fin y) (.fin x) = .fin (atan2 y x) := rfl

lemma exact_compareRelative (a b tol : ℝ) :
    XArith.exact.compareRelative (.fin a) (.fin b) (.fin tol) = compareRelative a b tol := by
  by_cases h : (|a| < 1 / 10 ^ 15 ∧ |b| < 1 / 10 ^ 15) ∨ (|a| = 0 ∧ |b| < 1 / 10 ^ 6) ∨ (|b| = 0 ∧ |a| < 1 / 10 ^ 6)
  · unfold XArith.compareRelative compareRelative
    simp only [fin_abs, fin_lt, fin_eq]
    rw [if_pos h, if_pos h]
  · have hne : max |a| |b| ≠ 0 := by
      intro h0
      apply h
      left
      have h1 := le_max_left |a| |b|
      have h2 := le_max_right |a| |b|
      rw [h0] at h1 h2
      exact ⟨h1.trans_lt (by norm_num), h2.trans_lt (by norm_num)⟩
    unfold XArith.compareRelative compareRelative
    simp only [fin_abs, fin_lt, fin_eq, fin_max, exact_sub, exact_mul, exact_div hne]

lemma exact_norm3 (v : V3) : XArith.exact.norm3 (emb3 v) = .fin v.norm := by
  have h0 : 0 ≤ v.x * v.x + v.y * v.y + v.z * v.z :=
    add_nonneg (add_nonneg (mul_self_nonneg _) (mul_self_nonneg _)) (mul_self_nonneg _)
  simp only [XArith.norm3, XArith.normSq3, emb3, exact_mul, exact_add, ← add_assoc, exact_sqrt h0]
  rfl

lemma exact_quatNorm (q : Quat) : XArith.exact.quatNorm (embQ q) = .fin q.norm := by
  have h0 : 0 ≤ q.w * q.w + q.x * q.x + q.y * q.y + q.z * q.z :=
    add_nonneg (add_nonneg (add_nonneg (mul_self_nonneg _) (mul_self_nonneg _)) (mul_self_nonneg _)) (mul_self_nonneg _)
  simp only [XArith.quatNorm, embQ, exact_mul, exact_add, exact_sqrt h0]
  rfl

/-- **C71, finite numbers.** On finite numbers and in exact arithmetic the special-value model is the real-number model, so all
theorems about `compareRelative` and the constructors' debug checks apply. -/
theorem C71_finite_agrees (a b tol : ℝ) (q : Quat) (x : AngAx) (m : M3) :
    XArith.exact.compareRelative (.fin a) (.fin b) (.fin tol) = compareRelative a b tol ∧
    (XArith.exact.quatCtorDbg (embQ q) = .ok (embQ q) ↔ quatCtorDbg q = .ok q) ∧
    (XArith.exact.aaCtorDbg (embA x) = .ok (embA x) ↔ aaCtorDbg x = .ok x) ∧
    (XArith.exact.matCtorDbg (embM m) = .ok (embM m) ↔ matCtorDbg m = .ok m) := by
  have hsc : ∀ {α β : Type} (a b t : ℝ) (x : α) (y : β),
      (XArith.exact.assertScalarNearDbg (.fin a) (.fin b) (.fin t) (.ok x) = .ok x ↔ assertScalarNearDbg a b t (.ok y) = .ok y) := by
    intro α β a b t x y
    unfold XArith.assertScalarNearDbg assertScalarNearDbg
    rw [exact_compareRelative]
    split_ifs <;> simp
  refine ⟨exact_compareRelative a b tol, ?_, ?_, ?_⟩
  · unfold XArith.quatCtorDbg quatCtorDbg
    rw [exact_quatNorm]; exact hsc _ _ _ _ _
  · unfold XArith.aaCtorDbg aaCtorDbg
    have : (embA x).axis = emb3 x.axis := rfl
    rw [this, exact_norm3]; exact hsc _ _ _ _ _
  · have hd : XArith.exact.det (embM m) = .fin m.det := by
      simp only [XArith.det, embM, exact_mul, exact_sub, exact_add, M3.det]
    have hall : (∀ i j : Fin 3, XArith.exact.compareRelative (XArith.exact.dot3 (XArith.row (embM m) i) (XArith.row (embM m) j))
        (if i = j then .fin 1 else .fin 0) (.fin (1 / 10000)) = true) ↔ matNear (m * m.transpose) 1 (1 / 10000) = true := by
      simp [Fin.forall_fin_succ, matNear, Bool.and_eq_true, XArith.row, embM, XArith.dot3, exact_compareRelative, and_assoc]
      trivial
    unfold XArith.matCtorDbg matCtorDbg
    rw [hd]
    by_cases h : matNear (m * m.transpose) 1 (1 / 10000) = true
    · rw [if_pos (hall.mpr h), if_pos h]; exact hsc _ _ _ _ _
    · rw [if_neg (fun h' => h (hall.mp h')), if_neg h]
      simp

/-- **C71, debug checks accept non-finite rotations.** In debug builds the constructors accept every quaternion with a non-finite
coefficient, every `AngleAxis` whose axis has one, and every matrix with a non-finite entry in each row; and every finite
quaternion for which the square of a coefficient overflows. -/
theorem C71_checks_accept_nonfinite (A : XArith) (q : XQuat) (a : XAA) (m : XM3) :
    ((¬ q.w.IsFinite ∨ NonFinite3 q.vec) → A.quatCtorDbg q = .ok q) ∧
    (NonFinite3 a.axis → A.aaCtorDbg a = .ok a) ∧
    ((∀ i, NonFinite3 (XArith.row m i)) → A.matCtorDbg m = .ok m) ∧
    (∀ w x y z : ℝ, q = ⟨.fin w, .fin x, .fin y, .fin z⟩ →
      (¬ (A.rnd (w * w)).IsFinite ∨ ¬ (A.rnd (x * x)).IsFinite ∨ ¬ (A.rnd (y * y)).IsFinite ∨ ¬ (A.rnd (z * z)).IsFinite) →
      A.quatCtorDbg q = .ok q) := by
  have fin : ∀ {α : Type} {n : XR} (t : XR) (x : α), ¬ n.IsFinite → A.assertScalarNearDbg n (.fin 1) t (.ok x) = .ok x := by
    intro α n t x h
    unfold XArith.assertScalarNearDbg
    rw [if_pos (compareRelative_nf (Or.inl h) t)]
  refine ⟨fun h => fin _ _ ?_, fun h => fin _ _ (norm3_nf h), fun h => ?_, ?_⟩
  · refine sqrt_nf ?_
    rcases h with h | h | h | h
    · exact add_left _ (add_left _ (add_left _ (mul_left _ h)))
    · exact add_left _ (add_left _ (add_right _ (mul_left _ h)))
    · exact add_left _ (add_right _ (mul_left _ h))
    · exact add_right _ (mul_left _ h)
  · unfold XArith.matCtorDbg
    rw [if_pos]
    · refine fin _ _ ?_
      have h0 := h 0
      rcases h0 with h0 | h0 | h0
      · exact add_left _ (sub_left _ (mul_left _ h0))
      · exact add_left _ (sub_right _ (mul_left _ h0))
      · exact add_right _ (mul_left _ h0)
    · intro i j
      refine compareRelative_nf (Or.inl ?_) _
      rcases h i with h0 | h0 | h0
      · exact add_left _ (add_left _ (mul_left _ h0))
      · exact add_left _ (add_right _ (mul_left _ h0))
      · exact add_right _ (mul_left _ h0)
  · rintro w x y z rfl h
    refine fin _ _ (sqrt_nf ?_)
    rcases h with h | h | h | h
    · exact add_left _ (add_left _ (add_left _ h))
    · exact add_left _ (add_left _ (add_right _ h))
    · exact add_left _ (add_right _ h)
    · exact add_right _ h

/-- Non-vacuity of the overflow case: with the range of `double`, the quaternion `(1e200, 0, 0, 0)` is accepted. -/
example : (XArith.overflowing (2 ^ 1024) (by positivity)).quatCtorDbg ⟨.fin (10 ^ 200), .fin 0, .fin 0, .fin 0⟩ =
    .ok ⟨.fin (10 ^ 200), .fin 0, .fin 0, .fin 0⟩ := by
  refine (C71_checks_accept_nonfinite _ _ idAA ⟨.nan, .nan, .nan, .nan, .nan, .nan, .nan, .nan, .nan⟩).2.2.2 _ _ _ _ rfl
    (Or.inl ?_)
  have : (2 : ℝ) ^ 1024 ≤ |(10 : ℝ) ^ 200 * 10 ^ 200| := by
    rw [abs_of_pos (by positivity)]
    calc (2 : ℝ) ^ 1024 = (2 ^ 8) ^ 128 := by rw [← pow_mul]
      _ ≤ (10 ^ 3) ^ 128 := by gcongr; norm_num
      _ = 10 ^ 384 := by rw [← pow_mul]
      _ ≤ 10 ^ 400 := by gcongr <;> norm_num
      _ = _ := by rw [← pow_add]
  have h2 : (XArith.overflowing (2 ^ 1024) (by positivity)).rnd ((10 : ℝ) ^ 200 * 10 ^ 200) =
      .inf (decide ((10 : ℝ) ^ 200 * 10 ^ 200 < 0)) := if_pos this
  rw [h2]; exact fun h => h

/-! ## C72 -/

lemma wrapPosNegPI_nf {A : XArith} {a : XR} (h : ¬ a.IsFinite) : A.wrapPosNegPI a = .nan := by
  have hpi := Real.pi_pos
  have h0 : ¬ (XR.fin (2 * Real.pi)).eq (.fin 0) := by
    rw [fin_eq]; positivity
  have key : ∀ b : XR, ¬ b.IsFinite → A.floatingPointModulo b (.fin (2 * Real.pi)) = .nan := by
    intro b hb
    have hm : A.sub b (A.mul (.fin (2 * Real.pi)) (A.div b (.fin (2 * Real.pi))).floor) = .nan := by
      cases b with
      | fin => exact absurd trivial hb
      | nan => simp
      | inf c =>
        have h1 : ¬ 2 * Real.pi < 0 := by linarith
        have h2 : 2 * Real.pi ≠ 0 := by positivity
        simp [XArith.div, XR.floor, XArith.mul, XArith.sub, XArith.add, XR.neg, h1]
    unfold XArith.floatingPointModulo
    simp only [h0, if_false, hm, le_nan, nan_lt, nan_le, lt_nan, ite_self]
  have ha : ¬ (A.add a (.fin Real.pi)).IsFinite := add_left _ h
  unfold XArith.wrapPosNegPI
  rw [key _ ha, nan_sub]

lemma aaGetUnique_nf {A : XArith} {a : XAA} (h : ¬ a.angle.IsFinite) : A.aaGetUnique a = idAA := by
  unfold XArith.aaGetUnique
  simp only [wrapPosNegPI_nf h, lt_nan, nan_lt, if_false]
  rfl

lemma rvOfAa_id {A : XArith} : A.rvOfAa idAA = zero3 := by
  simp [XArith.rvOfAa, XArith.smulV, idAA, XArith.mul, A.rnd_zero, zero3]

lemma rvGetUnique_nf {A : XArith} {P : Prec} {r : XV3} (h : NonFinite3 r) : A.rvGetUnique P r = zero3 := by
  have h1 : ¬ (A.norm3 r).lt (.fin P.dp) := sqrt_not_lt (normSq3_nf h) _
  unfold XArith.rvGetUnique XArith.aaOfRv
  simp only [h1, if_false]
  rw [aaGetUnique_nf (norm3_nf h), rvOfAa_id]

/-- **C72, unique form.** `getUnique()` turns every `AngleAxis` with a non-finite angle and every `RotationVector` with a
non-finite coefficient into the identity, without any error. -/
theorem C72_getUnique_nonfinite (A : XArith) (P : Prec) (a : XAA) (r : XV3) :
    (¬ a.angle.IsFinite → A.aaGetUnique a = idAA) ∧ (NonFinite3 r → A.rvGetUnique P r = zero3) :=
  ⟨aaGetUnique_nf, rvGetUnique_nf⟩

lemma nf_of_nan {v : XV3} (h : v.x = .nan ∨ v.y = .nan ∨ v.z = .nan) : NonFinite3 v := by
  rcases h with h | h | h
  · left; rw [h]; simp
  · right; left; rw [h]; simp
  · right; right; rw [h]; simp

lemma rvOfQuat_nf {A : XArith} {P : Prec} {q : XQuat} (h : HasNaN .quat q) : NonFinite3 (A.rvOfQuat P q) := by
  unfold XArith.rvOfQuat
  rcases h with h | h
  · have h1 : A.sub (.fin 1) (A.mul q.w q.w) = .nan := by rw [h]; simp
    rw [if_neg (by rw [h1]; simp)]
    left
    simp [h, XArith.smulV]
  · have hn : ∀ s : XR, NonFinite3 (A.smulV s q.vec) := by
      intro s
      apply nf_of_nan
      rcases h with h | h | h
      · left; simp [XArith.smulV, XQuat.vec, h]
      · right; left; simp [XArith.smulV, XQuat.vec, h]
      · right; right; simp [XArith.smulV, XQuat.vec, h]
    split_ifs <;> exact hn _

lemma quatOfMat_nan {A : XArith} {m : XM3} (h : HasNaN .mat m) : HasNaN .quat (A.quatOfMat m) := by
  unfold HasNaN at h
  rcases h with h | h | h | h | h | h | h | h | h <;>
    · unfold XArith.quatOfMat HasNaN
      simp only [h]
      split_ifs <;> simp_all

lemma quatMul_nan {A : XArith} {a b : XQuat} (h : HasNaN .quat a ∨ HasNaN .quat b) :
    A.quatMul a b = ⟨.nan, .nan, .nan, .nan⟩ := by
  unfold HasNaN at h
  rcases h with (h | h | h | h) | (h | h | h | h) <;> simp [XArith.quatMul, h]

lemma quatOfAa_nan {A : XArith} {a : XAA} (h : a.angle = .nan) : HasNaN .quat (A.quatOfAa a) := by
  left; simp [XArith.quatOfAa, h]

lemma rvOfAa_aaOfQuat_nan {A : XArith} {q : XQuat} (h : q = ⟨.nan, .nan, .nan, .nan⟩) : NonFinite3 (A.rvOfAa (A.aaOfQuat q)) := by
  subst h
  left
  simp [XArith.aaOfQuat, XArith.norm3, XArith.normSq3, XQuat.vec, XArith.rvOfAa, XArith.smulV]

lemma quatOfThree_nan {A : XArith} {a b c : XAA} (h : a.angle = .nan ∨ b.angle = .nan ∨ c.angle = .nan) :
    A.quatOfThree a b c = ⟨.nan, .nan, .nan, .nan⟩ := by
  unfold XArith.quatOfThree
  rcases h with h | h | h
  · rw [quatMul_nan (a := A.quatMul _ _)]
    left; rw [quatMul_nan (Or.inl (quatOfAa_nan h))]; left; rfl
  · rw [quatMul_nan (a := A.quatMul _ _)]
    left; rw [quatMul_nan (Or.inr (quatOfAa_nan h))]; left; rfl
  · rw [quatMul_nan (Or.inr (quatOfAa_nan h))]

lemma rvOf_nf {A : XArith} {P : Prec} : ∀ (k : Kind) (r : XRep k), HasNaN k r → NonFinite3 (A.rvOf P k r)
  | .quat, q, h => rvOfQuat_nf h
  | .mat, m, h => rvOfQuat_nf (quatOfMat_nan h)
  | .aa, a, h => by
      apply nf_of_nan
      rcases h with h | h | h | h
      · left; simp [XArith.rvOf, XArith.rvOfAa, XArith.smulV, h]
      · left; simp [XArith.rvOf, XArith.rvOfAa, XArith.smulV, h]
      · right; left; simp [XArith.rvOf, XArith.rvOfAa, XArith.smulV, h]
      · right; right; simp [XArith.rvOf, XArith.rvOfAa, XArith.smulV, h]
  | .rv, r, h => nf_of_nan h
  | .xyz, e, h => rvOfAa_aaOfQuat_nan (quatOfThree_nan h)
  | .zyx, e, h => rvOfAa_aaOfQuat_nan (quatOfThree_nan h)

/-- **C72, logarithm.** For every rotation class, `logarithmicMap()` of a rotation with a NaN coefficient returns the zero vector,
the logarithm of the identity. -/
theorem C72_logarithmicMap_nan (A : XArith) (P : Prec) (k : Kind) (r : XRep k) (h : HasNaN k r) :
    A.logarithmicMap P k r = zero3 := rvGetUnique_nf (rvOf_nf k r h)

/-- **C72, contradictory comparisons.** If one of two quaternions has a NaN coefficient, then `boxMinus` reports no
difference at all, while `isNear` is false for every tolerance and `==` is false. -/
theorem C72_quaternion_nan (A : XArith) (P : Prec) (a b : XQuat) (tol : XR) (h : HasNaN .quat a ∨ HasNaN .quat b) :
    A.boxMinusQuat P a b = zero3 ∧ A.isNearQuat a b tol = false ∧ XArith.quatEq a b = false := by
  have hb : HasNaN .quat b → HasNaN .quat (XArith.quatInverted b) := by
    rintro (h | h | h | h)
    · left; exact h
    · right; left; simp [XArith.quatInverted, h]
    · right; right; left; simp [XArith.quatInverted, h]
    · right; right; right; simp [XArith.quatInverted, h]
  have hm : A.quatMul a (XArith.quatInverted b) = ⟨.nan, .nan, .nan, .nan⟩ := quatMul_nan (h.imp id hb)
  have hu : ∀ q : XQuat, HasNaN .quat q → HasNaN .quat (XArith.quatGetUnique q) := by
    intro q hq
    have hn : HasNaN .quat q.neg := by
      rcases hq with h | h | h | h
      · left; simp [XQuat.neg, h]
      · right; left; simp [XQuat.neg, h]
      · right; right; left; simp [XQuat.neg, h]
      · right; right; right; simp [XQuat.neg, h]
    unfold XArith.quatGetUnique
    simp only
    split_ifs <;> assumption
  refine ⟨?_, ?_, ?_⟩
  · unfold XArith.boxMinusQuat
    rw [hm]
    exact C72_logarithmicMap_nan A P .quat _ (Or.inl rfl)
  · unfold XArith.isNearQuat XArith.disparityAngleQuat
    rw [hm]
    have h1 : (A.aaOfQuat ⟨.nan, .nan, .nan, .nan⟩).angle = .nan := by
      simp [XArith.aaOfQuat, XArith.norm3, XArith.normSq3, XQuat.vec]
    have h2 := wrapPosNegPI_nf (A := A) (a := .nan) (by simp)
    unfold XArith.wrapPosNegPI at h2
    rw [h1, h2]
    simp
  · unfold XArith.quatEq
    rw [decide_eq_false_iff_not]
    rintro ⟨h1, h2, h3, h4⟩
    rcases h with h | h
    · rcases hu a h with h | h | h | h
      · rw [h] at h1; exact nan_eq _ h1
      · rw [h] at h2; exact nan_eq _ h2
      · rw [h] at h3; exact nan_eq _ h3
      · rw [h] at h4; exact nan_eq _ h4
    · rcases hu b h with h | h | h | h
      · rw [h] at h1; exact eq_nan _ h1
      · rw [h] at h2; exact eq_nan _ h2
      · rw [h] at h3; exact eq_nan _ h3
      · rw [h] at h4; exact eq_nan _ h4

/-- The constants used by `wrapPosNegPI(0)` are represented exactly, as they are in every
binary floating-point format (with `M_PI` for `π`). -/
def ConstantsExact (A : XArith) : Prop :=
  A.rnd Real.pi = .fin Real.pi ∧ A.rnd (1 / 2) = .fin (1 / 2)

lemma aaGetUnique_id {A : XArith} (hA : ConstantsExact A) : A.aaGetUnique idAA = idAA := by
  obtain ⟨h1, h2⟩ := hA
  have hpi := Real.pi_pos
  have hw : A.wrapPosNegPI (.fin 0) = .fin 0 := by
    have e1 : A.add (.fin 0) (.fin Real.pi) = .fin Real.pi := by simp [XArith.add, h1]
    have e2 : A.div (.fin Real.pi) (.fin (2 * Real.pi)) = .fin (1 / 2) := by
      have : Real.pi / (2 * Real.pi) = 1 / 2 := by field_simp
      simp only [XArith.div, this, h2]
      rw [if_neg (by positivity)]
    have e3 : (XR.fin (1 / 2)).floor = .fin 0 := by
      have : ⌊(1 / 2 : ℝ)⌋ = 0 := by norm_num
      simp only [fin_floor, this, Int.cast_zero]
    have e4 : A.mul (.fin (2 * Real.pi)) (.fin 0) = .fin 0 := by simp [XArith.mul, A.rnd_zero]
    have e5 : A.sub (.fin Real.pi) (.fin 0) = .fin Real.pi := by simp [XArith.sub, XArith.add, h1]
    have e6 : A.sub (.fin Real.pi) (.fin Real.pi) = .fin 0 := by simp [XArith.sub, XArith.add, A.rnd_zero]
    unfold XArith.wrapPosNegPI XArith.floatingPointModulo
    rw [e1, e2, e3, e4, e5]
    have c1 : ¬ (2 * Real.pi = 0) := by positivity
    have c2 : ¬ (2 * Real.pi ≤ Real.pi) := by linarith
    have c3 : ¬ (Real.pi < 0) := by linarith
    have c4 : 0 < 2 * Real.pi := by positivity
    simp only [fin_eq, fin_lt, fin_le, c1, c2, c3, c4, if_false, if_true]
    exact e6
  unfold XArith.aaGetUnique
  simp [idAA, hw]

lemma xCompareRelative_self (A : XArith) {tol : ℝ} (ht : 0 ≤ tol) :
    A.compareRelative (.fin 1) (.fin 1) (.fin tol) = true ∧ A.compareRelative (.fin 0) (.fin 0) (.fin tol) = true := by
  constructor
  · have h1 : A.div (A.sub (.fin 1) (.fin 1)).abs ((XR.fin 1).abs.max (XR.fin 1).abs) = .fin 0 := by
      simp [XArith.sub, XArith.add, A.rnd_zero, fin_max, XArith.div]
    have h2 : ¬ (A.mul (.fin tol) (.fin (1 / 100))).lt (.fin 0) := A.rnd_nonneg _ (by positivity)
    unfold XArith.compareRelative
    simp only [h1, h2, if_false, ite_self]
  · unfold XArith.compareRelative
    simp

/-- **C72, equality with the identity.** A `RotationVector` with a non-finite coefficient compares equal to the zero rotation
vector and to every other such vector; an `AngleAxis` with a non-finite angle compares equal to the identity and to every
other such `AngleAxis`. -/
theorem C72_equals_identity (A : XArith) (hA : ConstantsExact A) (P : Prec) (r s : XV3) (a b : XAA)
    (hr : NonFinite3 r) (hs : NonFinite3 s) (ha : ¬ a.angle.IsFinite) (hb : ¬ b.angle.IsFinite) :
    A.rvEq P r zero3 = true ∧ A.rvEq P r s = true ∧ A.aaEq a idAA = true ∧ A.aaEq a b = true := by
  have hz : A.rvGetUnique P zero3 = zero3 := by
    have h0 : A.norm3 zero3 = .fin 0 := by
      simp [XArith.norm3, XArith.normSq3, zero3, XArith.mul, XArith.add, A.rnd_zero, XArith.sqrt]
    unfold XArith.rvGetUnique XArith.aaOfRv
    rw [h0]
    simp only [fin_lt, P.dp_pos, if_true]
    exact (congrArg _ (aaGetUnique_id hA)).trans rvOfAa_id
  obtain ⟨c1, c0⟩ := xCompareRelative_self A (tol := 1 / 100) (by norm_num)
  refine ⟨?_, ?_, ?_, ?_⟩
  · simp only [XArith.rvEq, rvGetUnique_nf hr, hz]
    simp [zero3]
  · simp [XArith.rvEq, rvGetUnique_nf hr, rvGetUnique_nf hs, zero3]
  · unfold XArith.aaEq
    rw [aaGetUnique_nf ha, aaGetUnique_id hA]
    simp [idAA, c1, c0, - one_div]
  · unfold XArith.aaEq
    rw [aaGetUnique_nf ha, aaGetUnique_nf hb]
    simp [idAA, c1, c0, - one_div]

/-- Non-vacuity: exact arithmetic, also with the range of `double`, represents the constants. -/
example : ConstantsExact XArith.exact := ⟨rfl, rfl⟩

end Kindr
