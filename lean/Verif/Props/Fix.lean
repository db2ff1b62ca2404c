import Verif.Props.SmallAngle
import Verif.Props.Conversion

/-!
# C25 `fix()`, C26 debug-build constructors, C48 random rotations, C09 without side conditions
-/

set_option autoImplicit false

open Classical

noncomputable section
namespace Kindr
open Spec

/-! ## C25 -/

/-- **C25 (quaternion).** `fix()` of any nonzero quaternion is the unit quaternion in the same direction. -/
theorem C25_fix_quaternion (q : Quat) (h : q ≠ ⟨0, 0, 0, 0⟩) :
    ∃ r : Quat, fix .quat q = some r ∧ Valid .quat r ∧
      ∃ c : ℝ, 0 < c ∧ r = ⟨c * q.w, c * q.x, c * q.y, c * q.z⟩ := by
  have hp : 0 < q.normSq := by
    refine lt_of_le_of_ne q.normSq_nonneg (fun e => h ?_)
    have e' : q.w * q.w + q.x * q.x + q.y * q.y + q.z * q.z = 0 := e.symm
    have hw : q.w = 0 := by nlinarith [sq_nonneg q.w, sq_nonneg q.x, sq_nonneg q.y, sq_nonneg q.z]
    have hx : q.x = 0 := by nlinarith [sq_nonneg q.w, sq_nonneg q.x, sq_nonneg q.y, sq_nonneg q.z]
    have hy : q.y = 0 := by nlinarith [sq_nonneg q.w, sq_nonneg q.x, sq_nonneg q.y, sq_nonneg q.z]
    have hz : q.z = 0 := by nlinarith [sq_nonneg q.w, sq_nonneg q.x, sq_nonneg q.y, sq_nonneg q.z]
    ext <;> assumption
  have hn : 0 < q.norm := Real.sqrt_pos.mpr hp
  have hn2 : q.norm ^ 2 = q.normSq := Real.sq_sqrt hp.le
  refine ⟨quatFix q, rfl, ?_, 1 / q.norm, by positivity, ?_⟩
  · apply (valid_quat_iff _).mpr
    simp only [quatFix, Quat.normalized, hp, if_true]
    simp only [Quat.normSq]
    have : q.w * q.w + q.x * q.x + q.y * q.y + q.z * q.z = q.norm ^ 2 := hn2.symm
    field_simp
    linear_combination this
  · simp only [quatFix, Quat.normalized, hp, if_true]
    ext <;> simp only <;> ring

/-- **C25 (angle-axis).** `fix()` keeps the angle and makes the axis the unit vector in the same direction. -/
theorem C25_fix_angle_axis (a : AngAx) (h : a.axis ≠ 0) :
    ∃ r : AngAx, fix .aa a = some r ∧ Valid .aa r ∧ r.angle = a.angle ∧ ∃ c : ℝ, 0 < c ∧ r.axis = c • a.axis :=
  ⟨aaFix a, rfl, (valid_aa_iff _).mpr (V3.normSq_normalized h), rfl, 1 / a.axis.norm,
    one_div_pos.mpr (V3.norm_pos h), V3.normalized_of_ne h⟩

/-- **C25 (admissible values are unchanged).** -/
theorem C25_fix_valid (k : Kind) (r : Rep k) (h : Valid k r) : fix k r = some r := by
  cases k
  · have h1 := (valid_quat_iff r).mp h
    have hn : Quat.norm r = 1 := by rw [Quat.norm, h1, Real.sqrt_one]
    have : quatFix r = r := by
      simp only [quatFix, Quat.normalized, h1, hn, div_one, zero_lt_one, if_true]
    simp only [fix]; rw [this]
  · have hd : M3.det r = 1 := h.2
    have : matFix r = some r := by
      rw [matFix, hd, Real.one_rpow, div_one, one_smul, if_pos zero_lt_one]
    exact this
  · have h1 := (valid_aa_iff r).mp h
    have hz : AngAx.axis r ≠ 0 := fun e => by rw [e] at h1; simp at h1
    have : aaFix r = r := by
      simp only [aaFix, V3.normalized_of_ne hz, V3.norm_eq_one_iff.mpr h1, div_one, one_smul]
    simp only [fix]; rw [this]
  all_goals rfl

lemma det_smul (c : ℝ) (m : M3) : (c • m).det = c ^ 3 * m.det := by simp [M3.det]; ring

lemma rpow_third_cube {d : ℝ} (h : 0 ≤ d) : (d ^ (1 / 3 : ℝ)) ^ 3 = d := by
  rw [← Real.rpow_natCast, ← Real.rpow_mul h]; norm_num

/-- **C25 (rotation matrix, `_partial`).** `fix()` restores every *positively scaled* rotation exactly; in general it only
rescales the determinant to one.  It does not restore orthogonality (`C25_fix_matrix_counterexample`), and there is no result
for a non-positive determinant. -/
theorem C25_fix_matrix_partial (m : M3) :
    (∀ (c : ℝ) (R : M3), 0 < c → IsSO3 R → m = c • R → fix .mat m = some R) ∧
    (∀ r : M3, fix .mat m = some r → r.det = 1 ∧ ∃ c : ℝ, 0 < c ∧ r = c • m) ∧
    (fix .mat m = none ↔ m.det ≤ 0) ∧
    (∀ r : M3, fix .mat m = some r → (IsSO3 r ↔ ∃ (c : ℝ) (R : M3), 0 < c ∧ IsSO3 R ∧ m = c • R)) := by
  have key : ∀ (c : ℝ) (R : M3), 0 < c → IsSO3 R → m = c • R → fix .mat m = some R := by
    rintro c R hc hR rfl
    have hd : (c • R).det = c ^ 3 := by rw [det_smul, hR.2, mul_one]
    have hroot : (c ^ 3) ^ (1 / 3 : ℝ) = c := by
      rw [← Real.rpow_natCast, ← Real.rpow_mul hc.le]; norm_num
    change matFix (c • R) = some R
    rw [matFix, hd, if_pos (by positivity), hroot, smul_smul, one_div, inv_mul_cancel₀ hc.ne', one_smul]
  have gen : ∀ r : M3, fix .mat m = some r → r.det = 1 ∧ ∃ c : ℝ, 0 < c ∧ r = c • m := by
    intro r h
    change matFix m = some r at h
    unfold matFix at h
    split_ifs at h with hd
    have hr := Option.some.inj h
    have hroot := rpow_third_cube (le_of_lt hd)
    have hpos : 0 < m.det ^ (1 / 3 : ℝ) := Real.rpow_pos_of_pos hd _
    refine ⟨?_, _, one_div_pos.mpr hpos, hr.symm⟩
    rw [← hr, det_smul, div_pow, hroot, one_pow]
    field_simp
  refine ⟨key, gen, ?_, ?_⟩
  · change matFix m = none ↔ _
    unfold matFix
    split_ifs with hd
    · simp; exact hd
    · simp; exact not_lt.mp hd
  · intro r h
    obtain ⟨h1, c, hc, rfl⟩ := gen r h
    constructor
    · intro hs
      exact ⟨1 / c, _, one_div_pos.mpr hc, hs, by rw [smul_smul, one_div, inv_mul_cancel₀ hc.ne', one_smul]⟩
    · rintro ⟨d, R, hd, hR, e⟩
      have := key d R hd hR e
      rw [this] at h
      rw [← Option.some.inj h]; exact hR

/-- **C25, refutation for matrices.** A slightly drifted matrix with determinant one is returned unchanged and is not a
rotation. -/
theorem C25_fix_matrix_counterexample :
    fix .mat (⟨1, 1 / 1000, 0, 0, 1, 0, 0, 0, 1⟩ : M3) = some (⟨1, 1 / 1000, 0, 0, 1, 0, 0, 0, 1⟩ : M3) ∧
    ¬ Valid .mat (⟨1, 1 / 1000, 0, 0, 1, 0, 0, 0, 1⟩ : M3) := by
  constructor
  · change matFix _ = _
    have hd : (⟨1, 1 / 1000, 0, 0, 1, 0, 0, 0, 1⟩ : M3).det = 1 := by simp [M3.det]
    rw [matFix, hd, Real.one_rpow, div_one, one_smul, if_pos zero_lt_one]
  · intro h
    have h1 : (⟨1, 1 / 1000, 0, 0, 1, 0, 0, 0, 1⟩ : M3) * M3.transpose ⟨1, 1 / 1000, 0, 0, 1, 0, 0, 0, 1⟩ = 1 := h.1
    have := congrArg M3.m00 h1
    norm_num at this

/-- Non-vacuity of the first part of `C25_fix_matrix_partial`. -/
example : fix .mat (⟨0, -2, 0, 2, 0, 0, 0, 0, 2⟩ : M3) = some (⟨0, -1, 0, 1, 0, 0, 0, 0, 1⟩ : M3) :=
  (C25_fix_matrix_partial _).1 2 _ (by norm_num) ⟨by ext <;> simp, by simp [M3.det]⟩ (by ext <;> simp)

/-! ## C26 -/

lemma compareRelative_one (a t : ℝ) : compareRelative a 1 t = true ↔ |a - 1| ≤ t / 100 * max |a| 1 := by
  have := C27_compareRelative_iff a 1 t (by
    rw [abs_one]
    rintro (⟨-, h⟩ | ⟨-, h⟩ | ⟨h, -⟩) <;> norm_num at h)
  rwa [abs_one] at this

lemma compareRelative_zero (a : ℝ) {t : ℝ} (h0 : 0 ≤ t) (h1 : t < 100) :
    compareRelative a 0 t = true ↔ |a| < 1 / 10 ^ 6 := by
  constructor
  · intro h
    by_contra hn
    have hlarge : ¬ |a| < 1 / 10 ^ 15 := fun e => hn (e.trans (by norm_num))
    have ha : 0 < |a| := lt_of_lt_of_le (by norm_num) (not_lt.mp hn)
    have := (C27_compareRelative_iff a 0 t (by
      rintro (⟨h, -⟩ | ⟨h, -⟩ | ⟨-, h⟩)
      · exact hlarge h
      · exact ha.ne' h
      · exact hn h)).mp h
    rw [sub_zero, abs_zero, max_eq_left ha.le] at this
    nlinarith
  · intro h
    unfold compareRelative
    rw [if_pos]
    right; right
    exact ⟨abs_zero, h⟩

/-- A relative tolerance `t` (as a fraction) against one bounds the value itself. -/
lemma near_one_bounds {a t : ℝ} (ha : 0 ≤ a) (h0 : 0 ≤ t) (h1 : t ≤ 1 / 2) (h : |a - 1| ≤ t * max |a| 1) :
    1 - t ≤ a ∧ a ≤ 1 + 2 * t := by
  rw [abs_of_nonneg ha] at h
  obtain ⟨h2, h3⟩ := abs_le.mp h
  rcases le_total a 1 with h4 | h4
  · rw [max_eq_right h4] at h2 h3
    constructor <;> nlinarith
  · rw [max_eq_left h4] at h2 h3
    constructor <;> nlinarith

/-- **C26 (quaternion).** The debug-build constructor accepts exactly the quaternions whose norm deviates from one by at most
`1e-4` relatively (and returns them unchanged); in particular every accepted norm lies in `[1 - 1e-4, 1 + 2e-4]` and every
exact unit quaternion is accepted. -/
theorem C26_quaternion_ctor (q : Quat) :
    (quatCtorDbg q = .ok q ↔ |q.norm - 1| ≤ 1 / 10 ^ 4 * max q.norm 1) ∧
    (quatCtorDbg q ≠ .ok q ↔ quatCtorDbg q = .throws) ∧
    (quatCtorDbg q = .ok q → 1 - 1 / 10 ^ 4 ≤ q.norm ∧ q.norm ≤ 1 + 2 / 10 ^ 4) ∧
    (Valid .quat q → quatCtorDbg q = .ok q) ∧
    UnitQuaternion.ofImplDbg q = quatCtorDbg q := by
  have hn : 0 ≤ q.norm := Real.sqrt_nonneg _
  have e : (1 / 100 / 100 : ℝ) = 1 / 10 ^ 4 := by norm_num
  have key : quatCtorDbg q = .ok q ↔ |q.norm - 1| ≤ 1 / 10 ^ 4 * max q.norm 1 := by
    have := compareRelative_one q.norm (1 / 100)
    rw [abs_of_nonneg hn, e] at this
    rw [← this, quatCtorDbg, assertScalarNearDbg]
    split_ifs with h <;> simp only [h, reduceCtorEq]
  refine ⟨key, ?_, fun h => ?_, fun h => ctorDbg_valid .quat q h, rfl⟩
  · rw [quatCtorDbg, assertScalarNearDbg]; split_ifs <;> simp
  · have := near_one_bounds (t := 1 / 10 ^ 4) hn (by norm_num) (by norm_num) (by rw [abs_of_nonneg hn]; exact key.mp h)
    constructor <;> linarith [this.1, this.2]

/-- **C26 (angle-axis).** Same for the axis norm with `1e-6`. -/
theorem C26_angle_axis_ctor (a : AngAx) :
    (aaCtorDbg a = .ok a ↔ |a.axis.norm - 1| ≤ 1 / 10 ^ 6 * max a.axis.norm 1) ∧
    (aaCtorDbg a ≠ .ok a ↔ aaCtorDbg a = .throws) ∧
    (aaCtorDbg a = .ok a → 1 - 1 / 10 ^ 6 ≤ a.axis.norm ∧ a.axis.norm ≤ 1 + 2 / 10 ^ 6) ∧
    (Valid .aa a → aaCtorDbg a = .ok a) := by
  have hn : 0 ≤ a.axis.norm := Real.sqrt_nonneg _
  have e : (1 / 10000 / 100 : ℝ) = 1 / 10 ^ 6 := by norm_num
  have key : aaCtorDbg a = .ok a ↔ |a.axis.norm - 1| ≤ 1 / 10 ^ 6 * max a.axis.norm 1 := by
    have := compareRelative_one a.axis.norm (1 / 10000)
    rw [abs_of_nonneg hn, e] at this
    rw [← this, aaCtorDbg, assertScalarNearDbg]
    split_ifs with h <;> simp only [h, reduceCtorEq]
  refine ⟨key, ?_, fun h => ?_, fun h => ctorDbg_valid .aa a h⟩
  · rw [aaCtorDbg, assertScalarNearDbg]; split_ifs <;> simp
  · have := near_one_bounds (t := 1 / 10 ^ 6) hn (by norm_num) (by norm_num) (by rw [abs_of_nonneg hn]; exact key.mp h)
    constructor <;> linarith [this.1, this.2]

/-- The entrywise condition the debug-build `RotationMatrix` constructor checks. -/
lemma matCtorDbg_iff (m : M3) :
    matCtorDbg m = .ok m ↔
      (let g := m * m.transpose
       (|g.m00 - 1| ≤ 1 / 10 ^ 6 * max |g.m00| 1 ∧ |g.m11 - 1| ≤ 1 / 10 ^ 6 * max |g.m11| 1 ∧
         |g.m22 - 1| ≤ 1 / 10 ^ 6 * max |g.m22| 1) ∧
       (|g.m01| < 1 / 10 ^ 6 ∧ |g.m02| < 1 / 10 ^ 6 ∧ |g.m12| < 1 / 10 ^ 6) ∧
       |m.det - 1| ≤ 1 / 10 ^ 6 * max |m.det| 1) := by
  have e : (1 / 10000 / 100 : ℝ) = 1 / 10 ^ 6 := by norm_num
  have c1 : ∀ a : ℝ, compareRelative a 1 (1 / 10000) = true ↔ |a - 1| ≤ 1 / 10 ^ 6 * max |a| 1 := fun a => by
    have := compareRelative_one a (1 / 10000); rwa [e] at this
  have c0 : ∀ a : ℝ, compareRelative a 0 (1 / 10000) = true ↔ |a| < 1 / 10 ^ 6 :=
    fun a => compareRelative_zero a (by norm_num) (by norm_num)
  have s10 : (m * m.transpose).m10 = (m * m.transpose).m01 := by simp; ring
  have s20 : (m * m.transpose).m20 = (m * m.transpose).m02 := by simp; ring
  have s21 : (m * m.transpose).m21 = (m * m.transpose).m12 := by simp; ring
  have hm : matNear (m * m.transpose) 1 (1 / 10000) = true ↔
      (let g := m * m.transpose
       (|g.m00 - 1| ≤ 1 / 10 ^ 6 * max |g.m00| 1 ∧ |g.m11 - 1| ≤ 1 / 10 ^ 6 * max |g.m11| 1 ∧
         |g.m22 - 1| ≤ 1 / 10 ^ 6 * max |g.m22| 1) ∧
       (|g.m01| < 1 / 10 ^ 6 ∧ |g.m02| < 1 / 10 ^ 6 ∧ |g.m12| < 1 / 10 ^ 6)) := by
    simp only [matNear, Bool.and_eq_true, M3.one_m00, M3.one_m01, M3.one_m02, M3.one_m10, M3.one_m11, M3.one_m12,
      M3.one_m20, M3.one_m21, M3.one_m22, c1, c0, s10, s20, s21]
    tauto
  rw [matCtorDbg, assertScalarNearDbg]
  dsimp only at hm ⊢
  rw [← and_assoc, ← hm, ← c1]
  by_cases h1 : matNear (m * m.transpose) 1 (1 / 10000) = true <;>
    by_cases h2 : compareRelative m.det 1 (1 / 10000) = true <;> simp only [h1, h2, if_true, if_false, and_true, and_false, reduceCtorEq, Bool.false_eq_true]

/-- Quadratic form of an almost-identity symmetric matrix. -/
lemma gram_bound {m : M3} (h : matCtorDbg m = .ok m) (v : V3) :
    |(m.transpose.mulVec v).normSq - v.normSq| ≤ 4 / 10 ^ 6 * v.normSq := by
  obtain ⟨⟨d0, d1, d2⟩, ⟨o1, o2, o3⟩, -⟩ := (matCtorDbg_iff m).mp h
  set g := m * m.transpose with hg
  have hnn : 0 ≤ g.m00 ∧ 0 ≤ g.m11 ∧ 0 ≤ g.m22 := by
    simp only [hg, M3.mul_m00, M3.mul_m11, M3.mul_m22, M3.transpose_m00, M3.transpose_m10, M3.transpose_m20,
      M3.transpose_m01, M3.transpose_m11, M3.transpose_m21, M3.transpose_m02, M3.transpose_m12, M3.transpose_m22]
    refine ⟨?_, ?_, ?_⟩ <;> nlinarith [sq_nonneg m.m00, sq_nonneg m.m01, sq_nonneg m.m02, sq_nonneg m.m10, sq_nonneg m.m11, sq_nonneg m.m12, sq_nonneg m.m20, sq_nonneg m.m21, sq_nonneg m.m22]
  have b0 := near_one_bounds hnn.1 (by norm_num) (by norm_num) d0
  have b1 := near_one_bounds hnn.2.1 (by norm_num) (by norm_num) d1
  have b2 := near_one_bounds hnn.2.2 (by norm_num) (by norm_num) d2
  have e : (m.transpose.mulVec v).normSq - v.normSq =
      (g.m00 - 1) * v.x ^ 2 + (g.m11 - 1) * v.y ^ 2 + (g.m22 - 1) * v.z ^ 2 +
        2 * (g.m01 * (v.x * v.y) + g.m02 * (v.x * v.z) + g.m12 * (v.y * v.z)) := by
    simp [hg, V3.normSq, V3.dot]; ring
  have o1' := abs_lt.mp o1
  have o2' := abs_lt.mp o2
  have o3' := abs_lt.mp o3
  have hv : v.normSq = v.x ^ 2 + v.y ^ 2 + v.z ^ 2 := by simp [V3.normSq, V3.dot]; ring
  have prod : ∀ a x y : ℝ, -(1 / 10 ^ 6) < a → a < 1 / 10 ^ 6 → |2 * (a * (x * y))| ≤ 1 / 10 ^ 6 * (x ^ 2 + y ^ 2) := by
    intro a x y h1 h2
    rw [abs_mul, abs_mul, abs_two]
    have h3 : |a| ≤ 1 / 10 ^ 6 := abs_le.mpr ⟨h1.le, h2.le⟩
    have h4 : 2 * |x * y| ≤ x ^ 2 + y ^ 2 := by
      rw [abs_mul]; nlinarith [sq_nonneg (|x| - |y|), sq_abs x, sq_abs y]
    nlinarith [abs_nonneg (x * y), abs_nonneg a]
  have p1 := abs_le.mp (prod g.m01 v.x v.y o1'.1 o1'.2)
  have p2 := abs_le.mp (prod g.m02 v.x v.z o2'.1 o2'.2)
  have p3 := abs_le.mp (prod g.m12 v.y v.z o3'.1 o3'.2)
  have dg : ∀ a x : ℝ, 1 - 1 / 10 ^ 6 ≤ a ∧ a ≤ 1 + 2 * (1 / 10 ^ 6) → |(a - 1) * x ^ 2| ≤ 2 / 10 ^ 6 * x ^ 2 := by
    intro a x h1
    rw [abs_mul, abs_of_nonneg (sq_nonneg x)]
    exact mul_le_mul_of_nonneg_right (abs_le.mpr ⟨by linarith [h1.1], by linarith [h1.2]⟩) (sq_nonneg x)
  have q0 := abs_le.mp (dg g.m00 v.x b0)
  have q1 := abs_le.mp (dg g.m11 v.y b1)
  have q2 := abs_le.mp (dg g.m22 v.z b2)
  rw [e, hv, abs_le]
  constructor <;> linarith [p1.1, p1.2, p2.1, p2.2, p3.1, p3.2, q0.1, q0.2, q1.1, q1.2, q2.1, q2.2]

/-- **C26 (matrix).** Every proper rotation matrix is accepted.  Whatever the debug-build constructor accepts distorts lengths
by at most a factor `1 ± 4e-6` (in both directions of use, `rotate` and `inverseRotate`) and has a determinant within
`2e-6` of one. -/
theorem C26_matrix_ctor (m : M3) :
    (Valid .mat m → matCtorDbg m = .ok m) ∧
    (matCtorDbg m ≠ .ok m ↔ matCtorDbg m = .throws) ∧
    (matCtorDbg m = .ok m →
      |m.det - 1| ≤ 2 / 10 ^ 6 ∧
      ∀ v : V3, (1 - 4 / 10 ^ 6) * v.normSq ≤ (m.mulVec v).normSq ∧ (m.mulVec v).normSq ≤ (1 + 4 / 10 ^ 6) * v.normSq ∧
        (1 - 4 / 10 ^ 6) * v.normSq ≤ (m.transpose.mulVec v).normSq ∧
        (m.transpose.mulVec v).normSq ≤ (1 + 4 / 10 ^ 6) * v.normSq) := by
  refine ⟨fun h => ctorDbg_valid .mat m h, ?_, fun h => ?_⟩
  · rw [matCtorDbg, assertScalarNearDbg]; split_ifs <;> simp
  · have hdet : |m.det - 1| ≤ 2 / 10 ^ 6 := by
      have := ((matCtorDbg_iff m).mp h).2.2
      rcases le_total |m.det| 1 with h1 | h1
      · rw [max_eq_right h1] at this; linarith
      · rw [max_eq_left h1] at this
        have h2 : |m.det| ≤ |m.det - 1| + 1 := by
          have := abs_add_le (m.det - 1) 1
          rw [sub_add_cancel, abs_one] at this; exact this
        linarith
    refine ⟨hdet, fun w => ?_⟩
    have hg := fun v => abs_le.mp (gram_bound h v)
    have hT : ∀ v : V3, (1 - 4 / 10 ^ 6) * v.normSq ≤ (m.transpose.mulVec v).normSq ∧
        (m.transpose.mulVec v).normSq ≤ (1 + 4 / 10 ^ 6) * v.normSq := fun v => by
      have := hg v; constructor <;> linarith [this.1, this.2]
    have hadj : ∀ a b : V3, (m.mulVec a).dot b = a.dot (m.transpose.mulVec b) := by
      intro a b; simp [V3.dot]; ring
    refine ⟨?_, ?_, (hT w).1, (hT w).2⟩
    · -- w = mᵀ v
      have hd0 : m.det ≠ 0 := fun e => by rw [e] at hdet; norm_num at hdet
      obtain ⟨v, rfl⟩ : ∃ v, w = m.transpose.mulVec v := by
        refine ⟨(1 / m.det) • m.transpose.adj.mulVec w, ?_⟩
        rw [M3.mulVec_smul, M3.mulVec_mulVec, M3.mul_adj, M3.det_transpose, M3.smul_mulVec, M3.one_mulVec, smul_smul,
          one_div, inv_mul_cancel₀ hd0, one_smul]
      set w := m.transpose.mulVec v
      have h1 : w.normSq = (m.mulVec w).dot v := by rw [hadj]; rfl
      have h2 := V3.dot_abs_le (m.mulVec w) v
      have h3 : w.normSq ^ 2 ≤ (m.mulVec w).normSq * v.normSq := by
        have : |(m.mulVec w).dot v| ^ 2 ≤ ((m.mulVec w).norm * v.norm) ^ 2 := pow_le_pow_left₀ (abs_nonneg _) h2 2
        rwa [sq_abs, mul_pow, V3.norm_sq, V3.norm_sq, ← h1] at this
      have h4 := (hT v).1
      change (1 - 4 / 10 ^ 6) * v.normSq ≤ w.normSq at h4
      have n1 := V3.normSq_nonneg w
      have n2 := V3.normSq_nonneg (m.mulVec w)
      have n3 := V3.normSq_nonneg v
      rcases eq_or_lt_of_le n1 with h5 | h5
      · rw [← h5]; linarith
      · have h6 : (1 - 4 / 10 ^ 6) * w.normSq ^ 2 ≤ (m.mulVec w).normSq * w.normSq := by nlinarith
        have h7 : ((1 - 4 / 10 ^ 6) * w.normSq) * w.normSq ≤ (m.mulVec w).normSq * w.normSq := by
          linarith [sq w.normSq]
        exact le_of_mul_le_mul_right h7 h5
    · set u := m.mulVec w
      have h1 : u.normSq = w.dot (m.transpose.mulVec u) := by rw [← hadj]; rfl
      have h2 := V3.dot_abs_le w (m.transpose.mulVec u)
      have h3 : u.normSq ^ 2 ≤ w.normSq * (m.transpose.mulVec u).normSq := by
        have : |w.dot (m.transpose.mulVec u)| ^ 2 ≤ (w.norm * (m.transpose.mulVec u).norm) ^ 2 :=
          pow_le_pow_left₀ (abs_nonneg _) h2 2
        rwa [sq_abs, mul_pow, V3.norm_sq, V3.norm_sq, ← h1] at this
      have h4 := (hT u).2
      have n1 := V3.normSq_nonneg u
      have n3 := V3.normSq_nonneg w
      rcases eq_or_lt_of_le n1 with h5 | h5
      · rw [← h5]; positivity
      · have h7 : u.normSq * u.normSq ≤ ((1 + 4 / 10 ^ 6) * w.normSq) * u.normSq := by nlinarith [sq u.normSq]
        exact le_of_mul_le_mul_right h7 h5

/-- Non-vacuity: a drifted quaternion that is accepted and one that is rejected; a rejected matrix. -/
example : quatCtorDbg ⟨1 + 1 / 10 ^ 5, 0, 0, 0⟩ = .ok ⟨1 + 1 / 10 ^ 5, 0, 0, 0⟩ ∧ quatCtorDbg ⟨1, 1, 0, 0⟩ = .throws := by
  constructor
  · rw [(C26_quaternion_ctor _).1]
    have : (⟨1 + 1 / 10 ^ 5, 0, 0, 0⟩ : Quat).norm = 1 + 1 / 10 ^ 5 := by
      rw [Quat.norm, Quat.normSq, show ((1 + 1 / 10 ^ 5) * (1 + 1 / 10 ^ 5) + 0 * 0 + 0 * 0 + 0 * 0 : ℝ) =
        (1 + 1 / 10 ^ 5) ^ 2 by ring, Real.sqrt_sq (by norm_num)]
    rw [this, max_eq_left (by norm_num)]
    norm_num
  · rw [← (C26_quaternion_ctor _).2.1, Ne, (C26_quaternion_ctor _).1]
    have : (⟨1, 1, 0, 0⟩ : Quat).norm = Real.sqrt 2 := by rw [Quat.norm, Quat.normSq]; norm_num
    rw [this]
    have h1 : (1.4 : ℝ) < Real.sqrt 2 := by rw [Real.lt_sqrt (by norm_num)]; norm_num
    have h2 : Real.sqrt 2 < 1.5 := by rw [Real.sqrt_lt' (by norm_num)]; norm_num
    rw [max_eq_left (by linarith), abs_of_pos (by linarith)]
    norm_num at *
    linarith

/-! ## C09 / C48: conversions and random draws never trip the debug assertions, small-angle branch included -/

/-- The Gram matrix and the determinant of the matrix Eigen builds from an arbitrary quaternion. -/
lemma gram_toRotationMatrix (q : Quat) :
    let M := q.toRotationMatrix
    let u := q.x ^ 2 + q.y ^ 2 + q.z ^ 2
    let δ := 4 * (1 - q.w ^ 2 - u)
    (M * M.transpose).m00 - 1 = δ * (q.x ^ 2 - u) ∧ (M * M.transpose).m11 - 1 = δ * (q.y ^ 2 - u) ∧
    (M * M.transpose).m22 - 1 = δ * (q.z ^ 2 - u) ∧ (M * M.transpose).m01 = δ * (q.x * q.y) ∧
    (M * M.transpose).m02 = δ * (q.x * q.z) ∧ (M * M.transpose).m12 = δ * (q.y * q.z) ∧ M.det - 1 = δ * (-u) := by
  obtain ⟨w, x, y, z⟩ := q
  refine ⟨?_, ?_, ?_, ?_, ?_, ?_, ?_⟩ <;> simp [Quat.toRotationMatrix, M3.det] <;> ring

/-- The debug-build check on the matrix Eigen builds from an almost-unit quaternion. -/
lemma matCtorDbg_almost_unit {q : Quat} (hu : q.x ^ 2 + q.y ^ 2 + q.z ^ 2 ≤ 1)
    (h : |1 - q.w ^ 2 - (q.x ^ 2 + q.y ^ 2 + q.z ^ 2)| ≤ 1 / 10 ^ 7) :
    matCtorDbg q.toRotationMatrix = .ok q.toRotationMatrix := by
  obtain ⟨g00, g11, g22, g01, g02, g12, gd⟩ := gram_toRotationMatrix q
  set M := q.toRotationMatrix
  set u := q.x ^ 2 + q.y ^ 2 + q.z ^ 2 with hud
  have sx := sq_nonneg q.x
  have sy := sq_nonneg q.y
  have sz := sq_nonneg q.z
  have small : ∀ t : ℝ, |t| ≤ 1 → |4 * (1 - q.w ^ 2 - u) * t| ≤ 4 / 10 ^ 7 := fun t ht => by
    rw [abs_mul, abs_mul, abs_of_pos (by norm_num : (0 : ℝ) < 4)]
    nlinarith [abs_nonneg (1 - q.w ^ 2 - u), abs_nonneg t]
  have diag : ∀ a t : ℝ, a - 1 = 4 * (1 - q.w ^ 2 - u) * t → |t| ≤ 1 → |a - 1| ≤ 1 / 10 ^ 6 * max |a| 1 :=
    fun a t e ht => by
      rw [e]
      have h1 := small t ht
      have h2 := le_max_right |a| 1
      nlinarith
  have hprod : ∀ a b : ℝ, a ^ 2 + b ^ 2 ≤ 1 → |a * b| ≤ 1 := fun a b hab => by
    rw [abs_le]; constructor <;> nlinarith [sq_nonneg (a + b), sq_nonneg (a - b)]
  rw [matCtorDbg_iff]
  refine ⟨⟨diag _ _ g00 (abs_le.mpr ⟨by linarith, by linarith⟩), diag _ _ g11 (abs_le.mpr ⟨by linarith, by linarith⟩),
    diag _ _ g22 (abs_le.mpr ⟨by linarith, by linarith⟩)⟩, ⟨?_, ?_, ?_⟩, ?_⟩
  · rw [g01]; exact lt_of_le_of_lt (small _ (hprod _ _ (by linarith))) (by norm_num)
  · rw [g02]; exact lt_of_le_of_lt (small _ (hprod _ _ (by linarith))) (by norm_num)
  · rw [g12]; exact lt_of_le_of_lt (small _ (hprod _ _ (by linarith))) (by norm_num)
  · exact diag _ _ gd (abs_le.mpr ⟨by linarith, by linarith⟩)

/-- **C09 (d), no side condition.** For *every* valid source value, small-angle branches included, the constructor assertions
of a debug build do not fire on the result of a conversion. -/
theorem C09_conversion_never_throws_all (P : Prec) (d s : Kind) (r : Rep s) (hv : Valid s r) :
    ctorDbg d (conv P d s r) = .ok (conv P d s r) := by
  by_cases hs : s = .rv
  · subst hs
    by_cases hsmall : (RotVec.v r).norm < P.eps ^ (1 / 4 : ℝ)
    · cases d
      · obtain ⟨q0, -, -, -, -, h, -⟩ := C08_rv_to_quat P r hsmall
        change quatCtorDbg _ = _
        rw [(C26_quaternion_ctor _).1]
        have h1 := le_max_right (Quat.norm (conv P .quat .rv r)) 1
        have h2 := P.eps_le
        have : (2⁻¹ ^ 23 : ℝ) ≤ 1 / 10 ^ 4 := by norm_num
        nlinarith
      · change matCtorDbg (quatOfRv P r).toRotationMatrix = _
        by_cases hz : RotVec.v r = 0
        · obtain ⟨v⟩ := r
          simp only at hz; subst hz
          have : ((quatOfRv P ⟨0⟩).toRotationMatrix) = 1 := by
            rw [quatOfRv_zero]; ext <;> simp [Quat.toRotationMatrix]
          exact ctorDbg_valid .mat _ (by rw [this]; exact SO3.one)
        set θ := (RotVec.v r).norm with hθ
        have hpos : 0 < θ := V3.norm_pos hz
        have hθ1 := lt_of_lt_of_le hsmall (e4_le_one P)
        set n : V3 := (1 / θ) • RotVec.v r with hn
        have hn1 : n.normSq = 1 := unit_dir hpos.ne'
        set sn := θ * (1 / 2 - θ * θ * (1 / 48)) with hsd
        have hq : quatOfRv P r = ⟨Real.cos (θ * (1 / 2)), sn * n.x, sn * n.y, sn * n.z⟩ := by
          have : isLessThenEpsilons4thRoot P (RotVec.v r).norm := hsmall
          simp only [quatOfRv, this, if_true]
          rw [← hθ]
          ext <;> simp [hn, hsd] <;> field_simp
        have herr := half_sine_error hpos.le hsmall
        rw [← hsd] at herr
        have hsabs : |sn| ≤ 1 := by
          rw [abs_of_nonneg (by rw [hsd]; apply mul_nonneg hpos.le; nlinarith)]
          rw [hsd]; nlinarith
        have hs0 := Real.abs_sin_le_one (θ * (1 / 2))
        have hu : (quatOfRv P r).x ^ 2 + (quatOfRv P r).y ^ 2 + (quatOfRv P r).z ^ 2 = sn ^ 2 := by
          rw [hq]; simp only [V3.normSq, V3.dot] at hn1; linear_combination sn ^ 2 * hn1
        have hw : (quatOfRv P r).w = Real.cos (θ * (1 / 2)) := by rw [hq]
        refine matCtorDbg_almost_unit (by rw [hu, ← sq_abs]; nlinarith [abs_nonneg sn]) ?_
        rw [hu, hw]
        have hsc := Real.sin_sq_add_cos_sq (θ * (1 / 2))
        set s0 := Real.sin (θ * (1 / 2))
        have e : 1 - Real.cos (θ * (1 / 2)) ^ 2 - sn ^ 2 = -((sn - s0) * (sn + s0)) := by linear_combination -hsc
        rw [e, abs_neg, abs_mul]
        have h1 := abs_add_le sn s0
        have h2 := P.eps_le
        have h3 : (2⁻¹ ^ 23 : ℝ) ≤ 2 / 10 ^ 7 := by norm_num
        nlinarith [abs_nonneg (sn - s0), abs_nonneg (sn + s0)]
      · exact ctorDbg_valid .aa _ ((C09_angle_axis_range P).2 r).1
      all_goals rfl
    · have hl := not_lt.mp hsmall
      cases d
      · exact C09_conversion_never_throws P .quat .rv r hv (Or.inr hl)
      · exact C09_conversion_never_throws P .mat .rv r hv (Or.inr hl)
      · exact ctorDbg_valid .aa _ ((C09_angle_axis_range P).2 r).1
      all_goals rfl
  · by_cases hd : d = .rv
    · subst hd; rfl
    · exact C09_conversion_never_throws P d s r hv (exact_to_nonrv hd (fun h => absurd h hs))

/-- **C48.** Whatever three numbers `setUniformRandom` draws: the debug-build constructor accepts the random rotation; unless
the draw is tiny and nonzero the value satisfies the class invariant exactly, represents the rotation of the drawn rotation
vector and has a rotation angle determined by the length of the draw. -/
theorem C48_random (P : Prec) (k : Kind) (draw : V3) :
    ctorDbg k (random P k draw) = .ok (random P k draw) ∧
    (draw = 0 ∨ (P.eps ^ (1 / 4 : ℝ) ≤ draw.norm ∧ P.dp ≤ draw.norm) →
      Valid k (random P k draw) ∧ SameRot (k₁ := k) (k₂ := .rv) (random P k draw) ⟨draw⟩ ∧
      rotAngle (den k (random P k draw)) = Real.arccos (Real.cos draw.norm)) := by
  refine ⟨C09_conversion_never_throws_all P k .rv _ trivial, fun h => ?_⟩
  have hx : ExactBranch P k .rv (⟨draw⟩ : RotVec) := by
    cases k <;> simp only [ExactBranch] <;> tauto
  obtain ⟨v1, d1⟩ := conv_spec P k .rv (⟨draw⟩ : RotVec) trivial hx
  refine ⟨v1, fun v => C07_conversion P k .rv _ trivial hx v, ?_⟩
  rw [den_eq]
  change rotAngle (dmat k (conv P k .rv ⟨draw⟩)) = _
  rw [d1]
  by_cases hz : draw = 0
  · subst hz; rw [dmat_rv_zero, rotAngle_one]; simp
  · rw [dmat_rv_ne hz, rotAngle, trace_rodMat _ (unit_dir (V3.norm_pos hz).ne')]
    congr 1; ring

/-- Non-vacuity of C48: a draw inside `[-π, π]³` that is not tiny. -/
example : Prec.double.eps ^ (1 / 4 : ℝ) ≤ (⟨3, -2, 0⟩ : V3).norm ∧ Prec.double.dp ≤ (⟨3, -2, 0⟩ : V3).norm := by
  have h : (1 : ℝ) ≤ (⟨3, -2, 0⟩ : V3).norm := by
    rw [V3.norm, Real.one_le_sqrt]; norm_num [V3.normSq, V3.dot]
  exact ⟨(e4_le_one _).trans h, (dp_le_one _).trans h⟩

end Kindr
