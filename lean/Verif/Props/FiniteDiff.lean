import Mathlib.Analysis.SpecialFunctions.Trigonometric.Bounds
import Mathlib.Analysis.SpecialFunctions.Trigonometric.Deriv
import Verif.Props.Integrate

/-!
# C76: angular velocity by finite differences, and `boxMinus` of `boxPlus`, for all inputs

`boxMinus(R(t+h), R(t)) / h` approximates the angular velocity.  The bound holds for all valid inputs of all classes,
including those in the small-angle branches; together with the dead zone of `logarithmicMap` (it returns exactly zero for
rotation angles below `dp`) it shows what step sizes are usable.
-/

set_option autoImplicit false

noncomputable section
namespace Kindr
open Spec

/-! ## The logarithm is Lipschitz near the identity -/

private lemma sin_mono_strong {α β : ℝ} (ha : 0 ≤ α) (hb : 0 ≤ β) (ha1 : α ≤ 1) (hb1 : β ≤ 1) :
    1 / 2 * (α - β) ^ 2 ≤ (α - β) * (Real.sin α - Real.sin β) := by
  wlog h : β ≤ α with H
  · have := H hb ha hb1 ha1 (le_of_not_ge h)
    nlinarith
  have e : Real.sin α - Real.sin β = 2 * Real.sin ((α - β) / 2) * Real.cos ((α + β) / 2) := Real.sin_sub_sin α β
  have hx : 0 ≤ (α - β) / 2 := by linarith
  have h1 : (α - β) / 2 - ((α - β) / 2) ^ 3 / 4 ≤ Real.sin ((α - β) / 2) := by
    rcases eq_or_lt_of_le hx with h0 | h0
    · rw [← h0]; simp
    · have := (Real.sin_gt_sub_cube h0).le
      nlinarith [pow_pos h0 3]
  have h2 : 1 - ((α + β) / 2) ^ 2 / 2 ≤ Real.cos ((α + β) / 2) := Real.one_sub_sq_div_two_le_cos
  have hs : (α + β) / 2 ≤ 1 - (α - β) / 2 := by linarith
  have hs0 : 0 ≤ (α + β) / 2 := by linarith
  set x := (α - β) / 2 with hxd
  set y := (α + β) / 2 with hyd
  have h3 : 1 - (1 - x) ^ 2 / 2 ≤ Real.cos y := by nlinarith
  have hx1 : x ≤ 1 / 2 := by rw [hxd]; linarith
  have hsx : 0 ≤ x - x ^ 3 / 4 := by nlinarith [mul_nonneg hx hx]
  have h4 : (x - x ^ 3 / 4) * (1 - (1 - x) ^ 2 / 2) ≤ Real.sin x * Real.cos y :=
    mul_le_mul h1 h3 (by nlinarith) (hsx.trans h1)
  have h5 : x / 2 ≤ (x - x ^ 3 / 4) * (1 - (1 - x) ^ 2 / 2) := by
    have hx2 : x ^ 2 ≤ x / 2 := by nlinarith
    have e1 : (x - x ^ 3 / 4) * (1 - (1 - x) ^ 2 / 2) - x / 2 =
        x * (x * (1 - x / 2) - x ^ 2 / 4 * (1 / 2 + x - x ^ 2 / 2)) := by ring
    have e2 : 0 ≤ x * (1 - x / 2) - x ^ 2 / 4 * (1 / 2 + x - x ^ 2 / 2) := by nlinarith [mul_nonneg hx hx]
    nlinarith [mul_nonneg hx e2]
  rw [e]
  have : α - β = 2 * x := by rw [hxd]; ring
  rw [this]
  nlinarith

private lemma sin_half {x : ℝ} (h0 : 0 ≤ x) (h1 : x ≤ 1) : 1 / 2 * x ≤ Real.sin x := by
  rcases eq_or_lt_of_le h0 with h | h
  · rw [← h]; simp
  · have := (Real.sin_gt_sub_cube h).le
    nlinarith [mul_nonneg h0 h0]

/-- The axial vector of the antisymmetric part. -/
private def axial (m : M3) : V3 := ⟨(m.m21 - m.m12) / 2, (m.m02 - m.m20) / 2, (m.m10 - m.m01) / 2⟩

private lemma axial_rodMat (θ : ℝ) (n : V3) : axial (rodMat θ n) = Real.sin θ • n := by
  ext <;> simp [axial, rodMat, AngAx.toRotationMatrix] <;> ring

private lemma axial_close {A B : M3} {δ : ℝ} (h : Close δ A B) : (axial A - axial B).norm ≤ δ := by
  set d := axial A - axial B with hd
  have key : ∀ v : V3, (d.cross v).norm ≤ δ * v.norm := by
    intro v
    have h1 := h v
    have h2 := h.transpose v
    have e : d.cross v = (1 / 2 : ℝ) • ((A.mulVec v - B.mulVec v) - (A.transpose.mulVec v - B.transpose.mulVec v)) := by
      ext <;> simp [hd, axial, V3.cross, M3.mulVec, M3.transpose] <;> ring
    rw [e, V3.norm_smul, abs_of_nonneg (by norm_num)]
    have := V3.norm_sub_le (A.mulVec v - B.mulVec v) (A.transpose.mulVec v - B.transpose.mulVec v)
    linarith
  -- a vector orthogonal to `d` of the same length
  have hz : ∀ v : V3, d.dot v = 0 → d.norm * v.norm ≤ δ * v.norm := by
    intro v hv
    have h1 := V3.lagrange d v
    rw [hv] at h1
    have h2 : (d.cross v).norm = d.norm * v.norm := by
      have h3 : (d.cross v).norm ^ 2 = (d.norm * v.norm) ^ 2 := by
        rw [mul_pow, V3.norm_sq, V3.norm_sq, V3.norm_sq]; linarith
      exact (pow_left_inj₀ (V3.norm_nonneg _) (mul_nonneg d.norm_nonneg v.norm_nonneg) (by norm_num)).mp h3
    rw [← h2]; exact key v
  by_cases hxy : d.x = 0 ∧ d.y = 0
  · have h1 := hz ⟨1, 0, 0⟩ (by simp [V3.dot, hxy.1])
    have : (⟨1, 0, 0⟩ : V3).norm = 1 := V3.norm_eq_one_iff.mpr (by norm_num [V3.normSq, V3.dot])
    rw [this] at h1; linarith
  · have h1 := hz ⟨-d.y, d.x, 0⟩ (by simp [V3.dot]; ring)
    have hp : 0 < (⟨-d.y, d.x, 0⟩ : V3).norm := by
      apply V3.norm_pos
      intro e
      apply hxy
      have e1 := congrArg V3.x e
      have e2 := congrArg V3.y e
      simp at e1 e2
      exact ⟨e2, e1⟩
    exact le_of_mul_le_mul_right h1 hp

/-- Two rotation vectors of length at most 1 whose rotations differ by at most `δ` differ by at most `2δ`. -/
lemma rv_lipschitz {a b : V3} {δ : ℝ} (ha : a.norm ≤ 1) (hb : b.norm ≤ 1)
    (h : Close δ (den .rv (⟨a⟩ : RotVec)) (den .rv (⟨b⟩ : RotVec))) : (a - b).norm ≤ 2 * δ := by
  have polar : ∀ c : V3, ∃ n : V3, n.normSq = 1 ∧ c = c.norm • n := by
    intro c
    by_cases hc : c = 0
    · exact ⟨⟨1, 0, 0⟩, by norm_num [V3.normSq, V3.dot], by rw [hc]; ext <;> simp⟩
    · have hp := V3.norm_pos hc
      exact ⟨(1 / c.norm) • c, unit_dir hp.ne', by rw [smul_smul, mul_one_div_cancel hp.ne', one_smul]⟩
  obtain ⟨n, hn, en⟩ := polar a
  obtain ⟨m, hm, em⟩ := polar b
  have h0 := a.norm_nonneg
  have h0' := b.norm_nonneg
  set α := a.norm with hα
  set β := b.norm with hβ
  have h1 := h
  rw [en, em, den_eq, den_eq, dmat_rv_smul α hn, dmat_rv_smul β hm] at h1
  have h2 := axial_close h1
  rw [axial_rodMat, axial_rodMat] at h2
  set c := n.dot m with hc
  have hc1 : |c| ≤ 1 := by
    have := V3.dot_abs_le n m
    rw [V3.norm_eq_one_iff.mpr hn, V3.norm_eq_one_iff.mpr hm] at this
    linarith
  obtain ⟨hcl, hcu⟩ := abs_le.mp hc1
  set g := Real.sin α • n - Real.sin β • m with hg
  have ed : g.dot (a - b) = α * Real.sin α + β * Real.sin β - c * (α * Real.sin β + β * Real.sin α) := by
    rw [en, em]
    have e : g.dot (α • n - β • m) = α * Real.sin α * n.normSq + β * Real.sin β * m.normSq -
        c * (α * Real.sin β + β * Real.sin α) := by
      simp [hg, hc, V3.dot, V3.normSq]; ring
    rw [e, hn, hm]; ring
  have eN : (a - b).norm ^ 2 = α ^ 2 + β ^ 2 - 2 * c * (α * β) := by
    rw [V3.norm_sq, en, em]
    have e : (α • n - β • m).normSq = α ^ 2 * n.normSq + β ^ 2 * m.normSq - 2 * c * (α * β) := by
      simp [hc, V3.dot, V3.normSq]; ring
    rw [e, hn, hm]; ring
  have m1 := sin_mono_strong h0 h0' ha hb
  have m2 : 1 / 2 * (α + β) ^ 2 ≤ (α + β) * (Real.sin α + Real.sin β) := by
    have s1 := sin_half h0 ha
    have s2 := sin_half h0' hb
    have := mul_le_mul_of_nonneg_left (add_le_add s1 s2) (add_nonneg h0 h0')
    nlinarith
  have mono : 1 / 2 * (a - b).norm ^ 2 ≤ g.dot (a - b) := by
    rw [ed, eN]
    nlinarith [mul_nonneg (sub_nonneg.mpr hcu) (sub_nonneg.mpr m2), mul_nonneg (by linarith : 0 ≤ 1 + c) (sub_nonneg.mpr m1)]
  have cs := (le_abs_self _).trans (V3.dot_abs_le g (a - b))
  have hd := (a - b).norm_nonneg
  rcases eq_or_lt_of_le hd with hz | hp
  · rw [← hz]; linarith [h.nonneg]
  · nlinarith

/-! ## The theorems -/

/-- **C76 (a).** Let `q` be any moving rotation of any class with global angular velocity `w`, Lipschitz with constant `L` on
`[t, t+h]`, and let the step be so small that the rotation stays below half a radian (`h·|w(t)| + L·h² ≤ 1/2`).  Then
`q(t+h).boxMinus(q(t)) / h` is the angular velocity up to `L·h + (4·dp+eps)/h`. -/
theorem C76_velocity_by_differences (P : Prec) (k : Kind) (q : ℝ → Rep k) (w : ℝ → V3) (t h L : ℝ) (h0 : 0 < h)
    (hq : ∀ s ∈ Set.Icc t (t + h), Valid k (q s) ∧ IsGlobalVelocity k q s (w s))
    (hL : ∀ s ∈ Set.Icc t (t + h), (w s - w t).norm ≤ L * (s - t))
    (hs : h * (w t).norm + L * h ^ 2 ≤ 1 / 2) :
    ((1 / h) • boxMinus P k k (q (t + h)) (q t) - w t).norm ≤ L * h + (4 * P.dp + P.eps) / h := by
  have he := P.eps_pos
  have hdp := P.dp_pos
  have he' := eps_small P
  have hdp' := P.dp_le
  have ht : t ∈ Set.Icc t (t + h) := ⟨le_rfl, by linarith⟩
  have hth : t + h ∈ Set.Icc t (t + h) := ⟨by linarith, le_rfl⟩
  have hv := (hq t ht).1
  have hv' := (hq (t + h) hth).1
  have hLn : 0 ≤ L * h ^ 2 := by
    have h1 := hL (t + h) hth
    rw [add_sub_cancel_left] at h1
    have := mul_nonneg ((V3.norm_nonneg _).trans h1) h0.le
    nlinarith
  have c1 := exp_step_error h0.le (fun s hs => (hq s hs).1) (fun s hs => (hq s hs).2) hL
  have c2 := c1.mul_right (SO3.transpose (den_isSO3 hv))
  rw [mul_assoc, (den_isSO3 hv).1, mul_one] at c2
  have c3 := (boxMinus_close P hv' hv).trans c2.symm
  set b := boxMinus P k k (q (t + h)) (q t) with hb
  have hn1 : (h • w t).norm ≤ 1 / 2 := by
    rw [V3.norm_smul, abs_of_pos h0]; linarith
  have hbn : b.norm ≤ 1 := by
    have a1 := rotAngle_close (den_isSO3 (k := .rv) (r := ⟨b⟩) trivial) (den_isSO3 (k := .rv) (r := ⟨h • w t⟩) trivial) c3
    have a2 : b.norm ≤ Real.pi := (C59_boxMinus P k k (q (t + h)) (q t) hv' hv).1
    rw [rotAngle_rv a2] at a1
    have a3 := rotAngle_rv_le (⟨h • w t⟩ : RotVec)
    rw [← den_eq] at a3
    have a4 : (h • w t).norm = h * (w t).norm := by rw [V3.norm_smul, abs_of_pos h0]
    have a3' : rotAngle (den .rv (⟨h • w t⟩ : RotVec)) ≤ h * (w t).norm := by rw [← a4]; exact a3
    have := (abs_le.mp a1).2
    linarith
  have key := rv_lipschitz hbn (hn1.trans (by norm_num)) c3
  have e : (1 / h) • b - w t = (1 / h) • (b - h • w t) := by
    rw [smul_sub, smul_smul, one_div_mul_cancel h0.ne', one_smul]
  rw [e, V3.norm_smul, abs_of_pos (by positivity)]
  have h2 : 1 / h * (b - h • w t).norm ≤ 1 / h * (L * h ^ 2 + 4 * P.dp + P.eps) :=
    mul_le_mul_of_nonneg_left (by linarith) (by positivity)
  refine h2.trans (le_of_eq ?_)
  field_simp
  ring

/-- **C76 (b), the dead zone.** The step cannot be made arbitrarily small: `logarithmicMap()` of a `RotationVector` shorter than
`dp`, and of a unit quaternion with imaginary part shorter than `dp/2`, is exactly zero, so differences of orientations less
than `dp` apart report no motion at all. -/
theorem C76_dead_zone (P : Prec) :
    (∀ r : RotVec, r.v.norm < P.dp → logarithmicMap P .rv r = 0) ∧
    (∀ q : Quat, Valid .quat q → q.vec.norm < P.dp / 2 → logarithmicMap P .quat q = 0) ∧
    (∀ a b : Quat, Valid .quat a → Valid .quat b → rotAngle (den .quat a * (den .quat b).transpose) < P.dp →
      boxMinus P .quat .quat a b = 0) := by
  have key : ∀ r : RotVec, r.v.norm < P.dp → (rvGetUnique P r).v = 0 := by
    intro r hr
    rw [rvGetUnique_small hr]
  have kq : ∀ q : Quat, Valid .quat q → q.vec.norm < P.dp / 2 → logarithmicMap P .quat q = 0 := by
    intro q hq hn
    have hq1 := (valid_quat_iff q).mp hq
    have h2 := vec_norm_sq hq1
    have hdp := P.dp_pos
    have hdp' := P.dp_le
    have hlt : 1 - q.w * q.w < P.dp := by nlinarith [q.vec.norm_nonneg]
    refine key _ ?_
    change (rvOfQuat P q).v.norm < P.dp
    simp only [rvOfQuat, hlt, if_true]
    split_ifs
    · rw [V3.norm_smul, abs_of_pos (by norm_num)]; linarith
    · rw [V3.norm_smul, abs_of_neg (by norm_num)]; linarith
  refine ⟨key, kq, fun a b ha hb hab => ?_⟩
  have hb' := (inverted_spec hb)
  have hp : Valid .quat (mult P .quat .quat a (inverted .quat b)) ∧
      den .quat (mult P .quat .quat a (inverted .quat b)) = den .quat a * (den .quat b).transpose := by
    have := mult_spec (P := P) ha hb'.1 (fun h => by cases h) (fun h => by cases h) (fun h => by cases h)
    rw [hb'.2] at this; exact this
  refine kq _ hp.1 ?_
  set p : Quat := mult P .quat .quat a (inverted .quat b) with hpd
  have hp1 := (valid_quat_iff p).mp hp.1
  rw [← hp.2] at hab
  -- |vec p| = sin(angle/2)
  have hS := den_isSO3 hp.1
  set θ := rotAngle (den .quat p) with hθ
  have hθ0 : 0 ≤ θ := rotAngle_nonneg _
  have ht : (den .quat p).trace = 1 + 2 * Real.cos θ := trace_eq hS
  rw [den_eq] at ht
  have ht2 := trace_sMat hp1
  have hv := vec_norm_sq hp1
  have hc := one_sub_cos_le θ
  change (sMat p).trace = _ at ht
  rw [ht] at ht2
  have h4 : p.vec.norm ^ 2 ≤ (θ / 2) ^ 2 := by rw [hv]; nlinarith
  have h5 : p.vec.norm ≤ θ / 2 := by nlinarith [p.vec.norm_nonneg]
  linarith

/-- **C76 (c).** `A.boxPlus(w).boxMinus(A)` returns `w` for every valid `A` of every class and every `w` with `|w| ≤ 1/2`,
including the vectors below the small-angle thresholds that C22 excludes, up to `6·dp + 32·eps`. -/
theorem C76_boxMinus_boxPlus (P : Prec) (k : Kind) (a : Rep k) (ha : Valid k a) (w : V3) (hw : w.norm ≤ 1 / 2) :
    (boxMinus P k k (boxPlus P k a w) a - w).norm ≤ 6 * P.dp + 32 * P.eps := by
  have he := P.eps_pos
  have hdp := P.dp_pos
  have he' := eps_small P
  have hdp' := P.dp_le
  have hW := den_isSO3 (k := .rv) (r := (⟨w⟩ : RotVec)) trivial
  have h1 : Near (P.eps / 3200) (P.dp + P.eps / 30) k (exponentialMap P k w) (den .rv (⟨w⟩ : RotVec)) :=
    conv_near P k .rv (r := (⟨w⟩ : RotVec)) trivial
  obtain ⟨vi, di⟩ := inverted_spec ha
  have c : Close (3 * P.dp + 16 * P.eps) (den .rv (⟨boxMinus P k k (boxPlus P k a w) a⟩ : RotVec)) (den .rv (⟨w⟩ : RotVec)) := by
    by_cases hm : k = .mat
    · subst hm
      have e : mult P .mat .mat (boxPlus P .mat a w) (inverted .mat a) = exponentialMap P .mat w := by
        change ((exponentialMap P .mat w : M3) * (a : M3)) * (a : M3).transpose = (exponentialMap P .mat w : M3)
        have := (den_isSO3 ha).1
        rw [den_eq] at this
        rw [mul_assoc]
        change (exponentialMap P .mat w : M3) * (dmat .mat a * (dmat .mat a).transpose) = _
        rw [this, mul_one]
      rw [boxMinus, e]
      exact (log_close h1 (by linarith) (by linarith)).mono (by linarith)
    · have n0 := mult_near (P := P) h1 (near_of_valid ha) hW (by linarith) (by linarith) le_rfl (by norm_num)
          (fun h => hm h.1)
      have n1 : Near (P.eps / 800) (102 / 100 * P.dp + P.eps) k (boxPlus P k a w) (den .rv (⟨w⟩ : RotVec) * den k a) := by
        by_cases hq : k = .quat
        · subst hq
          have h2 : NearQ (P.eps / 3200) (P.eps / 800) (quatOfRv P ⟨w⟩) (den .rv (⟨w⟩ : RotVec)) := by
            rw [den_eq]; exact quatOfRv_near P ⟨w⟩
          have h3 : NearQ 0 0 a (den .quat a) := by
            rw [den_eq]; exact NearQ.of_unit ((valid_quat_iff a).mp ha)
          have h4 := h2.mul h3 hW
          have e : boxPlus P .quat a w = quatOfRv P ⟨w⟩ * (a : Quat) := by
            rw [boxPlus, mult_eq P .quat .quat _ _ (fun h => by cases h.1)]; rfl
          rw [e]
          exact NearQ.mono h4 (by linarith) (by linarith)
        · change Near _ _ k (boxPlus P k a w) _ at n0
          cases k
          · exact absurd rfl hq
          · exact absurd rfl hm
          · exact ⟨n0.1, n0.2.mono (by linarith)⟩
          all_goals exact Close.mono n0 (by linarith)
      have n2 := mult_near (P := P) n1 (near_of_valid vi) (SO3.mul hW (den_isSO3 ha)) (by linarith) (by linarith) le_rfl
        (by norm_num) (fun h => hm h.1)
      rw [di, mul_assoc, (den_isSO3 ha).1, mul_one] at n2
      exact (log_close n2 (by linarith) (by linarith)).mono (by linarith)
  set b := boxMinus P k k (boxPlus P k a w) a with hb
  have hbn : b.norm ≤ 1 := by
    have a1 := rotAngle_close (den_isSO3 (k := .rv) (r := ⟨b⟩) trivial) hW c
    have a2 : b.norm ≤ Real.pi := rvGetUnique_norm_le P _
    rw [rotAngle_rv a2] at a1
    have a3 := rotAngle_rv_le (⟨w⟩ : RotVec)
    rw [← den_eq] at a3
    have a3' : rotAngle (den .rv (⟨w⟩ : RotVec)) ≤ w.norm := a3
    have := (abs_le.mp a1).2
    linarith
  exact (rv_lipschitz hbn (hw.trans (by norm_num)) c).trans (by linarith)

/-- non-vacuity of (a): the spin-up of C75 satisfies the hypotheses at `t = 0` with `h = 1/10`, `L = 1`. -/
example : (∀ s ∈ Set.Icc (0 : ℝ) (0 + 1 / 10), ((⟨0, 0, s⟩ : V3) - ⟨0, 0, 0⟩).norm ≤ 1 * (s - 0)) ∧
    (1 / 10 : ℝ) * (⟨0, 0, 0⟩ : V3).norm + 1 * (1 / 10) ^ 2 ≤ 1 / 2 := by
  have hz : (⟨0, 0, 0⟩ : V3).norm = 0 := V3.norm_zero
  refine ⟨fun s hs => ?_, by rw [hz]; norm_num⟩
  rw [V3.norm, V3.normSq, V3.dot]
  simp only [V3.sub_x, V3.sub_y, V3.sub_z, sub_zero]
  rw [show (0 : ℝ) * 0 + 0 * 0 + s * s = s ^ 2 by ring, Real.sqrt_sq hs.1, one_mul]

/-- non-vacuity of (b): a `double` quaternion turned by about `1e-13` is in the dead zone. -/
example : Valid .quat (Quat.ofAngleAxis (1 / 10 ^ 13) V3.unitZ) ∧
    rotAngle (den .quat (Quat.ofAngleAxis (1 / 10 ^ 13) V3.unitZ) * (den .quat (1 : Quat)).transpose) < Prec.double.dp := by
  have hu : V3.unitZ.normSq = 1 := by norm_num [V3.unitZ, V3.normSq, V3.dot]
  have h1 := normSq_ofAngleAxis (1 / 10 ^ 13) hu
  refine ⟨(valid_quat_iff _).mpr h1, ?_⟩
  have e : den .quat (1 : Quat) = 1 := by rw [den_eq]; exact sMat_one
  have e2 : (1 : M3).transpose = 1 := by ext <;> simp
  rw [e, e2, mul_one, den_eq]
  change rotAngle (sMat _) < _
  rw [sMat_ofAngleAxis _ hu, rotAngle_rodMat hu (by positivity) (by linarith [Real.pi_gt_three])]
  norm_num [Prec.double]

end Kindr
