import Verif.Props.Accepted
import Verif.Props.Metric
import Verif.Props.ExpLog
import Verif.Spec.Convention

/-!
# C83: the convention tests for foreign rotation libraries
-/

set_option autoImplicit false

noncomputable section
namespace Kindr
open Spec

/-! ## The rotations used by the tests -/

lemma quatZyx_eq (P : Prec) (a b c : ℝ) : quatZyx P a b c =
    ⟨Real.cos (a / 2) * Real.cos (b / 2) * Real.cos (c / 2) + Real.sin (a / 2) * Real.sin (b / 2) * Real.sin (c / 2),
     Real.cos (a / 2) * Real.cos (b / 2) * Real.sin (c / 2) - Real.sin (a / 2) * Real.sin (b / 2) * Real.cos (c / 2),
     Real.cos (a / 2) * Real.sin (b / 2) * Real.cos (c / 2) + Real.sin (a / 2) * Real.cos (b / 2) * Real.sin (c / 2),
     Real.sin (a / 2) * Real.cos (b / 2) * Real.cos (c / 2) - Real.cos (a / 2) * Real.sin (b / 2) * Real.sin (c / 2)⟩ := by
  have e : ∀ t : ℝ, 1 / 2 * t = t / 2 := fun t => by ring
  change quatOfZyx (EulZyx.mk3 a b c) = _
  ext <;> simp [quatOfZyx, Quat.ofAngleAxis, EulZyx.mk3, EulZyx.x, EulZyx.y, EulZyx.z, V3.unitX, V3.unitY, V3.unitZ, e] <;> ring_nf

lemma quatZyx_unit (P : Prec) (a b c : ℝ) : (quatZyx P a b c).normSq = 1 := quatOfZyx_unit _

lemma quatZyx_valid (P : Prec) (a b c : ℝ) : Valid .quat (quatZyx P a b c) := (valid_quat_iff _).mpr (quatZyx_unit ..)

lemma quatZyx_den (P : Prec) (a b c : ℝ) : den .quat (quatZyx P a b c) = rZ a * rY b * rX c := by
  rw [den_eq]; exact sMat_quatOfZyx (EulZyx.mk3 a b c)

lemma mul_bounds {a b a0 a1 b0 b1 : ℝ} (ha : a0 ≤ a ∧ a ≤ a1) (hb : b0 ≤ b ∧ b ≤ b1) (h0 : 0 ≤ a0) (h1 : 0 ≤ b0) :
    a0 * b0 ≤ a * b ∧ a * b ≤ a1 * b1 :=
  ⟨mul_le_mul ha.1 hb.1 h1 (h0.trans ha.1), mul_le_mul ha.2 hb.2 (h1.trans hb.1) ((h0.trans ha.1).trans ha.2)⟩

lemma trig_bounds {x : ℝ} (h0 : 0 ≤ x) (h1 : x ≤ 1) :
    (1 - x ^ 2 / 2 - x ^ 4 * (5 / 96) ≤ Real.cos x ∧ Real.cos x ≤ 1 - x ^ 2 / 2 + x ^ 4 * (5 / 96)) ∧
    (x - x ^ 3 / 6 - x ^ 5 / 100 ≤ Real.sin x ∧ Real.sin x ≤ x - x ^ 3 / 6 + x ^ 5 / 100) := by
  have a := Real.cos_bound (x := x) (by rw [abs_of_nonneg h0]; exact h1)
  have b := Real.sin_bound (x := x) (by rw [abs_of_nonneg h0]; exact h1)
  rw [abs_of_nonneg h0, abs_le] at a b
  exact ⟨⟨by linarith [a.1], by linarith [a.2]⟩, ⟨by linarith [b.1], by linarith [b.2]⟩⟩

/-- Bounds for the first rotation of the tests. -/
lemma quat1_bounds (P : Prec) : 13 / 100 ≤ (conventionQuat1 P).x ∧ 1 / 10 ≤ (conventionQuat1 P).y := by
  rw [conventionQuat1, quatZyx_eq]
  simp only
  obtain ⟨ca, sa⟩ := trig_bounds (x := (1 / 10 / 2 : ℝ)) (by norm_num) (by norm_num)
  obtain ⟨cb, sb⟩ := trig_bounds (x := (2 / 10 / 2 : ℝ)) (by norm_num) (by norm_num)
  obtain ⟨cc, sc⟩ := trig_bounds (x := (3 / 10 / 2 : ℝ)) (by norm_num) (by norm_num)
  norm_num at ca sa cb sb cc sc ⊢
  generalize Real.cos (1 / 20) = c1 at *
  generalize Real.cos (1 / 10) = c2 at *
  generalize Real.cos (3 / 20) = c3 at *
  generalize Real.sin (1 / 20) = s1 at *
  generalize Real.sin (1 / 10) = s2 at *
  generalize Real.sin (3 / 20) = s3 at *
  have k1 := mul_bounds (mul_bounds ca cb (by norm_num) (by norm_num)) sc (by norm_num) (by norm_num)
  have k2 := mul_bounds (mul_bounds sa sb (by norm_num) (by norm_num)) cc (by norm_num) (by norm_num)
  have k3 := mul_bounds (mul_bounds ca sb (by norm_num) (by norm_num)) cc (by norm_num) (by norm_num)
  have k4 := mul_bounds (mul_bounds sa cb (by norm_num) (by norm_num)) sc (by norm_num) (by norm_num)
  norm_num at k1 k2 k3 k4
  constructor <;> linarith [k1.1, k2.2, k3.1, k4.1]

/-- Bounds for the second rotation of the tests. -/
lemma quat2_bounds (P : Prec) : (88 / 100 ≤ (conventionQuat2 P).w ∧ (conventionQuat2 P).w ≤ 91 / 100) ∧
    (conventionQuat2 P).x ≤ - (1 / 10) ∧ 4 / 10 ≤ (conventionQuat2 P).y ∧ (conventionQuat2 P).z ≤ 0 := by
  rw [conventionQuat2, quatZyx_eq]
  simp only
  rw [show (-(4 / 10) / 2 : ℝ) = -(1 / 5) by norm_num, show (8 / 10 / 2 : ℝ) = 2 / 5 by norm_num,
    show (-(5 / 10) / 2 : ℝ) = -(1 / 4) by norm_num]
  simp only [Real.cos_neg, Real.sin_neg]
  obtain ⟨ca, sa⟩ := trig_bounds (x := (1 / 5 : ℝ)) (by norm_num) (by norm_num)
  obtain ⟨cb, sb⟩ := trig_bounds (x := (2 / 5 : ℝ)) (by norm_num) (by norm_num)
  obtain ⟨cc, sc⟩ := trig_bounds (x := (1 / 4 : ℝ)) (by norm_num) (by norm_num)
  norm_num at ca sa cb sb cc sc ⊢
  generalize Real.cos (1 / 5) = c1 at *
  generalize Real.cos (2 / 5) = c2 at *
  generalize Real.cos (1 / 4) = c3 at *
  generalize Real.sin (1 / 5) = s1 at *
  generalize Real.sin (2 / 5) = s2 at *
  generalize Real.sin (1 / 4) = s3 at *
  have w1 := mul_bounds (mul_bounds ca cb (by norm_num) (by norm_num)) cc (by norm_num) (by norm_num)
  have w2 := mul_bounds (mul_bounds sa sb (by norm_num) (by norm_num)) sc (by norm_num) (by norm_num)
  have k1 := mul_bounds (mul_bounds ca cb (by norm_num) (by norm_num)) sc (by norm_num) (by norm_num)
  have k2 := mul_bounds (mul_bounds sa sb (by norm_num) (by norm_num)) cc (by norm_num) (by norm_num)
  have k3 := mul_bounds (mul_bounds ca sb (by norm_num) (by norm_num)) cc (by norm_num) (by norm_num)
  have k4 := mul_bounds (mul_bounds sa cb (by norm_num) (by norm_num)) sc (by norm_num) (by norm_num)
  have k5 := mul_bounds (mul_bounds sa cb (by norm_num) (by norm_num)) cc (by norm_num) (by norm_num)
  have k6 := mul_bounds (mul_bounds ca sb (by norm_num) (by norm_num)) sc (by norm_num) (by norm_num)
  norm_num at w1 w2 k1 k2 k3 k4 k5 k6
  refine ⟨⟨?_, ?_⟩, ?_, ?_, ?_⟩ <;> linarith [w1.1, w1.2, w2.1, w2.2, k1.1, k2.2, k3.1, k4.1, k5.1, k6.2]

/-! ## Which rotations are clear of the small-angle branches -/

lemma clear_of_angle {P : Prec} {m : M3} (h : IsSO3 m) (ha : 4 / 100 ≤ rotAngle m) : Clear P m := by
  obtain ⟨θ, n, hn, h0, h1, rfl⟩ := exists_rodMat h
  rw [rotAngle_rodMat hn h0 h1] at ha
  have e : (θ • n).norm = θ := by
    rw [V3.norm_smul_nonneg h0, V3.norm_eq_one_iff.mpr hn, mul_one]
  have := clear_of_norm' (P := P) (v := θ • n) (by rw [e]; exact ha) (by rw [e]; exact h1)
  rwa [den_eq, dmat_rv_smul _ hn] at this

lemma cos_rotAngle_quat {q : Quat} (h : q.normSq = 1) : Real.cos (rotAngle (den .quat q)) = 2 * q.w ^ 2 - 1 := by
  have hv : Valid .quat q := (valid_quat_iff q).mpr h
  rw [cos_rotAngle (den_isSO3 hv), den_eq]
  have := trace_sMat h
  change ((sMat q).trace - 1) / 2 = _
  linarith

lemma rotAngle_elem (a : ℝ) : rotAngle (rX a) ≤ |a| ∧ rotAngle (rY a) ≤ |a| ∧ rotAngle (rZ a) ≤ |a| := by
  refine ⟨rotAngle_of_trace ?_, rotAngle_of_trace ?_, rotAngle_of_trace ?_⟩ <;> simp [rX, rY, rZ, M3.trace] <;> ring

lemma angle_bounds (P : Prec) :
    rotAngle (den .quat (conventionQuat1 P)) ≤ 6 / 10 ∧ 4 / 100 ≤ rotAngle (den .quat (conventionQuat1 P)) ∧
    Real.pi / 4 ≤ rotAngle (den .quat (conventionQuat2 P)) ∧ rotAngle (den .quat (conventionQuat2 P)) ≤ Real.pi / 3 := by
  refine ⟨?_, ?_, ?_, ?_⟩
  · rw [conventionQuat1, quatZyx_den]
    have h1 := rotAngle_mul_le (SO3.mul (rZ_isSO3 (1 / 10)) (rY_isSO3 (2 / 10))) (rX_isSO3 (3 / 10))
    have h2 := rotAngle_mul_le (rZ_isSO3 (1 / 10)) (rY_isSO3 (2 / 10))
    have h3 := (rotAngle_elem (1 / 10)).2.2
    have h4 := (rotAngle_elem (2 / 10)).2.1
    have h5 := (rotAngle_elem (3 / 10)).1
    rw [abs_of_pos (by norm_num)] at h3 h4 h5
    linarith
  · have h := cos_rotAngle_quat (quatZyx_unit P (1 / 10) (2 / 10) (3 / 10))
    change Real.cos (rotAngle (den .quat (conventionQuat1 P))) = 2 * (conventionQuat1 P).w ^ 2 - 1 at h
    obtain ⟨hx, hy⟩ := quat1_bounds P
    have hu : (conventionQuat1 P).normSq = 1 := quatZyx_unit ..
    simp only [Quat.normSq] at hu
    have h0 := rotAngle_nonneg (den .quat (conventionQuat1 P))
    have hc := Real.one_sub_sq_div_two_le_cos (x := rotAngle (den .quat (conventionQuat1 P)))
    by_contra hlt
    push Not at hlt
    have : rotAngle (den .quat (conventionQuat1 P)) ^ 2 ≤ (4 / 100) ^ 2 := pow_le_pow_left₀ h0 hlt.le 2
    nlinarith [mul_self_nonneg (conventionQuat1 P).y, mul_self_nonneg (conventionQuat1 P).z]
  · have h := cos_rotAngle_quat (quatZyx_unit P (-(4 / 10)) (8 / 10) (-(5 / 10)))
    change Real.cos (rotAngle (den .quat (conventionQuat2 P))) = 2 * (conventionQuat2 P).w ^ 2 - 1 at h
    obtain ⟨⟨h1, h2⟩, -⟩ := quat2_bounds P
    by_contra hlt
    push Not at hlt
    have hc := Real.cos_lt_cos_of_nonneg_of_le_pi (rotAngle_nonneg _) (by linarith [Real.pi_pos]) hlt
    rw [h, Real.cos_pi_div_four] at hc
    have : (14 / 10 : ℝ) ≤ √2 := Real.le_sqrt_of_sq_le (by norm_num)
    nlinarith
  · have h := cos_rotAngle_quat (quatZyx_unit P (-(4 / 10)) (8 / 10) (-(5 / 10)))
    change Real.cos (rotAngle (den .quat (conventionQuat2 P))) = 2 * (conventionQuat2 P).w ^ 2 - 1 at h
    obtain ⟨⟨h1, h2⟩, -⟩ := quat2_bounds P
    by_contra hlt
    push Not at hlt
    have hc := Real.cos_lt_cos_of_nonneg_of_le_pi (by positivity) (rotAngle_le_pi _) hlt
    rw [h, Real.cos_pi_div_three] at hc
    nlinarith

lemma rotAngle_mul_ge {a b : M3} (ha : IsSO3 a) (hb : IsSO3 b) : rotAngle a - rotAngle b ≤ rotAngle (a * b) := by
  have h := rotAngle_mul_le (SO3.mul ha hb) (SO3.transpose hb)
  rw [mul_assoc, hb.1, mul_one, rotAngle_transpose] at h
  linarith

lemma rotAngle_mul_comm {a b : M3} : rotAngle (a * b) = rotAngle (b * a) := by
  rw [rotAngle, rotAngle]; congr 3; simp [M3.trace]; ring

lemma velocity_norm : 12 / 10 ≤ conventionVelocity.norm ∧ conventionVelocity.norm ≤ 13 / 10 := by
  have h : conventionVelocity.norm ^ 2 = 155 / 100 := by
    rw [V3.norm_sq]; norm_num [conventionVelocity, V3.normSq, V3.dot]
  have h0 := conventionVelocity.norm_nonneg
  constructor <;> nlinarith

/-- None of the rotations in the tests is tiny. -/
lemma clear_all (P : Prec) : Clear P (den .quat (conventionQuat1 P)) ∧ Clear P (den .quat (conventionQuat2 P)) ∧
    Clear P (den .quat (conventionQuat2 P) * den .quat (conventionQuat1 P)) ∧
    Clear P (den .quat (conventionQuat1 P) * den .quat (conventionQuat2 P)) ∧
    Clear P (den .rv (⟨conventionVelocity⟩ : RotVec)) ∧
    Clear P (den .rv (⟨conventionVelocity⟩ : RotVec) * den .quat (conventionQuat2 P)) ∧
    Clear P (den .quat (conventionQuat2 P) * den .rv (⟨conventionVelocity⟩ : RotVec)) := by
  obtain ⟨a1, a2, b1, b2⟩ := angle_bounds P
  have hpi := Real.pi_gt_d2
  have hpi' := Real.pi_lt_d2
  have s1 := den_isSO3 (k := .quat) (r := conventionQuat1 P) (quatZyx_valid ..)
  have s2 := den_isSO3 (k := .quat) (r := conventionQuat2 P) (quatZyx_valid ..)
  have s3 := den_isSO3 (k := .rv) (r := (⟨conventionVelocity⟩ : RotVec)) trivial
  have vn := velocity_norm
  have e3 := rotAngle_rv (v := conventionVelocity) (by linarith [vn.2])
  have g := rotAngle_mul_ge s2 s1
  have g' := rotAngle_mul_ge s3 s2
  have g1 := g
  rw [rotAngle_mul_comm] at g1
  have g1' := g'
  rw [rotAngle_mul_comm] at g1'
  refine ⟨clear_of_angle s1 a2, clear_of_angle s2 (by linarith), clear_of_angle (SO3.mul s2 s1) (by linarith),
    clear_of_angle (SO3.mul s1 s2) (by linarith), clear_of_angle s3 (by rw [e3]; linarith [vn.1]),
    clear_of_angle (SO3.mul s3 s2) ?_, clear_of_angle (SO3.mul s2 s3) ?_⟩ <;> rw [e3] at g' g1' <;> linarith [vn.1]

/-! ## C83 (1): a library with the conventions of kindr passes -/

lemma cmp_self (a t : ℝ) (ht : 0 ≤ t) : compareRelative a a t = true := (C27_compareRelative a a t t).1 ht

lemma vecNear_self (v : V3) : vecNear v v (1 / 1000) = true := by
  simp [vecNear, cmp_self]

lemma matNear_self (m : M3) : matNear m m (1 / 1000) = true := by
  simp [matNear, cmp_self]

lemma isNear_quat {P : Prec} {p q : Quat} (hp : Valid .quat p) (hq : Valid .quat q) :
    isNear P .quat .quat p q (1 / 1000) = true ↔ rotAngle (den .quat p * (den .quat q).transpose) ≤ 1 / 1000 :=
  (C20_isNear P .quat .quat p q hp hq (pairClear_of_nonrv (by decide) (by decide)) _).1

lemma isNear_of_eq {P : Prec} {p q : Quat} (hp : Valid .quat p) (hq : Valid .quat q) (h : den .quat p = den .quat q) :
    isNear P .quat .quat p q (1 / 1000) = true := by
  rw [isNear_quat hp hq, h, (den_isSO3 hq).1, rotAngle_one]; norm_num

lemma elem_clear (P : Prec) : Clear P (rX (Real.pi / 4)) ∧ Clear P (rY (Real.pi / 4)) ∧ Clear P (rZ (Real.pi / 4)) := by
  have hpi := Real.pi_gt_three
  have e : Real.arccos (Real.cos (Real.pi / 4)) = Real.pi / 4 := Real.arccos_cos (by linarith) (by linarith)
  have k : ∀ m : M3, m.trace = 1 + 2 * Real.cos (Real.pi / 4) → rotAngle m = Real.pi / 4 := fun m h => by
    rw [rotAngle, h, show (1 + 2 * Real.cos (Real.pi / 4) - 1) / 2 = Real.cos (Real.pi / 4) by ring, e]
  refine ⟨clear_of_angle (rX_isSO3 _) ?_, clear_of_angle (rY_isSO3 _) ?_, clear_of_angle (rZ_isSO3 _) ?_⟩ <;>
    rw [k _ (by simp only [rX, rY, rZ, M3.trace]; ring)] <;> linarith

lemma elem_den (P : Prec) (a : ℝ) : den .quat (quatZyx P a 0 0) = rZ a ∧ den .quat (quatZyx P 0 a 0) = rY a ∧
    den .quat (quatZyx P 0 0 a) = rX a := by
  simp only [quatZyx_den]
  refine ⟨?_, ?_, ?_⟩ <;> ext <;> simp [rX, rY, rZ]

/-- **C83 (1).** A library that follows the conventions of kindr (on the rotations that are not tiny) passes all four tests. -/
theorem C83_accepts (P : Prec) (L : OtherLib) (ok : L.Rot → Prop) (rep : L.Rot → M3) (h : Implements (Clear P) L ok rep) :
    testConcatenation P L = true ∧ testRotationMatrix P L = true ∧ testGeometricalInterpretation P L = true ∧
    testBoxPlus P L = true := by
  obtain ⟨c1, c2, c21, -, cv, cv2, -⟩ := clear_all P
  have v1 : Valid .quat (conventionQuat1 P) := quatZyx_valid ..
  have v2 : Valid .quat (conventionQuat2 P) := quatZyx_valid ..
  obtain ⟨o1, r1⟩ := h.toOther _ v1 c1
  obtain ⟨o2, r2⟩ := h.toOther _ v2 c2
  refine ⟨?_, ?_, ?_, ?_⟩
  · obtain ⟨o3, r3⟩ := h.concat _ _ o1 o2 (r1 ▸ c1) (r2 ▸ c2) (by rw [r1, r2]; exact c21)
    rw [r1, r2] at r3
    obtain ⟨v4, r4⟩ := h.toKindr _ o3 (r3 ▸ c21)
    obtain ⟨v5, r5⟩ := mult_spec (P := P) (k₁ := .quat) (k₂ := .quat) v2 v1 (fun h => by cases h) (fun h => by cases h) (fun h => by cases h)
    exact isNear_of_eq v4 v5 (by rw [r4, r3, r5])
  · obtain ⟨v3, r3⟩ := conv_nonrv (P := P) (d := .mat) (s := .quat) v2 (by decide) (fun h => by cases h)
    have e : (conv P .mat .quat (conventionQuat2 P) : M3) = L.matrix (L.toOther (conventionQuat2 P)) := by
      rw [h.matrix _ o2 (r2 ▸ c2), r2, ← r3, den_eq]; rfl
    change matNear _ _ _ = true
    rw [e]; exact matNear_self _
  · obtain ⟨cx, cy, cz⟩ := elem_clear P
    obtain ⟨dz, dy, dx⟩ := elem_den P (Real.pi / 4)
    have k : ∀ (q : Quat) (R : M3), Valid .quat q → den .quat q = R → Clear P R →
        checkGeometricalInterpretation L q (R.mulVec V3.unitX) (R.mulVec V3.unitY) (R.mulVec V3.unitZ) = true := by
      intro q R hq hd hc
      obtain ⟨oq, rq⟩ := h.toOther q hq (hd ▸ hc)
      have cq : Clear P (rep (L.toOther q)) := by rw [rq, hd]; exact hc
      simp only [checkGeometricalInterpretation, h.matrix _ oq cq, h.rotateVec _ _ oq cq, rq, hd, vecNear_self, Bool.and_self]
    have kz := k _ _ (quatZyx_valid ..) dz cz
    have ky := k _ _ (quatZyx_valid ..) dy cy
    have kx := k _ _ (quatZyx_valid ..) dx cx
    simp only [testGeometricalInterpretation, Bool.and_eq_true]
    refine ⟨⟨?_, ?_⟩, ?_⟩
    · convert kz using 2 <;> ext <;> simp [rZ, V3.unitX, V3.unitY, V3.unitZ]
    · convert ky using 2 <;> ext <;> simp [rY, V3.unitX, V3.unitY, V3.unitZ]
    · convert kx using 2 <;> ext <;> simp [rX, V3.unitX, V3.unitY, V3.unitZ]
  · obtain ⟨o3, r3⟩ := h.boxPlus _ conventionVelocity o2 (r2 ▸ c2) cv (by rw [r2]; exact cv2)
    rw [r2] at r3
    obtain ⟨v4, r4⟩ := h.toKindr _ o3 (r3 ▸ cv2)
    obtain ⟨ve, re⟩ := exp_spec (k := .quat) cv
    obtain ⟨v5, r5⟩ := mult_spec (P := P) (k₁ := .quat) (k₂ := .quat) ve v2 (fun h => by cases h) (fun h => by cases h) (fun h => by cases h)
    exact isNear_of_eq v5 v4 (by rw [r4, r3, ← re]; exact r5)

/-- The classes of kindr follow the conventions of kindr. -/
theorem C83_kindr_implements (P : Prec) (k : Kind) : Implements (Clear P) (kindrLib P k) (Valid k) (den k) where
  toOther q hq hc := conv_from_nonrv (P := P) (d := k) (s := .quat) hq (by decide) (fun _ => hc)
  toKindr r hr hc := conv_nonrv (P := P) (d := .quat) (s := k) hr (by decide) (fun _ => hc)
  matrix r hr hc := by
    obtain ⟨-, e⟩ := conv_nonrv (P := P) (d := .mat) (s := k) hr (by decide) (fun _ => hc)
    rw [← e, den_eq]; rfl
  rotateVec r v hr hc := by
    obtain ⟨-, e⟩ := conv_nonrv (P := P) (d := .mat) (s := k) hr (by decide) (fun _ => hc)
    rw [← e, den_eq]; rfl
  concat a b ha hb ca cb cab := mult_spec (P := P) hb ha (fun _ => cb) (fun _ => ca) (fun _ => cab)
  boxPlus r w hr hc hw hwr := by
    obtain ⟨ve, re⟩ := exp_spec (k := k) hw
    have := mult_spec (P := P) ve hr (fun _ => re ▸ hw) (fun _ => hc) (fun _ => by rw [re]; exact hwr)
    rw [re] at this
    exact this

/-- **C83 (1), instance.** Every rotation class of kindr passes its own convention tests (test/rotations/ConventionTest.cpp). -/
theorem C83_kindr_passes (P : Prec) (k : Kind) :
    testConcatenation P (kindrLib P k) = true ∧ testRotationMatrix P (kindrLib P k) = true ∧
    testGeometricalInterpretation P (kindrLib P k) = true ∧ testBoxPlus P (kindrLib P k) = true :=
  C83_accepts P _ _ _ (C83_kindr_implements P k)

lemma den_quat (q : Quat) : den .quat q = sMat q := by rw [den_eq]; rfl

/-! ## C83 (2): the geometrical test pins the convention -/

lemma cmp_close {a b : ℝ} (h : compareRelative a b (1 / 1000) = true) (ha : |a| ≤ 1) (hb : |b| ≤ 1) : |a - b| ≤ 1 / 10 ^ 5 := by
  by_cases hs : (|a| < 1 / 10 ^ 15 ∧ |b| < 1 / 10 ^ 15) ∨ (|a| = 0 ∧ |b| < 1 / 10 ^ 6) ∨ (|b| = 0 ∧ |a| < 1 / 10 ^ 6)
  · have h1 := abs_sub a b
    rcases hs with ⟨h2, h3⟩ | ⟨h2, h3⟩ | ⟨h2, h3⟩ <;> norm_num at h2 h3 ⊢ <;> try linarith
    · rw [h2, zero_sub, abs_neg]; linarith
    · rw [h2, sub_zero]; linarith
  · have h1 := (C27_compareRelative_iff a b (1 / 1000) hs).mp h
    have : max |a| |b| ≤ 1 := max_le ha hb
    norm_num at h1 ⊢
    linarith

/-- The three column comparisons of `checkGeometricalInterpretation`. -/
def columnsNear (R M : M3) : Bool :=
  vecNear (R.mulVec V3.unitX) (M.mulVec V3.unitX) (1 / 1000) && vecNear (R.mulVec V3.unitY) (M.mulVec V3.unitY) (1 / 1000) &&
  vecNear (R.mulVec V3.unitZ) (M.mulVec V3.unitZ) (1 / 1000)

lemma columnsNear_entry {R M : M3} (hR : IsSO3 R) (hM : IsSO3 M) (h : columnsNear R M = true) : EntryClose (1 / 10 ^ 5) M R := by
  obtain ⟨a0, a1, a2, a3, a4, a5, a6, a7, a8⟩ := so3_entry_le hR
  obtain ⟨b0, b1, b2, b3, b4, b5, b6, b7, b8⟩ := so3_entry_le hM
  simp only [sub_zero] at *
  simp only [columnsNear, vecNear, Bool.and_eq_true, V3.unitX, V3.unitY, V3.unitZ, M3.mulVec_x, M3.mulVec_y, M3.mulVec_z, mul_one,
    mul_zero, add_zero, zero_add] at h
  obtain ⟨⟨⟨⟨c0, c3⟩, c6⟩, ⟨c1, c4⟩, c7⟩, ⟨c2, c5⟩, c8⟩ := h
  refine ⟨?_, ?_, ?_, ?_, ?_, ?_, ?_, ?_, ?_⟩ <;> rw [abs_sub_comm]
  · exact cmp_close c0 a0 b0
  · exact cmp_close c1 a1 b1
  · exact cmp_close c2 a2 b2
  · exact cmp_close c3 a3 b3
  · exact cmp_close c4 a4 b4
  · exact cmp_close c5 a5 b5
  · exact cmp_close c6 a6 b6
  · exact cmp_close c7 a7 b7
  · exact cmp_close c8 a8 b8

lemma orth_flip {U : M3} (h : U * U.transpose = 1) : IsSO3 (U.det • U) ∧
    ∀ A : M3, U * A * U.transpose = (U.det • U) * A * (U.det • U).transpose := by
  have hd : U.det * U.det = 1 := by
    have := congrArg M3.det h
    rwa [M3.det_mul, M3.det_transpose, M3.det_one] at this
  refine ⟨⟨?_, ?_⟩, fun A => ?_⟩
  · have e : (U.det • U) * (U.det • U).transpose = (U.det * U.det) • (U * U.transpose) := by
      ext <;> simp <;> ring
    rw [e, hd, h, one_smul]
  · have e : (U.det • U).det = U.det * U.det * (U.det * U.det) := by
      have : ∀ c : ℝ, (c • U).det = c * c * (c * U.det) := fun c => by simp [M3.det]; ring
      rw [this]
    rw [e, hd, one_mul]
  · have e : (U.det • U) * A * (U.det • U).transpose = (U.det * U.det) • (U * A * U.transpose) := by
      ext <;> simp <;> ring
    rw [e, hd, one_smul]

lemma skew_of_conj {D : M3} (h : IsSO3 D) (s c : ℝ) :
    (∀ A : M3, A = ⟨c, -s, 0, s, c, 0, 0, 0, 1⟩ → (D * A * D.transpose).m10 - (D * A * D.transpose).m01 = 2 * s * D.m22 ∧
      (D * A * D.transpose).m02 - (D * A * D.transpose).m20 = 2 * s * D.m12 ∧
      (D * A * D.transpose).m21 - (D * A * D.transpose).m12 = 2 * s * D.m02) ∧
    (∀ A : M3, A = ⟨c, 0, s, 0, 1, 0, -s, 0, c⟩ → (D * A * D.transpose).m10 - (D * A * D.transpose).m01 = 2 * s * D.m21 ∧
      (D * A * D.transpose).m02 - (D * A * D.transpose).m20 = 2 * s * D.m11 ∧
      (D * A * D.transpose).m21 - (D * A * D.transpose).m12 = 2 * s * D.m01) ∧
    (∀ A : M3, A = ⟨1, 0, 0, 0, c, -s, 0, s, c⟩ → (D * A * D.transpose).m10 - (D * A * D.transpose).m01 = 2 * s * D.m20 ∧
      (D * A * D.transpose).m02 - (D * A * D.transpose).m20 = 2 * s * D.m10 ∧
      (D * A * D.transpose).m21 - (D * A * D.transpose).m12 = 2 * s * D.m00) := by
  have k := SO3.adj_eq h
  rw [M3.ext_iff] at k
  simp only [M3.adj, M3.transpose_m00, M3.transpose_m01, M3.transpose_m02, M3.transpose_m10, M3.transpose_m11, M3.transpose_m12, M3.transpose_m20,
    M3.transpose_m21, M3.transpose_m22] at k
  obtain ⟨k0, k1, k2, k3, k4, k5, k6, k7, k8⟩ := k
  refine ⟨?_, ?_, ?_⟩ <;> rintro A rfl <;> refine ⟨?_, ?_, ?_⟩ <;> simp only [M3.mul_m00, M3.mul_m01, M3.mul_m02, M3.mul_m10, M3.mul_m11, M3.mul_m12, M3.mul_m20,
    M3.mul_m21, M3.mul_m22, M3.transpose_m00, M3.transpose_m01, M3.transpose_m02, M3.transpose_m10, M3.transpose_m11, M3.transpose_m12, M3.transpose_m20,
    M3.transpose_m21, M3.transpose_m22]
  · linear_combination 2 * s * k8
  · linear_combination 2 * s * k7
  · linear_combination 2 * s * k6
  · linear_combination 2 * s * k5
  · linear_combination 2 * s * k4
  · linear_combination 2 * s * k3
  · linear_combination 2 * s * k2
  · linear_combination 2 * s * k1
  · linear_combination 2 * s * k0

/-- Nine numbers `D` with `|2 s D - 2 s δ| ≤ 2e-5`. -/
lemma scaled_close {s d e x y r r' : ℝ} (hs : 7 / 10 ≤ s) (hx : |x - r| ≤ 1 / 10 ^ 5) (hy : |y - r'| ≤ 1 / 10 ^ 5)
    (h : x - y = 2 * s * d) (h' : r - r' = 2 * s * e) : |d - e| ≤ 15 / 10 ^ 6 := by
  rw [abs_le] at *
  norm_num at *
  constructor <;> nlinarith [hx.1, hx.2, hy.1, hy.2]

/-- Core of the soundness proof: the three elementary rotations determine the change of axes. -/
lemma axes_of_columns {D : M3} (hD : IsSO3 D) {s c : ℝ} (hs : 7 / 10 ≤ s) (active : Bool) (f : M3 → M3)
    (hf : f = fun A => D * (if active then A else A.transpose) * D.transpose)
    (hz : EntryClose (1 / 10 ^ 5) (f ⟨c, -s, 0, s, c, 0, 0, 0, 1⟩) ⟨c, -s, 0, s, c, 0, 0, 0, 1⟩)
    (hy : EntryClose (1 / 10 ^ 5) (f ⟨c, 0, s, 0, 1, 0, -s, 0, c⟩) ⟨c, 0, s, 0, 1, 0, -s, 0, c⟩)
    (hx : EntryClose (1 / 10 ^ 5) (f ⟨1, 0, 0, 0, c, -s, 0, s, c⟩) ⟨1, 0, 0, 0, c, -s, 0, s, c⟩) :
    EntryClose (15 / 10 ^ 6) D (if active then 1 else -(1 : ℝ) • (1 : M3)) := by
  obtain ⟨-, z1, z2, z3, -, z5, z6, z7, -⟩ := hz
  obtain ⟨-, y1, y2, y3, -, y5, y6, y7, -⟩ := hy
  obtain ⟨-, x1, x2, x3, -, x5, x6, x7, -⟩ := hx
  simp only at z1 z2 z3 z5 z6 z7 y1 y2 y3 y5 y6 y7 x1 x2 x3 x5 x6 x7
  cases active
  · simp only [Bool.false_eq_true, if_false] at hf ⊢
    obtain ⟨kz, ky, kx⟩ := skew_of_conj hD (-s) c
    have ez : f ⟨c, -s, 0, s, c, 0, 0, 0, 1⟩ = D * ⟨c, -(-s), 0, -s, c, 0, 0, 0, 1⟩ * D.transpose := by
      rw [hf]; ext <;> simp
    have ey : f ⟨c, 0, s, 0, 1, 0, -s, 0, c⟩ = D * ⟨c, 0, -s, 0, 1, 0, -(-s), 0, c⟩ * D.transpose := by
      rw [hf]; ext <;> simp
    have ex : f ⟨1, 0, 0, 0, c, -s, 0, s, c⟩ = D * ⟨1, 0, 0, 0, c, -(-s), 0, -s, c⟩ * D.transpose := by
      rw [hf]; ext <;> simp
    obtain ⟨a1, a2, a3⟩ := kz _ rfl
    obtain ⟨b1, b2, b3⟩ := ky _ rfl
    obtain ⟨c1, c2, c3⟩ := kx _ rfl
    rw [← ez] at a1 a2 a3
    rw [← ey] at b1 b2 b3
    rw [← ex] at c1 c2 c3
    have neg : ∀ {d e : ℝ}, |-d - e| ≤ 15 / 10 ^ 6 → |d - -e| ≤ 15 / 10 ^ 6 := fun {d e} h => by
      rwa [← abs_neg, show -(d - -e) = -d - e by ring]
    have fin : ∀ {x y r r' d e : ℝ}, |x - r| ≤ 1 / 10 ^ 5 → |y - r'| ≤ 1 / 10 ^ 5 → x - y = 2 * -s * d → r - r' = 2 * s * e →
        |d - -e| ≤ 15 / 10 ^ 6 := fun {x y r r' d e} h1 h2 h3 h4 =>
      neg (scaled_close hs h1 h2 (by linarith : x - y = 2 * s * -d) h4)
    refine ⟨?_, ?_, ?_, ?_, ?_, ?_, ?_, ?_, ?_⟩
    · simpa using fin (e := 1) x7 x5 c3 (by ring)
    · simpa using fin (e := 0) y7 y5 b3 (by ring)
    · simpa using fin (e := 0) z7 z5 a3 (by ring)
    · simpa using fin (e := 0) x2 x6 c2 (by ring)
    · simpa using fin (e := 1) y2 y6 b2 (by ring)
    · simpa using fin (e := 0) z2 z6 a2 (by ring)
    · simpa using fin (e := 0) x3 x1 c1 (by ring)
    · simpa using fin (e := 0) y3 y1 b1 (by ring)
    · simpa using fin (e := 1) z3 z1 a1 (by ring)
  · simp only [if_true] at hf ⊢
    obtain ⟨kz, ky, kx⟩ := skew_of_conj hD s c
    obtain ⟨a1, a2, a3⟩ := kz _ rfl
    obtain ⟨b1, b2, b3⟩ := ky _ rfl
    obtain ⟨c1, c2, c3⟩ := kx _ rfl
    rw [hf] at z1 z2 z3 z5 z6 z7 y1 y2 y3 y5 y6 y7 x1 x2 x3 x5 x6 x7
    refine ⟨?_, ?_, ?_, ?_, ?_, ?_, ?_, ?_, ?_⟩
    · exact scaled_close (e := 1) hs x7 x5 c3 (by ring)
    · exact scaled_close (e := 0) hs y7 y5 b3 (by ring)
    · exact scaled_close (e := 0) hs z7 z5 a3 (by ring)
    · exact scaled_close (e := 0) hs x2 x6 c2 (by ring)
    · exact scaled_close (e := 1) hs y2 y6 b2 (by ring)
    · exact scaled_close (e := 0) hs z2 z6 a2 (by ring)
    · exact scaled_close (e := 0) hs x3 x1 c1 (by ring)
    · exact scaled_close (e := 0) hs y3 y1 b1 (by ring)
    · exact scaled_close (e := 1) hs z3 z1 a1 (by ring)

/-- A fixed convention that reproduces the three elementary rotations of the test is the convention of kindr. -/
lemma convention_pinned (P : Prec) (m : Quat → M3) (active : Bool) (U : M3) (h : FixedConvention m active U)
    (hz : columnsNear (rZ (Real.pi / 4)) (m (quatZyx P (Real.pi / 4) 0 0)) = true)
    (hy : columnsNear (rY (Real.pi / 4)) (m (quatZyx P 0 (Real.pi / 4) 0)) = true)
    (hx : columnsNear (rX (Real.pi / 4)) (m (quatZyx P 0 0 (Real.pi / 4))) = true) :
    active = true ∧ ∀ q, Valid .quat q → Close (1 / 10 ^ 4) (m q) (den .quat q) := by
  obtain ⟨hU, hm⟩ := h
  obtain ⟨hD, hflip⟩ := orth_flip hU
  obtain ⟨D, hDe⟩ : ∃ D, D = U.det • U := ⟨_, rfl⟩
  rw [← hDe] at hD hflip
  obtain ⟨dz, dy, dx⟩ := elem_den P (Real.pi / 4)
  have hm' : ∀ q, Valid .quat q → m q = D * (if active then den .quat q else (den .quat q).transpose) * D.transpose := fun q hq => by
    rw [hm q hq, hflip]
  have so : ∀ q, Valid .quat q → IsSO3 (m q) := fun q hq => by
    rw [hm' q hq]
    have hR := den_isSO3 hq
    cases active
    · exact SO3.mul (SO3.mul hD (SO3.transpose hR)) (SO3.transpose hD)
    · exact SO3.mul (SO3.mul hD hR) (SO3.transpose hD)
  have ez := columnsNear_entry (rZ_isSO3 _) (so _ (quatZyx_valid ..)) hz
  have ey := columnsNear_entry (rY_isSO3 _) (so _ (quatZyx_valid ..)) hy
  have ex := columnsNear_entry (rX_isSO3 _) (so _ (quatZyx_valid ..)) hx
  rw [hm' _ (quatZyx_valid ..), dz] at ez
  rw [hm' _ (quatZyx_valid ..), dy] at ey
  rw [hm' _ (quatZyx_valid ..), dx] at ex
  have hs : 7 / 10 ≤ Real.sin (Real.pi / 4) := by
    rw [Real.sin_pi_div_four]
    have : (14 / 10 : ℝ) ≤ √2 := Real.le_sqrt_of_sq_le (by norm_num)
    linarith
  have key := axes_of_columns hD hs active (fun A => D * (if active then A else A.transpose) * D.transpose) rfl ez ey ex
  cases active
  · exfalso
    simp only [Bool.false_eq_true, if_false] at key
    obtain ⟨a0, a1, -, a3, a4, -, -, -, a8⟩ := key
    have k := (SO3.rel hD).k22
    simp at a0 a1 a3 a4 a8
    rw [abs_le] at a0 a1 a3 a4 a8
    norm_num at a0 a1 a3 a4 a8
    nlinarith [a0.1, a0.2, a1.1, a1.2, a3.1, a3.2, a4.1, a4.2, a8.1, a8.2]
  · refine ⟨rfl, fun q hq => ?_⟩
    rw [hm' q hq]
    simp only [if_true] at key ⊢
    have hR := den_isSO3 hq
    have c1 := key.close
    have c2 := (c1.mul_right hR).mul c1.transpose (SO3.transpose hD) (SO3.mul SO3.one hR)
    rw [one_mul, M3.transpose_one, mul_one] at c2
    exact c2.mono (by norm_num)

/-- The six comparisons of `checkGeometricalInterpretation` are the column comparisons of the matrix and of `rotateVector`. -/
lemma check_columns {L : OtherLib} {q : Quat} {R N : M3} (hN : ∀ v, L.rotateVec (L.toOther q) v = N.mulVec v) {ex ey ez : V3}
    (h1 : ex = R.mulVec V3.unitX) (h2 : ey = R.mulVec V3.unitY) (h3 : ez = R.mulVec V3.unitZ)
    (h : checkGeometricalInterpretation L q ex ey ez = true) :
    columnsNear R (L.matrix (L.toOther q)) = true ∧ columnsNear R N = true := by
  subst h1 h2 h3
  simp only [checkGeometricalInterpretation, hN, Bool.and_eq_true] at h
  simp only [columnsNear, Bool.and_eq_true]
  tauto

lemma check_columns_matrix {L : OtherLib} {q : Quat} {R : M3} {ex ey ez : V3}
    (h1 : ex = R.mulVec V3.unitX) (h2 : ey = R.mulVec V3.unitY) (h3 : ez = R.mulVec V3.unitZ)
    (h : checkGeometricalInterpretation L q ex ey ez = true) :
    columnsNear R (L.matrix (L.toOther q)) = true := by
  subst h1 h2 h3
  simp only [checkGeometricalInterpretation, Bool.and_eq_true] at h
  simp only [columnsNear, Bool.and_eq_true]
  tauto

/-- **C83 (2).** `testGeometricalInterpretation` pins the convention of the rotation matrices: if the matrices of the library
are those of kindr or their inverses in *any* fixed orthogonal axes and the test passes, then they are not inverted and agree
with kindr to `1e-4` for **every** rotation and every vector. -/
theorem C83_matrix_pinned (P : Prec) (L : OtherLib) (active : Bool) (U : M3)
    (h : FixedConvention (fun q => L.matrix (L.toOther q)) active U) (ht : testGeometricalInterpretation P L = true) :
    active = true ∧ ∀ q v, Valid .quat q →
      ((L.matrix (L.toOther q)).mulVec v - act .quat q v).norm ≤ 1 / 10 ^ 4 * v.norm := by
  simp only [testGeometricalInterpretation, Bool.and_eq_true] at ht
  obtain ⟨⟨tz, ty⟩, tx⟩ := ht
  have kz := check_columns_matrix (R := rZ (Real.pi / 4)) (by ext <;> simp [rZ, V3.unitX]) (by ext <;> simp [rZ, V3.unitY])
    (by ext <;> simp [rZ, V3.unitZ]) tz
  have ky := check_columns_matrix (R := rY (Real.pi / 4)) (by ext <;> simp [rY, V3.unitX]) (by ext <;> simp [rY, V3.unitY])
    (by ext <;> simp [rY, V3.unitZ]) ty
  have kx := check_columns_matrix (R := rX (Real.pi / 4)) (by ext <;> simp [rX, V3.unitX]) (by ext <;> simp [rX, V3.unitY])
    (by ext <;> simp [rX, V3.unitZ]) tx
  obtain ⟨ha, hc⟩ := convention_pinned P _ active U h kz ky kx
  exact ⟨ha, fun q v hq => by rw [act_eq]; exact hc q hq v⟩

/-- **C83 (2), `rotateVector`.** The same for the function that rotates vectors. -/
theorem C83_rotateVector_pinned (P : Prec) (L : OtherLib) (m : Quat → M3) (active : Bool) (U : M3)
    (h : FixedConvention m active U) (hm : ∀ q v, Valid .quat q → L.rotateVec (L.toOther q) v = (m q).mulVec v)
    (ht : testGeometricalInterpretation P L = true) :
    active = true ∧ ∀ q v, Valid .quat q → (L.rotateVec (L.toOther q) v - act .quat q v).norm ≤ 1 / 10 ^ 4 * v.norm := by
  simp only [testGeometricalInterpretation, Bool.and_eq_true] at ht
  obtain ⟨⟨tz, ty⟩, tx⟩ := ht
  have kz := (check_columns (R := rZ (Real.pi / 4)) (fun v => hm _ v (quatZyx_valid ..)) (by ext <;> simp [rZ, V3.unitX])
    (by ext <;> simp [rZ, V3.unitY]) (by ext <;> simp [rZ, V3.unitZ]) tz).2
  have ky := (check_columns (R := rY (Real.pi / 4)) (fun v => hm _ v (quatZyx_valid ..)) (by ext <;> simp [rY, V3.unitX])
    (by ext <;> simp [rY, V3.unitY]) (by ext <;> simp [rY, V3.unitZ]) ty).2
  have kx := (check_columns (R := rX (Real.pi / 4)) (fun v => hm _ v (quatZyx_valid ..)) (by ext <;> simp [rX, V3.unitX])
    (by ext <;> simp [rX, V3.unitY]) (by ext <;> simp [rX, V3.unitZ]) tx).2
  obtain ⟨ha, hc⟩ := convention_pinned P _ active U h kz ky kx
  exact ⟨ha, fun q v hq => by rw [hm q v hq, act_eq]; exact hc q hq v⟩

/-- Non-vacuity: a library that stores quaternions and uses them like kindr meets the hypotheses (and passes). -/
example (P : Prec) : FixedConvention (fun q => (kindrLib P .quat).matrix ((kindrLib P .quat).toOther q)) true 1 ∧
    testGeometricalInterpretation P (kindrLib P .quat) = true := by
  refine ⟨⟨by simp, fun q hq => ?_⟩, (C83_kindr_passes P .quat).2.2.1⟩
  obtain ⟨-, e⟩ := conv_nonrv (P := P) (d := .mat) (s := .quat) hq (by decide) (fun h => by cases h)
  simp only [if_true, one_mul, M3.transpose_one, mul_one]
  rw [← e, den_eq]; rfl

/-- The inverse convention, and axes turned by a half turn about `x` (`y` to the right, `z` down instead of `y` to the left, `z` up),
are rejected. -/
example (P : Prec) (L : OtherLib)
    (h : FixedConvention (fun q => L.matrix (L.toOther q)) false 1 ∨
      FixedConvention (fun q => L.matrix (L.toOther q)) true ⟨1, 0, 0, 0, -1, 0, 0, 0, -1⟩) :
    testGeometricalInterpretation P L = false := by
  rw [← Bool.not_eq_true]
  intro ht
  rcases h with h | h
  · exact absurd (C83_matrix_pinned P L _ _ h ht).1 (by decide)
  · have hq : Valid .quat (⟨Real.cos (Real.pi / 4), 0, Real.sin (Real.pi / 4), 0⟩ : Quat) := by
      simp only [Valid]; nlinarith [Real.sin_sq_add_cos_sq (Real.pi / 4)]
    have k := (C83_matrix_pinned P L _ _ h ht).2 _ ⟨1, 0, 0⟩ hq
    have hn : (⟨1, 0, 0⟩ : V3).norm = 1 := V3.norm_eq_one_iff.mpr (by norm_num [V3.normSq, V3.dot])
    have hm := h.2 _ hq
    simp only [if_true] at hm
    rw [hm, act_eq, den_quat, hn] at k
    have k2 := ((abs_comp_le _).2.2).trans k
    simp [sMat] at k2
    have h2 : √2 * √2 = (2 : ℝ) := Real.mul_self_sqrt (by norm_num)
    have h3 := (le_abs_self _).trans k2
    nlinarith

/-! ## C83 (3): wrong conventions the other tests find -/

/-- Two rotations whose quaternions have vector parts with a cross product that is not small do not commute, by more than the
tolerance of the tests. -/
lemma not_commute {p q : Quat} (hp : p.normSq = 1) (hq : q.normSq = 1) (hw : 1 / 2 ≤ q.w * q.w)
    (hc : 1 / 400 ≤ (p.y * q.z - p.z * q.y) ^ 2 + (p.z * q.x - p.x * q.z) ^ 2 + (p.x * q.y - p.y * q.x) ^ 2) :
    1 / 1000 < rotAngle (sMat p * sMat q * (sMat q * sMat p).transpose) := by
  have h1 : (p * q).normSq = 1 := by rw [Quat.normSq_mul, hp, hq, one_mul]
  have h2 : (q * p).normSq = 1 := by rw [Quat.normSq_mul, hp, hq, one_mul]
  rw [← sMat_mul, ← sMat_mul, rotAngle_quat h1 h2]
  obtain ⟨C, hC⟩ : ∃ C, C = (p.y * q.z - p.z * q.y) ^ 2 + (p.z * q.x - p.x * q.z) ^ 2 + (p.x * q.y - p.y * q.x) ^ 2 := ⟨_, rfl⟩
  have e : (p * q).w * (q * p).w + (p * q).x * (q * p).x + (p * q).y * (q * p).y + (p * q).z * (q * p).z = 1 - 2 * C := by
    rw [hC]
    simp only [Quat.normSq] at hp hq
    simp only [Quat.mul_w, Quat.mul_x, Quat.mul_y, Quat.mul_z]
    linear_combination (q.w * q.w + q.x * q.x + q.y * q.y + q.z * q.z) * hp + hq
  have hCle : C ≤ 1 / 2 := by
    have hv : q.x * q.x + q.y * q.y + q.z * q.z ≤ 1 / 2 := by simp only [Quat.normSq] at hq; linarith
    have hu : p.x * p.x + p.y * p.y + p.z * p.z ≤ 1 := by simp only [Quat.normSq] at hp; nlinarith [mul_self_nonneg p.w]
    have hl : C = (p.x * p.x + p.y * p.y + p.z * p.z) * (q.x * q.x + q.y * q.y + q.z * q.z) -
        (p.x * q.x + p.y * q.y + p.z * q.z) ^ 2 := by rw [hC]; ring
    have hv0 : 0 ≤ q.x * q.x + q.y * q.y + q.z * q.z := by nlinarith [mul_self_nonneg q.x, mul_self_nonneg q.y, mul_self_nonneg q.z]
    have := mul_le_mul hu hv hv0 (by norm_num)
    nlinarith [sq_nonneg (p.x * q.x + p.y * q.y + p.z * q.z)]
  rw [e, abs_of_nonneg (by linarith)]
  rw [← hC] at hc
  by_contra hn
  push Not at hn
  have ha : Real.arccos (1 - 2 * C) ≤ 1 / 2000 := by linarith
  have hcos : Real.cos (Real.arccos (1 - 2 * C)) = 1 - 2 * C := Real.cos_arccos (by linarith) (by linarith)
  have hb := Real.one_sub_sq_div_two_le_cos (x := Real.arccos (1 - 2 * C))
  have := pow_le_pow_left₀ (Real.arccos_nonneg _) ha 2
  norm_num at this
  linarith

lemma conv12 (P : Prec) : 1 / 1000 < rotAngle (den .quat (conventionQuat1 P) * den .quat (conventionQuat2 P) *
    (den .quat (conventionQuat2 P) * den .quat (conventionQuat1 P)).transpose) := by
  obtain ⟨hx, hy⟩ := quat1_bounds P
  obtain ⟨⟨w1, w2⟩, x2, y2, z2⟩ := quat2_bounds P
  rw [den_quat, den_quat]
  refine not_commute (quatZyx_unit ..) (quatZyx_unit ..) (by nlinarith) ?_
  have : 1 / 20 ≤ (conventionQuat1 P).x * (conventionQuat2 P).y - (conventionQuat1 P).y * (conventionQuat2 P).x := by nlinarith
  nlinarith [sq_nonneg ((conventionQuat1 P).y * (conventionQuat2 P).z - (conventionQuat1 P).z * (conventionQuat2 P).y),
    sq_nonneg ((conventionQuat1 P).z * (conventionQuat2 P).x - (conventionQuat1 P).x * (conventionQuat2 P).z)]

/-- **C83 (3), concatenation.** A library whose conversions are right but whose `concatenate(rot1, rot2)` applies `rot2` first is
rejected by `testConcatenation`. -/
theorem C83_reversed_concatenation (P : Prec) (L : OtherLib) (ok : L.Rot → Prop) (rep : L.Rot → M3)
    (h : Connects (Clear P) L ok rep)
    (hc : ∀ a b, ok a → ok b → Clear P (rep a) → Clear P (rep b) → Clear P (rep a * rep b) →
      ok (L.concat a b) ∧ rep (L.concat a b) = rep a * rep b) : testConcatenation P L = false := by
  obtain ⟨c1, c2, -, c12, -⟩ := clear_all P
  have v1 : Valid .quat (conventionQuat1 P) := quatZyx_valid ..
  have v2 : Valid .quat (conventionQuat2 P) := quatZyx_valid ..
  obtain ⟨o1, r1⟩ := h.toOther _ v1 c1
  obtain ⟨o2, r2⟩ := h.toOther _ v2 c2
  obtain ⟨o3, r3⟩ := hc _ _ o1 o2 (r1 ▸ c1) (r2 ▸ c2) (by rw [r1, r2]; exact c12)
  rw [r1, r2] at r3
  obtain ⟨v4, r4⟩ := h.toKindr _ o3 (r3 ▸ c12)
  obtain ⟨v5, r5⟩ := mult_spec (P := P) (k₁ := .quat) (k₂ := .quat) v2 v1 (fun h => by cases h) (fun h => by cases h) (fun h => by cases h)
  rw [← Bool.not_eq_true]
  change ¬ isNear P .quat .quat _ _ _ = true
  rw [isNear_quat v4 v5, r4, r3, r5, not_le]
  exact conv12 P

/-- **C83 (3), matrices.** A library whose conversions are right but which returns the inverse (transposed) rotation matrix is
rejected by `testRotationMatrix`. -/
theorem C83_transposed_matrix (P : Prec) (L : OtherLib) (ok : L.Rot → Prop) (rep : L.Rot → M3)
    (h : Connects (Clear P) L ok rep) (hm : ∀ r, ok r → Clear P (rep r) → L.matrix r = (rep r).transpose) :
    testRotationMatrix P L = false := by
  obtain ⟨-, c2, -⟩ := clear_all P
  have v2 : Valid .quat (conventionQuat2 P) := quatZyx_valid ..
  obtain ⟨o2, r2⟩ := h.toOther _ v2 c2
  obtain ⟨v3, r3⟩ := conv_nonrv (P := P) (d := .mat) (s := .quat) v2 (by decide) (fun h => by cases h)
  have e : (conv P .mat .quat (conventionQuat2 P) : M3) = sMat (conventionQuat2 P) := by
    rw [← den_quat, ← r3, den_eq]; rfl
  rw [← Bool.not_eq_true]
  intro ht
  change matNear _ _ _ = true at ht
  rw [e, hm _ o2 (r2 ▸ c2), r2, den_quat] at ht
  simp only [matNear, Bool.and_eq_true] at ht
  obtain ⟨⟨⟨⟨⟨⟨⟨⟨-, -⟩, k⟩, -⟩, -⟩, -⟩, -⟩, -⟩, -⟩ := ht
  obtain ⟨⟨w1, w2⟩, x2, y2, z2⟩ := quat2_bounds P
  have hS := sMat_isSO3 (q := conventionQuat2 P) (quatZyx_unit ..)
  obtain ⟨-, -, a2, -, -, -, a6, -, -⟩ := so3_entry_le hS
  simp only [sub_zero] at a2 a6
  have := cmp_close k a2 (by simpa using a6)
  rw [abs_le] at this
  simp only [sMat, M3.transpose_m02] at this
  norm_num at this
  nlinarith [this.2]

lemma exp_quat : ∃ e : Quat, e.normSq = 1 ∧ sMat e = den .rv (⟨conventionVelocity⟩ : RotVec) ∧
    ∃ t, 3 / 10 ≤ t ∧ e.x = t * (5 / 10) ∧ e.y = t * (7 / 10) ∧ e.z = t * (9 / 10) := by
  obtain ⟨n1, n2⟩ := velocity_norm
  obtain ⟨N, hN⟩ : ∃ N, N = conventionVelocity.norm := ⟨_, rfl⟩
  rw [← hN] at n1 n2
  have h0 : conventionVelocity ≠ 0 := by
    intro h; rw [h, V3.norm_zero] at hN; linarith
  have hu := unit_dir (v := conventionVelocity) (by rw [← hN]; linarith)
  refine ⟨Quat.ofAngleAxis N ((1 / N) • conventionVelocity), ?_, ?_, Real.sin (1 / 2 * N) / N, ?_, ?_, ?_, ?_⟩
  · rw [hN]; exact normSq_ofAngleAxis _ hu
  · rw [den_eq, dmat_rv_ne h0, hN]; exact sMat_ofAngleAxis _ hu
  · rw [le_div_iff₀ (by linarith)]
    have := Real.mul_le_sin (x := 1 / 2 * N) (by linarith) (by linarith [Real.pi_gt_three])
    have hpi := Real.pi_lt_d2
    have h2 : 3 / 10 * N ≤ 2 / Real.pi * (1 / 2 * N) := by
      have : 6 / 10 ≤ 2 / Real.pi := by rw [le_div_iff₀ Real.pi_pos]; linarith
      nlinarith
    linarith
  · simp [Quat.ofAngleAxis, conventionVelocity]; ring
  · simp [Quat.ofAngleAxis, conventionVelocity]; ring
  · simp [Quat.ofAngleAxis, conventionVelocity]; ring

lemma convE2 (P : Prec) : 1 / 1000 < rotAngle (den .rv (⟨conventionVelocity⟩ : RotVec) * den .quat (conventionQuat2 P) *
    (den .quat (conventionQuat2 P) * den .rv (⟨conventionVelocity⟩ : RotVec)).transpose) := by
  obtain ⟨⟨w1, w2⟩, x2, y2, z2⟩ := quat2_bounds P
  obtain ⟨e, he, hm, t, ht, ex, ey, ez⟩ := exp_quat
  rw [← hm, den_quat]
  refine not_commute he (quatZyx_unit ..) (by nlinarith) ?_
  have : 1 / 20 ≤ e.z * (conventionQuat2 P).y - e.y * (conventionQuat2 P).z := by rw [ez, ey]; nlinarith
  nlinarith [sq_nonneg (e.z * (conventionQuat2 P).x - e.x * (conventionQuat2 P).z),
    sq_nonneg (e.x * (conventionQuat2 P).y - e.y * (conventionQuat2 P).x)]

/-- **C83 (3), box plus.** A library whose conversions are right but whose `boxPlus` applies the exponential of the velocity from
the right (i.e. which takes the vector for a *local* velocity) is rejected by `testBoxPlus`. -/
theorem C83_local_boxPlus (P : Prec) (L : OtherLib) (ok : L.Rot → Prop) (rep : L.Rot → M3)
    (h : Connects (Clear P) L ok rep)
    (hb : ∀ r w, ok r → Clear P (rep r) → Clear P (den .rv (⟨w⟩ : RotVec)) → Clear P (rep r * den .rv (⟨w⟩ : RotVec)) →
      ok (L.boxPlus r (L.toVel r w)) ∧ rep (L.boxPlus r (L.toVel r w)) = rep r * den .rv (⟨w⟩ : RotVec)) :
    testBoxPlus P L = false := by
  obtain ⟨-, c2, -, -, cv, -, c2v⟩ := clear_all P
  have v2 : Valid .quat (conventionQuat2 P) := quatZyx_valid ..
  obtain ⟨o2, r2⟩ := h.toOther _ v2 c2
  obtain ⟨o3, r3⟩ := hb _ conventionVelocity o2 (r2 ▸ c2) cv (by rw [r2]; exact c2v)
  rw [r2] at r3
  obtain ⟨v4, r4⟩ := h.toKindr _ o3 (r3 ▸ c2v)
  obtain ⟨ve, re⟩ := exp_spec (k := .quat) cv
  obtain ⟨v5, r5⟩ := mult_spec (P := P) (k₁ := .quat) (k₂ := .quat) ve v2 (fun h => by cases h) (fun h => by cases h) (fun h => by cases h)
  have r5' : den .quat (boxPlus P .quat (conventionQuat2 P) conventionVelocity) =
      den .rv (⟨conventionVelocity⟩ : RotVec) * den .quat (conventionQuat2 P) := by rw [← re]; exact r5
  rw [← Bool.not_eq_true]
  change ¬ isNear P .quat .quat _ _ _ = true
  have v5' : Valid .quat (boxPlus P .quat (conventionQuat2 P) conventionVelocity) := v5
  rw [isNear_quat v5' v4, r4, r3, r5', not_le]
  exact convE2 P

/-- Non-vacuity: the six classes of kindr with the arguments of the multiplication swapped, with the transposed matrix, with the
increment applied from the right. -/
example (P : Prec) (k : Kind) :
    testConcatenation P { kindrLib P k with concat := fun r1 r2 => mult P k k r1 r2 } = false ∧
    testRotationMatrix P { kindrLib P k with matrix := fun r => (conv P .mat k (inverted k r) : M3) } = false ∧
    testBoxPlus P { kindrLib P k with boxPlus := fun r v => mult P k k r (exponentialMap P k v) } = false := by
  have H := (C83_kindr_implements P k).toConnects
  refine ⟨C83_reversed_concatenation P _ (Valid k) (den k) ⟨H.toOther, H.toKindr⟩ ?_,
    C83_transposed_matrix P _ (Valid k) (den k) ⟨H.toOther, H.toKindr⟩ ?_,
    C83_local_boxPlus P _ (Valid k) (den k) ⟨H.toOther, H.toKindr⟩ ?_⟩
  · intro a b ha hb ca cb cab
    exact mult_spec (P := P) ha hb (fun _ => ca) (fun _ => cb) (fun _ => cab)
  · intro r hr hc
    obtain ⟨vi, di⟩ := inverted_spec hr
    obtain ⟨-, e⟩ := conv_nonrv (P := P) (d := .mat) (s := k) vi (by decide) (fun _ => by rw [di]; exact clear_transpose hc)
    rw [← di, ← e, den_eq]; rfl
  · intro r w hr hc hw hrw
    obtain ⟨ve, re⟩ := exp_spec (k := k) hw
    have := mult_spec (P := P) hr ve (fun _ => hc) (fun _ => re ▸ hw) (fun _ => by rw [re]; exact hrw)
    rw [re] at this
    exact this

/-! ## C83 (4): the three tests the header asks for do not pin the axes -/

/-- A library whose axes differ from those of kindr by the rotation `conventionQuat2`. -/
@[reducible] def rotatedAxesLib (P : Prec) : OtherLib where
  Rot := Quat
  Vel := V3
  toOther q := conventionQuat2 P * q * (conventionQuat2 P).conj
  toKindr r := (conventionQuat2 P).conj * r * conventionQuat2 P
  toVel _ v := (sMat (conventionQuat2 P)).mulVec v
  matrix r := sMat r
  concat r1 r2 := r2 * r1
  rotateVec r v := (sMat r).mulVec v
  boxPlus r v := boxPlus P .quat r v

lemma rodMat_rotated {R : M3} (h : IsSO3 R) (θ : ℝ) (n : V3) : rodMat θ (R.mulVec n) * R = R * rodMat θ n := by
  apply M3.ext_mulVec
  intro v
  rw [← M3.mulVec_mulVec, ← M3.mulVec_mulVec, ← rodrigues_eq, ← rodrigues_eq]
  simp only [rodrigues, M3.mulVec_add, M3.mulVec_smul, SO3.mulVec_cross h, SO3.mulVec_dot h]

lemma den_rv_rotated {R : M3} (h : IsSO3 R) (w : V3) :
    den .rv (⟨R.mulVec w⟩ : RotVec) * R = R * den .rv (⟨w⟩ : RotVec) := by
  rw [den_eq, den_eq]
  by_cases h0 : w = 0
  · subst h0; rw [M3.mulVec_zero, dmat_rv_zero, one_mul, mul_one]
  · have h1 : R.mulVec w ≠ 0 := by
      intro e
      have := SO3.mulVec_norm h w
      rw [e, V3.norm_zero] at this
      exact (V3.norm_pos h0).ne this
    rw [dmat_rv_ne h0, dmat_rv_ne h1, SO3.mulVec_norm h, ← M3.mulVec_smul, rodMat_rotated h]

/-- **C83 (4), finding.** The header asks the user for three tests (`Concatenation`, `Rotation`, `BoxPlus`,
include/kindr/rotations/gtest_rotations.hpp:45-57).  They do not determine the axes: the library above passes the three,
although a half turn about the `x`-axis converted to it moves the unit vector `e_x` to a point at distance at least 1 from
where kindr moves it.  Only `testGeometricalInterpretation` rejects it. -/
theorem C83_documented_tests_miss_axes (P : Prec) : ∃ L : OtherLib,
    testConcatenation P L = true ∧ testRotationMatrix P L = true ∧ testBoxPlus P L = true ∧
    testGeometricalInterpretation P L = false ∧
    Valid .quat (⟨0, 1, 0, 0⟩ : Quat) ∧
    1 ≤ (L.rotateVec (L.toOther ⟨0, 1, 0, 0⟩) ⟨1, 0, 0⟩ - act .quat (⟨0, 1, 0, 0⟩ : Quat) ⟨1, 0, 0⟩).norm ∧
    1 ≤ ((L.matrix (L.toOther ⟨0, 1, 0, 0⟩)).mulVec ⟨1, 0, 0⟩ - act .quat (⟨0, 1, 0, 0⟩ : Quat) ⟨1, 0, 0⟩).norm := by
  obtain ⟨c1, c2, c21, -, cv, cv2, -⟩ := clear_all P
  have v1 : Valid .quat (conventionQuat1 P) := quatZyx_valid ..
  have v2 : Valid .quat (conventionQuat2 P) := quatZyx_valid ..
  have n1 : (conventionQuat1 P).normSq = 1 := quatZyx_unit ..
  have n2 : (conventionQuat2 P).normSq = 1 := quatZyx_unit ..
  have s1 := sMat_isSO3 n1
  have s2 := sMat_isSO3 n2
  obtain ⟨⟨w1, w2⟩, x2, y2, z2⟩ := quat2_bounds P
  have cc : (conventionQuat2 P).conj * conventionQuat2 P = 1 := by
    simp only [Quat.normSq] at n2
    ext <;> simp
    · linarith
    all_goals ring
  have cc' : conventionQuat2 P * (conventionQuat2 P).conj = 1 := by
    simp only [Quat.normSq] at n2
    ext <;> simp
    · linarith
    all_goals ring
  have hv0 : Valid .quat (⟨0, 1, 0, 0⟩ : Quat) := by simp [Valid]
  have hfar : 1 ≤ ((sMat (conventionQuat2 P * ⟨0, 1, 0, 0⟩ * (conventionQuat2 P).conj)).mulVec ⟨1, 0, 0⟩ -
      act .quat (⟨0, 1, 0, 0⟩ : Quat) ⟨1, 0, 0⟩).norm := by
    refine le_trans ?_ (abs_comp_le _).1
    have hr := (SO3.rel s2).r00
    have e1 : ((sMat (conventionQuat2 P * ⟨0, 1, 0, 0⟩ * (conventionQuat2 P).conj)).mulVec ⟨1, 0, 0⟩ -
        act .quat (⟨0, 1, 0, 0⟩ : Quat) ⟨1, 0, 0⟩).x = 2 * (sMat (conventionQuat2 P)).m00 ^ 2 - 2 := by
      rw [act_eq, den_quat, sMat_mul, sMat_mul, sMat_conj]
      have e2 : sMat (⟨0, 1, 0, 0⟩ : Quat) = ⟨1, 0, 0, 0, -1, 0, 0, 0, -1⟩ := by ext <;> simp [sMat]
      rw [e2]
      simp
      linear_combination (-1 : ℝ) * hr
    rw [e1]
    have e3 : (sMat (conventionQuat2 P)).m00 = 1 - 2 * ((conventionQuat2 P).y * (conventionQuat2 P).y +
        (conventionQuat2 P).z * (conventionQuat2 P).z) := by
      simp only [Quat.normSq] at n2
      simp only [sMat]; linear_combination n2
    have e4 : (sMat (conventionQuat2 P)).m00 = 2 * ((conventionQuat2 P).w * (conventionQuat2 P).w +
        (conventionQuat2 P).x * (conventionQuat2 P).x) - 1 := by
      simp only [Quat.normSq] at n2
      simp only [sMat]; linear_combination (-1 : ℝ) * n2
    have b1 : (sMat (conventionQuat2 P)).m00 ≤ 68 / 100 := by nlinarith [mul_self_nonneg (conventionQuat2 P).z]
    have b2 : 0 ≤ (sMat (conventionQuat2 P)).m00 := by nlinarith [mul_self_nonneg (conventionQuat2 P).x]
    rw [le_abs]; right
    nlinarith
  have hfix : FixedConvention (fun q => (rotatedAxesLib P).matrix ((rotatedAxesLib P).toOther q)) true (sMat (conventionQuat2 P)) := by
    refine ⟨s2.1, fun q _ => ?_⟩
    simp only [if_true]
    rw [sMat_mul, sMat_mul, sMat_conj, den_quat]
  refine ⟨rotatedAxesLib P, ?_, ?_, ?_, ?_, hv0, hfar, hfar⟩
  · obtain ⟨v5, r5⟩ := mult_spec (P := P) (k₁ := .quat) (k₂ := .quat) v2 v1 (fun h => by cases h) (fun h => by cases h) (fun h => by cases h)
    have key : (rotatedAxesLib P).toKindr ((rotatedAxesLib P).concat ((rotatedAxesLib P).toOther (conventionQuat1 P))
        ((rotatedAxesLib P).toOther (conventionQuat2 P))) = mult P .quat .quat (conventionQuat2 P) (conventionQuat1 P) := by
      change (conventionQuat2 P).conj * (conventionQuat2 P * conventionQuat2 P * (conventionQuat2 P).conj *
        (conventionQuat2 P * conventionQuat1 P * (conventionQuat2 P).conj)) * conventionQuat2 P = conventionQuat2 P * conventionQuat1 P
      calc _ = ((conventionQuat2 P).conj * conventionQuat2 P) * conventionQuat2 P * ((conventionQuat2 P).conj * conventionQuat2 P) *
            conventionQuat1 P * ((conventionQuat2 P).conj * conventionQuat2 P) := by simp only [mul_assoc]
        _ = _ := by rw [cc]; simp only [mul_one, one_mul]
    change isNear P .quat .quat _ _ _ = true
    rw [key]
    exact isNear_of_eq v5 v5 rfl
  · obtain ⟨v3, r3⟩ := conv_nonrv (P := P) (d := .mat) (s := .quat) v2 (by decide) (fun h => by cases h)
    have e : (conv P .mat .quat (conventionQuat2 P) : M3) = sMat (conventionQuat2 P) := by
      rw [← den_quat, ← r3, den_eq]; rfl
    change matNear _ (sMat (conventionQuat2 P * conventionQuat2 P * (conventionQuat2 P).conj)) _ = true
    rw [e, sMat_mul, sMat_mul, sMat_conj, mul_assoc, s2.1, mul_one]
    exact matNear_self _
  · obtain ⟨ve, re⟩ := exp_spec (k := .quat) cv
    obtain ⟨v5, r5⟩ := mult_spec (P := P) (k₁ := .quat) (k₂ := .quat) ve v2 (fun h => by cases h) (fun h => by cases h) (fun h => by cases h)
    rw [re] at r5
    have ct : (rotatedAxesLib P).toOther (conventionQuat2 P) = conventionQuat2 P := by
      change conventionQuat2 P * conventionQuat2 P * (conventionQuat2 P).conj = _
      rw [mul_assoc, cc', mul_one]
    obtain ⟨w, hw⟩ : ∃ w, w = (sMat (conventionQuat2 P)).mulVec conventionVelocity := ⟨_, rfl⟩
    have hr := den_rv_rotated s2 conventionVelocity
    rw [← hw] at hr
    have hr' : den .rv (⟨w⟩ : RotVec) = sMat (conventionQuat2 P) * den .rv (⟨conventionVelocity⟩ : RotVec) * (sMat (conventionQuat2 P)).transpose := by
      rw [← hr, mul_assoc, s2.1, mul_one]
    have cw : Clear P (den .rv (⟨w⟩ : RotVec)) := by
      apply clear_of_angle (den_isSO3 (k := .rv) (r := (⟨w⟩ : RotVec)) trivial)
      rw [hr', rotAngle_conj s2, rotAngle_rv (by linarith [velocity_norm.2, Real.pi_gt_three])]
      linarith [velocity_norm.1]
    obtain ⟨vw, rw'⟩ := exp_spec (k := .quat) cw
    obtain ⟨v6, r6⟩ := mult_spec (P := P) (k₁ := .quat) (k₂ := .quat) vw v2 (fun h => by cases h) (fun h => by cases h) (fun h => by cases h)
    rw [rw'] at r6
    have n6 := (valid_quat_iff _).mp v6
    obtain ⟨b, hb⟩ : ∃ b : Quat, b = mult P .quat .quat (exponentialMap P .quat w) (conventionQuat2 P) := ⟨_, rfl⟩
    rw [← hb] at v6 r6 n6
    have v7 : Valid .quat ((conventionQuat2 P).conj * b * conventionQuat2 P) := by
      rw [valid_quat_iff, Quat.normSq_mul, Quat.normSq_mul, Quat.normSq_conj, n2, n6]; norm_num
    have r7 : den .quat ((conventionQuat2 P).conj * b * conventionQuat2 P) =
        den .rv (⟨conventionVelocity⟩ : RotVec) * den .quat (conventionQuat2 P) := by
      rw [den_quat, sMat_mul, sMat_mul, sMat_conj, ← den_quat b, r6, hr', den_quat]
      have := SO3.tr_mul s2
      calc _ = ((sMat (conventionQuat2 P)).transpose * sMat (conventionQuat2 P)) * den .rv (⟨conventionVelocity⟩ : RotVec) *
            ((sMat (conventionQuat2 P)).transpose * sMat (conventionQuat2 P)) * sMat (conventionQuat2 P) := by simp only [mul_assoc]
        _ = _ := by rw [this, one_mul, mul_one]
    have e : (rotatedAxesLib P).toKindr ((rotatedAxesLib P).boxPlus ((rotatedAxesLib P).toOther (conventionQuat2 P))
        ((rotatedAxesLib P).toVel ((rotatedAxesLib P).toOther (conventionQuat2 P)) conventionVelocity)) =
        (conventionQuat2 P).conj * b * conventionQuat2 P := by
      rw [ct, hb, hw]; rfl
    change isNear P .quat .quat _ _ _ = true
    rw [e]
    exact isNear_of_eq v5 v7 (by rw [r7]; exact r5)
  · rw [← Bool.not_eq_true]
    intro ht
    have := (C83_matrix_pinned P _ true _ hfix ht).2 ⟨0, 1, 0, 0⟩ ⟨1, 0, 0⟩ hv0
    have hn : (⟨1, 0, 0⟩ : V3).norm = 1 := V3.norm_eq_one_iff.mpr (by norm_num [V3.normSq, V3.dot])
    rw [hn] at this
    have h2 := hfar.trans this
    norm_num at h2

end Kindr
