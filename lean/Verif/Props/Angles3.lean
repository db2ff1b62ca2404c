import Verif.Props.Angles2
import Verif.Spec.Print
import Mathlib.Analysis.SpecialFunctions.Trigonometric.Sinc
import Mathlib.Topology.Order.IntermediateValue

/-!
# C107: angle and axis of nearby rotations; no representation other than the matrix is continuous
-/

set_option autoImplicit false

noncomputable section
namespace Kindr
open Spec

/-- **C107 (i).** Angle-axis values with angles in `[0, π]`, as conversions and `getUnique()` return them: the angles differ by at most the angle `D`
between the rotations; the axes are close unless a rotation is close to the identity or to a half turn. -/
theorem C107_angle_axis (a b : AngAx) (ha : Valid .aa a) (hb : Valid .aa b) (ha0 : 0 ≤ a.angle) (ha1 : a.angle ≤ Real.pi) (hb0 : 0 ≤ b.angle)
    (hb1 : b.angle ≤ Real.pi) :
    |a.angle - b.angle| ≤ rotAngle (den .aa a * (den .aa b).transpose) ∧
    (a.angle + rotAngle (den .aa a * (den .aa b).transpose) < Real.pi →
      Real.sin (a.angle / 2) * Real.sin (b.angle / 2) * (a.axis - b.axis).norm ^ 2 ≤
        (2 * Real.sin (rotAngle (den .aa a * (den .aa b).transpose) / 4)) ^ 2) := by
  have na := (valid_aa_iff a).mp ha
  have nb := (valid_aa_iff b).mp hb
  have da : den .aa a = rodMat a.angle a.axis := by rw [den_eq]; rfl
  have db : den .aa b = rodMat b.angle b.axis := by rw [den_eq]; rfl
  have sa : IsSO3 (den .aa a) := by rw [den_eq]; exact dmat_isSO3 .aa a ha
  have sb : IsSO3 (den .aa b) := by rw [den_eq]; exact dmat_isSO3 .aa b hb
  have ra : rotAngle (den .aa a) = a.angle := by rw [da]; exact rotAngle_rodMat na ha0 ha1
  have rb : rotAngle (den .aa b) = b.angle := by rw [db]; exact rotAngle_rodMat nb hb0 hb1
  constructor
  · have h1 := rotAngle_mul_le (SO3.mul sa (SO3.transpose sb)) sb
    rw [mul_assoc, SO3.tr_mul sb, mul_one, ra, rb] at h1
    have h3 := rotAngle_mul_le (SO3.mul sb (SO3.transpose sa)) sa
    rw [mul_assoc, SO3.tr_mul sa, mul_one, ra, rb] at h3
    have h4 : rotAngle (den .aa b * (den .aa a).transpose) = rotAngle (den .aa a * (den .aa b).transpose) := by
      unfold rotAngle; congr 3; simp [M3.trace]; ring
    rw [abs_le]; constructor <;> linarith
  · intro h
    have pa := sMat_ofAngleAxis a.angle na
    have pb := sMat_ofAngleAxis b.angle nb
    have ua : (Quat.ofAngleAxis a.angle a.axis).normSq = 1 := (quatOfAa_spec na).1
    have ub : (Quat.ofAngleAxis b.angle b.axis).normSq = 1 := (quatOfAa_spec nb).1
    have hpi := Real.pi_pos
    have e : ∀ q : Quat, den .quat q = sMat q := fun q => by rw [den_eq]; rfl
    have wa : 0 ≤ (Quat.ofAngleAxis a.angle a.axis).w := Real.cos_nonneg_of_mem_Icc ⟨by linarith, by linarith⟩
    have wb : 0 ≤ (Quat.ofAngleAxis b.angle b.axis).w := Real.cos_nonneg_of_mem_Icc ⟨by linarith, by linarith⟩
    have hd := canon_dot_nonneg ua ub wa wb (by rw [pa, pb, ← da, ← db, ra]; exact h)
    have hq := C93_quaternion _ _ ((valid_quat_iff _).mpr ua) ((valid_quat_iff _).mpr ub)
    rw [e, e, pa, pb, ← da, ← db, min_eq_left (by nlinarith)] at hq
    rw [hq]
    simp only [Quat.ofAngleAxis]
    have nn : (a.axis - b.axis).norm ^ 2 = 2 - 2 * a.axis.dot b.axis := by
      rw [V3.norm_sq]
      have h1 : a.axis.x ^ 2 + a.axis.y ^ 2 + a.axis.z ^ 2 = 1 := ha
      have h2 : b.axis.x ^ 2 + b.axis.y ^ 2 + b.axis.z ^ 2 = 1 := hb
      simp [V3.normSq, V3.dot]; linarith
    rw [nn]
    have h1 : a.axis.x ^ 2 + a.axis.y ^ 2 + a.axis.z ^ 2 = 1 := ha
    have h2 : b.axis.x ^ 2 + b.axis.y ^ 2 + b.axis.z ^ 2 = 1 := hb
    rw [show 1 / 2 * a.angle = a.angle / 2 by ring, show 1 / 2 * b.angle = b.angle / 2 by ring]
    have c1 := Real.sin_sq_add_cos_sq (a.angle / 2)
    have c2 := Real.sin_sq_add_cos_sq (b.angle / 2)
    have c3 := Real.cos_le_one (a.angle / 2 - b.angle / 2)
    rw [Real.cos_sub] at c3
    simp only [V3.dot]
    have key : (Real.cos (a.angle / 2) - Real.cos (b.angle / 2)) ^ 2 + (Real.sin (a.angle / 2) * a.axis.x - Real.sin (b.angle / 2) * b.axis.x) ^ 2 +
        (Real.sin (a.angle / 2) * a.axis.y - Real.sin (b.angle / 2) * b.axis.y) ^ 2 +
        (Real.sin (a.angle / 2) * a.axis.z - Real.sin (b.angle / 2) * b.axis.z) ^ 2 =
        2 - 2 * Real.cos (a.angle / 2) * Real.cos (b.angle / 2) -
          2 * (Real.sin (a.angle / 2) * Real.sin (b.angle / 2)) * (a.axis.x * b.axis.x + a.axis.y * b.axis.y + a.axis.z * b.axis.z) := by
      linear_combination c1 + c2 + Real.sin (a.angle / 2) ^ 2 * h1 + Real.sin (b.angle / 2) ^ 2 * h2
    rw [key]
    linarith

/-! ## No continuous choice -/

lemma sinc_lift (v : V3) : ∃ q : Quat, q = ⟨Real.cos (v.norm / 2), Real.sinc (v.norm / 2) / 2 * v.x, Real.sinc (v.norm / 2) / 2 * v.y,
    Real.sinc (v.norm / 2) / 2 * v.z⟩ ∧ q.normSq = 1 ∧ sMat q = den .rv (⟨v⟩ : RotVec) := by
  refine ⟨_, rfl, ?_⟩
  by_cases h : v.norm = 0
  · have h0 := V3.norm_eq_zero.mp h
    subst h0
    rw [h, den_eq, dmat_rv_zero]
    refine ⟨by simp [Quat.normSq], ?_⟩
    ext <;> simp [sMat]
  · have hp : 0 < v.norm := lt_of_le_of_ne (V3.norm_nonneg v) (Ne.symm h)
    obtain ⟨n, hn⟩ : ∃ n, n = (1 / v.norm) • v := ⟨_, rfl⟩
    have n1 : n.normSq = 1 := by
      rw [← V3.norm_eq_one_iff, hn, V3.norm_smul, abs_of_pos (by positivity)]; field_simp
    have hv : v = v.norm • n := by rw [hn, smul_smul, mul_one_div_cancel h, one_smul]
    have hq : (⟨Real.cos (v.norm / 2), Real.sinc (v.norm / 2) / 2 * v.x, Real.sinc (v.norm / 2) / 2 * v.y, Real.sinc (v.norm / 2) / 2 * v.z⟩ : Quat) =
        Quat.ofAngleAxis v.norm n := by
      rw [Real.sinc_of_ne_zero (by positivity), Quat.ofAngleAxis, hn]
      ext <;> simp <;> field_simp
    rw [hq]
    refine ⟨(quatOfAa_spec (a := ⟨v.norm, n⟩) n1).1, ?_⟩
    rw [sMat_ofAngleAxis _ n1, den_eq]
    conv_rhs => rw [hv]
    rw [dmat_rv_smul _ n1]

/-- The quaternion of a value, as a continuous function of its numbers. -/
def liftQ : (k : Kind) → Rep k → Quat
  | .quat => fun q => q
  | .mat => fun _ => ⟨0, 0, 0, 0⟩
  | .aa => fun a => quatOfAa a
  | .rv => fun r => ⟨Real.cos ((RotVec.v r).norm / 2), Real.sinc ((RotVec.v r).norm / 2) / 2 * (RotVec.v r).x,
      Real.sinc ((RotVec.v r).norm / 2) / 2 * (RotVec.v r).y, Real.sinc ((RotVec.v r).norm / 2) / 2 * (RotVec.v r).z⟩
  | .xyz => quatOfXyz
  | .zyx => quatOfZyx

/-- `liftQ` is continuous in the numbers of the value. -/
lemma liftQ_continuousOn (k : Kind) (hk : k ≠ .mat) (r : ℝ → Rep k) (s : Set ℝ) (h : ∀ i, ContinuousOn (fun t => (numbers k (r t)).getD i 0) s) :
    ContinuousOn (fun t => (liftQ k (r t)).w) s ∧ ContinuousOn (fun t => (liftQ k (r t)).z) s := by
  have h0 := h 0
  have h1 := h 1
  have h2 := h 2
  have h3 := h 3
  cases k with
  | mat => exact absurd rfl hk
  | quat => exact ⟨h0, h3⟩
  | aa =>
    replace h0 : ContinuousOn (fun t => AngAx.angle (r t)) s := h0
    replace h3 : ContinuousOn (fun t => (AngAx.axis (r t)).z) s := h3
    exact ⟨Real.continuous_cos.comp_continuousOn (continuousOn_const.mul h0),
      (Real.continuous_sin.comp_continuousOn (continuousOn_const.mul h0)).mul h3⟩
  | rv =>
    replace h0 : ContinuousOn (fun t => (RotVec.v (r t)).x) s := h0
    replace h1 : ContinuousOn (fun t => (RotVec.v (r t)).y) s := h1
    replace h2 : ContinuousOn (fun t => (RotVec.v (r t)).z) s := h2
    have hn : ContinuousOn (fun t => (RotVec.v (r t)).norm) s := by
      have e : ∀ t, (RotVec.v (r t)).norm = Real.sqrt ((RotVec.v (r t)).x * (RotVec.v (r t)).x + (RotVec.v (r t)).y * (RotVec.v (r t)).y +
          (RotVec.v (r t)).z * (RotVec.v (r t)).z) := fun t => by unfold V3.norm V3.normSq; congr 1; try ring
      simp only [e]
      exact Real.continuous_sqrt.comp_continuousOn (((h0.mul h0).add (h1.mul h1)).add (h2.mul h2))
    exact ⟨Real.continuous_cos.comp_continuousOn (hn.div_const 2),
      ((Real.continuous_sinc.comp_continuousOn (hn.div_const 2)).div_const 2).mul h2⟩
  | xyz =>
    obtain ⟨x, hx⟩ : ∃ x : ℝ → ℝ, ∀ t, x t = EulXyz.x (r t) := ⟨_, fun _ => rfl⟩
    obtain ⟨y, hy⟩ : ∃ x : ℝ → ℝ, ∀ t, x t = EulXyz.y (r t) := ⟨_, fun _ => rfl⟩
    obtain ⟨z, hz⟩ : ∃ x : ℝ → ℝ, ∀ t, x t = EulXyz.z (r t) := ⟨_, fun _ => rfl⟩
    replace h0 : ContinuousOn x s := by rw [funext hx]; exact h0
    replace h1 : ContinuousOn y s := by rw [funext hy]; exact h1
    replace h2 : ContinuousOn z s := by rw [funext hz]; exact h2
    simp only [liftQ, quatOfXyz, ← hx, ← hy, ← hz, Quat.mul_w, Quat.mul_x, Quat.mul_y, Quat.mul_z, Quat.ofAngleAxis]
    constructor <;> fun_prop
  | zyx =>
    obtain ⟨x, hx⟩ : ∃ x : ℝ → ℝ, ∀ t, x t = EulZyx.x (r t) := ⟨_, fun _ => rfl⟩
    obtain ⟨y, hy⟩ : ∃ x : ℝ → ℝ, ∀ t, x t = EulZyx.y (r t) := ⟨_, fun _ => rfl⟩
    obtain ⟨z, hz⟩ : ∃ x : ℝ → ℝ, ∀ t, x t = EulZyx.z (r t) := ⟨_, fun _ => rfl⟩
    replace h0 : ContinuousOn z s := by rw [funext hz]; exact h0
    replace h1 : ContinuousOn y s := by rw [funext hy]; exact h1
    replace h2 : ContinuousOn x s := by rw [funext hx]; exact h2
    simp only [liftQ, quatOfZyx, ← hx, ← hy, ← hz, Quat.mul_w, Quat.mul_x, Quat.mul_y, Quat.mul_z, Quat.ofAngleAxis]
    constructor <;> fun_prop

/-- **C107 (j).** No class except `RotationMatrix` can represent the turns about a fixed axis by numbers that depend continuously on the rotation:
whatever representative `f R` is chosen for the rotation matrix `R`, one of its numbers jumps during the full turn about the z axis. -/
theorem C107_no_continuous_choice (k : Kind) (hk : k ≠ .mat) (f : M3 → Rep k) (hf : ∀ t, Valid k (f (rZ t)) ∧ den k (f (rZ t)) = rZ t) :
    ∃ i, ¬ ContinuousOn (fun t => (numbers k (f (rZ t))).getD i 0) (Set.Icc 0 (2 * Real.pi)) := by
  by_contra hcon
  push Not at hcon
  have lift : ∀ t, (liftQ k (f (rZ t))).normSq = 1 ∧ sMat (liftQ k (f (rZ t))) = rZ t := by
    intro t
    obtain ⟨h1, h2⟩ := hf t
    generalize f (rZ t) = r at *
    rw [← h2]
    cases k with
    | mat => exact absurd rfl hk
    | quat => exact ⟨(valid_quat_iff _).mp h1, by rw [den_eq]; rfl⟩
    | aa =>
      have := quatOfAa_spec ((valid_aa_iff _).mp h1)
      exact ⟨this.1, this.2.trans (by rw [den_eq])⟩
    | rv => obtain ⟨q, hq, a, b⟩ := sinc_lift (RotVec.v r); rw [hq] at a b; exact ⟨a, b⟩
    | xyz => exact ⟨quatOfXyz_unit _, by rw [den_eq]; exact sMat_quatOfXyz _⟩
    | zyx => exact ⟨quatOfZyx_unit _, by rw [den_eq]; exact sMat_quatOfZyx _⟩
  obtain ⟨cw, cz⟩ := liftQ_continuousOn k hk (fun t => f (rZ t)) (Set.Icc 0 (2 * Real.pi)) hcon
  have two_pi : rZ (2 * Real.pi) = rZ 0 := by ext <;> simp [rZ]
  have qz : ∀ t : ℝ, (⟨Real.cos (t / 2), 0, 0, Real.sin (t / 2)⟩ : Quat).normSq = 1 ∧ sMat ⟨Real.cos (t / 2), 0, 0, Real.sin (t / 2)⟩ = rZ t := by
    intro t
    have h := sMat_unitZ t
    have := normSq_unitZ t
    have e : Quat.ofAngleAxis t V3.unitZ = ⟨Real.cos (t / 2), 0, 0, Real.sin (t / 2)⟩ := by
      simp [Quat.ofAngleAxis, V3.unitZ, show (2 : ℝ)⁻¹ * t = t / 2 by ring]
    rw [e] at h this
    exact ⟨this, h⟩
  have g : ∀ t : ℝ, (liftQ k (f (rZ t))).w * Real.cos (t / 2) + (liftQ k (f (rZ t))).z * Real.sin (t / 2) = 1 ∨
      (liftQ k (f (rZ t))).w * Real.cos (t / 2) + (liftQ k (f (rZ t))).z * Real.sin (t / 2) = -1 := by
    intro t
    have c := Real.sin_sq_add_cos_sq (t / 2)
    rcases double_cover (lift t).1 (qz t).1 ((lift t).2.trans (qz t).2.symm) with h | h
    · left; rw [h]; simp; linarith
    · right; rw [h]; simp; linarith
  have hpi := Real.pi_pos
  obtain ⟨u, hu⟩ : ∃ u : ℝ → ℝ, ∀ t, u t = (liftQ k (f (rZ t))).w * Real.cos (t / 2) + (liftQ k (f (rZ t))).z * Real.sin (t / 2) := ⟨_, fun _ => rfl⟩
  have hc : ContinuousOn u (Set.Icc 0 (2 * Real.pi)) := by
    rw [funext hu]
    exact (cw.mul (by fun_prop)).add (cz.mul (by fun_prop))
  have u0 : u 0 = (liftQ k (f (rZ 0))).w := by rw [hu]; simp
  have u1 : u (2 * Real.pi) = -(liftQ k (f (rZ 0))).w := by
    rw [hu, two_pi, show 2 * Real.pi / 2 = Real.pi by ring]; simp
  simp only [← hu] at g
  have hp : (0 : ℝ) ≤ 2 * Real.pi := by linarith
  have z : ∃ t, u t = 0 := by
    rcases g 0 with h | h
    · have := intermediate_value_Icc' hp hc
      have m : (0 : ℝ) ∈ Set.Icc (u (2 * Real.pi)) (u 0) := ⟨by rw [u1, ← u0, h]; norm_num, by rw [h]; norm_num⟩
      obtain ⟨t, _, ht⟩ := this m
      exact ⟨t, ht⟩
    · have := intermediate_value_Icc hp hc
      have m : (0 : ℝ) ∈ Set.Icc (u 0) (u (2 * Real.pi)) := ⟨by rw [h]; norm_num, by rw [u1, ← u0, h]; norm_num⟩
      obtain ⟨t, _, ht⟩ := this m
      exact ⟨t, ht⟩
  obtain ⟨t, ht⟩ := z
  rcases g t with h | h <;> rw [ht] at h <;> norm_num at h

/-- **C107 (k), finding.** Therefore every conversion of a rotation matrix to a quaternion, angle-axis or Euler angles jumps somewhere: during the
full turn about the z axis some stored number is discontinuous. -/
theorem C107_conversion_jumps (P : Prec) (k : Kind) (hk : k = .quat ∨ k = .aa ∨ k = .xyz ∨ k = .zyx) :
    ∃ i, ¬ ContinuousOn (fun t => (numbers k (conv P k .mat (rZ t : Rep .mat))).getD i 0) (Set.Icc 0 (2 * Real.pi)) := by
  have hm : k ≠ .mat := by rintro rfl; simp at hk
  have hr : k ≠ .rv := by rintro rfl; simp at hk
  refine C107_no_continuous_choice k hm (fun m => conv P k .mat m) fun t => ?_
  have hv : Valid .mat (rZ t : Rep .mat) := (rXYZ_isSO3 t).2.2
  have := conv_nonrv (P := P) (d := k) (s := .mat) (r := (rZ t : Rep .mat)) hv hr (fun h => by cases h)
  exact ⟨this.1, this.2.trans (by rw [den_eq]; rfl)⟩

/-! ## Concrete cases -/

/-- A concrete case of (a): the quaternion of `(yaw, pitch, roll) = (-1, 1/2, 1)` is stored as `(π - 1, π - 1/2, 1 - π)`. -/
example (P : Prec) : (conv P .zyx .quat (conv P .quat .zyx (⟨⟨-1, 1 / 2, 1⟩⟩ : EulZyx)) : EulZyx).v =
    ⟨-1 + Real.pi, Real.pi - 1 / 2, 1 - Real.pi⟩ := by
  have hp := Real.pi_gt_three
  have h0 := conv_nonrv (P := P) (d := .quat) (s := .zyx) (r := (⟨⟨-1, 1 / 2, 1⟩⟩ : EulZyx)) trivial (by decide) (fun h => by cases h)
  have := C107_zyx_values P .quat (by decide) _ h0.1 (fun h => by cases h) (-1) (1 / 2) 1 (by rw [sameRot_iff]; exact h0.2)
    ⟨by linarith, by linarith⟩ ⟨by linarith, by linarith⟩ ⟨by linarith, by linarith⟩
  rw [if_neg (by norm_num), if_pos (by norm_num), if_pos (by norm_num)] at this
  exact this

/-- A concrete case of (b): the same rotation as `EulerAnglesXyz`, `(roll, pitch, yaw) = (-1, 1/2, 1)`. -/
example (P : Prec) : (conv P .xyz .mat (conv P .mat .xyz (⟨⟨-1, 1 / 2, 1⟩⟩ : EulXyz)) : EulXyz).v =
    ⟨-1 + Real.pi, Real.pi - 1 / 2, 1 - Real.pi⟩ := by
  have hp := Real.pi_gt_three
  have h0 := conv_nonrv (P := P) (d := .mat) (s := .xyz) (r := (⟨⟨-1, 1 / 2, 1⟩⟩ : EulXyz)) trivial (by decide) (fun h => by cases h)
  have := C107_xyz_values P .mat (by decide) _ h0.1 (fun h => by cases h) (-1) (1 / 2) 1 (by rw [sameRot_iff]; exact h0.2)
    ⟨by linarith, by linarith⟩ ⟨by linarith, by linarith⟩ ⟨by linarith, by linarith⟩
  rw [if_neg (by norm_num), if_pos (by norm_num), if_pos (by norm_num)] at this
  exact this

/-- A concrete case of (e): the matrix of a turn by `-1/1000` about z. -/
example (P : Prec) : (conv P .zyx .mat (rZ (-(1 / 1000)) : Rep .mat) : EulZyx).z = Real.pi - 1 / 1000 :=
  ((C107_identity_jump P .mat (rZ (-(1 / 1000)) : Rep .mat) (rXYZ_isSO3 _).2.2 (fun h => by cases h) (1 / 1000) (by norm_num)
    (by linarith [Real.pi_gt_three])).1 (by decide) (by rw [den_eq]; rfl)).1

/-- A concrete case of (f), with the angles of (a): `getUnique()` returns them. -/
example (P : Prec) : getUnique P .zyx (conv P .zyx .mat (conv P .mat .zyx (⟨⟨-1, 1 / 2, 1⟩⟩ : EulZyx))) = (⟨⟨-1, 1 / 2, 1⟩⟩ : EulZyx) := by
  have hp := Real.pi_gt_three
  have h0 := conv_nonrv (P := P) (d := .mat) (s := .zyx) (r := (⟨⟨-1, 1 / 2, 1⟩⟩ : EulZyx)) trivial (by decide) (fun h => by cases h)
  refine (C107_unique P .mat _ h0.1 (fun h => by cases h) (-1) (1 / 2) 1 ⟨by linarith, by linarith⟩ ⟨by linarith, by linarith⟩ ?_
    ⟨by linarith, by linarith⟩).1 (by rw [sameRot_iff]; exact h0.2)
  unfold OutsideGimbalBand
  have := Real.one_sub_sq_div_two_le_cos (x := 1 / 2)
  rw [abs_of_nonneg (by linarith)]
  have h2 := Real.sin_le (x := 1 / 1000) (by norm_num)
  norm_num at this h2 ⊢
  linarith

/-- The hypothesis of (j) is satisfiable for every class: the exact inverse maps exist, here `quat`. -/
example : ∃ f : M3 → Rep .quat, ∀ t, Valid .quat (f (rZ t)) ∧ den .quat (f (rZ t)) = rZ t := by
  refine ⟨fun m => conv Prec.double .quat .mat m, fun t => ?_⟩
  have hv : Valid .mat (rZ t : Rep .mat) := (rXYZ_isSO3 t).2.2
  have := conv_nonrv (P := Prec.double) (d := .quat) (s := .mat) (r := (rZ t : Rep .mat)) hv (by decide) (fun h => by cases h)
  exact ⟨this.1, this.2.trans (by rw [den_eq]; rfl)⟩

end Kindr
