import Verif.Lemmas.Norm
import Verif.Lemmas.EulerUnique
import Verif.Props.ExpLog

/-!
# C08: the small-angle branches have a uniformly bounded error
-/

set_option autoImplicit false

open Classical

noncomputable section
namespace Kindr
open Spec

lemma e4_pow (P : Prec) : (P.eps ^ (1 / 4 : ℝ)) ^ 4 = P.eps := by
  rw [← Real.rpow_natCast, ← Real.rpow_mul P.eps_pos.le]; norm_num

/-- The polynomial used for the imaginary part, times the angle, against the exact sine. -/
lemma half_sine_error {P : Prec} {θ : ℝ} (h0 : 0 ≤ θ) (h : θ < P.eps ^ (1 / 4 : ℝ)) :
    |θ * (1 / 2 - θ * θ * (1 / 48)) - Real.sin (θ * (1 / 2))| ≤ P.eps / 3200 := by
  have h1 := e4_le_one P
  have hb := Real.sin_bound (x := θ * (1 / 2)) (by rw [abs_of_nonneg (by positivity)]; linarith)
  have e : θ * (1 / 2) - (θ * (1 / 2)) ^ 3 / 6 = θ * (1 / 2 - θ * θ * (1 / 48)) := by ring
  rw [e, abs_sub_comm, abs_of_nonneg (by positivity : 0 ≤ θ * (1 / 2))] at hb
  have h4 : θ ^ 4 ≤ P.eps := by rw [← e4_pow P]; exact pow_le_pow_left₀ h0 h.le 4
  calc _ ≤ _ := hb
    _ = θ ^ 4 * θ / 3200 := by ring
    _ ≤ _ := by
      have : θ ^ 4 * θ ≤ P.eps * 1 := mul_le_mul h4 (h.le.trans h1) h0 P.eps_pos.le
      linarith

/-- **C08 (a): RotationVector → RotationQuaternion.** For every rotation vector in the approximation branch there is an exact
unit quaternion of the rotation that has the same real part as the computed one; the imaginary parts differ by at most
`eps/3200`, the computed quaternion's norm is within `eps` of one, and the rotations applied to a vector differ by at most
`eps/400` times its length. -/
theorem C08_rv_to_quat (P : Prec) (r : RotVec) (h : r.v.norm < P.eps ^ (1 / 4 : ℝ)) :
    ∃ q₀ : Quat, Valid .quat q₀ ∧ SameRot (k₁ := .quat) (k₂ := .rv) q₀ r ∧
      (Quat.w (conv P .quat .rv r) = q₀.w) ∧
      ((Quat.vec (conv P .quat .rv r)) - q₀.vec).norm ≤ P.eps / 3200 ∧
      |Quat.norm (conv P .quat .rv r) - 1| ≤ P.eps ∧
      (∀ v : V3, (act .quat (conv P .quat .rv r) v - act .rv r v).norm ≤ P.eps / 400 * v.norm) ∧
      (∀ v : V3, (rotate P .rv r v - act .rv r v).norm ≤ P.eps / 400 * v.norm) := by
  by_cases hz : r.v = 0
  · obtain ⟨rv⟩ := r
    simp only at hz; subst hz
    have hq : conv P .quat .rv ⟨0⟩ = (1 : Quat) := quatOfRv_zero P
    have hact : ∀ v, act .rv ⟨0⟩ v = v := fun v => by simp [act]
    have hs : ∀ v, act .quat (1 : Quat) v = v := fun v => by
      rw [act_eq, den_eq]
      change (sMat 1).mulVec v = v
      have : sMat 1 = 1 := by ext <;> simp [sMat]
      rw [this, M3.one_mulVec]
    have hrot : ∀ v, rotate P .rv ⟨0⟩ v = v := fun v => by
      change ((quatOfRv P ⟨0⟩).toRotationMatrix).mulVec v = v
      rw [quatOfRv_zero]
      ext <;> simp [Quat.toRotationMatrix]
    have he := P.eps_pos
    refine ⟨1, (valid_quat_iff _).mpr (by simp), fun v => by rw [hact, hs], by rw [hq], ?_, ?_, ?_, ?_⟩
    · rw [hq, sub_self, V3.norm_zero]; positivity
    · rw [hq]; simp [Quat.norm]; positivity
    · intro v; rw [hq, hs, hact, sub_self, V3.norm_zero]; have := v.norm_nonneg; positivity
    · intro v; rw [hrot, hact, sub_self, V3.norm_zero]; have := v.norm_nonneg; positivity
  · set θ := r.v.norm with hθ
    have hpos : 0 < θ := V3.norm_pos hz
    set n : V3 := (1 / θ) • r.v with hn
    have hn1 : n.normSq = 1 := unit_dir hpos.ne'
    set s := θ * (1 / 2 - θ * θ * (1 / 48)) with hsd
    set s0 := Real.sin (θ * (1 / 2)) with hs0
    set c := Real.cos (θ * (1 / 2)) with hc
    have herr : |s - s0| ≤ P.eps / 3200 := half_sine_error hpos.le h
    have hθ1 := lt_of_lt_of_le h (e4_le_one P)
    have he := P.eps_pos
    have hq : conv P .quat .rv r = (⟨c, s * n.x, s * n.y, s * n.z⟩ : Quat) := by
      change quatOfRv P r = _
      have : isLessThenEpsilons4thRoot P r.v.norm := h
      simp only [quatOfRv, this, if_true]
      rw [← hθ]
      ext <;> simp [hn, hsd, c] <;> field_simp
    have hq0 : Quat.ofAngleAxis θ n = ⟨c, s0 * n.x, s0 * n.y, s0 * n.z⟩ := by
      simp only [Quat.ofAngleAxis, hc, hs0, mul_comm (1 / 2 : ℝ) θ]
    have hden : sMat (Quat.ofAngleAxis θ n) = dmat .rv r := by
      rw [sMat_ofAngleAxis _ hn1]; exact (dmat_rv_ne hz).symm
    have hsame : SameRot (k₁ := .quat) (k₂ := .rv) (Quat.ofAngleAxis θ n) r := by
      intro v; rw [act_eq, act_eq, den_eq, den_eq]; exact congrArg (fun m => M3.mulVec m v) hden
    have hsabs : |s| ≤ 1 := by
      rw [abs_of_nonneg (by rw [hsd]; apply mul_nonneg hpos.le; nlinarith)]
      rw [hsd]; nlinarith
    have hs0abs : |s0| ≤ 1 := Real.abs_sin_le_one _
    have hcabs : |c| ≤ 1 := Real.abs_cos_le_one _
    refine ⟨Quat.ofAngleAxis θ n, (valid_quat_iff _).mpr (normSq_ofAngleAxis _ hn1), hsame, ?_, ?_, ?_, ?_, ?_⟩
    · rw [hq, hq0]
    · have : (Quat.vec (conv P .quat .rv r)) - (Quat.ofAngleAxis θ n).vec = (s - s0) • n := by
        rw [hq, hq0]; ext <;> simp [Quat.vec] <;> ring
      rw [this, V3.norm_smul, V3.norm_eq_one_iff.mpr hn1, mul_one]; exact herr
    · have hns : Quat.normSq (conv P .quat .rv r) = 1 + (s - s0) * (s + s0) := by
        rw [hq]
        have := Real.sin_sq_add_cos_sq (θ * (1 / 2))
        simp only [V3.normSq, V3.dot] at hn1
        simp only [Quat.normSq]
        rw [← hs0, ← hc] at this
        linear_combination s ^ 2 * hn1 + this
      set N := Quat.norm (conv P .quat .rv r) with hN
      have hN0 : 0 ≤ N := Real.sqrt_nonneg _
      have hN2 : N ^ 2 = 1 + (s - s0) * (s + s0) := by
        rw [hN, Quat.norm, Real.sq_sqrt (Quat.normSq_nonneg _), hns]
      have h1 : |N - 1| ≤ |(s - s0) * (s + s0)| := by
        have e : (s - s0) * (s + s0) = (N - 1) * (N + 1) := by nlinarith
        rw [e, abs_mul, abs_of_nonneg (by linarith : 0 ≤ N + 1)]
        nlinarith [abs_nonneg (N - 1)]
      have h2 : |(s - s0) * (s + s0)| ≤ 2 * |s - s0| := by
        rw [abs_mul]; have := abs_add_le s s0; nlinarith [abs_nonneg (s - s0)]
      linarith
    · intro v
      have := sandwich_diff hn1 hcabs hsabs hs0abs v
      rw [← hsame v, hq, hq0]
      refine this.trans (mul_le_mul_of_nonneg_right ?_ v.norm_nonneg)
      linarith
    · intro v
      have := toRotationMatrix_diff hn1 hcabs hsabs hs0abs v
      have hr : rotate P .rv r v = (Quat.toRotationMatrix ⟨c, s * n.x, s * n.y, s * n.z⟩).mulVec v := by
        rw [← hq]; rfl
      have ha : act .rv r v = (Quat.toRotationMatrix ⟨c, s0 * n.x, s0 * n.y, s0 * n.z⟩).mulVec v := by
        rw [← hq0, toRotationMatrix_eq (normSq_ofAngleAxis _ hn1), hden, act_eq, den_eq]
      rw [hr, ha]
      refine this.trans (mul_le_mul_of_nonneg_right ?_ v.norm_nonneg)
      linarith

lemma rodMat_mul (a b : ℝ) {n : V3} (hn : n.normSq = 1) : rodMat a n * rodMat b n = rodMat (a + b) n := by
  rw [← sMat_ofAngleAxis a hn, ← sMat_ofAngleAxis b hn, ← sMat_ofAngleAxis (a + b) hn, ← sMat_mul]
  congr 1
  have e : 1 / 2 * (a + b) = 1 / 2 * a + 1 / 2 * b := by ring
  simp only [V3.normSq, V3.dot] at hn
  ext <;> simp only [Quat.ofAngleAxis, Quat.mul_w, Quat.mul_x, Quat.mul_y, Quat.mul_z, e, Real.cos_add, Real.sin_add]
  · linear_combination (-(Real.sin (1 / 2 * a) * Real.sin (1 / 2 * b))) * hn
  all_goals ring

lemma rotAngle_rodMat_diff (a b : ℝ) {n : V3} (hn : n.normSq = 1) :
    rotAngle (rodMat a n * (rodMat b n).transpose) ≤ |a - b| := by
  have : (rodMat b n).transpose = rodMat (-b) n := by
    rw [rodMat_transpose, ← rodMat_neg_neg, neg_neg]
  rw [this, rodMat_mul a (-b) hn]
  apply rotAngle_of_trace
  rw [trace_rodMat _ hn, sub_eq_add_neg]

/-- **C08 (b): RotationQuaternion → RotationVector.** For every unit quaternion in the approximation branch the represented
rotations differ by a rotation of at most `4/3 dp^(3/2)` radians. -/
theorem C08_quat_to_rv (P : Prec) (q : Quat) (hq : Valid .quat q) (h : 1 - q.w * q.w < P.dp) :
    rotAngle (den .rv (conv P .rv .quat q) * (den .quat q).transpose) ≤ 4 / 3 * Real.sqrt P.dp ^ 3 := by
  have hq1 := (valid_quat_iff q).mp hq
  have hdp := P.dp_le
  by_cases hz : q.vec = 0
  · have h1 : conv P .rv .quat q = (⟨0⟩ : RotVec) := rvOfQuat_zero hq1 hz
    have hn2 := vec_norm_sq hq1
    rw [hz, V3.norm_zero] at hn2
    have hx : q.x = 0 := congrArg V3.x hz
    have hy : q.y = 0 := congrArg V3.y hz
    have hzz : q.z = 0 := congrArg V3.z hz
    have hw : q.w ^ 2 = 1 := by linarith
    have h2 : den .quat q = 1 := by
      rw [den_eq]
      change sMat q = 1
      ext <;> simp [sMat, hx, hy, hzz, hw]
    have h3 : den .rv (⟨0⟩ : RotVec) = 1 := by rw [den_eq]; exact dmat_rv_zero
    rw [h1, h2, h3, M3.transpose_one, mul_one, rotAngle_one]
    positivity
  · set m := q.vec.norm with hm
    have hpos : 0 < m := V3.norm_pos hz
    have hm2 : m ^ 2 = 1 - q.w ^ 2 := vec_norm_sq hq1
    have hmd : m ^ 2 < P.dp := by rw [hm2]; linarith [sq q.w]
    have hms : m < Real.sqrt P.dp := by
      rw [← Real.sqrt_sq hpos.le]; exact Real.sqrt_lt_sqrt (sq_nonneg _) hmd
    -- half angle
    set α := Real.arcsin m with hα
    have hm1 : m ≤ 1 := by nlinarith
    have hsin : Real.sin α = m := Real.sin_arcsin (by linarith) hm1
    have hα0 : 0 < α := Real.arcsin_pos.mpr hpos
    have hα2 : α ≤ Real.pi / 2 := Real.arcsin_le_pi_div_two _
    have hcos : Real.cos α = |q.w| := by
      rw [hα, Real.cos_arcsin, hm2, ← Real.sqrt_sq_eq_abs]; congr 1; ring
    have hαle : α ≤ Real.pi / 2 * m := by
      have := Real.mul_le_sin hα0.le hα2
      rw [hsin] at this
      have hpi := Real.pi_pos
      calc α = Real.pi / 2 * (2 / Real.pi * α) := by field_simp
        _ ≤ _ := by gcongr
    have hαm : α ≤ 63 / 40 * m := by
      have hpi := Real.pi_lt_d2
      nlinarith
    have hbound : |2 * m - 2 * α| ≤ 4 / 3 * Real.sqrt P.dp ^ 3 + 0 := by
      have h1 := Real.sin_gt_sub_cube hα0
      have h2 := Real.sin_lt hα0
      rw [hsin] at h1 h2
      rw [abs_of_nonpos (by linarith)]
      have h3 : α ^ 3 ≤ (63 / 40 * m) ^ 3 := pow_le_pow_left₀ hα0.le hαm 3
      have h4 : m ^ 3 ≤ Real.sqrt P.dp ^ 3 := pow_le_pow_left₀ hpos.le hms.le 3
      have h5 : (0 : ℝ) ≤ m ^ 3 := by positivity
      nlinarith
    rw [add_zero] at hbound
    -- axis with the sign of the real part
    obtain ⟨σ, hσ, hσw, hrv⟩ : ∃ σ : ℝ, (σ = 1 ∨ σ = -1) ∧ q.w = σ * |q.w| ∧
        rvOfQuat P q = ⟨(2 * m) • ((σ / m) • q.vec)⟩ := by
      have hwne : q.w ≠ 0 := by
        intro e; rw [e] at h; linarith
      rcases lt_or_gt_of_ne hwne with hw | hw
      · refine ⟨-1, Or.inr rfl, by rw [abs_of_neg hw]; ring, ?_⟩
        simp only [rvOfQuat, h, if_true, gt_iff_lt, not_lt.mpr hw.le, if_false]
        rw [smul_smul]; congr 2; field_simp
      · refine ⟨1, Or.inl rfl, by rw [abs_of_pos hw]; ring, ?_⟩
        simp only [rvOfQuat, h, if_true, gt_iff_lt, hw]
        rw [smul_smul]; congr 2; field_simp
    have hσ2 : σ ^ 2 = 1 := by rcases hσ with rfl | rfl <;> norm_num
    set n : V3 := (σ / m) • q.vec with hn
    have hn1 : n.normSq = 1 := by
      rw [hn, V3.normSq_smul, ← V3.norm_sq, ← hm, div_pow, hσ2]; field_simp
    have hrod : sMat q = rodMat (2 * α) n := by
      rw [← sMat_ofAngleAxis _ hn1]
      have e : 1 / 2 * (2 * α) = α := by ring
      have : Quat.ofAngleAxis (2 * α) n = ⟨σ * q.w, σ * q.x, σ * q.y, σ * q.z⟩ := by
        simp only [Quat.ofAngleAxis, e, hsin, hcos, hn, V3.smul_x, V3.smul_y, V3.smul_z, Quat.vec_x, Quat.vec_y,
          Quat.vec_z]
        ext <;> simp only
        · have : |q.w| = σ ^ 2 * |q.w| := by rw [hσ2, one_mul]
          rw [this, hσw]; rw [← hσw]; rw [hσw]; rcases hσ with rfl | rfl <;> simp
        all_goals field_simp
      rw [this]
      ext <;> simp only [sMat, mul_pow, hσ2] <;> first | ring1 | linear_combination (-(2 * (q.x * q.y - q.w * q.z))) * hσ2 | linear_combination (-(2 * (q.x * q.z + q.w * q.y))) * hσ2 | linear_combination (-(2 * (q.x * q.y + q.w * q.z))) * hσ2 | linear_combination (-(2 * (q.y * q.z - q.w * q.x))) * hσ2 | linear_combination (-(2 * (q.x * q.z - q.w * q.y))) * hσ2 | linear_combination (-(2 * (q.y * q.z + q.w * q.x))) * hσ2
    have hden1 : den .quat q = rodMat (2 * α) n := by rw [den_eq]; exact hrod
    have hden2 : den .rv (conv P .rv .quat q) = rodMat (2 * m) n := by
      rw [den_eq]
      change dmat .rv (rvOfQuat P q) = _
      rw [hrv, dmat_rv_smul _ hn1]
    rw [hden1, hden2]
    exact (rotAngle_rodMat_diff _ _ hn1).trans hbound

/-- **C08 (c): RotationVector → AngleAxis (and → EulerAnglesXyz).** In the cut-off branch the result is the identity; it
differs from the exact rotation by less than `dp` radians. -/
theorem C08_rv_to_aa (P : Prec) (r : RotVec) (h : r.v.norm < P.dp) :
    Valid .aa (conv P .aa .rv r) ∧
    rotAngle (den .aa (conv P .aa .rv r) * (den .rv r).transpose) < P.dp ∧
    rotAngle (den .xyz (conv P .xyz .rv r) * (den .rv r).transpose) < P.dp := by
  have h1 : conv P .aa .rv r = AngAx.identity := aaOfRv_small h
  have hid : den .aa AngAx.identity = 1 := by rw [den_eq]; exact rodMat_zero _
  have h2 : den .xyz (conv P .xyz .rv r) = 1 := by
    have := (conv_nonrv (P := P) (d := .xyz) (s := .aa) (r := AngAx.identity)
      ((valid_aa_iff _).mpr aa_identity_unit) (by decide) (fun h => by cases h)).2
    rw [hid] at this
    rw [← this, ← h1]; rfl
  have h3 : rotAngle (1 * (den .rv r).transpose) < P.dp := by
    rw [one_mul, rotAngle_transpose, den_eq]
    exact lt_of_le_of_lt (rotAngle_rv_le r) h
  exact ⟨(valid_aa_iff _).mpr (by rw [h1]; exact aa_identity_unit), by rw [h1, hid]; exact h3, by rw [h2]; exact h3⟩

/-- **C08 (d): RotationMatrix → RotationVector** goes through the quaternion and inherits its bound. -/
theorem C08_mat_to_rv (P : Prec) (m : M3) (hm : Valid .mat m) (h : (3 - m.trace) / 4 < P.dp) :
    rotAngle (den .rv (conv P .rv .mat m) * (den .mat m).transpose) ≤ 4 / 3 * Real.sqrt P.dp ^ 3 := by
  obtain ⟨h1, h2⟩ := ofMatrix_spec (m := m) hm
  have hd : den .mat m = den .quat (Quat.ofMatrix m) := by
    rw [den_eq, den_eq]; exact h2.symm
  have := C08_quat_to_rv P (Quat.ofMatrix m) ((valid_quat_iff _).mpr h1) (by
    have := trace_sMat h1
    rw [h2] at this
    have := sq (Quat.ofMatrix m).w
    linarith)
  rw [hd]; exact this

/-- Non-vacuity: nonzero inputs in each of the branches. -/
example : (⟨⟨1 / 10 ^ 13, 0, 0⟩⟩ : RotVec).v.norm < Prec.double.dp ∧ (⟨⟨1 / 10 ^ 13, 0, 0⟩⟩ : RotVec).v ≠ 0 := by
  constructor
  · have : (⟨1 / 10 ^ 13, 0, 0⟩ : V3).norm = 1 / 10 ^ 13 := by
      simp only [V3.norm, V3.normSq, V3.dot]
      rw [show (1 / 10 ^ 13 * (1 / 10 ^ 13) + 0 * 0 + 0 * 0 : ℝ) = (1 / 10 ^ 13) ^ 2 by ring, Real.sqrt_sq (by norm_num)]
    rw [this]; norm_num [Prec.double]
  · intro e; have := congrArg V3.x e; norm_num at this

end Kindr
