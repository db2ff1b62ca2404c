import Verif.Props.Calculus
import Verif.Props.Cast

/-!
# C93: nearby stored values represent nearby rotations

Speed limit and Lipschitz bounds.  `rotAngle (den a * (den b)ᵀ)` is the angle between two rotations (`Spec/Metric.lean`); it is
what `getDisparityAngle` returns (`C93_disparity`).
-/

set_option autoImplicit false

noncomputable section
namespace Kindr
open Spec Filter

lemma axial_normSq {m : M3} (h : IsSO3 m) : (axial m).normSq = 4 - (m.trace - 1) ^ 2 := by
  have r := SO3.rel h
  have k00 := r.k00
  have k11 := r.k11
  have k22 := r.k22
  simp only [axial, V3.normSq, V3.dot, M3.trace]
  linear_combination r.r00 + r.r11 + r.r22 + 2 * k00 + 2 * k11 + 2 * k22

lemma trace_skew_mul (w : V3) (m : M3) : (skew w * m).trace = -(w.dot (axial m)) := by
  simp [M3.trace, skew, axial, V3.dot]; ring

/-- The cosine of the angle covered so far, and its rate. -/
lemma cos_angle_deriv {k : Kind} {r : ℝ → Rep k} {w : V3} {s : ℝ} (m : M3) (hw : IsGlobalVelocity k r s w) :
    HasDerivAt (fun s => ((den k (r s) * m).trace - 1) / 2) (-(w.dot (axial (den k (r s) * m))) / 2) s := by
  have h := isGlobalVelocity_iff.mp hw
  have h2 := h.mul (hasDerivM_const m s)
  obtain ⟨⟨h00, -, -⟩, ⟨-, h11, -⟩, -, -, h22⟩ := h2
  refine ((((h00.add h11).add h22).sub_const 1).div_const 2).congr_deriv ?_
  rw [← trace_skew_mul, ← mul_assoc]
  simp [M3.trace]

/-- **C93 (a).** The speed limit: a rotation moving with an angular velocity of at most `V` covers at most the angle `V (b - a)`. -/
theorem C93_speed_limit (k : Kind) (r : ℝ → Rep k) (w : ℝ → V3) (a b V : ℝ) (hab : a ≤ b)
    (hr : ∀ s ∈ Set.Icc a b, Valid k (r s)) (hw : ∀ s ∈ Set.Icc a b, IsGlobalVelocity k r s (w s))
    (hV : ∀ s ∈ Set.Icc a b, (w s).norm ≤ V) :
    rotAngle (den k (r b) * (den k (r a)).transpose) ≤ V * (b - a) := by
  have ha : a ∈ Set.Icc a b := ⟨le_rfl, hab⟩
  have hA := den_isSO3 (hr a ha)
  have hV0 : 0 ≤ V := (V3.norm_nonneg _).trans (hV a ha)
  have hso : ∀ s ∈ Set.Icc a b, IsSO3 (den k (r s) * (den k (r a)).transpose) :=
    fun s hs => SO3.mul (den_isSO3 (hr s hs)) (SO3.transpose hA)
  -- with a slightly higher speed and a head start
  have key : ∀ ε > 0, (V + ε) * (b - a) + ε < Real.pi →
      rotAngle (den k (r b) * (den k (r a)).transpose) ≤ (V + ε) * (b - a) + ε := by
    intro ε hε hpi
    have hrange : ∀ s ∈ Set.Icc a b, 0 < (V + ε) * (s - a) + ε ∧ (V + ε) * (s - a) + ε < Real.pi := fun s hs => by
      have h1 : 0 ≤ (V + ε) * (s - a) := mul_nonneg (by linarith) (by linarith [hs.1])
      have h2 : (V + ε) * (s - a) ≤ (V + ε) * (b - a) := mul_le_mul_of_nonneg_left (by linarith [hs.2]) (by linarith)
      exact ⟨by linarith, by linarith⟩
    have hmain := image_le_of_deriv_right_lt_deriv_boundary (a := a) (b := b)
      (f := fun s => -(((den k (r s) * (den k (r a)).transpose).trace - 1) / 2))
      (f' := fun s => -(-((w s).dot (axial (den k (r s) * (den k (r a)).transpose))) / 2))
      (B := fun s => -Real.cos ((V + ε) * (s - a) + ε)) (B' := fun s => Real.sin ((V + ε) * (s - a) + ε) * (V + ε))
      (fun s hs => ((cos_angle_deriv _ (hw s hs)).neg).continuousAt.continuousWithinAt)
      (fun s hs => ((cos_angle_deriv _ (hw s ⟨hs.1, hs.2.le⟩)).neg).hasDerivWithinAt)
      (by
        simp only [hA.1, M3.trace_one, sub_self, mul_zero, zero_add]
        have := Real.cos_le_one ε
        norm_num; linarith)
      (fun s => by
        have h1 : HasDerivAt (fun s => (V + ε) * (s - a) + ε) (V + ε) s := by
          simpa using (((hasDerivAt_id s).sub_const a).const_mul (V + ε)).add_const ε
        refine h1.cos.neg.congr_deriv (by ring))
      (fun s hs he => by
        have hs' : s ∈ Set.Icc a b := ⟨hs.1, hs.2.le⟩
        obtain ⟨p0, p1⟩ := hrange s hs'
        have hsin := Real.sin_pos_of_pos_of_lt_pi p0 p1
        have he' : ((den k (r s) * (den k (r a)).transpose).trace - 1) / 2 = Real.cos ((V + ε) * (s - a) + ε) := neg_inj.mp he
        have hax : (axial (den k (r s) * (den k (r a)).transpose)).norm = 2 * Real.sin ((V + ε) * (s - a) + ε) := by
          have h1 := axial_normSq (hso s hs')
          have h2 := Real.sin_sq_add_cos_sq ((V + ε) * (s - a) + ε)
          have h3 : (axial (den k (r s) * (den k (r a)).transpose)).normSq = (2 * Real.sin ((V + ε) * (s - a) + ε)) ^ 2 := by
            rw [h1]
            have : (den k (r s) * (den k (r a)).transpose).trace - 1 = 2 * Real.cos ((V + ε) * (s - a) + ε) := by linarith
            rw [this]; linear_combination (-4) * h2
          rw [V3.norm, h3, Real.sqrt_sq (by linarith)]
        have hd := V3.dot_abs_le (w s) (axial (den k (r s) * (den k (r a)).transpose))
        rw [hax] at hd
        have h4 := mul_le_mul_of_nonneg_right (hV s hs') (show 0 ≤ 2 * Real.sin ((V + ε) * (s - a) + ε) by linarith)
        have h5 := le_abs_self ((w s).dot (axial (den k (r s) * (den k (r a)).transpose)))
        have h6 := mul_pos hsin hε
        simp only [neg_div, neg_neg]
        linarith)
      ⟨hab, le_rfl⟩
    obtain ⟨p0, p1⟩ := hrange b ⟨hab, le_rfl⟩
    have hc : Real.cos ((V + ε) * (b - a) + ε) ≤ Real.cos (rotAngle (den k (r b) * (den k (r a)).transpose)) := by
      rw [cos_rotAngle (hso b ⟨hab, le_rfl⟩)]
      linarith
    by_contra hn
    have := Real.cos_lt_cos_of_nonneg_of_le_pi p0.le (rotAngle_le_pi _) (not_le.mp hn)
    linarith
  rcases lt_or_ge (V * (b - a)) Real.pi with hlt | hge
  · refine le_of_forall_pos_le_add fun δ hδ => ?_
    have hd : 0 < b - a + 1 := by linarith
    obtain ⟨m, hm⟩ : ∃ m, m = min δ (Real.pi - V * (b - a)) := ⟨_, rfl⟩
    have hmp : 0 < m := by rw [hm]; exact lt_min hδ (by linarith)
    have h1 := key (m / 2 / (b - a + 1)) (by positivity)
    have e : (V + m / 2 / (b - a + 1)) * (b - a) + m / 2 / (b - a + 1) = V * (b - a) + m / 2 := by field_simp; ring
    rw [e] at h1
    have m1 : m ≤ δ := hm ▸ min_le_left _ _
    have m2 : m ≤ Real.pi - V * (b - a) := hm ▸ min_le_right _ _
    linarith [h1 (by linarith)]
  · exact (rotAngle_le_pi _).trans hge

/-- The Jacobian of the exponential map is a contraction. -/
lemma jacApply_norm_le {v : V3} (hn : v.norm ≠ 0) (w : V3) :
    (jacApply ((1 - Real.cos v.norm) / (v.norm * v.norm)) ((v.norm - Real.sin v.norm) / (v.norm * v.norm * v.norm)) v w).norm ≤
      w.norm := by
  have hp : 0 < v.norm := lt_of_le_of_ne v.norm_nonneg (Ne.symm hn)
  have hN := V3.norm_sq v
  have h1 := Real.sin_sq_add_cos_sq v.norm
  have hb : ((1 - Real.cos v.norm) / (v.norm * v.norm)) * v.normSq = 1 - Real.cos v.norm := by rw [← hN]; field_simp
  have hd : ((v.norm - Real.sin v.norm) / (v.norm * v.norm * v.norm)) * v.normSq = 1 - Real.sin v.norm / v.norm := by
    rw [← hN]; field_simp
  obtain ⟨h2, h3⟩ := jac_coeff hn
  rw [hN] at h2 h3
  have hs : (Real.sin v.norm / v.norm) ^ 2 + ((1 - Real.cos v.norm) / (v.norm * v.norm)) ^ 2 * v.normSq ≤ 1 := by
    have : (1 - Real.cos v.norm) / (v.norm * v.norm) ≤ 1 / 2 := by
      rw [div_le_iff₀ (by positivity)]
      have := Real.one_sub_sq_div_two_le_cos (x := v.norm)
      nlinarith
    rw [h3]; linarith
  generalize (1 - Real.cos v.norm) / (v.norm * v.norm) = b at *
  generalize (v.norm - Real.sin v.norm) / (v.norm * v.norm * v.norm) = d at *
  generalize Real.sin v.norm / v.norm = a at *
  have hid : (jacApply b d v w).normSq = w.normSq - (2 * d - d ^ 2 * v.normSq - b ^ 2) * (v.cross w).normSq := by
    simp [jacApply, V3.normSq, V3.dot, V3.cross]; ring
  have hc : 0 ≤ (2 * d - d ^ 2 * v.normSq - b ^ 2) := by
    have hNp : 0 < v.normSq := by rw [← hN]; positivity
    have : (2 * d - d ^ 2 * v.normSq - b ^ 2) * v.normSq = 1 - (a ^ 2 + b ^ 2 * v.normSq) := by
      linear_combination (2 - d * v.normSq - (1 - a)) * hd
    by_contra hneg
    have := mul_neg_of_neg_of_pos (not_le.mp hneg) hNp
    linarith
  refine Real.sqrt_le_sqrt ?_
  rw [hid]
  linarith [mul_nonneg hc (V3.normSq_nonneg (v.cross w))]

/-- **C93 (b).** Rotation vectors: the angle between the rotations is at most the distance of the vectors. -/
theorem C93_rotation_vector (x y : V3) :
    rotAngle (den .rv (⟨x⟩ : RotVec) * (den .rv (⟨y⟩ : RotVec)).transpose) ≤ (x - y).norm := by
  have hd : ∀ s : ℝ, HasDerivV (fun s : ℝ => y + s • (x - y)) (x - y) s := fun s =>
    ⟨by simpa using ((hasDerivAt_id s).mul_const (x - y).x).const_add y.x,
      by simpa using ((hasDerivAt_id s).mul_const (x - y).y).const_add y.y,
      by simpa using ((hasDerivAt_id s).mul_const (x - y).z).const_add y.z⟩
  have hex : ∀ s : ℝ, ∃ w : V3, IsGlobalVelocity .rv (fun s : ℝ => (⟨y + s • (x - y)⟩ : RotVec)) s w ∧ w.norm ≤ (x - y).norm := by
    intro s
    by_cases h0 : (y + s • (x - y)).norm = 0
    · exact ⟨_, exp_velocity_zero (hd s) (V3.norm_eq_zero.mp h0), le_rfl⟩
    · exact ⟨_, exp_velocity (hd s) h0, jacApply_norm_le h0 _⟩
  choose w hw using hex
  have := C93_speed_limit .rv (fun s : ℝ => (⟨y + s • (x - y)⟩ : RotVec)) w 0 1 (x - y).norm zero_le_one
    (fun _ _ => trivial) (fun s _ => (hw s).1) (fun s _ => (hw s).2)
  have e1 : y + (1 : ℝ) • (x - y) = x := by rw [one_smul]; abel
  have e0 : y + (0 : ℝ) • (x - y) = y := by rw [zero_smul, add_zero]
  simp only [e1, e0] at this
  linarith

/-! ## other classes -/

lemma rotAngle_product {a b c d : M3} (ha : IsSO3 a) (hb : IsSO3 b) (hc : IsSO3 c) (hd : IsSO3 d) :
    rotAngle (a * b * (c * d).transpose) ≤ rotAngle (a * c.transpose) + rotAngle (b * d.transpose) := by
  have h1 := SO3.mul hb (SO3.transpose hd)
  have e : a * b * (c * d).transpose = a * (b * d.transpose) * a.transpose * (a * c.transpose) := by
    rw [M3.transpose_mul, mul_assoc (a * (b * d.transpose)), ← mul_assoc a.transpose, SO3.tr_mul ha, one_mul]
    simp only [mul_assoc]
  have h2 := rotAngle_mul_le (SO3.mul (SO3.mul ha h1) (SO3.transpose ha)) (SO3.mul ha (SO3.transpose hc))
  rw [e]
  rw [rotAngle_conj ha] at h2
  linarith

lemma rotAngle_axes (a b : ℝ) : rotAngle (rX a * (rX b).transpose) ≤ |a - b| ∧ rotAngle (rY a * (rY b).transpose) ≤ |a - b| ∧
    rotAngle (rZ a * (rZ b).transpose) ≤ |a - b| := by
  rw [rX_transpose, rY_transpose, rZ_transpose, ← rX_add, ← rY_add, ← rZ_add, ← sub_eq_add_neg]
  exact ⟨rotAngle_of_trace (trace_rX _), rotAngle_of_trace (trace_rY _), rotAngle_of_trace (trace_rZ _)⟩

/-- **C93 (c).** Euler angles: the angle is at most the sum of the differences of the three angles. -/
theorem C93_euler_angles (a b : V3) :
    rotAngle (den .xyz (⟨a⟩ : EulXyz) * (den .xyz (⟨b⟩ : EulXyz)).transpose) ≤ |a.x - b.x| + |a.y - b.y| + |a.z - b.z| ∧
    rotAngle (den .zyx (⟨a⟩ : EulZyx) * (den .zyx (⟨b⟩ : EulZyx)).transpose) ≤ |a.x - b.x| + |a.y - b.y| + |a.z - b.z| := by
  have hs := rXYZ_isSO3
  rw [den_eq, den_eq, den_eq, den_eq]
  constructor
  · change rotAngle (rX a.x * rY a.y * rZ a.z * (rX b.x * rY b.y * rZ b.z).transpose) ≤ _
    have h1 := rotAngle_product (SO3.mul (hs a.x).1 (hs a.y).2.1) (hs a.z).2.2 (SO3.mul (hs b.x).1 (hs b.y).2.1) (hs b.z).2.2
    have h2 := rotAngle_product (hs a.x).1 (hs a.y).2.1 (hs b.x).1 (hs b.y).2.1
    linarith [(rotAngle_axes a.x b.x).1, (rotAngle_axes a.y b.y).2.1, (rotAngle_axes a.z b.z).2.2]
  · change rotAngle (rZ a.x * rY a.y * rX a.z * (rZ b.x * rY b.y * rX b.z).transpose) ≤ _
    have h1 := rotAngle_product (SO3.mul (hs a.x).2.2 (hs a.y).2.1) (hs a.z).1 (SO3.mul (hs b.x).2.2 (hs b.y).2.1) (hs b.z).1
    have h2 := rotAngle_product (hs a.x).2.2 (hs a.y).2.1 (hs b.x).2.2 (hs b.y).2.1
    linarith [(rotAngle_axes a.x b.x).2.2, (rotAngle_axes a.y b.y).2.1, (rotAngle_axes a.z b.z).1]

lemma den_aa_rv {θ : ℝ} {n : V3} (hn : n.normSq = 1) : den .aa (⟨θ, n⟩ : AngAx) = den .rv (⟨θ • n⟩ : RotVec) := by
  rw [den_eq, den_eq, dmat_rv_smul _ hn]; rfl

/-- **C93 (d).** Angle-axis: the difference of the angles plus the distance of the axes times the angle (at most `π`). -/
theorem C93_angle_axis (a b : AngAx) (ha : Valid .aa a) (hb : Valid .aa b) :
    rotAngle (den .aa a * (den .aa b).transpose) ≤ |a.angle - b.angle| + min |a.angle| Real.pi * (a.axis - b.axis).norm := by
  obtain ⟨θ, n⟩ := a
  obtain ⟨φ, m⟩ := b
  have hn : n.normSq = 1 := (valid_aa_iff _).mp ha
  have hm : m.normSq = 1 := (valid_aa_iff _).mp hb
  have h1 : rotAngle (den .aa (⟨θ, m⟩ : AngAx) * (den .aa (⟨φ, m⟩ : AngAx)).transpose) ≤ |θ - φ| := by
    rw [den_aa_rv hm, den_aa_rv hm]
    refine (C93_rotation_vector _ _).trans (le_of_eq ?_)
    rw [← sub_smul, V3.norm_smul, V3.norm, hm, Real.sqrt_one, mul_one]
  have h2 : ∀ t : ℝ, rotAngle (den .aa (⟨t, n⟩ : AngAx) * (den .aa (⟨t, m⟩ : AngAx)).transpose) ≤ |t| * (n - m).norm := by
    intro t
    rw [den_aa_rv hn, den_aa_rv hm]
    refine (C93_rotation_vector _ _).trans (le_of_eq ?_)
    rw [← smul_sub, V3.norm_smul]
  have h3 : rotAngle (den .aa (⟨θ, n⟩ : AngAx) * (den .aa (⟨θ, m⟩ : AngAx)).transpose) ≤ min |θ| Real.pi * (n - m).norm := by
    rw [min_mul_of_nonneg _ _ (V3.norm_nonneg _)]
    refine le_min (h2 θ) ?_
    obtain ⟨k, hk⟩ := wrapPosNegPI_congr θ
    have e : ∀ l : V3, den .aa (⟨θ, l⟩ : AngAx) = den .aa (⟨wrapPosNegPI θ, l⟩ : AngAx) := by
      intro l
      rw [den_eq, den_eq, hk]
      exact (rodMat_add_two_pi θ k l).symm
    rw [e, e]
    have hw := wrapPosNegPI_mem θ
    exact (h2 _).trans (mul_le_mul_of_nonneg_right (abs_le.mpr ⟨hw.1, hw.2.le⟩) (V3.norm_nonneg _))
  have h4 := rotAngle_triangle (den_isSO3 ha) (den_isSO3 (k := .aa) (r := (⟨θ, m⟩ : AngAx)) hb) (den_isSO3 hb)
  change rotAngle _ ≤ |θ - φ| + min |θ| Real.pi * (n - m).norm
  linarith

/-- **C93 (e).** Matrices: the angle is determined by the Frobenius distance. -/
theorem C93_matrix (a b : M3) (ha : Valid .mat a) (hb : Valid .mat b) :
    8 * Real.sin (rotAngle (den .mat a * (den .mat b).transpose) / 2) ^ 2 =
      (a.m00 - b.m00) ^ 2 + (a.m01 - b.m01) ^ 2 + (a.m02 - b.m02) ^ 2 + (a.m10 - b.m10) ^ 2 + (a.m11 - b.m11) ^ 2 +
      (a.m12 - b.m12) ^ 2 + (a.m20 - b.m20) ^ 2 + (a.m21 - b.m21) ^ 2 + (a.m22 - b.m22) ^ 2 := by
  have ha' : IsSO3 a := ha
  have hb' : IsSO3 b := hb
  have e : ∀ m : M3, den .mat m = m := fun m => by rw [den_eq]; rfl
  rw [e, e]
  have hc := cos_rotAngle (SO3.mul ha' (SO3.transpose hb'))
  have hh := sin_half_sq (rotAngle (a * b.transpose))
  rw [hh, hc]
  have ra := SO3.rel ha'
  have rb := SO3.rel hb'
  simp [M3.trace]
  linear_combination (-1) * ra.r00 - ra.r11 - ra.r22 - rb.r00 - rb.r11 - rb.r22

lemma quat_dot_le {p q : Quat} (hp : p.normSq = 1) (hq : q.normSq = 1) :
    |p.w * q.w + p.x * q.x + p.y * q.y + p.z * q.z| ≤ 1 := by
  simp only [Quat.normSq] at hp hq
  rw [abs_le]
  constructor
  · nlinarith [sq_nonneg (p.w + q.w), sq_nonneg (p.x + q.x), sq_nonneg (p.y + q.y), sq_nonneg (p.z + q.z)]
  · nlinarith [sq_nonneg (p.w - q.w), sq_nonneg (p.x - q.x), sq_nonneg (p.y - q.y), sq_nonneg (p.z - q.z)]

/-- **C93 (f).** Quaternions: the angle is determined by the chord, up to the sign of the quaternion. -/
theorem C93_quaternion (p q : Quat) (hp : Valid .quat p) (hq : Valid .quat q) :
    (2 * Real.sin (rotAngle (den .quat p * (den .quat q).transpose) / 4)) ^ 2 =
      min ((p.w - q.w) ^ 2 + (p.x - q.x) ^ 2 + (p.y - q.y) ^ 2 + (p.z - q.z) ^ 2)
        ((p.w + q.w) ^ 2 + (p.x + q.x) ^ 2 + (p.y + q.y) ^ 2 + (p.z + q.z) ^ 2) := by
  have hp' := (valid_quat_iff p).mp hp
  have hq' := (valid_quat_iff q).mp hq
  have h1 := quat_dot_le hp' hq'
  have e : ∀ q : Quat, den .quat q = sMat q := fun q => by rw [den_eq]; rfl
  rw [e, e, rotAngle_quat hp' hq']
  obtain ⟨t, ht⟩ : ∃ t, t = p.w * q.w + p.x * q.x + p.y * q.y + p.z * q.z := ⟨_, rfl⟩
  rw [← ht] at h1 ⊢
  have h2 : (p.w - q.w) ^ 2 + (p.x - q.x) ^ 2 + (p.y - q.y) ^ 2 + (p.z - q.z) ^ 2 = 2 - 2 * t := by
    rw [ht]; simp only [Quat.normSq] at hp' hq'; linear_combination hp' + hq'
  have h3 : (p.w + q.w) ^ 2 + (p.x + q.x) ^ 2 + (p.y + q.y) ^ 2 + (p.z + q.z) ^ 2 = 2 + 2 * t := by
    rw [ht]; simp only [Quat.normSq] at hp' hq'; linear_combination hp' + hq'
  rw [h2, h3, mul_pow, show 2 * Real.arccos |t| / 4 = Real.arccos |t| / 2 by ring, sin_half_sq,
    Real.cos_arccos (by linarith [abs_nonneg t]) h1]
  rcases le_total 0 t with h | h
  · rw [abs_of_nonneg h, min_eq_left (by linarith)]; ring
  · rw [abs_of_nonpos h, min_eq_right (by linarith)]; ring

/-! ## The converse: unique forms and logarithms of nearby rotations -/

/-- Representatives with nonnegative real part of two rotations on the same side of the half turns lie on the same side. -/
lemma canon_dot_nonneg {p q : Quat} (hp : p.normSq = 1) (hq : q.normSq = 1) (h0 : 0 ≤ p.w) (h1 : 0 ≤ q.w)
    (h : rotAngle (sMat p) + rotAngle (sMat p * (sMat q).transpose) < Real.pi) :
    0 ≤ p.w * q.w + p.x * q.x + p.y * q.y + p.z * q.z := by
  by_contra hn
  push Not at hn
  have e1 : rotAngle (sMat p) = 2 * Real.arccos p.w := by
    have := rotAngle_quat hp (show (1 : Quat).normSq = 1 by simp [Quat.normSq])
    simpa [abs_of_nonneg h0] using this
  have hle := quat_dot_le hp hq
  rw [e1, rotAngle_quat hp hq, abs_of_neg hn] at h
  rw [abs_of_neg hn] at hle
  have hw1 : p.w ≤ 1 := by simp only [Quat.normSq] at hp; nlinarith [sq_nonneg p.x, sq_nonneg p.y, sq_nonneg p.z]
  obtain ⟨c, hc⟩ : ∃ c, c = -(p.w * q.w + p.x * q.x + p.y * q.y + p.z * q.z) := ⟨_, rfl⟩
  rw [← hc] at h hle
  have hcp : 0 < c := by rw [hc]; linarith
  have h2 : 1 < p.w ^ 2 + c ^ 2 := by
    have h3 : Real.arccos p.w < Real.pi / 2 - Real.arccos c := by linarith
    have h4 := Real.cos_lt_cos_of_nonneg_of_le_pi (Real.arccos_nonneg _)
      (by linarith [Real.arccos_nonneg c, Real.pi_pos]) h3
    rw [Real.cos_pi_div_two_sub, Real.cos_arccos (by linarith) hw1, Real.sin_arccos] at h4
    have h5 := Real.sqrt_nonneg (1 - c ^ 2)
    have h6 : Real.sqrt (1 - c ^ 2) ^ 2 = 1 - c ^ 2 := Real.sq_sqrt (by nlinarith)
    nlinarith
  -- `-q` is `p` times the relative quaternion
  obtain ⟨i, hi⟩ : ∃ i : V3, i = ⟨-p.w * q.x + p.x * q.w + p.y * q.z - p.z * q.y,
    -p.w * q.y - p.x * q.z + p.y * q.w + p.z * q.x, -p.w * q.z + p.x * q.y - p.y * q.x + p.z * q.w⟩ := ⟨_, rfl⟩
  have hi2 : i.normSq = 1 - c ^ 2 := by
    rw [hi, hc]; simp only [V3.normSq, V3.dot]; simp only [Quat.normSq] at hp hq
    linear_combination hp + (p.w * p.w + p.x * p.x + p.y * p.y + p.z * p.z) * hq
  have hp2 : (⟨p.x, p.y, p.z⟩ : V3).normSq = 1 - p.w ^ 2 := by
    simp only [V3.normSq, V3.dot]; simp only [Quat.normSq] at hp; linear_combination hp
  have hqw : -q.w = p.w * c - (⟨p.x, p.y, p.z⟩ : V3).dot i := by
    rw [hi, hc]; simp only [V3.dot]; simp only [Quat.normSq] at hp
    linear_combination q.w * hp
  have hcs : (⟨p.x, p.y, p.z⟩ : V3).dot i ^ 2 ≤ (1 - p.w ^ 2) * (1 - c ^ 2) := by
    have := V3.dot_abs_le (⟨p.x, p.y, p.z⟩ : V3) i
    have h3 := pow_le_pow_left₀ (abs_nonneg _) this 2
    rwa [sq_abs, mul_pow, V3.norm_sq, V3.norm_sq, hi2, hp2] at h3
  have h7 : (⟨p.x, p.y, p.z⟩ : V3).dot i ^ 2 < (p.w * c) ^ 2 := by nlinarith
  have h8 := abs_lt_of_sq_lt_sq h7 (mul_nonneg h0 hcp.le)
  linarith [(abs_lt.mp h8).2]

lemma quatGetUnique_canon (q : Quat) : (quatGetUnique q = q ∨ quatGetUnique q = -q) ∧ 0 ≤ (quatGetUnique q).w := by
  have e : (⟨-q.w, -q.x, -q.y, -q.z⟩ : Quat) = -q := rfl
  unfold quatGetUnique
  rw [e]
  have hn : (-q).w = -q.w := rfl
  split_ifs with a b <;> refine ⟨by first | exact Or.inl rfl | exact Or.inr rfl, ?_⟩ <;> (try rw [hn]) <;> linarith

/-- **C93 (g).** Away from half turns, `getUnique()` of quaternions is continuous, and its chord is the angle between the
rotations. -/
theorem C93_unique_quaternion (P : Prec) (p q : Quat) (hp : Valid .quat p) (hq : Valid .quat q)
    (h : rotAngle (den .quat p) + rotAngle (den .quat p * (den .quat q).transpose) < Real.pi) :
    (Quat.w (getUnique P .quat p) - Quat.w (getUnique P .quat q)) ^ 2 + (Quat.x (getUnique P .quat p) - Quat.x (getUnique P .quat q)) ^ 2 +
      (Quat.y (getUnique P .quat p) - Quat.y (getUnique P .quat q)) ^ 2 + (Quat.z (getUnique P .quat p) - Quat.z (getUnique P .quat q)) ^ 2 =
      (2 * Real.sin (rotAngle (den .quat p * (den .quat q).transpose) / 4)) ^ 2 := by
  have e : ∀ q : Quat, den .quat q = sMat q := fun q => by rw [den_eq]; rfl
  have hu : ∀ q : Quat, Valid .quat q → (quatGetUnique q).normSq = 1 ∧ sMat (quatGetUnique q) = sMat q := by
    intro q hq
    have := (valid_quat_iff q).mp hq
    rcases (quatGetUnique_canon q).1 with h | h <;> rw [h]
    · exact ⟨this, rfl⟩
    · exact ⟨by rw [← this]; simp [Quat.normSq], sMat_neg q⟩
  change (((quatGetUnique p).w - (quatGetUnique q).w) ^ 2 + ((quatGetUnique p).x - (quatGetUnique q).x) ^ 2 +
    ((quatGetUnique p).y - (quatGetUnique q).y) ^ 2 + ((quatGetUnique p).z - (quatGetUnique q).z) ^ 2) = _
  obtain ⟨p1, p2⟩ := hu p hp
  obtain ⟨q1, q2⟩ := hu q hq
  have p3 := (quatGetUnique_canon p).2
  have q3 := (quatGetUnique_canon q).2
  rw [e, e, ← p2, ← q2] at h
  rw [e, e, ← p2, ← q2]
  generalize quatGetUnique p = p' at *
  generalize quatGetUnique q = q' at *
  have hd := canon_dot_nonneg p1 q1 p3 q3 h
  rw [← e, ← e, C93_quaternion p' q' ((valid_quat_iff _).mpr p1) ((valid_quat_iff _).mpr q1), min_eq_left]
  nlinarith

lemma cos_sub_cos_le {γ δ : ℝ} (h0 : 0 ≤ δ) (h : δ ≤ γ) : 2 * (Real.cos δ - Real.cos γ) ≤ γ ^ 2 - δ ^ 2 := by
  have e := Real.cos_sub_cos δ γ
  have h1 : |Real.sin ((δ + γ) / 2)| ≤ (δ + γ) / 2 := by
    have := Real.abs_sin_le_abs (x := (δ + γ) / 2); rwa [abs_of_nonneg (a := (δ + γ) / 2) (by linarith)] at this
  have h2 : |Real.sin ((δ - γ) / 2)| ≤ (γ - δ) / 2 := by
    have := Real.abs_sin_le_abs (x := (δ - γ) / 2); rw [abs_of_nonpos (a := (δ - γ) / 2) (by linarith)] at this; linarith
  have h3 := mul_le_mul h1 h2 (abs_nonneg _) (by linarith)
  rw [← abs_mul] at h3
  have h4 := neg_abs_le (Real.sin ((δ + γ) / 2) * Real.sin ((δ - γ) / 2))
  rw [e]; nlinarith

/-- Distances of rotation vectors inside the ball of radius `π` and of the rotations they denote. -/
lemma rv_dist_le {v w : V3} (hv : v.norm ≤ Real.pi) (hw : w.norm ≤ Real.pi)
    (h : v.norm + rotAngle (den .rv (⟨v⟩ : RotVec) * (den .rv (⟨w⟩ : RotVec)).transpose) < Real.pi) :
    (v - w).norm ≤ Real.pi / 2 * rotAngle (den .rv (⟨v⟩ : RotVec) * (den .rv (⟨w⟩ : RotVec)).transpose) := by
  have hpi := Real.pi_gt_three
  by_cases hv0 : v = 0
  · subst hv0
    have : den .rv (⟨0⟩ : RotVec) = 1 := by rw [den_eq, dmat_rv_zero]
    rw [this, one_mul, rotAngle_transpose, rotAngle_rv hw, zero_sub, V3.norm_neg]
    nlinarith [w.norm_nonneg]
  by_cases hw0 : w = 0
  · subst hw0
    have : den .rv (⟨0⟩ : RotVec) = 1 := by rw [den_eq, dmat_rv_zero]
    rw [this, M3.transpose_one, mul_one, rotAngle_rv hv, sub_zero]
    nlinarith [v.norm_nonneg]
  have nv := V3.norm_pos hv0
  have nw := V3.norm_pos hw0
  have e1 : den .rv (⟨v⟩ : RotVec) = sMat (Quat.ofAngleAxis v.norm ((1 / v.norm) • v)) := by
    rw [den_eq, dmat_rv_ne hv0, sMat_ofAngleAxis _ (unit_dir nv.ne')]
  have e2 : den .rv (⟨w⟩ : RotVec) = sMat (Quat.ofAngleAxis w.norm ((1 / w.norm) • w)) := by
    rw [den_eq, dmat_rv_ne hw0, sMat_ofAngleAxis _ (unit_dir nw.ne')]
  have n1 := normSq_ofAngleAxis v.norm (unit_dir nv.ne')
  have n2 := normSq_ofAngleAxis w.norm (unit_dir nw.ne')
  have c1 : 0 ≤ (Quat.ofAngleAxis v.norm ((1 / v.norm) • v)).w :=
    Real.cos_nonneg_of_neg_pi_div_two_le_of_le (by linarith) (by linarith)
  have c2 : 0 ≤ (Quat.ofAngleAxis w.norm ((1 / w.norm) • w)).w :=
    Real.cos_nonneg_of_neg_pi_div_two_le_of_le (by linarith) (by linarith)
  have hd := canon_dot_nonneg n1 n2 c1 c2 (by rw [← e1, ← e2, rotAngle_rv hv]; exact h)
  have hle := quat_dot_le n1 n2
  rw [e1, e2, rotAngle_quat n1 n2, abs_of_nonneg hd]
  rw [abs_of_nonneg hd] at hle
  have hcos := Real.cos_arccos (by linarith) hle
  generalize hγ : Real.arccos _ = γ at hcos ⊢
  have hγ0 : 0 ≤ γ := hγ ▸ Real.arccos_nonneg _
  have hγp : γ ≤ Real.pi := hγ ▸ Real.arccos_le_pi _
  obtain ⟨t, ht⟩ : ∃ t, t = ((1 / v.norm) • v).dot ((1 / w.norm) • w) := ⟨_, rfl⟩
  have ht1 : t ≤ 1 := by
    have h1 := V3.dot_abs_le ((1 / v.norm) • v) ((1 / w.norm) • w)
    rw [V3.norm_eq_one_iff.mpr (unit_dir nv.ne'), V3.norm_eq_one_iff.mpr (unit_dir nw.ne')] at h1
    rw [ht]; linarith [le_abs_self (((1 / v.norm) • v).dot ((1 / w.norm) • w))]
  have hvw : v.dot w = v.norm * w.norm * t := by
    rw [ht]; simp only [V3.dot, V3.smul_x, V3.smul_y, V3.smul_z]; field_simp
  have hcos' : Real.cos γ = Real.cos (1 / 2 * v.norm) * Real.cos (1 / 2 * w.norm) +
      Real.sin (1 / 2 * v.norm) * Real.sin (1 / 2 * w.norm) * t := by
    rw [hcos, ht]; simp only [Quat.ofAngleAxis, V3.dot]; ring
  have hdist : (v - w).norm ^ 2 = 4 * ((1 / 2 * v.norm - 1 / 2 * w.norm) ^ 2 +
      2 * (1 / 2 * v.norm) * (1 / 2 * w.norm) * (1 - t)) := by
    rw [V3.norm_sq]
    have : (v - w).normSq = v.normSq + w.normSq - 2 * v.dot w := by simp [V3.normSq, V3.dot]; ring
    rw [this, hvw, ← V3.norm_sq v, ← V3.norm_sq w]; ring
  have xr : 1 / 2 * v.norm ≤ Real.pi / 2 := by linarith
  have yr : 1 / 2 * w.norm ≤ Real.pi / 2 := by linarith
  have x0 : 0 ≤ 1 / 2 * v.norm := by linarith
  have y0 : 0 ≤ 1 / 2 * w.norm := by linarith
  generalize 1 / 2 * v.norm = x at *
  generalize 1 / 2 * w.norm = y at *
  have sx := Real.mul_le_sin x0 xr
  have sy := Real.mul_le_sin y0 yr
  have p1 : 0 ≤ 2 / Real.pi * x := by positivity
  have p2 : 0 ≤ 2 / Real.pi * y := by positivity
  have hs := mul_le_mul sx sy p2 (p1.trans sx)
  have hdiff := Real.cos_sub x y
  have hcc : Real.cos γ ≤ Real.cos |x - y| := by
    rw [Real.cos_abs, hdiff, hcos']
    nlinarith [mul_nonneg (mul_nonneg (p1.trans sx) (p2.trans sy)) (sub_nonneg.mpr ht1)]
  have hge : |x - y| ≤ γ := by
    by_contra hn
    have h5 : |x - y| ≤ Real.pi := abs_le.mpr ⟨by linarith, by linarith⟩
    have := Real.cos_lt_cos_of_nonneg_of_le_pi hγ0 h5 (not_le.mp hn)
    linarith
  have hm := cos_sub_cos_le (abs_nonneg _) hge
  rw [sq_abs, Real.cos_abs, hdiff, hcos'] at hm
  have hkey : 2 * (2 / Real.pi * x * (2 / Real.pi * y)) * (1 - t) ≤ γ ^ 2 - (x - y) ^ 2 := by
    refine le_trans ?_ hm
    have := mul_le_mul_of_nonneg_right hs (sub_nonneg.mpr ht1)
    linarith
  have e3 : 2 * x * y * (1 - t) = Real.pi ^ 2 / 4 * (2 * (2 / Real.pi * x * (2 / Real.pi * y)) * (1 - t)) := by
    field_simp; ring
  have hkey2 : 2 * x * y * (1 - t) ≤ Real.pi ^ 2 / 4 * (γ ^ 2 - (x - y) ^ 2) := by
    rw [e3]; exact mul_le_mul_of_nonneg_left hkey (by positivity)
  have hfin : (v - w).norm ^ 2 ≤ (Real.pi * γ) ^ 2 := by
    have h6 : 0 ≤ Real.pi ^ 2 / 4 - 1 := by clear * - hpi; nlinarith
    have h7 := mul_nonneg (sq_nonneg (x - y)) h6
    rw [hdist]
    clear * - hkey2 h7
    linarith
  have hfin2 := abs_le_of_sq_le_sq hfin (mul_nonneg Real.pi_pos.le hγ0)
  rw [abs_of_nonneg (V3.norm_nonneg _)] at hfin2
  clear * - hfin2
  linarith

/-- **C93 (h).** The logarithm: never closer than the rotations, and (up to the half turns) at most `π/2` times as far apart. -/
theorem C93_logarithm (P : Prec) (k₁ k₂ : Kind) (a : Rep k₁) (b : Rep k₂) (ha : Valid k₁ a) (hb : Valid k₂ b)
    (ca : Clear P (den k₁ a)) (cb : Clear P (den k₂ b)) :
    rotAngle (den k₁ a * (den k₂ b).transpose) ≤ (logarithmicMap P k₁ a - logarithmicMap P k₂ b).norm ∧
    (rotAngle (den k₁ a) + rotAngle (den k₁ a * (den k₂ b).transpose) < Real.pi →
      (logarithmicMap P k₁ a - logarithmicMap P k₂ b).norm ≤ Real.pi / 2 * rotAngle (den k₁ a * (den k₂ b).transpose)) := by
  obtain ⟨d1, n1⟩ := log_spec ha ca
  obtain ⟨d2, n2⟩ := log_spec hb cb
  rw [← d1, ← d2]
  refine ⟨C93_rotation_vector _ _, fun h => rv_dist_le (by rw [n1]; exact rotAngle_le_pi _) (by rw [n2]; exact rotAngle_le_pi _) ?_⟩
  rw [n1]; rwa [d1] at h ⊢

/-- **C93 (i).** The bound on the logarithm needs its hypothesis: on the two sides of a half turn the logarithms are almost `2π`
apart. -/
theorem C93_logarithm_jump (P : Prec) (ε : ℝ) (h0 : 0 < ε) (h1 : ε < 1) :
    rotAngle (den .rv (⟨(Real.pi - ε) • ⟨0, 0, 1⟩⟩ : RotVec) * (den .rv (⟨(Real.pi - ε) • ⟨0, 0, -1⟩⟩ : RotVec)).transpose) = 2 * ε ∧
    (logarithmicMap P .rv (⟨(Real.pi - ε) • ⟨0, 0, 1⟩⟩ : RotVec) - logarithmicMap P .rv (⟨(Real.pi - ε) • ⟨0, 0, -1⟩⟩ : RotVec)).norm =
      2 * Real.pi - 2 * ε := by
  have hpi := Real.pi_gt_three
  have hz : (⟨0, 0, -1⟩ : V3) = -⟨0, 0, 1⟩ := by ext <;> simp
  have hn : ((Real.pi - ε) • (⟨0, 0, 1⟩ : V3)).norm = Real.pi - ε := ez_norm _ (by linarith)
  have hn' : ((Real.pi - ε) • (⟨0, 0, -1⟩ : V3)).norm = Real.pi - ε := by rw [hz, smul_neg, V3.norm_neg, hn]
  have hl1 := log_of_den (P := P) (k := .rv) (r := (⟨(Real.pi - ε) • ⟨0, 0, 1⟩⟩ : RotVec)) trivial rfl
    (clear_of_norm' (by rw [hn]; linarith) (by rw [hn]; linarith)) (by rw [hn]; linarith)
  have hl2 := log_of_den (P := P) (k := .rv) (r := (⟨(Real.pi - ε) • ⟨0, 0, -1⟩⟩ : RotVec)) trivial rfl
    (clear_of_norm' (by rw [hn']; linarith) (by rw [hn']; linarith)) (by rw [hn']; linarith)
  rw [hl1, hl2]
  have hu : (⟨0, 0, 1⟩ : V3).normSq = 1 := by norm_num [V3.normSq, V3.dot]
  constructor
  · rw [den_eq, den_eq, hz, dmat_rv_smul _ hu, dmat_rv_smul _ (by rw [V3.normSq_neg, hu]), rodMat_transpose, neg_neg,
      rodMat_mul _ _ hu, show Real.pi - ε + (Real.pi - ε) = -(2 * ε) + ((1 : ℤ) : ℝ) * (2 * Real.pi) by push_cast; ring,
      rodMat_add_two_pi, ← rodMat_neg_neg, neg_neg, rotAngle_rodMat (by rw [V3.normSq_neg, hu]) (by linarith) (by linarith)]
  · rw [hz, ← smul_sub, sub_neg_eq_add, V3.norm_smul, abs_of_pos (by linarith)]
    have : ((⟨0, 0, 1⟩ : V3) + ⟨0, 0, 1⟩) = (2 : ℝ) • ⟨0, 0, 1⟩ := by ext <;> norm_num
    rw [this, ez_norm _ (by norm_num)]; ring

/-- **C93 (a′).** The speed limit for angular velocities in the body frame. -/
theorem C93_speed_limit_local (k : Kind) (r : ℝ → Rep k) (w : ℝ → V3) (a b V : ℝ) (hab : a ≤ b)
    (hr : ∀ s ∈ Set.Icc a b, Valid k (r s)) (hw : ∀ s ∈ Set.Icc a b, IsLocalVelocity k r s (w s))
    (hV : ∀ s ∈ Set.Icc a b, (w s).norm ≤ V) :
    rotAngle (den k (r b) * (den k (r a)).transpose) ≤ V * (b - a) :=
  C93_speed_limit k r (fun s => (den k (r s)).mulVec (w s)) a b V hab hr (fun s hs => (local_iff_global (hr s hs)).mp (hw s hs))
    fun s hs => by rw [SO3.mulVec_norm (den_isSO3 (hr s hs))]; exact hV s hs

/-- **C93 (j).** In terms of `getDisparityAngle`: what the user can measure. -/
theorem C93_disparity (P : Prec) :
    (∀ (k : Kind) (r : ℝ → Rep k) (w : ℝ → V3) (a b V : ℝ), a ≤ b → (∀ s ∈ Set.Icc a b, Valid k (r s)) →
      (∀ s ∈ Set.Icc a b, IsGlobalVelocity k r s (w s)) → (∀ s ∈ Set.Icc a b, (w s).norm ≤ V) → PairClear P k k (r b) (r a) →
      disparityAngle P k k (r b) (r a) ≤ V * (b - a)) ∧
    (∀ x y : V3, PairClear P .rv .rv (⟨x⟩ : RotVec) (⟨y⟩ : RotVec) → disparityAngle P .rv .rv (⟨x⟩ : RotVec) (⟨y⟩ : RotVec) ≤ (x - y).norm) ∧
    (∀ a b : V3, disparityAngle P .xyz .xyz (⟨a⟩ : EulXyz) (⟨b⟩ : EulXyz) ≤ |a.x - b.x| + |a.y - b.y| + |a.z - b.z| ∧
      disparityAngle P .zyx .zyx (⟨a⟩ : EulZyx) (⟨b⟩ : EulZyx) ≤ |a.x - b.x| + |a.y - b.y| + |a.z - b.z|) ∧
    (∀ a b : AngAx, Valid .aa a → Valid .aa b →
      disparityAngle P .aa .aa a b ≤ |a.angle - b.angle| + min |a.angle| Real.pi * (a.axis - b.axis).norm) := by
  refine ⟨fun k r w a b V hab hr hw hV hc => ?_, fun x y hc => ?_, fun a b => ⟨?_, ?_⟩, fun a b ha hb => ?_⟩
  · rw [disparity_eq (hr b ⟨hab, le_rfl⟩) (hr a ⟨le_rfl, hab⟩) hc]
    exact C93_speed_limit k r w a b V hab hr hw hV
  · rw [disparity_eq (k₁ := .rv) (k₂ := .rv) trivial trivial hc]
    exact C93_rotation_vector x y
  · rw [disparity_eq (k₁ := .xyz) (k₂ := .xyz) trivial trivial (pairClear_of_nonrv (by decide) (by decide))]
    exact (C93_euler_angles a b).1
  · rw [disparity_eq (k₁ := .zyx) (k₂ := .zyx) trivial trivial (pairClear_of_nonrv (by decide) (by decide))]
    exact (C93_euler_angles a b).2
  · rw [disparity_eq ha hb (pairClear_of_nonrv (by decide) (by decide))]
    exact C93_angle_axis a b ha hb

/-- **C93 (k).** The constants of the speed limit, of the rotation vector and of the angles are the best possible: a body turning about `z` at the rate `V` meets the hypotheses of the speed
limit and covers exactly `V (b - a)`, as long as that is at most half a turn, and so do the corresponding stored values of the
other classes. -/
theorem C93_sharp (V a b : ℝ) (hV : 0 ≤ V) (hab : a ≤ b) (hpi : V * (b - a) ≤ Real.pi) :
    (∀ s ∈ Set.Icc a b, Valid .rv (⟨(s - a) • (V • ⟨0, 0, 1⟩)⟩ : RotVec) ∧
      IsGlobalVelocity .rv (fun s => (⟨(s - a) • (V • ⟨0, 0, 1⟩)⟩ : RotVec)) s (V • ⟨0, 0, 1⟩) ∧ (V • (⟨0, 0, 1⟩ : V3)).norm ≤ V) ∧
    rotAngle (den .rv (⟨(b - a) • (V • ⟨0, 0, 1⟩)⟩ : RotVec) * (den .rv (⟨(a - a) • (V • ⟨0, 0, 1⟩)⟩ : RotVec)).transpose) = V * (b - a) ∧
    ((b - a) • (V • (⟨0, 0, 1⟩ : V3)) - (a - a) • (V • ⟨0, 0, 1⟩)).norm = V * (b - a) ∧
    rotAngle (den .xyz (⟨⟨0, 0, V * (b - a)⟩⟩ : EulXyz) * (den .xyz (⟨⟨0, 0, 0⟩⟩ : EulXyz)).transpose) = V * (b - a) ∧
    rotAngle (den .aa (⟨V * (b - a), ⟨0, 0, 1⟩⟩ : AngAx) * (den .aa (⟨0, ⟨0, 0, 1⟩⟩ : AngAx)).transpose) = V * (b - a) := by
  have hu : (⟨0, 0, 1⟩ : V3).normSq = 1 := by norm_num [V3.normSq, V3.dot]
  have h0 : 0 ≤ V * (b - a) := mul_nonneg hV (by linarith)
  have e : (b - a) • (V • (⟨0, 0, 1⟩ : V3)) = (V * (b - a)) • ⟨0, 0, 1⟩ := by rw [smul_smul, mul_comm]
  have hr := rotAngle_rodMat hu h0 hpi
  refine ⟨fun s _ => ⟨trivial, exp_velocity_line _ a s, (ez_norm V hV).le⟩, ?_, ?_, ?_, ?_⟩
  · rw [e, sub_self, zero_smul, den_eq, den_eq, dmat_rv_zero, M3.transpose_one, mul_one, dmat_rv_smul _ hu, hr]
  · rw [e, sub_self, zero_smul, sub_zero, ez_norm _ h0]
  · have e1 : den .xyz (⟨⟨0, 0, V * (b - a)⟩⟩ : EulXyz) * (den .xyz (⟨⟨0, 0, 0⟩⟩ : EulXyz)).transpose = rodMat (V * (b - a)) ⟨0, 0, 1⟩ := by
      rw [den_eq, den_eq]
      change rX 0 * rY 0 * rZ (V * (b - a)) * (rX 0 * rY 0 * rZ 0).transpose = _
      generalize V * (b - a) = c
      ext <;> simp [rX, rY, rZ, rodMat, AngAx.toRotationMatrix]
    rw [e1, hr]
  · rw [den_eq, den_eq]
    change rotAngle (rodMat _ _ * (rodMat _ _).transpose) = _
    rw [rodMat_zero, M3.transpose_one, mul_one, hr]

end Kindr
