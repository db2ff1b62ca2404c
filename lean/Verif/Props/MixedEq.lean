import Verif.Props.EulerUnique
import Verif.Props.Unique

/-!
# C46: `operator==` between rotations of different classes

`a == b` brings both sides to their unique form, converts the right one to the class of the left one and compares the
stored numbers exactly.  Whether this decides equality of rotations depends on whether the conversion happens to land on
the unique form of the left class.
-/

set_option autoImplicit false

open Classical

noncomputable section
namespace Kindr
open Spec

/-- Outside the bands around gimbal lock, where `getUnique()` of Euler angles changes the rotation (see C17, C18). -/
def EulerRegular : (k : Kind) → Rep k → Prop
  | .xyz => fun e => OutsideGimbalBand (EulXyz.y e)
  | .zyx => fun e => OutsideGimbalBand (EulZyx.y e)
  | _ => fun _ => True

lemma eqMixed_iff {P : Prec} {k₁ k₂ : Kind} {a : Rep k₁} {b : Rep k₂} :
    eqMixed P k₁ k₂ a b = true ↔ getUnique P k₁ a = conv P k₁ k₂ (getUnique P k₂ b) := by
  unfold eqMixed; exact decide_eq_true_iff

lemma unique_den (P : Prec) : ∀ (k : Kind) (r : Rep k), Valid k r → EulerRegular k r → RvClear P k (den k r) →
    Valid k (getUnique P k r) ∧ den k (getUnique P k r) = den k r
  | .quat, q, hv, _, _ => by
      have h := C14_quaternion_unique P q q hv hv
      exact ⟨h.1, (sameRot_iff _ _).mp h.2.1⟩
  | .mat, m, hv, _, _ => ⟨hv, rfl⟩
  | .aa, a, hv, _, _ => by
      have h := C15_angle_axis_unique P a a hv hv
      exact ⟨h.1, (sameRot_iff _ _).mp h.2.1⟩
  | .rv, r, _, _, hc => by
      refine ⟨trivial, ?_⟩
      have h0 : Clear P (dmat .rv r) := by rw [← den_eq]; exact hc rfl
      have h := rvGetUnique_spec (P := P) (r := r) ((clear_rv h0).imp id And.right)
      rw [den_eq, den_eq]; exact h.1
  | .xyz, e, _, he, _ => ⟨trivial, (sameRot_iff _ _).mp (C17_unique_partial P e e he he).1⟩
  | .zyx, e, _, he, _ => ⟨trivial, (sameRot_iff _ _).mp (C18_unique_partial P e e he he).1⟩

/-- The right-hand side of the comparison represents the rotation of the right operand. -/
lemma mixed_den {P : Prec} {k₁ k₂ : Kind} {b : Rep k₂} (hb : Valid k₂ b) (eb : EulerRegular k₂ b)
    (cb : RvClear P k₂ (den k₂ b)) (cb' : RvClear P k₁ (den k₂ b)) :
    Valid k₁ (conv P k₁ k₂ (getUnique P k₂ b)) ∧ den k₁ (conv P k₁ k₂ (getUnique P k₂ b)) = den k₂ b := by
  obtain ⟨u1, u2⟩ := unique_den P k₂ b hb eb cb
  have := conv_any (P := P) (d := k₁) u1 (by rw [u2]; exact cb) (by rw [u2]; exact cb')
  exact ⟨this.1, this.2.trans u2⟩

/-! ## Soundness, for every pair of classes -/

/-- **C46, soundness (`_partial`: one direction of the claim).** For every pair of classes, if `a == b` returns true then
both represent the same rotation (Euler angles outside their gimbal bands; rotation vectors not tiny). -/
theorem C46_sound_partial (P : Prec) (k₁ k₂ : Kind) (a : Rep k₁) (b : Rep k₂) (ha : Valid k₁ a) (hb : Valid k₂ b)
    (ea : EulerRegular k₁ a) (eb : EulerRegular k₂ b)
    (ca : RvClear P k₁ (den k₁ a)) (cb : RvClear P k₂ (den k₂ b)) (cb' : RvClear P k₁ (den k₂ b))
    (h : eqMixed P k₁ k₂ a b = true) : SameRot a b := by
  rw [eqMixed_iff] at h
  rw [sameRot_iff, ← (unique_den P k₁ a ha ea ca).2, ← (mixed_den (P := P) (k₁ := k₁) hb eb cb cb').2, h]

/-! ## Left operand a rotation matrix: exact -/

/-- **C46, matrix on the left.** `RotationMatrix == X` returns true iff both represent the same rotation, for every other
class `X`. -/
theorem C46_matrix_left (P : Prec) (k : Kind) (m : M3) (b : Rep k) (hm : Valid .mat m) (hb : Valid k b)
    (eb : EulerRegular k b) (cb : RvClear P k (den k b)) :
    eqMixed P .mat k m b = true ↔ SameRot (k₁ := .mat) m b := by
  have hc : RvClear P .mat (den k b) := fun h => by cases h
  constructor
  · exact C46_sound_partial P .mat k m b hm hb trivial eb (fun h => by cases h) cb hc
  · intro h
    rw [eqMixed_iff]
    have e := (mixed_den (P := P) (k₁ := .mat) hb eb cb hc).2
    rw [sameRot_iff] at h
    have e1 := e.trans h.symm
    rw [den_eq, den_eq] at e1
    exact e1.symm

/-! ## Quaternion and rotation vector on the left -/

lemma canonicalAA_fix {c : AngAx} (h : CanonicalAA c) : aaGetUnique c = c := by
  obtain ⟨c1, r1⟩ := aaGetUnique_spec h.1
  exact canonicalAA_unique c1 h r1

lemma quatGetUnique_canonical {c : AngAx} (h : CanonicalAA c) : quatGetUnique (quatOfAa c) = quatOfAa c := by
  obtain ⟨h1, h2, h3, h4, h5⟩ := h
  have hpi := Real.pi_pos
  rcases lt_or_eq_of_le h3 with h6 | h6
  · have : 0 < (quatOfAa c).w := Real.cos_pos_of_mem_Ioo ⟨by linarith, by linarith⟩
    simp only [quatGetUnique, gt_iff_lt, this, if_true]
  · have hs : Real.sin (1 / 2 * c.angle) = 1 := by rw [h6, show 1 / 2 * Real.pi = Real.pi / 2 by ring, Real.sin_pi_div_two]
    have hc : Real.cos (1 / 2 * c.angle) = 0 := by rw [h6, show 1 / 2 * Real.pi = Real.pi / 2 by ring, Real.cos_pi_div_two]
    simp only [quatGetUnique, quatOfAa, Quat.ofAngleAxis, hs, hc, one_mul, lt_irrefl, gt_iff_lt, if_false]
    rcases h5 h6 with p | ⟨p1, p⟩ | ⟨p1, p2, p⟩
    · simp [p]
    · simp [p1, p]
    · simp [p1, p2, p]

/-- A rotation vector of the form `angle • axis` for a canonical angle-axis pair. -/
def CanonicalRv (r : RotVec) : Prop := ∃ c : AngAx, CanonicalAA c ∧ r = rvOfAa c

lemma canonicalRv_unique {r s : RotVec} (hr : CanonicalRv r) (hs : CanonicalRv s) (h : dmat .rv r = dmat .rv s) : r = s := by
  obtain ⟨c, hc, rfl⟩ := hr
  obtain ⟨d, hd, rfl⟩ := hs
  rw [rvOfAa_spec hc.1, rvOfAa_spec hd.1] at h
  rw [canonicalAA_unique hc hd h]

lemma canonicalRv_getUnique (P : Prec) (r : RotVec) : CanonicalRv (rvGetUnique P r) :=
  ⟨aaGetUnique (aaOfRv P r), (aaGetUnique_spec (aaOfRv_unit P r)).1, rfl⟩

lemma quatOfRv_rvOfAa {P : Prec} {c : AngAx} (hc : CanonicalAA c)
    (h : (rvOfAa c).v = 0 ∨ P.eps ^ (1 / 4 : ℝ) ≤ (rvOfAa c).v.norm) : quatOfRv P (rvOfAa c) = quatOfAa c := by
  obtain ⟨h1, h2, h3, h4, h5⟩ := hc
  have hn : (rvOfAa c).v.norm = c.angle := by
    simp only [rvOfAa]; rw [V3.norm_smul, V3.norm_eq_one_iff.mpr h1, mul_one, abs_of_nonneg h2]
  by_cases h0 : c.angle = 0
  · have e : rvOfAa c = ⟨0⟩ := by simp only [rvOfAa, h0, zero_smul]
    rw [e, quatOfRv_zero]
    simp only [quatOfAa, Quat.ofAngleAxis, h0, mul_zero, Real.cos_zero, Real.sin_zero, zero_mul]
    rfl
  · have hpos : 0 < c.angle := lt_of_le_of_ne h2 (Ne.symm h0)
    rcases h with h | h
    · exfalso; rw [h, V3.norm_zero] at hn; exact h0 hn.symm
    · rw [quatOfRv_eq h, hn, quatOfAa]
      congr 1
      simp only [rvOfAa, smul_smul]
      rw [one_div, inv_mul_cancel₀ h0, one_smul]

lemma canonicalRv_ofQuat {P : Prec} {q : Quat} (hq : q.normSq = 1) (hu : quatGetUnique q = q)
    (h : sMat q = 1 ∨ P.dp ≤ (3 - (sMat q).trace) / 4) : CanonicalRv (rvOfQuat P q) := by
  rcases h with h | h
  · rw [rvOfQuat_zero hq (vec_eq_zero_of_one hq h)]
    refine ⟨⟨0, ⟨1, 0, 0⟩⟩, ⟨by norm_num [V3.normSq, V3.dot], le_refl _, Real.pi_pos.le, fun _ => rfl,
      fun h => absurd h Real.pi_pos.ne⟩, by simp [rvOfAa]⟩
  have hw0 : 0 ≤ q.w := by
    by_contra hneg
    push Not at hneg
    have e := congrArg Quat.w hu
    simp only [quatGetUnique, gt_iff_lt, not_lt.mpr hneg.le, hneg, if_true, if_false] at e
    linarith
  rw [trace_sMat hq] at h
  have hd : P.dp ≤ 1 - q.w * q.w := by nlinarith [h]
  have hn2 := vec_norm_sq hq
  have hpos : 0 < q.vec.norm := by
    refine lt_of_le_of_ne q.vec.norm_nonneg (fun e => ?_)
    rw [← e] at hn2
    have := P.dp_pos
    nlinarith
  rw [rvOfQuat_eq hd]
  have ha : 0 < atan2 q.vec.norm q.w := atan2_pos hpos
  have hb := atan2_le_pi_div_two (y := q.vec.norm) hw0
  refine ⟨⟨2 * atan2 q.vec.norm q.w, (1 / q.vec.norm) • q.vec⟩, ⟨unit_dir hpos.ne', by linarith, by linarith,
    fun e => ?_, fun e => ?_⟩, rfl⟩
  · simp only at e; linarith
  · simp only at e
    have hc := cos_atan2 (x := q.w) (y := q.vec.norm) (by nlinarith)
    have he : atan2 q.vec.norm q.w = Real.pi / 2 := by linarith
    rw [he, Real.cos_pi_div_two] at hc
    have hi : 0 < 1 / q.vec.norm := by positivity
    have hx := congrArg Quat.x hu
    have hy := congrArg Quat.y hu
    have hz := congrArg Quat.z hu
    simp only [quatGetUnique, ← hc, lt_irrefl, gt_iff_lt, if_false] at hx hy hz
    simp only [V3.smul_x, V3.smul_y, V3.smul_z, Quat.vec]
    rcases lt_trichotomy q.x 0 with x | x | x
    · simp only [not_lt.mpr x.le, x, if_true, if_false] at hx; linarith
    · simp only [x, lt_irrefl, if_false] at hy hz
      rcases lt_trichotomy q.y 0 with y | y | y
      · simp only [not_lt.mpr y.le, y, if_true, if_false] at hy; linarith
      · simp only [y, lt_irrefl, if_false] at hz
        rcases lt_trichotomy q.z 0 with z | z | z
        · simp only [not_lt.mpr z.le, if_false] at hz; linarith
        · exfalso; simp [Quat.normSq, ← hc, x, y, z] at hq
        · exact Or.inr (Or.inr ⟨by rw [x, mul_zero], by rw [y, mul_zero], mul_pos hi z⟩)
      · exact Or.inr (Or.inl ⟨by rw [x, mul_zero], mul_pos hi y⟩)
    · exact Or.inl (mul_pos hi x)

/-- **C46, quaternion on the left.** `RotationQuaternion == AngleAxis` and `RotationQuaternion == RotationVector` return
true iff both represent the same rotation. -/
theorem C46_quaternion_left (P : Prec) (q : Quat) (hq : Valid .quat q) :
    (∀ b : AngAx, Valid .aa b → (eqMixed P .quat .aa q b = true ↔ SameRot (k₁ := .quat) (k₂ := .aa) q b)) ∧
    (∀ b : RotVec, Clear P (den .rv b) →
      (eqMixed P .quat .rv q b = true ↔ SameRot (k₁ := .quat) (k₂ := .rv) q b)) := by
  have fin : ∀ {k : Kind} (b : Rep k), Valid k b → EulerRegular k b → RvClear P k (den k b) →
      quatGetUnique (conv P .quat k (getUnique P k b)) = conv P .quat k (getUnique P k b) →
      (eqMixed P .quat k q b = true ↔ SameRot (k₁ := .quat) q b) := by
    intro k b hb eb cb hu
    obtain ⟨v1, d1⟩ := mixed_den (P := P) (k₁ := .quat) hb eb cb (fun h => by cases h)
    have h14 := (C14_quaternion_unique P q (conv P .quat k (getUnique P k b)) hq v1).2.2.2.1
    rw [sameRot_iff, d1] at h14
    rw [eqMixed_iff, sameRot_iff, h14]
    exact Eq.congr_right hu.symm
  refine ⟨fun b hb => fin (k := .aa) b hb trivial (fun h => by cases h) ?_, fun b cb =>
    fin (k := .rv) b trivial trivial (fun _ => cb) ?_⟩
  · exact quatGetUnique_canonical (aaGetUnique_spec ((valid_aa_iff b).mp hb)).1
  · have c1 := (aaGetUnique_spec (aaOfRv_unit P b)).1
    have hd : dmat .rv (rvGetUnique P b) = dmat .rv b :=
      (rvGetUnique_spec ((clear_rv (by rw [← den_eq]; exact cb)).imp id And.right)).1
    have e : quatOfRv P (rvGetUnique P b) = quatOfAa (aaGetUnique (aaOfRv P b)) :=
      quatOfRv_rvOfAa c1 ((clear_rv (P := P) (r := rvGetUnique P b) (by rw [hd, ← den_eq]; exact cb)).imp id And.left)
    change quatGetUnique (quatOfRv P (rvGetUnique P b)) = quatOfRv P (rvGetUnique P b)
    rw [e]; exact quatGetUnique_canonical c1

/-- **C46, rotation vector on the left.** `RotationVector == AngleAxis` and `RotationVector == RotationQuaternion` return
true iff both represent the same rotation (not tiny); so do `RotationVector == EulerAnglesXyz/Zyx` unless the rotation is
a half turn. -/
theorem C46_rotation_vector_left (P : Prec) (r : RotVec) (cr : Clear P (den .rv r)) :
    (∀ b : AngAx, Valid .aa b → (eqMixed P .rv .aa r b = true ↔ SameRot (k₁ := .rv) (k₂ := .aa) r b)) ∧
    (∀ b : Quat, Valid .quat b → Clear P (den .quat b) →
      (eqMixed P .rv .quat r b = true ↔ SameRot (k₁ := .rv) (k₂ := .quat) r b)) ∧
    (∀ b : EulXyz, OutsideGimbalBand b.y → rotAngle (den .xyz b) ≠ Real.pi →
      (eqMixed P .rv .xyz r b = true ↔ SameRot (k₁ := .rv) (k₂ := .xyz) r b)) ∧
    (∀ b : EulZyx, OutsideGimbalBand b.y → rotAngle (den .zyx b) ≠ Real.pi →
      (eqMixed P .rv .zyx r b = true ↔ SameRot (k₁ := .rv) (k₂ := .zyx) r b)) := by
  have hr : dmat .rv (rvGetUnique P r) = dmat .rv r :=
    (rvGetUnique_spec ((clear_rv (by rw [← den_eq]; exact cr)).imp id And.right)).1
  have fin : ∀ {k : Kind} (b : Rep k), den .rv (conv P .rv k (getUnique P k b)) = den k b →
      CanonicalRv (conv P .rv k (getUnique P k b)) →
      (eqMixed P .rv k r b = true ↔ SameRot (k₁ := .rv) r b) := by
    intro k b hd hc
    rw [eqMixed_iff, sameRot_iff, ← hd, den_eq, den_eq, ← hr]
    exact ⟨fun h => congrArg _ h, canonicalRv_unique (canonicalRv_getUnique P r) hc⟩
  -- angle-axis values extracted from a quaternion are canonical away from half turns
  have caa : ∀ q : Quat, q.normSq = 1 → rotAngle (sMat q) ≠ Real.pi → CanonicalRv (rvOfAa (AngAx.ofQuat q)) := by
    intro q hq hne
    obtain ⟨s1, s2, s3, s4⟩ := ofQuat_spec hq
    by_cases h0 : (AngAx.ofQuat q).angle = 0
    · refine ⟨⟨0, ⟨1, 0, 0⟩⟩, ⟨by norm_num [V3.normSq, V3.dot], le_refl _, Real.pi_pos.le, fun _ => rfl,
        fun h => absurd h Real.pi_pos.ne⟩, ?_⟩
      simp only [rvOfAa, h0, zero_smul]
    · refine ⟨_, ⟨s1, s2, s3, fun h => absurd h h0, fun h => ?_⟩, rfl⟩
      exfalso; apply hne
      rw [← rodMat_ofQuat hq, rotAngle_rodMat s1 s2 s3, h]
  refine ⟨fun b hb => fin (k := .aa) b ?_ ?_, fun b hb cb => fin (k := .quat) b ?_ ?_,
    fun b eb hne => fin (k := .xyz) b ?_ ?_, fun b eb hne => fin (k := .zyx) b ?_ ?_⟩
  · have h := (aaGetUnique_spec ((valid_aa_iff b).mp hb))
    rw [den_eq, den_eq]
    change dmat .rv (rvOfAa (aaGetUnique b)) = dmat .aa b
    rw [rvOfAa_spec h.1.1]; exact h.2
  · exact ⟨_, (aaGetUnique_spec ((valid_aa_iff b).mp hb)).1, rfl⟩
  · exact (mixed_den (P := P) (k₁ := .rv) (k₂ := .quat) hb trivial (fun h => by cases h) (fun _ => cb)).2
  · have h14 := C14_quaternion_unique P b b hb hb
    have hd := (sameRot_iff _ _).mp h14.2.1
    have hn := (valid_quat_iff _).mp h14.1
    refine canonicalRv_ofQuat hn h14.2.2.1 ?_
    have cb' : Clear P (sMat (quatGetUnique b)) := by
      have : den .quat (quatGetUnique b) = den .quat b := hd
      rw [den_eq (k := .quat) (r := quatGetUnique b)] at this
      change Clear P (dmat .quat (quatGetUnique b))
      rw [this]; exact cb
    exact cb'.imp id (fun h => le_trans (le_max_left _ _) h)
  · refine ((mixed_den (P := P) (k₁ := .quat) (k₂ := .xyz) (b := b) trivial eb (fun h => by cases h) (fun h => by cases h)).2.symm.trans ?_).symm
    rw [den_eq, den_eq]
    have hn : (quatOfXyz (xyzGetUnique b)).normSq = 1 := quatOfXyz_unit _
    refine Eq.symm ?_
    change dmat .rv (rvOfAa (AngAx.ofQuat (quatOfXyz (xyzGetUnique b)))) = sMat (quatOfXyz (xyzGetUnique b))
    rw [rvOfAa_spec (ofQuat_spec hn).1]; exact rodMat_ofQuat hn
  · have hn : (quatOfXyz (xyzGetUnique b)).normSq = 1 := quatOfXyz_unit _
    refine caa (quatOfXyz (xyzGetUnique b)) hn ?_
    have := (mixed_den (P := P) (k₁ := .quat) (k₂ := .xyz) (b := b) trivial eb (fun h => by cases h) (fun h => by cases h)).2
    rw [den_eq] at this
    have e : sMat (quatOfXyz (xyzGetUnique b)) = den .xyz b := this
    rw [e]; exact hne
  · refine ((mixed_den (P := P) (k₁ := .quat) (k₂ := .zyx) (b := b) trivial eb (fun h => by cases h) (fun h => by cases h)).2.symm.trans ?_).symm
    rw [den_eq, den_eq]
    have hn : (quatOfZyx (zyxGetUnique b)).normSq = 1 := quatOfZyx_unit _
    refine Eq.symm ?_
    change dmat .rv (rvOfAa (AngAx.ofQuat (quatOfZyx (zyxGetUnique b)))) = sMat (quatOfZyx (zyxGetUnique b))
    rw [rvOfAa_spec (ofQuat_spec hn).1]; exact rodMat_ofQuat hn
  · have hn : (quatOfZyx (zyxGetUnique b)).normSq = 1 := quatOfZyx_unit _
    refine caa (quatOfZyx (zyxGetUnique b)) hn ?_
    have := (mixed_den (P := P) (k₁ := .quat) (k₂ := .zyx) (b := b) trivial eb (fun h => by cases h) (fun h => by cases h)).2
    rw [den_eq] at this
    have e : sMat (quatOfZyx (zyxGetUnique b)) = den .zyx b := this
    rw [e]; exact hne

/-! ## Euler angles on the left: exact characterization -/

lemma atan2_polar {ρ t : ℝ} (hρ : 0 < ρ) (h1 : -Real.pi < t) (h2 : t ≤ Real.pi) :
    atan2 (ρ * Real.sin t) (ρ * Real.cos t) = t := by
  have e : (⟨ρ * Real.cos t, ρ * Real.sin t⟩ : ℂ) = (ρ : ℂ) * (Complex.cos t + Complex.sin t * Complex.I) := by
    apply Complex.ext <;> simp [← Complex.ofReal_cos, ← Complex.ofReal_sin]
  rw [atan2, e]
  exact Complex.arg_mul_cos_add_sin_mul_I hρ ⟨h1, h2⟩

lemma atan2_polar_one {t : ℝ} (h1 : -Real.pi < t) (h2 : t ≤ Real.pi) : atan2 (Real.sin t) (Real.cos t) = t := by
  have := atan2_polar (ρ := 1) one_pos h1 h2
  simpa using this

/-- Eigen's `eulerAngles(0,1,2)` always returns a first angle in `[0,π)`. -/
lemma euler012_range (m : M3) : 0 ≤ (eulerAngles012 m).x ∧ (eulerAngles012 m).x < Real.pi := by
  have h1 := neg_pi_lt_atan2 m.m12 m.m22
  have h2 := atan2_le_pi m.m12 m.m22
  simp only [eulerAngles012]
  split_ifs with h
  · constructor <;> simp only <;> linarith
  · constructor <;> simp only <;> linarith

/-- Eigen's `eulerAngles(2,1,0)` always returns a first angle in `[0,π]` and a third one in `(-π,π]`. -/
lemma euler210_range (m : M3) : 0 ≤ (eulerAngles210 m).x ∧ -Real.pi < (eulerAngles210 m).z := by
  have h1 := neg_pi_lt_atan2 m.m10 m.m00
  have h2 := atan2_le_pi m.m10 m.m00
  simp only [eulerAngles210]
  refine ⟨?_, neg_pi_lt_atan2 _ _⟩
  split_ifs with h h' <;> simp only <;> linarith

lemma euler012_of_unique {x y z : ℝ} (hx : 0 ≤ x ∧ x < Real.pi) (hy : -(Real.pi / 2) < y ∧ y < Real.pi / 2)
    (hz : -Real.pi ≤ z ∧ z < Real.pi) : eulerAngles012 (rX x * rY y * rZ z) = ⟨x, y, z⟩ := by
  have hc : 0 < Real.cos y := Real.cos_pos_of_mem_Ioo hy
  have hpi := Real.pi_pos
  have hx1 := Real.sin_sq_add_cos_sq x
  have hz1 := Real.sin_sq_add_cos_sq z
  have h12 : (rX x * rY y * rZ z).m12 = Real.cos y * Real.sin (-x) := by rw [Real.sin_neg]; simp [rX, rY, rZ]; ring
  have h22 : (rX x * rY y * rZ z).m22 = Real.cos y * Real.cos (-x) := by rw [Real.cos_neg]; simp [rX, rY, rZ]; ring
  have h02 : -(rX x * rY y * rZ z).m02 = Real.sin (-y) := by rw [Real.sin_neg]; simp [rX, rY, rZ]
  have hρ : Real.sqrt ((rX x * rY y * rZ z).m00 * (rX x * rY y * rZ z).m00 +
      (rX x * rY y * rZ z).m01 * (rX x * rY y * rZ z).m01) = Real.cos (-y) := by
    have : (rX x * rY y * rZ z).m00 * (rX x * rY y * rZ z).m00 +
      (rX x * rY y * rZ z).m01 * (rX x * rY y * rZ z).m01 = Real.cos y ^ 2 := by
      simp [rX, rY, rZ]; linear_combination Real.cos y ^ 2 * hz1
    rw [this, Real.sqrt_sq hc.le, Real.cos_neg]
  have e0 : atan2 (rX x * rY y * rZ z).m12 (rX x * rY y * rZ z).m22 = -x := by
    rw [h12, h22]; exact atan2_polar hc (by linarith) (by linarith)
  have e1 : atan2 (-(rX x * rY y * rZ z).m02) (Real.cos (-y)) = -y := by
    rw [h02]; exact atan2_polar_one (by linarith) (by linarith)
  have hneg : ¬ (-x > 0) := by linarith
  simp only [eulerAngles012, hρ, e0, e1, hneg, if_false]
  have s2 : Real.sin (-x) * (rX x * rY y * rZ z).m20 - Real.cos (-x) * (rX x * rY y * rZ z).m10 = Real.sin (-z) := by
    rw [Real.sin_neg, Real.cos_neg, Real.sin_neg]; simp [rX, rY, rZ]
    linear_combination -Real.sin z * hx1
  have c2 : Real.cos (-x) * (rX x * rY y * rZ z).m11 - Real.sin (-x) * (rX x * rY y * rZ z).m21 = Real.cos (-z) := by
    rw [Real.sin_neg, Real.cos_neg, Real.cos_neg]; simp [rX, rY, rZ]
    linear_combination Real.cos z * hx1
  rw [s2, c2, atan2_polar_one (by linarith) (by linarith)]
  simp

lemma euler210_of_unique {x y z : ℝ} (hz : 0 ≤ z ∧ z < Real.pi) (hy : -(Real.pi / 2) < y ∧ y < Real.pi / 2)
    (hx : -Real.pi < x ∧ x < Real.pi) : eulerAngles210 (rZ z * rY y * rX x) = ⟨z, y, x⟩ := by
  have hc : 0 < Real.cos y := Real.cos_pos_of_mem_Ioo hy
  have hpi := Real.pi_pos
  have hx1 := Real.sin_sq_add_cos_sq x
  have hz1 := Real.sin_sq_add_cos_sq z
  have h10 : (rZ z * rY y * rX x).m10 = Real.cos y * Real.sin z := by simp [rX, rY, rZ]; ring
  have h00 : (rZ z * rY y * rX x).m00 = Real.cos y * Real.cos z := by simp [rX, rY, rZ]; ring
  have h20 : -(rZ z * rY y * rX x).m20 = Real.sin y := by simp [rX, rY, rZ]
  have hρ : Real.sqrt ((rZ z * rY y * rX x).m22 * (rZ z * rY y * rX x).m22 +
      (rZ z * rY y * rX x).m21 * (rZ z * rY y * rX x).m21) = Real.cos y := by
    have : (rZ z * rY y * rX x).m22 * (rZ z * rY y * rX x).m22 +
      (rZ z * rY y * rX x).m21 * (rZ z * rY y * rX x).m21 = Real.cos y ^ 2 := by
      simp [rX, rY, rZ]; linear_combination Real.cos y ^ 2 * hx1
    rw [this, Real.sqrt_sq hc.le]
  have e0 : atan2 (rZ z * rY y * rX x).m10 (rZ z * rY y * rX x).m00 = z := by
    rw [h10, h00]; exact atan2_polar hc (by linarith) (by linarith)
  have e1 : atan2 (-(rZ z * rY y * rX x).m20) (Real.cos y) = y := by
    rw [h20]; exact atan2_polar_one (by linarith) (by linarith)
  have hneg : ¬ (z < 0) := by linarith
  simp only [eulerAngles210, hρ, e0, e1, hneg, if_false]
  have s2 : Real.sin z * (rZ z * rY y * rX x).m02 - Real.cos z * (rZ z * rY y * rX x).m12 = Real.sin x := by
    simp [rX, rY, rZ]
    linear_combination Real.sin x * hz1
  have c2 : Real.cos z * (rZ z * rY y * rX x).m11 - Real.sin z * (rZ z * rY y * rX x).m01 = Real.cos x := by
    simp [rX, rY, rZ]
    linear_combination Real.cos x * hz1
  rw [s2, c2, atan2_polar_one (by linarith) (by linarith)]

lemma conv_xyz_eq {P : Prec} {k : Kind} (hk : k ≠ .xyz) {r : Rep k} (hv : Valid k r) (hc : RvClear P k (den k r)) :
    conv P .xyz k r = (⟨eulerAngles012 (den k r)⟩ : EulXyz) := by
  have main : ∀ q : Quat, q.normSq = 1 → sMat q = den k r → xyzOfQuat q = (⟨eulerAngles012 (den k r)⟩ : EulXyz) := by
    intro q h1 h2
    rw [xyzOfQuat, toRotationMatrix_eq h1, h2]; rfl
  have q0 := conv_nonrv (P := P) (d := .quat) hv (by decide) hc
  have q1 := (valid_quat_iff _).mp q0.1
  have q2 := q0.2
  rw [den_eq .quat] at q2
  cases k with
  | quat => exact main _ q1 q2
  | mat => exact main _ q1 q2
  | aa => exact main _ q1 q2
  | rv =>
      have a0 := conv_nonrv (P := P) (d := .aa) hv (by decide) hc
      have a1 := quatOfAa_spec ((valid_aa_iff _).mp a0.1)
      have a2 := a0.2
      rw [den_eq .aa] at a2
      exact main _ a1.1 (a1.2.trans a2)
  | xyz => exact absurd rfl hk
  | zyx => exact main _ q1 q2

lemma conv_zyx_eq {P : Prec} {k : Kind} (hk : k ≠ .zyx) {r : Rep k} (hv : Valid k r) (hc : RvClear P k (den k r)) :
    conv P .zyx k r = (⟨eulerAngles210 (den k r)⟩ : EulZyx) := by
  have main : ∀ q : Quat, q.normSq = 1 → sMat q = den k r → zyxOfQuat q = (⟨eulerAngles210 (den k r)⟩ : EulZyx) := by
    intro q h1 h2
    rw [zyxOfQuat, toRotationMatrix_eq h1, h2]; rfl
  have q0 := conv_nonrv (P := P) (d := .quat) hv (by decide) hc
  have q1 := (valid_quat_iff _).mp q0.1
  have q2 := q0.2
  rw [den_eq .quat] at q2
  cases k with
  | quat => exact main _ q1 q2
  | mat => exact main _ q1 q2
  | aa => exact main _ q1 q2
  | rv => exact main _ q1 q2
  | xyz => exact main _ q1 q2
  | zyx => exact absurd rfl hk

/-- **C46, EulerAnglesXyz on the left.** Compared with a value of any other class, `==` returns true iff both represent
the same rotation *and* the unique roll of the left operand is not negative: an `EulerAnglesXyz` with negative unique roll
compares unequal to every value of every other class, even of the same rotation. -/
theorem C46_xyz_left (P : Prec) (k : Kind) (hk : k ≠ .xyz) (e : EulXyz) (b : Rep k) (he : OutsideGimbalBand e.y)
    (hb : Valid k b) (eb : EulerRegular k b) (cb : RvClear P k (den k b)) :
    eqMixed P .xyz k e b = true ↔ SameRot (k₁ := .xyz) e b ∧ 0 ≤ EulXyz.x (getUnique P .xyz e) := by
  obtain ⟨u1, u2⟩ := unique_den P k b hb eb cb
  have hc := conv_xyz_eq (P := P) hk u1 (by rw [u2]; exact cb)
  rw [u2] at hc
  obtain ⟨d, hx, hy, hz, -⟩ := xyzGetUnique_regular he
  constructor
  · intro h
    refine ⟨C46_sound_partial P .xyz k e b trivial hb he eb (fun h => by cases h) cb (fun h => by cases h) h, ?_⟩
    rw [eqMixed_iff] at h
    rw [h, hc]
    exact (euler012_range _).1
  · rintro ⟨h, h0⟩
    rw [eqMixed_iff, hc]
    rw [sameRot_iff] at h
    have e1 : den k b = rX (xyzGetUnique e).x * rY (xyzGetUnique e).y * rZ (xyzGetUnique e).z := by
      rw [← h, den_eq, ← d]; rfl
    have h0' : 0 ≤ (xyzGetUnique e).x := h0
    rw [e1, euler012_of_unique ⟨h0', hx.2⟩ hy hz]
    rfl

/-- **C46, EulerAnglesZyx on the left.** Compared with a value of any other class, `==` returns true iff both represent
the same rotation *and* the unique yaw is not negative *and* the unique roll is not `-π`. -/
theorem C46_zyx_left (P : Prec) (k : Kind) (hk : k ≠ .zyx) (e : EulZyx) (b : Rep k) (he : OutsideGimbalBand e.y)
    (hb : Valid k b) (eb : EulerRegular k b) (cb : RvClear P k (den k b)) :
    eqMixed P .zyx k e b = true ↔ SameRot (k₁ := .zyx) e b ∧ 0 ≤ EulZyx.z (getUnique P .zyx e) ∧
      EulZyx.x (getUnique P .zyx e) ≠ -Real.pi := by
  obtain ⟨u1, u2⟩ := unique_den P k b hb eb cb
  have hc := conv_zyx_eq (P := P) hk u1 (by rw [u2]; exact cb)
  rw [u2] at hc
  obtain ⟨d, hx, hy, hz, -⟩ := zyxGetUnique_regular he
  constructor
  · intro h
    refine ⟨C46_sound_partial P .zyx k e b trivial hb he eb (fun h => by cases h) cb (fun h => by cases h) h, ?_⟩
    rw [eqMixed_iff] at h
    rw [h, hc]
    exact ⟨(euler210_range _).1, (euler210_range _).2.ne'⟩
  · rintro ⟨h, h0, h1⟩
    rw [eqMixed_iff, hc]
    rw [sameRot_iff] at h
    have e1 : den k b = rZ (zyxGetUnique e).z * rY (zyxGetUnique e).y * rX (zyxGetUnique e).x := by
      rw [← h, den_eq, ← d]; rfl
    have h0' : 0 ≤ (zyxGetUnique e).z := h0
    have h1' : (zyxGetUnique e).x ≠ -Real.pi := h1
    rw [e1, euler210_of_unique ⟨h0', hz.2⟩ hy ⟨lt_of_le_of_ne hx.1 (Ne.symm h1'), hx.2⟩]
    rfl

/-! ## The claim fails for the remaining pairs -/

/-- The rotation by `2 arccos(5/13)` (about 135 degrees) around `-x`. -/
def badMatrix : M3 := ⟨1, 0, 0, 0, -119 / 169, 120 / 169, 0, -120 / 169, -119 / 169⟩

lemma quatOfMat_badMatrix : quatOfMat badMatrix = ⟨-5 / 13, 12 / 13, 0, 0⟩ := by
  have ht : ¬ badMatrix.trace > 0 := by norm_num [badMatrix, M3.trace]
  have h1 : ¬ badMatrix.m11 > badMatrix.m00 := by norm_num [badMatrix]
  have h2 : ¬ badMatrix.m22 > badMatrix.m00 := by norm_num [badMatrix]
  have hs : Real.sqrt (badMatrix.m00 - badMatrix.m11 - badMatrix.m22 + 1) = 24 / 13 := by
    rw [show badMatrix.m00 - badMatrix.m11 - badMatrix.m22 + 1 = (24 / 13) ^ 2 by norm_num [badMatrix]]
    exact Real.sqrt_sq (by norm_num)
  simp only [quatOfMat, Quat.ofMatrix, ht, h1, h2, if_false, hs]
  norm_num [badMatrix]

/-- **C46, refutation.** There is a rotation matrix `m` that no `RotationQuaternion` and no `RotationVector` compares equal
to when it stands on the right, although a quaternion of the same rotation exists and `m == q` returns true: `==` between
different classes neither decides equality of rotations nor is symmetric. -/
theorem C46_not_symmetric_counterexample (P : Prec) :
    Valid .mat badMatrix ∧
    (∀ q : Quat, Valid .quat q → eqMixed P .quat .mat q badMatrix = false) ∧
    (P.dp ≤ 1 / 2 → ∀ r : RotVec, eqMixed P .rv .mat r badMatrix = false) ∧
    ∃ q : Quat, Valid .quat q ∧ SameRot (k₁ := .quat) (k₂ := .mat) q badMatrix ∧
      eqMixed P .mat .quat badMatrix q = true := by
  have hm : Valid .mat badMatrix := by
    constructor
    · ext <;> simp [badMatrix] <;> norm_num
    · norm_num [badMatrix, M3.det]
  refine ⟨hm, fun q hq => ?_, fun hP r => ?_, ⟨5 / 13, -12 / 13, 0, 0⟩, ?_, ?_, ?_⟩
  · rw [Bool.eq_false_iff]; intro h
    rw [eqMixed_iff] at h
    have h' : quatGetUnique q = quatOfMat badMatrix := h
    rw [quatOfMat_badMatrix] at h'
    have hi := (C14_quaternion_unique P q q hq hq).2.2.1
    have hi' : quatGetUnique (quatGetUnique q) = quatGetUnique q := hi
    rw [h'] at hi'
    have := congrArg Quat.w hi'
    simp only [quatGetUnique] at this
    norm_num at this
  · rw [Bool.eq_false_iff]; intro h
    rw [eqMixed_iff] at h
    have h' : rvGetUnique P r = rvOfQuat P (quatOfMat badMatrix) := h
    rw [quatOfMat_badMatrix] at h'
    obtain ⟨c, hc, e⟩ := canonicalRv_getUnique P r
    have hn : (rvGetUnique P r).v.norm ≤ Real.pi := by
      rw [e, rvOfAa, V3.norm_smul, V3.norm_eq_one_iff.mpr hc.1, mul_one, abs_of_nonneg hc.2.1]
      exact hc.2.2.1
    have hvn : (⟨-5 / 13, 12 / 13, 0, 0⟩ : Quat).vec.norm = 12 / 13 := by
      rw [V3.norm, show (⟨-5 / 13, 12 / 13, 0, 0⟩ : Quat).vec.normSq = (12 / 13) ^ 2 by
        norm_num [V3.normSq, V3.dot, Quat.vec], Real.sqrt_sq (by norm_num)]
    rw [h', rvOfQuat_eq (by norm_num; linarith), hvn] at hn
    have hu : ((1 / (12 / 13) : ℝ) • (⟨-5 / 13, 12 / 13, 0, 0⟩ : Quat).vec).norm = 1 := by
      rw [V3.norm_smul, hvn]; norm_num
    have ha : 0 < atan2 (12 / 13) (-5 / 13) := atan2_pos (by norm_num)
    have hle := atan2_le_pi (12 / 13) (-5 / 13)
    simp only at hn
    rw [V3.norm_smul, hu, mul_one, abs_of_pos (by linarith)] at hn
    have hcos := cos_atan2 (x := -5 / 13) (y := 12 / 13) (by norm_num)
    have : 0 ≤ Real.cos (atan2 (12 / 13) (-5 / 13)) :=
      Real.cos_nonneg_of_neg_pi_div_two_le_of_le (by linarith [Real.pi_pos]) (by linarith)
    rw [hcos] at this; norm_num at this
  · norm_num [Valid]
  all_goals
    have hs : den .mat badMatrix = den .quat (⟨5 / 13, -12 / 13, 0, 0⟩ : Quat) := by
      rw [den_eq, den_eq]
      change badMatrix = sMat _
      ext <;> norm_num [badMatrix, sMat]
  · rw [sameRot_iff, hs]
  · rw [C46_matrix_left P .quat badMatrix _ hm (by norm_num [Valid]) trivial (fun h => by cases h), sameRot_iff, hs]

lemma xyzUnique_neg_one : xyzGetUnique ⟨⟨-1, 0, 0⟩⟩ = ⟨⟨-1, 0, 0⟩⟩ := by
  have h3 := Real.pi_gt_three
  have w1 : floatingPointModulo (-1 + Real.pi) (2 * Real.pi) - Real.pi = -1 := wrapPosNegPI_of_mem (by linarith) (by linarith)
  have w0 : floatingPointModulo (0 + Real.pi) (2 * Real.pi) - Real.pi = 0 := wrapPosNegPI_of_mem (by linarith) (by linarith)
  have ht : eulerTol = 1 / 1000 := by simp [eulerTol]
  have a1 : ¬ ((0 : ℝ) < -Real.pi / 2 - 1 / 1000) := by linarith
  have a2 : ¬ (-Real.pi / 2 - 1 / 1000 ≤ 0 ∧ (0 : ℝ) ≤ -Real.pi / 2 + 1 / 1000) := by rintro ⟨-, h⟩; linarith
  have a3 : -Real.pi / 2 + 1 / 1000 < (0 : ℝ) ∧ (0 : ℝ) < Real.pi / 2 - 1 / 1000 := ⟨by linarith, by linarith⟩
  simp only [xyzGetUnique, eulerUniqueBody, EulXyz.x, EulXyz.y, EulXyz.z, w1, w0, ht, a1, a2, a3, if_false, if_true, and_self]

/-- **C46, refutation for Euler angles.** Roll = -1, pitch = yaw = 0: no value of any other class compares equal to it
when it stands on the left, although every class can represent this rotation; a matrix of the same rotation compares equal
to it in the other order. -/
theorem C46_xyz_counterexample (P : Prec) :
    (∀ (k : Kind), k ≠ .xyz → ∀ b : Rep k, Valid k b → EulerRegular k b → RvClear P k (den k b) →
      eqMixed P .xyz k (⟨⟨-1, 0, 0⟩⟩ : EulXyz) b = false) ∧
    ∃ m : M3, Valid .mat m ∧ SameRot (k₁ := .xyz) (k₂ := .mat) (⟨⟨-1, 0, 0⟩⟩ : EulXyz) m ∧
      eqMixed P .mat .xyz m (⟨⟨-1, 0, 0⟩⟩ : EulXyz) = true := by
  have hband : OutsideGimbalBand (EulXyz.y ⟨⟨-1, 0, 0⟩⟩) := by
    have : EulXyz.y ⟨⟨-1, 0, 0⟩⟩ = 0 := rfl
    rw [OutsideGimbalBand, this, Real.cos_zero, abs_one]
    have := Real.sin_lt (x := 1 / 1000) (by norm_num)
    linarith
  refine ⟨fun k hk b hb eb cb => ?_, den .xyz (⟨⟨-1, 0, 0⟩⟩ : EulXyz), ?_, ?_, ?_⟩
  · rw [Bool.eq_false_iff]; intro h
    rw [C46_xyz_left P k hk _ b hband hb eb cb] at h
    have h2 : 0 ≤ (xyzGetUnique ⟨⟨-1, 0, 0⟩⟩).x := h.2
    rw [xyzUnique_neg_one] at h2
    simp only [EulXyz.x] at h2
    linarith
  · exact den_isSO3 (k := .xyz) (r := (⟨⟨-1, 0, 0⟩⟩ : EulXyz)) trivial
  · rw [sameRot_iff, den_eq .mat]; rfl
  · rw [C46_matrix_left P .xyz _ _ (den_isSO3 (k := .xyz) (r := (⟨⟨-1, 0, 0⟩⟩ : EulXyz)) trivial) trivial hband
      (fun h => by cases h), sameRot_iff, den_eq .mat]
    rfl

/-- non-vacuity of `C46_xyz_left`: both sides true for roll = 1 against the rotation's own matrix. -/
example : OutsideGimbalBand (EulXyz.y ⟨⟨1, 1 / 2, 3⟩⟩) ∧ EulerRegular .mat (1 : M3) ∧ Valid .mat (1 : M3) := by
  refine ⟨?_, trivial, ?_⟩
  · have : EulXyz.y ⟨⟨1, 1 / 2, 3⟩⟩ = 1 / 2 := rfl
    have h1 := Real.one_sub_sq_div_two_le_cos (x := 1 / 2)
    have h2 := Real.sin_lt (x := 1 / 1000) (by norm_num)
    have h3 := le_abs_self (Real.cos (1 / 2))
    rw [OutsideGimbalBand, this]
    linarith
  · exact ⟨by ext <;> simp, by simp [M3.det]⟩

end Kindr
