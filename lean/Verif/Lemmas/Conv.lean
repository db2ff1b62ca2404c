import Verif.Lemmas.Shoemake

/-!
# Individual conversions are exact
-/

set_option autoImplicit false

open Classical

noncomputable section
namespace Kindr
open Spec

/-! ## atan2 -/

lemma norm_mk (x y : ℝ) : ‖(⟨x, y⟩ : ℂ)‖ = Real.sqrt (x * x + y * y) := by
  rw [Complex.norm_def, Complex.normSq_mk]

lemma cos_atan2 {x y : ℝ} (h : x ^ 2 + y ^ 2 = 1) : Real.cos (atan2 y x) = x := by
  have hn : ‖(⟨x, y⟩ : ℂ)‖ = 1 := by rw [norm_mk, Real.sqrt_eq_one]; linarith
  have h0 : (⟨x, y⟩ : ℂ) ≠ 0 := by
    intro e; rw [e] at hn; simp at hn
  rw [atan2, Complex.cos_arg h0, hn, div_one]

lemma sin_atan2 {x y : ℝ} (h : x ^ 2 + y ^ 2 = 1) : Real.sin (atan2 y x) = y := by
  have hn : ‖(⟨x, y⟩ : ℂ)‖ = 1 := by rw [norm_mk, Real.sqrt_eq_one]; linarith
  rw [atan2, Complex.sin_arg, hn, div_one]

lemma atan2_mul_cos (y x : ℝ) : Real.sqrt (x * x + y * y) * Real.cos (atan2 y x) = x := by
  rw [← norm_mk, atan2, Complex.norm_mul_cos_arg]

lemma atan2_mul_sin (y x : ℝ) : Real.sqrt (x * x + y * y) * Real.sin (atan2 y x) = y := by
  rw [← norm_mk, atan2, Complex.norm_mul_sin_arg]

lemma atan2_nonneg {y x : ℝ} (h : 0 ≤ y) : 0 ≤ atan2 y x := Complex.arg_nonneg_iff.mpr h
lemma atan2_le_pi (y x : ℝ) : atan2 y x ≤ Real.pi := Complex.arg_le_pi _
lemma neg_pi_lt_atan2 (y x : ℝ) : -Real.pi < atan2 y x := Complex.neg_pi_lt_arg _
@[simp] lemma atan2_zero_zero : atan2 0 0 = 0 := by
  have : (⟨0, 0⟩ : ℂ) = 0 := rfl
  rw [atan2, this, Complex.arg_zero]

lemma atan2_le_pi_div_two {y x : ℝ} (h : 0 ≤ x) : atan2 y x ≤ Real.pi / 2 :=
  (Complex.abs_arg_le_pi_div_two_iff.mpr h |> abs_le.mp).2

lemma atan2_pos {y x : ℝ} (h : 0 < y) : 0 < atan2 y x := by
  refine lt_of_le_of_ne (atan2_nonneg h.le) (fun e => ?_)
  have := atan2_mul_sin y x
  rw [← e] at this; simp at this; linarith

/-! ## Quaternion → angle-axis -/

@[simp] lemma Quat.vec_x (q : Quat) : q.vec.x = q.x := rfl
@[simp] lemma Quat.vec_y (q : Quat) : q.vec.y = q.y := rfl
@[simp] lemma Quat.vec_z (q : Quat) : q.vec.z = q.z := rfl


lemma vec_norm_sq {q : Quat} (h : q.normSq = 1) : q.vec.norm ^ 2 = 1 - q.w ^ 2 := by
  rw [V3.norm_sq]; simp only [V3.normSq, V3.dot, Quat.vec, Quat.normSq] at *; linarith

lemma ofQuat_spec {q : Quat} (h : q.normSq = 1) :
    (AngAx.ofQuat q).axis.normSq = 1 ∧ 0 ≤ (AngAx.ofQuat q).angle ∧ (AngAx.ofQuat q).angle ≤ Real.pi ∧
      Quat.ofAngleAxis (AngAx.ofQuat q).angle (AngAx.ofQuat q).axis = if q.w < 0 then -q else q := by
  have hn2 := vec_norm_sq h
  simp only [AngAx.ofQuat]
  by_cases h0 : q.vec.norm = 0
  · simp only [h0, ne_eq, not_true, if_false]
    have hv := V3.norm_eq_zero.mp h0
    have hx : q.x = 0 := congrArg V3.x hv
    have hy : q.y = 0 := congrArg V3.y hv
    have hz : q.z = 0 := congrArg V3.z hv
    have hw : q.w ^ 2 = 1 := by rw [h0] at hn2; linarith
    refine ⟨by norm_num [V3.normSq, V3.dot], le_refl _, Real.pi_pos.le, ?_⟩
    rcases eq_or_eq_neg_of_sq_eq_sq q.w 1 (by rw [hw, one_pow]) with h1 | h1
    all_goals (split_ifs with h2)
    all_goals first
      | (exfalso; linarith)
      | (ext <;> simp [Quat.ofAngleAxis, h1, hx, hy, hz])
  · have hpos : 0 < q.vec.norm := lt_of_le_of_ne q.vec.norm_nonneg (Ne.symm h0)
    simp only [ne_eq, h0, not_false_eq_true, if_true]
    have h1 : |q.w| ^ 2 + q.vec.norm ^ 2 = 1 := by rw [sq_abs]; linarith
    have hc := cos_atan2 h1
    have hs := sin_atan2 h1
    have e : 1 / 2 * (2 * atan2 q.vec.norm |q.w|) = atan2 q.vec.norm |q.w| := by ring
    refine ⟨?_, ?_, ?_, ?_⟩
    · split_ifs
      · rw [V3.normSq_smul, ← V3.norm_sq]; field_simp
      · exact unit_dir h0
    · have := atan2_nonneg (y := q.vec.norm) (x := |q.w|) hpos.le; linarith
    · have := atan2_le_pi_div_two (y := q.vec.norm) (x := |q.w|) (abs_nonneg _); linarith
    · split_ifs with h2
      · rw [abs_of_neg h2] at *
        ext <;> simp only [Quat.ofAngleAxis, e, hc, hs, Quat.neg_w, Quat.neg_x, Quat.neg_y, Quat.neg_z,
          V3.smul_x, V3.smul_y, V3.smul_z, Quat.vec_x, Quat.vec_y, Quat.vec_z] <;> field_simp
      · rw [abs_of_nonneg (not_lt.mp h2)] at *
        ext <;> simp only [Quat.ofAngleAxis, e, hc, hs,
          V3.smul_x, V3.smul_y, V3.smul_z, Quat.vec_x, Quat.vec_y, Quat.vec_z] <;> field_simp

lemma rodMat_ofQuat {q : Quat} (h : q.normSq = 1) :
    rodMat (AngAx.ofQuat q).angle (AngAx.ofQuat q).axis = sMat q := by
  obtain ⟨h1, -, -, h2⟩ := ofQuat_spec h
  rw [← sMat_ofAngleAxis _ h1, h2]
  split_ifs <;> simp

/-! ## Euler angles -/

lemma sMat_unitX (a : ℝ) : sMat (Quat.ofAngleAxis a V3.unitX) = rX a := by
  rw [sMat_ofAngleAxis a (by simp [V3.normSq, V3.dot, V3.unitX])]
  ext <;> simp [rodMat, AngAx.toRotationMatrix, rX, V3.unitX]
lemma sMat_unitY (a : ℝ) : sMat (Quat.ofAngleAxis a V3.unitY) = rY a := by
  rw [sMat_ofAngleAxis a (by simp [V3.normSq, V3.dot, V3.unitY])]
  ext <;> simp [rodMat, AngAx.toRotationMatrix, rY, V3.unitY]
lemma sMat_unitZ (a : ℝ) : sMat (Quat.ofAngleAxis a V3.unitZ) = rZ a := by
  rw [sMat_ofAngleAxis a (by simp [V3.normSq, V3.dot, V3.unitZ])]
  ext <;> simp [rodMat, AngAx.toRotationMatrix, rZ, V3.unitZ]

lemma normSq_unitX (a : ℝ) : (Quat.ofAngleAxis a V3.unitX).normSq = 1 :=
  normSq_ofAngleAxis a (by simp [V3.normSq, V3.dot, V3.unitX])
lemma normSq_unitY (a : ℝ) : (Quat.ofAngleAxis a V3.unitY).normSq = 1 :=
  normSq_ofAngleAxis a (by simp [V3.normSq, V3.dot, V3.unitY])
lemma normSq_unitZ (a : ℝ) : (Quat.ofAngleAxis a V3.unitZ).normSq = 1 :=
  normSq_ofAngleAxis a (by simp [V3.normSq, V3.dot, V3.unitZ])

lemma quatOfXyz_unit (e : EulXyz) : (quatOfXyz e).normSq = 1 := by
  simp [quatOfXyz, Quat.normSq_mul, normSq_unitX, normSq_unitY, normSq_unitZ]
lemma quatOfZyx_unit (e : EulZyx) : (quatOfZyx e).normSq = 1 := by
  simp [quatOfZyx, Quat.normSq_mul, normSq_unitX, normSq_unitY, normSq_unitZ]
lemma sMat_quatOfXyz (e : EulXyz) : sMat (quatOfXyz e) = rX e.x * rY e.y * rZ e.z := by
  simp [quatOfXyz, sMat_mul, sMat_unitX, sMat_unitY, sMat_unitZ]
lemma sMat_quatOfZyx (e : EulZyx) : sMat (quatOfZyx e) = rZ e.z * rY e.y * rX e.x := by
  simp [quatOfZyx, sMat_mul, sMat_unitX, sMat_unitY, sMat_unitZ]

/-- What the first two steps of `eulerAngles` compute: a pair of angles with
`ρ cos = σ a`, `ρ sin = σ b`, and `(cos r1, sin r1) = (σ ρ, s)`. -/
lemma euler_step (p : Prop) (b a s : ℝ) (h : a ^ 2 + b ^ 2 + s ^ 2 = 1) 
    (sg : ℝ) (hsg : sg = Real.pi ∨ sg = -Real.pi) :
    let ρ := Real.sqrt (a * a + b * b)
    let r := if p then (atan2 b a + sg, atan2 s (-ρ)) else (atan2 b a, atan2 s ρ)
    Real.cos r.1 * b - Real.sin r.1 * a = 0 ∧ Real.cos r.1 * a + Real.sin r.1 * b = Real.cos r.2 ∧
      Real.sin r.2 = s := by
  intro ρ r
  have hρ : ρ * ρ = a * a + b * b := Real.mul_self_sqrt (by nlinarith [sq_nonneg a, sq_nonneg b])
  have hc : ρ * Real.cos (atan2 b a) = a := atan2_mul_cos b a
  have hs : ρ * Real.sin (atan2 b a) = b := atan2_mul_sin b a
  have h1 := Real.sin_sq_add_cos_sq (atan2 b a)
  have n1 : ρ ^ 2 + s ^ 2 = 1 := by nlinarith
  have n2 : (-ρ) ^ 2 + s ^ 2 = 1 := by nlinarith
  by_cases hpp : p
  · have e : r = (atan2 b a + sg, atan2 s (-ρ)) := if_pos hpp
    have hcc : Real.cos (atan2 b a + sg) = -Real.cos (atan2 b a) := by
      rcases hsg with rfl | rfl
      · exact Real.cos_add_pi _
      · rw [← sub_eq_add_neg]; exact Real.cos_sub_pi _
    have hss : Real.sin (atan2 b a + sg) = -Real.sin (atan2 b a) := by
      rcases hsg with rfl | rfl
      · exact Real.sin_add_pi _
      · rw [← sub_eq_add_neg]; exact Real.sin_sub_pi _
    rw [e]; simp only [hcc, hss, sin_atan2 n2, cos_atan2 n2]
    generalize Real.cos (atan2 b a) = C at *
    generalize Real.sin (atan2 b a) = S at *
    refine ⟨?_, ?_, trivial⟩
    · rw [← hc, ← hs]; ring
    · linear_combination C * hc + S * hs - ρ * h1
  · have e : r = (atan2 b a, atan2 s ρ) := if_neg hpp
    rw [e]; simp only [sin_atan2 n1, cos_atan2 n1]
    generalize Real.cos (atan2 b a) = C at *
    generalize Real.sin (atan2 b a) = S at *
    refine ⟨?_, ?_, trivial⟩
    · rw [← hc, ← hs]; ring
    · linear_combination -C * hc - S * hs + ρ * h1


lemma euler210_spec {m : M3} (h : IsSO3 m) :
    rZ (eulerAngles210 m).x * rY (eulerAngles210 m).y * rX (eulerAngles210 m).z = m := by
  have R := SO3.rel h
  have hρ : m.m22 * m.m22 + m.m21 * m.m21 = m.m00 * m.m00 + m.m10 * m.m10 := by
    nlinarith [R.r22, R.c00]
  obtain ⟨e1, e2, e3⟩ := euler_step (atan2 m.m10 m.m00 < 0) m.m10 m.m00 (-m.m20) (by nlinarith [R.c00])
    Real.pi (Or.inl rfl)
  have hif : (if atan2 m.m10 m.m00 < 0 then
        (if atan2 m.m10 m.m00 > 0 then atan2 m.m10 m.m00 - Real.pi else atan2 m.m10 m.m00 + Real.pi,
          atan2 (-m.m20) (-Real.sqrt (m.m00 * m.m00 + m.m10 * m.m10)))
      else (atan2 m.m10 m.m00, atan2 (-m.m20) (Real.sqrt (m.m00 * m.m00 + m.m10 * m.m10)))) =
      (if atan2 m.m10 m.m00 < 0 then (atan2 m.m10 m.m00 + Real.pi,
          atan2 (-m.m20) (-Real.sqrt (m.m00 * m.m00 + m.m10 * m.m10)))
      else (atan2 m.m10 m.m00, atan2 (-m.m20) (Real.sqrt (m.m00 * m.m00 + m.m10 * m.m10)))) := by
    split_ifs with h1 h2
    · linarith
    · rfl
    · rfl
  simp only [eulerAngles210, hρ]
  rw [hif]
  generalize (if atan2 m.m10 m.m00 < 0 then (atan2 m.m10 m.m00 + Real.pi,
          atan2 (-m.m20) (-Real.sqrt (m.m00 * m.m00 + m.m10 * m.m10)))
      else (atan2 m.m10 m.m00, atan2 (-m.m20) (Real.sqrt (m.m00 * m.m00 + m.m10 * m.m10)))) = r at *
  obtain ⟨r0, r1⟩ := r
  simp only at e1 e2 e3 ⊢
  -- m' = Rzᵀ m
  have hm' : IsSO3 ((rZ r0).transpose * m) := SO3.mul (SO3.transpose (rZ_isSO3 r0)) h
  have R' := SO3.rel hm'
  have g1 := R'.r11
  have g2 := R'.k21
  have g3 := R'.k22
  have g4 := R'.k01
  have g5 := R'.k02
  simp [rZ] at g1 g2 g3 g4 g5
  have n2 : (Real.cos r0 * m.m11 - Real.sin r0 * m.m01) ^ 2 + (Real.sin r0 * m.m02 - Real.cos r0 * m.m12) ^ 2 = 1 := by
    have : -(Real.sin r0 * m.m00) + Real.cos r0 * m.m10 = 0 := by linarith
    rw [this] at g1; linarith
  have hc2 := cos_atan2 n2
  have hs2 := sin_atan2 n2
  have key : rY r1 * rX (atan2 (Real.sin r0 * m.m02 - Real.cos r0 * m.m12)
      (Real.cos r0 * m.m11 - Real.sin r0 * m.m01)) = (rZ r0).transpose * m := by
    have e1' : -(Real.sin r0 * m.m00) + Real.cos r0 * m.m10 = 0 := by linarith
    rw [e1'] at g2 g3 g4 g5
    rw [e2] at g2 g3
    ext <;> simp [rY, rX, rZ, hc2, hs2, e3] <;> linarith
  rw [mul_assoc, key, ← mul_assoc, (rZ_isSO3 r0).1, one_mul]

lemma euler012_spec {m : M3} (h : IsSO3 m) :
    rX (eulerAngles012 m).x * rY (eulerAngles012 m).y * rZ (eulerAngles012 m).z = m := by
  have R := SO3.rel h
  have hρ : m.m00 * m.m00 + m.m01 * m.m01 = m.m22 * m.m22 + m.m12 * m.m12 := by
    nlinarith [R.r00, R.c22]
  obtain ⟨e1, e2, e3⟩ := euler_step (atan2 m.m12 m.m22 > 0) m.m12 m.m22 (-m.m02) (by nlinarith [R.c22])
    (-Real.pi) (Or.inr rfl)
  have hif : (if atan2 m.m12 m.m22 > 0 then
        (if atan2 m.m12 m.m22 > 0 then atan2 m.m12 m.m22 - Real.pi else atan2 m.m12 m.m22 + Real.pi,
          atan2 (-m.m02) (-Real.sqrt (m.m22 * m.m22 + m.m12 * m.m12)))
      else (atan2 m.m12 m.m22, atan2 (-m.m02) (Real.sqrt (m.m22 * m.m22 + m.m12 * m.m12)))) =
      (if atan2 m.m12 m.m22 > 0 then (atan2 m.m12 m.m22 + -Real.pi,
          atan2 (-m.m02) (-Real.sqrt (m.m22 * m.m22 + m.m12 * m.m12)))
      else (atan2 m.m12 m.m22, atan2 (-m.m02) (Real.sqrt (m.m22 * m.m22 + m.m12 * m.m12)))) := by
    split_ifs with h1
    · rw [sub_eq_add_neg]
    · rfl
  simp only [eulerAngles012, hρ]
  rw [hif]
  generalize (if atan2 m.m12 m.m22 > 0 then (atan2 m.m12 m.m22 + -Real.pi,
          atan2 (-m.m02) (-Real.sqrt (m.m22 * m.m22 + m.m12 * m.m12)))
      else (atan2 m.m12 m.m22, atan2 (-m.m02) (Real.sqrt (m.m22 * m.m22 + m.m12 * m.m12)))) = r at *
  obtain ⟨r0, r1⟩ := r
  simp only at e1 e2 e3 ⊢
  have hm' : IsSO3 ((rX (-r0)).transpose * m) := SO3.mul (SO3.transpose (rX_isSO3 _)) h
  have R' := SO3.rel hm'
  have g1 := R'.r11
  have g2 := R'.k21
  have g3 := R'.k20
  have g4 := R'.k01
  have g5 := R'.k00
  simp [rX] at g1 g2 g3 g4 g5
  have n2 : (Real.cos r0 * m.m11 - Real.sin r0 * m.m21) ^ 2 + (Real.sin r0 * m.m20 - Real.cos r0 * m.m10) ^ 2 = 1 := by
    have : Real.cos r0 * m.m12 + -(Real.sin r0 * m.m22) = 0 := by linarith
    rw [this] at g1; linarith
  have hc2 := cos_atan2 n2
  have hs2 := sin_atan2 n2
  have key : rY (-r1) * rZ (-atan2 (Real.sin r0 * m.m20 - Real.cos r0 * m.m10)
      (Real.cos r0 * m.m11 - Real.sin r0 * m.m21)) = (rX (-r0)).transpose * m := by
    have e1' : Real.cos r0 * m.m12 + -(Real.sin r0 * m.m22) = 0 := by linarith
    rw [e1'] at g2 g3 g4 g5
    have e2' : Real.sin r0 * m.m12 + Real.cos r0 * m.m22 = Real.cos r1 := by linarith
    rw [e2'] at g4 g5
    ext <;> simp [rY, rX, rZ, hc2, hs2, e3] <;> linarith
  rw [mul_assoc, key, ← mul_assoc, (rX_isSO3 (-r0)).1, one_mul]

end Kindr
