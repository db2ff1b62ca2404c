import Verif.Props.FloatOps

/-!
# C85: instances of the rounded arithmetic

The exact arithmetic (in which the rounded table is the table of Model/Rotation.lean, entry by entry), `double` and `float`.
-/

set_option autoImplicit false

open Classical

noncomputable section
namespace Kindr
open Spec

/-- Exact arithmetic as an instance of the rounded one. -/
def FloatLib.exact : FloatLib where
  fl := id
  u := 0
  u_nonneg := le_rfl
  u_le := by positivity
  err := fun x => by simp
  sin := Real.sin
  cos := Real.cos
  atan2 := Kindr.atan2
  sin_err := fun x => by simp
  cos_err := fun x => by simp
  atan2_err := fun y x _ => by simp
  atan2_neg := fun x hx => Or.inl (by
    have : Kindr.atan2 0 x = Real.pi := by
      simp only [Kindr.atan2]
      exact Complex.arg_ofReal_of_neg hx
    simp [this])
  atan2_zero := by
    have : Kindr.atan2 0 0 = 0 := by
      simp only [Kindr.atan2]; exact Complex.arg_zero
    simp [this]

namespace FloatLib

lemma exact_fl (x : ℝ) : exact.fl x = x := rfl

lemma exact_norm3 (v : V3) : exact.norm3 v = v.norm := by
  simp only [norm3, normSq3, exact_fl, V3.norm, V3.normSq, V3.dot, add_assoc]

lemma exact_quatMul (a b : Quat) : exact.quatMul a b = a * b := by
  ext <;> simp [FloatArith.quatMul, exact_fl] <;> ring

lemma exact_ofAngleAxis (θ : ℝ) (n : V3) : exact.ofAngleAxis θ n = Quat.ofAngleAxis θ n := rfl

lemma exact_toRotationMatrix (q : Quat) : exact.toRotationMatrix q = q.toRotationMatrix := rfl

lemma exact_ofMatrix (m : M3) : exact.ofMatrix m = Quat.ofMatrix m := by
  have e : m.m00 + (m.m11 + m.m22) = m.trace := by simp only [M3.trace]; ring
  simp only [ofMatrix, Quat.ofMatrix, exact_fl, e, one_div_mul_eq_div]

lemma exact_ofQuat (q : Quat) : exact.ofQuat q = AngAx.ofQuat q := by
  simp only [ofQuat, AngAx.ofQuat, exact_fl, exact_norm3]
  split_ifs <;> first | rfl | (congr 1; ext <;> simp [Quat.vec, div_eq_inv_mul])

lemma exact_quatOfRv (P : Prec) (r : RotVec) : exact.quatOfRv P r = Kindr.quatOfRv P r := by
  by_cases h : r.v.norm < P.eps ^ (1 / 4 : ℝ)
  · simp only [quatOfRv, Kindr.quatOfRv, exact_fl, exact_norm3, isLessThenEpsilons4thRoot, if_pos h, V3.smul_x, V3.smul_y, V3.smul_z, mul_comm]
    rfl
  · simp only [quatOfRv, Kindr.quatOfRv, exact_fl, exact_norm3, isLessThenEpsilons4thRoot, if_neg h, V3.smul_x, V3.smul_y, V3.smul_z, mul_comm]
    rfl

lemma exact_aaOfRv (P : Prec) (r : RotVec) : exact.aaOfRv P r = Kindr.aaOfRv P r := by
  simp only [aaOfRv, Kindr.aaOfRv, exact_fl, exact_norm3]
  split_ifs with h
  · rfl
  · congr 1
    have : 0 < r.v.norm := lt_of_lt_of_le P.dp_pos (not_lt.mp h)
    have h2 : 0 < r.v.normSq := by rw [← V3.norm_sq]; positivity
    ext <;> simp [V3.normalized, h2, div_eq_inv_mul]

lemma exact_rvOfAa (a : AngAx) : exact.rvOfAa a = Kindr.rvOfAa a := by
  simp only [rvOfAa, Kindr.rvOfAa, exact_fl]; congr 1

lemma exact_rvOfQuat (P : Prec) (q : Quat) : exact.rvOfQuat P q = Kindr.rvOfQuat P q := by
  simp only [rvOfQuat, Kindr.rvOfQuat, exact_fl, exact_norm3, rvSmall]
  split_ifs <;> rfl

lemma exact_eulerAngles012 (m : M3) : exact.eulerAngles012 m = Kindr.eulerAngles012 m := rfl
lemma exact_eulerAngles210 (m : M3) : exact.eulerAngles210 m = Kindr.eulerAngles210 m := rfl

/-- **C85 (h).** With exact arithmetic and an exact library the rounded table is the table of `Model/Rotation.lean`. -/
theorem C85_exact_table (P : Prec) (d s : Kind) (r : Rep s) : exact.conv P d s r = Kindr.conv P d s r := by
  have qx : ∀ e, exact.quatOfXyz e = Kindr.quatOfXyz e := fun e => by
    simp only [quatOfXyz, Kindr.quatOfXyz, exact_quatMul, exact_ofAngleAxis]
  have qz : ∀ e, exact.quatOfZyx e = Kindr.quatOfZyx e := fun e => by
    simp only [quatOfZyx, Kindr.quatOfZyx, exact_quatMul, exact_ofAngleAxis]
  have xq : ∀ q, exact.xyzOfQuat q = Kindr.xyzOfQuat q := fun q => by
    rw [xyzOfQuat, exact_toRotationMatrix, exact_eulerAngles012]; rfl
  have zq : ∀ q, exact.zyxOfQuat q = Kindr.zyxOfQuat q := fun q => by
    rw [zyxOfQuat, exact_toRotationMatrix, exact_eulerAngles210]; rfl
  cases s
  · cases d
    · rfl
    · rfl
    · exact exact_ofQuat r
    · exact exact_rvOfQuat P r
    · exact xq r
    · exact zq r
  · have h := exact_ofMatrix r
    cases d
    · exact h
    · rfl
    · exact (congrArg exact.ofQuat h).trans (exact_ofQuat _)
    · exact (congrArg (exact.rvOfQuat P) h).trans (exact_rvOfQuat P _)
    · exact (congrArg exact.xyzOfQuat h).trans (xq _)
    · exact (congrArg exact.zyxOfQuat h).trans (zq _)
  · cases d
    · rfl
    · rfl
    · rfl
    · exact exact_rvOfAa r
    · exact xq _
    · exact zq _
  · have h := exact_quatOfRv P r
    have h' := exact_aaOfRv P r
    cases d
    · exact h
    · exact congrArg exact.toRotationMatrix h
    · exact h'
    · rfl
    · exact (congrArg (fun a => exact.xyzOfQuat (exact.quatOfAa a)) h').trans (xq _)
    · exact (congrArg exact.zyxOfQuat h).trans (zq _)
  · have h := qx r
    cases d
    · exact h
    · exact congrArg exact.toRotationMatrix h
    · exact (congrArg exact.ofQuat h).trans (exact_ofQuat _)
    · exact (congrArg (fun q => exact.rvOfAa (exact.ofQuat q)) h).trans (congrArg Kindr.rvOfAa (exact_ofQuat _))
    · rfl
    · exact (congrArg exact.zyxOfQuat h).trans (zq _)
  · have h := qz r
    cases d
    · exact h
    · exact congrArg exact.toRotationMatrix h
    · exact (congrArg exact.ofQuat h).trans (exact_ofQuat _)
    · exact (congrArg (fun q => exact.rvOfAa (exact.ofQuat q)) h).trans (congrArg Kindr.rvOfAa (exact_ofQuat _))
    · exact (congrArg exact.xyzOfQuat h).trans (xq _)
    · rfl

/-- A floating-point arithmetic whose library is correctly rounded. -/
def correctlyRounded (F : FloatArith) : FloatLib where
  toFloatArith := F
  sin := fun x => F.fl (Real.sin x)
  cos := fun x => F.fl (Real.cos x)
  atan2 := fun y x => F.fl (Kindr.atan2 y x)
  sin_err := fun x => (F.err _).trans (by nlinarith [F.u_nonneg, Real.abs_sin_le_one x])
  cos_err := fun x => (F.err _).trans (by nlinarith [F.u_nonneg, Real.abs_cos_le_one x])
  atan2_err := fun y x _ => (F.err _).trans (by
    have : |Kindr.atan2 y x| ≤ 8 := (Complex.abs_arg_le_pi _).trans (by linarith [Real.pi_le_four])
    nlinarith [F.u_nonneg])
  atan2_neg := fun x hx => Or.inl (by
    have e : Kindr.atan2 0 x = Real.pi := Complex.arg_ofReal_of_neg hx
    rw [e]
    refine (F.err _).trans ?_
    rw [abs_of_pos Real.pi_pos]
    nlinarith [F.u_nonneg, Real.pi_le_four])
  atan2_zero := by
    have e : Kindr.atan2 0 0 = 0 := Complex.arg_zero
    have h := F.err 0
    rw [abs_zero, mul_zero, sub_zero] at h
    rw [e]; linarith

/-- `double` with round-to-nearest and a correctly rounded library. -/
def double : FloatLib := correctlyRounded FloatArith.double
/-- `float` with round-to-nearest and a correctly rounded library. -/
def float : FloatLib := correctlyRounded FloatArith.float

/-- **C85 (i).** All 36 conversions of exactly represented rotations with angles up to a full turn: the error in every rotated
vector, relative to its length, for any arithmetic at least as accurate as `double` (with its thresholds) and as `float`. -/
theorem C85_double_float (F : FloatLib) (d s : Kind) (r : Rep s) (h : Valid s r) (hS : angleSize s r ≤ 7) (v : V3) :
    (F.u ≤ 2⁻¹ ^ 53 → (act d (F.conv Prec.double d s r) v - act s r v).norm ≤ 2 / 10 ^ 12 * v.norm) ∧
    ((act d (F.conv Prec.float d s r) v - act s r v).norm ≤ 4 / 10 ^ 4 * v.norm) := by
  have hu := F.u_nonneg
  have hS0 := angleSize_nonneg s r
  have key : ∀ P : Prec, P.eps ≤ 2⁻¹ ^ 23 → quatErr P F.u 0 (angleSize s r) s ≤ 53 * F.u + P.eps / 3000 := by
    intro P hP
    have := mul_le_mul_of_nonneg_right hS hu
    have := P.eps_pos
    cases s <;> simp only [quatErr] <;> linarith
  have main : ∀ P : Prec, 110 * F.u ≤ P.dp → F.u ≤ 2⁻¹ ^ 24 → (act d (F.conv P d s r) v - act s r v).norm ≤
      (6400 * F.u + 101 * (P.eps / 3000) + 101 / 100 * P.dp) * v.norm := by
    intro P h1 h2
    have k1 := key P P.eps_le
    have h3 := P.eps_le
    have h4 := P.eps_pos
    have h5 := P.dp_pos
    refine (F.C85_convert_exact_input P d s h (k1.trans (by norm_num at *; linarith)) h1 v).trans (mul_le_mul_of_nonneg_right ?_ v.norm_nonneg)
    have k0 := F.quatErr_nonneg P le_rfl r
    cases d <;> simp only [convOff, convLoss] <;> linarith
  constructor
  · intro h1
    refine (main Prec.double ?_ (h1.trans (by norm_num)) ).trans (mul_le_mul_of_nonneg_right ?_ v.norm_nonneg) <;>
      norm_num [Prec.double] at * <;> linarith
  · have h1 := F.u_le
    refine (main Prec.float ?_ h1).trans (mul_le_mul_of_nonneg_right ?_ v.norm_nonneg) <;>
      norm_num [Prec.float] at * <;> linarith

/-- **C85 (j).** `inverseRotate()` of every class. -/
theorem C85_inverseRotate (F : FloatLib) (P : Prec) {k : Kind} {r : Rep k} {η δ : ℝ} {R : M3} (h : Rounded η δ k r R)
    (he : quatErr P F.u η (angleSize k r) k ≤ 1 / 100000) (hk : k ≠ .xyz ∧ k ≠ .zyx) (v : V3) :
    (F.inverseRotate P k r v - R.transpose.mulVec v).norm ≤
      (δ + if k = .mat then 3 * η + 6 * F.u else 19 * quatErr P F.u η (angleSize k r) k + 69 * F.u) * v.norm := by
  have hi := F.C85_inverted P h he
  have hS : angleSize k (F.inverted k r) = angleSize k r := by
    cases k
    · rfl
    · rfl
    · change |(aaInverted r).angle| = |AngAx.angle r|
      simp [aaInverted, AngAx.inverse]
    · exact V3.norm_neg _
    · exact absurd rfl hk.1
    · exact absurd rfl hk.2
  rw [if_neg (by tauto), add_zero] at hi
  have := F.C85_rotate P hi (by rw [hS]; exact he) v
  rw [hS] at this
  exact this

/-- The other rounded operations are the exact ones in exact arithmetic. -/
theorem C85_exact_operations (P : Prec) (k k₂ : Kind) (a : Rep k) (b : Rep k₂) (v : V3) :
    exact.rotate P k a v = Kindr.rotate P k a v ∧ exact.mult P k k₂ a b = Kindr.mult P k k₂ a b ∧
    exact.inverted k a = Kindr.inverted k a ∧ exact.inverseRotate P k a v = Kindr.inverseRotate P k a v := by
  have hr : ∀ r : Rep k, exact.rotate P k r v = Kindr.rotate P k r v := fun r => by
    have := C85_exact_table P .mat k r
    rw [rotate, Kindr.rotate, this]; rfl
  have hi : exact.inverted k a = Kindr.inverted k a := by
    cases k
    · rfl
    · rfl
    · rfl
    · rfl
    · have h1 := C85_exact_table P .quat .xyz a
      have h2 := C85_exact_table P .xyz .quat (UnitQuaternion.inverted (Kindr.quatOfXyz a))
      exact (congrArg (fun q => exact.xyzOfQuat (UnitQuaternion.inverted q)) h1).trans h2
    · have h1 := C85_exact_table P .quat .zyx a
      have h2 := C85_exact_table P .zyx .quat (UnitQuaternion.inverted (Kindr.quatOfZyx a))
      exact (congrArg (fun q => exact.zyxOfQuat (UnitQuaternion.inverted q)) h1).trans h2
  refine ⟨hr a, ?_, hi, by rw [inverseRotate, hi, hr, Kindr.inverseRotate]⟩
  by_cases hk : k = .mat ∧ k₂ = .mat
  · obtain ⟨rfl, rfl⟩ := hk
    change exact.matMul a b = (a : M3) * (b : M3)
    ext <;> simp [FloatArith.matMul, FloatArith.mulVec, exact_fl]
  · have e : exact.mult P k k₂ a b = exact.conv P k .quat (exact.quatMul (exact.conv P .quat k a) (exact.conv P .quat k₂ b)) := by
      cases k <;> cases k₂ <;> first | rfl | exact absurd ⟨rfl, rfl⟩ hk
    have e' : Kindr.mult P k k₂ a b = Kindr.conv P k .quat ((Kindr.conv P .quat k a : Quat) * (Kindr.conv P .quat k₂ b : Quat) : Quat) := by
      cases k <;> cases k₂ <;> first | rfl | exact absurd ⟨rfl, rfl⟩ hk
    rw [e, e', C85_exact_table P .quat k a, C85_exact_table P .quat k₂ b]
    exact (congrArg (exact.conv P k .quat) (exact_quatMul _ _)).trans (C85_exact_table P k .quat _)

/-! ## Concrete cases -/

/-- A quaternion that is not normalized stands for the identity up to its error. -/
example : Rounded (1 / 10 ^ 9) 0 .quat (⟨1 + 1 / 10 ^ 10, 0, 0, 0⟩ : Quat) 1 ∧ ¬ Valid .quat (⟨1 + 1 / 10 ^ 10, 0, 0, 0⟩ : Quat) := by
  constructor
  · refine rounded_quat (by norm_num) (u := ⟨1, 0, 0, 0⟩) (by norm_num [Quat.normSq]) ?_ ?_
    · have e : toH ⟨1 + 1 / 10 ^ 10, 0, 0, 0⟩ - toH ⟨1, 0, 0, 0⟩ = toH ⟨1 / 10 ^ 10, 0, 0, 0⟩ := by ext <;> simp
      rw [e, norm_toH, Quat.norm]
      apply Real.sqrt_le_iff.mpr
      norm_num [Quat.normSq]
    · have e : sMat ⟨1, 0, 0, 0⟩ = 1 := by ext <;> simp [sMat]
      rw [e]; exact Close.refl _
  · rw [valid_quat_iff]
    norm_num [Quat.normSq]

/-- Its conversions in `double` satisfy the hypotheses of C85 (a), (b), (d), (g) and (e). -/
example {r : Quat} (h : Rounded (1 / 10 ^ 14) 0 .quat r 1) (v : V3) :
    (double.rotate Prec.double .quat r v - v).norm ≤ 1 / 10 ^ 12 * v.norm := by
  have e : quatErr Prec.double double.u (1 / 10 ^ 14) (angleSize .quat r) .quat = 1 / 10 ^ 14 := rfl
  have hu : double.u = 2⁻¹ ^ 53 := rfl
  have := C85_rotate double Prec.double h (by rw [e]; norm_num) v
  rw [e, if_neg (by decide)] at this
  have e1 : (1 : M3).mulVec v = v := by ext <;> simp
  rw [e1] at this
  refine this.trans (mul_le_mul_of_nonneg_right ?_ v.norm_nonneg)
  rw [hu]; norm_num

/-- The rotation by one radian about the z axis, converted from Euler angles to a rotation vector in `float`. -/
example (v : V3) : (act .rv (float.conv Prec.float .rv .zyx (⟨⟨1, 0, 0⟩⟩ : EulZyx)) v - act .zyx (⟨⟨1, 0, 0⟩⟩ : EulZyx) v).norm
    ≤ 4 / 10 ^ 4 * v.norm :=
  (C85_double_float float .rv .zyx (⟨⟨1, 0, 0⟩⟩ : EulZyx) trivial (by simp [angleSize, EulZyx.x, EulZyx.y, EulZyx.z]) v).2

end FloatLib
end Kindr
