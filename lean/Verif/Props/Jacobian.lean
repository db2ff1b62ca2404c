import Mathlib.Analysis.SpecialFunctions.Sqrt
import Verif.Props.EulerRates
import Verif.Props.ExpLog
import Verif.Lemmas.Norm

/-!
# C35: the Jacobian of the exponential map
-/

set_option autoImplicit false

noncomputable section
namespace Kindr
open Spec Filter

/-- The exact Jacobian applied to `w`, with the coefficients `b = (1 - cos n)/n²`, `d = (n - sin n)/n³`. -/
def jacApply (b d : ℝ) (v w : V3) : V3 := w + b • v.cross w + d • v.cross (v.cross w)

lemma jac_mulVec_large {v : V3} (h : 1 / 10000 ≤ v.norm) (w : V3) :
    (getJacobianOfExponentialMap v).mulVec w =
      jacApply ((1 - Real.cos v.norm) / (v.norm * v.norm)) ((v.norm - Real.sin v.norm) / (v.norm * v.norm * v.norm)) v w := by
  have h' : ¬ v.norm < 1 / 10000 := not_lt.mpr h
  simp only [getJacobianOfExponentialMap, h', if_false, jacApply]
  rw [M3.add_mulVec, M3.add_mulVec, M3.smul_mulVec, M3.smul_mulVec, M3.one_mulVec, ← M3.mulVec_mulVec, skew_mulVec,
    skew_mulVec]

lemma jac_mulVec_small {v : V3} (h : v.norm < 1 / 10000) (w : V3) :
    (getJacobianOfExponentialMap v).mulVec w = jacApply (1 / 2) 0 v w := by
  simp only [getJacobianOfExponentialMap, h, if_true, jacApply]
  rw [M3.add_mulVec, M3.smul_mulVec, M3.one_mulVec, skew_mulVec]
  ext <;> simp

/-- The relations between the coefficients `a = sin n / n`, `b`, `d`. -/
lemma jac_coeff {n : ℝ} (hn : n ≠ 0) :
    (n - Real.sin n) / (n * n * n) * n ^ 2 = 1 - Real.sin n / n ∧
    (Real.sin n / n) ^ 2 = 2 * ((1 - Real.cos n) / (n * n)) - ((1 - Real.cos n) / (n * n)) ^ 2 * n ^ 2 := by
  have h1 := Real.sin_sq_add_cos_sq n
  constructor
  · field_simp
  · field_simp
    linear_combination h1

/-- Derivatives of `|v|`, `cos|v|`, `sin|v|/|v|`, `(1 - cos|v|)/|v|²` along a curve. -/
lemma jac_deriv {v : ℝ → V3} {w : V3} {t : ℝ} (hd : HasDerivV v w t) (hn : (v t).norm ≠ 0) :
    let n := (v t).norm
    let p := (v t).dot w
    let a := Real.sin n / n
    let b := (1 - Real.cos n) / (n * n)
    let d := (n - Real.sin n) / (n * n * n)
    HasDerivAt (fun s => Real.cos (v s).norm) (-a * p) t ∧
    HasDerivAt (fun s => Real.sin (v s).norm / (v s).norm) ((d - b) * p) t ∧
    HasDerivAt (fun s => (1 - Real.cos (v s).norm) / ((v s).norm * (v s).norm)) ((d * a - b ^ 2) * p) t := by
  intro n p a b d
  obtain ⟨hx, hy, hz⟩ := hd
  have hN : HasDerivAt (fun s => (v s).normSq) (2 * p) t := by
    refine (((hx.mul hx).add (hy.mul hy)).add (hz.mul hz)).congr_deriv ?_
    simp only [p, V3.dot]; ring
  have hN0 : (v t).normSq ≠ 0 := by rw [← V3.norm_sq]; positivity
  have hnd : HasDerivAt (fun s => (v s).norm) (p / n) t := by
    refine (hN.sqrt hN0).congr_deriv ?_
    change 2 * p / (2 * n) = p / n
    rw [mul_div_mul_left _ _ (by norm_num)]
  have hn' : n ≠ 0 := hn
  have h1 := Real.sin_sq_add_cos_sq n
  refine ⟨hnd.cos.congr_deriv ?_, (hnd.sin.div hnd hn').congr_deriv ?_,
    ((hnd.cos.const_sub 1).div (hnd.mul hnd) (mul_ne_zero hn' hn')).congr_deriv ?_⟩
  · change -Real.sin n * (p / n) = _
    simp only [a]; ring
  · change (Real.cos n * (p / n) * n - Real.sin n * (p / n)) / n ^ 2 = _
    simp only [d, b]; field_simp; ring
  · change (-(-Real.sin n * (p / n)) * (n * n) - (1 - Real.cos n) * (p / n * n + n * (p / n))) / (n * n) ^ 2 = _
    simp only [d, a, b]; field_simp
    linear_combination p * h1

/-- The action of a nonzero rotation vector in terms of the coefficients. -/
lemma act_rv_coeff {v : V3} (h : v.norm ≠ 0) (u : V3) : act .rv (⟨v⟩ : RotVec) u =
    Real.cos v.norm • u + (Real.sin v.norm / v.norm) • v.cross u +
      ((1 - Real.cos v.norm) / (v.norm * v.norm) * v.dot u) • v := by
  simp only [act, h, if_false, rodrigues]
  ext <;> simp [V3.cross, V3.dot] <;> field_simp

lemma jac_identity (a b d N p : ℝ) (v u w : V3) (hN : N = v.normSq) (hp : p = v.dot w) (h1 : d * N = 1 - a)
    (h3 : a ^ 2 = 2 * b - b ^ 2 * N) :
    (-(a * p)) • u + ((d - b) * p) • v.cross u + a • w.cross u + ((d * a - b ^ 2) * p * v.dot u) • v +
      (b * w.dot u) • v + (b * v.dot u) • w =
    (jacApply b d v w).cross ((1 - b * N) • u + a • v.cross u + (b * v.dot u) • v) := by
  subst hN hp
  obtain ⟨x, y, z⟩ := v
  obtain ⟨ux, uy, uz⟩ := u
  obtain ⟨wx, wy, wz⟩ := w
  have e : jacApply b d ⟨x, y, z⟩ ⟨wx, wy, wz⟩ = a • (⟨wx, wy, wz⟩ : V3) + b • V3.cross ⟨x, y, z⟩ ⟨wx, wy, wz⟩ +
      (d * V3.dot ⟨x, y, z⟩ ⟨wx, wy, wz⟩) • (⟨x, y, z⟩ : V3) := by
    simp only [V3.normSq, V3.dot] at h1
    ext <;> simp [jacApply, V3.cross, V3.dot]
    · linear_combination (-wx) * h1
    · linear_combination (-wy) * h1
    · linear_combination (-wz) * h1
  rw [e]
  simp only [V3.normSq, V3.dot] at h1 h3
  ext <;> simp [V3.cross, V3.dot, V3.normSq]
  · linear_combination (b * (x * wx + y * wy + z * wz) * (y * uz - z * uy) + a * (x * wx + y * wy + z * wz) * ux) * h1 -
      ((wx * ux + wy * uy + wz * uz) * x) * h3
  · linear_combination (b * (x * wx + y * wy + z * wz) * (z * ux - x * uz) + a * (x * wx + y * wy + z * wz) * uy) * h1 -
      ((wx * ux + wy * uy + wz * uz) * y) * h3
  · linear_combination (b * (x * wx + y * wy + z * wz) * (x * uy - y * ux) + a * (x * wx + y * wy + z * wz) * uz) * h1 -
      ((wx * ux + wy * uy + wz * uz) * z) * h3

/-- The exact angular velocity of `exp(v(t))` for `v(t) ≠ 0`. -/
lemma exp_velocity {v : ℝ → V3} {w : V3} {t : ℝ} (hd : HasDerivV v w t) (hn : (v t).norm ≠ 0) :
    IsGlobalVelocity .rv (fun s => (⟨v s⟩ : RotVec)) t
      (jacApply ((1 - Real.cos (v t).norm) / ((v t).norm * (v t).norm))
        (((v t).norm - Real.sin (v t).norm) / ((v t).norm * (v t).norm * (v t).norm)) (v t) w) := by
  intro u
  obtain ⟨hc, ha, hb⟩ := jac_deriv hd hn
  obtain ⟨h1, h3⟩ := jac_coeff hn
  have hcont : ContinuousAt (fun s => (v s).norm) t := by
    have hN : ContinuousAt (fun s => (v s).normSq) t := by
      simp only [V3.normSq, V3.dot]
      exact ((hd.1.continuousAt.mul hd.1.continuousAt).add (hd.2.1.continuousAt.mul hd.2.1.continuousAt)).add
        (hd.2.2.continuousAt.mul hd.2.2.continuousAt)
    exact hN.sqrt
  have hev : ∀ᶠ s in nhds t, (v s).norm ≠ 0 := hcont.eventually_ne hn
  have hcos : Real.cos (v t).norm = 1 - (1 - Real.cos (v t).norm) / ((v t).norm * (v t).norm) * (v t).norm ^ 2 := by
    field_simp; ring
  have key := jac_identity _ _ _ _ _ (v t) u w (V3.norm_sq (v t)) rfl h1 h3
  rw [← hcos, ← act_rv_coeff hn u] at key
  rw [← key]
  obtain ⟨hx, hy, hz⟩ := hd
  have hdot : HasDerivAt (fun s => (v s).dot u) (w.dot u) t :=
    ((hx.mul_const u.x).add (hy.mul_const u.y)).add (hz.mul_const u.z)
  have hbd := hb.mul hdot
  refine ⟨?_, ?_, ?_⟩
  · have h := ((hc.mul_const u.x).add (ha.mul ((hy.mul_const u.z).sub (hz.mul_const u.y)))).add (hbd.mul hx)
    refine (h.congr_of_eventuallyEq (hev.mono fun s hs => ?_)).congr_deriv ?_
    · exact congrArg V3.x (act_rv_coeff hs u)
    · simp [V3.cross]; ring
  · have h := ((hc.mul_const u.y).add (ha.mul ((hz.mul_const u.x).sub (hx.mul_const u.z)))).add (hbd.mul hy)
    refine (h.congr_of_eventuallyEq (hev.mono fun s hs => ?_)).congr_deriv ?_
    · exact congrArg V3.y (act_rv_coeff hs u)
    · simp [V3.cross]; ring
  · have h := ((hc.mul_const u.z).add (ha.mul ((hx.mul_const u.y).sub (hy.mul_const u.x)))).add (hbd.mul hz)
    refine (h.congr_of_eventuallyEq (hev.mono fun s hs => ?_)).congr_deriv ?_
    · exact congrArg V3.z (act_rv_coeff hs u)
    · simp [V3.cross]; ring

/-- The same velocity in the body frame: the Jacobian of `-v`. -/
lemma exp_velocity_local {v : ℝ → V3} {w : V3} {t : ℝ} (hd : HasDerivV v w t) (hn : (v t).norm ≠ 0) :
    IsLocalVelocity .rv (fun s => (⟨v s⟩ : RotVec)) t
      (jacApply ((1 - Real.cos (v t).norm) / ((v t).norm * (v t).norm))
        (((v t).norm - Real.sin (v t).norm) / ((v t).norm * (v t).norm * (v t).norm)) (-(v t)) w) := by
  rw [local_iff_global (k := .rv) (r := fun s => (⟨v s⟩ : RotVec)) (t := t) trivial, ← act_eq]
  obtain ⟨h1, h3⟩ := jac_coeff hn
  have key : act .rv (⟨v t⟩ : RotVec) (jacApply ((1 - Real.cos (v t).norm) / ((v t).norm * (v t).norm))
        (((v t).norm - Real.sin (v t).norm) / ((v t).norm * (v t).norm * (v t).norm)) (-(v t)) w) =
      jacApply ((1 - Real.cos (v t).norm) / ((v t).norm * (v t).norm))
        (((v t).norm - Real.sin (v t).norm) / ((v t).norm * (v t).norm * (v t).norm)) (v t) w := by
    rw [act_rv_coeff hn]
    have hcos : Real.cos (v t).norm = 1 - (1 - Real.cos (v t).norm) / ((v t).norm * (v t).norm) * (v t).norm ^ 2 := by
      field_simp; ring
    have hN := V3.norm_sq (v t)
    generalize (1 - Real.cos (v t).norm) / ((v t).norm * (v t).norm) = b at *
    generalize ((v t).norm - Real.sin (v t).norm) / ((v t).norm * (v t).norm * (v t).norm) = d at *
    generalize Real.sin (v t).norm / (v t).norm = a at *
    rw [hcos]
    rw [hN] at h1 h3 ⊢
    generalize v t = v' at *
    obtain ⟨x, y, z⟩ := v'
    obtain ⟨wx, wy, wz⟩ := w
    simp only [V3.normSq, V3.dot] at h1 h3
    ext <;> simp [jacApply, V3.cross, V3.dot, V3.normSq]
    · linear_combination (y * wz - z * wy) * h3 + (b * (x * x + y * y + z * z) * wx - b * (x * wx + y * wy + z * wz) * x -
        a * (y * wz - z * wy)) * h1
    · linear_combination (z * wx - x * wz) * h3 + (b * (x * x + y * y + z * z) * wy - b * (x * wx + y * wy + z * wz) * y -
        a * (z * wx - x * wz)) * h1
    · linear_combination (x * wy - y * wx) * h3 + (b * (x * x + y * y + z * z) * wz - b * (x * wx + y * wy + z * wz) * z -
        a * (x * wy - y * wx)) * h1
  have := exp_velocity hd hn
  rw [← key] at this
  exact this

lemma abs_x_le (v : V3) : |v.x| ≤ v.norm := Real.abs_le_sqrt (by simp only [V3.normSq, V3.dot]; nlinarith [sq_nonneg v.y, sq_nonneg v.z])
lemma abs_y_le (v : V3) : |v.y| ≤ v.norm := Real.abs_le_sqrt (by simp only [V3.normSq, V3.dot]; nlinarith [sq_nonneg v.x, sq_nonneg v.z])
lemma abs_z_le (v : V3) : |v.z| ≤ v.norm := Real.abs_le_sqrt (by simp only [V3.normSq, V3.dot]; nlinarith [sq_nonneg v.x, sq_nonneg v.y])

/-- Second-order error of the linearized exponential map. -/
lemma exp_linearization {v : V3} (hn : v.norm ≤ 1) (u : V3) :
    (act .rv (⟨v⟩ : RotVec) u - (u + v.cross u)).norm ≤ 2 * v.normSq * u.norm := by
  rcases eq_or_ne v.norm 0 with h0 | h0
  · have hv : v = 0 := V3.norm_eq_zero.mp h0
    subst hv
    have : act .rv (⟨0⟩ : RotVec) u - (u + V3.cross 0 u) = 0 := by
      simp only [act, h0, if_true]
      ext <;> simp [V3.cross]
    rw [this]
    simp [V3.normSq, V3.dot]
  have hpos : 0 < v.norm := lt_of_le_of_ne v.norm_nonneg (Ne.symm h0)
  rw [act_rv_coeff h0]
  have e : Real.cos v.norm • u + (Real.sin v.norm / v.norm) • v.cross u +
      ((1 - Real.cos v.norm) / (v.norm * v.norm) * v.dot u) • v - (u + v.cross u) =
      (Real.cos v.norm - 1) • u + (Real.sin v.norm / v.norm - 1) • v.cross u +
      ((1 - Real.cos v.norm) / (v.norm * v.norm) * v.dot u) • v := by
    ext <;> simp <;> ring
  rw [e]
  have hc1 := Real.cos_le_one v.norm
  have hc2 := Real.one_sub_sq_div_two_le_cos (x := v.norm)
  have hs1 := Real.sin_le hpos.le
  have hs2 := Real.sin_gt_sub_cube hpos
  have t1 : ((Real.cos v.norm - 1) • u).norm ≤ v.norm ^ 2 / 2 * u.norm := by
    rw [V3.norm_smul]
    exact mul_le_mul_of_nonneg_right (abs_le.mpr ⟨by linarith, by linarith [sq_nonneg v.norm]⟩) u.norm_nonneg
  have t2 : ((Real.sin v.norm / v.norm - 1) • v.cross u).norm ≤ v.norm ^ 2 / 4 * u.norm := by
    rw [V3.norm_smul]
    have h1 : |Real.sin v.norm / v.norm - 1| ≤ v.norm ^ 2 / 4 := by
      rw [div_sub_one h0, abs_div, abs_of_pos hpos, div_le_iff₀ hpos]
      exact abs_le.mpr ⟨by nlinarith, by nlinarith [pow_pos hpos 3]⟩
    refine (mul_le_mul h1 (V3.norm_cross_le v u) (V3.norm_nonneg _) (by positivity)).trans ?_
    have := mul_le_mul_of_nonneg_right hn u.norm_nonneg
    nlinarith [sq_nonneg v.norm]
  have t3 : (((1 - Real.cos v.norm) / (v.norm * v.norm) * v.dot u) • v).norm ≤ v.norm ^ 2 / 2 * u.norm := by
    rw [V3.norm_smul, abs_mul]
    have h1 : |(1 - Real.cos v.norm) / (v.norm * v.norm)| ≤ 1 / 2 := by
      rw [abs_of_nonneg (div_nonneg (by linarith) (by positivity)), div_le_iff₀ (by positivity)]
      nlinarith
    have h2 := V3.dot_abs_le v u
    have h3 := mul_le_mul h1 h2 (abs_nonneg _) (by norm_num)
    have h4 := mul_le_mul_of_nonneg_right h3 v.norm_nonneg
    nlinarith
  have := (V3.norm_add_le _ _).trans (add_le_add ((V3.norm_add_le _ _).trans (add_le_add t1 t2)) t3)
  rw [V3.norm_sq] at this
  have hh := mul_nonneg v.normSq_nonneg u.norm_nonneg
  linarith

/-- A function bounded by a nonnegative function that vanishes to second order has derivative zero. -/
lemma hasDerivAt_zero_of_bound {g h : ℝ → ℝ} {t : ℝ} (hh : HasDerivAt h 0 t) (ht : h t = 0) (hg : g t = 0)
    (hb : ∀ᶠ s in nhds t, |g s| ≤ h s) : HasDerivAt g 0 t := by
  rw [hasDerivAt_iff_isLittleO] at hh ⊢
  simp only [ht, hg, sub_zero, smul_zero] at hh ⊢
  exact (Asymptotics.IsBigO.of_bound 1 (hb.mono fun s hs => by
    rw [one_mul, Real.norm_eq_abs, Real.norm_eq_abs]
    exact hs.trans (le_abs_self _))).trans_isLittleO hh

/-- The exact angular velocity of `exp(v(t))` where `v(t) = 0`. -/
lemma exp_velocity_zero {v : ℝ → V3} {w : V3} {t : ℝ} (hd : HasDerivV v w t) (hn : v t = 0) :
    IsGlobalVelocity .rv (fun s => (⟨v s⟩ : RotVec)) t w := by
  intro u
  obtain ⟨hx, hy, hz⟩ := hd
  have hN : HasDerivAt (fun s => 2 * (v s).normSq * u.norm) 0 t := by
    have h := (((hx.mul hx).add (hy.mul hy)).add (hz.mul hz))
    refine ((h.const_mul 2).mul_const u.norm).congr_deriv ?_
    simp [hn]
  have hNc : ContinuousAt (fun s => (v s).normSq) t :=
    ((hx.continuousAt.mul hx.continuousAt).add (hy.continuousAt.mul hy.continuousAt)).add
      (hz.continuousAt.mul hz.continuousAt)
  have hev : ∀ᶠ s in nhds t, (v s).norm ≤ 1 := by
    have hc : ContinuousAt (fun s => (v s).norm) t := hNc.sqrt
    have h0 : (v t).norm < 1 := by rw [hn]; simp
    exact (hc.eventually_lt_const h0).mono fun s hs => le_of_lt hs
  have ht : 2 * (v t).normSq * u.norm = 0 := by simp [hn, V3.normSq, V3.dot]
  have ha : act .rv (⟨v t⟩ : RotVec) u = u := by simp [hn, act]
  have hb : ∀ᶠ s in nhds t, (act .rv (⟨v s⟩ : RotVec) u - (u + (v s).cross u)).norm ≤ 2 * (v s).normSq * u.norm :=
    hev.mono fun s hs => exp_linearization hs u
  have ht' : act .rv (⟨v t⟩ : RotVec) u - (u + (v t).cross u) = 0 := by
    rw [ha, hn]; ext <;> simp [V3.cross]
  have gx := hasDerivAt_zero_of_bound (g := fun s => (act .rv (⟨v s⟩ : RotVec) u - (u + (v s).cross u)).x) hN ht
    (congrArg V3.x ht') (hb.mono fun s hs => (abs_x_le _).trans hs)
  have gy := hasDerivAt_zero_of_bound (g := fun s => (act .rv (⟨v s⟩ : RotVec) u - (u + (v s).cross u)).y) hN ht
    (congrArg V3.y ht') (hb.mono fun s hs => (abs_y_le _).trans hs)
  have gz := hasDerivAt_zero_of_bound (g := fun s => (act .rv (⟨v s⟩ : RotVec) u - (u + (v s).cross u)).z) hN ht
    (congrArg V3.z ht') (hb.mono fun s hs => (abs_z_le _).trans hs)
  have e : act .rv ((fun s => (⟨v s⟩ : RotVec)) t) u = u := ha
  rw [e]
  refine ⟨?_, ?_, ?_⟩
  · have h := gx.add (((hy.mul_const u.z).sub (hz.mul_const u.y)).const_add u.x)
    refine (h.congr_of_eventuallyEq (Eventually.of_forall fun s => ?_)).congr_deriv ?_
    · simp [V3.cross]
    · simp [V3.cross]
  · have h := gy.add (((hz.mul_const u.x).sub (hx.mul_const u.z)).const_add u.y)
    refine (h.congr_of_eventuallyEq (Eventually.of_forall fun s => ?_)).congr_deriv ?_
    · simp [V3.cross]
    · simp [V3.cross]
  · have h := gz.add (((hx.mul_const u.y).sub (hy.mul_const u.x)).const_add u.z)
    refine (h.congr_of_eventuallyEq (Eventually.of_forall fun s => ?_)).congr_deriv ?_
    · simp [V3.cross]
    · simp [V3.cross]

/-! ## C35 -/

/-- **C35 (a).** For every differentiable curve `v` with `|v(t)| ≥ 1e-4` or `v(t) = 0`, the Jacobian maps `v'(t)` to the
fixed-frame angular velocity of `exp(v)`, i.e. `d/dt exp(v) u = (J(v) v') × exp(v) u`, and the Jacobian at `-v` maps it to the
body-frame angular velocity. -/
theorem C35_jacobian (v : ℝ → V3) (w : V3) (t : ℝ) (hd : HasDerivV v w t) (hn : 1 / 10000 ≤ (v t).norm ∨ v t = 0) :
    IsGlobalVelocity .rv (fun s => (⟨v s⟩ : RotVec)) t ((getJacobianOfExponentialMap (v t)).mulVec w) ∧
    IsLocalVelocity .rv (fun s => (⟨v s⟩ : RotVec)) t ((getJacobianOfExponentialMap (-(v t))).mulVec w) := by
  rcases hn with hn | hn
  · have h0 : (v t).norm ≠ 0 := by positivity
    rw [jac_mulVec_large hn, jac_mulVec_large (by rwa [V3.norm_neg]), V3.norm_neg]
    exact ⟨exp_velocity hd h0, exp_velocity_local hd h0⟩
  · have e : ∀ x : V3, x = 0 → (getJacobianOfExponentialMap x).mulVec w = w := by
      rintro x rfl
      rw [jac_mulVec_small (by simp)]
      ext <;> simp [jacApply, V3.cross]
    rw [e _ hn, e (-(v t)) (by rw [hn]; ext <;> simp)]
    have h := exp_velocity_zero hd hn
    refine ⟨h, ?_⟩
    rw [local_iff_global (k := .rv) (r := fun s => (⟨v s⟩ : RotVec)) (t := t) trivial, ← act_eq]
    have : act .rv (⟨v t⟩ : RotVec) w = w := by simp [hn, act]
    rw [this]
    exact h

/-- **C35 (b).** The same through the API: the angular velocity of `Rotation::exponentialMap(v(t))`, for every rotation class,
as long as `v` stays outside the small-angle region of the exponential map. -/
theorem C35_jacobian_exponentialMap (P : Prec) (k : Kind) (v : ℝ → V3) (w : V3) (t : ℝ) (hd : HasDerivV v w t)
    (hn : 1 / 10000 ≤ (v t).norm) (hc : ∀ᶠ s in nhds t, Clear P (den .rv (⟨v s⟩ : RotVec))) :
    IsGlobalVelocity k (fun s => exponentialMap P k (v s)) t ((getJacobianOfExponentialMap (v t)).mulVec w) ∧
    IsLocalVelocity k (fun s => exponentialMap P k (v s)) t ((getJacobianOfExponentialMap (-(v t))).mulVec w) := by
  obtain ⟨h1, h2⟩ := C35_jacobian v w t hd (Or.inl hn)
  have hs : ∀ s u, Clear P (den .rv (⟨v s⟩ : RotVec)) → act k (exponentialMap P k (v s)) u = act .rv (⟨v s⟩ : RotVec) u :=
    fun s u h => by rw [act_eq, act_eq, (exp_spec (P := P) (k := k) h).2]
  have tr : ∀ {f g : ℝ → V3} {d : V3}, HasDerivV f d t → (∀ᶠ s in nhds t, g s = f s) → HasDerivV g d t := by
    rintro f g d ⟨a, b, c⟩ h
    exact ⟨a.congr_of_eventuallyEq (h.mono fun s hs => by simp only [hs]),
      b.congr_of_eventuallyEq (h.mono fun s hs => by simp only [hs]),
      c.congr_of_eventuallyEq (h.mono fun s hs => by simp only [hs])⟩
  refine ⟨fun u => ?_, fun u => ?_⟩
  · have := tr (g := fun s => act k (exponentialMap P k (v s)) u) (h1 u) (hc.mono fun s h => hs s u h)
    rw [← hs t u hc.self_of_nhds] at this
    exact this
  · have := tr (g := fun s => act k (exponentialMap P k (v s)) u) (h2 u) (hc.mono fun s h => hs s u h)
    rw [← hs t _ hc.self_of_nhds] at this
    exact this

/-- **C35 (c).** `J(v) v = v` for every `v`. -/
theorem C35_radial (v : V3) : (getJacobianOfExponentialMap v).mulVec v = v := by
  rcases lt_or_ge v.norm (1 / 10000) with h | h
  · rw [jac_mulVec_small h]
    ext <;> simp [jacApply, V3.cross] <;> ring
  · rw [jac_mulVec_large h]
    ext <;> simp [jacApply, V3.cross] <;> ring

/-- Dropping the third term and replacing the second coefficient by `1/2` costs at most `|x|²/5 · |w|`. -/
lemma jac_small_bound {x : V3} (h0 : x.norm ≠ 0) (hn : x.norm ≤ 1 / 100) (w : V3) :
    (jacApply (1 / 2) 0 x w - jacApply ((1 - Real.cos x.norm) / (x.norm * x.norm))
      ((x.norm - Real.sin x.norm) / (x.norm * x.norm * x.norm)) x w).norm ≤ x.norm ^ 2 / 5 * w.norm := by
  have hpos : 0 < x.norm := lt_of_le_of_ne x.norm_nonneg (Ne.symm h0)
  have e : jacApply (1 / 2) 0 x w - jacApply ((1 - Real.cos x.norm) / (x.norm * x.norm))
      ((x.norm - Real.sin x.norm) / (x.norm * x.norm * x.norm)) x w =
      (1 / 2 - (1 - Real.cos x.norm) / (x.norm * x.norm)) • x.cross w +
      (-((x.norm - Real.sin x.norm) / (x.norm * x.norm * x.norm))) • x.cross (x.cross w) := by
    ext <;> simp [jacApply] <;> ring
  rw [e]
  have habs : |x.norm| = x.norm := abs_of_pos hpos
  have hc := abs_le.mp (Real.cos_bound (x := x.norm) (by rw [habs]; linarith))
  have hs := abs_le.mp (Real.sin_bound (x := x.norm) (by rw [habs]; linarith))
  rw [habs] at hc hs
  have hcr := V3.norm_cross_le x w
  have hcr2 := (V3.norm_cross_le x (x.cross w)).trans (mul_le_mul_of_nonneg_left hcr x.norm_nonneg)
  generalize hN : x.norm = n at *
  have b1 : |1 / 2 - (1 - Real.cos n) / (n * n)| ≤ 5 / 96 * n ^ 2 := by
    have : 1 / 2 - (1 - Real.cos n) / (n * n) = (Real.cos n - (1 - n ^ 2 / 2)) / n ^ 2 := by field_simp; ring
    rw [this, abs_div, abs_of_pos (pow_pos hpos 2), div_le_iff₀ (pow_pos hpos 2)]
    exact abs_le.mpr ⟨by linarith [hc.1], by linarith [hc.2]⟩
  have b2 : |-((n - Real.sin n) / (n * n * n))| ≤ 1 / 6 + n ^ 2 / 100 := by
    have : -((n - Real.sin n) / (n * n * n)) = (Real.sin n - (n - n ^ 3 / 6)) / n ^ 3 - 1 / 6 := by field_simp; ring
    rw [this]
    refine (abs_sub _ _).trans ?_
    have h3 := pow_pos hpos 3
    have : |(Real.sin n - (n - n ^ 3 / 6)) / n ^ 3| ≤ n ^ 2 / 100 := by
      rw [abs_div, abs_of_pos h3, div_le_iff₀ h3]
      exact abs_le.mpr ⟨by linarith [hs.1], by linarith [hs.2]⟩
    rw [abs_of_pos (by norm_num : (0 : ℝ) < 1 / 6)]
    linarith
  refine (V3.norm_add_le _ _).trans ?_
  rw [V3.norm_smul, V3.norm_smul]
  have h1 := mul_le_mul b1 hcr (V3.norm_nonneg _) (by positivity)
  have h2 := mul_le_mul b2 hcr2 (V3.norm_nonneg _) (by positivity)
  have hw := w.norm_nonneg
  have hn2 : n ^ 2 ≤ 1 / 10000 := by nlinarith
  have hk : 5 / 96 * n ^ 2 * n + (1 / 6 + n ^ 2 / 100) * n ^ 2 ≤ n ^ 2 / 5 := by nlinarith [sq_nonneg n]
  have := mul_le_mul_of_nonneg_right hk hw
  linarith

/-- **C35 (d).** Below the switch-over `|v| < 1e-4` the returned matrix is off by at most `|v|²/5 · |v'|` from the exact angular
velocity (relative error below `2e-9`). -/
theorem C35_small_error (v : ℝ → V3) (w : V3) (t : ℝ) (hd : HasDerivV v w t) (hn : (v t).norm < 1 / 10000) :
    ∃ W, IsGlobalVelocity .rv (fun s => (⟨v s⟩ : RotVec)) t W ∧
      ((getJacobianOfExponentialMap (v t)).mulVec w - W).norm ≤ (v t).norm ^ 2 / 5 * w.norm := by
  rcases eq_or_ne (v t).norm 0 with h0 | h0
  · have hv : v t = 0 := V3.norm_eq_zero.mp h0
    refine ⟨_, (C35_jacobian v w t hd (Or.inr hv)).1, ?_⟩
    rw [sub_self]
    have : (0 : V3).norm = 0 := by simp
    rw [this]
    exact mul_nonneg (by positivity) w.norm_nonneg
  refine ⟨_, exp_velocity hd h0, ?_⟩
  rw [jac_mulVec_small hn]
  exact jac_small_bound h0 (by linarith) w

/-- non-vacuity of C35: the curve `v(s) = (s, 1, 0)` at `s = 0` satisfies the hypotheses of (a) and (b). -/
example (P : Prec) : HasDerivV (fun s => (⟨s, 1, 0⟩ : V3)) ⟨1, 0, 0⟩ 0 ∧ 1 / 10000 ≤ (⟨0, 1, 0⟩ : V3).norm ∧
    ∀ᶠ s in nhds (0 : ℝ), Clear P (den .rv (⟨⟨s, 1, 0⟩⟩ : RotVec)) := by
  have h1 : (⟨0, 1, 0⟩ : V3).norm = 1 := V3.norm_eq_one_iff.mpr (by norm_num [V3.normSq, V3.dot])
  refine ⟨⟨hasDerivAt_id _, hasDerivAt_const _ _, hasDerivAt_const _ _⟩, by rw [h1]; norm_num, ?_⟩
  have hc : ContinuousAt (fun s : ℝ => (⟨s, 1, 0⟩ : V3).norm) 0 := by
    simp only [V3.norm, V3.normSq, V3.dot]
    fun_prop
  have h2 := hc.eventually_lt_const (u := 3) (by change (⟨0, 1, 0⟩ : V3).norm < 3; rw [h1]; norm_num)
  have h3 := hc.eventually_const_lt (u := 1 / 2) (by change 1 / 2 < (⟨0, 1, 0⟩ : V3).norm; rw [h1]; norm_num)
  filter_upwards [h2, h3] with s a b
  exact clear_of_norm' (by linarith) (by linarith [Real.pi_gt_three])

end Kindr
