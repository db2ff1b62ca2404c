import Mathlib.MeasureTheory.Measure.Lebesgue.VolumeOfBalls
import Verif.Props.Lipschitz
import Verif.Props.Fix
import Verif.Props.MatlabRot
import Verif.Spec.Random

/-!
# C94: the distribution of `setRandom()` / `getRandom()`

`random P k (draw3 x)` is the rotation of class `k` made from the draw `x`; `drawLaw` is the law of the draws.
-/

set_option autoImplicit false

noncomputable section
namespace Kindr
open Spec MeasureTheory

/-- The cube of the possible draws. -/
def cube : Set (Fin 3 → ℝ) := Set.univ.pi fun _ => Set.Ico (-Real.pi) Real.pi

lemma two_pi_ne : ENNReal.ofReal (2 * Real.pi) ≠ 0 := by
  have := Real.pi_pos
  simp [this]

instance : IsProbabilityMeasure uniformDraw := ⟨by
  rw [uniformDraw, Measure.smul_apply, Measure.restrict_apply_univ, Real.volume_Ico, sub_neg_eq_add, ← two_mul, smul_eq_mul,
    ENNReal.inv_mul_cancel two_pi_ne ENNReal.ofReal_ne_top]⟩

instance : IsProbabilityMeasure drawLaw := by unfold drawLaw; infer_instance

lemma drawLaw_eq : drawLaw = (ENNReal.ofReal (2 * Real.pi))⁻¹ ^ 3 • volume.restrict cube := by
  refine Measure.pi_eq fun s _ => ?_
  rw [cube, volume_pi, Measure.restrict_pi_pi, Measure.smul_apply, Measure.pi_pi]
  simp only [uniformDraw, Measure.smul_apply, smul_eq_mul, Finset.prod_mul_distrib, Finset.prod_const, Finset.card_univ,
    Fintype.card_fin]

lemma cube_meas : MeasurableSet cube := MeasurableSet.univ_pi fun _ => measurableSet_Ico

lemma drawLaw_apply (A : Set (Fin 3 → ℝ)) : drawLaw A = (ENNReal.ofReal (2 * Real.pi))⁻¹ ^ 3 * volume (A ∩ cube) := by
  rw [drawLaw_eq, Measure.smul_apply, Measure.restrict_apply' cube_meas, smul_eq_mul]

lemma mem_cube {x : Fin 3 → ℝ} : x ∈ cube ↔ ∀ i, -Real.pi ≤ x i ∧ x i < Real.pi := by
  simp [cube, Set.mem_pi]

lemma draw3_normSq (x : Fin 3 → ℝ) : (draw3 x).normSq = x 0 ^ 2 + x 1 ^ 2 + x 2 ^ 2 := by
  simp [draw3, V3.normSq, V3.dot]; ring

lemma draw_ball_volume (r : ℝ) :
    volume {x : Fin 3 → ℝ | (draw3 x).norm < r} = ENNReal.ofReal r ^ 3 * ENNReal.ofReal (Real.pi * 4 / 3) := by
  rw [← EuclideanSpace.volume_ball_fin_three 0 r,
    ← (PiLp.volume_preserving_toLp (Fin 3)).measure_preimage Metric.isOpen_ball.measurableSet.nullMeasurableSet]
  congr 1
  ext x
  simp only [Set.mem_ofPred_eq, Set.mem_preimage, Metric.mem_ball, dist_zero_right, EuclideanSpace.norm_eq]
  rw [V3.norm, draw3_normSq]
  simp [Fin.sum_univ_three]

lemma draw_ball_meas (r : ℝ) : MeasurableSet {x : Fin 3 → ℝ | (draw3 x).norm < r} := by
  have : Measurable fun x : Fin 3 → ℝ => (draw3 x).norm := by
    simp only [V3.norm, draw3_normSq]; fun_prop
  exact this measurableSet_Iio

lemma comp_le_norm (v : V3) : |v.x| ≤ v.norm ∧ |v.y| ≤ v.norm ∧ |v.z| ≤ v.norm := by
  have h : ∀ a : ℝ, a ^ 2 ≤ v.normSq → |a| ≤ v.norm := fun a ha => by
    rw [V3.norm]; exact Real.abs_le_sqrt ha
  have e : v.normSq = v.x ^ 2 + v.y ^ 2 + v.z ^ 2 := by simp [V3.normSq, V3.dot]; ring
  exact ⟨h _ (by rw [e]; nlinarith [sq_nonneg v.y, sq_nonneg v.z]), h _ (by rw [e]; nlinarith [sq_nonneg v.x, sq_nonneg v.z]),
    h _ (by rw [e]; nlinarith [sq_nonneg v.x, sq_nonneg v.y])⟩

lemma ball_subset_cube {r : ℝ} (h : r ≤ Real.pi) : {x : Fin 3 → ℝ | (draw3 x).norm < r} ⊆ cube := by
  intro x hx
  have hx' : (draw3 x).norm < r := hx
  obtain ⟨a, b, c⟩ := comp_le_norm (draw3 x)
  have a' := abs_le.mp a; have b' := abs_le.mp b; have c' := abs_le.mp c
  simp only [draw3] at a' b' c' hx'
  rw [mem_cube]
  intro i
  fin_cases i <;> simp <;> constructor <;> linarith

lemma draw_ball_prob {r : ℝ} (h0 : 0 ≤ r) (h : r ≤ Real.pi) :
    drawLaw {x | (draw3 x).norm < r} = ENNReal.ofReal (r ^ 3 / (6 * Real.pi ^ 2)) := by
  have hp := Real.pi_pos
  rw [drawLaw_apply, Set.inter_eq_left.mpr (ball_subset_cube h), draw_ball_volume, ← ENNReal.ofReal_inv_of_pos (by positivity),
    ← ENNReal.ofReal_pow (by positivity), ← ENNReal.ofReal_pow h0, ← ENNReal.ofReal_mul (by positivity),
    ← ENNReal.ofReal_mul (by positivity)]
  congr 1
  field_simp
  norm_num
  ring

lemma e4_small (P : Prec) : P.eps ^ (1 / 4 : ℝ) ≤ 1 / 32 := by
  have h : P.eps ≤ (1 / 32) ^ (4 : ℝ) := P.eps_le.trans (by
    rw [show (4 : ℝ) = ((4 : ℕ) : ℝ) by norm_num, Real.rpow_natCast]; norm_num)
  calc P.eps ^ (1 / 4 : ℝ) ≤ ((1 / 32 : ℝ) ^ (4 : ℝ)) ^ (1 / 4 : ℝ) := Real.rpow_le_rpow P.eps_pos.le h (by norm_num)
    _ = 1 / 32 := by rw [← Real.rpow_mul (by norm_num)]; norm_num

/-- Draws that are not tiny give the rotation of the drawn rotation vector. -/
lemma random_den (P : Prec) (k : Kind) {v : V3} (h : k = .rv ∨ 1 / 32 ≤ v.norm) :
    den k (random P k v) = den .rv (⟨v⟩ : RotVec) := by
  rcases h with rfl | h
  · rfl
  · have hx : ExactBranch P k .rv (⟨v⟩ : RotVec) := by
      have h1 := (e4_small P).trans h
      have h2 : P.dp ≤ v.norm := P.dp_le.trans (by linarith)
      cases k <;> simp only [ExactBranch] <;> tauto
    rw [den_eq, den_eq]
    exact (conv_spec P k .rv (⟨v⟩ : RotVec) trivial hx).2

lemma rotAngle_rv_cos (v : V3) : rotAngle (den .rv (⟨v⟩ : RotVec)) = Real.arccos (Real.cos v.norm) := by
  rw [den_eq]
  by_cases hz : v = 0
  · subst hz; rw [dmat_rv_zero, rotAngle_one]; simp
  · rw [dmat_rv_ne hz, rotAngle, trace_rodMat _ (unit_dir (V3.norm_pos hz).ne')]
    congr 1; ring

lemma cube_norm {x : Fin 3 → ℝ} (h : x ∈ cube) : (draw3 x).norm ≤ Real.sqrt 3 * Real.pi := by
  have hp := Real.pi_pos
  have h' : ∀ i, x i ^ 2 ≤ Real.pi ^ 2 := fun i => by
    obtain ⟨a, b⟩ := mem_cube.mp h i
    exact sq_le_sq' a b.le
  rw [V3.norm, draw3_normSq]
  calc Real.sqrt (x 0 ^ 2 + x 1 ^ 2 + x 2 ^ 2) ≤ Real.sqrt (3 * Real.pi ^ 2) :=
        Real.sqrt_le_sqrt (by linarith [h' 0, h' 1, h' 2])
    _ = Real.sqrt 3 * Real.pi := by rw [Real.sqrt_mul (by norm_num), Real.sqrt_sq hp.le]

/-- In the cube, up to the angle `(2 - √3) π` only short draws give small rotation angles. -/
lemma cube_angle {x : Fin 3 → ℝ} (h : x ∈ cube) {θ : ℝ} (hθ : θ ≤ (2 - Real.sqrt 3) * Real.pi) :
    rotAngle (den .rv (⟨draw3 x⟩ : RotVec)) < θ ↔ (draw3 x).norm < θ := by
  have hp := Real.pi_pos
  have h3 : (1 : ℝ) < Real.sqrt 3 := by rw [Real.lt_sqrt] <;> norm_num
  have hθ' : θ < Real.pi := lt_of_le_of_lt hθ (by nlinarith)
  rcases le_or_gt (draw3 x).norm Real.pi with hn | hn
  · rw [rotAngle_rv hn]
  · have h1 := cube_norm h
    have h4 : Real.sqrt 3 < 2 := by rw [Real.sqrt_lt'] <;> norm_num
    have h2 : rotAngle (den .rv (⟨draw3 x⟩ : RotVec)) = 2 * Real.pi - (draw3 x).norm := by
      rw [rotAngle_rv_cos, ← Real.cos_two_pi_sub, Real.arccos_cos (by nlinarith) (by linarith)]
    rw [h2]
    constructor <;> intro h5 <;> nlinarith

/-- **C94 (a).** The probability of a rotation angle below `θ` is `θ³ / (6π²)` up to `(2 - √3) π` (about 48 degrees); for the
classes that are converted from the rotation vector it is at most that, for `θ` above the small-angle thresholds. -/
theorem C94_small_angles (P : Prec) (θ : ℝ) (h0 : 0 ≤ θ) (h1 : θ ≤ (2 - Real.sqrt 3) * Real.pi) :
    drawLaw {x | rotAngle (den .rv (random P .rv (draw3 x))) < θ} = ENNReal.ofReal (θ ^ 3 / (6 * Real.pi ^ 2)) ∧
    ∀ k, 1 / 32 ≤ θ → drawLaw {x | rotAngle (den k (random P k (draw3 x))) < θ} ≤ ENNReal.ofReal (θ ^ 3 / (6 * Real.pi ^ 2)) := by
  have hp := Real.pi_pos
  have h3 : (1 : ℝ) < Real.sqrt 3 := by rw [Real.lt_sqrt] <;> norm_num
  have hθ' : θ ≤ Real.pi := h1.trans (by nlinarith)
  rw [← draw_ball_prob h0 hθ']
  constructor
  · rw [drawLaw_apply, drawLaw_apply]
    congr 2
    ext x
    simp only [Set.mem_inter_iff, Set.mem_ofPred_eq, and_congr_left_iff]
    intro hx
    rw [random_den P .rv (Or.inl rfl)]
    exact cube_angle hx h1
  · intro k hk
    rw [drawLaw_apply, drawLaw_apply]
    refine mul_le_mul_right (measure_mono ?_) _
    rintro x ⟨hx, hc⟩
    refine ⟨?_, hc⟩
    rcases lt_or_ge (draw3 x).norm (1 / 32) with hs | hs
    · exact lt_of_lt_of_le hs hk
    · have hx' : rotAngle (den k (random P k (draw3 x))) < θ := hx
      rw [random_den P k (Or.inr hs)] at hx'
      exact (cube_angle hc h1).mp hx'

/-! ## Near a half turn -/

/-- The angle between the rotation of a rotation vector and the half turn about `z`. -/
lemma half_turn_angle {v : V3} (hv : v ≠ 0) :
    rotAngle (den .rv (⟨v⟩ : RotVec) * (den .rv (⟨⟨0, 0, Real.pi⟩⟩ : RotVec)).transpose) =
      2 * Real.arccos |v.z / v.norm * Real.sin (v.norm / 2)| := by
  have hp := Real.pi_pos
  have nv := V3.norm_pos hv
  have e1 : den .rv (⟨v⟩ : RotVec) = sMat (Quat.ofAngleAxis v.norm ((1 / v.norm) • v)) := by
    rw [den_eq, dmat_rv_ne hv, sMat_ofAngleAxis _ (unit_dir nv.ne')]
  have hu : (⟨0, 0, 1⟩ : V3).normSq = 1 := by norm_num [V3.normSq, V3.dot]
  have e2 : den .rv (⟨⟨0, 0, Real.pi⟩⟩ : RotVec) = sMat (Quat.ofAngleAxis Real.pi ⟨0, 0, 1⟩) := by
    have : (⟨0, 0, Real.pi⟩ : V3) = Real.pi • ⟨0, 0, 1⟩ := by ext <;> simp
    rw [den_eq, this, dmat_rv_smul _ hu, sMat_ofAngleAxis _ hu]
  rw [e1, e2, rotAngle_quat (normSq_ofAngleAxis _ (unit_dir nv.ne')) (normSq_ofAngleAxis _ hu)]
  have hc : Real.cos (1 / 2 * Real.pi) = 0 := by rw [one_div_mul_eq_div]; exact Real.cos_pi_div_two
  have hs : Real.sin (1 / 2 * Real.pi) = 1 := by rw [one_div_mul_eq_div]; exact Real.sin_pi_div_two
  congr 3
  simp only [Quat.ofAngleAxis, hc, hs]
  simp
  rw [mul_comm, div_eq_mul_inv, mul_comm v.z, show (2 : ℝ)⁻¹ * v.norm = v.norm / 2 by ring]

/-- The elementary inequality behind `half_turn_near`. -/
lemma half_turn_calc {ζ r s θ : ℝ} (h0 : 0 < θ) (h1 : θ ≤ 1 / 4) (hs : 0 ≤ s) (hr0 : 0 < r) (hr : r ^ 2 = ζ ^ 2 + s) (hζ : ζ ≤ Real.pi)
    (hζ0 : 0 < ζ) (he : 25 / 16 * (Real.pi - ζ) ^ 2 + 25 / 36 * s < θ ^ 2) :
    Real.cos (θ / 2) < ζ / r * Real.sin (r / 2) := by
  have hpi := Real.pi_gt_d2
  have hsb : s ≤ 36 / 25 * θ ^ 2 := by linarith [sq_nonneg (Real.pi - ζ)]
  have hh : (Real.pi - ζ) ^ 2 ≤ 16 / 25 * θ ^ 2 - 4 / 9 * s := by linarith
  have hθ2 : θ ^ 2 ≤ 1 / 16 := by nlinarith
  have hd : Real.pi - ζ ≤ 1 / 5 := by
    have : (Real.pi - ζ) ^ 2 ≤ (1 / 5) ^ 2 := by linarith
    exact (abs_le_of_sq_le_sq this (by norm_num)).trans' (le_abs_self _)
  have hz : 29 / 10 ≤ ζ := by linarith
  -- the length of the draw
  have hrz : ζ ≤ r := by clear * - hr hs hζ0 hr0; nlinarith
  have hru : r - ζ ≤ s * (5 / 29) := by
    have : (r - ζ) * (r + ζ) = s := by linear_combination hr
    have h2 : 58 / 10 ≤ r + ζ := by linarith
    linarith [mul_le_mul_of_nonneg_left h2 (sub_nonneg.mpr hrz)]
  -- the two factors
  have f1 : 1 - s * (5 / 29) * (10 / 29) ≤ ζ / r := by
    rw [le_div_iff₀ hr0]
    have h3 : r * (10 / 29) ≥ 1 := by linarith
    have h4 : 0 ≤ s * (5 / 29) := by positivity
    linarith [mul_le_mul_of_nonneg_left h3 h4]
  have f2 : 1 - (r - Real.pi) ^ 2 / 8 ≤ Real.sin (r / 2) := by
    have := Real.one_sub_sq_div_two_le_cos (x := Real.pi / 2 - r / 2)
    rw [Real.cos_pi_div_two_sub] at this
    linarith [show (Real.pi / 2 - r / 2) ^ 2 = (r - Real.pi) ^ 2 / 4 by ring]
  have hrp : (r - Real.pi) ^ 2 ≤ (Real.pi - ζ) ^ 2 + (s * (5 / 29)) ^ 2 := by
    have a1 : 0 ≤ r - ζ := by linarith
    have a2 : (r - ζ) ^ 2 ≤ (s * (5 / 29)) ^ 2 := pow_le_pow_left₀ a1 hru 2
    have a3 := mul_nonneg a1 (show 0 ≤ Real.pi - ζ by linarith)
    linarith [show (r - Real.pi) ^ 2 = (Real.pi - ζ) ^ 2 + (r - ζ) ^ 2 - 2 * ((r - ζ) * (Real.pi - ζ)) by ring]
  have hc : Real.cos (θ / 2) ≤ 1 - θ ^ 2 / 8 + θ ^ 4 / 100 := by
    have h5 := (abs_le.mp (Real.cos_bound (x := θ / 2) (by rw [abs_of_pos (by linarith)]; linarith))).2
    rw [abs_of_pos (by linarith : (0 : ℝ) < θ / 2)] at h5
    have e : (θ / 2) ^ 4 = θ ^ 4 / 16 := by ring
    have e' : (θ / 2) ^ 2 = θ ^ 2 / 4 := by ring
    rw [e, e'] at h5
    have := pow_pos h0 4
    linarith
  have hs2 : (s * (5 / 29)) ^ 2 ≤ s * (1 / 300) := by
    have h6 : s ≤ 9 / 100 := by linarith
    have h7 := mul_le_mul_of_nonneg_left h6 hs
    linarith [show (s * (5 / 29)) ^ 2 = 25 / 841 * (s * s) by ring]
  have hq : (r - Real.pi) ^ 2 / 8 ≤ 2 / 25 * θ ^ 2 - 11 / 200 * s := by linarith
  have hprod : (1 - s * (5 / 29) * (10 / 29)) * (1 - (r - Real.pi) ^ 2 / 8) ≤ ζ / r * Real.sin (r / 2) :=
    mul_le_mul f1 f2 (by linarith) (by positivity)
  have h8 := mul_nonneg hs (sq_nonneg (r - Real.pi))
  have h4 : θ ^ 4 ≤ θ ^ 2 / 16 := by
    have := mul_le_mul_of_nonneg_left hθ2 (sq_nonneg θ)
    linarith [show θ ^ 2 * θ ^ 2 = θ ^ 4 by ring]
  have h9 : 0 < θ ^ 2 := by positivity
  have h10 : (1 - s * (5 / 29) * (10 / 29)) * (1 - (r - Real.pi) ^ 2 / 8) =
    1 - s * (50 / 841) - (r - Real.pi) ^ 2 / 8 + 50 / 6728 * (s * (r - Real.pi) ^ 2) := by ring
  linarith

/-- The ellipsoid of offsets. -/
def ell (θ : ℝ) : Set (Fin 3 → ℝ) := {x | 25 / 16 * x 2 ^ 2 + 25 / 36 * (x 0 ^ 2 + x 1 ^ 2) < θ ^ 2}

lemma ell_volume {θ : ℝ} (h0 : 0 < θ) :
    volume (ell θ) = ENNReal.ofReal (144 / 125) * (ENNReal.ofReal θ ^ 3 * ENNReal.ofReal (Real.pi * 4 / 3)) := by
  have hdet : (Matrix.diagonal (![5 / 6, 5 / 6, 5 / 4] : Fin 3 → ℝ)).det = 125 / 144 := by
    rw [Matrix.det_diagonal, Fin.prod_univ_three]
    change (5 / 6 : ℝ) * (5 / 6) * (5 / 4) = 125 / 144
    norm_num
  have h := Real.smul_map_diagonal_volume_pi (D := (![5 / 6, 5 / 6, 5 / 4] : Fin 3 → ℝ)) (by rw [hdet]; norm_num)
  have h2 := congrArg (fun m : Measure (Fin 3 → ℝ) => m {x | (draw3 x).norm < θ}) h
  simp only [Measure.smul_apply, smul_eq_mul, hdet] at h2
  rw [Measure.map_apply (LinearMap.continuous_of_finiteDimensional _).measurable (draw_ball_meas θ)] at h2
  have e : (Matrix.toLin' (Matrix.diagonal (![5 / 6, 5 / 6, 5 / 4] : Fin 3 → ℝ))) ⁻¹' {x | (draw3 x).norm < θ} = ell θ := by
    ext x
    simp only [Set.mem_preimage, Set.mem_ofPred_eq, ell, V3.norm, draw3_normSq]
    rw [Real.sqrt_lt' h0]
    simp only [Matrix.toLin'_apply, Matrix.mulVec_diagonal]
    simp
    constructor <;> intro h3 <;> linarith [h3]
  rw [e, draw_ball_volume] at h2
  rw [← h2, ← mul_assoc, ← ENNReal.ofReal_mul (by norm_num)]
  norm_num

lemma ell_meas (θ : ℝ) : MeasurableSet (ell θ) := by
  have : Measurable fun x : Fin 3 → ℝ => 25 / 16 * x 2 ^ 2 + 25 / 36 * (x 0 ^ 2 + x 1 ^ 2) := by fun_prop
  exact this measurableSet_Iio

/-- The draws near the two poles of the cube. -/
def poles (θ : ℝ) : Set (Fin 3 → ℝ) :=
  {x | x + ![0, 0, -Real.pi] ∈ ell θ ∩ {y | y 2 < 0}} ∪ {x | x + ![0, 0, Real.pi] ∈ ell θ \ {y | y 2 < 0}}

lemma lower_meas : MeasurableSet {y : Fin 3 → ℝ | y 2 < 0} := measurable_pi_apply 2 measurableSet_Iio

lemma ell_bound {θ : ℝ} (h1 : θ ≤ 1 / 4) (h0 : 0 < θ) {x : Fin 3 → ℝ} (h : x ∈ ell θ) : |x 0| ≤ 1 ∧ |x 1| ≤ 1 ∧ |x 2| ≤ 1 := by
  have h' : 25 / 16 * x 2 ^ 2 + 25 / 36 * (x 0 ^ 2 + x 1 ^ 2) < θ ^ 2 := h
  have hθ : θ ^ 2 ≤ 1 / 16 := by nlinarith
  have a := sq_nonneg (x 0); have b := sq_nonneg (x 1); have c := sq_nonneg (x 2)
  exact ⟨abs_le_of_sq_le_sq (by linarith) (by norm_num), abs_le_of_sq_le_sq (by linarith) (by norm_num),
    abs_le_of_sq_le_sq (by linarith) (by norm_num)⟩

lemma poles_volume {θ : ℝ} (h0 : 0 < θ) (h1 : θ ≤ 1 / 4) : volume (poles θ) = volume (ell θ) := by
  have hpi := Real.pi_gt_three
  rw [poles, measure_union]
  · have e1 := measure_preimage_add_right (volume : Measure (Fin 3 → ℝ)) ![0, 0, -Real.pi] (ell θ ∩ {y | y 2 < 0})
    have e2 := measure_preimage_add_right (volume : Measure (Fin 3 → ℝ)) ![0, 0, Real.pi] (ell θ \ {y | y 2 < 0})
    change volume ((fun h => h + ![0, 0, -Real.pi]) ⁻¹' _) + volume ((fun h => h + ![0, 0, Real.pi]) ⁻¹' _) = _
    rw [e1, e2]
    exact measure_inter_add_sdiff _ lower_meas
  · rw [Set.disjoint_left]
    rintro x ⟨a, -⟩ ⟨b, -⟩
    have a2 := (abs_le.mp (ell_bound h1 h0 a).2.2).1
    have b2 := (abs_le.mp (ell_bound h1 h0 b).2.2).2
    simp at a2 b2
    linarith
  · exact (measurable_add_const _) ((ell_meas θ).diff lower_meas)

lemma poles_cube {θ : ℝ} (h0 : 0 < θ) (h1 : θ ≤ 1 / 4) : poles θ ⊆ cube := by
  have hpi := Real.pi_gt_three
  rintro x (⟨a, c⟩ | ⟨a, c⟩)
  · have c' : x 2 + -Real.pi < 0 := c
    obtain ⟨a0, a1, a2⟩ := ell_bound h1 h0 a
    have a0' := abs_le.mp a0; have a1' := abs_le.mp a1; have a2' := abs_le.mp a2
    simp at a0' a1' a2'
    rw [mem_cube]
    intro i
    fin_cases i <;> simp <;> constructor <;> linarith [a0'.1, a0'.2, a1'.1, a1'.2, a2'.1, a2'.2]
  · have c' : ¬ x 2 + Real.pi < 0 := c
    obtain ⟨a0, a1, a2⟩ := ell_bound h1 h0 a
    have a0' := abs_le.mp a0; have a1' := abs_le.mp a1; have a2' := abs_le.mp a2
    simp at a0' a1' a2'
    rw [mem_cube]
    intro i
    fin_cases i <;> simp <;> constructor <;> linarith [a0'.1, a0'.2, a1'.1, a1'.2, a2'.1, a2'.2]

lemma poles_near {θ : ℝ} (h0 : 0 < θ) (h1 : θ ≤ 1 / 4) {x : Fin 3 → ℝ} (hx : x ∈ poles θ) :
    1 ≤ (draw3 x).norm ∧
    rotAngle (den .rv (⟨draw3 x⟩ : RotVec) * (den .rv (⟨⟨0, 0, Real.pi⟩⟩ : RotVec)).transpose) < θ := by
  have hpi := Real.pi_gt_three
  have key : 1 ≤ |x 2| ∧ |x 2| ≤ Real.pi ∧ 25 / 16 * (Real.pi - |x 2|) ^ 2 + 25 / 36 * (x 0 ^ 2 + x 1 ^ 2) < θ ^ 2 := by
    rcases hx with ⟨a, c⟩ | ⟨a, c⟩
    · have a2 := (abs_le.mp (ell_bound h1 h0 a).2.2)
      have a' : 25 / 16 * (x + ![0, 0, -Real.pi]) 2 ^ 2 + 25 / 36 * ((x + ![0, 0, -Real.pi]) 0 ^ 2 + (x + ![0, 0, -Real.pi]) 1 ^ 2) < θ ^ 2 := a
      have c' : x 2 + -Real.pi < 0 := c
      simp at a2 a'
      rw [abs_of_nonneg (by linarith)]
      refine ⟨by linarith, by linarith, ?_⟩
      linarith [show (Real.pi - x 2) ^ 2 = (x 2 + -Real.pi) ^ 2 by ring]
    · have a2 := (abs_le.mp (ell_bound h1 h0 a).2.2)
      have a' : 25 / 16 * (x + ![0, 0, Real.pi]) 2 ^ 2 + 25 / 36 * ((x + ![0, 0, Real.pi]) 0 ^ 2 + (x + ![0, 0, Real.pi]) 1 ^ 2) < θ ^ 2 := a
      have c' : ¬ x 2 + Real.pi < 0 := c
      simp at a2 a'
      rw [abs_of_nonpos (by linarith)]
      refine ⟨by linarith, by linarith, ?_⟩
      linarith [show (Real.pi - -x 2) ^ 2 = (x 2 + Real.pi) ^ 2 by ring]
  obtain ⟨k1, k2, k3⟩ := key
  have hn := (comp_le_norm (draw3 x)).2.2
  have hz : (draw3 x).z = x 2 := rfl
  rw [hz] at hn
  have hne : draw3 x ≠ 0 := fun h => by rw [h, V3.norm_zero] at hn; linarith
  refine ⟨k1.trans hn, ?_⟩
  rw [half_turn_angle hne, hz, abs_mul, abs_div, abs_of_nonneg (V3.norm_nonneg _)]
  have hc := half_turn_calc (ζ := |x 2|) (r := (draw3 x).norm) (s := x 0 ^ 2 + x 1 ^ 2) h0 h1 (by positivity) (by linarith)
    (by rw [V3.norm_sq, draw3_normSq, sq_abs]; ring) k2 (by linarith) k3
  have hc2 : Real.cos (θ / 2) < |x 2| / (draw3 x).norm * |Real.sin ((draw3 x).norm / 2)| :=
    lt_of_lt_of_le hc (mul_le_mul_of_nonneg_left (le_abs_self _) (div_nonneg (abs_nonneg _) (V3.norm_nonneg _)))
  have ht1 : |x 2| / (draw3 x).norm * |Real.sin ((draw3 x).norm / 2)| ≤ 1 := by
    refine mul_le_one₀ ((div_le_one (by linarith)).mpr hn) (abs_nonneg _) (Real.abs_sin_le_one _)
  by_contra hcon
  have h2 : θ / 2 ≤ Real.arccos (|x 2| / (draw3 x).norm * |Real.sin ((draw3 x).norm / 2)|) := by linarith [not_lt.mp hcon]
  have h3 := Real.cos_le_cos_of_nonneg_of_le_pi (by linarith) (Real.arccos_le_pi _) h2
  have hm : -1 ≤ |x 2| / (draw3 x).norm * |Real.sin ((draw3 x).norm / 2)| :=
    le_trans (by norm_num) (mul_nonneg (div_nonneg (abs_nonneg _) (V3.norm_nonneg _)) (abs_nonneg _))
  rw [Real.cos_arccos hm ht1] at h3
  linarith

/-- **C94 (b).** The probability of a rotation within `θ` of the half turn about `z` is at least `1.152` times as large. -/
theorem C94_half_turns (P : Prec) (k : Kind) (θ : ℝ) (h0 : 0 < θ) (h1 : θ ≤ 1 / 4) :
    ENNReal.ofReal (144 / 125 * (θ ^ 3 / (6 * Real.pi ^ 2))) ≤
      drawLaw {x | rotAngle (den k (random P k (draw3 x)) * (den .rv (⟨⟨0, 0, Real.pi⟩⟩ : RotVec)).transpose) < θ} := by
  have hp := Real.pi_pos
  have hsub : poles θ ⊆ {x | rotAngle (den k (random P k (draw3 x)) * (den .rv (⟨⟨0, 0, Real.pi⟩⟩ : RotVec)).transpose) < θ} ∩ cube := by
    intro x hx
    obtain ⟨a, b⟩ := poles_near h0 h1 hx
    refine ⟨?_, poles_cube h0 h1 hx⟩
    change rotAngle _ < θ
    rwa [random_den P k (Or.inr (by linarith))]
  rw [drawLaw_apply]
  refine le_trans (le_of_eq ?_) (mul_le_mul_right (measure_mono hsub) _)
  rw [poles_volume h0 h1, ell_volume h0, ← ENNReal.ofReal_inv_of_pos (by positivity),
    ← ENNReal.ofReal_pow (by positivity), ← ENNReal.ofReal_pow h0.le, ← ENNReal.ofReal_mul (by positivity),
    ← ENNReal.ofReal_mul (by positivity), ← ENNReal.ofReal_mul (by positivity)]
  congr 1
  field_simp
  norm_num

/-- **C94 (c).** The random rotations are not uniformly distributed: in every class, a rotation within `θ` of the identity is less
likely than one within `θ` of the half turn about `z`; so the law is not invariant under multiplication with a fixed rotation. -/
theorem C94_not_uniform (P : Prec) (k : Kind) :
    (∀ θ : ℝ, 1 / 32 ≤ θ → θ ≤ 1 / 4 → drawLaw {x | rotAngle (den k (random P k (draw3 x))) < θ} <
      drawLaw {x | rotAngle (den k (random P k (draw3 x)) * (den .rv (⟨⟨0, 0, Real.pi⟩⟩ : RotVec)).transpose) < θ}) ∧
    ¬ ∀ S : M3, IsSO3 S → ∀ A : Set M3,
      drawLaw {x | den k (random P k (draw3 x)) * S ∈ A} = drawLaw {x | den k (random P k (draw3 x)) ∈ A} := by
  have main : ∀ θ : ℝ, 1 / 32 ≤ θ → θ ≤ 1 / 4 → drawLaw {x | rotAngle (den k (random P k (draw3 x))) < θ} <
      drawLaw {x | rotAngle (den k (random P k (draw3 x)) * (den .rv (⟨⟨0, 0, Real.pi⟩⟩ : RotVec)).transpose) < θ} := by
    intro θ h0 h1
    have hpi := Real.pi_gt_three
    have h3 : Real.sqrt 3 < 19 / 10 := by rw [Real.sqrt_lt'] <;> norm_num
    refine lt_of_le_of_lt ((C94_small_angles P θ (by linarith) (by nlinarith)).2 k h0) (lt_of_lt_of_le ?_
      (C94_half_turns P k θ (by linarith) h1))
    have : 0 < θ ^ 3 / (6 * Real.pi ^ 2) := by positivity
    rw [ENNReal.ofReal_lt_ofReal_iff (by positivity)]
    linarith
  refine ⟨main, fun h => ?_⟩
  have h1 := main (1 / 4) (by norm_num) le_rfl
  have h2 := h (den .rv (⟨⟨0, 0, Real.pi⟩⟩ : RotVec)).transpose (SO3.transpose (den_isSO3 (k := .rv) (r := (⟨⟨0, 0, Real.pi⟩⟩ : RotVec)) trivial))
    {m | rotAngle m < 1 / 4}
  simp only [Set.mem_ofPred_eq] at h2
  rw [h2] at h1
  exact lt_irrefl _ h1

/-- **C94 (d).** Every rotation can come up: each neighbourhood of it has positive probability (for the classes other than the
rotation vector: of every rotation by at least `1/25`). -/
theorem C94_every_rotation (P : Prec) (k : Kind) (R : M3) (hR : IsSO3 R) (hk : k = .rv ∨ 1 / 25 ≤ rotAngle R) (ε : ℝ) (hε : 0 < ε) :
    0 < drawLaw {x | rotAngle (den k (random P k (draw3 x)) * R.transpose) < ε} := by
  have hpi := Real.pi_gt_three
  obtain ⟨v, hv, rfl⟩ := Matlab.exists_rv hR
  have hvp : v.norm ≤ Real.pi := by rw [hv]; exact rotAngle_le_pi _
  obtain ⟨η, hη⟩ : ∃ η, η = min (ε / 8) (1 / 1000) := ⟨_, rfl⟩
  have h1 : 0 < η := by rw [hη]; exact lt_min (by linarith) (by norm_num)
  have h2 : η ≤ ε / 8 := hη ▸ min_le_left _ _
  have h3 : η ≤ 1 / 1000 := hη ▸ min_le_right _ _
  have hp4 := Real.pi_lt_four
  obtain ⟨c, hc⟩ : ∃ c : Fin 3 → ℝ, c = ![(1 - η) * v.x, (1 - η) * v.y, (1 - η) * v.z] := ⟨_, rfl⟩
  have hball : ∀ x ∈ Metric.ball c (η / 2), (draw3 x - v).norm < ε ∧ x ∈ cube ∧ (k = .rv ∨ 1 / 32 ≤ (draw3 x).norm) := by
    intro x hx
    have hi : ∀ i, |x i - c i| < η / 2 := fun i => by
      have := (dist_pi_lt_iff (by linarith)).mp (Metric.mem_ball.mp hx) i
      rwa [Real.dist_eq] at this
    have e1 : (draw3 x - (1 - η) • v).norm ≤ η := by
      rw [V3.norm]
      refine Real.sqrt_le_iff.mpr ⟨h1.le, ?_⟩
      have a0 := sq_lt_sq' (abs_lt.mp (hi 0)).1 (abs_lt.mp (hi 0)).2
      have a1 := sq_lt_sq' (abs_lt.mp (hi 1)).1 (abs_lt.mp (hi 1)).2
      have a2 := sq_lt_sq' (abs_lt.mp (hi 2)).1 (abs_lt.mp (hi 2)).2
      simp only [hc] at a0 a1 a2
      simp at a0 a1 a2
      simp only [draw3, V3.normSq, V3.dot]
      simp
      nlinarith [sq_nonneg η]
    have e2 : ((1 - η) • v - v).norm ≤ 4 * η := by
      have : (1 - η) • v - v = (-η) • v := by rw [sub_smul, one_smul, neg_smul]; abel
      rw [this, V3.norm_smul, abs_neg, abs_of_pos h1]
      nlinarith
    have e3 : draw3 x - v = (draw3 x - (1 - η) • v) + ((1 - η) • v - v) := by abel
    refine ⟨?_, ?_, ?_⟩
    · rw [e3]
      have := V3.norm_add_le (draw3 x - (1 - η) • v) ((1 - η) • v - v)
      linarith
    · obtain ⟨b0, b1, b2⟩ := comp_le_norm v
      have b0' := abs_le.mp (b0.trans hvp); have b1' := abs_le.mp (b1.trans hvp); have b2' := abs_le.mp (b2.trans hvp)
      have a0 := abs_lt.mp (hi 0); have a1 := abs_lt.mp (hi 1); have a2 := abs_lt.mp (hi 2)
      simp only [hc] at a0 a1 a2
      simp at a0 a1 a2
      rw [mem_cube]
      intro i
      have hη1 : 0 ≤ 1 - η := by linarith
      fin_cases i <;> simp <;> constructor <;> nlinarith
    · refine hk.imp id fun hr => ?_
      rw [← hv] at hr
      have h5 := V3.norm_add_le (draw3 x) (v - draw3 x)
      have e4 : draw3 x + (v - draw3 x) = v := by abel
      have h6 : (v - draw3 x).norm = (draw3 x - v).norm := by rw [← V3.norm_neg]; congr 1; abel
      have h7 := V3.norm_add_le (draw3 x - (1 - η) • v) ((1 - η) • v - v)
      rw [← e3] at h7
      rw [e4, h6] at h5
      linarith
  have hpos : 0 < volume (Metric.ball c (η / 2)) := Metric.isOpen_ball.measure_pos volume ⟨c, Metric.mem_ball_self (by linarith)⟩
  rw [drawLaw_apply]
  refine ENNReal.mul_pos (pow_ne_zero 3 (ENNReal.inv_ne_zero.mpr ENNReal.ofReal_ne_top)) (ne_of_gt (lt_of_lt_of_le hpos (measure_mono ?_)))
  intro x hx
  obtain ⟨a, b, c⟩ := hball x hx
  refine ⟨?_, b⟩
  change rotAngle _ < ε
  rw [random_den P k c]
  exact lt_of_le_of_lt (C93_rotation_vector _ _) a

lemma neg_preserving : MeasurePreserving (fun (x : Fin 3 → ℝ) i => -x i) drawLaw drawLaw := by
  refine measurePreserving_pi _ _ fun _ => ⟨measurable_neg, ?_⟩
  rw [uniformDraw, Measure.map_smul]
  congr 1
  ext s hs
  rw [Measure.map_apply measurable_neg hs, Measure.restrict_apply (measurable_neg hs), Measure.restrict_apply hs]
  have h1 := Measure.measure_preimage_neg (volume : Measure ℝ) (s ∩ Set.Ioc (-Real.pi) Real.pi)
  have h2 : volume (s ∩ Set.Ico (-Real.pi) Real.pi) = volume (s ∩ Set.Ioc (-Real.pi) Real.pi) :=
    measure_congr (Filter.EventuallyEq.rfl.inter Ico_ae_eq_Ioc)
  rw [h2, ← h1]
  congr 1
  ext x
  simp

/-- **C94 (e).** A rotation and its inverse are equally likely (draws below the small-angle thresholds left aside for the classes
that are converted from the rotation vector). -/
theorem C94_inverse (P : Prec) (k : Kind) (A : Set M3) :
    drawLaw {x | (k = .rv ∨ 1 / 32 ≤ (draw3 x).norm) ∧ den k (random P k (draw3 x)) ∈ A} =
      drawLaw {x | (k = .rv ∨ 1 / 32 ≤ (draw3 x).norm) ∧ (den k (random P k (draw3 x))).transpose ∈ A} := by
  have h := neg_preserving.measure_preimage_equiv (f := MeasurableEquiv.neg (Fin 3 → ℝ))
    {x | (k = .rv ∨ 1 / 32 ≤ (draw3 x).norm) ∧ den k (random P k (draw3 x)) ∈ A}
  rw [← h]
  congr 1
  ext x
  have e : draw3 (MeasurableEquiv.neg (Fin 3 → ℝ) x) = -draw3 x := by
    ext <;> simp [draw3, MeasurableEquiv.neg]
  simp only [Set.mem_preimage, Set.mem_ofPred_eq, e, V3.norm_neg]
  refine and_congr_right fun hk => ?_
  rw [random_den P k (v := -draw3 x) (by rwa [V3.norm_neg]), random_den P k hk]
  have : den .rv (⟨-draw3 x⟩ : RotVec) = (den .rv (⟨draw3 x⟩ : RotVec)).transpose := (inverted_spec (k := .rv) (r := (⟨draw3 x⟩ : RotVec)) trivial).2
  rw [this]

/-- The hypotheses of C94 can be met, and the law is a probability. -/
theorem C94_example : drawLaw Set.univ = 1 ∧ (1 / 32 : ℝ) ≤ 1 / 4 ∧ (1 / 4 : ℝ) ≤ (2 - Real.sqrt 3) * Real.pi ∧
    IsSO3 (den .rv (⟨⟨0, 0, 1⟩⟩ : RotVec)) ∧ 1 / 25 ≤ rotAngle (den .rv (⟨⟨0, 0, 1⟩⟩ : RotVec)) := by
  have hpi := Real.pi_gt_three
  have h3 : Real.sqrt 3 < 19 / 10 := by rw [Real.sqrt_lt'] <;> norm_num
  have hn : (⟨0, 0, 1⟩ : V3).norm = 1 := V3.norm_eq_one_iff.mpr (by norm_num [V3.normSq, V3.dot])
  refine ⟨measure_univ, by norm_num, by nlinarith, den_isSO3 (k := .rv) (r := (⟨⟨0, 0, 1⟩⟩ : RotVec)) trivial, ?_⟩
  rw [rotAngle_rv (by rw [hn]; linarith), hn]; norm_num

end Kindr
