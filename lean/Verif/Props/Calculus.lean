import Mathlib.Analysis.SpecialFunctions.Trigonometric.InverseDeriv
import Verif.Props.Integrate
import Verif.Props.Kinematics

/-!
# C92: the documented differential calculus

doc/cheatsheet/cheatsheet_kindr1.tex, section "Derivatives" (lines 383-425), lists the derivatives of the rotation operations
with respect to rotations (in the sense of boxPlus/boxMinus) and identities for the Jacobian `Γ` of the exponential map.  Here
they are proved for the library functions `getJacobianOfExponentialMap`, `exponentialMap`, `logarithmicMap`, `boxPlus`,
`boxMinus`, `inverted`, `operator*`, `rotate` and `interpolate`, for every rotation class; two entries of the table are refuted.
`G` and `G'` are arbitrary matrices inverse to `Γ(v)` and `Γ(-v)`; angular velocities are those of `Spec/Deriv.lean`.
-/

set_option autoImplicit false

noncomputable section
namespace Kindr
open Spec Filter

/-- Polynomials in the skew matrix of `v` (by Cayley-Hamilton every one has this form). -/
def polyK (b d : ℝ) (v : V3) : M3 := 1 + b • skew v + d • (skew v * skew v)

lemma polyK_mul (b d b' d' : ℝ) (v : V3) : polyK b d v * polyK b' d' v =
    polyK (b + b' - v.normSq * (b * d' + d * b')) (d + d' + b * b' - v.normSq * (d * d')) v := by
  ext <;> simp [polyK, skew, V3.normSq, V3.dot] <;> ring

lemma polyK_transpose (b d : ℝ) (v : V3) : (polyK b d v).transpose = polyK (-b) d v := by
  ext <;> simp [polyK, skew, mul_comm]

lemma polyK_neg (b d : ℝ) (v : V3) : polyK b d (-v) = polyK (-b) d v := by
  ext <;> simp [polyK, skew]

lemma polyK_zero (v : V3) : polyK 0 0 v = 1 := by ext <;> simp [polyK, skew]

lemma polyK_mulVec (b d : ℝ) (v w : V3) : (polyK b d v).mulVec w = jacApply b d v w := by
  rw [polyK, jacApply, M3.add_mulVec, M3.add_mulVec, M3.smul_mulVec, M3.smul_mulVec, M3.one_mulVec, ← M3.mulVec_mulVec,
    skew_mulVec, skew_mulVec]

lemma polyK_det (b d : ℝ) (v : V3) : (polyK b d v).det = (1 - d * v.normSq) ^ 2 + b ^ 2 * v.normSq := by
  simp [polyK, skew, V3.normSq, V3.dot, M3.det]; ring

lemma jac_polyK {v : V3} (h : 1 / 10000 ≤ v.norm) : getJacobianOfExponentialMap v =
    polyK ((1 - Real.cos v.norm) / (v.norm * v.norm)) ((v.norm - Real.sin v.norm) / (v.norm * v.norm * v.norm)) v := by
  have h' : ¬ v.norm < 1 / 10000 := not_lt.mpr h
  simp only [getJacobianOfExponentialMap, h', if_false, polyK]

/-- The rotation matrix of a nonzero rotation vector (Rodrigues' formula). -/
lemma den_polyK {v : V3} (h : v.norm ≠ 0) : den .rv (⟨v⟩ : RotVec) =
    polyK (Real.sin v.norm / v.norm) ((1 - Real.cos v.norm) / (v.norm * v.norm)) v := by
  apply M3.ext_mulVec
  intro u
  have e : (den .rv (⟨v⟩ : RotVec)).mulVec u = act .rv (⟨v⟩ : RotVec) u := by rw [act_eq]
  have hN := V3.norm_sq v
  rw [e, polyK_mulVec, act_rv_coeff h, jacApply]
  generalize hb : (1 - Real.cos v.norm) / (v.norm * v.norm) = b
  have hc : Real.cos v.norm = 1 - b * v.normSq := by rw [← hb, ← hN]; field_simp; ring
  rw [hc]
  ext <;> simp [V3.cross, V3.dot, V3.normSq] <;> ring

/-- The third coefficient of the inverse. -/
def invCoeff (n : ℝ) : ℝ := (1 - n / 2 * (Real.sin n / (1 - Real.cos n))) / (n * n)

/-- The closed form of `Γ⁻¹`. -/
lemma inv_polyK {v : V3} (h : 1 / 10000 ≤ v.norm) (hc : Real.cos v.norm ≠ 1) :
    polyK (-1 / 2) (invCoeff v.norm) v * getJacobianOfExponentialMap v = 1 := by
  have h0 : v.norm ≠ 0 := by positivity
  have hc' : 1 - Real.cos v.norm ≠ 0 := sub_ne_zero.mpr (Ne.symm hc)
  have h1 := Real.sin_sq_add_cos_sq v.norm
  rw [jac_polyK h, polyK_mul, ← polyK_zero v, ← V3.norm_sq, invCoeff]
  generalize v.norm = n at *
  congr 1
  · field_simp; ring
  · field_simp
    linear_combination (-n) * h1

lemma left_inv_right {a b : M3} (h : a * b = 1) : b * a = 1 := by
  have hd : a.det * b.det = 1 := by rw [← M3.det_mul, h, M3.det_one]
  have hb : b.det ≠ 0 := right_ne_zero_of_mul (by rw [hd]; norm_num)
  have e : (b.det)⁻¹ • b.adj * b = 1 := by
    have := M3.adj_mul b
    have h2 : (b.det)⁻¹ • b.adj * b = (b.det)⁻¹ • (b.adj * b) := by ext <;> simp <;> ring
    rw [h2, this]
    ext <;> simp [hb]
  have h3 : b * ((b.det)⁻¹ • b.adj) = 1 := by
    have h2 : b * ((b.det)⁻¹ • b.adj) = (b.det)⁻¹ • (b * b.adj) := by ext <;> simp <;> ring
    rw [h2, M3.mul_adj]
    ext <;> simp [hb]
  have h4 : a = (b.det)⁻¹ • b.adj := by
    calc a = a * (b * ((b.det)⁻¹ • b.adj)) := by rw [h3, mul_one]
      _ = _ := by rw [← mul_assoc, h, one_mul]
  rw [h4]; exact h3

lemma inv_unique {a b c : M3} (h : a * b = 1) (h' : c * b = 1) : a = c := by
  have := left_inv_right h
  calc a = (c * b) * a := by rw [h', one_mul]
    _ = c := by rw [mul_assoc, this, mul_one]

lemma cos_eq_one_nat {x : ℝ} (h0 : 0 < x) : Real.cos x = 1 ↔ ∃ k : ℕ, x = 2 * Real.pi * k := by
  rw [Real.cos_eq_one_iff]
  constructor
  · rintro ⟨k, hk⟩
    have : (0 : ℝ) < k := by
      by_contra hn
      have := mul_nonpos_of_nonpos_of_nonneg (not_lt.mp hn) (mul_pos two_pos Real.pi_pos).le
      linarith
    have hk' : (0 : ℤ) ≤ k := by exact_mod_cast this.le
    refine ⟨k.toNat, ?_⟩
    have : ((k.toNat : ℤ) : ℝ) = k := by rw [Int.toNat_of_nonneg hk']
    rw [Int.cast_natCast] at this
    rw [this, ← hk]; ring
  · rintro ⟨k, hk⟩
    exact ⟨k, by rw [hk]; push_cast; ring⟩

/-- **C92 (a).** The Jacobian `Γ(v)` returned by `getJacobianOfExponentialMap` is invertible exactly if `|v|` is no multiple of
`2π`. -/
theorem C92_invertible (v : V3) (h : 1 / 10000 ≤ v.norm) :
    (∃ G : M3, G * getJacobianOfExponentialMap v = 1) ↔ ¬ ∃ k : ℕ, v.norm = 2 * Real.pi * k := by
  have h0 : 0 < v.norm := by linarith
  rw [← cos_eq_one_nat h0]
  constructor
  · rintro ⟨G, hG⟩ hc
    have hd := congrArg M3.det hG
    rw [M3.det_mul, jac_polyK h, polyK_det, ← V3.norm_sq, hc, M3.det_one] at hd
    have hs : Real.sin v.norm = 0 := by have := Real.sin_sq_add_cos_sq v.norm; rw [hc] at this; nlinarith
    rw [hs] at hd
    field_simp at hd
    linarith [pow_pos h0 2]
  · intro hc
    exact ⟨_, inv_polyK h hc⟩

/-- **C92 (b).** The algebraic identities of the cheat sheet for `Γ` and its inverse: `Γ(v)v = v`, `Γ⁻¹(v)v = v`,
`Γ(-v) = Γ(v)ᵀ`, `Γ⁻¹(-v) = Γ⁻¹(v) + v̂` (see `C92_doc_inverse_identity_refuted`), `Γ⁻¹(v) C(v) = Γ⁻¹(v) + v̂`, and
`C(v) = 1 + v̂ Γ(v)`. -/
theorem C92_identities (v : V3) (h : 1 / 10000 ≤ v.norm) (G G' : M3) (hG : G * getJacobianOfExponentialMap v = 1)
    (hG' : G' * getJacobianOfExponentialMap (-v) = 1) :
    (getJacobianOfExponentialMap v).mulVec v = v ∧ G.mulVec v = v ∧ getJacobianOfExponentialMap v * G = 1 ∧
    getJacobianOfExponentialMap (-v) = (getJacobianOfExponentialMap v).transpose ∧ G' = G.transpose ∧
    G' = G + skew v ∧ G * den .rv (⟨v⟩ : RotVec) = G + skew v ∧
    den .rv (⟨v⟩ : RotVec) = 1 + skew v * getJacobianOfExponentialMap v := by
  have h0 : v.norm ≠ 0 := by positivity
  have hc : Real.cos v.norm ≠ 1 := fun hc => by
    exact (C92_invertible v h).mp ⟨G, hG⟩ ((cos_eq_one_nat (by linarith)).mp hc)
  have hn : (-v).norm = v.norm := V3.norm_neg v
  have eG := inv_unique hG (inv_polyK h hc)
  have eG' := inv_unique hG' (inv_polyK (by rwa [hn]) (by rwa [hn]))
  rw [hn, polyK_neg] at eG'
  have hc' : 1 - Real.cos v.norm ≠ 0 := sub_ne_zero.mpr (Ne.symm hc)
  have h1 := Real.sin_sq_add_cos_sq v.norm
  refine ⟨C35_radial v, ?_, left_inv_right hG, ?_, ?_, ?_, ?_, ?_⟩
  · rw [eG, polyK_mulVec]; ext <;> simp [jacApply, V3.cross] <;> ring
  · rw [jac_polyK h, jac_polyK (by rwa [hn]), hn, polyK_neg, polyK_transpose]
  · rw [eG, eG', polyK_transpose]
  · rw [eG, eG']; ext <;> simp [polyK, skew] <;> ring
  · have e : polyK (-1 / 2) (invCoeff v.norm) v + skew v = polyK (1 / 2) (invCoeff v.norm) v := by
      ext <;> simp [polyK, skew] <;> ring
    rw [eG, e, den_polyK h0, polyK_mul, ← V3.norm_sq, invCoeff]
    generalize v.norm = n at *
    congr 1
    · field_simp
      linear_combination n * h1
    · field_simp
      ring
  · rw [jac_polyK h, den_polyK h0]
    have e : ∀ b d : ℝ, 1 + skew v * polyK b d v = polyK (1 - v.normSq * d) b v := fun b d => by
      ext <;> simp [polyK, skew, V3.normSq, V3.dot] <;> ring
    rw [e, ← V3.norm_sq]
    congr 1
    field_simp
    ring

/-- **C92 (c).** `Γ⁻¹(v) ≈ 1 - v̂/2`, with error at most `|v|²/8`, for every `|v| ≤ π`. -/
theorem C92_inverse_approximation (v : V3) (h : 1 / 10000 ≤ v.norm) (hpi : v.norm ≤ Real.pi) (G : M3)
    (hG : G * getJacobianOfExponentialMap v = 1) (w : V3) :
    (G.mulVec w - (w - (1 / 2 : ℝ) • v.cross w)).norm ≤ v.norm ^ 2 / 8 * w.norm := by
  have h0 : 0 < v.norm := by linarith
  have hs : Real.cos (v.norm / 2) ^ 2 + Real.sin (v.norm / 2) ^ 2 = 1 := Real.cos_sq_add_sin_sq _
  have hsp : 0 < Real.sin (v.norm / 2) := Real.sin_pos_of_pos_of_lt_pi (by linarith) (by linarith)
  have hcp : 0 ≤ Real.cos (v.norm / 2) := Real.cos_nonneg_of_neg_pi_div_two_le_of_le (by linarith) (by linarith)
  have e1 : Real.sin v.norm = 2 * Real.sin (v.norm / 2) * Real.cos (v.norm / 2) := by
    rw [← Real.sin_two_mul]; congr 1; ring
  have e2 : Real.cos v.norm = 1 - 2 * Real.sin (v.norm / 2) ^ 2 := by
    have := Real.cos_two_mul (v.norm / 2)
    rw [show 2 * (v.norm / 2) = v.norm by ring] at this
    linarith
  have hc : Real.cos v.norm ≠ 1 := by
    rw [e2]; have := pow_pos hsp 2; intro; linarith
  have eG := inv_unique hG (inv_polyK h hc)
  have e3 : invCoeff v.norm * v.norm ^ 2 = 1 - v.norm / 2 * Real.cos (v.norm / 2) / Real.sin (v.norm / 2) := by
    rw [invCoeff, e1, e2]; field_simp; ring
  have b1 : invCoeff v.norm * v.norm ^ 2 ≤ v.norm ^ 2 / 8 := by
    rw [e3]
    have h1 : Real.cos (v.norm / 2) ≤ v.norm / 2 * Real.cos (v.norm / 2) / Real.sin (v.norm / 2) := by
      rw [le_div_iff₀ hsp]
      have := mul_le_mul_of_nonneg_left (Real.sin_le (x := v.norm / 2) (by linarith)) hcp
      linarith
    have h2 := Real.one_sub_sq_div_two_le_cos (x := v.norm / 2)
    nlinarith
  have b0 : 0 ≤ invCoeff v.norm * v.norm ^ 2 := by
    rw [e3, sub_nonneg, div_le_one hsp]
    rcases hpi.lt_or_eq with hlt | heq
    · have hc' : 0 < Real.cos (v.norm / 2) := Real.cos_pos_of_mem_Ioo ⟨by linarith, by linarith⟩
      have := Real.lt_tan (x := v.norm / 2) (by linarith) (by linarith)
      rw [Real.tan_eq_sin_div_cos, lt_div_iff₀ hc'] at this
      exact this.le
    · rw [heq, Real.cos_pi_div_two]; simp
  rw [eG, polyK_mulVec]
  have e : jacApply (-1 / 2) (invCoeff v.norm) v w - (w - (1 / 2 : ℝ) • v.cross w) =
      invCoeff v.norm • v.cross (v.cross w) := by
    ext <;> simp [jacApply] <;> ring
  rw [e, V3.norm_smul]
  have n1 := V3.norm_cross_le v (v.cross w)
  have n2 := mul_le_mul_of_nonneg_left (V3.norm_cross_le v w) h0.le
  have hi : 0 ≤ invCoeff v.norm := by
    by_contra hneg
    have := mul_neg_of_neg_of_pos (not_le.mp hneg) (pow_pos h0 2)
    linarith
  rw [abs_of_nonneg hi]
  have n3 := mul_le_mul_of_nonneg_left (n1.trans n2) hi
  have n4 := mul_le_mul_of_nonneg_right b1 w.norm_nonneg
  nlinarith

/-! ## the rate of the logarithm -/

/-- The axial vector of a matrix. -/
def axial (m : M3) : V3 := ⟨m.m21 - m.m12, m.m02 - m.m20, m.m10 - m.m01⟩

/-- The coefficient `θ / (2 sin θ)` as a function of `c = cos θ`. -/
def logCoeff (c : ℝ) : ℝ := Real.arccos c / (2 * Real.sqrt (1 - c ^ 2))

lemma logCoeff_deriv {c : ℝ} (h0 : -1 < c) (h1 : c < 1) : ∃ d, HasDerivAt logCoeff d c := by
  have hq : 0 < 1 - c ^ 2 := by nlinarith
  have h2 : HasDerivAt (fun x : ℝ => 1 - x ^ 2) (-(2 * c)) c := by
    simpa using (hasDerivAt_pow 2 c).const_sub 1
  exact ⟨_, (Real.hasDerivAt_arccos h0.ne' h1.ne).div ((h2.sqrt hq.ne').const_mul 2)
    (mul_pos two_pos (Real.sqrt_pos.mpr hq)).ne'⟩

/-- The logarithm in closed form. -/
lemma log_closed {P : Prec} {k : Kind} {r : Rep k} (hv : Valid k r) (hc : Clear P (den k r))
    (h0 : -1 < ((den k r).trace - 1) / 2) (h1 : ((den k r).trace - 1) / 2 < 1) :
    logarithmicMap P k r = logCoeff (((den k r).trace - 1) / 2) • axial (den k r) := by
  obtain ⟨d, n⟩ := log_spec hv hc
  generalize logarithmicMap P k r = v at *
  have hp : 0 < v.norm := by rw [n]; exact Real.arccos_pos.mpr h1
  have hs : Real.sqrt (1 - (((den k r).trace - 1) / 2) ^ 2) = Real.sin v.norm := by
    rw [n, rotAngle, Real.sin_arccos]
  have hpi : v.norm < Real.pi := by
    rw [n]; refine lt_of_le_of_ne (Real.arccos_le_pi _) fun he => ?_
    rw [rotAngle, Real.arccos_eq_pi] at he; linarith
  have hsp : 0 < Real.sin v.norm := Real.sin_pos_of_pos_of_lt_pi hp hpi
  rw [logCoeff, hs]
  have e : Real.arccos (((den k r).trace - 1) / 2) = v.norm := n.symm
  rw [e, ← d, den_polyK hp.ne']
  generalize (1 - Real.cos v.norm) / (v.norm * v.norm) = b
  generalize v.norm = N at *
  ext <;> simp [axial, polyK, skew] <;> field_simp <;> ring

lemma HasDerivV.congr_ev {f g : ℝ → V3} {d : V3} {t : ℝ} (h : HasDerivV f d t) (e : ∀ᶠ s in nhds t, g s = f s) :
    HasDerivV g d t :=
  ⟨h.1.congr_of_eventuallyEq (e.mono fun s hs => by simp only [hs]),
    h.2.1.congr_of_eventuallyEq (e.mono fun s hs => by simp only [hs]),
    h.2.2.congr_of_eventuallyEq (e.mono fun s hs => by simp only [hs])⟩

/-- **C92 (d).** `∂ log Φ / ∂Φ = Γ⁻¹(log Φ)`: if the rotation moves with global angular velocity `ω`, then `logarithmicMap()`
changes at the rate `Γ⁻¹(log) ω`. -/
theorem C92_log_rate (P : Prec) (k : Kind) (r : ℝ → Rep k) (t : ℝ) (ω : V3)
    (hr : ∀ᶠ s in nhds t, Valid k (r s) ∧ Clear P (den k (r s))) (hω : IsGlobalVelocity k r t ω)
    (hl : 1 / 10000 ≤ (logarithmicMap P k (r t)).norm) (hpi : (logarithmicMap P k (r t)).norm < Real.pi)
    (G : M3) (hG : G * getJacobianOfExponentialMap (logarithmicMap P k (r t)) = 1) :
    HasDerivV (fun s => logarithmicMap P k (r s)) (G.mulVec ω) t := by
  have hm := isGlobalVelocity_iff.mp hω
  obtain ⟨v0, c0⟩ := hr.self_of_nhds
  obtain ⟨d0, n0⟩ := log_spec v0 c0
  have b1 : ((den k (r t)).trace - 1) / 2 < 1 := by
    refine Real.arccos_pos.mp ?_
    change 0 < rotAngle (den k (r t))
    rw [← n0]; linarith
  have b0 : -1 < ((den k (r t)).trace - 1) / 2 := by
    by_contra h
    have : rotAngle (den k (r t)) = Real.pi := Real.arccos_of_le_neg_one (not_lt.mp h)
    linarith
  have hm' := hm
  obtain ⟨⟨h00, h01, h02⟩, ⟨h10, h11, h12⟩, h20, h21, h22⟩ := hm
  have ht : HasDerivAt (fun s => ((den k (r s)).trace - 1) / 2) ((skew ω * den k (r t)).trace / 2) t :=
    (((h00.add h11).add h22).sub_const 1).div_const 2
  have ev : ∀ᶠ s in nhds t, logarithmicMap P k (r s) =
      logCoeff (((den k (r s)).trace - 1) / 2) • axial (den k (r s)) := by
    filter_upwards [hr, ht.continuousAt.eventually (lt_mem_nhds b0), ht.continuousAt.eventually (gt_mem_nhds b1)]
      with s hs q0 q1
    exact log_closed hs.1 hs.2 q0 q1
  obtain ⟨f', hf'⟩ := logCoeff_deriv b0 b1
  have hf := hf'.comp t ht
  obtain ⟨d, hd⟩ : ∃ d, HasDerivV (fun s => logarithmicMap P k (r s)) d t :=
    ⟨⟨_, _, _⟩, HasDerivV.congr_ev ⟨hf.mul (h21.sub h12), hf.mul (h02.sub h20), hf.mul (h10.sub h01)⟩ ev⟩
  have g1 := (C35_jacobian _ _ t hd (Or.inl hl)).1
  have g2 := (C51_velocity_representation_independent .rv k (fun s => (⟨logarithmicMap P k (r s)⟩ : RotVec)) r t
    (hr.mono fun s hs => (sameRot_iff ..).mpr (log_spec hs.1 hs.2).1) ω).1.mpr hω
  have e := isGlobalVelocity_unique (k := .rv) (r := fun s => (⟨logarithmicMap P k (r s)⟩ : RotVec)) trivial g2 g1
  rw [e, M3.mulVec_mulVec, hG, M3.one_mulVec]
  exact hd

/-- **C92 (e).** The rate of `Φ₁ ⊟ Φ₂` of two moving rotations of any classes: `Γ⁻¹(φ) ω₁ - Γ⁻¹(-φ) ω₂`. -/
theorem C92_boxMinus_rate (P : Prec) (k₁ k₂ : Kind) (A : ℝ → Rep k₁) (B : ℝ → Rep k₂) (t : ℝ) (ω₁ ω₂ : V3)
    (h : ∀ᶠ s in nhds t, Valid k₁ (A s) ∧ Valid k₂ (B s) ∧ PairClear P k₁ k₂ (A s) (B s) ∧
      Clear P (den k₁ (A s) * (den k₂ (B s)).transpose))
    (h₁ : IsGlobalVelocity k₁ A t ω₁) (h₂ : IsGlobalVelocity k₂ B t ω₂)
    (hl : 1 / 10000 ≤ (boxMinus P k₁ k₂ (A t) (B t)).norm) (hpi : (boxMinus P k₁ k₂ (A t) (B t)).norm < Real.pi)
    (G G' : M3) (hG : G * getJacobianOfExponentialMap (boxMinus P k₁ k₂ (A t) (B t)) = 1)
    (hG' : G' * getJacobianOfExponentialMap (-(boxMinus P k₁ k₂ (A t) (B t))) = 1) :
    HasDerivV (fun s => boxMinus P k₁ k₂ (A s) (B s)) (G.mulVec ω₁ - G'.mulVec ω₂) t := by
  have hrel : ∀ᶠ s in nhds t, Valid k₁ (mult P k₁ k₂ (A s) (inverted k₂ (B s))) ∧
      den k₁ (mult P k₁ k₂ (A s) (inverted k₂ (B s))) = den k₁ (A s) * (den k₂ (B s)).transpose :=
    h.mono fun s ⟨v1, v2, c, _⟩ => relative_spec v1 v2 c
  obtain ⟨va, vb, -, ca⟩ := h.self_of_nhds
  obtain ⟨vr, dr⟩ := hrel.self_of_nhds
  have hA := den_isSO3 va
  have hB := den_isSO3 vb
  have hrel2 := hrel.and h
  have hv : IsGlobalVelocity k₁ (fun s => mult P k₁ k₂ (A s) (inverted k₂ (B s))) t
      (ω₁ - (den k₁ (A t) * (den k₂ (B t)).transpose).mulVec ω₂) := by
    rw [isGlobalVelocity_iff] at h₁ h₂ ⊢
    have e2 : HasDerivM (fun s => (den k₂ (B s)).transpose)
        (skew ((den k₂ (B t)).transpose.mulVec (-ω₂)) * (den k₂ (B t)).transpose) t := by
      have hs : (skew ω₂).transpose = skew (-ω₂) := by ext <;> simp [skew]
      have := h₂.transpose
      rw [M3.transpose_mul, hs, skew_conj (SO3.transpose hB)] at this
      exact this
    have := hasDerivM_congr_ev (global_mul h₁ e2 hA) (hrel.mono fun s hs => hs.2)
    rw [dr]
    have e : ω₁ - (den k₁ (A t) * (den k₂ (B t)).transpose).mulVec ω₂ =
        ω₁ + (den k₁ (A t)).mulVec ((den k₂ (B t)).transpose.mulVec (-ω₂)) := by
      rw [M3.mulVec_mulVec]; ext <;> simp [M3.mulVec] <;> ring
    rw [e]
    exact this
  have key := C92_log_rate P k₁ (fun s => mult P k₁ k₂ (A s) (inverted k₂ (B s))) t _
    (hrel2.mono fun s ⟨⟨a, b⟩, _, _, _, c⟩ => ⟨a, by rw [b]; exact c⟩) hv hl hpi G hG
  have hden : den .rv (⟨boxMinus P k₁ k₂ (A t) (B t)⟩ : RotVec) = den k₁ (A t) * (den k₂ (B t)).transpose := by
    rw [← dr]; exact (log_spec vr (by rw [dr]; exact ca)).1
  obtain ⟨-, -, -, -, -, i1, i2, -⟩ := C92_identities _ hl G G' hG hG'
  have e : G.mulVec (ω₁ - (den k₁ (A t) * (den k₂ (B t)).transpose).mulVec ω₂) = G.mulVec ω₁ - G'.mulVec ω₂ := by
    rw [i1, ← i2, hden, ← M3.mulVec_mulVec]
    ext <;> simp [M3.mulVec] <;> ring
  rw [← e]
  exact key

/-- **C92 (f).** Between its ends, interpolation moves with the constant angular velocity `B ⊟ A`, whose length is the disparity
angle. -/
theorem C92_interpolate_rate (P : Prec) (k₁ k₂ : Kind) (a : Rep k₁) (b : Rep k₂) (t : ℝ) (ha : Valid k₁ a)
    (hb : Valid k₂ b) (h0 : 0 < t) (h1 : t < 1) (h : ∀ᶠ s in nhds t, InterpClear P k₁ k₂ a b s) :
    IsGlobalVelocity k₁ (fun s => interpolate P k₁ k₂ a b s) t (boxMinus P k₂ k₁ b a) ∧
    (boxMinus P k₂ k₁ b a).norm = disparityAngle P k₂ k₁ b a := by
  obtain ⟨hp, hr, -⟩ := h.self_of_nhds
  obtain ⟨vm, dm⟩ := relative_spec hb ha hp
  obtain ⟨dl, nl⟩ := log_spec vm (by rw [dm]; exact hr)
  have ev : ∀ᶠ s in nhds t, den k₁ (interpolate P k₁ k₂ a b s) =
      den .rv (⟨(s - 0) • boxMinus P k₂ k₁ b a⟩ : RotVec) * den k₁ a := by
    filter_upwards [h, lt_mem_nhds h0, gt_mem_nhds h1] with s hs q0 q1
    obtain ⟨-, -, hw⟩ := hs
    obtain ⟨c1, c2⟩ := hw (boxMinus P k₂ k₁ b a) (nl.trans_le (rotAngle_le_pi _)) (dl.trans dm)
    have hc : clamp01 s = s := by unfold clamp01; rw [min_eq_left q1.le, max_eq_right q0.le]
    rw [hc] at c1 c2
    have e : interpolate P k₁ k₂ a b s = boxPlus P k₁ a (s • boxMinus P k₂ k₁ b a) := by
      rw [interpolate, clamp_eq, hc]
    obtain ⟨ve, de⟩ := exp_spec (P := P) (k := k₁) c1
    have d3 := (mult_spec (P := P) ve ha (fun _ => by rw [de]; exact c1) hp.2.1 (by rw [de]; exact c2)).2
    rw [de] at d3
    rw [e, sub_zero]
    exact d3
  refine ⟨?_, ?_⟩
  · have h2 := exp_velocity_line (boxMinus P k₂ k₁ b a) 0 t
    rw [isGlobalVelocity_iff] at h2 ⊢
    have h3 := hasDerivM_congr_ev (h2.mul (hasDerivM_const (den k₁ a) t)) ev
    refine HasDerivM.congr h3 ?_
    rw [ev.self_of_nhds]
    ext <;> simp <;> ring
  · rw [disparity_eq hb ha hp, ← dm]; exact nl

/-! ## exact perturbations -/

lemma boxPlus_spec {P : Prec} {k : Kind} {a : Rep k} {δ : V3} (ha : Valid k a) (hc : Clear P (den .rv (⟨δ⟩ : RotVec)))
    (hca : RvClear P k (den k a)) (hf : RvClear P k (den .rv (⟨δ⟩ : RotVec) * den k a)) :
    Valid k (boxPlus P k a δ) ∧ den k (boxPlus P k a δ) = den .rv (⟨δ⟩ : RotVec) * den k a := by
  obtain ⟨ve, de⟩ := exp_spec (P := P) (k := k) hc
  obtain ⟨v3, d3⟩ := mult_spec (P := P) ve ha (fun _ => by rw [de]; exact hc) hca (by rw [de]; exact hf)
  exact ⟨v3, d3.trans (by rw [de])⟩

/-- `R exp(δ) = exp(R δ) R`. -/
lemma den_rv_conj {m : M3} (h : IsSO3 m) (δ : V3) :
    m * den .rv (⟨δ⟩ : RotVec) = den .rv (⟨m.mulVec δ⟩ : RotVec) * m := by
  have hn : (m.mulVec δ).norm = δ.norm := SO3.mulVec_norm h δ
  rcases eq_or_ne δ 0 with h0 | h0
  · have e : m.mulVec δ = 0 := by rw [h0]; ext <;> simp
    rw [e, h0, den_eq, dmat_rv_zero, mul_one, one_mul]
  · have hp := (V3.norm_pos h0).ne'
    rw [den_polyK hp, den_polyK (by rwa [hn]), hn]
    generalize Real.sin δ.norm / δ.norm = b
    generalize (1 - Real.cos δ.norm) / (δ.norm * δ.norm) = d
    have h1 := skew_conj h δ
    have h2 : m * (skew δ * skew δ) = skew (m.mulVec δ) * skew (m.mulVec δ) * m := by
      rw [← mul_assoc, h1, mul_assoc, h1, mul_assoc]
    have e1 : m * polyK b d δ = m + b • (m * skew δ) + d • (m * (skew δ * skew δ)) := by
      ext <;> simp [polyK] <;> ring
    have e2 : polyK b d (m.mulVec δ) * m =
        m + b • (skew (m.mulVec δ) * m) + d • (skew (m.mulVec δ) * skew (m.mulVec δ) * m) := by
      rw [polyK]; generalize skew (m.mulVec δ) * skew (m.mulVec δ) = Z; ext <;> simp <;> ring
    rw [e1, e2, h1, h2]

lemma clear_rv_mulVec {P : Prec} {m : M3} (h : IsSO3 m) {δ : V3} (hc : Clear P (den .rv (⟨δ⟩ : RotVec))) :
    Clear P (den .rv (⟨m.mulVec δ⟩ : RotVec)) := by
  have e : den .rv (⟨m.mulVec δ⟩ : RotVec) = m * den .rv (⟨δ⟩ : RotVec) * m.transpose := by
    rw [den_rv_conj h, mul_assoc, h.1, mul_one]
  have tr : ∀ x : M3, (m * x * m.transpose).trace = x.trace := fun x => by
    have h1 : ∀ a b : M3, (a * b).trace = (b * a).trace := fun a b => by simp [M3.trace]; ring
    rw [h1, ← mul_assoc, SO3.tr_mul h, one_mul]
  rcases hc with hc | hc
  · left; rw [e, hc, mul_one, h.1]
  · right; rw [e, tr]; exact hc

/-- **C92 (g).** `∂(Φ₁⊗Φ₂)/∂Φ₁ = 1`, exactly and not only to first order: perturbing the left factor of a product. -/
theorem C92_perturb_left (P : Prec) (k₁ k₂ : Kind) (a : Rep k₁) (b : Rep k₂) (δ : V3) (ha : Valid k₁ a) (hb : Valid k₂ b)
    (hδ : Clear P (den .rv (⟨δ⟩ : RotVec))) (hpi : δ.norm < Real.pi)
    (c1 : RvClear P k₁ (den k₁ a)) (c2 : RvClear P k₂ (den k₂ b)) (c3 : RvClear P k₁ (den .rv (⟨δ⟩ : RotVec) * den k₁ a))
    (c4 : RvClear P k₁ (den k₁ a * den k₂ b))
    (c5 : RvClear P k₁ (den .rv (⟨δ⟩ : RotVec) * den k₁ a * den k₂ b)) :
    boxMinus P k₁ k₁ (mult P k₁ k₂ (boxPlus P k₁ a δ) b) (mult P k₁ k₂ a b) = δ := by
  obtain ⟨v1, d1⟩ := boxPlus_spec ha hδ c1 c3
  obtain ⟨v2, d2⟩ := mult_spec (P := P) v1 hb (by rw [d1]; exact c3) c2 (by rw [d1]; exact c5)
  obtain ⟨v3, d3⟩ := mult_spec (P := P) ha hb c1 c2 c4
  have hso := SO3.mul (den_isSO3 ha) (den_isSO3 hb)
  have e : den k₁ (mult P k₁ k₂ (boxPlus P k₁ a δ) b) * (den k₁ (mult P k₁ k₂ a b)).transpose =
      den .rv (⟨δ⟩ : RotVec) := by
    rw [d2, d1, d3, mul_assoc (den .rv (⟨δ⟩ : RotVec)), mul_assoc, hso.1, mul_one]
  obtain ⟨vm, dm⟩ := relative_spec (P := P) v2 v3 ⟨by rw [d2, d1]; exact c5, by rw [d3]; exact c4,
    fun _ => by rw [e]; exact hδ⟩
  exact log_of_den vm (dm.trans e) hδ hpi

/-- **C92 (h).** `∂(Φ₁⊗Φ₂)/∂Φ₂ = C(Φ₁)`, exactly: perturbing the right factor. -/
theorem C92_perturb_right (P : Prec) (k₁ k₂ : Kind) (a : Rep k₁) (b : Rep k₂) (δ : V3) (ha : Valid k₁ a) (hb : Valid k₂ b)
    (hδ : Clear P (den .rv (⟨δ⟩ : RotVec))) (hpi : δ.norm < Real.pi)
    (c1 : RvClear P k₁ (den k₁ a)) (c2 : RvClear P k₂ (den k₂ b)) (c3 : RvClear P k₂ (den .rv (⟨δ⟩ : RotVec) * den k₂ b))
    (c4 : RvClear P k₁ (den k₁ a * den k₂ b))
    (c5 : RvClear P k₁ (den k₁ a * (den .rv (⟨δ⟩ : RotVec) * den k₂ b))) :
    boxMinus P k₁ k₁ (mult P k₁ k₂ a (boxPlus P k₂ b δ)) (mult P k₁ k₂ a b) = rotate P k₁ a δ := by
  obtain ⟨v1, d1⟩ := boxPlus_spec hb hδ c2 c3
  obtain ⟨v2, d2⟩ := mult_spec (P := P) ha v1 c1 (by rw [d1]; exact c3) (by rw [d1]; exact c5)
  obtain ⟨v3, d3⟩ := mult_spec (P := P) ha hb c1 c2 c4
  have hA := den_isSO3 ha
  have hso := SO3.mul hA (den_isSO3 hb)
  rw [rotate_spec ha (exact_to_nonrv (by decide) c1)]
  have hc := clear_rv_mulVec hA hδ
  have e : den k₁ (mult P k₁ k₂ a (boxPlus P k₂ b δ)) * (den k₁ (mult P k₁ k₂ a b)).transpose =
      den .rv (⟨(den k₁ a).mulVec δ⟩ : RotVec) := by
    rw [d2, d1, d3, ← mul_assoc, den_rv_conj hA, mul_assoc (den .rv (⟨(den k₁ a).mulVec δ⟩ : RotVec)), mul_assoc, hso.1,
      mul_one]
  obtain ⟨vm, dm⟩ := relative_spec (P := P) v2 v3 ⟨by rw [d2, d1]; exact c5, by rw [d3]; exact c4,
    fun _ => by rw [e]; exact hc⟩
  exact log_of_den vm (dm.trans e) hc (by rw [SO3.mulVec_norm hA]; exact hpi)

/-- **C92 (i).** `∂Φ⁻¹/∂Φ = -C(Φ)ᵀ`, exactly: perturbing a rotation before inverting it. -/
theorem C92_perturb_inverse (P : Prec) (k : Kind) (a : Rep k) (δ : V3) (ha : Valid k a)
    (hδ : Clear P (den .rv (⟨δ⟩ : RotVec))) (hpi : δ.norm < Real.pi)
    (c1 : RvClear P k (den k a)) (c3 : RvClear P k (den .rv (⟨δ⟩ : RotVec) * den k a)) :
    boxMinus P k k (inverted k (boxPlus P k a δ)) (inverted k a) = -inverseRotate P k a δ := by
  obtain ⟨v1, d1⟩ := boxPlus_spec ha hδ c1 c3
  obtain ⟨v2, d2⟩ := inverted_spec v1
  obtain ⟨v3, d3⟩ := inverted_spec ha
  have hA := den_isSO3 ha
  have hAt := SO3.transpose hA
  have xa : ExactBranch P .mat k a := exact_to_nonrv (by decide) c1
  rw [inverseRotate, rotate_spec v3 (exact_mat_inverted xa), d3]
  have en : -(den k a).transpose.mulVec δ = (den k a).transpose.mulVec (-δ) := by ext <;> simp [M3.mulVec] <;> ring
  have hneg : den .rv (⟨-δ⟩ : RotVec) = (den .rv (⟨δ⟩ : RotVec)).transpose :=
    (inverted_spec (k := .rv) (r := (⟨δ⟩ : RotVec)) trivial).2
  have hδ' : Clear P (den .rv (⟨-δ⟩ : RotVec)) := by
    rw [hneg]
    rcases hδ with h | h
    · left; rw [h, M3.transpose_one]
    · right
      have : (den .rv (⟨δ⟩ : RotVec)).transpose.trace = (den .rv (⟨δ⟩ : RotVec)).trace := by simp [M3.trace]
      rw [this]; exact h
  have hc := clear_rv_mulVec hAt hδ'
  rw [en]
  have e : den k (inverted k (boxPlus P k a δ)) * (den k (inverted k a)).transpose =
      den .rv (⟨(den k a).transpose.mulVec (-δ)⟩ : RotVec) := by
    rw [d2, d1, d3, M3.transpose_mul, ← hneg, den_rv_conj hAt, mul_assoc, hAt.1, mul_one]
  obtain ⟨vm, dm⟩ := relative_spec (P := P) v2 v3 ⟨by rw [d2, d1]; exact rvClear_transpose c3,
    by rw [d3]; exact rvClear_transpose c1, fun _ => by rw [e]; exact hc⟩
  exact log_of_den vm (dm.trans e) hc (by rw [SO3.mulVec_norm hAt, V3.norm_neg]; exact hpi)

/-- `|e^{in} - 1 - in| ≤ n²/2`. -/
lemma chord_tangent (n : ℝ) (h : 0 ≤ n) : (1 - Real.cos n) ^ 2 + (n - Real.sin n) ^ 2 ≤ (n ^ 2 / 2) ^ 2 := by
  have hm : MonotoneOn (fun x : ℝ => x ^ 4 / 4 - x ^ 2 - 2 + 2 * Real.cos x + 2 * x * Real.sin x) (Set.Ici 0) := by
    have hd : ∀ x : ℝ, HasDerivAt (fun x : ℝ => x ^ 4 / 4 - x ^ 2 - 2 + 2 * Real.cos x + 2 * x * Real.sin x)
        (x ^ 3 - 2 * x * (1 - Real.cos x)) x := fun x => by
      have h4 := (hasDerivAt_pow 4 x).div_const 4
      have h2 := hasDerivAt_pow 2 x
      have hc := (Real.hasDerivAt_cos x).const_mul 2
      have hs := ((hasDerivAt_id x).const_mul 2).mul (Real.hasDerivAt_sin x)
      refine ((((h4.sub h2).sub_const 2).add hc).add hs).congr_deriv ?_
      simp; ring
    refine monotoneOn_of_deriv_nonneg (convex_Ici 0) (fun x _ => (hd x).continuousAt.continuousWithinAt)
      (fun x _ => (hd x).differentiableAt.differentiableWithinAt) fun x hx => ?_
    rw [(hd x).deriv]
    rw [interior_Ici] at hx
    have hx' : 0 < x := hx
    have := Real.one_sub_sq_div_two_le_cos (x := x)
    have := mul_le_mul_of_nonneg_left (show 1 - Real.cos x ≤ x ^ 2 / 2 by linarith) hx'.le
    nlinarith
  have h0 := hm (Set.mem_Ici.mpr le_rfl) (Set.mem_Ici.mpr h) h
  simp only [Real.cos_zero, Real.sin_zero] at h0
  have h1 := Real.sin_sq_add_cos_sq n
  nlinarith

lemma exp_linear_sharp (v u : V3) :
    (act .rv (⟨v⟩ : RotVec) u - u - v.cross u).norm ≤ v.norm ^ 2 / 2 * u.norm := by
  rcases eq_or_ne v.norm 0 with h0 | h0
  · have hv : v = 0 := V3.norm_eq_zero.mp h0
    subst hv
    have : act .rv (⟨0⟩ : RotVec) u - u - V3.cross 0 u = 0 := by
      simp only [act, h0, if_true]
      ext <;> simp [V3.cross]
    rw [this]; simp
  · have e : act .rv (⟨v⟩ : RotVec) u = (den .rv (⟨v⟩ : RotVec)).mulVec u := by rw [act_eq]
    rw [e, den_polyK h0, polyK_mulVec]
    have hp : 0 < v.norm := lt_of_le_of_ne v.norm_nonneg (Ne.symm h0)
    have key := chord_tangent v.norm hp.le
    have hcr : (v.cross u).normSq ≤ v.normSq * u.normSq := by
      simp only [V3.normSq, V3.dot, V3.cross]
      nlinarith [sq_nonneg (v.x * u.x + v.y * u.y + v.z * u.z)]
    have hN := V3.norm_sq v
    have hU := V3.norm_sq u
    have hid : (jacApply (Real.sin v.norm / v.norm) ((1 - Real.cos v.norm) / (v.norm * v.norm)) v u - u - v.cross u).normSq =
        ((Real.sin v.norm / v.norm - 1) ^ 2 + ((1 - Real.cos v.norm) / (v.norm * v.norm)) ^ 2 * v.normSq) * (v.cross u).normSq := by
      generalize Real.sin v.norm / v.norm = a
      generalize (1 - Real.cos v.norm) / (v.norm * v.norm) = b
      simp [jacApply, V3.normSq, V3.dot, V3.cross]; ring
    have hco : ((Real.sin v.norm / v.norm - 1) ^ 2 + ((1 - Real.cos v.norm) / (v.norm * v.norm)) ^ 2 * v.normSq) =
        ((1 - Real.cos v.norm) ^ 2 + (v.norm - Real.sin v.norm) ^ 2) / v.normSq := by
      rw [← hN]; field_simp; ring
    have hNp : 0 < v.normSq := by rw [← hN]; positivity
    have hle : (jacApply (Real.sin v.norm / v.norm) ((1 - Real.cos v.norm) / (v.norm * v.norm)) v u - u - v.cross u).normSq ≤
        (v.norm ^ 2 / 2 * u.norm) ^ 2 := by
      rw [hid, hco, div_mul_eq_mul_div, div_le_iff₀ hNp, mul_pow, hU]
      have := mul_le_mul key hcr (V3.normSq_nonneg _) (by positivity)
      linarith
    exact Real.sqrt_le_iff.mpr ⟨mul_nonneg (by positivity) u.norm_nonneg, hle⟩

/-- **C92 (j).** `∂Φ(u)/∂Φ = -(Φ(u))^`: perturbing the rotation that acts on a vector, with the second-order remainder. -/
theorem C92_perturb_rotate (P : Prec) (k : Kind) (a : Rep k) (δ u : V3) (ha : Valid k a)
    (hδ : Clear P (den .rv (⟨δ⟩ : RotVec)))
    (c1 : RvClear P k (den k a)) (c3 : RvClear P k (den .rv (⟨δ⟩ : RotVec) * den k a)) :
    (rotate P k (boxPlus P k a δ) u - rotate P k a u - δ.cross (rotate P k a u)).norm ≤ δ.norm ^ 2 / 2 * u.norm := by
  obtain ⟨v1, d1⟩ := boxPlus_spec ha hδ c1 c3
  have hA := den_isSO3 ha
  rw [rotate_spec v1 (exact_to_nonrv (by decide) (by rw [d1]; exact c3)), rotate_spec ha (exact_to_nonrv (by decide) c1), d1,
    ← M3.mulVec_mulVec, ← SO3.mulVec_norm hA u]
  have := exp_linear_sharp δ ((den k a).mulVec u)
  rw [act_eq] at this
  exact this

/-! ## two entries of the cheat sheet are wrong -/

lemma axial_polyK (b d : ℝ) (v : V3) : axial (polyK b d v) = (2 * b) • v := by
  ext <;> simp [axial, polyK, skew] <;> ring

/-- **C92 (documentation).** The cheat sheet's `Γ⁻¹(-v) = Γ(v) + v̂` (instead of `Γ⁻¹(v) + v̂`) is wrong for every `v`. -/
theorem C92_doc_inverse_identity_refuted (v : V3) (h : 1 / 10000 ≤ v.norm) (G' : M3)
    (hG' : G' * getJacobianOfExponentialMap (-v) = 1) : G' ≠ getJacobianOfExponentialMap v + skew v := by
  intro he
  have h0 : 0 < v.norm := by linarith
  have hn : (-v).norm = v.norm := V3.norm_neg v
  have hc : Real.cos v.norm ≠ 1 := fun hc => by
    refine (C92_invertible (-v) (by rwa [hn])).mp ⟨G', hG'⟩ ?_
    rw [hn]; exact (cos_eq_one_nat h0).mp hc
  have eG' := inv_unique hG' (inv_polyK (by rwa [hn]) (by rwa [hn]))
  rw [hn, polyK_neg, he, jac_polyK h] at eG'
  have e : ∀ b d : ℝ, polyK b d v + skew v = polyK (b + 1) d v := fun b d => by ext <;> simp [polyK, skew] <;> ring
  have ha := congrArg axial eG'
  rw [e, axial_polyK, axial_polyK] at ha
  have hb : 0 ≤ (1 - Real.cos v.norm) / (v.norm * v.norm) :=
    div_nonneg (by linarith [Real.cos_le_one v.norm]) (mul_nonneg h0.le h0.le)
  generalize (1 - Real.cos v.norm) / (v.norm * v.norm) = b at *
  have hv : v = 0 := by
    have hx := congrArg V3.x ha
    have hy := congrArg V3.y ha
    have hz := congrArg V3.z ha
    simp only [V3.smul_x, V3.smul_y, V3.smul_z] at hx hy hz
    have hne : 1 + 2 * b ≠ 0 := by linarith
    ext
    · exact (mul_eq_zero.mp (show (1 + 2 * b) * v.x = 0 by linarith)).resolve_left hne
    · exact (mul_eq_zero.mp (show (1 + 2 * b) * v.y = 0 by linarith)).resolve_left hne
    · exact (mul_eq_zero.mp (show (1 + 2 * b) * v.z = 0 by linarith)).resolve_left hne
  rw [hv] at h0; simp at h0

/-- **C92 (documentation).** The cheat sheet gives `+Γ⁻¹(-(Φ₁ ⊟ Φ₂))` for the derivative of `Φ₁ ⊟ Φ₂` with respect to `Φ₂`; the
sign is wrong: whenever the first rotation stands still and the second one moves, that is not the rate of `Φ₁ ⊟ Φ₂`. -/
theorem C92_doc_sign_refuted (P : Prec) (k₁ k₂ : Kind) (A : ℝ → Rep k₁) (B : ℝ → Rep k₂) (t : ℝ) (ω₂ : V3)
    (h : ∀ᶠ s in nhds t, Valid k₁ (A s) ∧ Valid k₂ (B s) ∧ PairClear P k₁ k₂ (A s) (B s) ∧
      Clear P (den k₁ (A s) * (den k₂ (B s)).transpose))
    (h₁ : IsGlobalVelocity k₁ A t 0) (h₂ : IsGlobalVelocity k₂ B t ω₂) (hne : ω₂ ≠ 0)
    (hl : 1 / 10000 ≤ (boxMinus P k₁ k₂ (A t) (B t)).norm) (hpi : (boxMinus P k₁ k₂ (A t) (B t)).norm < Real.pi)
    (G' : M3) (hG' : G' * getJacobianOfExponentialMap (-(boxMinus P k₁ k₂ (A t) (B t))) = 1) :
    ¬ HasDerivV (fun s => boxMinus P k₁ k₂ (A s) (B s)) (G'.mulVec ω₂) t := by
  intro hd
  have hc : ∃ G : M3, G * getJacobianOfExponentialMap (boxMinus P k₁ k₂ (A t) (B t)) = 1 := by
    have := (C92_invertible (-(boxMinus P k₁ k₂ (A t) (B t))) (by rwa [V3.norm_neg])).mp ⟨G', hG'⟩
    rw [V3.norm_neg] at this
    exact (C92_invertible _ hl).mpr this
  obtain ⟨G, hG⟩ := hc
  have hd' := C92_boxMinus_rate P k₁ k₂ A B t 0 ω₂ h h₁ h₂ hl hpi G G' hG hG'
  have hx := hd.1.unique hd'.1
  have hy := hd.2.1.unique hd'.2.1
  have hz := hd.2.2.unique hd'.2.2
  have z : G.mulVec 0 = 0 := by ext <;> simp [M3.mulVec]
  rw [z] at hx hy hz
  simp only [V3.sub_x, V3.sub_y, V3.sub_z, V3.zero_x, V3.zero_y, V3.zero_z] at hx hy hz
  have e0 : G'.mulVec ω₂ = 0 := by
    ext
    · exact by change (G'.mulVec ω₂).x = 0; linarith
    · exact by change (G'.mulVec ω₂).y = 0; linarith
    · exact by change (G'.mulVec ω₂).z = 0; linarith
  apply hne
  have := congrArg (getJacobianOfExponentialMap (-(boxMinus P k₁ k₂ (A t) (B t)))).mulVec e0
  rw [M3.mulVec_mulVec, left_inv_right hG', M3.one_mulVec] at this
  rw [this]; ext <;> simp [M3.mulVec]

/-! ## the hypotheses are met -/

lemma ez_norm (s : ℝ) (h : 0 ≤ s) : (s • (⟨0, 0, 1⟩ : V3)).norm = s := by
  have : (⟨0, 0, 1⟩ : V3).norm = 1 := V3.norm_eq_one_iff.mpr (by norm_num [V3.normSq, V3.dot])
  rw [V3.norm_smul, this, abs_of_nonneg h, mul_one]

/-- A body that stands still and one that turns about z: all hypotheses of `C92_boxMinus_rate` and `C92_doc_sign_refuted` hold
(`A = I`, `B(s)` a turn by `s` about `z`, `t = 1`). -/
theorem C92_example (P : Prec) :
    (∀ᶠ s in nhds (1 : ℝ), Valid .mat (1 : M3) ∧ Valid .rv (⟨(s - 0) • ⟨0, 0, 1⟩⟩ : RotVec) ∧
      PairClear P .mat .rv (1 : M3) (⟨(s - 0) • ⟨0, 0, 1⟩⟩ : RotVec) ∧
      Clear P (den .mat (1 : M3) * (den .rv (⟨(s - 0) • ⟨0, 0, 1⟩⟩ : RotVec)).transpose)) ∧
    IsGlobalVelocity .mat (fun _ => (1 : M3)) 1 0 ∧
    IsGlobalVelocity .rv (fun s => (⟨(s - 0) • ⟨0, 0, 1⟩⟩ : RotVec)) 1 ⟨0, 0, 1⟩ ∧
    boxMinus P .mat .rv (1 : M3) (⟨((1 : ℝ) - 0) • ⟨0, 0, 1⟩⟩ : RotVec) = ⟨0, 0, -1⟩ ∧
    (⟨0, 0, -1⟩ : V3).norm = 1 ∧
    (∃ G, G * getJacobianOfExponentialMap ⟨0, 0, -1⟩ = 1) ∧ ∃ G', G' * getJacobianOfExponentialMap (-⟨0, 0, -1⟩) = 1 := by
  have hpi := Real.pi_gt_three
  have h1 : (1 : M3) = den .mat (1 : M3) := by rw [den_eq]; rfl
  have hcl : ∀ s : ℝ, 1 / 2 < s → s < 2 → Clear P (den .rv (⟨(s - 0) • ⟨0, 0, 1⟩⟩ : RotVec)) := fun s a b => by
    rw [sub_zero]
    exact clear_of_norm' (by rw [ez_norm s (by linarith)]; linarith) (by rw [ez_norm s (by linarith)]; linarith)
  have hct : ∀ m : M3, Clear P m → Clear P m.transpose := fun m hm => by
    rcases hm with h | h
    · left; rw [h, M3.transpose_one]
    · right
      have : m.transpose.trace = m.trace := by simp [M3.trace]
      rw [this]; exact h
  have hall : ∀ s : ℝ, 1 / 2 < s → s < 2 → Valid .mat (1 : M3) ∧ Valid .rv (⟨(s - 0) • ⟨0, 0, 1⟩⟩ : RotVec) ∧
      PairClear P .mat .rv (1 : M3) (⟨(s - 0) • ⟨0, 0, 1⟩⟩ : RotVec) ∧
      Clear P (den .mat (1 : M3) * (den .rv (⟨(s - 0) • ⟨0, 0, 1⟩⟩ : RotVec)).transpose) := fun s a b => by
    refine ⟨SO3.one, trivial, ⟨fun h => absurd h (by decide), fun _ => hcl s a b, fun h => absurd h (by decide)⟩, ?_⟩
    rw [← h1, one_mul]
    exact hct _ (hcl s a b)
  have hn : (⟨0, 0, -1⟩ : V3).norm = 1 := V3.norm_eq_one_iff.mpr (by norm_num [V3.normSq, V3.dot])
  refine ⟨?_, ?_, exp_velocity_line _ 0 1, ?_, hn, ?_, ?_⟩
  · filter_upwards [lt_mem_nhds (show (1 / 2 : ℝ) < 1 by norm_num), gt_mem_nhds (show (1 : ℝ) < 2 by norm_num)] with s a b
    exact hall s a b
  · rw [isGlobalVelocity_iff]
    refine HasDerivM.congr (hasDerivM_const _ _) ?_
    ext <;> simp [skew]
  · obtain ⟨va, vb, pc, cc⟩ := hall 1 (by norm_num) (by norm_num)
    obtain ⟨vm, dm⟩ := relative_spec va vb pc
    have hneg : den .rv (⟨-(((1 : ℝ) - 0) • (⟨0, 0, 1⟩ : V3))⟩ : RotVec) =
        (den .rv (⟨((1 : ℝ) - 0) • ⟨0, 0, 1⟩⟩ : RotVec)).transpose :=
      (inverted_spec (k := .rv) (r := (⟨((1 : ℝ) - 0) • (⟨0, 0, 1⟩ : V3)⟩ : RotVec)) trivial).2
    have he : -(((1 : ℝ) - 0) • (⟨0, 0, 1⟩ : V3)) = ⟨0, 0, -1⟩ := by ext <;> simp
    rw [he] at hneg
    rw [← h1, one_mul, ← hneg] at dm cc
    exact log_of_den vm dm cc (by rw [hn]; linarith)
  · refine (C92_invertible _ (by rw [hn]; norm_num)).mpr ?_
    rintro ⟨k, hk⟩
    rw [hn] at hk
    rcases Nat.eq_zero_or_pos k with rfl | hk'
    · simp at hk
    · have : (1 : ℝ) ≤ k := by exact_mod_cast hk'
      nlinarith
  · refine (C92_invertible _ (by rw [V3.norm_neg, hn]; norm_num)).mpr ?_
    rintro ⟨k, hk⟩
    rw [V3.norm_neg, hn] at hk
    rcases Nat.eq_zero_or_pos k with rfl | hk'
    · simp at hk
    · have : (1 : ℝ) ≤ k := by exact_mod_cast hk'
      nlinarith

/-- The hypotheses of `C92_interpolate_rate` hold, e.g. half way from the identity matrix to a quarter turn. -/
example : ∀ᶠ s in nhds (1 / 2 : ℝ),
    InterpClear Prec.double .mat .aa (1 : M3) (⟨Real.pi / 2, ⟨0, 0, 1⟩⟩ : AngAx) s := by
  have hz : (⟨0, 0, 1⟩ : V3).normSq = 1 := by norm_num [V3.normSq, V3.dot]
  have hd : den .aa (⟨Real.pi / 2, ⟨0, 0, 1⟩⟩ : AngAx) * (den .mat (1 : M3)).transpose =
      rodMat (Real.pi / 2) ⟨0, 0, 1⟩ := by
    rw [den_eq, den_eq]
    have e : dmat .mat (1 : M3) = 1 := rfl
    rw [e, M3.transpose_one, mul_one]; rfl
  have hang : rotAngle (rodMat (Real.pi / 2) ⟨0, 0, 1⟩) = Real.pi / 2 :=
    rotAngle_rodMat hz (by positivity) (by linarith [Real.pi_pos])
  have hpi := Real.pi_gt_three
  filter_upwards [lt_mem_nhds (show (1 / 4 : ℝ) < 1 / 2 by norm_num), gt_mem_nhds (show (1 / 2 : ℝ) < 1 by norm_num)] with s a b
  refine ⟨pairClear_of_nonrv (by decide) (by decide), ?_, fun w hw e => ⟨?_, fun h => absurd h (by decide)⟩⟩
  · rw [hd]; right
    rw [trace_rodMat _ hz, Real.cos_pi_div_two]
    exact (smallThreshold_le _).trans (by norm_num)
  · rw [hd] at e
    have hn : w.norm = Real.pi / 2 := by rw [← rotAngle_rv hw, e, hang]
    have hc : clamp01 s = s := by unfold clamp01; rw [min_eq_left b.le, max_eq_right (by linarith)]
    rw [hc]
    apply clear_of_norm' <;> rw [V3.norm_smul, hn, abs_of_pos (by linarith)] <;> nlinarith

/-- The hypotheses of the perturbation theorems hold for every `δ` with `0.04 ≤ |δ| < π` and all classes but `RotationVector`. -/
example (P : Prec) (m : M3) (q : Quat) (hm : Valid .mat m) (hq : Valid .quat q) (δ : V3) (h1 : 4 / 100 ≤ δ.norm)
    (h2 : δ.norm < Real.pi) :
    boxMinus P .mat .mat (mult P .mat .quat m (boxPlus P .quat q δ)) (mult P .mat .quat m q) = rotate P .mat m δ :=
  C92_perturb_right P .mat .quat m q δ hm hq (clear_of_norm' h1 h2.le) h2 (fun h => absurd h (by decide))
    (fun h => absurd h (by decide)) (fun h => absurd h (by decide)) (fun h => absurd h (by decide))
    (fun h => absurd h (by decide))

end Kindr
