import Verif.Props.Under4

/-!
# C108: consequences for loops, limits of the bounds, examples
-/

set_option autoImplicit false

open Classical

noncomputable section
namespace Kindr
open Spec
namespace Format
variable {f : Format}

lemma eta_normal (f : Format) : f.eta = f.uu * 2 ^ (f.emin + f.p - 1) := by
  unfold eta uu
  rw [inv_pow, ← zpow_natCast, ← zpow_neg, ← zpow_add₀ (by norm_num)]
  congr 1; ring

/-- **C108 (h).** From the smallest normal number on the error of `rotate()` is relative. -/
theorem C108_rotate_normal (hf : AtLeastFloat f) (P : Prec) (q : Quat) (r : Rep .quat) (hr : Valid .quat r) (δ : ℝ) (hδ : δ ≤ 1 / 300)
    (hq : ‖toH q - toH r‖ ≤ δ) (v : V3) (hn : 2 ^ (f.emin + f.p - 1) ≤ v.norm) (hv : v.norm ≤ 2 ^ (f.emax - 3)) :
    ∃ w, f.arith.rotate P .quat (embQ q) (emb3 v) = emb3 w ∧ (w - act .quat r v).norm ≤ (35 * 2⁻¹ ^ f.p + 81 / 10 * δ) * v.norm ∧
      |w.norm - v.norm| ≤ (35 * 2⁻¹ ^ f.p + 81 / 10 * δ) * v.norm := by
  obtain ⟨w, h1, h2⟩ := C108_rotate hf P q r hr δ hδ hq v hv
  have he : f.eta ≤ f.uu * v.norm := by rw [eta_normal]; exact mul_le_mul_of_nonneg_left hn uu_pos.le
  change _ ≤ (24 * f.uu + 81 / 10 * δ) * v.norm + 11 * f.eta at h2
  have h3 : (w - act .quat r v).norm ≤ (35 * f.uu + 81 / 10 * δ) * v.norm := by linarith
  refine ⟨w, h1, h3, ?_⟩
  have hl : (act .quat r v).norm = v.norm := by rw [act_eq_dmat, SO3.mulVec_norm (dmat_isSO3 .quat r hr)]
  have h4 := V3.norm_add_le (w - act .quat r v) (act .quat r v)
  have h5 := V3.norm_sub_le (act .quat r v - w) (-w)
  rw [sub_add_cancel, hl] at h4
  rw [show act .quat r v - w - -w = act .quat r v by abel, V3.norm_neg, V3.norm_sub_comm, hl] at h5
  rw [abs_le]; change -(((35 * f.uu) + _) * _) ≤ _ ∧ _ ≤ ((35 * f.uu) + _) * _
  constructor <;> linarith

/-- A quaternion whose length is within `δ` of one is within `δ` of a unit quaternion. -/
lemma near_unit {c : Quat} {δ : ℝ} (h : |c.norm - 1| ≤ δ) (hδ : δ ≤ 1 / 2) : ∃ r : Rep .quat, Valid .quat r ∧ ‖toH c - toH r‖ ≤ δ ∧ toH r = dirH c := by
  obtain ⟨a1, a2⟩ := abs_le.mp h
  have n0 : 0 < c.norm := by linarith
  have n2 : c.norm * c.norm = c.normSq := Real.mul_self_sqrt c.normSq_nonneg
  have hd : toH (⟨c.norm⁻¹ * c.w, c.norm⁻¹ * c.x, c.norm⁻¹ * c.y, c.norm⁻¹ * c.z⟩ : Quat) = dirH c := by
    ext <;> simp [dirH, norm_toH]
  refine ⟨(⟨c.norm⁻¹ * c.w, c.norm⁻¹ * c.x, c.norm⁻¹ * c.y, c.norm⁻¹ * c.z⟩ : Quat), (valid_quat_iff _).mpr ?_, ?_, hd⟩
  · have : (⟨c.norm⁻¹ * c.w, c.norm⁻¹ * c.x, c.norm⁻¹ * c.y, c.norm⁻¹ * c.z⟩ : Quat).normSq = c.norm⁻¹ * c.norm⁻¹ * c.normSq := by
      simp only [Quat.normSq]; ring
    rw [this, ← n2]; field_simp
  · rw [hd]
    have hp : 0 < ‖toH c‖ := by rw [norm_toH]; exact n0
    have e2 : toH c - dirH c = (1 - ‖toH c‖⁻¹) • toH c := by rw [sub_smul, one_smul, dirH]
    rw [e2, norm_smul, Real.norm_eq_abs, ← abs_of_pos hp, ← abs_mul, abs_of_pos hp, sub_mul, one_mul, inv_mul_cancel₀ hp.ne', norm_toH]
    exact h

/-- **C108 (i).** After any number of rounds of `q = q * qᵢ; q.fix();` a vector of any length between the smallest normal number and an eighth of the overflow
threshold is rotated without changing its length by more than 84 roundings: the bound does not grow with the length of the loop. -/
theorem C108_loop_rotate (hf : AtLeastFloat f) (P : Prec) (q : Quat) (l : List Quat) (hq : Moderate q) (hl : ∀ r ∈ l, Moderate r) (hne : l ≠ [])
    (v : V3) (hn : 2 ^ (f.emin + f.p - 1) ≤ v.norm) (hv : v.norm ≤ 2 ^ (f.emax - 3)) :
    ∃ w, f.arith.rotate P .quat (fixedLoop f.arith P (embQ q) (l.map embQ)) (emb3 v) = emb3 w ∧ |w.norm - v.norm| ≤ 84 * 2⁻¹ ^ f.p * v.norm := by
  have hs := alf_small hf
  obtain ⟨c, h1, h2, -, -⟩ := C108_loop hf P q l hq hl hne
  change _ ≤ 6 * f.uu at h2
  obtain ⟨r, r1, r2, -⟩ := near_unit h2 (by linarith)
  obtain ⟨w, w1, -, w2⟩ := C108_rotate_normal hf P c r r1 (6 * f.uu) (by linarith) r2 v hn hv
  refine ⟨w, by rw [h1]; exact w1, w2.trans ?_⟩
  change (35 * f.uu + 81 / 10 * (6 * f.uu)) * v.norm ≤ 84 * f.uu * v.norm
  exact mul_le_mul_of_nonneg_right (by linarith [uu_pos (f := f)]) v.norm_nonneg

/-! ## Limits -/

/-- The rotation by 60° about `(1, 1, 1)`. -/
def sixty : M3 := ⟨2 / 3, -1 / 3, 2 / 3, 2 / 3, 2 / 3, -1 / 3, -1 / 3, 2 / 3, 2 / 3⟩

lemma sixty_valid : Valid .mat sixty := by
  constructor
  · ext <;> simp [sixty, M3.transpose] <;> norm_num
  · simp [sixty, M3.det]; norm_num

lemma fin_lt (hf : f.Ok) {x : ℝ} (h : |x| ≤ 9 / 10 * 2 ^ f.emax) : f.arith.rnd x = .fin (f.round x) := by
  have h1 := (rn hf).err x
  have h2 := uu_le hf
  have h3 := (eta_tiny hf).2
  have h4 : (1 : ℝ) ≤ 2 ^ f.emax := one_le_zpow₀ (by norm_num) (by have := hf.emax; have := hf.p; omega)
  change (if _ then _ else _) = _
  rw [if_neg]
  rw [not_le]
  have h5 := abs_add_le (f.round x - x) x
  rw [sub_add_cancel] at h5
  have := mul_le_mul_of_nonneg_right h2 (abs_nonneg x)
  linarith

/-- **C108 (j), finding.** `rotate()` can return an infinity although the exact image is a finite number of the format: with every matrix whose entries
are within 0.01 of the rotation by 60° about `(1, 1, 1)`, the vector `(c, c, c)`, `c = 7/8 · 2 ^ emax`, on the axis, is sent to a vector with
an infinite coefficient. -/
theorem C108_overflow (hf : AtLeastFloat f) (P : Prec) (m : M3) (hm : EntryClose (1 / 100) m sixty) :
    ∃ c : ℝ, f.round c = c ∧ c < 2 ^ f.emax ∧ act .mat sixty ⟨c, c, c⟩ = ⟨c, c, c⟩ ∧
      (f.arith.rotate P .mat (embM m) (emb3 ⟨c, c, c⟩)).y = .inf false := by
  obtain ⟨-, -, -, h1, h2, h3, -, -, -⟩ := hm
  have ok := alf_ok hf
  have e : (2 : ℝ) ^ f.emax = 8 * 2 ^ (f.emax - 3) := by
    rw [show (8 : ℝ) = 2 ^ (3 : ℤ) by norm_num, ← zpow_add₀ (by norm_num)]; congr 1; ring
  obtain ⟨b, hb⟩ : ∃ b : ℝ, b = 2 ^ (f.emax - 3) := ⟨_, rfl⟩
  have b1 : (8192 : ℝ) ≤ b := by rw [hb]; exact one_le_emax ok
  have c0 : 0 < 7 * b := by linarith
  refine ⟨7 * b, ?_, ?_, ?_, ?_⟩
  · have q : f.qexp (7 * b) ≤ f.emax - 3 := by
      refine max_le ?_ (by have := hf.emin; have := hf.emax; have := hf.p; omega)
      have := log_le (x := 7 * b) (j := f.emax - 1) c0 (by rw [sub_add_cancel, e, ← hb]; linarith)
      have := hf.p; omega
    have g : OnGrid (f.qexp (7 * b)) (7 * b) := by
      have := onGrid_of_le q 7
      rw [hb]; rw [← hb] at this ⊢; simpa using this
    exact le_antisymm (round_le le_rfl g) (le_round le_rfl g)
  · rw [e, ← hb]; linarith
  · rw [act_eq_dmat]
    change M3.mulVec sixty _ = _
    ext <;> simp [sixty, M3.mulVec] <;> ring
  · change f.arith.add (f.arith.add (f.arith.rnd (m.m10 * (7 * b))) (f.arith.rnd (m.m11 * (7 * b)))) (f.arith.rnd (m.m12 * (7 * b))) = _
    simp only [sixty] at h1 h2 h3
    obtain ⟨l1, u1⟩ := abs_le.mp h1
    obtain ⟨l2, u2⟩ := abs_le.mp h2
    obtain ⟨l3, u3⟩ := abs_le.mp h3
    have B : ∀ {x : ℝ}, |x| ≤ 69 / 100 → |x * (7 * b)| ≤ 9 / 10 * 2 ^ f.emax := fun {x} hx => by
      rw [abs_mul, abs_of_pos c0, e, ← hb]
      have := mul_le_mul_of_nonneg_right hx c0.le
      linarith
    have L : ∀ {x : ℝ}, 65 / 100 ≤ x → x ≤ 69 / 100 → 43 / 10 * b ≤ f.round (x * (7 * b)) := fun {x} h h' => by
      have hx := (rn ok).err (x * (7 * b))
      have p1 := mul_le_mul_of_nonneg_right h c0.le
      have p2 := mul_le_mul_of_nonneg_right h' c0.le
      rw [abs_of_nonneg (by linarith : 0 ≤ x * (7 * b))] at hx
      have hs := alf_small hf
      have := (abs_le.mp hx).1
      have k := mul_le_mul hs.1 p2 (by linarith) (by norm_num)
      linarith
    rw [fin_lt ok (B (by rw [abs_le]; constructor <;> linarith)), fin_lt ok (B (by rw [abs_le]; constructor <;> linarith)),
      fin_lt ok (B (by rw [abs_le]; constructor <;> linarith))]
    have s1 := L (x := m.m10) (by linarith) (by linarith)
    have s2 := L (x := m.m11) (by linarith) (by linarith)
    change f.arith.add (f.arith.rnd _) _ = _
    rw [rnd_inf ok (by rw [e, ← hb]; exact le_trans (by linarith) (le_abs_self _))]
    have : ¬ f.round (m.m10 * (7 * b)) + f.round (m.m11 * (7 * b)) < 0 := by rw [not_lt]; linarith
    rw [decide_eq_false this]; rfl

lemma sMul_tiny (hf : f.Ok) {s : ℝ} (h1 : 1 / 2 < s) (h2 : s ≤ 1) : f.round (s * 2 ^ f.emin) = 2 ^ f.emin := by
  have p : (0 : ℝ) < 2 ^ f.emin := by positivity
  have e : (2 : ℝ) ^ f.emin = 2 * 2 ^ (f.emin - 1) := by
    rw [show (2 : ℝ) * 2 ^ (f.emin - 1) = 2 ^ (1 : ℤ) * 2 ^ (f.emin - 1) by norm_num, ← zpow_add₀ (by norm_num)]; congr 1; ring
  have a0 : 0 ≤ s * 2 ^ f.emin := by positivity
  have r0 := round_nonneg (f := f) a0
  have r1 := round_le_pow hf le_rfl (x := s * 2 ^ f.emin) (by
    rw [abs_of_nonneg a0]
    have := mul_le_mul_of_nonneg_right h2 p.le
    linarith)
  have r2 : f.round (s * 2 ^ f.emin) ≠ 0 := by
    rw [Ne, round_eq_zero hf, abs_of_nonneg a0, not_le]
    have := mul_lt_mul_of_pos_right h1 p
    linarith
  exact le_antisymm ((le_abs_self _).trans r1) (gn_pos r0 (round_grid _) r2)

/-- **C108 (k), finding.** `rotate()` can return the zero vector for a nonzero vector: the rotation with columns `(√½, ½, ½)`, `(√½, -½, -½)`, `(0, √½, -√½)`,
stored with any rounded value `s` of `√½`, sends `(2 ^ emin, -2 ^ emin, 0)` to zero. -/
theorem C108_underflow (hf : AtLeastFloat f) (P : Prec) (s : ℝ) (h1 : 1 / 2 < s) (h2 : s ≤ 1) :
    f.arith.rotate P .mat (embM ⟨s, s, 0, 1 / 2, -1 / 2, s, 1 / 2, -1 / 2, -s⟩) (emb3 ⟨2 ^ f.emin, -2 ^ f.emin, 0⟩) = emb3 0 := by
  have ok := alf_ok hf
  have e : (2 : ℝ) ^ f.emin = 2 * 2 ^ (f.emin - 1) := by
    rw [show (2 : ℝ) * 2 ^ (f.emin - 1) = 2 ^ (1 : ℤ) * 2 ^ (f.emin - 1) by norm_num, ← zpow_add₀ (by norm_num)]; congr 1; ring
  have p : (0 : ℝ) < 2 ^ (f.emin - 1) := by positivity
  have z : ∀ {x : ℝ}, |x| ≤ 2 ^ (f.emin - 1) → f.arith.rnd x = .fin 0 := fun h => (rnd_eq_zero ok).mpr h
  have z0 : f.arith.rnd 0 = .fin 0 := f.arith.rnd_zero
  have tiny : (2 : ℝ) ^ f.emin ≤ 1 := pow_le_one ok
  have s0 : 0 < s := by linarith
  have a0 : 0 ≤ s * 2 ^ f.emin := by positivity
  have sm : |s * 2 ^ f.emin| ≤ 100 := by
    rw [abs_of_nonneg a0]
    have := mul_le_mul h2 tiny (by positivity) (by norm_num)
    linarith
  have r1 : f.arith.rnd (s * 2 ^ f.emin) = .fin (2 ^ f.emin) := by rw [small_fin hf sm, sMul_tiny ok h1 h2]
  have r2 : f.arith.rnd (s * -2 ^ f.emin) = .fin (-2 ^ f.emin) := by rw [mul_neg, small_fin hf (by rwa [abs_neg]), round_neg, sMul_tiny ok h1 h2]
  have hx : f.arith.dot3 ⟨.fin s, .fin s, .fin 0⟩ (emb3 ⟨2 ^ f.emin, -2 ^ f.emin, 0⟩) = .fin 0 := by
    change f.arith.add (f.arith.add (f.arith.rnd (s * 2 ^ f.emin)) (f.arith.rnd (s * -2 ^ f.emin))) (f.arith.rnd (0 * 0)) = _
    rw [r1, r2, mul_zero, z0]
    change f.arith.add (f.arith.rnd (2 ^ f.emin + -2 ^ f.emin)) _ = _
    rw [add_neg_cancel, z0]
    change f.arith.rnd (0 + 0) = _
    rw [add_zero, z0]
  have hy : ∀ c : ℝ, f.arith.dot3 ⟨.fin (1 / 2), .fin (-1 / 2), .fin c⟩ (emb3 ⟨2 ^ f.emin, -2 ^ f.emin, 0⟩) = .fin 0 := fun c => by
    change f.arith.add (f.arith.add (f.arith.rnd (1 / 2 * 2 ^ f.emin)) (f.arith.rnd (-1 / 2 * -2 ^ f.emin))) (f.arith.rnd (c * 0)) = _
    rw [z (by rw [e, show (1 / 2 * (2 * 2 ^ (f.emin - 1)) : ℝ) = 2 ^ (f.emin - 1) by ring, abs_of_pos p]),
      z (by rw [e, show (-1 / 2 * -(2 * 2 ^ (f.emin - 1)) : ℝ) = 2 ^ (f.emin - 1) by ring, abs_of_pos p]), mul_zero, z0]
    change f.arith.add (f.arith.rnd (0 + 0)) _ = _
    rw [add_zero, z0]
    change f.arith.rnd (0 + 0) = _
    rw [add_zero, z0]
  refine XV3.ext ?_ ?_ ?_
  · exact hx
  · exact hy s
  · exact hy (-s)

/-- The matrix of (k) with the exact `√½` is a rotation, and the exact image of the vector is as long as the vector. -/
example : Valid .mat (⟨Real.sqrt (1 / 2), Real.sqrt (1 / 2), 0, 1 / 2, -1 / 2, Real.sqrt (1 / 2), 1 / 2, -1 / 2, -Real.sqrt (1 / 2)⟩ : M3) ∧
    1 / 2 < Real.sqrt (1 / 2) ∧ Real.sqrt (1 / 2) ≤ 1 := by
  have h := Real.mul_self_sqrt (show (0 : ℝ) ≤ 1 / 2 by norm_num)
  refine ⟨?_, Real.lt_sqrt_of_sq_lt (by norm_num), Real.sqrt_le_one.mpr (by norm_num)⟩
  generalize Real.sqrt (1 / 2) = s at h
  refine ⟨?_, ?_⟩
  · ext <;> simp only [M3.mul_m00, M3.mul_m01, M3.mul_m02, M3.mul_m10, M3.mul_m11, M3.mul_m12, M3.mul_m20, M3.mul_m21, M3.mul_m22, M3.transpose] <;> simp <;> nlinarith
  · simp only [M3.det]; nlinarith

set_option exponentiation.threshold 3000 in
/-- `double`: rotation after any renormalized loop keeps lengths from `1e-307` to `1e307` up to `1e-14`. -/
theorem C108_double (P : Prec) (q : Quat) (l : List Quat) (hq : Moderate q) (hl : ∀ r ∈ l, Moderate r) (hne : l ≠ []) (v : V3)
    (hn : 1 / 10 ^ 307 ≤ v.norm) (hv : v.norm ≤ 10 ^ 307) :
    ∃ w, Format.double.arith.rotate P .quat (fixedLoop Format.double.arith P (embQ q) (l.map embQ)) (emb3 v) = emb3 w ∧
      |w.norm - v.norm| ≤ 1 / 10 ^ 14 * v.norm := by
  obtain ⟨w, h1, h2⟩ := C108_loop_rotate double_alf P q l hq hl hne v (le_trans (by norm_num [Format.double]) hn) (hv.trans (by norm_num [Format.double]))
  exact ⟨w, h1, h2.trans (mul_le_mul_of_nonneg_right (by norm_num [Format.double]) v.norm_nonneg)⟩

/-- `float`: from `1e-37` to `1e37` up to `1e-5`. -/
theorem C108_float (P : Prec) (q : Quat) (l : List Quat) (hq : Moderate q) (hl : ∀ r ∈ l, Moderate r) (hne : l ≠ []) (v : V3)
    (hn : 1 / 10 ^ 37 ≤ v.norm) (hv : v.norm ≤ 10 ^ 37) :
    ∃ w, Format.float.arith.rotate P .quat (fixedLoop Format.float.arith P (embQ q) (l.map embQ)) (emb3 v) = emb3 w ∧
      |w.norm - v.norm| ≤ 1 / 10 ^ 5 * v.norm := by
  obtain ⟨w, h1, h2⟩ := C108_loop_rotate float_alf P q l hq hl hne v (le_trans (by norm_num [Format.float]) hn) (hv.trans (by norm_num [Format.float]))
  exact ⟨w, h1, h2.trans (mul_le_mul_of_nonneg_right (by norm_num [Format.float]) v.norm_nonneg)⟩

/-- The hypotheses are met: a quaternion of length five, a vector of extreme length, a stored quaternion off the unit sphere. -/
example : Moderate ⟨3, 0, 4, 0⟩ ∧ (⟨0, 1 / 10 ^ 300, 0⟩ : V3).norm = 1 / 10 ^ 300 ∧ Valid .quat (⟨3 / 5, 0, 4 / 5, 0⟩ : Quat) ∧
    ‖toH ⟨3 / 5, 0, 4 / 5, 1 / 1000⟩ - toH ⟨3 / 5, 0, 4 / 5, 0⟩‖ ≤ 1 / 300 ∧ EntryClose (1 / 100) ⟨0.66, -0.33, 0.67, 0.66, 0.67, -0.33, -0.33, 0.66, 0.67⟩ sixty := by
  refine ⟨?_, ?_, ?_, ?_, ?_⟩
  · have : (⟨3, 0, 4, 0⟩ : Quat).norm = 5 := by
      rw [Quat.norm, Quat.normSq, show (3 * 3 + 0 * 0 + 4 * 4 + 0 * 0 : ℝ) = 5 ^ 2 by norm_num, Real.sqrt_sq (by norm_num)]
    unfold Moderate; rw [this]; norm_num
  · rw [V3.norm, V3.normSq, V3.dot]
    simp only [mul_zero, zero_add, add_zero]
    rw [← sq, Real.sqrt_sq (by positivity)]
  · rw [valid_quat_iff]; norm_num [Quat.normSq]
  · have : toH ⟨3 / 5, 0, 4 / 5, 1 / 1000⟩ - toH ⟨3 / 5, 0, 4 / 5, 0⟩ = toH ⟨0, 0, 0, 1 / 1000⟩ := by
      ext <;> simp
    rw [this, norm_toH, Quat.norm, Quat.normSq]
    simp only [mul_zero, zero_add, add_zero]
    rw [← sq, Real.sqrt_sq (by positivity)]; norm_num
  · unfold EntryClose sixty
    simp only [abs_le]; norm_num

end Format
end Kindr
