import Verif.Props.Range2

set_option autoImplicit false

open Classical

noncomputable section
namespace Kindr
open Spec
namespace Format
variable {f : Format}

/-! ## When `setFromVectors` throws -/

/-- A nonzero norm is at least about the square root of the smallest positive number. -/
lemma norm_lower (hf : f.Ok) {v : V3} {z n : ℝ} (hz : f.arith.normSq3 (emb3 v) = .fin z) (hn : f.arith.norm3 (emb3 v) = .fin n) (h : z ≠ 0) :
    0 < z ∧ 2 ^ f.emin ≤ z ∧ 99 / 100 * Real.sqrt z ≤ n := by
  have g := gn_normSq (f := f) v
  rw [hz] at g
  obtain ⟨r, r0, rg, hr⟩ := g.resolve_left fin_ne_inf
  injection hr with hr
  subst hr
  have h1 := gn_pos r0 rg h
  have zp : 0 < z := lt_of_le_of_ne r0 (Ne.symm h)
  refine ⟨zp, h1, ?_⟩
  simp only [XArith.norm3, hz, XArith.sqrt, if_neg (not_lt.mpr r0)] at hn
  obtain ⟨-, hn⟩ := rnd_fin_lt hn
  have e := err hf (Real.sqrt z)
  rw [← hn, abs_of_nonneg (Real.sqrt_nonneg z)] at e
  have u1 := uu_le hf
  have s0 := Real.sqrt_nonneg z
  have us : f.uu * Real.sqrt z ≤ 1 / 256 * Real.sqrt z := mul_le_mul_of_nonneg_right u1 s0
  have hη : f.eta ≤ 1 / 256 * Real.sqrt z := by
    have hs : Real.sqrt (2 ^ f.emin) ≤ Real.sqrt z := Real.sqrt_le_sqrt h1
    have t0 := Real.sqrt_nonneg ((2 : ℝ) ^ f.emin)
    have t2 := Real.sq_sqrt (by positivity : (0 : ℝ) ≤ 2 ^ f.emin)
    have e2 : (2 : ℝ) ^ f.emin = 2 * f.eta := by
      unfold eta; rw [← zpow_one_add₀ (by norm_num)]; congr 1; ring
    have t1 : Real.sqrt (2 ^ f.emin) ≤ 1 / 128 := by
      refine Real.sqrt_le_iff.mpr ⟨by norm_num, ?_⟩
      calc (2 : ℝ) ^ f.emin ≤ 2 ^ (-14 : ℤ) := zpow_le_zpow_right₀ (by norm_num) (by have := hf.emin; have := hf.p; omega)
        _ = _ := by norm_num
    have t3 := mul_le_mul_of_nonneg_left t1 t0
    have t4 : 2 * f.eta = Real.sqrt (2 ^ f.emin) * Real.sqrt (2 ^ f.emin) := by rw [← e2, ← sq, t2]
    linarith
  obtain ⟨e1, -⟩ := abs_le.mp e
  linarith

/-- **C105 (d), finding.** `setFromVectors(v, w)` throws "At least one vector has zero length" exactly if all coefficients of one vector are tiny,
also if it is not zero, and the length of the other one does not overflow (`inf * 0` is NaN and passes the check). -/
theorem C105_throws (hf : f.Ok) (P : Prec) (dpE : ℝ) (svd : XV3 → XV3 → XV3) (k : Kind) (v w : V3) :
    f.arith.setFromVectors P dpE svd k (emb3 v) (emb3 w) = .throws ↔
      (Tiny f v ∧ f.arith.norm3 (emb3 w) ≠ .inf false) ∨ (Tiny f w ∧ f.arith.norm3 (emb3 v) ≠ .inf false) := by
  have key : f.arith.setFromVectors P dpE svd k (emb3 v) (emb3 w) = .throws ↔
      (f.arith.mul (f.arith.norm3 (emb3 v)) (f.arith.norm3 (emb3 w))).eq (.fin 0) := by
    unfold XArith.setFromVectors
    by_cases h : (f.arith.mul (f.arith.norm3 (emb3 v)) (f.arith.norm3 (emb3 w))).eq (.fin 0)
    · simp [h]
    · simp [h]
  rw [key, ← C105_norm_zero hf, ← C105_norm_zero hf]
  have zf : ∀ (v : V3) (n : ℝ), f.arith.norm3 (emb3 v) = .fin n → n ≠ 0 → 98 / 100 * 2 ^ f.emin ≤ n ^ 2 ∧ 0 < n := by
    intro v n hn h0
    rcases gn_normSq (f := f) v with g | ⟨z, z0, -, g⟩
    · have := (norm_inf hf v).mpr g
      rw [hn] at this; exact absurd this fin_ne_inf
    · have hz : z ≠ 0 := by
        rintro rfl
        have := (normSq_zero hf v).mp g
        rw [(C105_norm_zero hf v).mpr this] at hn
        injection hn with hn
        exact h0 hn.symm
      obtain ⟨a, b, c⟩ := norm_lower hf g hn hz
      have s2 := Real.sq_sqrt z0
      have sp := Real.sqrt_pos.mpr a
      exact ⟨by nlinarith, by linarith⟩
  rcases gn_norm (f := f) v with g1 | ⟨n, n0, -, g1⟩ <;> rcases gn_norm (f := f) w with g2 | ⟨m, m0, -, g2⟩ <;> rw [g1, g2]
  · simp [XArith.mul, XR.eq]
  · simp only [XArith.mul]
    split_ifs with h
    · simp [XR.eq]
    · simp [XR.eq]
  · simp only [XArith.mul]
    split_ifs with h
    · simp [XR.eq]
    · simp [XR.eq]
  · have e : (f.arith.mul (.fin n) (.fin m)).eq (.fin 0) ↔ f.arith.rnd (n * m) = .fin 0 := by
      change (f.arith.rnd (n * m)).eq (.fin 0) ↔ _
      cases f.arith.rnd (n * m) <;> simp [XR.eq]
    rw [e, rnd_eq_zero hf]
    simp only [XR.fin.injEq, ne_eq, reduceCtorEq, not_false_eq_true, and_true]
    constructor
    · intro h
      by_contra hc
      push Not at hc
      obtain ⟨a1, a2⟩ := zf v n g1 hc.1
      obtain ⟨b1, b2⟩ := zf w m g2 hc.2
      rw [abs_of_pos (by positivity)] at h
      have e2 : (2 : ℝ) ^ f.emin = 2 * 2 ^ (f.emin - 1) := by
        rw [← zpow_one_add₀ (by norm_num)]; congr 1; ring
      have hp : (0 : ℝ) < 2 ^ (f.emin - 1) := by positivity
      rw [e2] at a1 b1
      have : (98 / 100 * (2 * 2 ^ (f.emin - 1))) ^ 2 ≤ (n * m) ^ 2 := by
        calc (98 / 100 * (2 * (2 : ℝ) ^ (f.emin - 1))) ^ 2 = (98 / 100 * (2 * 2 ^ (f.emin - 1))) * (98 / 100 * (2 * 2 ^ (f.emin - 1))) := by ring
          _ ≤ n ^ 2 * m ^ 2 := mul_le_mul a1 b1 (by positivity) (by positivity)
          _ = _ := by ring
      have h3 : (n * m) ^ 2 ≤ (2 ^ (f.emin - 1)) ^ 2 := pow_le_pow_left₀ (by positivity) h 2
      nlinarith
    · rintro (rfl | rfl) <;> simp <;> positivity

/-! ## Vectors whose length overflows -/

/-- `normalized()` never returns infinite numbers. -/
lemma normalized_fin (hf : f.Ok) (v : V3) : ∃ w : V3, f.arith.normalized (emb3 v) = emb3 w ∧ |w.x| ≤ 2 ∧ |w.y| ≤ 2 ∧ |w.z| ≤ 2 := by
  rcases gn_normSq (f := f) v with g | ⟨z, z0, zg, g⟩
  · exact ⟨0, (C105_overflow hf v).2 ((norm_inf hf v).mpr g), by simp [V3.zero_x], by simp [V3.zero_y], by simp [V3.zero_z]⟩
  rcases eq_or_ne z 0 with rfl | hz
  · obtain ⟨t1, t2, t3⟩ := (normSq_zero hf v).mp g
    have h1 : (2 : ℝ) ^ (f.emin - 1) ≤ 2 ^ 2 := le_trans half_lt.le ((pow_le_one hf).trans (by norm_num))
    refine ⟨v, ?_, abs_le_of_sq_le_sq (t1.trans h1) (by norm_num), abs_le_of_sq_le_sq (t2.trans h1) (by norm_num), abs_le_of_sq_le_sq (t3.trans h1) (by norm_num)⟩
    unfold XArith.normalized
    rw [g, if_neg (by simp [XR.lt])]
  have hn : ∃ n, f.arith.norm3 (emb3 v) = .fin n := by
    rcases gn_norm (f := f) v with h | ⟨n, -, -, h⟩
    · rw [(norm_inf hf v).mp h] at g; exact absurd g.symm fin_ne_inf
    · exact ⟨n, h⟩
  obtain ⟨n, hn⟩ := hn
  obtain ⟨zp, ze, nl⟩ := norm_lower hf g hn hz
  have g' := g
  simp only [XArith.normSq3, emb3] at g'
  have hη : f.eta ≤ z / 2 := by
    have e2 : (2 : ℝ) ^ f.emin = 2 * f.eta := by
      unfold eta; rw [← zpow_one_add₀ (by norm_num)]; congr 1; ring
    linarith
  have u1 := uu_le hf
  -- one step: an argument of a finite sum of squares is bounded by the sum
  have step : ∀ {a b : XR} {r : ℝ}, f.GN a → f.GN b → f.arith.add a b = .fin r →
      (∃ s, 0 ≤ s ∧ a = .fin s ∧ s * (255 / 256) ≤ r + f.eta) ∧ (∃ s, 0 ≤ s ∧ b = .fin s ∧ s * (255 / 256) ≤ r + f.eta) := by
    intro a b r ha hb hr
    rcases ha with rfl | ⟨s, s0, -, rfl⟩ <;> rcases hb with rfl | ⟨t, t0, -, rfl⟩
    · simp [XArith.add] at hr
    · simp [XArith.add] at hr
    · simp [XArith.add] at hr
    · obtain ⟨-, hr⟩ := rnd_fin_lt (x := s + t) hr
      have e := err hf (s + t)
      rw [← hr, abs_of_nonneg (add_nonneg s0 t0)] at e
      have := mul_le_mul_of_nonneg_right u1 (add_nonneg s0 t0)
      obtain ⟨e1, -⟩ := abs_le.mp e
      exact ⟨⟨s, s0, rfl, by linarith⟩, ⟨t, t0, rfl, by linarith⟩⟩
  have sqs : ∀ {x r : ℝ}, f.arith.mul (.fin x) (.fin x) = .fin r → x ^ 2 * (255 / 256) ≤ r + f.eta := by
    intro x r hr
    obtain ⟨-, hr⟩ := rnd_fin_lt (x := x * x) hr
    have e := err hf (x * x)
    rw [← hr, abs_mul_self, ← sq] at e
    have := mul_le_mul_of_nonneg_right u1 (sq_nonneg x)
    obtain ⟨e1, -⟩ := abs_le.mp e
    linarith
  obtain ⟨⟨a, a0, ha, ha'⟩, ⟨t, t0, ht, ht'⟩⟩ := step (gn_sq _) (gn_add (gn_sq _) (gn_sq _)) g'
  obtain ⟨⟨b, b0, hb, hb'⟩, ⟨c, c0, hc, hc'⟩⟩ := step (gn_sq _) (gn_sq _) ht
  have qa := sqs ha; have qb := sqs hb; have qc := sqs hc
  have sp := Real.sqrt_pos.mpr zp
  have np : 0 < n := by linarith
  have s2 := Real.sq_sqrt zp.le
  have q : ∀ x : ℝ, x ^ 2 ≤ 26 / 10 * z → f.arith.div (.fin x) (.fin n) = .fin (f.round (x / n)) ∧ |f.round (x / n)| ≤ 2 := by
    intro x hx
    have h1 : |x| ≤ 2 * n := by
      refine abs_le_of_sq_le_sq ?_ (by positivity)
      have : (99 / 100 * Real.sqrt z) ^ 2 ≤ n ^ 2 := pow_le_pow_left₀ (by positivity) nl 2
      rw [mul_pow, s2] at this
      rw [mul_pow]
      linarith
    have h2 : |x / n| ≤ 2 ^ (1 : ℤ) := by
      rw [abs_div, abs_of_pos np, div_le_iff₀ np]; norm_num; exact h1
    have e1 := hf.p; have e2 := hf.emin; have e3 := hf.emax
    refine ⟨?_, ?_⟩
    · simp only [XArith.div, if_neg np.ne']
      exact rnd_fin hf (j := 1) (by omega) (by omega) h2
    · have := round_le_pow hf (j := 1) (by omega) h2
      norm_num at this; exact this
  have qx := q v.x (by linarith); have qy := q v.y (by linarith); have qz := q v.z (by linarith)
  refine ⟨⟨f.round (v.x / n), f.round (v.y / n), f.round (v.z / n)⟩, ?_, qx.2, qy.2, qz.2⟩
  unfold XArith.normalized
  rw [g, if_pos (by exact zp), hn]
  simp only [XArith.divV, emb3, qx.1, qy.1, qz.1]

lemma round_pow (hf : f.Ok) {j : ℤ} (h1 : f.emin ≤ j) : f.round (2 ^ j) = 2 ^ j := by
  have a := round_le_pow hf h1 (x := (2 : ℝ) ^ j) (by rw [abs_of_pos (by positivity)])
  have b := pow_le_round hf h1 (x := (2 : ℝ) ^ j) (by rw [abs_of_pos (by positivity)])
  have c := round_nonneg (f := f) (x := (2 : ℝ) ^ j) (by positivity)
  rw [abs_of_nonneg c] at a b
  exact le_antisymm a b

lemma rnd_pow (hf : f.Ok) {j : ℤ} (h1 : f.emin ≤ j) (h2 : j < f.emax) : f.arith.rnd (2 ^ j) = .fin (2 ^ j) := by
  rw [rnd_fin hf h1 h2 (by rw [abs_of_pos (by positivity)]), round_pow hf h1]

/-- `setFromTwoVectors` when one of the normalized vectors is zero. -/
lemma two_vectors_zero (hf : f.Ok) {dp : ℝ} (hdp : dp ≤ 1) (svd : XV3 → XV3 → XV3) (a b : XV3) (v w : V3)
    (ha : f.arith.normalized a = emb3 v) (hb : f.arith.normalized b = emb3 w) (h0 : v = 0 ∨ w = 0) :
    ∃ q : ℝ, f.arith.quatFromTwoVectors dp svd a b = embQ ⟨q, 0, 0, 0⟩ ∧ 7 / 10 ≤ q ∧ q ≤ 72 / 100 := by
  have e1 := hf.p; have e2 := hf.emin; have e3 := hf.emax
  have r0 := f.arith.rnd_zero
  have r1 : f.arith.rnd 1 = .fin 1 := by simpa using rnd_pow hf (j := 0) (by omega) (by omega)
  have r2 : f.arith.rnd 2 = .fin 2 := by simpa using rnd_pow hf (j := 1) (by omega) (by omega)
  have m0 : ∀ x y : ℝ, x = 0 ∨ y = 0 → f.arith.mul (.fin x) (.fin y) = .fin 0 := by
    intro x y h
    change f.arith.rnd (x * y) = _
    rw [mul_eq_zero.mpr h, r0]
  have a0 : f.arith.add (.fin 0) (.fin 0) = .fin 0 := by change f.arith.rnd (0 + 0) = _; rw [add_zero, r0]
  have hs2 : Real.sqrt 2 ≤ 1415 / 1000 := Real.sqrt_le_iff.mpr ⟨by norm_num, by norm_num⟩
  have hs1 : 1414 / 1000 ≤ Real.sqrt 2 := Real.le_sqrt_of_sq_le (by norm_num)
  have u1 := uu_le hf
  have u0 := uu_pos (f := f)
  have n0 := eta_pos (f := f)
  have n1 : f.eta ≤ 1 / 2 ^ 12 := by
    unfold eta
    calc (2 : ℝ) ^ (f.emin - 1) ≤ 2 ^ (-12 : ℤ) := zpow_le_zpow_right₀ (by norm_num) (by omega)
      _ = _ := by norm_num
  have es := err hf (Real.sqrt 2)
  have Fs : f.arith.rnd (Real.sqrt 2) = .fin (f.round (Real.sqrt 2)) := rnd_fin hf (j := 1) (by omega) (by omega) (by
    rw [abs_of_nonneg (Real.sqrt_nonneg 2), zpow_one]; linarith)
  rw [abs_of_nonneg (Real.sqrt_nonneg 2)] at es
  obtain ⟨s, hs⟩ : ∃ s, s = f.round (Real.sqrt 2) := ⟨_, rfl⟩
  rw [← hs] at es Fs
  obtain ⟨es1, es2⟩ := abs_le.mp es
  have us : f.uu * Real.sqrt 2 ≤ 1 / 256 * (1415 / 1000) := mul_le_mul u1 hs2 (Real.sqrt_nonneg 2) (by norm_num)
  have s1 : 1408 / 1000 ≤ s := by linarith
  have s2 : s ≤ 1421 / 1000 := by linarith
  have Fi : ∃ i, f.arith.div (.fin 1) (.fin s) = .fin i := by
    refine ⟨f.round (1 / s), ?_⟩
    · simp only [XArith.div, if_neg (show s ≠ 0 by linarith)]
      refine rnd_fin hf (j := 0) (by omega) (by omega) ?_
      rw [abs_of_pos (by positivity), zpow_zero, div_le_one (by linarith)]; linarith
  obtain ⟨i, hi⟩ := Fi
  have eh := err hf (s * (1 / 2))
  have Fh : f.arith.rnd (s * (1 / 2)) = .fin (f.round (s * (1 / 2))) := rnd_fin hf (j := 0) (by omega) (by omega) (by
    rw [abs_of_pos (by linarith), zpow_zero]; linarith)
  rw [abs_of_pos (show 0 < s * (1 / 2) by linarith)] at eh
  have uh : f.uu * (s * (1 / 2)) ≤ 1 / 256 * (1421 / 2000) := mul_le_mul u1 (by linarith) (by linarith) (by norm_num)
  obtain ⟨eh1, eh2⟩ := abs_le.mp eh
  refine ⟨f.round (s * (1 / 2)), ?_, by linarith, by linarith⟩
  have hz : ∀ x y : ℝ, (x = 0 ∨ y = 0) → f.arith.sub (f.arith.mul (.fin x) (.fin y)) (f.arith.mul (.fin 0) (.fin 0)) = .fin 0 := by
    intro x y h
    rw [m0 x y h, m0 0 0 (.inl rfl)]; change f.arith.add (.fin 0) (.fin (-0)) = _; rw [neg_zero, a0]
  have hsub : f.arith.sub (.fin 0) (.fin 0) = .fin 0 := by change f.arith.add (.fin 0) (.fin (-0)) = _; rw [neg_zero, a0]
  have hc : f.arith.dot3 (f.arith.normalized b) (f.arith.normalized a) = .fin 0 := by
    rw [ha, hb]
    simp only [XArith.dot3, emb3]
    rcases h0 with rfl | rfl
    · rw [m0 _ _ (.inr V3.zero_x), m0 _ _ (.inr V3.zero_y), m0 _ _ (.inr V3.zero_z), a0, a0]
    · rw [m0 _ _ (.inl V3.zero_x), m0 _ _ (.inl V3.zero_y), m0 _ _ (.inl V3.zero_z), a0, a0]
  have hx : f.arith.crossV (f.arith.normalized a) (f.arith.normalized b) = emb3 0 := by
    rw [ha, hb]
    simp only [XArith.crossV, emb3]
    rcases h0 with rfl | rfl
    · rw [m0 _ _ (.inl V3.zero_x), m0 _ _ (.inl V3.zero_x), m0 _ _ (.inl V3.zero_y), m0 _ _ (.inl V3.zero_y), m0 _ _ (.inl V3.zero_z),
        m0 _ _ (.inl V3.zero_z), hsub]; rfl
    · rw [m0 _ _ (.inr V3.zero_x), m0 _ _ (.inr V3.zero_x), m0 _ _ (.inr V3.zero_y), m0 _ _ (.inr V3.zero_y), m0 _ _ (.inr V3.zero_z),
        m0 _ _ (.inr V3.zero_z), hsub]; rfl
  unfold XArith.quatFromTwoVectors
  simp only [hc, hx]
  rw [if_neg (show ¬ (XR.fin 0).lt (.fin (-1 + dp)) by change ¬ ((0 : ℝ) < -1 + dp); linarith)]
  have k1 : f.arith.add (.fin 1) (.fin 0) = .fin 1 := by change f.arith.rnd (1 + 0) = _; rw [add_zero, r1]
  have k2 : f.arith.mul (.fin 1) (.fin 2) = .fin 2 := by change f.arith.rnd (1 * 2) = _; rw [one_mul, r2]
  have k3 : f.arith.sqrt (.fin 2) = .fin s := by
    simp only [XArith.sqrt, if_neg (show ¬ (2 : ℝ) < 0 by norm_num), Fs]
  have k4 : f.arith.mul (.fin s) (.fin (1 / 2)) = .fin (f.round (s * (1 / 2))) := Fh
  have k5 : f.arith.mul (.fin 0) (.fin i) = .fin 0 := m0 _ _ (.inl rfl)
  rw [k1, k2, k3, hi, k4]
  simp only [emb3, V3.zero_x, V3.zero_y, V3.zero_z, k5]
  rfl

lemma emb3_inj {v w : V3} (h : emb3 v = emb3 w) : v = w := by
  simp only [emb3, XV3.mk.injEq, XR.fin.injEq] at h
  exact V3.ext h.1 h.2.1 h.2.2

/-- **C105 (e), finding.** If the length of one vector overflows, `setFromVectors` does not throw but returns a quaternion of length about 0.71,
whatever the other vector is (also the zero vector). -/
theorem C105_huge (hf : f.Ok) (P : Prec) {dp : ℝ} (hdp : dp ≤ 1) (svd : XV3 → XV3 → XV3) (v w : V3)
    (h : f.arith.norm3 (emb3 v) = .inf false ∨ f.arith.norm3 (emb3 w) = .inf false) :
    ∃ q : ℝ, f.arith.setFromVectors P dp svd .quat (emb3 v) (emb3 w) = .ok (embQ ⟨q, 0, 0, 0⟩) ∧ 7 / 10 ≤ q ∧ q ≤ 72 / 100 := by
  obtain ⟨a, ha, -⟩ := normalized_fin hf v
  obtain ⟨b, hb, -⟩ := normalized_fin hf w
  have h0 : a = 0 ∨ b = 0 := by
    rcases h with h | h
    · left; have := ha.symm.trans ((C105_overflow hf v).2 h); exact emb3_inj this
    · right; have := hb.symm.trans ((C105_overflow hf w).2 h); exact emb3_inj this
  obtain ⟨q, hq, q1, q2⟩ := two_vectors_zero hf hdp svd _ _ a b ha hb h0
  refine ⟨q, ?_, q1, q2⟩
  have hn : ¬ (f.arith.mul (f.arith.norm3 (emb3 v)) (f.arith.norm3 (emb3 w))).eq (.fin 0) := by
    rcases gn_norm (f := f) v with g1 | ⟨n, n0, -, g1⟩ <;> rcases gn_norm (f := f) w with g2 | ⟨m, m0, -, g2⟩ <;> rw [g1, g2]
    · simp [XArith.mul, XR.eq]
    · simp only [XArith.mul]; split_ifs <;> simp [XR.eq]
    · simp only [XArith.mul]; split_ifs <;> simp [XR.eq]
    · rw [g1, g2] at h; simp at h
  unfold XArith.setFromVectors
  rw [if_pos hn, hq]
  rfl

end Format
end Kindr
