import Verif.Props.Align4

set_option autoImplicit false

open Classical

noncomputable section
namespace Kindr
open Spec
namespace Format
variable {f : Format}

/-- A quaternion close to a unit quaternion has length close to one. -/
lemma norm_near {q q₀ : Quat} {e : ℝ} (h0 : q₀.normSq = 1) (he : e ≤ 1 / 1000) (hw : |q.w - q₀.w| ≤ e) (hx : |q.x - q₀.x| ≤ e) (hy : |q.y - q₀.y| ≤ e)
    (hz : |q.z - q₀.z| ≤ e) : |Real.sqrt (q.w ^ 2 + q.x ^ 2 + q.y ^ 2 + q.z ^ 2) - 1| ≤ 202 / 100 * e := by
  have e0 : 0 ≤ e := le_trans (abs_nonneg _) hw
  obtain ⟨a, ha⟩ : ∃ a, a = q.w - q₀.w := ⟨_, rfl⟩
  obtain ⟨b, hb⟩ : ∃ a, a = q.x - q₀.x := ⟨_, rfl⟩
  obtain ⟨c, hc⟩ : ∃ a, a = q.y - q₀.y := ⟨_, rfl⟩
  obtain ⟨d, hd⟩ : ∃ a, a = q.z - q₀.z := ⟨_, rfl⟩
  rw [← ha] at hw; rw [← hb] at hx; rw [← hc] at hy; rw [← hd] at hz
  have h0' : q₀.w ^ 2 + q₀.x ^ 2 + q₀.y ^ 2 + q₀.z ^ 2 = 1 := by rw [← h0]; unfold Quat.normSq; ring
  have e1 : q.w ^ 2 + q.x ^ 2 + q.y ^ 2 + q.z ^ 2 = 1 + 2 * (q₀.w * a + q₀.x * b + q₀.y * c + q₀.z * d) + (a ^ 2 + b ^ 2 + c ^ 2 + d ^ 2) := by
    rw [← h0', ha, hb, hc, hd]; ring
  have s4 : |q₀.w| + |q₀.x| + |q₀.y| + |q₀.z| ≤ 2 := by
    rw [← sq_abs q₀.w, ← sq_abs q₀.x, ← sq_abs q₀.y, ← sq_abs q₀.z] at h0'
    nlinarith [sq_nonneg (|q₀.w| - 1 / 2), sq_nonneg (|q₀.x| - 1 / 2), sq_nonneg (|q₀.y| - 1 / 2), sq_nonneg (|q₀.z| - 1 / 2)]
  have l : |q₀.w * a + q₀.x * b + q₀.y * c + q₀.z * d| ≤ 2 * e := by
    have t1 : ∀ x y : ℝ, |y| ≤ e → |x * y| ≤ |x| * e := fun x y h => by rw [abs_mul]; exact mul_le_mul_of_nonneg_left h (abs_nonneg x)
    have k1 := t1 q₀.w a hw; have k2 := t1 q₀.x b hx; have k3 := t1 q₀.y c hy; have k4 := t1 q₀.z d hz
    have j1 := abs_add_le (q₀.w * a + q₀.x * b + q₀.y * c) (q₀.z * d)
    have j2 := abs_add_three (q₀.w * a) (q₀.x * b) (q₀.y * c)
    have j3 := mul_le_mul_of_nonneg_right s4 e0
    linarith
  have sqs : ∀ x : ℝ, |x| ≤ e → x ^ 2 ≤ e ^ 2 := fun x h => sq_le_sq' (by linarith [(abs_le.mp h).1]) (abs_le.mp h).2
  have k1 := sqs a hw; have k2 := sqs b hx; have k3 := sqs c hy; have k4 := sqs d hz
  have ee : e ^ 2 ≤ e / 1000 := by nlinarith
  rw [e1]
  obtain ⟨l1, l2⟩ := abs_le.mp l
  have p : 0 ≤ a ^ 2 + b ^ 2 + c ^ 2 + d ^ 2 := by positivity
  obtain ⟨Z, hZ⟩ : ∃ Z, Z = 1 + 2 * (q₀.w * a + q₀.x * b + q₀.y * c + q₀.z * d) + (a ^ 2 + b ^ 2 + c ^ 2 + d ^ 2) := ⟨_, rfl⟩
  rw [← hZ]
  have z1 : 1 - 4 * e ≤ Z := by linarith
  have z2 : Z ≤ 1 + 4004 / 1000 * e := by linarith
  rw [abs_le]
  constructor
  · have : 1 - 202 / 100 * e ≤ Real.sqrt Z := Real.le_sqrt_of_sq_le (by
      rw [show (1 - 202 / 100 * e) ^ 2 = 1 - 404 / 100 * e + (202 / 100) ^ 2 * e ^ 2 by ring]; linarith)
    linarith
  · have : Real.sqrt Z ≤ 1 + 202 / 100 * e := Real.sqrt_le_iff.mpr ⟨by linarith, by
      rw [show (1 + 202 / 100 * e) ^ 2 = 1 + 404 / 100 * e + (202 / 100) ^ 2 * e ^ 2 by ring]; linarith [sq_nonneg e]⟩
    linarith

/-- **C106 (b).** If the two directions are not too close to opposite, `setFromVectors` of quaternions does not throw in a debug build either. -/
theorem C106_debug (hf : f.Ok) (hp : 24 ≤ f.p) (P : Prec) {dp : ℝ} (svd : XV3 → XV3 → XV3) {v w : V3} (hv : InRange f v) (hw : InRange f w)
    (hdp : dp + 25 * 2⁻¹ ^ f.p ≤ 1 + (dir w).dot (dir v)) (hd : 1100000 * 2⁻¹ ^ f.p ≤ 1 + (dir w).dot (dir v)) :
    f.arith.setFromVectorsDbg P dp svd .quat (emb3 v) (emb3 w) = f.arith.setFromVectors P dp svd .quat (emb3 v) (emb3 w) := by
  have u0 : (0 : ℝ) < 2⁻¹ ^ f.p := by positivity
  obtain ⟨q, q₀, hq, ⟨h0, -⟩, e1, e2, e3, e4⟩ := C106_accuracy hf hp P svd hv hw hdp (by linarith)
  have dpos : 0 < 1 + (dir w).dot (dir v) := by linarith
  have he : 50 * 2⁻¹ ^ f.p / (1 + (dir w).dot (dir v)) ≤ 1 / 22000 := by
    rw [div_le_iff₀ dpos]; linarith
  generalize 50 * 2⁻¹ ^ f.p / (1 + (dir w).dot (dir v)) = e at *
  have nn := norm_near h0 (by linarith) e1 e2 e3 e4
  have u1 : f.uu ≤ 1 / 10 ^ 7 := by have := (rd hf hp).le; norm_num at this ⊢; linarith
  obtain ⟨n1, n2⟩ := abs_le.mp nn
  obtain ⟨N, hN, eN⟩ := quatNorm_err hf hp (q := q) (Real.sqrt_nonneg _) (Real.sq_sqrt (by positivity)) (by linarith) (by linarith)
  obtain ⟨N1, N2⟩ := abs_le.mp eN
  have ck := (dbg_check hf hp hN (by linarith) (by linarith)).1 (by rw [abs_le]; constructor <;> linarith)
  rw [hq]
  unfold XArith.setFromVectors at hq
  unfold XArith.setFromVectorsDbg
  split_ifs at hq ⊢ with h
  have hq' : f.arith.quatFromTwoVectors dp svd (emb3 v) (emb3 w) = embQ q := by injection hq
  rw [hq', ck]
  rfl

/-! ## Nearly opposite vectors in `float` -/

private lemma fl_n (n k : ℤ) (hn : |n| < 2 ^ 24) (h : (2 : ℝ) ^ (-100 : ℤ) ≤ |(n : ℝ) * 2 ^ k|) (h' : |(n : ℝ) * 2 ^ k| ≤ 5) :
    Format.float.arith.rnd (n * 2 ^ k) = .fin (n * 2 ^ k) := by
  rw [rnd_small float_ok h', round_float float_ok ⟨n, k, hn, rfl⟩ (le_trans (zpow_le_zpow_right₀ (by norm_num) (by norm_num [Format.float])) h)]

/-- Rounding to `float` between one and two. -/
private lemma fl_12 {x : ℝ} (n : ℤ) (h1 : 1 ≤ x) (h2 : x < 2) (h : |x * 2 ^ 23 - n| < 1 / 2) : Format.float.arith.rnd x = .fin (n / 2 ^ 23) := by
  rw [rnd_small float_ok (by rw [abs_of_pos (by linarith)]; linarith),
    round_eq_roundEven (by rw [abs_of_pos (by linarith)]; exact le_trans (zpow_le_one_of_nonpos₀ (by norm_num) (by norm_num [Format.float])) h1)]
  rw [show Format.float.p = 24 from rfl, roundEven_eq (e := 0) (by norm_num; exact h1) (by norm_num; exact h2)]
  have : x / 2 ^ ((0 : ℤ) - (((24 : ℕ) : ℤ) - 1)) = x * 2 ^ 23 := by norm_num; ring
  rw [this, roundTiesEven_of_near h]
  norm_num
  ring

private lemma fl_01 {x : ℝ} (n : ℤ) (h1 : 1 / 2 ≤ x) (h2 : x < 1) (h : |x * 2 ^ 24 - n| < 1 / 2) : Format.float.arith.rnd x = .fin (n / 2 ^ 24) := by
  rw [rnd_small float_ok (by rw [abs_of_pos (by linarith)]; linarith),
    round_eq_roundEven (by rw [abs_of_pos (by linarith)]; exact le_trans (zpow_le_zpow_right₀ (by norm_num) (show _ ≤ (-1 : ℤ) by norm_num [Format.float])) (by norm_num; linarith))]
  rw [show Format.float.p = 24 from rfl, roundEven_eq (e := -1) (by norm_num; linarith) (by norm_num; exact h2)]
  have : x / 2 ^ ((-1 : ℤ) - (((24 : ℕ) : ℤ) - 1)) = x * 2 ^ 24 := by norm_num; ring
  rw [this, roundTiesEven_of_near h]
  norm_num
  ring

lemma rnd_neg_fin {x y : ℝ} (h : f.arith.rnd x = .fin y) : f.arith.rnd (-x) = .fin (-y) := by
  obtain ⟨h1, h2⟩ := rnd_fin_lt h
  change (if _ then _ else _) = _
  rw [round_neg, ← h2, abs_neg, if_neg (not_le.mpr h1)]

set_option maxHeartbeats 1000000 in
/-- **C106 (c), finding.** In `float`, for `v1 = (1, 0, 0)` and `v2 = (-1, 0.00781631, 0)` (an angle of 179.55 degrees) `setFromVectors` returns a quaternion
`(2 ^ -8, 0, 0, z)` with `1.00045 ≤ z ≤ 1.001`, and in a debug build it throws "Input quaternion has not unit length" for all rotation classes. -/
theorem C106_float (P : Prec) {dp : ℝ} (hdp : dp ≤ 1 / 2 ^ 15) (svd : XV3 → XV3 → XV3) :
    (∃ z : ℝ, 100045 / 100000 ≤ z ∧ z ≤ 1001 / 1000 ∧
      Format.float.arith.setFromVectors P dp svd .quat (emb3 ⟨1, 0, 0⟩) (emb3 ⟨-1, 2049 / 2 ^ 18, 0⟩) = .ok (embQ ⟨1 / 2 ^ 8, 0, 0, z⟩)) ∧
    ∀ k, Format.float.arith.setFromVectorsDbg P dp svd k (emb3 ⟨1, 0, 0⟩) (emb3 ⟨-1, 2049 / 2 ^ 18, 0⟩) = .throws := by
  have hf := float_ok
  have h := rd hf (show 24 ≤ Format.float.p from le_rfl)
  have u0 := h.pos
  have u1 : Format.float.uu ≤ 1 / 10 ^ 7 := by have := h.le; norm_num at this ⊢; linarith
  have r0 := Format.float.arith.rnd_zero
  have r1 : Format.float.arith.rnd 1 = .fin 1 := by simpa using rnd_pow hf (j := 0) (by norm_num [Format.float]) (by norm_num [Format.float])
  have E : ∀ (n : ℤ) (k : ℕ), |n| < 2 ^ 24 → 0 < n → (n : ℝ) ≤ 2 ^ k → k ≤ 100 → Format.float.arith.rnd (n / 2 ^ k) = .fin (n / 2 ^ k) := by
    intro n k hn h0 h1 hk
    have h0' : (1 : ℝ) ≤ n := by exact_mod_cast h0
    have e : (n : ℝ) * 2 ^ (-(k : ℤ)) = n / 2 ^ k := by rw [zpow_neg, zpow_natCast, div_eq_mul_inv]
    have := fl_n n (-k) hn (by
      rw [e, abs_of_pos (by positivity), le_div_iff₀ (by positivity)]
      have h3 : (2 : ℝ) ^ k ≤ 2 ^ (100 : ℤ) := by
        rw [← zpow_natCast]; exact zpow_le_zpow_right₀ (by norm_num) (by exact_mod_cast hk)
      have h4 : (2 : ℝ) ^ (-100 : ℤ) * 2 ^ (100 : ℤ) = 1 := by rw [← zpow_add₀ (by norm_num)]; norm_num
      have h5 := mul_le_mul_of_nonneg_left h3 (show (0 : ℝ) ≤ 2 ^ (-100 : ℤ) by positivity)
      linarith) (by
      rw [e, abs_of_pos (by positivity), div_le_iff₀ (by positivity)]
      have : (0 : ℝ) < 2 ^ k := by positivity
      linarith)
    rwa [e] at this
  have M : ∀ {x y r : ℝ}, Format.float.arith.rnd (x * y) = .fin r → Format.float.arith.mul (.fin x) (.fin y) = .fin r := fun hx => hx
  have AD : ∀ {x y r : ℝ}, Format.float.arith.rnd (x + y) = .fin r → Format.float.arith.add (.fin x) (.fin y) = .fin r := fun hx => hx
  have M0 : ∀ x : ℝ, Format.float.arith.mul (.fin x) (.fin 0) = .fin 0 := fun x => M (by rw [mul_zero, r0])
  have M0' : ∀ x : ℝ, Format.float.arith.mul (.fin 0) (.fin x) = .fin 0 := fun x => M (by rw [zero_mul, r0])
  have A0 : Format.float.arith.add (.fin 0) (.fin 0) = .fin 0 := AD (by rw [add_zero, r0])
  have S0 : Format.float.arith.sub (.fin 0) (.fin 0) = .fin 0 := by change Format.float.arith.rnd (0 + -0) = _; rw [neg_zero, add_zero, r0]
  -- the first vector
  have v2 : Format.float.arith.normSq3 (emb3 ⟨1, 0, 0⟩) = .fin 1 := by
    simp only [XArith.normSq3, emb3, M0, A0]
    rw [M (x := 1) (y := 1) (r := 1) (by rw [mul_one, r1])]
    exact AD (by rw [add_zero, r1])
  have v1 : Format.float.arith.norm3 (emb3 ⟨1, 0, 0⟩) = .fin 1 := by
    simp only [XArith.norm3, v2, XArith.sqrt, if_neg (show ¬ (1 : ℝ) < 0 by norm_num), Real.sqrt_one, r1]
  have vn : Format.float.arith.normalized (emb3 ⟨1, 0, 0⟩) = emb3 ⟨1, 0, 0⟩ := by
    unfold XArith.normalized
    rw [v2, if_pos (show (XR.fin 0).lt (.fin 1) from (by norm_num : (0 : ℝ) < 1)), v1]
    simp only [XArith.divV, emb3, XArith.div, if_neg (show (1 : ℝ) ≠ 0 by norm_num), div_one, r1, r0]
  -- the second vector
  have w2 : Format.float.arith.normSq3 (emb3 ⟨-1, 2049 / 2 ^ 18, 0⟩) = .fin ((8389121 : ℤ) / 2 ^ 23) := by
    have e1 := E 4198401 36 (by norm_num) (by norm_num) (by norm_num) (by norm_num)
    have e2 := fl_12 (x := 1 + 4198401 / 2 ^ 36) 8389121 (by norm_num) (by norm_num) (by norm_num [abs_lt])
    push_cast at e1 e2
    simp only [XArith.normSq3, emb3, M0]
    rw [M (x := -1) (y := -1) (r := 1) (by norm_num [r1]), M (x := 2049 / 2 ^ 18) (r := 4198401 / 2 ^ 36) (by
      rw [show (2049 : ℝ) / 2 ^ 18 * (2049 / 2 ^ 18) = 4198401 / 2 ^ 36 by norm_num, e1]), AD (x := 4198401 / 2 ^ 36) (by rw [add_zero, e1]), AD e2]
    norm_num
  have w1 : Format.float.arith.norm3 (emb3 ⟨-1, 2049 / 2 ^ 18, 0⟩) = .fin (32769 / 32768) := by
    have l : 1 + 2555 / 10 / 2 ^ 23 < Real.sqrt ((8389121 : ℤ) / 2 ^ 23) := Real.lt_sqrt_of_sq_lt (by norm_num)
    have g : Real.sqrt ((8389121 : ℤ) / 2 ^ 23) < 1 + 2565 / 10 / 2 ^ 23 := by
      rw [Real.sqrt_lt' (by norm_num)]; norm_num
    simp only [XArith.norm3, w2, XArith.sqrt, if_neg (show ¬ ((8389121 : ℤ) / 2 ^ 23 : ℝ) < 0 by norm_num)]
    generalize Real.sqrt ((8389121 : ℤ) / 2 ^ 23) = r at l g
    rw [fl_12 (x := r) 8388864 (by norm_num at l; linarith) (by norm_num at g; linarith) (by
      norm_num at l g
      rw [abs_lt]; norm_num; constructor <;> linarith)]
    norm_num
  have wx : Format.float.arith.rnd (-1 / (32769 / 32768)) = .fin (-32767 / 32768) := by
    have e := fl_01 (x := 1 / (32769 / 32768)) 16776704 (by norm_num) (by norm_num) (by norm_num [abs_lt])
    have := rnd_neg_fin e
    rw [show (-1 : ℝ) / (32769 / 32768) = -(1 / (32769 / 32768)) by norm_num, this]; norm_num
  obtain ⟨t, ht⟩ : ∃ t, t = Format.float.round (2049 / 2 ^ 18 / (32769 / 32768)) := ⟨_, rfl⟩
  have wy : Format.float.arith.rnd (2049 / 2 ^ 18 / (32769 / 32768)) = .fin t := by rw [ht]; exact rnd_small hf (by norm_num [abs_le])
  have et := h.abs (x := 2049 / 2 ^ 18 / (32769 / 32768)) (B := 1 / 100) (by norm_num [abs_le])
  rw [← ht] at et
  obtain ⟨et1, et2⟩ := abs_le.mp et
  have wn : Format.float.arith.normalized (emb3 ⟨-1, 2049 / 2 ^ 18, 0⟩) = emb3 ⟨-32767 / 32768, t, 0⟩ := by
    unfold XArith.normalized
    rw [w2, if_pos (show (XR.fin 0).lt (.fin ((8389121 : ℤ) / 2 ^ 23)) from (by norm_num : (0 : ℝ) < (8389121 : ℤ) / 2 ^ 23)), w1]
    simp only [XArith.divV, emb3, XArith.div, if_neg (show (32769 / 32768 : ℝ) ≠ 0 by norm_num), zero_div, r0, wx, wy]
  -- the quaternion
  have ec : Format.float.arith.rnd (-32767 / 32768) = .fin (-32767 / 32768) := by
    have := rnd_neg_fin (E 32767 15 (by norm_num) (by norm_num) (by norm_num) (by norm_num))
    norm_num at this ⊢; exact this
  have p15 : Format.float.arith.rnd (1 / 2 ^ 15) = .fin (1 / 2 ^ 15) := by
    have := E 1 15 (by norm_num) (by norm_num) (by norm_num) (by norm_num); push_cast at this; exact this
  have p14 : Format.float.arith.rnd (1 / 2 ^ 14) = .fin (1 / 2 ^ 14) := by
    have := E 1 14 (by norm_num) (by norm_num) (by norm_num) (by norm_num); push_cast at this; exact this
  have p7 : Format.float.arith.rnd (1 / 2 ^ 7) = .fin (1 / 2 ^ 7) := by
    have := E 1 7 (by norm_num) (by norm_num) (by norm_num) (by norm_num); push_cast at this; exact this
  have p8 : Format.float.arith.rnd (1 / 2 ^ 8) = .fin (1 / 2 ^ 8) := by
    have := E 1 8 (by norm_num) (by norm_num) (by norm_num) (by norm_num); push_cast at this; exact this
  have p128 : Format.float.arith.rnd 128 = .fin 128 := by
    have := rnd_pow hf (j := 7) (by norm_num [Format.float]) (by norm_num [Format.float]); norm_num at this; exact this
  have g1 : |1 * t| ≤ 1 / 100 := by norm_num at et1 et2; rw [abs_le]; constructor <;> linarith
  have k1 := h.abs g1
  have F1 : Format.float.arith.mul (.fin 1) (.fin t) = .fin (Format.float.round (1 * t)) := rnd_small hf (by linarith)
  obtain ⟨t1, ht1⟩ : ∃ t1, t1 = Format.float.round (1 * t) := ⟨_, rfl⟩
  rw [← ht1] at k1 F1
  obtain ⟨k11, k12⟩ := abs_le.mp k1
  have g2 : |t1 + -0| ≤ 1 / 100 := by norm_num at et1 et2; rw [abs_le]; constructor <;> linarith
  have k2 := h.abs g2
  have F2 : Format.float.arith.sub (.fin t1) (.fin 0) = .fin (Format.float.round (t1 + -0)) := rnd_small hf (g2.trans (by norm_num))
  obtain ⟨t2, ht2⟩ : ∃ t2, t2 = Format.float.round (t1 + -0) := ⟨_, rfl⟩
  rw [← ht2] at k2 F2
  obtain ⟨k21, k22⟩ := abs_le.mp k2
  have g3 : |t2 * 128| ≤ 2 := by norm_num at et1 et2; rw [abs_le]; constructor <;> linarith
  have k3 := h.abs g3
  have F3 : Format.float.arith.mul (.fin t2) (.fin 128) = .fin (Format.float.round (t2 * 128)) := rnd_small hf (g3.trans (by norm_num))
  obtain ⟨z, hz⟩ : ∃ z, z = Format.float.round (t2 * 128) := ⟨_, rfl⟩
  rw [← hz] at k3 F3
  obtain ⟨k31, k32⟩ := abs_le.mp k3
  have z1 : 100045 / 100000 ≤ z := by norm_num at et1 et2; linarith
  have z2 : z ≤ 1001 / 1000 := by norm_num at et1 et2; linarith
  have hq : Format.float.arith.quatFromTwoVectors dp svd (emb3 ⟨1, 0, 0⟩) (emb3 ⟨-1, 2049 / 2 ^ 18, 0⟩) = embQ ⟨1 / 2 ^ 8, 0, 0, z⟩ := by
    have hc : Format.float.arith.dot3 (emb3 ⟨-32767 / 32768, t, 0⟩) (emb3 ⟨1, 0, 0⟩) = .fin (-32767 / 32768) := by
      simp only [XArith.dot3, emb3, M0]
      rw [M (x := -32767 / 32768) (y := 1) (by rw [mul_one, ec]), AD (y := 0) (by rw [add_zero, ec]), AD (y := 0) (by rw [add_zero, ec])]
    have hx : Format.float.arith.crossV (emb3 ⟨1, 0, 0⟩) (emb3 ⟨-32767 / 32768, t, 0⟩) = emb3 ⟨0, 0, t2⟩ := by
      simp only [XArith.crossV, emb3, M0, M0', S0, F1, F2]
    unfold XArith.quatFromTwoVectors
    simp only [vn, wn, hc, hx]
    rw [if_neg (show ¬ (XR.fin (-32767 / 32768)).lt (.fin (-1 + dp)) by
      change ¬ ((-32767 / 32768 : ℝ) < -1 + dp)
      norm_num at hdp ⊢; linarith)]
    have j1 : Format.float.arith.add (.fin 1) (.fin (-32767 / 32768)) = .fin (1 / 2 ^ 15) := AD (by
      rw [show (1 : ℝ) + -32767 / 32768 = 1 / 2 ^ 15 by norm_num, p15])
    have j2 : Format.float.arith.mul (.fin (1 / 2 ^ 15)) (.fin 2) = .fin (1 / 2 ^ 14) := M (by
      rw [show (1 : ℝ) / 2 ^ 15 * 2 = 1 / 2 ^ 14 by norm_num, p14])
    have j3 : Format.float.arith.sqrt (.fin (1 / 2 ^ 14)) = .fin (1 / 2 ^ 7) := by
      simp only [XArith.sqrt, if_neg (show ¬ (1 / 2 ^ 14 : ℝ) < 0 by norm_num)]
      rw [show (1 / 2 ^ 14 : ℝ) = (1 / 2 ^ 7) ^ 2 by norm_num, Real.sqrt_sq (by norm_num), p7]
    have j4 : Format.float.arith.mul (.fin (1 / 2 ^ 7)) (.fin (1 / 2)) = .fin (1 / 2 ^ 8) := M (by
      rw [show (1 : ℝ) / 2 ^ 7 * (1 / 2) = 1 / 2 ^ 8 by norm_num, p8])
    have j5 : Format.float.arith.div (.fin 1) (.fin (1 / 2 ^ 7)) = .fin 128 := by
      simp only [XArith.div, if_neg (show (1 / 2 ^ 7 : ℝ) ≠ 0 by norm_num)]
      rw [show (1 : ℝ) / (1 / 2 ^ 7) = 128 by norm_num, p128]
    rw [j1, j2, j3, j4, j5]
    simp only [emb3, M0', F3]
    rfl
  have hne : ¬ (Format.float.arith.mul (Format.float.arith.norm3 (emb3 ⟨1, 0, 0⟩)) (Format.float.arith.norm3 (emb3 ⟨-1, 2049 / 2 ^ 18, 0⟩))).eq (.fin 0) := by
    have e := E 32769 15 (by norm_num) (by norm_num)
    rw [v1, w1]
    have e2 := fl_12 (x := 1 * (32769 / 32768)) 8388864 (by norm_num) (by norm_num) (by norm_num)
    rw [M e2]
    change ¬ ((8388864 : ℤ) / 2 ^ 23 : ℝ) = 0
    norm_num
  constructor
  · refine ⟨z, z1, z2, ?_⟩
    unfold XArith.setFromVectors
    rw [if_pos hne, hq]
    rfl
  · intro k
    have nz : z ≤ Real.sqrt ((1 / 2 ^ 8) ^ 2 + 0 ^ 2 + 0 ^ 2 + z ^ 2) := Real.le_sqrt_of_sq_le (by nlinarith)
    have nz2 : Real.sqrt ((1 / 2 ^ 8) ^ 2 + 0 ^ 2 + 0 ^ 2 + z ^ 2) ≤ 3 / 2 := Real.sqrt_le_iff.mpr ⟨by norm_num, by nlinarith⟩
    obtain ⟨N, hN, eN⟩ := quatNorm_err hf le_rfl (q := ⟨1 / 2 ^ 8, 0, 0, z⟩) (Real.sqrt_nonneg _) (Real.sq_sqrt (by positivity)) (by linarith) nz2
    obtain ⟨N1, N2⟩ := abs_le.mp eN
    have ck := (dbg_check hf le_rfl hN (by linarith) (by linarith)).2 (by linarith)
    unfold XArith.setFromVectorsDbg
    rw [if_pos hne, hq, ck]

/-! ## `double` and `float` -/

/-- **C106 (d).** `double`: all vectors of moderate length outside the antiparallel band. -/
theorem C106_double (P : Prec) (svd : XV3 → XV3 → XV3) {v w : V3} (hv : InRange Format.double v) (hw : InRange Format.double w)
    (hd : 1 / 10 ^ 12 + 25 * 2⁻¹ ^ 53 ≤ 1 + (dir w).dot (dir v)) :
    ∃ q q₀ : Quat, Format.double.arith.setFromVectors P (1 / 10 ^ 12) svd .quat (emb3 v) (emb3 w) = .ok (embQ q) ∧ Aligns q₀ (dir v) (dir w) ∧
      |q.w - q₀.w| ≤ 50 * 2⁻¹ ^ 53 / (1 + (dir w).dot (dir v)) ∧ |q.x - q₀.x| ≤ 50 * 2⁻¹ ^ 53 / (1 + (dir w).dot (dir v)) ∧
      |q.y - q₀.y| ≤ 50 * 2⁻¹ ^ 53 / (1 + (dir w).dot (dir v)) ∧ |q.z - q₀.z| ≤ 50 * 2⁻¹ ^ 53 / (1 + (dir w).dot (dir v)) :=
  C106_accuracy double_ok (by norm_num [Format.double]) P svd hv hw hd (le_trans (by norm_num [Format.double]) hd)

/-- **C106 (e).** `float`: all vectors of moderate length outside the antiparallel band. -/
theorem C106_single (P : Prec) (svd : XV3 → XV3 → XV3) {v w : V3} (hv : InRange Format.float v) (hw : InRange Format.float w)
    (hd : 1 / 10 ^ 5 + 25 * 2⁻¹ ^ 24 ≤ 1 + (dir w).dot (dir v)) :
    ∃ q q₀ : Quat, Format.float.arith.setFromVectors P (1 / 10 ^ 5) svd .quat (emb3 v) (emb3 w) = .ok (embQ q) ∧ Aligns q₀ (dir v) (dir w) ∧
      |q.w - q₀.w| ≤ 50 * 2⁻¹ ^ 24 / (1 + (dir w).dot (dir v)) ∧ |q.x - q₀.x| ≤ 50 * 2⁻¹ ^ 24 / (1 + (dir w).dot (dir v)) ∧
      |q.y - q₀.y| ≤ 50 * 2⁻¹ ^ 24 / (1 + (dir w).dot (dir v)) ∧ |q.z - q₀.z| ≤ 50 * 2⁻¹ ^ 24 / (1 + (dir w).dot (dir v)) :=
  C106_accuracy float_ok (by norm_num [Format.float]) P svd hv hw hd (le_trans (by norm_num [Format.float]) hd)

example : InRange Format.float ⟨3, 0, 0⟩ ∧ InRange Format.float ⟨0, 2, 0⟩ ∧ 1 + (dir ⟨0, 2, 0⟩).dot (dir ⟨3, 0, 0⟩) = 1 := by
  have r : ∀ x y z : ℝ, 1 ≤ x ^ 2 + y ^ 2 + z ^ 2 → x ^ 2 + y ^ 2 + z ^ 2 ≤ 2 ^ (10 : ℤ) → InRange Format.float ⟨x, y, z⟩ := fun x y z h1 h2 =>
    ⟨le_trans (zpow_le_one_of_nonpos₀ (by norm_num) (by norm_num [Format.float])) h1,
      h2.trans (zpow_le_zpow_right₀ (by norm_num) (by norm_num [Format.float]))⟩
  refine ⟨r _ _ _ (by norm_num) (by norm_num), r _ _ _ (by norm_num) (by norm_num), ?_⟩
  simp [dir, V3.dot]

end Format
end Kindr
