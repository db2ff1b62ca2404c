import Verif.Spec.LogIeee
import Verif.Props.Exp3

/-!
# `wrapPosNegPI` and `AngleAxis::getUnique` in IEEE arithmetic
-/

set_option autoImplicit false

open Classical

noncomputable section
namespace Kindr
open Spec
namespace Inst
variable {M : Inst}

lemma double_sound : Sound Inst.double := ⟨Format.double_std, by norm_num [Inst.double, Format.double], Or.inl rfl⟩
lemma floatF_sound : Sound Inst.floatFloorF := ⟨Format.float_std, by norm_num [Inst.floatFloorF, Format.float], Or.inl rfl⟩
lemma floatD_sound : Sound Inst.floatFloorD := ⟨Format.float_std, by norm_num [Inst.floatFloorD, Format.float], Or.inr rfl⟩

/-- The unit of all rounding errors. -/
def U (M : Inst) : ℝ := 1001 / 1000 * M.scalar.uu

lemma alf (h : Sound M) : AtLeastFloat M.scalar := h.scalar.toAtLeastFloat
lemma mid_alf (h : Sound M) : AtLeastFloat M.mid := by
  rcases h.mid with e | e
  · rw [e]; exact alf h
  · rw [e]; exact Format.double_std.toAtLeastFloat

lemma uu_pos (h : Sound M) : 0 < M.scalar.uu := (Format.alf_uu (alf h)).1
lemma U_pos (h : Sound M) : 0 < M.U := by have := uu_pos h; unfold U; linarith
lemma U_small (h : Sound M) : M.U ≤ 1 / 10000000 := by
  have := (Format.alf_uu (alf h)).2
  unfold U; norm_num at this ⊢; linarith

lemma coarse {f : Format} (hf : AtLeastFloat f) {x B u : ℝ} (hu : f.uu ≤ u) (hB : 1 ≤ B) (hx : |x| ≤ B) :
    |f.round x - x| ≤ 1001 / 1000 * u * B := by
  have ok := Format.alf_ok hf
  have h1 := (Format.rn ok).err x
  have h2 := (Format.alf_small hf).2
  have h0 := (Format.alf_uu hf).1
  have h3 : f.uu * |x| ≤ u * B := mul_le_mul hu hx (abs_nonneg _) (h0.le.trans hu)
  have h4 : u * 1 ≤ u * B := mul_le_mul_of_nonneg_left hB (h0.le.trans hu)
  linarith

lemma double_uu_le (h : Sound M) : Format.double.uu ≤ M.scalar.uu := by
  unfold Format.uu
  exact pow_le_pow_of_le_one (by norm_num) (by norm_num) h.p

lemma mid_uu_le (h : Sound M) : M.mid.uu ≤ M.scalar.uu := by
  rcases h.mid with e | e
  · rw [e]
  · rw [e]; exact double_uu_le h

lemma err_le (h : Sound M) {x B : ℝ} (hB : 1 ≤ B) (hx : |x| ≤ B) :
    |M.scalar.round x - x| ≤ M.U * B ∧ |Format.double.round x - x| ≤ M.U * B ∧ |M.mid.round x - x| ≤ M.U * B :=
  ⟨coarse (alf h) le_rfl hB hx, coarse Format.double_std.toAtLeastFloat (double_uu_le h) hB hx, coarse (mid_alf h) (mid_uu_le h) hB hx⟩

lemma fin_le (h : Sound M) {x : ℝ} (hx : |x| ≤ 100) : M.scalar.arith.rnd x = .fin (M.scalar.round x) ∧
    Format.double.arith.rnd x = .fin (Format.double.round x) ∧ M.mid.arith.rnd x = .fin (M.mid.round x) :=
  ⟨Format.small_fin (alf h) hx, Format.small_fin Format.double_std.toAtLeastFloat hx, Format.small_fin (mid_alf h) hx⟩

set_option maxHeartbeats 1000000 in
/-- The modulo with divisor about `2π`. -/
lemma modulo_spec (h : Sound M) {x y : ℝ} (hx : |x| ≤ 34) (hy1 : 6 ≤ y) (hy2 : y ≤ 633 / 100) :
    ∃ v, M.modulo (.fin x) (.fin y) = .fin v ∧
      ∃ k : ℤ, |k| ≤ 9 ∧ |v - (x - y * k)| ≤ 230 * M.U ∧ 0 ≤ v + 13 * M.U ∧ v ≤ y + 13 * M.U := by
  have hu := (U_pos h).le
  have hus := U_small h
  have hy0 : 0 < y := by linarith
  have hxy : |x / y| ≤ 34 / 6 := by
    rw [abs_div, abs_of_pos hy0, div_le_div_iff₀ hy0 (by norm_num)]; linarith
  obtain ⟨s1, s2⟩ := abs_le.mp (err_le h (by norm_num) hxy).1
  obtain ⟨t1, t2⟩ := abs_le.mp hxy
  obtain ⟨k, hk⟩ : ∃ k : ℤ, k = ⌊M.scalar.round (x / y)⌋ := ⟨_, rfl⟩
  have k1 : (k : ℝ) ≤ M.scalar.round (x / y) := by rw [hk]; exact Int.floor_le _
  have k2 : M.scalar.round (x / y) < k + 1 := by rw [hk]; exact Int.lt_floor_add_one _
  have e : y * (x / y) = x := by field_simp
  have l1 := mul_le_mul_of_nonneg_left k1 hy0.le
  have l2 := mul_le_mul_of_nonneg_left k2.le hy0.le
  have l3 := mul_le_mul_of_nonneg_left s1 hy0.le
  have l4 := mul_le_mul_of_nonneg_left s2 hy0.le
  have l5 := mul_le_mul_of_nonneg_right hy2 (mul_nonneg hu (by norm_num : (0:ℝ) ≤ 34 / 6))
  have hl : x - y * k ≤ y + 36 * M.U := by linarith
  have hl0 : -(36 * M.U) ≤ x - y * k := by linarith
  have hkb : |(k : ℝ)| ≤ 7 := by rw [abs_le]; constructor <;> linarith
  have hkz : |k| ≤ 7 := by exact_mod_cast hkb
  have hyk : |y * k| ≤ 45 := by
    rw [abs_mul, abs_of_pos hy0]
    have := mul_le_mul hy2 hkb (abs_nonneg _) (by norm_num)
    linarith
  obtain ⟨p, hp⟩ : ∃ p, p = M.mid.round (y * k) := ⟨_, rfl⟩
  have p1 := abs_le.mp (err_le h (by norm_num) hyk).2.2
  rw [← hp] at p1
  have d1 : |x - p| ≤ 7 := by rw [abs_le]; constructor <;> linarith [p1.1, p1.2]
  obtain ⟨d, hd⟩ : ∃ d, d = M.mid.round (x - p) := ⟨_, rfl⟩
  have p2 := abs_le.mp (err_le h (by norm_num) d1).2.2
  rw [← hd] at p2
  have d2 : |d| ≤ 8 := by
    have := abs_le.mp d1
    rw [abs_le]; constructor <;> linarith [p2.1, p2.2]
  obtain ⟨m, hm⟩ : ∃ m, m = Format.double.round d := ⟨_, rfl⟩
  have p3 := abs_le.mp (err_le h (by norm_num) d2).2.1
  rw [← hm] at p3
  have m1 : m - (x - y * k) ≤ 60 * M.U := by linarith [p1.1, p1.2, p2.1, p2.2, p3.1, p3.2]
  have m2 : -(60 * M.U) ≤ m - (x - y * k) := by linarith [p1.1, p1.2, p2.1, p2.2, p3.1, p3.2]
  have hy : y ≠ 0 := hy0.ne'
  have em : Format.double.convert (M.mid.arith.sub (.fin x) (M.mid.arith.mul (.fin y) (M.scalar.arith.div (.fin x) (.fin y)).floor)) = .fin m := by
    have e1 : M.scalar.arith.div (.fin x) (.fin y) = .fin (M.scalar.round (x / y)) := by
      change (if y = 0 then _ else _) = _
      rw [if_neg hy]; exact (fin_le h (by linarith)).1
    rw [e1]
    change Format.double.convert (M.mid.arith.sub _ (M.mid.arith.rnd (y * (⌊M.scalar.round (x / y)⌋ : ℝ)))) = _
    rw [← hk, (fin_le h (by linarith : |y * (k : ℝ)| ≤ 100)).2.2, ← hp]
    change Format.double.convert (M.mid.arith.rnd (x + -p)) = _
    rw [← sub_eq_add_neg, (fin_le h (by linarith)).2.2, ← hd]
    change Format.double.arith.rnd d = _
    rw [(fin_le h (by linarith)).2.1, ← hm]
  have mb : |m| ≤ 9 := by
    have := abs_le.mp d2
    rw [abs_le]; constructor <;> linarith [p3.1, p3.2]
  have es : Format.double.arith.add (.fin y) (.fin m) = .fin (Format.double.round (y + m)) :=
    (fin_le h (by rw [abs_le] at mb ⊢; constructor <;> linarith)).2.1
  have ef : M.modulo (.fin x) (.fin y) = if y ≤ m then .fin 0 else if m < 0 then
      (if Format.double.round (y + m) = y then .fin 0 else M.scalar.convert (.fin (Format.double.round (y + m)))) else M.scalar.convert (.fin m) := by
    unfold modulo
    rw [em]
    simp only [es]
    simp only [XR.eq, XR.lt, XR.le, if_neg hy, if_pos hy0, ← le_iff_lt_or_eq]
    congr
  rw [ef]
  split_ifs with h1 h2 h3
  · refine ⟨0, rfl, k + 1, by rw [abs_le] at hkz ⊢; omega, ?_, by linarith, by linarith⟩
    have ek : y * ((k + 1 : ℤ) : ℝ) = y * k + y := by push_cast; ring
    rw [ek, abs_le]; constructor <;> linarith
  · refine ⟨0, rfl, k, by omega, ?_, by linarith, by linarith⟩
    rw [abs_le]; constructor <;> linarith
  · have hb : |y + m| ≤ 633 / 100 := by rw [abs_le]; constructor <;> linarith
    have q1 := abs_le.mp (err_le h (by norm_num) hb).2.1
    have hb2 : |Format.double.round (y + m)| ≤ 64 / 10 := by
      have := abs_le.mp hb
      rw [abs_le]; constructor <;> linarith [q1.1, q1.2]
    have q2 := abs_le.mp (err_le h (by norm_num) hb2).1
    refine ⟨_, (fin_le h (by linarith)).1, k - 1, by rw [abs_le] at hkz ⊢; omega, ?_, by linarith [q1.1, q2.1], by linarith [q1.2, q2.2]⟩
    have ek : y * ((k - 1 : ℤ) : ℝ) = y * k - y := by push_cast; ring
    rw [ek, abs_le]; constructor <;> linarith [q1.1, q2.1, q1.2, q2.2]
  · have hb : |m| ≤ 634 / 100 := by rw [abs_le]; constructor <;> linarith
    have q2 := abs_le.mp (err_le h (by norm_num) hb).1
    refine ⟨_, (fin_le h (by linarith)).1, k, by omega, ?_, by linarith [q2.1], by linarith [q2.2]⟩
    rw [abs_le]; constructor <;> linarith [q2.1, q2.2]

lemma mPi_err (h : Sound M) : |mPi - Real.pi| ≤ 2 * M.U := by
  have h1 : Format.double.uu ≤ M.U := by
    have := double_uu_le h
    have := uu_pos h
    unfold U; linarith
  have e : Format.double.uu = 1 / 2 ^ 53 := by unfold Format.uu Format.double; norm_num
  rw [e] at h1
  have l := Real.pi_gt_d20
  have r := Real.pi_lt_d20
  rw [abs_le]
  unfold mPi
  constructor <;> norm_num at l r h1 ⊢ <;> linarith

set_option maxHeartbeats 1000000 in
/-- `wrapPosNegPI` before the conversion to the scalar type. -/
lemma wrapDouble_spec (h : Sound M) {a : ℝ} (ha : |a| ≤ 30) :
    ∃ b, M.wrapDouble (.fin a) = .fin b ∧ ∃ k : ℤ, |b - (a - 2 * Real.pi * k)| ≤ 430 * M.U ∧ |b| ≤ Real.pi + 40 * M.U := by
  have hu := (U_pos h).le
  have hus := U_small h
  have hp1 := Real.pi_gt_d2
  have hp2 := Real.pi_lt_d2
  obtain ⟨w1, w2⟩ := abs_le.mp (mPi_err h)
  obtain ⟨w, hw⟩ : ∃ w, w = mPi := ⟨_, rfl⟩
  unfold wrapDouble
  rw [← hw] at w1 w2 ⊢
  have b1 : |w| ≤ 316 / 100 := by rw [abs_le]; constructor <;> linarith
  have b2 : |2 * w| ≤ 632 / 100 := by rw [abs_mul, abs_two]; linarith
  obtain ⟨v1, v2⟩ := abs_le.mp (err_le h (by norm_num) b1).1
  obtain ⟨y1, y2⟩ := abs_le.mp (err_le h (by norm_num) b2).1
  have e1 : M.scalar.convert (.fin w) = .fin (M.scalar.round w) := (fin_le h (by linarith)).1
  have e2 : M.scalar.convert (.fin (2 * w)) = .fin (M.scalar.round (2 * w)) := (fin_le h (by linarith)).1
  rw [e1, e2]
  obtain ⟨y, hy⟩ : ∃ y, y = M.scalar.round (2 * w) := ⟨_, rfl⟩
  rw [← hy] at y1 y2 ⊢
  obtain ⟨a1, a2⟩ := abs_le.mp ha
  have b3 : |a + M.scalar.round w| ≤ 335 / 10 := by rw [abs_le]; constructor <;> linarith
  obtain ⟨x1, x2⟩ := abs_le.mp (err_le h (by norm_num) b3).1
  have e3 : M.scalar.arith.add (.fin a) (.fin (M.scalar.round w)) = .fin (M.scalar.round (a + M.scalar.round w)) := (fin_le h (by linarith)).1
  rw [e3]
  obtain ⟨x, hx⟩ : ∃ x, x = M.scalar.round (a + M.scalar.round w) := ⟨_, rfl⟩
  rw [← hx] at x1 x2 ⊢
  obtain ⟨m, em, k, k1, k2, k3, k4⟩ := modulo_spec h (x := x) (y := y) (by rw [abs_le]; constructor <;> linarith) (by linarith) (by linarith)
  rw [em]
  have b4 : |m - w| ≤ 32 / 10 := by rw [abs_le]; constructor <;> linarith
  obtain ⟨f1, f2⟩ := abs_le.mp (err_le h (by norm_num) b4).2.1
  obtain ⟨g1, g2⟩ := abs_le.mp k2
  have hkr : |(k : ℝ)| ≤ 9 := by exact_mod_cast k1
  have hyk : |(y - 2 * Real.pi) * k| ≤ 13 * M.U * 9 := by
    rw [abs_mul]
    exact mul_le_mul (by rw [abs_le]; constructor <;> linarith) hkr (abs_nonneg _) (by linarith)
  obtain ⟨z1, z2⟩ := abs_le.mp hyk
  refine ⟨Format.double.round (m - w), ?_, k, ?_, ?_⟩
  · change Format.double.arith.rnd (m + -w) = _
    rw [← sub_eq_add_neg]; exact (fin_le h (by linarith)).2.1
  · rw [abs_le]; constructor <;> linarith
  · rw [abs_le]; constructor <;> linarith

lemma wrap_spec (h : Sound M) {a : ℝ} (ha : |a| ≤ 30) :
    ∃ b, M.wrapPosNegPI (.fin a) = .fin b ∧ ∃ k : ℤ, |b - (a - 2 * Real.pi * k)| ≤ 435 * M.U ∧ |b| ≤ Real.pi + 50 * M.U := by
  have hu := (U_pos h).le
  have hus := U_small h
  have hp2 := Real.pi_lt_d2
  obtain ⟨c, ec, k, k1, k2⟩ := wrapDouble_spec h ha
  have cb : |c| ≤ 32 / 10 := k2.trans (by linarith)
  have h1 := (err_le h (by norm_num) cb).1
  refine ⟨M.scalar.round c, by unfold wrapPosNegPI; rw [ec]; exact (fin_le h (by linarith)).1, k, ?_, ?_⟩
  · have := abs_sub_le (M.scalar.round c) c (a - 2 * Real.pi * k)
    linarith
  · obtain ⟨f1, f2⟩ := abs_le.mp h1
    obtain ⟨g1, g2⟩ := abs_le.mp k2
    rw [abs_le]; constructor <;> linarith

end Inst
end Kindr
