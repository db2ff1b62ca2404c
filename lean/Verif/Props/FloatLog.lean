import Verif.Props.FloatLoop
import Verif.Props.ExpLog
import Verif.Model.FloatLog
import Verif.Props.MatlabRot
import Verif.Props.FloatInst

/-!
# C87: logarithmic map, box operations, disparity angle and interpolation in floating point
-/

set_option autoImplicit false

open Classical

noncomputable section
namespace Kindr
open Spec

namespace FloatWide
variable (F : FloatWide)

private lemma abs_tri {a b c x y : ℝ} (h1 : |a - b| ≤ x) (h2 : |b - c| ≤ y) : |a - c| ≤ x + y := by
  have := abs_sub_le a b c
  linarith

lemma wide_pi : |F.wide Real.pi - Real.pi| ≤ 315 / 100 * F.u := by
  have h := F.wide_err Real.pi
  rw [abs_of_pos Real.pi_pos] at h
  have := F.u_nonneg
  have h2 := Real.pi_lt_d2
  nlinarith

lemma err_le {x M : ℝ} (h : |x| ≤ M) : |F.fl x - x| ≤ F.u * M ∧ |F.wide x - x| ≤ F.u * M ∧ |F.mid x - x| ≤ F.u * M :=
  ⟨(F.err x).trans (mul_le_mul_of_nonneg_left h F.u_nonneg), (F.wide_err x).trans (mul_le_mul_of_nonneg_left h F.u_nonneg),
    (F.mid_err x).trans (mul_le_mul_of_nonneg_left h F.u_nonneg)⟩

/-- The rounded modulo with divisor about `2π`: the result is in `[0, y]` up to rounding and differs from the argument by a multiple of
the divisor, up to rounding. -/
lemma modulo_spec {x y : ℝ} (hx : |x| ≤ 34) (hy1 : 6 ≤ y) (hy2 : y ≤ 633 / 100) :
    ∃ k : ℤ, |k| ≤ 9 ∧ |F.modulo x y - (x - y * k)| ≤ 230 * F.u ∧ 0 ≤ F.modulo x y + 13 * F.u ∧ F.modulo x y ≤ y + 13 * F.u := by
  have hu := F.u_nonneg
  have hus := F.u_small
  have hy0 : 0 < y := by linarith
  have hxy : |x / y| ≤ 34 / 6 := by
    rw [abs_div, abs_of_pos hy0, div_le_div_iff₀ hy0 (by norm_num)]; nlinarith
  obtain ⟨s1, s2⟩ := abs_le.mp (F.err_le hxy).1
  obtain ⟨t1, t2⟩ := abs_le.mp hxy
  obtain ⟨k, hk⟩ : ∃ k : ℤ, k = ⌊F.fl (x / y)⌋ := ⟨_, rfl⟩
  have k1 : (k : ℝ) ≤ F.fl (x / y) := by rw [hk]; exact Int.floor_le _
  have k2 : F.fl (x / y) < k + 1 := by rw [hk]; exact Int.lt_floor_add_one _
  have e : y * (x / y) = x := by field_simp
  have l1 := mul_le_mul_of_nonneg_left k1 hy0.le
  have l2 := mul_le_mul_of_nonneg_left k2.le hy0.le
  have l3 := mul_le_mul_of_nonneg_left s1 hy0.le
  have l4 := mul_le_mul_of_nonneg_left s2 hy0.le
  have l5 := mul_le_mul_of_nonneg_right hy2 (mul_nonneg hu (by norm_num : (0:ℝ) ≤ 34 / 6))
  have hl : x - y * k ≤ y + 36 * F.u := by linarith
  have hl0 : -(36 * F.u) ≤ x - y * k := by linarith
  have hkb : |(k : ℝ)| ≤ 7 := by rw [abs_le]; constructor <;> linarith
  have hkz : |k| ≤ 7 := by exact_mod_cast hkb
  have hyk : |y * k| ≤ 45 := by rw [abs_mul, abs_of_pos hy0]; nlinarith [abs_nonneg (k : ℝ)]
  obtain ⟨p, hp⟩ : ∃ p, p = F.mid (y * k) := ⟨_, rfl⟩
  have p1 := abs_le.mp (F.err_le hyk).2.2
  rw [← hp] at p1
  have d1 : |x - p| ≤ 7 := by rw [abs_le]; constructor <;> linarith [p1.1, p1.2]
  obtain ⟨d, hd⟩ : ∃ d, d = F.mid (x - p) := ⟨_, rfl⟩
  have p2 := abs_le.mp (F.err_le d1).2.2
  rw [← hd] at p2
  have d2 : |d| ≤ 8 := by
    have := abs_le.mp d1
    rw [abs_le]; constructor <;> linarith [p2.1, p2.2]
  obtain ⟨m, hm⟩ : ∃ m, m = F.wide d := ⟨_, rfl⟩
  have p3 := abs_le.mp (F.err_le d2).2.1
  rw [← hm] at p3
  have m1 : m - (x - y * k) ≤ 60 * F.u := by linarith [p1.1, p1.2, p2.1, p2.2, p3.1, p3.2]
  have m2 : -(60 * F.u) ≤ m - (x - y * k) := by linarith [p1.1, p1.2, p2.1, p2.2, p3.1, p3.2]
  have hy : y ≠ 0 := hy0.ne'
  have em : F.modulo x y = if m ≥ y then 0 else if m < 0 then (if F.wide (y + m) = y then 0 else F.fl (F.wide (y + m))) else F.fl m := by
    rw [modulo, fpModuloTyped]
    simp only [if_neg hy, if_pos hy0]
    rw [← hk, ← hp, ← hd, ← hm]
  rw [em]
  split_ifs with h1 h2 h3
  · refine ⟨k + 1, by rw [abs_le] at hkz ⊢; omega, ?_, by linarith, by linarith⟩
    have ek : y * ((k + 1 : ℤ) : ℝ) = y * k + y := by push_cast; ring
    rw [ek, abs_le]; constructor <;> linarith
  · refine ⟨k, by omega, ?_, by linarith, by linarith⟩
    rw [abs_le]; constructor <;> linarith
  · have hb : |y + m| ≤ 633 / 100 := by rw [abs_le]; constructor <;> linarith
    have q1 := abs_le.mp (F.err_le hb).2.1
    have hb2 : |F.wide (y + m)| ≤ 64 / 10 := by
      have := abs_le.mp hb
      rw [abs_le]; constructor <;> linarith [q1.1, q1.2]
    have q2 := abs_le.mp (F.err_le hb2).1
    refine ⟨k - 1, by rw [abs_le] at hkz ⊢; omega, ?_, by linarith [q1.1, q2.1], by linarith [q1.2, q2.2]⟩
    have ek : y * ((k - 1 : ℤ) : ℝ) = y * k - y := by push_cast; ring
    rw [ek, abs_le]; constructor <;> linarith [q1.1, q2.1, q1.2, q2.2]
  · have hb : |m| ≤ 634 / 100 := by rw [abs_le]; constructor <;> linarith
    have q2 := abs_le.mp (F.err_le hb).1
    refine ⟨k, by omega, ?_, by linarith [q2.1], by linarith [q2.2]⟩
    rw [abs_le]; constructor <;> linarith [q2.1, q2.2]

/-- The rounded `wrapPosNegPI`: the angle changes by a multiple of `2π`, up to rounding, and the result is in `[-π, π]` up to rounding. -/
lemma wrapWide_spec {a : ℝ} (ha : |a| ≤ 30) : ∃ k : ℤ, |F.wrapWide a - (a - 2 * Real.pi * k)| ≤ 430 * F.u ∧ |F.wrapWide a| ≤ Real.pi + 40 * F.u := by
  have hu := F.u_nonneg
  have hus := F.u_small
  have hp1 := Real.pi_gt_d2
  have hp2 := Real.pi_lt_d2
  obtain ⟨w1, w2⟩ := abs_le.mp F.wide_pi
  obtain ⟨w, hw⟩ : ∃ w, w = F.wide Real.pi := ⟨_, rfl⟩
  rw [← hw] at w1 w2
  have b1 : |w| ≤ 316 / 100 := by rw [abs_le]; constructor <;> linarith
  have b2 : |2 * w| ≤ 632 / 100 := by rw [abs_mul, abs_two]; linarith
  obtain ⟨v1, v2⟩ := abs_le.mp (F.err_le b1).1
  obtain ⟨y1, y2⟩ := abs_le.mp (F.err_le b2).1
  obtain ⟨y, hy⟩ : ∃ y, y = F.fl (2 * w) := ⟨_, rfl⟩
  rw [← hy] at y1 y2
  obtain ⟨a1, a2⟩ := abs_le.mp ha
  have b3 : |a + F.fl w| ≤ 335 / 10 := by rw [abs_le]; constructor <;> linarith
  obtain ⟨x1, x2⟩ := abs_le.mp (F.err_le b3).1
  obtain ⟨x, hx⟩ : ∃ x, x = F.fl (a + F.fl w) := ⟨_, rfl⟩
  rw [← hx] at x1 x2
  have e : F.wrapWide a = F.wide (F.modulo x y - w) := by rw [wrapWide, ← hw, ← hx, ← hy]
  rw [e]
  obtain ⟨k, k1, k2, k3, k4⟩ := F.modulo_spec (x := x) (y := y) (by rw [abs_le]; constructor <;> linarith) (by linarith) (by linarith)
  obtain ⟨m, hm⟩ : ∃ m, m = F.modulo x y := ⟨_, rfl⟩
  rw [← hm] at k2 k3 k4 ⊢
  have b4 : |m - w| ≤ 32 / 10 := by rw [abs_le]; constructor <;> linarith
  obtain ⟨f1, f2⟩ := abs_le.mp (F.err_le b4).2.1
  obtain ⟨g1, g2⟩ := abs_le.mp k2
  have hkr : |(k : ℝ)| ≤ 9 := by exact_mod_cast k1
  have hyk : |(y - 2 * Real.pi) * k| ≤ 13 * F.u * 9 := by
    rw [abs_mul]
    exact mul_le_mul (by rw [abs_le]; constructor <;> linarith) hkr (abs_nonneg _) (by linarith)
  obtain ⟨z1, z2⟩ := abs_le.mp hyk
  refine ⟨k, ?_, ?_⟩
  · rw [abs_le]; constructor <;> linarith
  · rw [abs_le]; constructor <;> linarith

lemma wrap_spec {a : ℝ} (ha : |a| ≤ 30) : ∃ k : ℤ, |F.wrapPosNegPI a - (a - 2 * Real.pi * k)| ≤ 435 * F.u ∧ |F.wrapPosNegPI a| ≤ Real.pi + 50 * F.u := by
  have hu := F.u_nonneg
  have hus := F.u_small
  have hp2 := Real.pi_lt_d2
  obtain ⟨k, k1, k2⟩ := F.wrapWide_spec ha
  have h1 := (F.err_le (x := F.wrapWide a) (M := 32 / 10) (k2.trans (by linarith))).1
  refine ⟨k, (abs_tri h1 k1).trans (by linarith), ?_⟩
  obtain ⟨f1, f2⟩ := abs_le.mp h1
  obtain ⟨g1, g2⟩ := abs_le.mp k2
  change |F.fl (F.wrapWide a)| ≤ _
  rw [abs_le]; constructor <;> linarith

/-- The rounded `AngleAxis::getUnique()`. -/
lemma aaGetUnique_rounded {η δ : ℝ} {a : AngAx} {R : M3} (h : Rounded η δ .aa a R) (ha : |a.angle| ≤ 30) :
    Rounded η (δ + 450 * F.u) .aa (F.aaGetUnique a) R ∧ 0 ≤ (F.aaGetUnique a).angle ∧ (F.aaGetUnique a).angle ≤ Real.pi + 50 * F.u := by
  have hu := F.u_nonneg
  have h0 := h.1
  have hp0 := Real.pi_pos
  obtain ⟨n, hn, h1, h2⟩ := h.aa
  obtain ⟨k, k1, k2⟩ := F.wrap_spec ha
  obtain ⟨t, ht⟩ : ∃ t, t = F.wrapPosNegPI a.angle := ⟨_, rfl⟩
  rw [← ht] at k1 k2
  obtain ⟨t1, t2⟩ := abs_le.mp k2
  have hc : Close (δ + 435 * F.u) (rodMat t n) R := by
    have e : rodMat (a.angle - 2 * Real.pi * k) n = rodMat a.angle n := by
      rw [← rodMat_add_two_pi a.angle (-k) n]; congr 1; push_cast; ring
    have := (Matlab.rodMat_close t (a.angle - 2 * Real.pi * k) hn).mono k1
    rw [e] at this
    exact (this.trans h2).mono (by linarith)
  have hn' : (-n).normSq = 1 := by rw [← hn]; simp [V3.normSq, V3.dot]
  have hax : (-a.axis - -n).norm ≤ η := by
    have e2 : -a.axis - -n = -(a.axis - n) := by ext <;> simp <;> ring
    rw [e2, V3.norm_neg]; exact h1
  have neg : Rounded η (δ + 450 * F.u) .aa (⟨-t, -a.axis⟩ : AngAx) R :=
    rounded_aa h0 hn' hax (by rw [rodMat_neg_neg]; exact hc.mono (by linarith))
  have flip : t = -F.wide Real.pi → Rounded η (δ + 450 * F.u) .aa (⟨-t, a.axis⟩ : AngAx) R := by
    intro e
    refine rounded_aa h0 hn h1 ?_
    have w := F.wide_pi
    have c1 := Matlab.rodMat_close (-t) Real.pi hn
    have c2 := Matlab.rodMat_close (-Real.pi) t hn
    rw [← rodMat_pi] at c2
    have e1 : |-t - Real.pi| ≤ 315 / 100 * F.u := by rw [e, neg_neg]; exact w
    have e2 : |-Real.pi - t| ≤ 315 / 100 * F.u := by
      have : -Real.pi - t = -t - Real.pi := by ring
      rw [this]; exact e1
    exact (((c1.mono e1).trans (c2.mono e2)).trans hc).mono (by linarith)
  have e : F.aaGetUnique a = if t > 0 then ⟨t, a.axis⟩
      else if t < 0 then
        if t ≠ -F.wide Real.pi then ⟨-t, -a.axis⟩
        else if a.axis.x < 0 then ⟨-t, -a.axis⟩
        else if a.axis.x > 0 then ⟨-t, a.axis⟩
        else if a.axis.y < 0 then ⟨-t, -a.axis⟩
        else if a.axis.y > 0 then ⟨-t, a.axis⟩
        else if a.axis.z < 0 then ⟨-t, -a.axis⟩
        else ⟨-t, a.axis⟩
      else ⟨0, ⟨1, 0, 0⟩⟩ := by rw [aaGetUnique, ← ht]
  rw [e]
  split_ifs with c1 c2 c3 c4 c5 c6 c7 c8
  · exact ⟨rounded_aa h0 hn h1 (hc.mono (by linarith)), c1.le, t2⟩
  · exact ⟨neg, by change 0 ≤ -t; linarith, by change -t ≤ _; linarith⟩
  · exact ⟨neg, by change 0 ≤ -t; linarith, by change -t ≤ _; linarith⟩
  · exact ⟨flip (not_not.mp c3), by change 0 ≤ -t; linarith, by change -t ≤ _; linarith⟩
  · exact ⟨neg, by change 0 ≤ -t; linarith, by change -t ≤ _; linarith⟩
  · exact ⟨flip (not_not.mp c3), by change 0 ≤ -t; linarith, by change -t ≤ _; linarith⟩
  · exact ⟨neg, by change 0 ≤ -t; linarith, by change -t ≤ _; linarith⟩
  · exact ⟨flip (not_not.mp c3), by change 0 ≤ -t; linarith, by change -t ≤ _; linarith⟩
  · have ht0 : t = 0 := le_antisymm (not_lt.mp c1) (not_lt.mp c2)
    rw [ht0, rodMat_zero] at hc
    refine ⟨rounded_aa (n := ⟨1, 0, 0⟩) h0 (by simp [V3.normSq, V3.dot]) (by simp [V3.norm, V3.normSq, V3.dot]; exact h0) ?_, le_rfl, by change (0:ℝ) ≤ _; positivity⟩
    change Close _ (rodMat 0 _) R
    rw [rodMat_zero]; exact hc.mono (by linarith)

lemma fl_vec_fine (v : V3) (k : ℝ) :
    (⟨F.fl (k * v.x), F.fl (k * v.y), F.fl (k * v.z)⟩ : V3).norm ≤ (1 + F.u) * (|k| * v.norm) := by
  have hu := F.u_nonneg
  have c : ∀ x : ℝ, |F.fl x| ≤ (1 + F.u) * |x| := fun x => by
    have h1 := F.err x
    have e : F.fl x = x + (F.fl x - x) := by ring
    rw [e]
    have := abs_add_le x (F.fl x - x)
    linarith
  have sq' : ∀ x : ℝ, F.fl x * F.fl x ≤ (1 + F.u) ^ 2 * (x * x) := fun x => by
    rw [← abs_mul_abs_self (F.fl x), ← abs_mul_abs_self x]
    have := mul_le_mul (c x) (c x) (abs_nonneg _) (by positivity)
    linarith
  refine V3.norm_le_of_sq (by have := v.norm_nonneg; positivity) ?_
  have h2 := V3.norm_sq v
  simp only [V3.normSq, V3.dot] at h2 ⊢
  have a := sq' (k * v.x)
  have b := sq' (k * v.y)
  have d := sq' (k * v.z)
  have e : (1 + F.u) * (|k| * v.norm) * ((1 + F.u) * (|k| * v.norm)) = (1 + F.u) ^ 2 * ((k * k) * v.norm ^ 2) := by
    rw [← abs_mul_abs_self k]; ring
  have e' : ((1 + F.u) * (|k| * v.norm)) ^ 2 = (1 + F.u) ^ 2 * ((k * k) * v.norm ^ 2) := by rw [sq, e]
  first | rw [e, h2] | rw [e', h2]
  linarith

/-- The rounded `RotationVector::getUnique()`. -/
lemma rvGetUnique_rounded (P : Prec) {δ η : ℝ} {r : RotVec} {R : M3} (h : Rounded η δ .rv r R) (hr : r.v.norm ≤ 29)
    (hP : (11 + 6 * r.v.norm) * F.u + P.eps / 3000 ≤ 1 / 100000) :
    Rounded 0 (δ + 1500 * F.u + P.eps / 700 + 102 / 100 * P.dp) .rv (F.rvGetUnique P r) R ∧ (F.rvGetUnique P r).v.norm ≤ Real.pi + 80 * F.u := by
  have hu := F.u_nonneg
  have hus := F.u_small
  have hep := P.eps_pos
  have hdp := P.dp_pos
  have hp2 := Real.pi_lt_d2
  have hp1 := Real.pi_gt_d2
  have h' : Rounded 0 δ .rv r R := rounded_rv le_rfl h.rv
  have hn0 := r.v.norm_nonneg
  have hru := mul_le_mul_of_nonneg_right hr hu
  have hs : angleSize .rv r = r.v.norm := rfl
  have hE : quatErr P F.u 0 (angleSize .rv r) .rv ≤ 185 * F.u + P.eps / 3000 := by rw [hs]; simp only [quatErr]; linarith
  have hE0 := F.quatErr_nonneg P le_rfl (s := .rv) r
  have x1 := F.C85_convert P .aa h' (by rw [hs]; simp only [quatErr]; exact hP) (fun h => by cases h)
  have hne : ¬ (Kind.aa = Kind.rv) := fun h => by cases h
  rw [if_neg hne, if_neg hne] at x1
  obtain ⟨E, hEE⟩ : ∃ E, E = quatErr P F.u 0 (angleSize .rv r) .rv := ⟨_, rfl⟩
  rw [← hEE] at x1 hE hE0
  change Rounded _ _ .aa (F.aaOfRv P r) R at x1
  simp only [convOff, convLoss] at x1
  have hang : |(F.aaOfRv P r).angle| ≤ 30 := by
    simp only [FloatLib.aaOfRv]
    split_ifs
    · simp [AngAx.identity]
    · have := abs_le.mp (F.norm3_err r.v)
      rw [abs_of_nonneg (F.norm3_nonneg _)]
      nlinarith [this.2]
  obtain ⟨x2, x3, x4⟩ := F.aaGetUnique_rounded x1 hang
  obtain ⟨a, ha⟩ : ∃ a, a = F.aaGetUnique (F.aaOfRv P r) := ⟨_, rfl⟩
  rw [← ha] at x2 x3 x4
  have e : F.rvGetUnique P r = F.rvOfAa a := by rw [ha]; rfl
  rw [e]
  have y := F.rvOfAa_rounded x2 (by linarith)
  have hs4 : |a.angle| ≤ 32 / 10 := by rw [abs_of_nonneg x3]; linarith
  have hau : |a.angle| * F.u ≤ 32 / 10 * F.u := mul_le_mul_of_nonneg_right hs4 hu
  refine ⟨y.mono le_rfl ?_, ?_⟩
  · linarith
  · obtain ⟨n, hn, n1, -⟩ := x2.aa
    have hn1 : n.norm = 1 := V3.norm_eq_one_iff.mpr hn
    have hax : a.axis.norm ≤ 1 + 6 * F.u := by
      have e : a.axis = (a.axis - n) + n := by ext <;> simp
      rw [e]; exact (V3.norm_add_le _ _).trans (by linarith)
    have k := F.fl_vec_fine a.axis a.angle
    change (F.rvOfAa a).v.norm ≤ _ at k
    refine k.trans ?_
    rw [abs_of_nonneg x3]
    have m1 : a.angle * a.axis.norm ≤ (Real.pi + 50 * F.u) * (1 + 6 * F.u) := mul_le_mul x4 hax (V3.norm_nonneg _) (by linarith)
    have m2 := mul_le_mul_of_nonneg_left m1 (by linarith : 0 ≤ 1 + F.u)
    refine m2.trans ?_
    have q1 : F.u * F.u ≤ 1 / 10000000 * F.u := mul_le_mul_of_nonneg_right hus hu
    have q2 : Real.pi * F.u ≤ 315 / 100 * F.u := mul_le_mul_of_nonneg_right (by linarith) hu
    have q3 : Real.pi * F.u * F.u ≤ 315 / 100 * (F.u * F.u) := by nlinarith
    have q4 : F.u * F.u * F.u ≤ 1 / 10000000 * F.u := by nlinarith
    nlinarith

/-- `logarithmicMap()` of numbers that stand for a rotation. -/
lemma log_rounded (P : Prec) {k : Kind} {r : Rep k} {η δ e : ℝ} {R : M3} (h : Rounded η δ k r R) (he : quatErr P F.u η (angleSize k r) k ≤ e)
    (he1 : quatErr P F.u η (angleSize k r) k ≤ 1 / 100000) (hS : angleSize k r ≤ 14) (hd : RvDefined F.toFloatLib P k r) (hη : η * angleSize k r ≤ 84 * F.u)
    (hP : 190 * F.u + P.eps / 3000 ≤ 1 / 100000) :
    Rounded 0 (δ + 5 * e + 2100 * F.u + P.eps / 700 + 104 / 100 * P.dp) .rv (⟨F.logarithmicMap P k r⟩ : RotVec) R ∧
      (F.logarithmicMap P k r).norm ≤ Real.pi + 80 * F.u := by
  have hu := F.u_nonneg
  have hdp := P.dp_pos
  have hE0 := F.quatErr_nonneg P h.1 r
  have x := F.C85_convert P .rv h he1 (fun _ => hd)
  have hsz := F.C85_angle_size P .rv h he1
  obtain ⟨E, hE⟩ : ∃ E, E = quatErr P F.u η (angleSize k r) k := ⟨_, rfl⟩
  rw [← hE] at x he he1 hE0
  obtain ⟨q, hq⟩ : ∃ q : RotVec, q = F.conv P .rv k r := ⟨_, rfl⟩
  rw [← hq] at x hsz
  have y : Rounded η (δ + (5 * e + 290 * F.u + 252 * F.u + P.dp / 50)) .rv q R := by
    refine Spec.Rounded.mono (rounded_rv h.1 (Spec.Rounded.rv x)) le_rfl ?_
    have : 0 ≤ 5 * e + 290 * F.u + 252 * F.u + P.dp / 50 := by linarith
    split_ifs
    · linarith
    · simp only [convLoss]; linarith
  have hq29 : q.v.norm ≤ 29 := by change q.v.norm ≤ _ at hsz; linarith
  have z := F.rvGetUnique_rounded P y hq29 (by have := mul_le_mul_of_nonneg_right hq29 hu; linarith)
  have e1 : F.logarithmicMap P k r = (F.rvGetUnique P q).v := by rw [hq]; rfl
  rw [e1]
  refine ⟨Spec.Rounded.mono z.1 le_rfl ?_, z.2⟩
  linarith

/-- Inversion. -/
lemma inverted_uniform (P : Prec) {k : Kind} {r : Rep k} {η δ e : ℝ} {R : M3} (h : Rounded η δ k r R)
    (he : quatErr P F.u η (angleSize k r) k ≤ e) (he1 : e ≤ 1 / 100000) (he2 : 64 * F.u ≤ e) :
    Rounded η (δ + 101 * e + 1000 * F.u + 101 / 100 * P.dp) k (F.inverted k r) R.transpose ∧
      quatErr P F.u η (angleSize k (F.inverted k r)) k ≤ e := by
  have hu := F.u_nonneg
  have hdp := P.dp_pos
  have hE0 := F.quatErr_nonneg P h.1 r
  refine ⟨(F.C85_inverted P h (he.trans he1)).mono le_rfl ?_, ?_⟩
  · obtain ⟨E, hE⟩ : ∃ E, E = quatErr P F.u η (angleSize k r) k := ⟨_, rfl⟩
    rw [← hE] at he hE0 ⊢
    split_ifs with hk
    · rcases hk with rfl | rfl <;> simp only [convLoss] <;> linarith
    · linarith
  · cases k
    · exact he
    · exact he
    · have e1 : angleSize .aa (F.inverted .aa r) = angleSize .aa r := by
        change |(aaInverted r).angle| = |AngAx.angle r|
        simp [aaInverted, AngAx.inverse]
      rw [e1]; exact he
    · have e1 : angleSize .rv (F.inverted .rv r) = angleSize .rv r := V3.norm_neg _
      rw [e1]; exact he
    · have := mul_le_mul_of_nonneg_right (F.xyz_size (UnitQuaternion.inverted (F.quatOfXyz r))) hu
      change angleSize .xyz (F.inverted .xyz r) * _ ≤ _ at this
      simp only [quatErr]; linarith
    · have := mul_le_mul_of_nonneg_right (F.zyx_size (UnitQuaternion.inverted (F.quatOfZyx r))) hu
      change angleSize .zyx (F.inverted .zyx r) * _ ≤ _ at this
      simp only [quatErr]; linarith

/-- The product with bounds that do not depend on the classes. -/
lemma mult_uniform (P : Prec) {k₁ k₂ : Kind} {a : Rep k₁} {b : Rep k₂} {η δ η' δ' e₁ e₂ E : ℝ} {A B : M3} (ha : Rounded η δ k₁ a A)
    (hb : Rounded η' δ' k₂ b B) (hA : IsSO3 A) (he₁ : quatErr P F.u η (angleSize k₁ a) k₁ ≤ e₁)
    (he₂ : quatErr P F.u η' (angleSize k₂ b) k₂ ≤ e₂) (hE : E = 101 / 100 * e₁ + e₂ + 9 * F.u)
    (hm : k₁ = .mat → 75 * E + 430 * F.u ≤ P.dp) (hdp : 3 * E + 270 * F.u + P.eps / 1000 ≤ P.dp) :
    ∃ η'' : ℝ, Rounded η'' (δ + δ' + 101 * E + 1000 * F.u + 101 / 100 * P.dp) k₁ (F.mult P k₁ k₂ a b) (A * B) ∧
      angleSize k₁ (F.mult P k₁ k₂ a b) ≤ 13 ∧ η'' * angleSize k₁ (F.mult P k₁ k₂ a b) ≤ 84 * F.u ∧
      quatErr P F.u η'' (angleSize k₁ (F.mult P k₁ k₂ a b)) k₁ ≤ 25 * E + 140 * F.u + P.eps / 3000 ∧
      3 * quatErr P F.u η'' (angleSize k₁ (F.mult P k₁ k₂ a b)) k₁ + 3 * F.u ≤ P.dp := by
  have hu := F.u_nonneg
  have hep := P.eps_pos
  have hdp0 := P.dp_pos
  have hdl := P.dp_le
  have q1 := F.quatErr_nonneg P ha.1 a
  have q2 := F.quatErr_nonneg P hb.1 b
  have h0 := ha.1
  have h0' := hb.1
  by_cases hk : k₁ = .mat ∧ k₂ = .mat
  · obtain ⟨rfl, rfl⟩ := hk
    have hm' := hm rfl
    simp only [quatErr] at he₁ he₂
    have z := F.C85_mult_matrix P ha hb hA (by linarith) (by linarith)
    refine ⟨_, z.mono le_rfl (by linarith), ?_, ?_, ?_, ?_⟩
    · change (0:ℝ) ≤ _; norm_num
    · change _ * (0:ℝ) ≤ _; linarith
    · simp only [quatErr]; linarith
    · simp only [quatErr]; linarith
  · have hE1 : 101 / 100 * quatErr P F.u η (angleSize k₁ a) k₁ + quatErr P F.u η' (angleSize k₂ b) k₂ + 9 * F.u ≤ E := by linarith
    have hE2 : E ≤ 1 / 100000 := by linarith
    have z := F.C85_mult P ha hb hA hk rfl (hE1.trans hE2) (fun _ => by linarith)
    have hsz := F.mult_size P ha hb hA hk (hE1.trans hE2)
    obtain ⟨E', hE'⟩ : ∃ E', E' = 101 / 100 * quatErr P F.u η (angleSize k₁ a) k₁ + quatErr P F.u η' (angleSize k₂ b) k₂ + 9 * F.u := ⟨_, rfl⟩
    rw [← hE'] at z hE1
    have hE'0 : 0 ≤ E' := by rw [hE']; positivity
    obtain ⟨m, hmm⟩ : ∃ m, m = F.mult P k₁ k₂ a b := ⟨_, rfl⟩
    rw [← hmm] at z hsz ⊢
    have hs0 := angleSize_nonneg k₁ m
    have hsu := mul_le_mul_of_nonneg_right hsz hu
    refine ⟨_, z.mono le_rfl ?_, hsz, ?_, ?_, ?_⟩
    · cases k₁ <;> simp only [convLoss] <;> linarith
    · cases k₁ <;> simp only [convOff] <;> first | (change _ * (0:ℝ) ≤ _; linarith) | linarith
    · cases k₁ <;> simp only [convOff, quatErr] <;> linarith
    · cases k₁
      · simp only [convOff, quatErr]; linarith
      · have := hm rfl; simp only [convOff, quatErr]; linarith
      all_goals simp only [convOff, quatErr]; linarith

/-- The rounded wrapped angle of a rounded angle-axis pair is the rotation angle. -/
lemma wrap_angle {η δ : ℝ} {a : AngAx} {R : M3} (h : Rounded η δ .aa a R) (hR : IsSO3 R) (ha : |a.angle| ≤ 30) :
    |F.fl |F.wrapWide a.angle| - rotAngle R| ≤ 2 * δ + 1000 * F.u := by
  have hu := F.u_nonneg
  have hus := F.u_small
  have hp2 := Real.pi_lt_d2
  have hp1 := Real.pi_gt_d2
  obtain ⟨n, hn, h1, h2⟩ := h.aa
  obtain ⟨k, k1, k2⟩ := F.wrapWide_spec ha
  obtain ⟨t, ht⟩ : ∃ t, t = F.wrapWide a.angle := ⟨_, rfl⟩
  rw [← ht] at k1 k2 ⊢
  obtain ⟨s, hs⟩ : ∃ s, s = |t| := ⟨_, rfl⟩
  have hs0 : 0 ≤ s := by rw [hs]; exact abs_nonneg _
  rw [← hs] at k2 ⊢
  have hc : Close (430 * F.u + δ) (rodMat t n) R := by
    have e : rodMat (a.angle - 2 * Real.pi * k) n = rodMat a.angle n := by
      rw [← rodMat_add_two_pi a.angle (-k) n]; congr 1; push_cast; ring
    have := (Matlab.rodMat_close t (a.angle - 2 * Real.pi * k) hn).mono k1
    rw [e] at this
    exact this.trans h2
  have c1 := rotAngle_close (rodMat_isSO3 t hn) hR hc
  have c2 : |s - rotAngle (rodMat t n)| ≤ 80 * F.u := by
    have e : rotAngle (rodMat t n) = Real.arccos (Real.cos s) := by
      rw [rotAngle, trace_rodMat t hn, hs, Real.cos_abs]; congr 1; ring
    rw [e]
    by_cases hle : s ≤ Real.pi
    · rw [Real.arccos_cos hs0 hle, sub_self, abs_zero]; linarith
    · have e2 : Real.cos s = Real.cos (2 * Real.pi - s) := by rw [Real.cos_two_pi_sub]
      rw [e2, Real.arccos_cos (by linarith) (by linarith), abs_le]
      constructor <;> linarith
  have c3 := (F.err_le (x := s) (M := 4) (by rw [abs_of_nonneg hs0]; linarith)).1
  have := abs_tri (abs_tri c3 c2) c1
  linarith


/-! ## The theorems -/

/-- **C87 (a).** `logarithmicMap()` in rounded arithmetic: the result, as a rotation vector, stands for the same rotation, and its
length is at most `π` up to rounding.  `e` bounds the error of the conversion of `r` to a quaternion (C85). -/
theorem C87_log (P : Prec) {k : Kind} {r : Rep k} {η δ e : ℝ} {R : M3} (h : Rounded η δ k r R) (he : quatErr P F.u η (angleSize k r) k ≤ e)
    (hS : angleSize k r ≤ 14) (hη : η ≤ 6 * F.u ∨ k = .quat ∨ k = .mat) (hdp : 3 * e + 3 * F.u ≤ P.dp)
    (hP : 190 * F.u + P.eps / 3000 ≤ 1 / 100000) (v : V3) :
    (act .rv (⟨F.logarithmicMap P k r⟩ : RotVec) v - R.mulVec v).norm ≤
      (δ + 5 * e + 2100 * F.u + P.eps / 700 + 104 / 100 * P.dp) * v.norm ∧
    (F.logarithmicMap P k r).norm ≤ Real.pi + 80 * F.u := by
  have hu := F.u_nonneg
  have hdl := P.dp_le
  have hdp0 := P.dp_pos
  have hS0 := angleSize_nonneg k r
  have he0 := F.quatErr_nonneg P h.1 r
  have hηS : η * angleSize k r ≤ 84 * F.u := by
    rcases hη with hη | rfl | rfl
    · have := mul_le_mul hη hS hS0 (by linarith)
      linarith
    · change η * 0 ≤ _; linarith
    · change η * 0 ≤ _; linarith
  have z := F.log_rounded P h he (by linarith) hS (F.C85_rv_defined P h (by linarith) (by linarith)) hηS hP
  refine ⟨?_, z.2⟩
  have := z.1.act (by norm_num) v
  rw [mul_zero, zero_add] at this
  exact this

private lemma quotient (P : Prec) {k₁ k₂ : Kind} {a : Rep k₁} {b : Rep k₂} {η δ η' δ' e₁ e₂ E : ℝ} {A B : M3} (ha : Rounded η δ k₁ a A)
    (hb : Rounded η' δ' k₂ b B) (hA : IsSO3 A) (he₁ : quatErr P F.u η (angleSize k₁ a) k₁ ≤ e₁)
    (he₂ : quatErr P F.u η' (angleSize k₂ b) k₂ ≤ e₂) (he : 64 * F.u ≤ e₂) (hE : E = 101 / 100 * e₁ + e₂ + 9 * F.u)
    (hm : k₁ = .mat → 75 * E + 430 * F.u ≤ P.dp) (hdp : 3 * E + 270 * F.u + P.eps / 1000 ≤ P.dp) :
    ∃ η'' : ℝ, Rounded η'' (δ + δ' + 202 * E + 2000 * F.u + 202 / 100 * P.dp) k₁ (F.mult P k₁ k₂ a (F.inverted k₂ b)) (A * B.transpose) ∧
      angleSize k₁ (F.mult P k₁ k₂ a (F.inverted k₂ b)) ≤ 13 ∧ η'' * angleSize k₁ (F.mult P k₁ k₂ a (F.inverted k₂ b)) ≤ 84 * F.u ∧
      quatErr P F.u η'' (angleSize k₁ (F.mult P k₁ k₂ a (F.inverted k₂ b))) k₁ ≤ 25 * E + 140 * F.u + P.eps / 3000 ∧
      3 * quatErr P F.u η'' (angleSize k₁ (F.mult P k₁ k₂ a (F.inverted k₂ b))) k₁ + 3 * F.u ≤ P.dp := by
  have hu := F.u_nonneg
  have hep := P.eps_pos
  have hdl := P.dp_le
  have q1 := F.quatErr_nonneg P ha.1 a
  obtain ⟨i1, i2⟩ := F.inverted_uniform P hb he₂ (by linarith) he
  obtain ⟨η'', z1, z2, z3, z4, z5⟩ := F.mult_uniform P ha i1 hA he₁ i2 hE hm hdp
  exact ⟨η'', z1.mono le_rfl (by linarith), z2, z3, z4, z5⟩

private lemma eps_dp {P : Prec} {E : ℝ} (hE : 0 ≤ E) (hdp : 3 * E + 270 * F.u + P.eps / 1000 ≤ P.dp) : 190 * F.u + P.eps / 3000 ≤ 1 / 100000 := by
  have hu := F.u_nonneg
  have hep := P.eps_pos
  have hdl := P.dp_le
  linarith

/-- **C87 (b).** `a.boxMinus(b)` in rounded arithmetic, for every pair of classes, wherever the two rotations are (including half turns
apart, where the exact logarithm jumps): the result, as a rotation vector, takes `b` to `a`, and its length is at most `π` up to
rounding. -/
theorem C87_boxMinus (P : Prec) {k₁ k₂ : Kind} {a : Rep k₁} {b : Rep k₂} {η δ η' δ' e₁ e₂ E : ℝ} {A B : M3} (ha : Rounded η δ k₁ a A)
    (hb : Rounded η' δ' k₂ b B) (hA : IsSO3 A) (he₁ : quatErr P F.u η (angleSize k₁ a) k₁ ≤ e₁)
    (he₂ : quatErr P F.u η' (angleSize k₂ b) k₂ ≤ e₂) (he : 64 * F.u ≤ e₂) (hE : E = 101 / 100 * e₁ + e₂ + 9 * F.u)
    (hm : k₁ = .mat → 75 * E + 430 * F.u ≤ P.dp) (hdp : 3 * E + 270 * F.u + P.eps / 1000 ≤ P.dp) (v : V3) :
    (act .rv (⟨F.boxMinus P k₁ k₂ a b⟩ : RotVec) v - (A * B.transpose).mulVec v).norm ≤ (δ + δ' + boxLoss P F.u E) * v.norm ∧
    (F.boxMinus P k₁ k₂ a b).norm ≤ Real.pi + 80 * F.u := by
  have hu := F.u_nonneg
  have hep := P.eps_pos
  have hdp0 := P.dp_pos
  have hdl := P.dp_le
  have q1 := F.quatErr_nonneg P ha.1 a
  obtain ⟨η'', z1, z2, z3, z4, z5⟩ := F.quotient P ha hb hA he₁ he₂ he hE hm hdp
  have x := F.log_rounded P z1 z4 (by linarith) (by linarith) (F.C85_rv_defined P z1 (by linarith) z5) z3
    (F.eps_dp (E := E) (by rw [hE]; linarith) hdp)
  refine ⟨?_, x.2⟩
  have := x.1.act (by norm_num) v
  rw [mul_zero, zero_add] at this
  refine this.trans (mul_le_mul_of_nonneg_right ?_ v.norm_nonneg)
  rw [boxLoss]; linarith

/-- **C87 (c).** `a.getDisparityAngle(b)` in rounded arithmetic is the angle between the two rotations, for every pair of classes. -/
theorem C87_disparity (P : Prec) {k₁ k₂ : Kind} {a : Rep k₁} {b : Rep k₂} {η δ η' δ' e₁ e₂ E : ℝ} {A B : M3} (ha : Rounded η δ k₁ a A)
    (hb : Rounded η' δ' k₂ b B) (hA : IsSO3 A) (hB : IsSO3 B) (he₁ : quatErr P F.u η (angleSize k₁ a) k₁ ≤ e₁)
    (he₂ : quatErr P F.u η' (angleSize k₂ b) k₂ ≤ e₂) (he : 64 * F.u ≤ e₂) (hE : E = 101 / 100 * e₁ + e₂ + 9 * F.u)
    (hm : k₁ = .mat → 75 * E + 430 * F.u ≤ P.dp) (hdp : 3 * E + 270 * F.u + P.eps / 1000 ≤ P.dp) :
    |F.disparityAngle P k₁ k₂ a b - rotAngle (A * B.transpose)| ≤ 2 * (δ + δ' + boxLoss P F.u E) + 1000 * F.u := by
  have hu := F.u_nonneg
  have hep := P.eps_pos
  have hdp0 := P.dp_pos
  have hdl := P.dp_le
  have q1 := F.quatErr_nonneg P ha.1 a
  obtain ⟨η'', z1, z2, z3, z4, z5⟩ := F.quotient P ha hb hA he₁ he₂ he hE hm hdp
  obtain ⟨m, hmm⟩ : ∃ m, m = F.mult P k₁ k₂ a (F.inverted k₂ b) := ⟨_, rfl⟩
  rw [← hmm] at z1 z2 z3 z4 z5
  have q3 := F.quatErr_nonneg P z1.1 m
  have x := F.C85_convert P .aa z1 (by linarith) (fun h => by cases h)
  have hsz := F.C85_angle_size P .aa z1 (by linarith)
  change |(F.conv P .aa k₁ m : AngAx).angle| ≤ _ at hsz
  have y := F.wrap_angle x (SO3.mul hA (SO3.transpose hB)) (by linarith)
  have e : F.disparityAngle P k₁ k₂ a b = F.fl |F.wrapWide (F.conv P .aa k₁ m : AngAx).angle| := by rw [hmm]; rfl
  rw [e]
  refine y.trans ?_
  rw [boxLoss]
  have hl : (if Kind.aa = k₁ then 0 else convLoss P F.u η'' (quatErr P F.u η'' (angleSize k₁ m) k₁) (angleSize k₁ m) .aa) ≤
      100 * E + 592 * F.u + P.eps / 750 + 101 / 100 * P.dp := by
    split_ifs
    · rw [hE]; linarith
    · simp only [convLoss]; linarith
  linarith

/-- **C87 (d).** `a.isNear(b, tol)` in rounded arithmetic decides correctly, except in a band around the tolerance. -/
theorem C87_isNear (P : Prec) {k₁ k₂ : Kind} {a : Rep k₁} {b : Rep k₂} {η δ η' δ' e₁ e₂ E : ℝ} {A B : M3} (ha : Rounded η δ k₁ a A)
    (hb : Rounded η' δ' k₂ b B) (hA : IsSO3 A) (hB : IsSO3 B) (he₁ : quatErr P F.u η (angleSize k₁ a) k₁ ≤ e₁)
    (he₂ : quatErr P F.u η' (angleSize k₂ b) k₂ ≤ e₂) (he : 64 * F.u ≤ e₂) (hE : E = 101 / 100 * e₁ + e₂ + 9 * F.u)
    (hm : k₁ = .mat → 75 * E + 430 * F.u ≤ P.dp) (hdp : 3 * E + 270 * F.u + P.eps / 1000 ≤ P.dp) (tol : ℝ) :
    (rotAngle (A * B.transpose) ≤ tol - (2 * (δ + δ' + boxLoss P F.u E) + 1000 * F.u) → F.isNear P k₁ k₂ a b tol = true) ∧
    (rotAngle (A * B.transpose) > tol + (2 * (δ + δ' + boxLoss P F.u E) + 1000 * F.u) → F.isNear P k₁ k₂ a b tol = false) := by
  have h := abs_le.mp (F.C87_disparity P ha hb hA hB he₁ he₂ he hE hm hdp)
  constructor
  · intro h1
    simp only [isNear, decide_eq_true_eq]
    linarith [h.2]
  · intro h1
    simp only [isNear, decide_eq_false_iff_not, not_le]
    linarith [h.1]

/-- **C87 (e).** `a.interpolate(b, t)` in rounded arithmetic, for every pair of classes: there is a rotation vector `x` of length at most
`π` (up to rounding) that takes `a` to `b`, and the result is `a` followed by the fraction `t` of `x` (`t` clamped to `[0,1]`), up to
rounding. -/
theorem C87_interpolate (P : Prec) {k₁ k₂ : Kind} {a : Rep k₁} {b : Rep k₂} {δ δ' η' e₁ e₂ E : ℝ} {A B : M3} (ha : Rounded (6 * F.u) δ k₁ a A)
    (hb : Rounded η' δ' k₂ b B) (hA : IsSO3 A) (hB : IsSO3 B) (hS : angleSize k₁ a ≤ 13)
    (he₁ : quatErr P F.u (6 * F.u) (angleSize k₁ a) k₁ ≤ e₁)
    (he₂ : quatErr P F.u η' (angleSize k₂ b) k₂ ≤ e₂) (he : 64 * F.u ≤ e₁) (hE : E = 101 / 100 * e₂ + e₁ + 9 * F.u)
    (hm : k₂ = .mat → 75 * E + 430 * F.u ≤ P.dp) (hdp : 3 * E + 420 * F.u + P.eps ≤ P.dp)
    (hL : k₁ = .quat ∨ k₁ = .mat → loopLoss P F.u k₁ ≤ 1 / 200) (t : ℝ) :
    ∃ x : V3, x.norm ≤ Real.pi + 80 * F.u ∧
      (∀ v, (act .rv (⟨x⟩ : RotVec) (A.mulVec v) - B.mulVec v).norm ≤ (δ' + δ + boxLoss P F.u E) * v.norm) ∧
      ∀ v, (act k₁ (F.interpolate P k₁ k₂ a b t) v - act .rv (⟨(min 1 (max 0 t)) • x⟩ : RotVec) (A.mulVec v)).norm ≤
        (δ + loopLoss P F.u k₁ + 62 * F.u) * v.norm := by
  have hu := F.u_nonneg
  have hus := F.u_small
  have hep := P.eps_pos
  have hdp0 := P.dp_pos
  have hdl := P.dp_le
  have hp2 := Real.pi_lt_d2
  have q1 := F.quatErr_nonneg P ha.1 a
  have q2 := F.quatErr_nonneg P hb.1 b
  have hbm := F.C87_boxMinus P hb ha hB he₂ he₁ he hE hm (by linarith)
  obtain ⟨x, hx⟩ : ∃ x, x = F.boxMinus P k₂ k₁ b a := ⟨_, rfl⟩
  rw [← hx] at hbm
  have hxn := (hbm 0).2
  refine ⟨x, hxn, fun v => ?_, fun v => ?_⟩
  · have h1 := (hbm (A.mulVec v)).1
    rw [M3.mulVec_mulVec, mul_assoc, SO3.tr_mul hA, mul_one, SO3.mulVec_norm hA] at h1
    exact h1
  · obtain ⟨s, hs⟩ : ∃ s, s = (if t > 1 then 1 else if t < 0 then 0 else t) := ⟨_, rfl⟩
    have hs' : min 1 (max 0 t) = s := by
      rw [hs]
      split_ifs with h1 h2
      · rw [max_eq_right (by linarith), min_eq_left h1.le]
      · rw [max_eq_left h2.le, min_eq_right (by norm_num)]
      · rw [max_eq_right (not_lt.mp h2), min_eq_right (not_lt.mp h1)]
    have hs0 : 0 ≤ s := by rw [← hs']; exact le_min (by norm_num) (le_max_left _ _)
    have hs1 : s ≤ 1 := by rw [← hs']; exact min_le_left _ _
    rw [hs']
    obtain ⟨w, hw⟩ : ∃ w, w = castV3 F.fl (s • x) := ⟨_, rfl⟩
    have e : F.interpolate P k₁ k₂ a b t = F.boxPlus P k₁ a w := by
      simp only [interpolate, hw, castV3, ← hx, ← hs, V3.smul_x, V3.smul_y, V3.smul_z, mul_comm s]
    have hsx : (s • x).norm ≤ 32 / 10 := by
      rw [V3.norm_smul, abs_of_nonneg hs0]
      have := mul_le_mul hs1 hxn x.norm_nonneg (by norm_num)
      linarith
    have hwn : w.norm ≤ 4 := by
      have := F.fl_vec_bound (v := x) (k := s) (M := 32 / 10) (by rw [V3.norm_smul] at hsx; exact hsx)
      rw [hw]
      exact this.trans (by norm_num)
    have hc : Close (20 * F.u) (dmat .rv (⟨w⟩ : RotVec)) (dmat .rv (⟨s • x⟩ : RotVec)) := by
      rw [hw]
      refine (F.rv_cast_close (s • x)).mono ?_
      have := mul_le_mul_of_nonneg_right hsx hu
      linarith
    have k := F.C86_loop P k₁ ha hS (by linarith) (fun _ => by linarith) [w] (by simpa using hwn) (by simpa using hL) v
    simp only [floatBoxPlusLoop, rotateInTurn, List.length_singleton, Nat.cast_one, one_mul] at k
    rw [e]
    have c := hc (A.mulVec v)
    rw [SO3.mulVec_norm hA, ← act_eq_dmat, ← act_eq_dmat] at c
    have e2 : act k₁ (F.boxPlus P k₁ a w) v - act .rv (⟨s • x⟩ : RotVec) (A.mulVec v) =
        (act k₁ (F.boxPlus P k₁ a w) v - act .rv (⟨w⟩ : RotVec) (A.mulVec v)) +
        (act .rv (⟨w⟩ : RotVec) (A.mulVec v) - act .rv (⟨s • x⟩ : RotVec) (A.mulVec v)) := by ext <;> simp
    rw [e2]
    refine (V3.norm_add_le _ _).trans ((add_le_add k c).trans ?_)
    rw [← add_mul]
    refine mul_le_mul_of_nonneg_right ?_ v.norm_nonneg
    linarith


/-! ## The unit roundoff of `double` -/

private lemma quatErr_seven (P : Prec) {k : Kind} {r : Rep k} (hS : angleSize k r ≤ 7) :
    quatErr P F.u 0 (angleSize k r) k ≤ (if k = .mat then 35 * F.u else 53 * F.u + P.eps / 3000) ∧
    quatErr P F.u (6 * F.u) (angleSize k r) k ≤ 65 * F.u + P.eps / 3000 := by
  have hu := F.u_nonneg
  have hep := P.eps_pos
  have h := mul_le_mul_of_nonneg_right hS hu
  cases k <;> constructor <;> simp [quatErr] <;> linarith

private lemma double_const (hF : F.u ≤ 2⁻¹ ^ 53) {k : Kind} {E : ℝ}
    (hE : E = 101 / 100 * (if k = .mat then 35 * F.u else 53 * F.u + Prec.double.eps / 3000) + (65 * F.u + Prec.double.eps / 3000) + 9 * F.u) :
    (k = .mat → 75 * E + 430 * F.u ≤ Prec.double.dp) ∧ 3 * E + 420 * F.u + Prec.double.eps ≤ Prec.double.dp ∧
    boxLoss Prec.double F.u E ≤ 9 / 10 ^ 12 := by
  have hu := F.u_nonneg
  have heps : Prec.double.eps = 2⁻¹ ^ 52 := rfl
  have hdp : Prec.double.dp = 1 / 1000000000000 := rfl
  norm_num at hF heps
  rw [boxLoss]
  by_cases hk : k = .mat
  · rw [if_pos hk] at hE
    refine ⟨fun _ => ?_, ?_, ?_⟩ <;> norm_num <;> linarith
  · rw [if_neg hk] at hE
    refine ⟨fun h => absurd h hk, ?_, ?_⟩ <;> norm_num <;> linarith

/-- **C87 (f).** In `double`, for every pair of classes and all rotations with angles up to a full turn: `a.boxMinus(b)` is a rotation
vector of length at most `π` that takes `b` to `a` up to `10⁻¹¹` (relative), `a.getDisparityAngle(b)` is the angle between the two
rotations up to `2·10⁻¹¹`, and two values of the same rotation are near each other for every tolerance from `2·10⁻¹¹`. -/
theorem C87_double (hF : F.u ≤ 2⁻¹ ^ 53) {k₁ k₂ : Kind} {a : Rep k₁} {b : Rep k₂} (ha : Valid k₁ a) (hb : Valid k₂ b)
    (hSa : angleSize k₁ a ≤ 7) (hSb : angleSize k₂ b ≤ 7) :
    (∀ v, (act .rv (⟨F.boxMinus Prec.double k₁ k₂ a b⟩ : RotVec) (act k₂ b v) - act k₁ a v).norm ≤ 1 / 10 ^ 11 * v.norm) ∧
    (F.boxMinus Prec.double k₁ k₂ a b).norm ≤ Real.pi + 1 / 10 ^ 14 ∧
    |F.disparityAngle Prec.double k₁ k₂ a b - rotAngle (den k₁ a * (den k₂ b).transpose)| ≤ 2 / 10 ^ 11 ∧
    ((∀ v, act k₁ a v = act k₂ b v) → ∀ tol, 2 / 10 ^ 11 ≤ tol → F.isNear Prec.double k₁ k₂ a b tol = true) := by
  have hu := F.u_nonneg
  have hep := Prec.double.eps_pos
  have qa := (F.quatErr_seven Prec.double hSa).1
  have qb := (F.quatErr_seven Prec.double hSb).1
  have hA := den_isSO3 ha
  have hB := den_isSO3 hb
  obtain ⟨E, hE⟩ : ∃ E, E = 101 / 100 * (if k₁ = .mat then 35 * F.u else 53 * F.u + Prec.double.eps / 3000) +
    (65 * F.u + Prec.double.eps / 3000) + 9 * F.u := ⟨_, rfl⟩
  obtain ⟨c1, c2, c3⟩ := F.double_const hF hE
  have qb' : quatErr Prec.double F.u 0 (angleSize k₂ b) k₂ ≤ 65 * F.u + Prec.double.eps / 3000 := qb.trans (by split_ifs <;> linarith)
  have x := F.C87_boxMinus Prec.double (rounded_of_valid ha) (rounded_of_valid hb) hA qa qb' (by linarith) hE c1 (by linarith)
  have y := F.C87_disparity Prec.double (rounded_of_valid ha) (rounded_of_valid hb) hA hB qa qb' (by linarith) hE c1 (by linarith)
  have hF' := hF
  norm_num at hF'
  have y' : |F.disparityAngle Prec.double k₁ k₂ a b - rotAngle (den k₁ a * (den k₂ b).transpose)| ≤ 2 / 10 ^ 11 :=
    y.trans (by norm_num; linarith)
  refine ⟨fun v => ?_, (x 0).2.trans (by norm_num; linarith), y', fun h tol ht => ?_⟩
  · have z := (x (act k₂ b v)).1
    rw [act_eq k₂ b v, act_eq k₁ a v]
    rw [act_eq k₂ b v, M3.mulVec_mulVec, mul_assoc, SO3.tr_mul hB, mul_one, SO3.mulVec_norm hB] at z
    refine z.trans (mul_le_mul_of_nonneg_right (by norm_num; linarith) v.norm_nonneg)
  · have e : den k₁ a = den k₂ b := by
      refine M3.ext_mulVec fun v => ?_
      rw [← act_eq, ← act_eq, h v]
    rw [e, hB.1, rotAngle_one, sub_zero] at y'
    simp only [isNear, decide_eq_true_eq]
    exact ((le_abs_self _).trans y').trans ht

/-- **C87 (g).** Interpolation in `double`, for every pair of classes. -/
theorem C87_interpolate_double (hF : F.u ≤ 2⁻¹ ^ 53) {k₁ k₂ : Kind} {a : Rep k₁} {b : Rep k₂} (ha : Valid k₁ a) (hb : Valid k₂ b)
    (hSa : angleSize k₁ a ≤ 7) (hSb : angleSize k₂ b ≤ 7) (t : ℝ) :
    ∃ x : V3, x.norm ≤ Real.pi + 1 / 10 ^ 14 ∧
      (∀ v, (act .rv (⟨x⟩ : RotVec) (act k₁ a v) - act k₂ b v).norm ≤ 1 / 10 ^ 11 * v.norm) ∧
      ∀ v, (act k₁ (F.interpolate Prec.double k₁ k₂ a b t) v - act .rv (⟨(min 1 (max 0 t)) • x⟩ : RotVec) (act k₁ a v)).norm ≤
        1 / 10 ^ 11 * v.norm := by
  have hu := F.u_nonneg
  have hep := Prec.double.eps_pos
  have qa := (F.quatErr_seven Prec.double hSa).2
  have qb := (F.quatErr_seven Prec.double hSb).1
  have hA := den_isSO3 ha
  have hB := den_isSO3 hb
  obtain ⟨E, hE⟩ : ∃ E, E = 101 / 100 * (if k₂ = .mat then 35 * F.u else 53 * F.u + Prec.double.eps / 3000) +
    (65 * F.u + Prec.double.eps / 3000) + 9 * F.u := ⟨_, rfl⟩
  obtain ⟨c1, c2, c3⟩ := F.double_const hF hE
  have hF' := hF
  have heps : Prec.double.eps = 2⁻¹ ^ 52 := rfl
  have hdp : Prec.double.dp = 1 / 1000000000000 := rfl
  norm_num at hF' heps
  have hL : loopLoss Prec.double F.u k₁ ≤ 5 / 10 ^ 12 := by
    cases k₁ <;> simp [loopLoss] <;> norm_num <;> linarith
  obtain ⟨x, h1, h2, h3⟩ := F.C87_interpolate Prec.double ((rounded_of_valid ha).mono (by linarith) le_rfl) (rounded_of_valid hb) hA hB (by linarith) qa qb
    (by linarith) hE c1 c2 (fun _ => hL.trans (by norm_num)) t
  refine ⟨x, h1.trans (by norm_num; linarith), fun v => ?_, fun v => ?_⟩
  · rw [act_eq k₁ a v, act_eq k₂ b v]
    exact (h2 v).trans (mul_le_mul_of_nonneg_right (by norm_num; linarith) v.norm_nonneg)
  · rw [act_eq k₁ a v]
    exact (h3 v).trans (mul_le_mul_of_nonneg_right (by norm_num; norm_num at hL; linarith) v.norm_nonneg)

/-! ## Instances -/

/-- Exact arithmetic. -/
def exact : FloatWide where
  toFloatLib := FloatLib.exact
  wide := id
  mid := id
  wide_err := fun x => by simp [FloatLib.exact]
  mid_err := fun x => by simp [FloatLib.exact]

/-- A `Scalar` type that is its own wide type (`Scalar = double`). -/
def uniform (F : FloatLib) : FloatWide where
  toFloatLib := F
  wide := F.fl
  mid := F.fl
  wide_err := F.err
  mid_err := F.err

/-- `Scalar = double`, round-to-nearest, correctly rounded library. -/
def double : FloatWide := uniform FloatLib.double

/-- `Scalar = float` with the rounding to `double` for the constant `M_PI` and the variable `m`. -/
def float : FloatWide where
  toFloatLib := FloatLib.float
  wide := FloatArith.double.fl
  mid := FloatArith.float.fl
  wide_err := fun x => (FloatArith.double.err x).trans (mul_le_mul_of_nonneg_right (by
    change (2⁻¹ : ℝ) ^ 53 ≤ 2⁻¹ ^ 24
    norm_num) (abs_nonneg _))
  mid_err := FloatArith.float.err

lemma exact_modulo (x : ℝ) {y : ℝ} : exact.modulo x y = floatingPointModulo x y := by
  simp only [modulo, fpModuloTyped, floatingPointModulo, fpModuloFrom]
  rfl

/-- **C87 (h).** In exact arithmetic the rounded operations are the operations of Model/Rotation.lean. -/
theorem C87_exact_operations (P : Prec) (k₁ k₂ : Kind) (a : Rep k₁) (b : Rep k₂) (t : ℝ) :
    exact.logarithmicMap P k₁ a = Kindr.logarithmicMap P k₁ a ∧
    exact.boxMinus P k₁ k₂ a b = Kindr.boxMinus P k₁ k₂ a b ∧
    exact.disparityAngle P k₁ k₂ a b = Kindr.disparityAngle P k₁ k₂ a b ∧
    exact.isNear P k₁ k₂ a b t = Kindr.isNear P k₁ k₂ a b t ∧
    exact.interpolate P k₁ k₂ a b t = Kindr.interpolate P k₁ k₂ a b t := by
  have hw : ∀ x, exact.wrapWide x = Kindr.wrapPosNegPI x := fun x => by
    simp only [wrapWide, Kindr.wrapPosNegPI]
    exact congrArg (fun m => m - Real.pi) (exact_modulo _)
  have hw' : ∀ x, exact.wrapPosNegPI x = Kindr.wrapPosNegPI x := fun x => hw x
  have hu : ∀ x, exact.aaGetUnique x = Kindr.aaGetUnique x := fun x => by
    simp only [aaGetUnique, Kindr.aaGetUnique, hw']
    rfl
  have hr : ∀ x, exact.rvGetUnique P x = Kindr.rvGetUnique P x := fun x => by
    have e1 := FloatLib.exact_aaOfRv P x
    have e2 := fun y => FloatLib.exact_rvOfAa y
    rw [Kindr.rvGetUnique, ← e1, ← hu, ← e2]
    rfl
  have hl : ∀ {k : Kind} (r : Rep k), exact.logarithmicMap P k r = Kindr.logarithmicMap P k r := fun {k} r => by
    have e := FloatLib.C85_exact_table P .rv k r
    rw [Kindr.logarithmicMap, ← hr, ← e]
    rfl
  have hq : ∀ {k k' : Kind} (x : Rep k) (y : Rep k'), FloatLib.exact.mult P k k' x (FloatLib.exact.inverted k' y) =
      Kindr.mult P k k' x (Kindr.inverted k' y) := fun {k k'} x y => by
    rw [(FloatLib.C85_exact_operations P k' k' y y 0).2.2.1, (FloatLib.C85_exact_operations P k k' x _ 0).2.1]
  have hb : ∀ {k k' : Kind} (x : Rep k) (y : Rep k'), exact.boxMinus P k k' x y = Kindr.boxMinus P k k' x y := fun {k k'} x y => by
    rw [Kindr.boxMinus, ← hq, ← hl]
    rfl
  have hd : exact.disparityAngle P k₁ k₂ a b = Kindr.disparityAngle P k₁ k₂ a b := by
    have e := FloatLib.C85_exact_table P .aa k₁ (Kindr.mult P k₁ k₂ a (Kindr.inverted k₂ b))
    change |exact.wrapWide (FloatLib.exact.conv P .aa k₁ (FloatLib.exact.mult P k₁ k₂ a (FloatLib.exact.inverted k₂ b)) : AngAx).angle| = _
    rw [hq, e, hw]
    rfl
  refine ⟨hl a, hb a b, hd, by rw [isNear, Kindr.isNear, hd], ?_⟩
  simp only [interpolate, Kindr.interpolate, hb]
  obtain ⟨w, hw⟩ : ∃ w : V3, w = (if t > 1 then 1 else if t < 0 then 0 else t) • Kindr.boxMinus P k₂ k₁ b a := ⟨_, rfl⟩
  have e : (⟨exact.fl ((Kindr.boxMinus P k₂ k₁ b a).x * (if t > 1 then 1 else if t < 0 then 0 else t)),
      exact.fl ((Kindr.boxMinus P k₂ k₁ b a).y * (if t > 1 then 1 else if t < 0 then 0 else t)),
      exact.fl ((Kindr.boxMinus P k₂ k₁ b a).z * (if t > 1 then 1 else if t < 0 then 0 else t))⟩ : V3) = w := by
    rw [hw]
    ext <;> exact mul_comm _ _
  rw [e]
  have e2 := FloatLib.C85_exact_table P k₁ .rv ⟨w⟩
  have e3 := (FloatLib.C85_exact_operations P k₁ k₁ (Kindr.conv P k₁ .rv (⟨w⟩ : RotVec)) a 0).2.1
  change FloatLib.exact.mult P k₁ k₁ (FloatLib.exact.conv P k₁ .rv (⟨w⟩ : RotVec)) a = _
  rw [e2, e3, hw]
  rfl

/-- Euler angles of one object and the matrix of another, in `double`: the box difference takes the second to the first. -/
example (e : EulXyz) (m : M3) (hm : IsSO3 m) (hx : |e.x| ≤ 2) (hy : |e.y| ≤ 2) (hz : |e.z| ≤ 2) (v : V3) :
    (act .rv (⟨double.boxMinus Prec.double .xyz .mat e m⟩ : RotVec) (m.mulVec v) - act .xyz e v).norm ≤ 1 / 10 ^ 11 * v.norm :=
  (C87_double double le_rfl (k₁ := .xyz) (k₂ := .mat) (a := e) (b := m) trivial hm (by change |e.x| + |e.y| + |e.z| ≤ 7; linarith)
    (by change (0 : ℝ) ≤ 7; norm_num)).1 v

end FloatWide
end Kindr
