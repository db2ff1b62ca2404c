import Verif.Props.FloatAa

/-!
# Rotation vectors in floating point
-/

set_option autoImplicit false

open Classical

noncomputable section
namespace Kindr
open Spec

namespace FloatLib
variable (F : FloatLib)

lemma rv_cast_close (v : V3) : Close ((3 * v.norm + 10) * F.u) (dmat .rv (⟨castV3 F.fl v⟩ : RotVec)) (dmat .rv (⟨v⟩ : RotVec)) :=
  rv_perturb (castV3_err F.toFloatArith v) F.u_nonneg (by linarith [F.u_small])

/-- The guard of the small-angle branch. -/
lemma rvSmall_bound {P : Prec} {u : Quat} (hu : u.normSq = 1) {c η : ℝ} (hc : |c - 1| ≤ η) (hη : η ≤ 1 / 100000)
    (h : F.fl (1 - F.fl (c * u.w * (c * u.w))) < P.dp) : u.vec.norm ^ 2 ≤ P.dp + 21 / 10 * F.u + 201 / 100 * η := by
  have hm2 := vec_norm_sq hu
  have hu0 := F.u_nonneg
  have hs := F.u_small
  have hη0 : 0 ≤ η := (abs_nonneg _).trans hc
  have hw1 : u.w ^ 2 ≤ 1 := by nlinarith [sq_nonneg u.vec.norm]
  have hcsq := abs_le.mp (sq_sub_one_le hc (by linarith))
  have h0 : 0 ≤ u.w ^ 2 := sq_nonneg _
  have e : c * u.w * (c * u.w) = c ^ 2 * u.w ^ 2 := by ring
  rw [e] at h
  have h1 : c ^ 2 * u.w ^ 2 ≤ u.w ^ 2 + 201 / 100 * η := by nlinarith [hcsq.2]
  have h2 : 0 ≤ c ^ 2 * u.w ^ 2 := by positivity
  obtain ⟨W, hW⟩ : ∃ W, W = c ^ 2 * u.w ^ 2 := ⟨_, rfl⟩
  rw [← hW] at h h1 h2
  have k1 := F.err W
  rw [abs_of_nonneg h2] at k1
  have k2 : F.u * W ≤ F.u * (102 / 100) := mul_le_mul_of_nonneg_left (by linarith) hu0
  obtain ⟨k3, k4⟩ := abs_le.mp (k1.trans k2)
  generalize F.fl W = X at *
  have k5 := F.err (1 - X)
  have k6 : |1 - X| ≤ 102 / 100 := by rw [abs_le]; constructor <;> linarith
  have k7 := (k5.trans (mul_le_mul_of_nonneg_left k6 hu0))
  obtain ⟨k8, k9⟩ := abs_le.mp k7
  linarith

set_option maxHeartbeats 1000000 in
/-- `ConversionTraits<RotationVector, RotationQuaternion>` with rounding. -/
lemma rvOfQuat_round (P : Prec) {p u : Quat} (hu : u.normSq = 1) {c η : ℝ} (hc : |c - 1| ≤ η) (hη : η ≤ 1 / 100000)
    (hp : p = ⟨c * u.w, c * u.x, c * u.y, c * u.z⟩) (hd : F.rvSmall P p ∨ p.vec ≠ 0) :
    Close (P.dp / 50 + 95 * F.u + 7 / 100 * η) (dmat .rv (F.rvOfQuat P p)) (sMat u) := by
  have hu0 := F.u_nonneg
  have hs := F.u_small
  have hη0 : 0 ≤ η := (abs_nonneg _).trans hc
  obtain ⟨hc1, hc2⟩ := abs_le.mp hc
  have hcp : 0 < c := by linarith
  have hdp := P.dp_le
  have hdp0 := P.dp_pos
  have hpv : p.vec = c • u.vec := by rw [hp, vec_scale]
  have hpw : p.w = c * u.w := by rw [hp]
  by_cases hb : F.rvSmall P p
  · have hb' := hb
    rw [FloatLib.rvSmall, hpw] at hb'
    have hm := F.rvSmall_bound hu hc hη hb'
    have hmμ : u.vec.norm ≤ 1 / 100 := by
      apply le_of_sq_le_sq (hm.trans ?_) (by norm_num)
      norm_num at hdp ⊢; linarith
    have k := rv_small_branch hu hc (by linarith) (by norm_num) hmμ
    have hr : F.rvOfQuat P p = ⟨castV3 F.fl ((if 0 < c * u.w then 2 else -2 : ℝ) • (c • u.vec))⟩ := by
      rw [← hpv, ← hpw]
      simp only [FloatLib.rvOfQuat, hb, if_true]
      split_ifs <;> rfl
    have hn : ((if 0 < c * u.w then 2 else -2 : ℝ) • (c • u.vec)).norm ≤ 3 / 100 := by
      rw [V3.norm_smul, V3.norm_smul, abs_of_pos hcp]
      have : |(if 0 < c * u.w then 2 else -2 : ℝ)| = 2 := by split_ifs <;> simp
      rw [this]
      have := mul_le_mul (by linarith : c ≤ 11 / 10) hmμ (V3.norm_nonneg _) (by norm_num)
      linarith
    rw [hr]
    refine ((F.rv_cast_close _).trans k).mono ?_
    have h1 := mul_le_mul_of_nonneg_right (by linarith : 3 * ((if 0 < c * u.w then 2 else -2 : ℝ) • (c • u.vec)).norm + 10 ≤ 11) hu0
    linarith
  · have hv : p.vec ≠ 0 := hd.resolve_left hb
    have hN := F.norm3_err p.vec
    have hnp := V3.norm_pos hv
    have hN0 : F.norm3 p.vec ≠ 0 := fun h => hv ((F.norm3_eq_zero _).mp h)
    have hNp : 0 < F.norm3 p.vec := lt_of_le_of_ne (F.norm3_nonneg _) (Ne.symm hN0)
    have hreg := rv_regular_branch hu hcp hp hv
    have hr : F.rvOfQuat P p = ⟨castV3 F.fl (F.fl (F.fl (2 * F.atan2 (F.norm3 p.vec) p.w) / F.norm3 p.vec) • p.vec)⟩ := by
      simp only [FloatLib.rvOfQuat, hb, if_false]
      rfl
    have b1 := F.atan2_err (F.norm3 p.vec) p.w (Or.inl hN0)
    have b2 := atan2_perturb hnp p.w hN (by linarith)
    have b3 : |Kindr.atan2 p.vec.norm p.w| ≤ 315 / 100 := (Complex.abs_arg_le_pi _).trans (by linarith [Real.pi_lt_d2])
    have hun := unit_dir hnp.ne'
    have hdir : p.vec = p.vec.norm • ((1 / p.vec.norm) • p.vec) := by
      rw [smul_smul, mul_one_div_cancel hnp.ne', one_smul]
    obtain ⟨n, hn⟩ : ∃ n, n = p.vec.norm := ⟨_, rfl⟩
    obtain ⟨N, hNe⟩ : ∃ N, N = F.norm3 p.vec := ⟨_, rfl⟩
    rw [← hn] at hN hnp b2 b3 hun hdir hreg
    rw [← hNe] at hN hNp b1 b2 hr
    obtain ⟨ê, hê⟩ : ∃ ê, ê = (1 / n) • p.vec := ⟨_, rfl⟩
    rw [← hê] at hun hdir hreg
    generalize F.atan2 N p.w = A at *
    generalize Kindr.atan2 N p.w = B at *
    generalize Kindr.atan2 n p.w = C at *
    obtain ⟨c1, c2⟩ := abs_le.mp b1
    obtain ⟨c3, c4⟩ := abs_le.mp b2
    have hT : |F.fl (2 * A) - 2 * C| ≤ 304 / 10 * F.u := by
      refine F.fl_le (k := 2403 / 100) (M := 63 / 10) ?_ ?_ (by norm_num) (by norm_num)
      · rw [abs_le]; constructor <;> linarith
      · rw [abs_mul, abs_two]; linarith
    generalize F.fl (2 * A) = T at *
    have hC2 : |2 * C| ≤ 63 / 10 := by rw [abs_mul, abs_two]; linarith
    have hTb : |T| ≤ 631 / 100 := by
      have e : T = (T - 2 * C) + 2 * C := by ring
      rw [e]; exact (abs_add_le _ _).trans (by linarith)
    obtain ⟨h1, h2⟩ := abs_le.mp hN
    have hup : F.u * n ≤ n / 10000000 := by nlinarith
    have hr1 : |n / N - 1| ≤ 402 / 100 * F.u := by
      have e : n / N - 1 = (n - N) / N := by field_simp
      rw [e, abs_div, abs_of_pos hNp, div_le_iff₀ hNp, abs_sub_comm]
      nlinarith
    have hr2 : |T / N * n - 2 * C| ≤ 558 / 10 * F.u := by
      have e : T / N * n - 2 * C = T * (n / N - 1) + (T - 2 * C) := by field_simp; ring
      rw [e]
      refine (abs_add_le _ _).trans ?_
      rw [abs_mul]
      have := mul_le_mul hTb hr1 (abs_nonneg _) (by norm_num)
      linarith
    have hr3 : |F.fl (T / N) * n - 2 * C| ≤ 63 * F.u := by
      have e : F.fl (T / N) * n - 2 * C = (F.fl (T / N) - T / N) * n + (T / N * n - 2 * C) := by ring
      rw [e]
      refine (abs_add_le _ _).trans ?_
      have k1 := mul_le_mul_of_nonneg_right (F.err (T / N)) hnp.le
      rw [abs_mul, abs_of_pos hnp]
      have k2 : |T / N| * n ≤ 64 / 10 := by
        have : |T / N| * n = |T / N * n| := by rw [abs_mul, abs_of_pos hnp]
        rw [this]
        have e : T / N * n = (T / N * n - 2 * C) + 2 * C := by ring
        rw [e]; exact (abs_add_le _ _).trans (by linarith)
      have k3 := mul_le_mul_of_nonneg_left k2 hu0
      have k4 : F.u * |T / N| * n = F.u * (|T / N| * n) := by ring
      linarith
    rw [hr]
    generalize F.fl (T / N) = K at *
    have e1 : K • p.vec = (K * n) • ê := by rw [hdir, smul_smul]
    have hc1 := F.rv_cast_close (K • p.vec)
    have hc2 : Close (63 * F.u) (dmat .rv (⟨K • p.vec⟩ : RotVec)) (sMat u) := by
      rw [e1, dmat_rv_smul _ hun, ← hreg]
      exact (Matlab.rodMat_close _ _ hun).mono hr3
    have hKn : (K • p.vec).norm ≤ 631 / 100 := by
      rw [e1, V3.norm_smul]
      have : ê.norm = 1 := V3.norm_eq_one_iff.mpr hun
      rw [this, mul_one]
      have e : K * n = (K * n - 2 * C) + 2 * C := by ring
      rw [e]; exact (abs_add_le _ _).trans (by linarith)
    refine (hc1.trans hc2).mono ?_
    have := mul_le_mul_of_nonneg_right (by linarith : 3 * (K • p.vec).norm + 10 ≤ 29) hu0
    linarith

/-- `ConversionTraits<RotationVector, AngleAxis>` with rounding. -/
lemma rvOfAa_round (a : AngAx) {n : V3} (hn : n.normSq = 1) {η : ℝ} (ha : (a.axis - n).norm ≤ η) (hη : η ≤ 1 / 1000) :
    Close ((3 * |a.angle| + 10) * (η + 101 / 100 * F.u)) (dmat .rv (F.rvOfAa a)) (rodMat a.angle n) := by
  have hu0 := F.u_nonneg
  have hs := F.u_small
  have hη0 : 0 ≤ η := (V3.norm_nonneg _).trans ha
  have hn1 : n.norm = 1 := V3.norm_eq_one_iff.mpr hn
  have hax : a.axis.norm ≤ 101 / 100 := by
    have e : a.axis = (a.axis - n) + n := by ext <;> simp
    rw [e]; exact (V3.norm_add_le _ _).trans (by linarith)
  have e0 : F.rvOfAa a = ⟨castV3 F.fl (a.angle • a.axis)⟩ := rfl
  have key : (castV3 F.fl (a.angle • a.axis) - a.angle • n).norm ≤ (η + 101 / 100 * F.u) * (a.angle • n).norm := by
    have e : castV3 F.fl (a.angle • a.axis) - a.angle • n = (castV3 F.fl (a.angle • a.axis) - a.angle • a.axis) + a.angle • (a.axis - n) := by
      ext <;> simp <;> ring
    rw [e]
    refine (V3.norm_add_le _ _).trans ?_
    have k := castV3_err F.toFloatArith (a.angle • a.axis)
    rw [V3.norm_smul] at k
    rw [V3.norm_smul, V3.norm_smul, hn1, mul_one]
    have k1 := mul_le_mul_of_nonneg_left ha (abs_nonneg a.angle)
    have k2 := mul_le_mul_of_nonneg_left (mul_le_mul_of_nonneg_left hax (abs_nonneg a.angle)) hu0
    nlinarith
  have := rv_perturb key (by positivity) (by linarith)
  rw [V3.norm_smul, hn1, mul_one, dmat_rv_smul _ hn] at this
  rw [e0]; exact this

/-- `ConversionTraits<AngleAxis, RotationVector>` with rounding. -/
lemma aaOfRv_round (P : Prec) (r : RotVec) :
    ∃ n : V3, n.normSq = 1 ∧ ((F.aaOfRv P r).axis - n).norm ≤ 52 / 10 * F.u ∧
      Close (101 / 100 * P.dp + 401 / 100 * (F.u * r.v.norm)) (rodMat (F.aaOfRv P r).angle n) (dmat .rv r) ∧
      |(F.aaOfRv P r).angle| ≤ 101 / 100 * r.v.norm := by
  have hu0 := F.u_nonneg
  have hs := F.u_small
  have hdp0 := P.dp_pos
  have hN := F.norm3_err r.v
  have hn0 := r.v.norm_nonneg
  obtain ⟨h1, h2⟩ := abs_le.mp hN
  have hun : F.u * r.v.norm ≤ 1 / 10000000 * r.v.norm := mul_le_mul_of_nonneg_right hs hn0
  have hun0 : 0 ≤ F.u * r.v.norm := mul_nonneg hu0 hn0
  by_cases hb : F.norm3 r.v < P.dp
  · have e : F.aaOfRv P r = ⟨0, ⟨1, 0, 0⟩⟩ := by simp only [FloatLib.aaOfRv, hb, if_true]; rfl
    have hnv : r.v.norm ≤ 101 / 100 * P.dp := by linarith
    rw [e]
    refine ⟨⟨1, 0, 0⟩, by norm_num [V3.normSq, V3.dot], by rw [sub_self, V3.norm_zero]; positivity, ?_, by simp; exact hn0⟩
    have hx : (⟨1, 0, 0⟩ : V3).normSq = 1 := by norm_num [V3.normSq, V3.dot]
    by_cases hv : r.v = 0
    · have : r = ⟨0⟩ := by cases r; simp at hv; rw [hv]
      rw [this, dmat_rv_zero]
      have : rodMat 0 ⟨1, 0, 0⟩ = 1 := by rw [← dmat_rv_smul 0 hx, zero_smul, dmat_rv_zero]
      simp only [this]
      exact (Close.refl _).mono (by rw [V3.norm_zero]; linarith)
    · have hp := V3.norm_pos hv
      have hun' := unit_dir hp.ne'
      have e1 : r = ⟨r.v.norm • ((1 / r.v.norm) • r.v)⟩ := by
        cases r; rw [smul_smul, mul_one_div_cancel hp.ne', one_smul]
      have e2 : rodMat 0 (⟨1, 0, 0⟩ : V3) = rodMat 0 ((1 / r.v.norm) • r.v) := by
        rw [← dmat_rv_smul 0 hx, ← dmat_rv_smul 0 hun', zero_smul, zero_smul]
      have e3 : dmat .rv r = rodMat r.v.norm ((1 / r.v.norm) • r.v) := by
        rw [← dmat_rv_smul _ hun', ← e1]
      rw [e3]
      simp only [e2]
      refine (Matlab.rodMat_close _ _ hun').mono ?_
      rw [zero_sub, abs_neg, abs_of_pos hp]; linarith
  · have hv : r.v ≠ 0 := by
      intro h; rw [(F.norm3_eq_zero _).mpr h] at hb; exact hb hdp0
    have hp := V3.norm_pos hv
    have hun' := unit_dir hp.ne'
    have e1 : r = ⟨r.v.norm • ((1 / r.v.norm) • r.v)⟩ := by
      cases r; rw [smul_smul, mul_one_div_cancel hp.ne', one_smul]
    have e3 : dmat .rv r = rodMat r.v.norm ((1 / r.v.norm) • r.v) := by
      rw [← dmat_rv_smul _ hun', ← e1]
    have e : F.aaOfRv P r = ⟨F.norm3 r.v, ⟨F.fl (r.v.x / F.norm3 r.v), F.fl (r.v.y / F.norm3 r.v), F.fl (r.v.z / F.norm3 r.v)⟩⟩ := by
      simp only [FloatLib.aaOfRv, hb, if_false]
    have k := F.div_norm_err hv hN 1 (Or.inl rfl)
    rw [one_mul, one_mul] at k
    rw [e]
    refine ⟨(1 / r.v.norm) • r.v, hun', k, ?_, ?_⟩
    · rw [e3]
      refine (Matlab.rodMat_close _ _ hun').mono (hN.trans ?_)
      linarith
    · change |F.norm3 r.v| ≤ _
      rw [abs_of_nonneg (F.norm3_nonneg _)]; linarith

/-- `ConversionTraits<RotationMatrix, AngleAxis>` with rounding. -/
lemma matOfAa_close (a : AngAx) {n : V3} (hn : n.normSq = 1) {η : ℝ} (ha : (a.axis - n).norm ≤ η) (hη : η ≤ 1 / 1000) :
    Close (48 * F.u + 7 * η) (F.matOfAa a) (rodMat a.angle n) := by
  have hn1 : n.norm = 1 := V3.norm_eq_one_iff.mpr hn
  have hax : a.axis.norm ≤ 101 / 100 := by
    have e : a.axis = (a.axis - n) + n := by ext <;> simp
    rw [e]; exact (V3.norm_add_le _ _).trans (by linarith)
  have h1 := (F.matOfAa_round a hax).close
  have h2 : Close (7 * η) (rodMat a.angle a.axis) (rodMat a.angle n) := by
    refine Close.symm fun v => ?_
    have := rodrigues_lipschitz' (θ := a.angle) (θ' := a.angle) hn (by linarith : a.axis.norm ≤ 2) v
    rw [rodrigues_eq, rodrigues_eq, sub_self, abs_zero, mul_zero, zero_add, V3.norm_sub_comm n] at this
    refine this.trans (mul_le_mul_of_nonneg_right (by linarith) v.norm_nonneg)
  exact (h1.trans h2).mono (by linarith)

end FloatLib
end Kindr
