import Verif.Props.FloatQuat

/-!
# Rotation vectors, matrices and angle-axis pairs in floating point
-/

set_option autoImplicit false

open Classical

noncomputable section
namespace Kindr
open Spec

namespace FloatLib
variable (F : FloatLib)

/-- `half_sine_error` slightly above the threshold. -/
lemma half_sine_error' {P : Prec} {θ : ℝ} (h0 : 0 ≤ θ) (h : θ ≤ (1 + 1 / 1000) * P.eps ^ (1 / 4 : ℝ)) :
    θ ≤ 1 / 2 ∧ |θ * (1 / 2 - θ * θ * (1 / 48)) - Real.sin (θ * (1 / 2))| ≤ P.eps / 3000 := by
  have h4 : θ ^ 4 ≤ (1 + 1 / 1000) ^ 4 * P.eps := by
    rw [← e4_pow P, ← mul_pow]; exact pow_le_pow_left₀ h0 h 4
  have he := P.eps_le
  have hep := P.eps_pos
  have h1 : θ ≤ 1 / 2 := by
    by_contra hc
    push Not at hc
    have : (1 / 2 : ℝ) ^ 4 ≤ θ ^ 4 := pow_le_pow_left₀ (by norm_num) hc.le 4
    norm_num at this he h4; linarith
  refine ⟨h1, ?_⟩
  have hb := Real.sin_bound (x := θ * (1 / 2)) (by rw [abs_of_nonneg (by positivity)]; linarith)
  have e : θ * (1 / 2) - (θ * (1 / 2)) ^ 3 / 6 = θ * (1 / 2 - θ * θ * (1 / 48)) := by ring
  rw [e, abs_sub_comm, abs_of_nonneg (by positivity : 0 ≤ θ * (1 / 2))] at hb
  calc _ ≤ _ := hb
    _ = θ ^ 4 * θ / 3200 := by ring
    _ ≤ _ := by
      have : θ ^ 4 * θ ≤ (1 + 1 / 1000) ^ 4 * P.eps * 1 := mul_le_mul h4 (by linarith) h0 (by positivity)
      norm_num at this; linarith

set_option maxHeartbeats 1000000 in
/-- The rounded quaternion of a rotation vector. -/
lemma quatOfRv_err (P : Prec) (r : RotVec) :
    ∃ q : Quat, q.normSq = 1 ∧ sMat q = dmat .rv r ∧
      ‖toH (F.quatOfRv P r) - toH q‖ ≤ (11 + 6 * r.v.norm) * F.u + P.eps / 3000 := by
  have hu := F.u_nonneg
  have hs := F.u_small
  have he := P.eps_pos
  have hN := F.norm3_err r.v
  have e4p : 0 < P.eps ^ (1 / 4 : ℝ) := Real.rpow_pos_of_pos he _
  by_cases hz : r.v = 0
  · obtain ⟨rv⟩ := r
    simp only at hz hN; subst hz
    refine ⟨1, by simp, by rw [dmat_rv_zero]; ext <;> simp [sMat], ?_⟩
    have hN0 : F.norm3 0 = 0 := (F.norm3_eq_zero 0).mpr rfl
    have f0 : F.fl 0 = 0 := by have := F.err 0; simpa using this
    refine (toH_sub_le (a := 2 * F.u) (b := 0) ?_ ?_).trans (by rw [V3.norm_zero]; linarith)
    · have : (F.quatOfRv P ⟨0⟩).w = F.cos 0 := by simp only [FloatLib.quatOfRv, hN0, zero_mul, f0]
      rw [this]
      have := F.cos_err 0
      rw [Real.cos_zero] at this; exact this
    · have : (F.quatOfRv P ⟨0⟩).vec = 0 := by
        ext <;> simp [FloatLib.quatOfRv, Quat.vec, f0]
      rw [this]
      have : (1 : Quat).vec = 0 := by ext <;> simp [Quat.vec]
      rw [this, sub_self, V3.norm_zero]
  · have hpos := V3.norm_pos hz
    have hn := unit_dir hpos.ne'
    refine ⟨Quat.ofAngleAxis r.v.norm ((1 / r.v.norm) • r.v), normSq_ofAngleAxis _ hn, ?_, ?_⟩
    · rw [sMat_ofAngleAxis _ hn]; exact (dmat_rv_ne hz).symm
    set θ := r.v.norm with hθ
    obtain ⟨Θ, hΘ⟩ : ∃ Θ, Θ = F.norm3 r.v := ⟨_, rfl⟩
    rw [← hΘ] at hN
    have hut : F.u * θ ≤ θ / 10000000 := by nlinarith
    have hut0 : 0 ≤ F.u * θ := by positivity
    obtain ⟨hN1, hN2⟩ := abs_le.mp hN
    have hΘp : 0 < Θ := by linarith
    have harg : |F.fl (Θ * (1 / 2)) - 1 / 2 * θ| ≤ 26 / 10 * F.u * θ := by
      have h1 : |Θ * (1 / 2) - 1 / 2 * θ| ≤ 2005 / 1000 * F.u * θ := by rw [abs_le]; constructor <;> linarith
      refine (F.fl_abs h1).trans ?_
      rw [abs_of_pos (by positivity)]
      have : F.u * (1 / 2 * θ + 2005 / 1000 * F.u * θ) ≤ F.u * (51 / 100 * θ) := mul_le_mul_of_nonneg_left (by linarith) hu
      linarith
    obtain ⟨hsin, hcos⟩ := F.sincos_arg harg
    obtain ⟨na, hna⟩ : ∃ na, na = (if Θ < F.fl (P.eps ^ (1 / 4 : ℝ)) then F.fl (1 / 2 - F.fl (F.fl (Θ * Θ) * F.fl (1 / 48)))
            else F.fl (F.sin (F.fl (Θ * (1 / 2))) / Θ)) := ⟨_, rfl⟩
    have hq : F.quatOfRv P r = ⟨F.cos (F.fl (Θ * (1 / 2))), F.fl (na * r.v.x), F.fl (na * r.v.y), F.fl (na * r.v.z)⟩ := by
      simp only [FloatLib.quatOfRv, ← hΘ, ← hna, mul_comm na]
    have key : |na * θ - Real.sin (1 / 2 * θ)| ≤ (73 / 10 + 26 / 10 * θ) * F.u + P.eps / 3000 := by
      split_ifs at hna with hb
      · have f4 := (abs_le.mp (F.err (P.eps ^ (1 / 4 : ℝ)))).2
        rw [abs_of_pos e4p] at f4
        have hθ4 : θ ≤ (1 + 1 / 1000) * P.eps ^ (1 / 4 : ℝ) := by nlinarith
        obtain ⟨hθh, herr⟩ := half_sine_error' hpos.le hθ4
        have a1 : |Θ * Θ - θ * θ| ≤ 3 * F.u := by
          have e : Θ * Θ - θ * θ = (Θ - θ) * (Θ + θ) := by ring
          rw [e, abs_mul, abs_of_pos (by linarith : 0 < Θ + θ)]
          have b1 : |Θ - θ| ≤ 2005 / 1000 * F.u := hN.trans (by nlinarith)
          have := mul_le_mul b1 (by linarith : Θ + θ ≤ 101 / 100) (by linarith) (by positivity)
          linarith
        have b2 : |θ * θ| ≤ 1 / 4 := by rw [abs_of_pos (by positivity)]; nlinarith
        have a2 := F.fl_le a1 b2 (by norm_num) (k' := 33 / 10) (by norm_num)
        have a3 : |F.fl (1 / 48) - 1 / 48| ≤ 1 / 48 * F.u := F.fl_exact (by norm_num [abs_of_pos])
        have b3 : |F.fl (1 / 48)| ≤ 1 / 40 := by
          obtain ⟨k1, k2⟩ := abs_le.mp a3
          rw [abs_le]; constructor <;> linarith
        have a4 := abs_mul_sub_le a2 a3 b2 b3
        have b4 : |θ * θ * (1 / 48)| ≤ 1 / 100 := by
          rw [abs_mul, abs_of_pos (by norm_num : (0 : ℝ) < 1 / 48)]; linarith
        have a5 := F.fl_le (k := 1 / 10) (a4.trans (by linarith)) b4 (by norm_num) (k' := 1 / 5) (by norm_num)
        have a6 : |1 / 2 - F.fl (F.fl (Θ * Θ) * F.fl (1 / 48)) - (1 / 2 - θ * θ * (1 / 48))| ≤ 1 / 5 * F.u := by
          obtain ⟨k1, k2⟩ := abs_le.mp a5
          rw [abs_le]; constructor <;> linarith
        have b6 : |1 / 2 - θ * θ * (1 / 48)| ≤ 1 / 2 := by
          obtain ⟨k1, k2⟩ := abs_le.mp b4
          have : 0 ≤ θ * θ * (1 / 48) := by positivity
          rw [abs_le]; constructor <;> linarith
        have a7 := F.fl_le a6 b6 (by norm_num) (k' := 1) (by norm_num)
        rw [← hna] at a7
        have e : na * θ - Real.sin (1 / 2 * θ) = (na - (1 / 2 - θ * θ * (1 / 48))) * θ +
            (θ * (1 / 2 - θ * θ * (1 / 48)) - Real.sin (θ * (1 / 2))) := by rw [mul_comm (1 / 2 : ℝ) θ]; ring
        rw [e]
        refine (abs_add_le _ _).trans ?_
        rw [abs_mul, abs_of_pos hpos]
        have := mul_le_mul a7 hθh hpos.le (by linarith)
        linarith
      · have hS := F.abs_sin_le (F.fl (Θ * (1 / 2)))
        generalize F.sin (F.fl (Θ * (1 / 2))) = S at *
        have hr : |θ / Θ - 1| ≤ 402 / 100 * F.u := by
          have e : θ / Θ - 1 = (θ - Θ) / Θ := by field_simp
          rw [e, abs_div, abs_of_pos hΘp, div_le_iff₀ hΘp, abs_sub_comm]
          nlinarith
        have hr2 : θ / Θ ≤ 101 / 100 := by have := (abs_le.mp hr).2; linarith
        have hr0 : 0 < θ / Θ := by positivity
        have a1 := F.err (S / Θ)
        rw [← hna] at a1
        have a2 : |na * θ - S * (θ / Θ)| ≤ 102 / 100 * F.u := by
          have e : na * θ - S * (θ / Θ) = (na - S / Θ) * θ := by field_simp
          rw [e, abs_mul, abs_of_pos hpos]
          refine (mul_le_mul_of_nonneg_right a1 hpos.le).trans ?_
          have e2 : F.u * |S / Θ| * θ = F.u * (|S| * (θ / Θ)) := by rw [abs_div, abs_of_pos hΘp]; field_simp
          rw [e2]
          have := mul_le_mul hS hr2 hr0.le (by norm_num)
          have := mul_le_mul_of_nonneg_left this hu
          linarith
        have a3 : |S * (θ / Θ) - S| ≤ 41 / 10 * F.u := by
          have e : S * (θ / Θ) - S = S * (θ / Θ - 1) := by ring
          rw [e, abs_mul]
          have := mul_le_mul hS hr (abs_nonneg _) (by norm_num)
          linarith
        have e : na * θ - Real.sin (1 / 2 * θ) = (na * θ - S * (θ / Θ)) + (S * (θ / Θ) - S) + (S - Real.sin (1 / 2 * θ)) := by ring
        rw [e]
        refine (abs_add_le _ _).trans ((add_le_add_left (abs_add_le _ _) _).trans ?_)
        linarith
    have hnaθ : |na * θ| ≤ 11 / 10 + 26 / 10 * θ * F.u := by
      have e : na * θ = (na * θ - Real.sin (1 / 2 * θ)) + Real.sin (1 / 2 * θ) := by ring
      have := eps_small P
      rw [e]; refine (abs_add_le _ _).trans ?_
      have := Real.abs_sin_le_one (1 / 2 * θ)
      linarith
    refine (toH_sub_le (a := 2 * F.u + 26 / 10 * F.u * θ) (b := ((73 / 10 + 26 / 10 * θ) * F.u + P.eps / 3000) + (11 / 10 * F.u + F.u * θ / 10)) ?_ ?_).trans ?_
    · rw [hq]; exact hcos
    · have ev : (F.quatOfRv P r).vec = castV3 F.fl (na • r.v) := by rw [hq]; rfl
      have ev2 : (Quat.ofAngleAxis θ ((1 / θ) • r.v)).vec = Real.sin (1 / 2 * θ) • ((1 / θ) • r.v) := rfl
      rw [ev, ev2]
      have e : castV3 F.fl (na • r.v) - Real.sin (1 / 2 * θ) • ((1 / θ) • r.v) =
          (na * θ - Real.sin (1 / 2 * θ)) • ((1 / θ) • r.v) + (castV3 F.fl (na • r.v) - na • r.v) := by
        ext <;> simp <;> field_simp <;> ring
      rw [e]
      refine (V3.norm_add_le _ _).trans (add_le_add ?_ ?_)
      · rw [V3.norm_smul, V3.norm_eq_one_iff.mpr hn, mul_one]; exact key
      · refine (castV3_err F.toFloatArith _).trans ?_
        have e2 : (na • r.v).norm = |na * θ| := by rw [V3.norm_smul, ← hθ, abs_mul, abs_of_pos hpos]
        rw [e2]
        have k1 := mul_le_mul_of_nonneg_left hnaθ hu
        have k2 := mul_le_mul_of_nonneg_right hs hut0
        refine k1.trans ?_
        have e3 : F.u * (11 / 10 + 26 / 10 * θ * F.u) = 11 / 10 * F.u + 26 / 10 * (F.u * (F.u * θ)) := by ring
        rw [e3]; linarith
    · have e3 : (11 + 6 * θ) * F.u = 11 * F.u + 6 * (F.u * θ) := by ring
      have e4 : (73 / 10 + 26 / 10 * θ) * F.u = 73 / 10 * F.u + 26 / 10 * (F.u * θ) := by ring
      rw [e3, e4]; linarith

end FloatLib
end Kindr
