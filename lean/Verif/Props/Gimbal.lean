import Verif.Spec.Gimbal
import Verif.Props.VecIeee4
import Mathlib.Analysis.Real.Pi.Bounds
import Mathlib.Analysis.Real.Pi.Irrational

/-!
# C120: the gimbal-lock check of the Euler-rate mappings
-/

set_option autoImplicit false

open Classical

noncomputable section
namespace Kindr
open Spec

/-! ## How small the cosine of a stored angle can be -/

lemma cos_ge_dist {y δ : ℝ} (h : δ ≤ abs (Real.pi / 2 - |y|)) (hδ : δ ≤ 1 / 1000) (hy : |y| ≤ 4) : 99 / 100 * δ ≤ |Real.cos y| := by
  obtain ⟨a, ha⟩ : ∃ a, a = |y| := ⟨_, rfl⟩
  rw [← Real.cos_abs, ← ha]
  rw [← ha] at h hy
  have a0 : 0 ≤ a := by rw [ha]; exact abs_nonneg y
  have p1 := Real.pi_gt_d2; have p2 := Real.pi_lt_d2
  by_cases h1 : a < 1
  · have := Real.one_sub_sq_div_two_le_cos (x := a)
    refine le_trans ?_ (le_abs_self _)
    nlinarith
  · by_cases h2 : 2 ≤ a
    · have := Real.one_sub_sq_div_two_le_cos (x := Real.pi - a)
      rw [Real.cos_pi_sub] at this
      refine le_trans ?_ (neg_le_abs _)
      nlinarith
    · obtain ⟨d, hd⟩ : ∃ d, d = |Real.pi / 2 - a| := ⟨_, rfl⟩
      rw [← hd] at h
      have e : |Real.cos a| = |Real.sin d| := by
        rw [← Real.sin_pi_div_two_sub, hd]
        rcases abs_choice (Real.pi / 2 - a) with e | e
        · rw [e]
        · rw [e, Real.sin_neg, abs_neg]
      rw [e]
      refine le_trans ?_ (le_abs_self _)
      by_cases d0 : δ ≤ 0
      · have : 0 ≤ Real.sin d := Real.sin_nonneg_of_nonneg_of_le_pi (by rw [hd]; exact abs_nonneg _) (by
          rw [hd, abs_le]; constructor <;> linarith)
        linarith
      · have dp : 0 < d := by linarith
        have d1 : d ≤ 6 / 10 := by rw [hd, abs_le]; constructor <;> linarith
        have := Real.sin_gt_sub_cube dp
        by_cases h3 : d ≤ 1 / 100
        · have h4 : d ^ 2 ≤ 1 / 10000 := by nlinarith
          have h5 : d ^ 3 ≤ 1 / 10000 * d := by
            rw [pow_succ]; exact mul_le_mul_of_nonneg_right h4 dp.le
          linarith
        · have h4 : d ^ 2 ≤ 36 / 100 := by nlinarith
          have h5 : d ^ 3 ≤ 36 / 100 * d := by
            rw [pow_succ]; exact mul_le_mul_of_nonneg_right h4 dp.le
          linarith

namespace Format
variable {f : Format}

lemma dist_half_pi {p : ℕ} (hp : f.p = p + 1) (he : f.emin ≤ -p) {y : ℝ} (h : Storable f y) {N : ℤ} {δ : ℝ} (hδ : δ ≤ 1 / 1000)
    (h1 : δ ≤ Real.pi / 2 - N / 2 ^ p) (h2 : δ ≤ (N + 1) / 2 ^ p - Real.pi / 2) : δ ≤ abs (Real.pi / 2 - |y|) := by
  have p1 := Real.pi_gt_d2; have p2 := Real.pi_lt_d2
  obtain ⟨a, ha⟩ : ∃ a, a = |y| := ⟨_, rfl⟩
  rw [← ha]
  by_cases c1 : a < 1
  · exact le_trans (by linarith) (le_abs_self _)
  by_cases c2 : 2 ≤ a
  · exact le_trans (by linarith) (neg_le_abs _)
  push Not at c1 c2
  have q : f.qexp y = -p := by
    have e : f.qexp y = f.qexp a := by rw [ha]; unfold qexp; rw [abs_abs]
    rw [e, qexp_of (e := 0) (by simpa using c1) (by simpa using c2) (by rw [hp]; push_cast; linarith), hp]
    push_cast; ring
  obtain ⟨k, hk⟩ := stored_qgrid h
  rw [q] at hk
  have pp : (0 : ℝ) < 2 ^ p := by positivity
  have : ∃ n : ℤ, a = n / 2 ^ p := by
    rcases abs_choice y with e | e
    · exact ⟨k, by rw [ha, e, hk, zpow_neg, zpow_natCast, div_eq_mul_inv]⟩
    · exact ⟨-k, by rw [ha, e, hk, zpow_neg, zpow_natCast, div_eq_mul_inv]; push_cast; ring⟩
  obtain ⟨n, hn⟩ := this
  rw [hn]
  rcases le_or_gt n N with c | c
  · refine le_trans (h1.trans ?_) (le_abs_self _)
    have : (n : ℝ) / 2 ^ p ≤ N / 2 ^ p := div_le_div_of_nonneg_right (by exact_mod_cast c) pp.le
    linarith
  · refine le_trans (h2.trans ?_) (neg_le_abs _)
    have : ((N : ℝ) + 1) / 2 ^ p ≤ n / 2 ^ p := div_le_div_of_nonneg_right (by exact_mod_cast c) pp.le
    linarith

/-- **C120 (a).** No angle stored in a binary format has cosine zero; and the cosine of an angle up to `4` is at least `6e-17` if it is stored in
`double`, at least `4e-8` if it is stored in `float`. -/
theorem C120_cosine (y : ℝ) :
    (∀ f : Format, Storable f y → Real.cos y ≠ 0) ∧
    (Storable double y → |y| ≤ 4 → 6 / 10 ^ 17 ≤ |Real.cos y|) ∧
    (Storable float y → |y| ≤ 4 → 4 / 10 ^ 8 ≤ |Real.cos y|) := by
  have p1 := Real.pi_gt_d20; have p2 := Real.pi_lt_d20
  refine ⟨fun f h hc => ?_, fun h hy => ?_, fun h hy => ?_⟩
  · obtain ⟨k, hk⟩ := Real.cos_eq_zero_iff.mp hc
    obtain ⟨n, hn⟩ := stored_grid h
    refine irrational_pi ⟨2 * (n * (2 : ℚ) ^ f.emin) / (2 * k + 1), ?_⟩
    have k0 : (2 * (k : ℝ) + 1) ≠ 0 := by
      have : (2 * k + 1 : ℤ) ≠ 0 := by omega
      exact_mod_cast this
    push_cast
    rw [div_eq_iff k0, ← hn, hk]; ring
  · have := cos_ge_dist (δ := 612 / 10 ^ 19) (dist_half_pi (p := 52) rfl (by norm_num [double]) h (N := 7074237752028440) (by norm_num) (by norm_num at p1 ⊢; linarith)
      (by norm_num at p2 ⊢; linarith)) (by norm_num) hy
    refine le_trans ?_ this; norm_num
  · have := cos_ge_dist (δ := 437 / 10 ^ 10) (dist_half_pi (p := 23) rfl (by norm_num [float]) h (N := 13176794) (by norm_num) (by norm_num at p1 ⊢; linarith)
      (by norm_num at p2 ⊢; linarith)) (by norm_num) hy
    refine le_trans ?_ this; norm_num

end Format

/-! ## The mappings -/

namespace Rn
variable {R : ℝ → ℝ} {u η : ℝ}

lemma recip (h : Rn R u η) (hu : u ≤ 1 / 1000) {c : ℝ} (c1 : |c| ≤ 1) (c0 : 0 < |c|) (hη : η ≤ 1 / 100 * u * |c|) :
    R c ≠ 0 ∧ |R (1 / R c) - 1 / c| ≤ 21 / 10 * u * |1 / c| ∧ |1 / R c| ≤ 11 / 10 * |1 / c| ∧ 1 ≤ |1 / c| := by
  have u0 := h.u0
  have e1 := h.err c
  obtain ⟨t, ht⟩ : ∃ t, t = R c := ⟨_, rfl⟩
  rw [← ht] at e1 ⊢
  have cne : c ≠ 0 := abs_pos.mp c0
  have e2 : |t - c| ≤ 101 / 100 * u * |c| := by linarith
  have uc : u * |c| ≤ 1 / 1000 * |c| := mul_le_mul_of_nonneg_right hu c0.le
  have t1 : 998 / 1000 * |c| ≤ |t| := by
    have := abs_sub_abs_le_abs_sub c t
    rw [abs_sub_comm] at this
    linarith
  have tp : 0 < |t| := by linarith
  have tne : t ≠ 0 := abs_pos.mp tp
  obtain ⟨I, hI⟩ : ∃ I, I = |1 / c| := ⟨_, rfl⟩
  have Ic : I * |c| = 1 := by rw [hI, ← abs_mul, one_div_mul_cancel cne, abs_one]
  have I1 : 1 ≤ I := by
    have : 0 ≤ I := by rw [hI]; exact abs_nonneg _
    nlinarith
  have e3 : |1 / t - 1 / c| ≤ 102 / 100 * u * I := by
    have e : 1 / t - 1 / c = (c - t) / t * (1 / c) := by field_simp
    rw [e, abs_mul, ← hI]
    refine mul_le_mul_of_nonneg_right ?_ (by linarith)
    rw [abs_div, abs_sub_comm, div_le_iff₀ tp]
    have := mul_le_mul_of_nonneg_left t1 u0
    have := mul_nonneg u0 c0.le
    nlinarith
  have uI : u * I ≤ 1 / 1000 * I := mul_le_mul_of_nonneg_right hu (by linarith)
  have e4 : |1 / t| ≤ 1003 / 1000 * I := by
    have := abs_add_le (1 / t - 1 / c) (1 / c)
    rw [sub_add_cancel, ← hI] at this; linarith
  have uI0 : 0 ≤ u * I := mul_nonneg u0 (by linarith)
  refine ⟨tne, ?_, by rw [← hI]; linarith, by rw [← hI]; exact I1⟩
  have e5 := h.err (1 / t)
  have e6 := abs_add_le (R (1 / t) - 1 / t) (1 / t - 1 / c)
  rw [sub_add_sub_cancel] at e6
  rw [← hI]
  have e7 := mul_le_mul_of_nonneg_left e4 u0
  have e8 : η ≤ 1 / 100 * (u * I) := by
    have : u * |c| ≤ u * I := mul_le_mul_of_nonneg_left (c1.trans I1) u0
    linarith
  linarith

lemma prod2 (h : Rn R u η) (hu : u ≤ 1 / 1000) (hη : η ≤ 1 / 1000) {a T s b : ℝ} (hT : 1 ≤ |T|) (ha : |a - T| ≤ 21 / 10 * u * |T|)
    (hs : |s| ≤ 1) (hb : |b - s| ≤ u * |s| + η) :
    |R (a * b) - T * s| ≤ 43 / 10 * u * |T * s| + 21 / 10 * η * |T| ∧ |a * b| ≤ 2 * |T| := by
  have u0 := h.u0; have η0 := h.e0
  obtain ⟨A, hA⟩ : ∃ A, A = |T| := ⟨_, rfl⟩
  obtain ⟨S, hS⟩ : ∃ S, S = |s| := ⟨_, rfl⟩
  have S0 : 0 ≤ S := by rw [hS]; exact abs_nonneg _
  rw [abs_mul, ← hA, ← hS]
  rw [← hA] at hT ha
  rw [← hS] at hs hb
  have b1 : |b| ≤ 1001 / 1000 * S + η := by
    have := abs_add_le (b - s) s
    rw [sub_add_cancel, ← hS] at this
    have := mul_le_mul_of_nonneg_right hu S0
    linarith
  have uA : 0 ≤ u * A := by positivity
  have ηA : 0 ≤ η * A := by positivity
  have uAS : 0 ≤ u * A * S := by positivity
  have AS : 0 ≤ A * S := by positivity
  have uηA : u * (η * A) ≤ 1 / 1000 * (η * A) := mul_le_mul_of_nonneg_right hu ηA
  have uuAS : u * (u * A * S) ≤ 1 / 1000 * (u * A * S) := mul_le_mul_of_nonneg_right hu uAS
  have e1 : |a * b - T * s| ≤ 311 / 100 * (u * A * S) + 1003 / 1000 * (η * A) := by
    have e : a * b - T * s = (a - T) * b + T * (b - s) := by ring
    rw [e]
    refine (abs_add_le _ _).trans ?_
    rw [abs_mul, abs_mul, ← hA]
    have x1 := mul_le_mul ha b1 (abs_nonneg _) (by positivity)
    have x2 := mul_le_mul_of_nonneg_left hb (show 0 ≤ A by linarith)
    have y1 : 21 / 10 * u * A * (1001 / 1000 * S + η) = 21021 / 10000 * (u * A * S) + 21 / 10 * (u * (η * A)) := by ring
    have y2 : A * (u * S + η) = u * A * S + η * A := by ring
    rw [y1] at x1; rw [y2] at x2
    linarith
  have B : |T * s| ≤ A * S := by rw [abs_mul, ← hA, ← hS]
  have e2 := h.step e1 B
  have e3 := h.le_of e1 B
  have hASle : A * S ≤ A := by have := mul_le_mul_of_nonneg_left hs (show 0 ≤ A by linarith); linarith
  have huA : u * A * S ≤ 1 / 1000 * (A * S) := by have := mul_le_mul_of_nonneg_right hu AS; linarith
  have hηA : η * A ≤ 1 / 1000 * A := mul_le_mul_of_nonneg_right hη (by linarith)
  constructor
  · refine e2.trans ?_
    have y : u * (A * S + (311 / 100 * (u * A * S) + 1003 / 1000 * (η * A))) =
      u * A * S + 311 / 100 * (u * (u * A * S)) + 1003 / 1000 * (u * (η * A)) := by ring
    rw [y]
    have : η ≤ η * A := by have := mul_le_mul_of_nonneg_left hT η0; linarith
    have z : 43 / 10 * u * (A * S) + 21 / 10 * η * A = 43 / 10 * (u * A * S) + 21 / 10 * (η * A) := by ring
    rw [z]
    linarith
  · linarith

lemma prod3 (h : Rn R u η) (hu : u ≤ 1 / 1000) (hη : η ≤ 1 / 1000) {a T s b s' b' : ℝ} (hT : 1 ≤ |T|) (ha : |a - T| ≤ 21 / 10 * u * |T|)
    (hs : |s| ≤ 1) (hb : |b - s| ≤ u * |s| + η) (hs' : |s'| ≤ 1) (hb' : |b' - s'| ≤ u * |s'| + η) :
    |R (R (a * b) * b') - T * s * s'| ≤ 7 * u * |T * s * s'| + 5 * η * |T| ∧ |R (a * b) * b'| ≤ 3 * |T| := by
  have u0 := h.u0; have η0 := h.e0
  obtain ⟨p2, -⟩ := h.prod2 hu hη hT ha hs hb
  obtain ⟨d, hd⟩ : ∃ d, d = R (a * b) := ⟨_, rfl⟩
  rw [← hd] at p2 ⊢
  obtain ⟨A, hA⟩ : ∃ A, A = |T| := ⟨_, rfl⟩
  obtain ⟨P, hP⟩ : ∃ P, P = |T * s| := ⟨_, rfl⟩
  obtain ⟨S, hS⟩ : ∃ S, S = |s'| := ⟨_, rfl⟩
  have S0 : 0 ≤ S := by rw [hS]; exact abs_nonneg _
  have P0 : 0 ≤ P := by rw [hP]; exact abs_nonneg _
  have PA : P ≤ A := by rw [hP, abs_mul, ← hA]; have := mul_le_mul_of_nonneg_left hs (show 0 ≤ A by rw [hA]; exact abs_nonneg _); linarith
  rw [abs_mul, ← hP, ← hA, ← hS]
  rw [← hP, ← hA] at p2
  rw [← hA] at hT
  rw [← hS] at hs' hb'
  have b1 : |b'| ≤ 1001 / 1000 * S + η := by
    have := abs_add_le (b' - s') s'
    rw [sub_add_cancel, ← hS] at this
    have := mul_le_mul_of_nonneg_right hu S0
    linarith
  have ηA : 0 ≤ η * A := by positivity
  have uPS : 0 ≤ u * P * S := by positivity
  have PS : 0 ≤ P * S := by positivity
  have ηP : η * P ≤ η * A := mul_le_mul_of_nonneg_left PA η0
  have ηP0 : 0 ≤ η * P := by positivity
  have uηP : u * (η * P) ≤ 1 / 1000 * (η * P) := mul_le_mul_of_nonneg_right hu ηP0
  have ηAS : η * A * S ≤ η * A := by have := mul_le_mul_of_nonneg_left hs' ηA; linarith
  have ηηA : η * (η * A) ≤ 1 / 1000 * (η * A) := mul_le_mul_of_nonneg_right hη ηA
  have uηA : u * (η * A) ≤ 1 / 1000 * (η * A) := mul_le_mul_of_nonneg_right hu ηA
  have uuPS : u * (u * P * S) ≤ 1 / 1000 * (u * P * S) := mul_le_mul_of_nonneg_right hu uPS
  have e1 : |d * b' - T * s * s'| ≤ 532 / 100 * (u * P * S) + 313 / 100 * (η * A) := by
    have e : d * b' - T * s * s' = (d - T * s) * b' + T * s * (b' - s') := by ring
    rw [e]
    refine (abs_add_le _ _).trans ?_
    rw [abs_mul, abs_mul, ← hP]
    have x1 := mul_le_mul p2 b1 (abs_nonneg _) (by positivity)
    have x2 := mul_le_mul_of_nonneg_left hb' P0
    have y1 : (43 / 10 * u * P + 21 / 10 * η * A) * (1001 / 1000 * S + η) =
      43043 / 10000 * (u * P * S) + 43 / 10 * (u * (η * P)) + 21021 / 10000 * (η * A * S) + 21 / 10 * (η * (η * A)) := by ring
    have y2 : P * (u * S + η) = u * P * S + η * P := by ring
    rw [y1] at x1; rw [y2] at x2
    linarith
  have B : |T * s * s'| ≤ P * S := by rw [abs_mul, ← hP, ← hS]
  have e2 := h.step e1 B
  have e3 := h.le_of e1 B
  have hPS : P * S ≤ P := by have := mul_le_mul_of_nonneg_left hs' P0; linarith
  have huP : u * P * S ≤ 1 / 1000 * (P * S) := by have := mul_le_mul_of_nonneg_right hu PS; linarith
  have hηA : η * A ≤ 1 / 1000 * A := mul_le_mul_of_nonneg_right hη (by linarith)
  constructor
  · refine e2.trans ?_
    have y : u * (P * S + (532 / 100 * (u * P * S) + 313 / 100 * (η * A))) =
      u * P * S + 532 / 100 * (u * (u * P * S)) + 313 / 100 * (u * (η * A)) := by ring
    rw [y]
    have : η ≤ η * A := by have := mul_le_mul_of_nonneg_left hT η0; linarith
    have z : 7 * u * (P * S) + 5 * η * A = 7 * (u * P * S) + 5 * (η * A) := by ring
    rw [z]
    linarith
  · linarith

end Rn

namespace Format
variable {f : Format}

/-- What the three guarded mappings have in common. -/
lemma gimbal_common (hf : AtLeastFloat f) {y : ℝ} (hc : 2 ^ (-60 : ℤ) ≤ |Real.cos y|) :
    ∃ t a T : ℝ, Real.cos y ≠ 0 ∧ T = 1 / Real.cos y ∧ f.arith.cos (.fin y) = .fin t ∧ t ≠ 0 ∧ f.arith.div (.fin 1) (.fin t) = .fin a ∧
      1 ≤ |T| ∧ |a - T| ≤ 21 / 10 * f.uu * |T| ∧ 5 * f.eta * |T| ≤ 2 ^ (f.emin + 63) ∧ 6 * |T| ≤ 2 ^ (f.emax - 1) := by
  have ok := alf_ok hf
  have R := rn ok
  have hu := alf_uu hf
  have u1 : f.uu ≤ 1 / 1000 := by have := hu.2; norm_num at this ⊢; linarith
  obtain ⟨c, hc'⟩ : ∃ c, c = Real.cos y := ⟨_, rfl⟩
  rw [← hc'] at hc ⊢
  have c1 : |c| ≤ 1 := by rw [hc']; exact Real.abs_cos_le_one y
  have c0 : 0 < |c| := lt_of_lt_of_le (by positivity) hc
  have hη : f.eta ≤ 1 / 100 * f.uu * |c| := by
    have h1 : f.eta ≤ f.uu * 2 ^ (-70 : ℤ) := by
      unfold eta uu
      rw [inv_pow, ← zpow_natCast, ← zpow_neg, ← zpow_add₀ (by norm_num)]
      refine zpow_le_zpow_right₀ (by norm_num) ?_
      have := hf.emin; have := hf.p; omega
    have h2 : (2 : ℝ) ^ (-70 : ℤ) ≤ 1 / 100 * |c| := by
      refine le_trans ?_ (mul_le_mul_of_nonneg_left hc (by norm_num))
      norm_num
    exact h1.trans ((mul_le_mul_of_nonneg_left h2 hu.1.le).trans (le_of_eq (by ring)))
  obtain ⟨r1, r2, r3, r4⟩ := R.recip u1 c1 c0 hη
  have T1 : |1 / c| ≤ 2 ^ (60 : ℤ) := by
    rw [abs_div, abs_one, div_le_iff₀ c0]
    have := mul_le_mul_of_nonneg_left hc (show (0 : ℝ) ≤ 2 ^ (60 : ℤ) by positivity)
    norm_num at this ⊢; linarith
  have big : (2 : ℝ) ^ (63 : ℤ) ≤ 2 ^ (f.emax - 1) := zpow_le_zpow_right₀ (by norm_num) (by have := hf.emax; omega)
  have big' : 6 * |1 / c| ≤ 2 ^ (f.emax - 1) := by norm_num at T1 big ⊢; linarith
  refine ⟨f.round c, f.round (1 / f.round c), 1 / c, abs_pos.mp c0, rfl, ?_, r1, ?_, r4, r2, ?_, big'⟩
  · change f.arith.rnd (Real.cos y) = _
    rw [← hc']; exact fin_of ok (by linarith)
  · simp only [XArith.div, if_neg r1]
    exact fin_of ok (by linarith)
  · have e : (2 : ℝ) ^ (f.emin + 63) = 2 ^ (f.emin - 1) * 2 ^ (64 : ℤ) := by rw [← zpow_add₀ (by norm_num)]; congr 1; ring
    rw [e]
    have := mul_le_mul_of_nonneg_left T1 (show 0 ≤ 5 * f.eta by have := R.e0; linarith)
    refine this.trans ?_
    have h0 : (0 : ℝ) < 2 ^ (f.emin - 1) := by positivity
    change 5 * 2 ^ (f.emin - 1) * _ ≤ _
    norm_num; linarith

lemma trig (hf : AtLeastFloat f) {s : ℝ} (hs : |s| ≤ 1) :
    f.arith.rnd s = .fin (f.round s) ∧ |f.round s - s| ≤ f.uu * |s| + f.eta := by
  refine ⟨fin_of (alf_ok hf) (hs.trans ?_), (rn (alf_ok hf)).err s⟩
  rw [show (1 : ℝ) = 2 ^ (0 : ℤ) by norm_num]
  exact zpow_le_zpow_right₀ (by norm_num) (by have := hf.emax; omega)

/-- **C120 (b).** The three mappings from angular velocities to Euler-angle rates in IEEE arithmetic: unless the cosine of the second angle is below
`2⁻⁶⁰`, they return without exception a finite matrix, every entry of which is accurate to seven roundings, however close the gimbal lock is. -/
theorem C120_rates (hf : AtLeastFloat f) (e : EulXyz) (g : EulZyx) :
    (2 ^ (-60 : ℤ) ≤ |Real.cos e.y| → RatesAccurate f (f.arith.xyzLocalToDiff (emb3 e.v)) (xyzLocalToDiff e) ∧
      RatesAccurate f (f.arith.xyzGlobalToDiff (emb3 e.v)) (xyzGlobalToDiff e)) ∧
    (2 ^ (-60 : ℤ) ≤ |Real.cos g.y| → RatesAccurate f (f.arith.zyxLocalToDiff (emb3 g.v)) (zyxLocalToDiff g)) := by
  have ok := alf_ok hf
  have R := rn ok
  have hu := alf_uu hf
  have u1 : f.uu ≤ 1 / 1000 := by have := hu.2; norm_num at this ⊢; linarith
  have η1 : f.eta ≤ 1 / 1000 := by
    have h1 := eta_le_sq ok; have h2 := hu.1
    nlinarith
  have key : ∀ {y : ℝ}, 2 ^ (-60 : ℤ) ≤ |Real.cos y| → ∃ t a T : ℝ, Real.cos y ≠ 0 ∧ T = 1 / Real.cos y ∧ f.arith.cos (.fin y) = .fin t ∧ t ≠ 0 ∧
      f.arith.div (.fin 1) (.fin t) = .fin a ∧
      (∀ s, |s| ≤ 1 → f.arith.mul (.fin a) (f.arith.rnd s) = .fin (f.round (a * f.round s)) ∧
        f.arith.mul (.fin (-a)) (f.arith.rnd s) = .fin (f.round (-a * f.round s)) ∧
        |f.round (a * f.round s) - T * s| ≤ 7 * f.uu * |T * s| + 2 ^ (f.emin + 63) ∧
        |f.round (-a * f.round s) - -T * s| ≤ 7 * f.uu * |-T * s| + 2 ^ (f.emin + 63)) ∧
      (∀ s s', |s| ≤ 1 → |s'| ≤ 1 →
        f.arith.mul (f.arith.mul (.fin a) (f.arith.rnd s)) (f.arith.rnd s') = .fin (f.round (f.round (a * f.round s) * f.round s')) ∧
        f.arith.mul (f.arith.mul (.fin (-a)) (f.arith.rnd s)) (f.arith.rnd s') = .fin (f.round (f.round (-a * f.round s) * f.round s')) ∧
        |f.round (f.round (a * f.round s) * f.round s') - T * s * s'| ≤ 7 * f.uu * |T * s * s'| + 2 ^ (f.emin + 63) ∧
        |f.round (f.round (-a * f.round s) * f.round s') - -T * s * s'| ≤ 7 * f.uu * |-T * s * s'| + 2 ^ (f.emin + 63)) := by
    intro y hc
    obtain ⟨t, a, T, h1, h2, h3, h4, h5, h6, h7, h8, h9⟩ := gimbal_common hf hc
    have T' : 1 ≤ |-T| := by rwa [abs_neg]
    have a' : |-a - -T| ≤ 21 / 10 * f.uu * |-T| := by rw [abs_neg, ← neg_sub', abs_neg]; exact h7
    have h8' : 5 * f.eta * |-T| ≤ 2 ^ (f.emin + 63) := by rwa [abs_neg]
    have h9' : 6 * |-T| ≤ 2 ^ (f.emax - 1) := by rwa [abs_neg]
    have two : ∀ {a T : ℝ}, 1 ≤ |T| → |a - T| ≤ 21 / 10 * f.uu * |T| → 5 * f.eta * |T| ≤ 2 ^ (f.emin + 63) → 6 * |T| ≤ 2 ^ (f.emax - 1) → ∀ s, |s| ≤ 1 →
        f.arith.mul (.fin a) (f.arith.rnd s) = .fin (f.round (a * f.round s)) ∧ |f.round (a * f.round s) - T * s| ≤ 7 * f.uu * |T * s| + 2 ^ (f.emin + 63) := by
      intro a T T1 ha hE hB s hs
      obtain ⟨b1, b2⟩ := trig hf hs
      obtain ⟨p1, p2⟩ := R.prod2 u1 η1 T1 ha hs b2
      rw [b1]
      refine ⟨fin_of ok (by linarith), p1.trans ?_⟩
      have x1 : 0 ≤ f.uu * |T * s| := mul_nonneg hu.1.le (abs_nonneg _)
      have x2 : 0 ≤ f.eta * |T| := mul_nonneg R.e0 (abs_nonneg _)
      linarith
    have three : ∀ {a T : ℝ}, 1 ≤ |T| → |a - T| ≤ 21 / 10 * f.uu * |T| → 5 * f.eta * |T| ≤ 2 ^ (f.emin + 63) → 6 * |T| ≤ 2 ^ (f.emax - 1) → ∀ s s', |s| ≤ 1 → |s'| ≤ 1 →
        f.arith.mul (f.arith.mul (.fin a) (f.arith.rnd s)) (f.arith.rnd s') = .fin (f.round (f.round (a * f.round s) * f.round s')) ∧
        |f.round (f.round (a * f.round s) * f.round s') - T * s * s'| ≤ 7 * f.uu * |T * s * s'| + 2 ^ (f.emin + 63) := by
      intro a T T1 ha hE hB s s' hs hs'
      obtain ⟨b1, b2⟩ := trig hf hs
      obtain ⟨b1', b2'⟩ := trig hf hs'
      obtain ⟨p1, p2⟩ := R.prod3 u1 η1 T1 ha hs b2 hs' b2'
      rw [(two T1 ha hE hB s hs).1, b1']
      refine ⟨fin_of ok (by linarith), p1.trans ?_⟩
      linarith
    refine ⟨t, a, T, h1, h2, h3, h4, h5, fun s hs => ?_, fun s s' hs hs' => ?_⟩
    · obtain ⟨m1, m2⟩ := two h6 h7 h8 h9 s hs
      obtain ⟨m3, m4⟩ := two T' a' h8' h9' s hs
      exact ⟨m1, m3, m2, m4⟩
    · obtain ⟨m1, m2⟩ := three h6 h7 h8 h9 s s' hs hs'
      obtain ⟨m3, m4⟩ := three T' a' h8' h9' s s' hs hs'
      exact ⟨m1, m3, m2, m4⟩
  have E0 : (0 : ℝ) ≤ 2 ^ (f.emin + 63) := by positivity
  have triv : ∀ x : ℝ, |x - x| ≤ 7 * 2⁻¹ ^ f.p * |x| + 2 ^ (f.emin + 63) := fun x => by
    rw [sub_self, abs_zero]; positivity
  have ηE : f.eta ≤ 2 ^ (f.emin + 63) := zpow_le_zpow_right₀ (by norm_num) (by omega)
  have one : ∀ {s : ℝ}, |s| ≤ 1 → f.arith.rnd s = .fin (f.round s) ∧ |f.round s - s| ≤ 7 * 2⁻¹ ^ f.p * |s| + 2 ^ (f.emin + 63) := fun {s} hs => by
    obtain ⟨b1, b2⟩ := trig hf hs
    refine ⟨b1, b2.trans ?_⟩
    change _ ≤ 7 * f.uu * _ + _
    have : 0 ≤ f.uu * |s| := mul_nonneg hu.1.le (abs_nonneg _)
    linarith
  refine ⟨fun hc => ⟨?_, ?_⟩, fun hc => ?_⟩
  · obtain ⟨t, a, T, h1, h2, h3, h4, h5, h6, h7⟩ := key hc
    have sz := Real.abs_sin_le_one e.z; have cz := Real.abs_cos_le_one e.z; have sy := Real.abs_sin_le_one e.y
    refine ⟨⟨f.round (a * f.round (Real.cos e.z)), f.round (-a * f.round (Real.sin e.z)), 0, f.round (Real.sin e.z), f.round (Real.cos e.z), 0,
      f.round (f.round (-a * f.round (Real.cos e.z)) * f.round (Real.sin e.y)), f.round (f.round (a * f.round (Real.sin e.z)) * f.round (Real.sin e.y)), 1⟩,
      ⟨T * Real.cos e.z, -T * Real.sin e.z, 0, Real.sin e.z, Real.cos e.z, 0, -T * Real.cos e.z * Real.sin e.y, T * Real.sin e.z * Real.sin e.y, 1⟩, ?_, ?_, ?_⟩
    · unfold XArith.xyzLocalToDiff
      change (if ¬ (f.arith.cos (.fin e.y)).eq (.fin 0) then Res.ok (⟨f.arith.mul (f.arith.div (.fin 1) (f.arith.cos (.fin e.y))) (f.arith.rnd (Real.cos e.z)),
        f.arith.mul (f.arith.div (.fin 1) (f.arith.cos (.fin e.y))).neg (f.arith.rnd (Real.sin e.z)), .fin 0, f.arith.rnd (Real.sin e.z), f.arith.rnd (Real.cos e.z), .fin 0,
        f.arith.mul (f.arith.mul (f.arith.div (.fin 1) (f.arith.cos (.fin e.y))).neg (f.arith.rnd (Real.cos e.z))) (f.arith.rnd (Real.sin e.y)),
        f.arith.mul (f.arith.mul (f.arith.div (.fin 1) (f.arith.cos (.fin e.y))) (f.arith.rnd (Real.sin e.z))) (f.arith.rnd (Real.sin e.y)), .fin 1⟩ : XM3) else .throws) = _
      rw [h3, h5, if_pos (show ¬ (XR.fin t).eq (.fin 0) from h4)]
      change Res.ok (⟨_, f.arith.mul (.fin (-a)) _, _, _, _, _, f.arith.mul (f.arith.mul (.fin (-a)) _) _, _, _⟩ : XM3) = _
      rw [(h6 _ cz).1, (h6 _ sz).2.1, (h7 _ _ cz sy).2.1, (h7 _ _ sz sy).1, (one sz).1, (one cz).1]
      rfl
    · unfold xyzLocalToDiff
      rw [if_pos h1, ← h2]
    · exact ⟨(h6 _ cz).2.2.1, (h6 _ sz).2.2.2, triv 0, (one sz).2, (one cz).2, triv 0, (h7 _ _ cz sy).2.2.2, (h7 _ _ sz sy).2.2.1, triv 1⟩
  · obtain ⟨t, a, T, h1, h2, h3, h4, h5, h6, h7⟩ := key hc
    have sx := Real.abs_sin_le_one e.x; have cx := Real.abs_cos_le_one e.x; have sy := Real.abs_sin_le_one e.y
    refine ⟨⟨1, f.round (f.round (a * f.round (Real.sin e.y)) * f.round (Real.sin e.x)), f.round (f.round (-a * f.round (Real.sin e.y)) * f.round (Real.cos e.x)),
      0, f.round (Real.cos e.x), f.round (Real.sin e.x), 0, f.round (-a * f.round (Real.sin e.x)), f.round (a * f.round (Real.cos e.x))⟩,
      ⟨1, T * Real.sin e.y * Real.sin e.x, -T * Real.sin e.y * Real.cos e.x, 0, Real.cos e.x, Real.sin e.x, 0, -T * Real.sin e.x, T * Real.cos e.x⟩, ?_, ?_, ?_⟩
    · unfold XArith.xyzGlobalToDiff
      change (if ¬ (f.arith.cos (.fin e.y)).eq (.fin 0) then Res.ok (⟨.fin 1,
        f.arith.mul (f.arith.mul (f.arith.div (.fin 1) (f.arith.cos (.fin e.y))) (f.arith.rnd (Real.sin e.y))) (f.arith.rnd (Real.sin e.x)),
        f.arith.mul (f.arith.mul (f.arith.div (.fin 1) (f.arith.cos (.fin e.y))).neg (f.arith.rnd (Real.sin e.y))) (f.arith.rnd (Real.cos e.x)), .fin 0,
        f.arith.rnd (Real.cos e.x), f.arith.rnd (Real.sin e.x), .fin 0, f.arith.mul (f.arith.div (.fin 1) (f.arith.cos (.fin e.y))).neg (f.arith.rnd (Real.sin e.x)),
        f.arith.mul (f.arith.div (.fin 1) (f.arith.cos (.fin e.y))) (f.arith.rnd (Real.cos e.x))⟩ : XM3) else .throws) = _
      rw [h3, h5, if_pos (show ¬ (XR.fin t).eq (.fin 0) from h4)]
      change Res.ok (⟨_, _, f.arith.mul (f.arith.mul (.fin (-a)) _) _, _, _, _, _, f.arith.mul (.fin (-a)) _, _⟩ : XM3) = _
      rw [(h7 _ _ sy sx).1, (h7 _ _ sy cx).2.1, (h6 _ sx).2.1, (h6 _ cx).1, (one sx).1, (one cx).1]
      rfl
    · unfold xyzGlobalToDiff
      rw [if_pos h1, ← h2]
    · exact ⟨triv 1, (h7 _ _ sy sx).2.2.1, (h7 _ _ sy cx).2.2.2, triv 0, (one cx).2, (one sx).2, triv 0, (h6 _ sx).2.2.2, (h6 _ cx).2.2.1⟩
  · obtain ⟨t, a, T, h1, h2, h3, h4, h5, h6, h7⟩ := key hc
    have sx := Real.abs_sin_le_one g.x; have cx := Real.abs_cos_le_one g.x; have sy := Real.abs_sin_le_one g.y
    refine ⟨⟨0, f.round (a * f.round (Real.sin g.x)), f.round (a * f.round (Real.cos g.x)), 0, f.round (Real.cos g.x), -f.round (Real.sin g.x), 1,
      f.round (f.round (a * f.round (Real.sin g.x)) * f.round (Real.sin g.y)), f.round (f.round (a * f.round (Real.cos g.x)) * f.round (Real.sin g.y))⟩,
      ⟨0, T * Real.sin g.x, T * Real.cos g.x, 0, Real.cos g.x, -Real.sin g.x, 1, T * Real.sin g.x * Real.sin g.y, T * Real.cos g.x * Real.sin g.y⟩, ?_, ?_, ?_⟩
    · unfold XArith.zyxLocalToDiff
      change (if ¬ (f.arith.cos (.fin g.y)).eq (.fin 0) then Res.ok (⟨.fin 0, f.arith.mul (f.arith.div (.fin 1) (f.arith.cos (.fin g.y))) (f.arith.rnd (Real.sin g.x)),
        f.arith.mul (f.arith.div (.fin 1) (f.arith.cos (.fin g.y))) (f.arith.rnd (Real.cos g.x)), .fin 0, f.arith.rnd (Real.cos g.x), (f.arith.rnd (Real.sin g.x)).neg, .fin 1,
        f.arith.mul (f.arith.mul (f.arith.div (.fin 1) (f.arith.cos (.fin g.y))) (f.arith.rnd (Real.sin g.x))) (f.arith.rnd (Real.sin g.y)),
        f.arith.mul (f.arith.mul (f.arith.div (.fin 1) (f.arith.cos (.fin g.y))) (f.arith.rnd (Real.cos g.x))) (f.arith.rnd (Real.sin g.y))⟩ : XM3) else .throws) = _
      rw [h3, h5, if_pos (show ¬ (XR.fin t).eq (.fin 0) from h4)]
      rw [(h7 _ _ sx sy).1, (h7 _ _ cx sy).1, (h6 _ sx).1, (h6 _ cx).1, (one sx).1, (one cx).1]
      rfl
    · unfold zyxLocalToDiff
      rw [if_pos h1, ← h2]
    · refine ⟨triv 0, (h6 _ sx).2.2.1, (h6 _ cx).2.2.1, triv 0, (one cx).2, ?_, triv 1, (h7 _ _ sx sy).2.2.1, (h7 _ _ cx sy).2.2.1⟩
      change |-f.round (Real.sin g.x) - -Real.sin g.x| ≤ _ * |-Real.sin g.x| + _
      rw [abs_neg, ← neg_sub', abs_neg]; exact (one sx).2

/-- **C120 (finding).** The exception "Gimbal lock: cos(y) is zero!" is never thrown for angles stored in `double` or `float` (second angle up to `4`):
the mappings return finite and accurate matrices. -/
theorem C120_no_exception (f : Format) (hf : f = double ∨ f = float) (e : EulXyz) (g : EulZyx) :
    (Storable f e.y → |e.y| ≤ 4 → RatesAccurate f (f.arith.xyzLocalToDiff (emb3 e.v)) (xyzLocalToDiff e) ∧
      RatesAccurate f (f.arith.xyzGlobalToDiff (emb3 e.v)) (xyzGlobalToDiff e)) ∧
    (Storable f g.y → |g.y| ≤ 4 → RatesAccurate f (f.arith.zyxLocalToDiff (emb3 g.v)) (zyxLocalToDiff g)) := by
  have key : ∀ y, Storable f y → |y| ≤ 4 → 2 ^ (-60 : ℤ) ≤ |Real.cos y| := fun y h1 h2 => by
    rcases hf with rfl | rfl
    · refine le_trans ?_ ((C120_cosine y).2.1 h1 h2); norm_num
    · refine le_trans ?_ ((C120_cosine y).2.2 h1 h2); norm_num
  have alf : AtLeastFloat f := by rcases hf with rfl | rfl; exacts [double_alf, float_alf]
  obtain ⟨r1, r2⟩ := C120_rates alf e g
  exact ⟨fun h1 h2 => r1 (key _ h1 h2), fun h1 h2 => r2 (key _ h1 h2)⟩

/-- **C120 (example).** At the `double` nearest to `π / 2` the mapping multiplies the angular velocity about the first axis by more than `1.6e16`
instead of throwing. -/
theorem C120_example :
    Storable double halfPiDouble ∧ |halfPiDouble| ≤ 4 ∧ |halfPiDouble - Real.pi / 2| ≤ 613 / 10 ^ 19 ∧
    ∃ m, double.arith.xyzLocalToDiff (emb3 ⟨0, halfPiDouble, 0⟩) = .ok (embM m) ∧ 16 * 10 ^ 15 ≤ m.m00 := by
  have p1 := Real.pi_gt_d20; have p2 := Real.pi_lt_d20
  have y1 : |halfPiDouble| ≤ 4 := by unfold halfPiDouble; norm_num [abs_of_pos]
  have st : Storable double halfPiDouble := by
    refine stored_iff.mpr ⟨round_onGrid (k := -52) (by norm_num [double]) ⟨7074237752028440, ?_⟩ ?_, ?_⟩
    · unfold halfPiDouble; norm_num
    · unfold halfPiDouble; norm_num [double, abs_of_pos]
    · refine lt_of_le_of_lt y1 ?_
      rw [show (4 : ℝ) = 2 ^ (2 : ℤ) by norm_num]
      exact zpow_lt_zpow_right₀ (by norm_num) (by norm_num [double])
  have d0 : 0 < Real.pi / 2 - halfPiDouble ∧ Real.pi / 2 - halfPiDouble ≤ 613 / 10 ^ 19 := by
    unfold halfPiDouble; norm_num at p1 p2 ⊢; constructor <;> linarith
  refine ⟨st, y1, by rw [abs_sub_comm, abs_of_pos d0.1]; exact d0.2, ?_⟩
  obtain ⟨m, x, h1, h2, h3⟩ := ((C120_no_exception double (.inl rfl) ⟨⟨0, halfPiDouble, 0⟩⟩ ⟨⟨0, halfPiDouble, 0⟩⟩).1 st y1).1
  refine ⟨m, h1, ?_⟩
  have c : Real.cos halfPiDouble = Real.sin (Real.pi / 2 - halfPiDouble) := (Real.sin_pi_div_two_sub _).symm
  have c0 : 0 < Real.cos halfPiDouble := by rw [c]; exact Real.sin_pos_of_pos_of_lt_pi d0.1 (by linarith [d0.2])
  have c1 : Real.cos halfPiDouble ≤ 613 / 10 ^ 19 := by rw [c]; exact (Real.sin_le d0.1.le).trans d0.2
  unfold xyzLocalToDiff at h2
  change (if Real.cos halfPiDouble ≠ 0 then Res.ok (⟨1 / Real.cos halfPiDouble * Real.cos 0, _, _, _, _, _, _, _, _⟩ : M3) else _) = _ at h2
  rw [if_pos c0.ne'] at h2
  injection h2 with h2
  have h4 := h3.1
  rw [← h2] at h4
  change |m.m00 - 1 / Real.cos halfPiDouble * Real.cos 0| ≤ _ * |1 / Real.cos halfPiDouble * Real.cos 0| + _ at h4
  rw [Real.cos_zero, mul_one] at h4
  have b : 163 * 10 ^ 14 ≤ 1 / Real.cos halfPiDouble := by
    rw [le_div_iff₀ c0]; norm_num at c1 ⊢; linarith
  rw [abs_of_pos (show 0 < 1 / Real.cos halfPiDouble by positivity)] at h4
  have h5 := (abs_le.mp h4).1
  have s1 : (2 : ℝ) ^ (double.emin + 63) ≤ 1 := by
    rw [show (1 : ℝ) = 2 ^ (0 : ℤ) by norm_num]; exact zpow_le_zpow_right₀ (by norm_num) (by norm_num [double])
  have s2 : 7 * 2⁻¹ ^ double.p ≤ (1 / 1000 : ℝ) := by norm_num [double]
  have := mul_le_mul_of_nonneg_right s2 (show 0 ≤ 1 / Real.cos halfPiDouble by positivity)
  linarith

end Format
end Kindr
