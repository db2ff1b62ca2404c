import Verif.Props.FloatDeriv
import Verif.Props.FloatInst
import Verif.Props.Jacobian

/-!
# C89: the Jacobian of the exponential map in floating point
-/

set_option autoImplicit false

open Classical

noncomputable section
namespace Kindr
open Spec

/-- The closed form of the exact Jacobian as a matrix. -/
def jacMat (b d : ℝ) (v : V3) : M3 := 1 + b • skew v + d • (skew v * skew v)

lemma jacMat_mulVec (b d : ℝ) (v w : V3) : (jacMat b d v).mulVec w = jacApply b d v w := by
  simp only [jacMat, jacApply]
  rw [M3.add_mulVec, M3.add_mulVec, M3.smul_mulVec, M3.smul_mulVec, M3.one_mulVec, ← M3.mulVec_mulVec, skew_mulVec,
    skew_mulVec]

/-- A rounded quotient of approximations: `X̂ = X ± α`, `D̂ = D(1 ± κ)`, and `|X/D| ≤ Q`. -/
lemma FloatArith.div_close (F : FloatArith) {X' X D' D α κ Q : ℝ} (hX : |X' - X| ≤ α) (hD : 0 < D) (hD' : |D' - D| ≤ κ * D) (hκ : κ ≤ 1 / 1000)
    (hκ0 : 0 ≤ κ) (hQ : |X| ≤ Q * D) :
    |F.fl (X' / D') - X / D| ≤ 1002 / 1000 * (α / D + κ * Q) + 1002 / 1000 * F.u * (Q + (α / D + κ * Q)) := by
  have hu := F.u_nonneg
  have hd := abs_le.mp hD'
  have d0 : 999 / 1000 * D ≤ D' := by
    have := mul_le_mul_of_nonneg_right hκ hD.le
    linarith [hd.1]
  have d1 : 0 < D' := by linarith
  have hα : 0 ≤ α := (abs_nonneg _).trans hX
  have hQ0 : 0 ≤ Q := by
    by_contra h
    push Not at h
    have := mul_neg_of_neg_of_pos h hD
    linarith [abs_nonneg X]
  have e : X' / D' - X / D = ((X' - X) * D - X * (D' - D)) / (D' * D) := by field_simp; ring
  have h1 : |X' / D' - X / D| ≤ 1002 / 1000 * (α / D + κ * Q) := by
    rw [e, abs_div, abs_of_pos (mul_pos d1 hD), div_le_iff₀ (mul_pos d1 hD)]
    have a1 : |(X' - X) * D| ≤ α * D := by
      rw [abs_mul, abs_of_pos hD]; exact mul_le_mul_of_nonneg_right hX hD.le
    have a2 : |X * (D' - D)| ≤ Q * D * (κ * D) := by
      rw [abs_mul]; exact mul_le_mul hQ hD' (abs_nonneg _) (by positivity)
    have a3 := (abs_sub ((X' - X) * D) (X * (D' - D))).trans (add_le_add a1 a2)
    have e2 : 1002 / 1000 * (α / D + κ * Q) * (D' * D) = 1002 / 1000 * (α + κ * Q * D) * D' := by field_simp
    rw [e2]
    have a4 : 0 ≤ α + κ * Q * D := by positivity
    have a5 := mul_le_mul_of_nonneg_left d0 a4
    have a6 := mul_nonneg a4 hD.le
    nlinarith
  have h2 := F.fl_abs h1
  have h3 : |X / D| ≤ Q := by rw [abs_div, abs_of_pos hD, div_le_iff₀ hD]; exact hQ
  have h4 : 0 ≤ α / D + κ * Q := by positivity
  have h5 := mul_le_mul_of_nonneg_left h3 hu
  have h6 := mul_nonneg hu h4
  have h7 := mul_nonneg hu hQ0
  nlinarith

namespace FloatLib
variable (F : FloatLib)

set_option maxHeartbeats 1000000 in
/-- The two computed coefficients. -/
lemma jac_coeffs {N n : ℝ} (hn : 0 < n) (hN : |N - n| ≤ 4.01 * F.u * n) :
    |F.fl (F.fl (1 - F.cos N) / F.fl (N * N)) - (1 - Real.cos n) / (n * n)| * n ≤ (4.1 / n + 14.4) * F.u ∧
    |F.fl (F.fl (N - F.sin N) / F.fl (F.fl (N * N) * N)) - (n - Real.sin n) / (n * n * n)| * n ^ 2 ≤ (3.1 / n + 41) * F.u := by
  have hu := F.u_nonneg
  have hs := F.u_small
  have un : 0 ≤ F.u * n := mul_nonneg hu hn.le
  obtain ⟨s1, c1⟩ := F.trig_close hN
  have N0 : |N| ≤ 1001 / 1000 * n := by
    have := abs_sub_abs_le_abs_sub N n
    rw [abs_of_pos hn] at this
    nlinarith
  have hcl := Real.cos_le_one n
  have hcg := Real.neg_one_le_cos n
  have hsl := Real.sin_le hn.le
  have hsg : -n ≤ Real.sin n := by
    have h := Real.abs_sin_le_abs (x := n)
    rw [abs_of_pos hn] at h
    exact (abs_le.mp h).1
  have hs1 := Real.sin_le_one n
  have hs2 := Real.neg_one_le_sin n
  -- numerators
  have X1 : |F.fl (1 - F.cos N) - (1 - Real.cos n)| ≤ (4.01 + 4.02 * n) * F.u := by
    have h : |(1 - F.cos N) - (1 - Real.cos n)| ≤ 2 * F.u + 4.01 * F.u * n := by
      rw [show (1 - F.cos N) - (1 - Real.cos n) = -(F.cos N - Real.cos n) by ring, abs_neg]; exact c1
    have h2 := F.fl_abs h
    have h3 : |1 - Real.cos n| ≤ 2 := abs_le.mpr ⟨by linarith, by linarith⟩
    have h4 := mul_le_mul_of_nonneg_left h3 hu
    have h5 : F.u * (2 * F.u + 4.01 * F.u * n) ≤ 1 / 1000 * (2 * F.u + 4.01 * F.u * n) :=
      mul_le_mul_of_nonneg_right (by linarith) (by nlinarith)
    nlinarith
  have Y1 : |F.fl (N - F.sin N) - (n - Real.sin n)| ≤ (3.01 + 9.05 * n) * F.u := by
    have h : |(N - F.sin N) - (n - Real.sin n)| ≤ 2 * F.u + 8.02 * F.u * n := by
      rw [show (N - F.sin N) - (n - Real.sin n) = (N - n) - (F.sin N - Real.sin n) by ring]
      exact (abs_sub _ _).trans (by linarith)
    have h2 := F.fl_abs h
    have h3 : |n - Real.sin n| ≤ n + 1 := abs_le.mpr ⟨by linarith, by linarith⟩
    have h4 := mul_le_mul_of_nonneg_left h3 hu
    have h5 : F.u * (2 * F.u + 8.02 * F.u * n) ≤ 1 / 1000 * (2 * F.u + 8.02 * F.u * n) :=
      mul_le_mul_of_nonneg_right (by linarith) (by nlinarith)
    nlinarith
  -- denominators
  have D1 : |F.fl (N * N) - n * n| ≤ 9.1 * F.u * (n * n) := by
    have h := abs_mul_sub_le hN hN (abs_of_pos hn).le N0
    have h2 := F.fl_abs h
    rw [abs_of_pos (mul_pos hn hn)] at h2
    have h3 : 0 ≤ F.u * (n * n) := by positivity
    have h5 : F.u * (4.01 * F.u * n * (1001 / 1000 * n) + n * (4.01 * F.u * n)) ≤ 1 / 1000 * (4.01 * F.u * n * (1001 / 1000 * n) + n * (4.01 * F.u * n)) :=
      mul_le_mul_of_nonneg_right (by linarith) (by positivity)
    nlinarith
  have E1 : |F.fl (F.fl (N * N) * N) - n * n * n| ≤ 14.3 * F.u * (n * n * n) := by
    have h := abs_mul_sub_le D1 hN (abs_of_pos (mul_pos hn hn)).le N0
    have h2 := F.fl_abs h
    rw [abs_of_pos (mul_pos (mul_pos hn hn) hn)] at h2
    have h3 : 0 ≤ F.u * (n * n * n) := by positivity
    have h5 : F.u * (9.1 * F.u * (n * n) * (1001 / 1000 * n) + n * n * (4.01 * F.u * n)) ≤ 1 / 1000 * (9.1 * F.u * (n * n) * (1001 / 1000 * n) + n * n * (4.01 * F.u * n)) :=
      mul_le_mul_of_nonneg_right (by linarith) (by positivity)
    nlinarith
  have hin : 0 < 1 / n := by positivity
  constructor
  · -- b
    have hQ : |1 - Real.cos n| ≤ 1 / n * (n * n) := by
      rw [abs_of_nonneg (by linarith), show 1 / n * (n * n) = n by field_simp]
      have := Real.one_sub_sq_div_two_le_cos (x := n)
      rcases le_total n 2 with h | h
      · nlinarith
      · linarith
    have h := F.toFloatArith.div_close X1 (mul_pos hn hn) D1 (by linarith) (by positivity) hQ
    have h2 := mul_le_mul_of_nonneg_right h hn.le
    refine h2.trans ?_
    have e1 : (4.01 + 4.02 * n) * F.u / (n * n) * n = (4.01 / n + 4.02) * F.u := by field_simp
    have e2 : (9.1 * F.u * (1 / n)) * n = 9.1 * F.u := by field_simp
    have e3 : 1 / n * n = 1 := by field_simp
    have e4 : (1002 / 1000 * ((4.01 + 4.02 * n) * F.u / (n * n) + 9.1 * F.u * (1 / n)) +
        1002 / 1000 * F.u * (1 / n + ((4.01 + 4.02 * n) * F.u / (n * n) + 9.1 * F.u * (1 / n)))) * n =
        1002 / 1000 * ((4.01 / n + 4.02) * F.u + 9.1 * F.u) + 1002 / 1000 * F.u * (1 + ((4.01 / n + 4.02) * F.u + 9.1 * F.u)) := by
      linear_combination (1002 / 1000 + 1002 / 1000 * F.u) * e1 + (1002 / 1000 + 1002 / 1000 * F.u) * e2 + 1002 / 1000 * F.u * e3
    rw [e4]
    have e5 : 4.01 / n = 4.01 * (1 / n) := by ring
    have e6 : 4.1 / n = 4.1 * (1 / n) := by ring
    rw [e5, e6]
    have g := mul_nonneg hu hin.le
    have h5 : F.u * ((4.01 * (1 / n) + 4.02) * F.u + 9.1 * F.u) ≤ 1 / 1000 * ((4.01 * (1 / n) + 4.02) * F.u + 9.1 * F.u) :=
      mul_le_mul_of_nonneg_right (by linarith) (by positivity)
    linarith
  · have hQ : |n - Real.sin n| ≤ 2 / n ^ 2 * (n * n * n) := by
      rw [abs_of_nonneg (by linarith), show 2 / n ^ 2 * (n * n * n) = 2 * n by field_simp]
      linarith
    have h := F.toFloatArith.div_close Y1 (mul_pos (mul_pos hn hn) hn) E1 (by linarith) (by positivity) hQ
    have h2 := mul_le_mul_of_nonneg_right h (pow_pos hn 2).le
    refine h2.trans ?_
    have e1 : (3.01 + 9.05 * n) * F.u / (n * n * n) * n ^ 2 = (3.01 / n + 9.05) * F.u := by field_simp
    have e2 : (14.3 * F.u * (2 / n ^ 2)) * n ^ 2 = 28.6 * F.u := by field_simp; ring
    have e3 : 2 / n ^ 2 * n ^ 2 = 2 := by field_simp
    have e4 : (1002 / 1000 * ((3.01 + 9.05 * n) * F.u / (n * n * n) + 14.3 * F.u * (2 / n ^ 2)) +
        1002 / 1000 * F.u * (2 / n ^ 2 + ((3.01 + 9.05 * n) * F.u / (n * n * n) + 14.3 * F.u * (2 / n ^ 2)))) * n ^ 2 =
        1002 / 1000 * ((3.01 / n + 9.05) * F.u + 28.6 * F.u) + 1002 / 1000 * F.u * (2 + ((3.01 / n + 9.05) * F.u + 28.6 * F.u)) := by
      linear_combination (1002 / 1000 + 1002 / 1000 * F.u) * e1 + (1002 / 1000 + 1002 / 1000 * F.u) * e2 + 1002 / 1000 * F.u * e3
    rw [e4]
    have e5 : 3.01 / n = 3.01 * (1 / n) := by ring
    have e6 : 3.1 / n = 3.1 * (1 / n) := by ring
    rw [e5, e6]
    have g := mul_nonneg hu hin.le
    have h5 : F.u * ((3.01 * (1 / n) + 9.05) * F.u + 28.6 * F.u) ≤ 1 / 1000 * ((3.01 * (1 / n) + 9.05) * F.u + 28.6 * F.u) :=
      mul_le_mul_of_nonneg_right (by linarith) (by positivity)
    linarith

/-- One entry of the sum `1 + b̂ S + d̂ T̂`. -/
lemma jac_entry {i s T' T b' b d' d n β δ : ℝ} (hi : |i| ≤ 1) (hs : |s| ≤ n) (hT : |T| ≤ n ^ 2) (hT' : |T' - T| ≤ 3.01 * F.u * n ^ 2)
    (hb : |b' - b| * n ≤ β) (hd : |d' - d| * n ^ 2 ≤ δ) (hbn : |b| * n ≤ 1) (hdn : |d| * n ^ 2 ≤ 2) (hδ : δ ≤ 1 / 100) :
    |F.fl (F.fl (i + F.fl (b' * s)) + F.fl (d' * T')) - (i + b * s + d * T)| ≤ 1001 / 1000 * (β + δ) + 15.3 * F.u := by
  have hu := F.u_nonneg
  have hsm := F.u_small
  have hn0 : 0 ≤ n := (abs_nonneg _).trans hs
  have β0 : 0 ≤ β := le_trans (by positivity) hb
  have δ0 : 0 ≤ δ := le_trans (by positivity) hd
  have p1 : |b' * s - b * s| ≤ β := by
    rw [← sub_mul, abs_mul]
    exact (mul_le_mul_of_nonneg_left hs (abs_nonneg _)).trans hb
  have p0 : |b * s| ≤ 1 := by
    rw [abs_mul]; exact (mul_le_mul_of_nonneg_left hs (abs_nonneg _)).trans hbn
  have p2 := F.fl_abs p1
  have q1 : |d' * T' - d * T| ≤ δ + (2 + δ) * (3.01 * F.u) := by
    have e : d' * T' - d * T = (d' - d) * T + d' * (T' - T) := by ring
    have a1 : |(d' - d) * T| ≤ δ := by
      rw [abs_mul]; exact (mul_le_mul_of_nonneg_left hT (abs_nonneg _)).trans hd
    have d1 : |d'| * n ^ 2 ≤ 2 + δ := by
      have h1 := abs_sub_abs_le_abs_sub d' d
      have h2 := mul_le_mul_of_nonneg_right h1 (sq_nonneg n)
      linarith
    have a2 : |d' * (T' - T)| ≤ (2 + δ) * (3.01 * F.u) := by
      rw [abs_mul]
      refine (mul_le_mul_of_nonneg_left hT' (abs_nonneg _)).trans ?_
      have := mul_le_mul_of_nonneg_right d1 (by positivity : 0 ≤ 3.01 * F.u)
      linarith
    rw [e]; exact (abs_add_le _ _).trans (add_le_add a1 a2)
  have q0 : |d * T| ≤ 2 := by
    rw [abs_mul]; exact (mul_le_mul_of_nonneg_left hT (abs_nonneg _)).trans hdn
  have q2 := F.fl_abs q1
  have uδ : F.u * δ ≤ F.u * (1 / 100) := mul_le_mul_of_nonneg_left hδ hu
  have uδ' : F.u * δ ≤ 1 / 10000000 * δ := mul_le_mul_of_nonneg_right hsm δ0
  have uβ' : F.u * β ≤ 1 / 10000000 * β := mul_le_mul_of_nonneg_right hsm β0
  have uu : F.u * F.u ≤ 1 / 10000000 * F.u := mul_le_mul_of_nonneg_right hsm hu
  have up := mul_le_mul_of_nonneg_left p0 hu
  have uq := mul_le_mul_of_nonneg_left q0 hu
  have P : |F.fl (b' * s) - b * s| ≤ 10001 / 10000 * β + F.u := by linarith
  have Q : |F.fl (d' * T') - d * T| ≤ 10001 / 10000 * δ + 8.06 * F.u := by
    have : F.u * (δ + (2 + δ) * (3.01 * F.u)) ≤ 1 / 10000000 * (δ + 3 * (3.01 * F.u)) := by
      refine mul_le_mul hsm ?_ (by positivity) (by norm_num)
      have := mul_le_mul_of_nonneg_right (by linarith : 2 + δ ≤ 3) (by positivity : 0 ≤ 3.01 * F.u)
      linarith
    have h3 : (2 + δ) * (3.01 * F.u) ≤ 201 / 100 * (3.01 * F.u) := mul_le_mul_of_nonneg_right (by linarith) (by positivity)
    linarith
  have S1 : |(i + F.fl (b' * s)) - (i + b * s)| ≤ 10001 / 10000 * β + F.u := by
    rw [add_sub_add_left_eq_sub]; exact P
  have S2 := F.fl_abs S1
  have s0 : |i + b * s| ≤ 2 := (abs_add_le _ _).trans (by linarith)
  have us := mul_le_mul_of_nonneg_left s0 hu
  have S3 : |F.fl (i + F.fl (b' * s)) - (i + b * s)| ≤ 10002 / 10000 * β + 3.01 * F.u := by linarith
  have Z1 : |(F.fl (i + F.fl (b' * s)) + F.fl (d' * T')) - (i + b * s + d * T)| ≤ 10002 / 10000 * β + 10001 / 10000 * δ + 11.07 * F.u := by
    rw [add_sub_add_comm]; exact (abs_add_le _ _).trans (by linarith)
  have Z2 := F.fl_abs Z1
  have z0 : |i + b * s + d * T| ≤ 4 := (abs_add_le _ _).trans (by linarith)
  have uz := mul_le_mul_of_nonneg_left z0 hu
  linarith

/-- Above the switch-over the computed matrix is the exact Jacobian entry by entry. -/
lemma jac_large {v : V3} (h : 1 / 10000 ≤ F.norm3 v) :
    EntryClose ((7.3 / v.norm + 71) * F.u) (F.getJacobianOfExponentialMap v)
      (jacMat ((1 - Real.cos v.norm) / (v.norm * v.norm)) ((v.norm - Real.sin v.norm) / (v.norm * v.norm * v.norm)) v) := by
  have hu := F.u_nonneg
  have hs := F.u_small
  have hN := F.norm3_err v
  have hn : 9999 / 100000000 ≤ v.norm := by
    have h1 := (abs_le.mp hN).2
    have h2 : 4.01 * F.u * v.norm ≤ 4.01 / 10000000 * v.norm := mul_le_mul_of_nonneg_right (by linarith) v.norm_nonneg
    linarith
  have n0 : 0 < v.norm := by linarith
  obtain ⟨hb, hd⟩ := F.jac_coeffs n0 hN
  have hnot : ¬ F.norm3 v < 1 / 10000 := not_lt.mpr h
  simp only [getJacobianOfExponentialMap, hnot, if_false]
  generalize en : v.norm = n at *
  generalize F.fl (F.fl (1 - F.cos (F.norm3 v)) / F.fl (F.norm3 v * F.norm3 v)) = b' at *
  generalize F.fl (F.fl (F.norm3 v - F.sin (F.norm3 v)) / F.fl (F.fl (F.norm3 v * F.norm3 v) * F.norm3 v)) = d' at *
  have hbn : |(1 - Real.cos n) / (n * n)| * n ≤ 1 := by
    have h1 := Real.cos_le_one n
    rw [abs_of_nonneg (div_nonneg (by linarith) (by positivity)), show (1 - Real.cos n) / (n * n) * n = (1 - Real.cos n) / n by field_simp,
      div_le_one n0]
    have := Real.one_sub_sq_div_two_le_cos (x := n)
    have := Real.neg_one_le_cos n
    rcases le_total n 2 with h | h
    · nlinarith
    · linarith
  have hdn : |(n - Real.sin n) / (n * n * n)| * n ^ 2 ≤ 2 := by
    have h1 := Real.sin_le n0.le
    have h2 := Real.abs_sin_le_abs (x := n)
    rw [abs_of_pos n0] at h2
    have h3 := (abs_le.mp h2).1
    rw [abs_of_nonneg (div_nonneg (by linarith) (by positivity)), show (n - Real.sin n) / (n * n * n) * n ^ 2 = (n - Real.sin n) / n by field_simp,
      div_le_iff₀ n0]
    linarith
  have hδ : (3.1 / n + 41) * F.u ≤ 1 / 100 := by
    have h1 : 3.1 / n ≤ 32000 := by rw [div_le_iff₀ n0]; linarith
    have h2 := mul_le_mul (by linarith : 3.1 / n + 41 ≤ 32041) hs hu (by norm_num)
    linarith
  generalize (1 - Real.cos n) / (n * n) = b at *
  generalize (n - Real.sin n) / (n * n * n) = d at *
  obtain ⟨⟨c1, c2, c3⟩, r1, r2, r3⟩ := skew_cols v
  rw [en] at c1 c2 c3 r1 r2 r3
  have ax := abs_x_le v
  have ay := abs_y_le v
  have az := abs_z_le v
  rw [en] at ax ay az
  have z : ∀ x : V3, (x - x).norm ≤ 0 := fun x => by rw [sub_self]; simp
  have tb : ∀ {a c : V3}, a.norm ≤ n → c.norm ≤ n → |a.x * c.x + a.y * c.y + a.z * c.z| ≤ n ^ 2 := fun {a c} ha hc => by
    have h1 := V3.dot_abs_le a c
    have h2 := mul_le_mul ha hc c.norm_nonneg n0.le
    rw [sq]; exact h1.trans h2
  have te : ∀ {a c : V3}, a.norm ≤ n → c.norm ≤ n →
      |F.fl (F.fl (F.fl (a.x * c.x) + F.fl (a.y * c.y)) + F.fl (a.z * c.z)) - (a.x * c.x + a.y * c.y + a.z * c.z)| ≤ 3.01 * F.u * n ^ 2 :=
    fun {a c} ha hc => (F.toFloatArith.dot_close (z a) (z c) ha hc).trans (le_of_eq (by ring))
  have key : ∀ {i s : ℝ} {a c : V3}, |i| ≤ 1 → |s| ≤ n → a.norm ≤ n → c.norm ≤ n →
      |F.fl (F.fl (i + F.fl (b' * s)) + F.fl (d' * F.fl (F.fl (F.fl (a.x * c.x) + F.fl (a.y * c.y)) + F.fl (a.z * c.z)))) -
        (i + b * s + d * (a.x * c.x + a.y * c.y + a.z * c.z))| ≤ (7.3 / n + 71) * F.u := by
    intro i s a c hi hs' ha hc
    refine (F.jac_entry hi hs' (tb ha hc) (te ha hc) hb hd hbn hdn hδ).trans ?_
    have e1 : 4.1 / n = 4.1 * (1 / n) := by ring
    have e2 : 3.1 / n = 3.1 * (1 / n) := by ring
    have e3 : 7.3 / n = 7.3 * (1 / n) := by ring
    rw [e1, e2, e3]
    have g : 0 ≤ F.u * (1 / n) := by positivity
    linarith
  have o1 : |(1 : ℝ)| ≤ 1 := by simp
  have o0 : |(0 : ℝ)| ≤ 1 := by simp
  have s0 : |(0 : ℝ)| ≤ n := by rw [abs_zero]; exact n0.le
  have nx : |-v.x| ≤ n := by rwa [abs_neg]
  have ny : |-v.y| ≤ n := by rwa [abs_neg]
  have nz : |-v.z| ≤ n := by rwa [abs_neg]
  have k00 := key o1 s0 r1 c1
  have k01 := key o0 nz r1 c2
  have k02 := key o0 ay r1 c3
  have k10 := key o0 az r2 c1
  have k11 := key o1 s0 r2 c2
  have k12 := key o0 nx r2 c3
  have k20 := key o0 ny r3 c1
  have k21 := key o0 ax r3 c2
  have k22 := key o1 s0 r3 c3
  refine ⟨?_, ?_, ?_, ?_, ?_, ?_, ?_, ?_, ?_⟩
  · exact k00
  · exact k01
  · exact k02
  · exact k10
  · exact k11
  · exact k12
  · exact k20
  · exact k21
  · exact k22

/-- Below the switch-over the computed matrix is `1 + [v]×/2` up to rounding. -/
lemma jac_small {v : V3} (h : F.norm3 v < 1 / 10000) (hn : v.norm ≤ 1 / 1000) :
    EntryClose (1.01 * F.u) (F.getJacobianOfExponentialMap v) (jacMat (1 / 2) 0 v) := by
  have hu := F.u_nonneg
  have hs := F.u_small
  have key : ∀ {i s : ℝ}, |i| ≤ 1 → |s| ≤ v.norm → |F.fl (i + F.fl (1 / 2 * s)) - (i + 1 / 2 * s)| ≤ 1.01 * F.u := by
    intro i s hi hs'
    have h1 := F.err (1 / 2 * s)
    have a1 : |1 / 2 * s| ≤ 1 / 2000 := by rw [abs_mul, abs_of_pos (by norm_num : (0:ℝ) < 1 / 2)]; linarith
    have h2 : |F.fl (1 / 2 * s) - 1 / 2 * s| ≤ F.u * (1 / 2000) := h1.trans (mul_le_mul_of_nonneg_left a1 hu)
    have h3 : |(i + F.fl (1 / 2 * s)) - (i + 1 / 2 * s)| ≤ F.u * (1 / 2000) := by rw [add_sub_add_left_eq_sub]; exact h2
    have h4 := F.fl_abs h3
    have a2 : |i + 1 / 2 * s| ≤ 1 + 1 / 2000 := (abs_add_le _ _).trans (by linarith)
    have a3 := mul_le_mul_of_nonneg_left a2 hu
    have a4 : F.u * (F.u * (1 / 2000)) ≤ F.u * (1 / 2000) := mul_le_mul_of_nonneg_left (by linarith) hu
    linarith
  simp only [getJacobianOfExponentialMap, h, if_true]
  have ax := abs_x_le v
  have ay := abs_y_le v
  have az := abs_z_le v
  have o1 : |(1 : ℝ)| ≤ 1 := by simp
  have o0 : |(0 : ℝ)| ≤ 1 := by simp
  have s0 : |(0 : ℝ)| ≤ v.norm := by rw [abs_zero]; exact v.norm_nonneg
  have nx : |-v.x| ≤ v.norm := by rwa [abs_neg]
  have ny : |-v.y| ≤ v.norm := by rwa [abs_neg]
  have nz : |-v.z| ≤ v.norm := by rwa [abs_neg]
  have e : jacMat (1 / 2) 0 v = 1 + (1 / 2 : ℝ) • skew v := by ext <;> simp [jacMat]
  rw [e]
  exact ⟨key o1 s0, key o0 nz, key o0 ay, key o0 az, key o1 s0, key o0 nx, key o0 ny, key o0 ax, key o1 s0⟩

/-- **C89 (l).** `getJacobianOfExponentialMap(v)` in floating point, for every curve `v(t)` with derivative `w` and space-frame angular velocity
`W` of the rotation with rotation vector `v(t)`: when the computed length of `v` reaches the switch-over at `1e-4`, `J(v) w` is
within `(22/|v| + 213) u |w|` of `W` (cancellation in `1 - cos|v|` and `|v| - sin|v|`); below it, within `(|v|²/5 + 3.1 u) |w|`. -/
theorem C89_jacobian {v : ℝ → V3} {w W : V3} {t : ℝ} (hd : HasDerivV v w t)
    (hW : IsGlobalVelocity .rv (fun s => (⟨v s⟩ : RotVec)) t W) :
    (1 / 10000 ≤ F.norm3 (v t) →
      ((F.getJacobianOfExponentialMap (v t)).mulVec w - W).norm ≤ (22 / (v t).norm + 213) * F.u * w.norm) ∧
    (F.norm3 (v t) < 1 / 10000 →
      ((F.getJacobianOfExponentialMap (v t)).mulVec w - W).norm ≤ ((v t).norm ^ 2 / 5 + 3.1 * F.u) * w.norm) := by
  have hu := F.u_nonneg
  have hs := F.u_small
  have hN := abs_le.mp (F.norm3_err (v t))
  have h2 : 4.01 * F.u * (v t).norm ≤ 4.01 / 10000000 * (v t).norm := mul_le_mul_of_nonneg_right (by linarith) (v t).norm_nonneg
  constructor
  · intro h
    have n0 : (v t).norm ≠ 0 := fun e => by rw [e] at hN h2; linarith [hN.2]
    have eW : W = _ := isGlobalVelocity_unique (k := .rv) (r := fun s => (⟨v s⟩ : RotVec)) trivial hW (exp_velocity hd n0)
    have h3 := (F.jac_large h).close w
    rw [jacMat_mulVec, ← eW] at h3
    refine h3.trans (mul_le_mul_of_nonneg_right ?_ w.norm_nonneg)
    have e1 : 7.3 / (v t).norm = 7.3 * (1 / (v t).norm) := by ring
    have e3 : 22 / (v t).norm = 22 * (1 / (v t).norm) := by ring
    rw [e1, e3]
    have g : 0 ≤ F.u * (1 / (v t).norm) := mul_nonneg hu (one_div_nonneg.mpr (V3.norm_nonneg _))
    linarith
  · intro h
    have hn : (v t).norm ≤ 1 / 1000 := by linarith [hN.1]
    have h3 := (F.jac_small h hn).close w
    rw [jacMat_mulVec] at h3
    have h4 : (jacApply (1 / 2) 0 (v t) w - W).norm ≤ (v t).norm ^ 2 / 5 * w.norm := by
      rcases eq_or_ne (v t).norm 0 with h0 | h0
      · have hv : v t = 0 := V3.norm_eq_zero.mp h0
        have eW := isGlobalVelocity_unique (k := .rv) (r := fun s => (⟨v s⟩ : RotVec)) trivial hW (exp_velocity_zero hd hv)
        rw [eW, hv]
        have : jacApply (1 / 2) 0 0 w - w = 0 := by ext <;> simp [jacApply, V3.cross]
        rw [this]; simp
      · have eW := isGlobalVelocity_unique (k := .rv) (r := fun s => (⟨v s⟩ : RotVec)) trivial hW (exp_velocity hd h0)
        rw [eW]; exact jac_small_bound h0 (by linarith) w
    have e : (F.getJacobianOfExponentialMap (v t)).mulVec w - W =
        ((F.getJacobianOfExponentialMap (v t)).mulVec w - jacApply (1 / 2) 0 (v t) w) + (jacApply (1 / 2) 0 (v t) w - W) := by
      ext <;> simp
    rw [e]
    have h5 := mul_nonneg hu w.norm_nonneg
    exact (V3.norm_add_le _ _).trans (by linarith)

end FloatLib

/-- `roundBinary` on the binade `[2^e, 2^(e+1))`. -/
lemma roundBinary_binade {p : ℕ} {x : ℝ} {e : ℤ} (h1 : (2 : ℝ) ^ e ≤ x) (h2 : x < (2 : ℝ) ^ (e + 1)) :
    roundBinary p x = round (x / 2 ^ (e - (p - 1))) * 2 ^ (e - (p - 1) : ℤ) := by
  have hx : 0 < x := lt_of_lt_of_le (by positivity) h1
  have hl : Int.log 2 x = e := by
    apply le_antisymm
    · have := (Int.lt_zpow_iff_log_lt (b := 2) (by norm_num) (x := e + 1) hx).mp (by exact_mod_cast h2)
      omega
    · exact (Int.zpow_le_iff_le_log (b := 2) (by norm_num) hx).mp (by exact_mod_cast h1)
  simp only [roundBinary, abs_of_pos hx, hl]

lemma round_eq_of {x : ℝ} {k : ℤ} (h1 : (k : ℝ) - 1 / 2 ≤ x) (h2 : x < k + 1 / 2) : round x = k := by
  rw [round_eq, Int.floor_eq_iff]
  constructor <;> linarith

/-- The nearest `float` to a number in `[1 - 2^-25, 1]` is `1`. -/
lemma roundBinary_one {x : ℝ} (h1 : 1 - 2⁻¹ ^ 25 ≤ x) (h2 : x ≤ 1) : roundBinary 24 x = 1 := by
  rcases eq_or_lt_of_le h2 with h | h
  · subst h
    rw [roundBinary_binade (e := 0) (by norm_num) (by norm_num), round_eq_of (k := 2 ^ 23) (by norm_num) (by norm_num)]
    norm_num
  · rw [roundBinary_binade (e := -1) (by norm_num at h1 ⊢; linarith) (by norm_num; exact h),
      round_eq_of (k := 2 ^ 24)]
    · norm_num
    · norm_num at h1 ⊢
      rw [le_div_iff₀ (by norm_num)]
      linarith
    · norm_num
      linarith

/-- A number of `[y (1 - 2^-26), y]` rounds to `y` when `y` is the nearest `float` to something positive. -/
lemma roundBinary_near {z s : ℝ} (hz : 0 < z) (h1 : roundBinary 24 z * (1 - 2⁻¹ ^ 26) ≤ s) (h2 : s ≤ roundBinary 24 z) :
    roundBinary 24 s = roundBinary 24 z := by
  obtain ⟨k, m, k1, k2, hy⟩ : ∃ (k m : ℤ), 2 ^ 23 ≤ k ∧ k < 2 ^ 24 ∧ roundBinary 24 z = k * 2 ^ m := by
    obtain ⟨e, he⟩ : ∃ e, e = Int.log 2 z := ⟨_, rfl⟩
    have l1 : (2 : ℝ) ^ e ≤ z := by rw [he]; exact_mod_cast Int.zpow_log_le_self (b := 2) (by norm_num) hz
    have l2 : z < (2 : ℝ) ^ (e + 1) := by rw [he]; exact_mod_cast Int.lt_zpow_succ_log_self (b := 2) (by norm_num) z
    rw [roundBinary_binade l1 l2]
    have e1 : (e - ((24 : ℕ) - 1) : ℤ) = e - 23 := by norm_num
    have hp : (0 : ℝ) < 2 ^ (e - 23) := by positivity
    have z1 : (2 : ℝ) ^ e = 2 ^ 23 * 2 ^ (e - 23) := by
      rw [← zpow_natCast, ← zpow_add₀ (by norm_num)]; congr 1; push_cast; ring
    have z2 : (2 : ℝ) ^ (e + 1) = 2 ^ 24 * 2 ^ (e - 23) := by
      rw [← zpow_natCast, ← zpow_add₀ (by norm_num)]; congr 1; push_cast; ring
    have e2 : (2 : ℝ) ^ (e - (((24 : ℕ) : ℤ) - 1)) = 2 ^ (e - 23) := by rw [e1]
    rw [e2]
    have q1 : (2 : ℝ) ^ 23 ≤ z / 2 ^ (e - 23) := by rw [le_div_iff₀ hp, ← z1]; exact l1
    have q2 : z / 2 ^ (e - 23) < (2 : ℝ) ^ 24 := by rw [div_lt_iff₀ hp, ← z2]; exact l2
    have r1 : (2 : ℤ) ^ 23 ≤ round (z / 2 ^ (e - 23) : ℝ) := by
      rw [round_eq, Int.le_floor]; push_cast; linarith
    have r2 : round (z / 2 ^ (e - 23) : ℝ) ≤ (2 : ℤ) ^ 24 := by
      have : round (z / 2 ^ (e - 23) : ℝ) < (2 : ℤ) ^ 24 + 1 := by
        rw [round_eq, Int.floor_lt]; push_cast; linarith
      omega
    rcases eq_or_lt_of_le r2 with r | r
    · refine ⟨2 ^ 23, e - 22, by norm_num, by norm_num, ?_⟩
      rw [r, show (e - 22 : ℤ) = (e - 23) + 1 by ring, zpow_add₀ (by norm_num)]
      push_cast; ring
    · exact ⟨_, e - 23, r1, r, rfl⟩
  rw [hy] at h1 h2 ⊢
  have hp : (0 : ℝ) < 2 ^ m := by positivity
  have k1' : (2 : ℝ) ^ 23 ≤ k := by exact_mod_cast k1
  have k2' : (k : ℝ) ≤ 2 ^ 24 - 1 := by
    have : k ≤ 2 ^ 24 - 1 := by omega
    exact_mod_cast this
  have t1 : (k : ℝ) * (1 - 2⁻¹ ^ 26) ≤ s / 2 ^ m := by rw [le_div_iff₀ hp]; linarith
  have t2 : s / 2 ^ m ≤ k := by rw [div_le_iff₀ hp]; exact h2
  obtain ⟨x, hx⟩ : ∃ x, x = s / (2 : ℝ) ^ m := ⟨_, rfl⟩
  have hs : s = x * 2 ^ m := by rw [hx]; field_simp
  rw [← hx] at t1 t2
  have w1 : (2 : ℝ) ^ (m + 23) = 2 ^ 23 * 2 ^ m := by
    rw [← zpow_natCast, ← zpow_add₀ (by norm_num)]; congr 1; push_cast; ring
  have w2 : (2 : ℝ) ^ (m + 23 + 1) = 2 ^ 24 * 2 ^ m := by
    rw [← zpow_natCast, ← zpow_add₀ (by norm_num)]; congr 1; push_cast; ring
  have w3 : (2 : ℝ) ^ (m + 22) = 2 ^ 22 * 2 ^ m := by
    rw [← zpow_natCast, ← zpow_add₀ (by norm_num)]; congr 1; push_cast; ring
  rcases le_or_gt ((2 : ℝ) ^ 23) x with c | c
  · have b1 : (2 : ℝ) ^ (m + 23) ≤ s := by rw [w1, hs]; exact mul_le_mul_of_nonneg_right c hp.le
    have b2 : s < (2 : ℝ) ^ (m + 23 + 1) := by rw [w2, hs]; exact mul_lt_mul_of_pos_right (by linarith) hp
    rw [roundBinary_binade b1 b2]
    have e1 : (2 : ℝ) ^ (m + 23 - (((24 : ℕ) : ℤ) - 1)) = 2 ^ m := by congr 1; push_cast; ring
    rw [e1, ← hx, round_eq_of (k := k)]
    · norm_num at t1 k2' ⊢; linarith
    · linarith
  · have hk : k = 2 ^ 23 := by
      have : (k : ℝ) < 2 ^ 23 + 1 := by norm_num at t1 c k2' k1' ⊢; linarith
      have : k < 2 ^ 23 + 1 := by exact_mod_cast this
      omega
    subst hk
    have b1 : (2 : ℝ) ^ (m + 22) ≤ s := by
      rw [w3, hs]; exact mul_le_mul_of_nonneg_right (by norm_num at t1 ⊢; linarith) hp.le
    have b2 : s < (2 : ℝ) ^ (m + 22 + 1) := by
      rw [show m + 22 + 1 = m + 23 by ring, w1, hs]; exact mul_lt_mul_of_pos_right c hp
    rw [roundBinary_binade b1 b2]
    have e1 : (2 : ℝ) ^ (m + 22 - (((24 : ℕ) : ℤ) - 1)) = 2 ^ m / 2 := by
      rw [show (m + 22 - (((24 : ℕ) : ℤ) - 1) : ℤ) = m - 1 by push_cast; ring, zpow_sub₀ (by norm_num)]; norm_num
    have e2 : s / (2 ^ m / 2) = 2 * x := by rw [hx]; field_simp
    rw [e1, e2, round_eq_of (k := 2 ^ 24)]
    · push_cast; ring
    · norm_num at t1 ⊢; linarith
    · norm_num at c ⊢; linarith

namespace FloatLib

/-- **C89 (m): finding.** In `float` (every operation and library function correctly rounded) the Jacobian is *exactly the identity
matrix* for every `v` whose computed length lies between the switch-over `1e-4` and `2^-12`: `cos` rounds to `1` and `sin` to its
argument, both coefficients cancel to `0`, and the first-order term `[v]×/2`, which the branch below the switch-over keeps, is lost. -/
theorem C89_jacobian_float_identity {v : V3} (h1 : 1 / 10000 ≤ float.norm3 v) (h2 : float.norm3 v ≤ 2⁻¹ ^ 12) :
    float.getJacobianOfExponentialMap v = 1 := by
  have f0 : float.fl 0 = 0 := by
    have := float.err 0
    simpa using this
  have f1 : float.fl 1 = 1 := roundBinary_one (by norm_num) le_rfl
  obtain ⟨y, hy⟩ : ∃ y, y = float.norm3 v := ⟨_, rfl⟩
  have y0 : 0 < y := by rw [hy]; linarith
  have hc : float.cos y = 1 := by
    change roundBinary 24 (Real.cos y) = 1
    refine roundBinary_one ?_ (Real.cos_le_one y)
    have := Real.one_sub_sq_div_two_le_cos (x := y)
    have hsq : y ^ 2 ≤ (2⁻¹ ^ 12) ^ 2 := pow_le_pow_left₀ y0.le (by rw [hy]; exact h2) 2
    norm_num at hsq ⊢
    linarith
  have hsn : float.sin y = y := by
    change roundBinary 24 (Real.sin y) = y
    have e : y = roundBinary 24 (Real.sqrt (float.normSq3 v)) := hy
    have hz : 0 < Real.sqrt (float.normSq3 v) := by
      rcases eq_or_lt_of_le (Real.sqrt_nonneg (float.normSq3 v)) with h | h
      · exfalso
        have := float.err (Real.sqrt (float.normSq3 v))
        rw [← h] at this
        have h3 : float.norm3 v = 0 := by
          change float.fl (Real.sqrt (float.normSq3 v)) = 0
          rw [← h]; exact f0
        linarith
      · exact h
    have hsl := Real.sin_le y0.le
    have hsg := Real.sin_gt_sub_cube y0
    have hsq : y ^ 2 ≤ (2⁻¹ ^ 12) ^ 2 := pow_le_pow_left₀ y0.le (by rw [hy]; exact h2) 2
    have key : y * (1 - 2⁻¹ ^ 26) ≤ Real.sin y := by
      have h3 := mul_le_mul_of_nonneg_left hsq y0.le
      have e3 : y * y ^ 2 = y ^ 3 := by ring
      rw [e3] at h3
      norm_num at h3 ⊢
      linarith
    rw [e] at key hsl ⊢
    exact roundBinary_near hz key hsl
  have hnot : ¬ y < 1 / 10000 := by rw [hy]; exact not_lt.mpr h1
  simp only [getJacobianOfExponentialMap, ← hy, hnot, if_false, hc, hsn, sub_self, f0, zero_div, onePlus, plusScaled, zero_mul, add_zero, f1]
  rfl

/-- **C89 (n): finding.** What that costs: for every such `v(t)` and every derivative `w` perpendicular to it, the returned velocity is
off by at least `0.49 |v| |w|`, more than `4.8e-5 |w|`, while just below the switch-over the error is at most
`3e-9 |w|` plus rounding (C89_jacobian). -/
theorem C89_jacobian_float_error {v : ℝ → V3} {w W : V3} {t : ℝ} (hd : HasDerivV v w t)
    (hW : IsGlobalVelocity .rv (fun s => (⟨v s⟩ : RotVec)) t W) (h1 : 1 / 10000 ≤ float.norm3 (v t)) (h2 : float.norm3 (v t) ≤ 2⁻¹ ^ 12)
    (hp : (v t).dot w = 0) :
    49 / 100 * (v t).norm * w.norm ≤ ((float.getJacobianOfExponentialMap (v t)).mulVec w - W).norm ∧
    48 / 1000000 * w.norm ≤ ((float.getJacobianOfExponentialMap (v t)).mulVec w - W).norm := by
  have hu := float.u_nonneg
  have hs := float.u_small
  have hN := abs_le.mp (float.norm3_err (v t))
  have h3 : 4.01 * float.u * (v t).norm ≤ 4.01 / 10000000 * (v t).norm := mul_le_mul_of_nonneg_right (by linarith) (v t).norm_nonneg
  have hn : 9999 / 100000000 ≤ (v t).norm := by linarith [hN.2]
  have hn' : (v t).norm ≤ 1 / 1000 := by norm_num at h2; linarith [hN.1]
  have n0 : 0 < (v t).norm := by linarith
  have eW := isGlobalVelocity_unique (k := .rv) (r := fun s => (⟨v s⟩ : RotVec)) trivial hW (exp_velocity hd n0.ne')
  rw [C89_jacobian_float_identity h1 h2, M3.one_mulVec, eW]
  clear eW hW hd hN h1 h2 h3
  generalize v t = x at *
  have hc : 49 / 100 ≤ (1 - Real.cos x.norm) / (x.norm * x.norm) := by
    rw [le_div_iff₀ (by positivity)]
    have h := (abs_le.mp (Real.cos_bound (x := x.norm) (by rw [abs_of_pos n0]; linarith))).2
    rw [abs_of_pos n0] at h
    have h4 : x.norm ^ 2 ≤ 1 / 1000000 := by nlinarith
    have h5 : x.norm ^ 4 ≤ 1 / 1000000 * x.norm ^ 2 := by
      have := mul_le_mul_of_nonneg_right h4 (sq_nonneg x.norm)
      linarith [this, show x.norm ^ 4 = x.norm ^ 2 * x.norm ^ 2 by ring]
    nlinarith
  generalize (1 - Real.cos x.norm) / (x.norm * x.norm) = b at *
  generalize (x.norm - Real.sin x.norm) / (x.norm * x.norm * x.norm) = d at *
  have cn : (x.cross w).norm = x.norm * w.norm := by
    have e1 : (x.cross w).normSq = x.normSq * w.normSq := by
      have : (x.cross w).normSq = x.normSq * w.normSq - (x.dot w) ^ 2 := by
        simp only [V3.normSq, V3.dot, V3.cross]; ring
      rw [this, hp]; ring
    simp only [V3.norm]
    rw [e1, Real.sqrt_mul (V3.normSq_nonneg x)]
  have hD : (w - jacApply b d x w).dot (x.cross w) = -(b * (x.norm * w.norm) ^ 2) := by
    have e1 : (x.norm * w.norm) ^ 2 = (x.cross w).normSq := by rw [← cn, V3.norm_sq]
    rw [e1]
    simp only [jacApply, V3.normSq, V3.dot, V3.cross, V3.sub_x, V3.sub_y, V3.sub_z, V3.add_x, V3.add_y, V3.add_z, V3.smul_x, V3.smul_y, V3.smul_z]
    ring
  have hb := V3.dot_abs_le (w - jacApply b d x w) (x.cross w)
  rw [hD, abs_neg, abs_of_nonneg (mul_nonneg (by linarith) (sq_nonneg _)), cn] at hb
  have main : 49 / 100 * x.norm * w.norm ≤ (w - jacApply b d x w).norm := by
    rcases eq_or_lt_of_le w.norm_nonneg with h | h
    · rw [← h, mul_zero]; exact V3.norm_nonneg _
    · have hxw : 0 < x.norm * w.norm := mul_pos n0 h
      have h6 : b * (x.norm * w.norm) ≤ (w - jacApply b d x w).norm := by
        by_contra hh
        push Not at hh
        have := mul_lt_mul_of_pos_right hh hxw
        linarith
      have h7 := mul_le_mul_of_nonneg_right hc hxw.le
      linarith
  refine ⟨main, le_trans ?_ main⟩
  have := mul_le_mul_of_nonneg_right hn w.norm_nonneg
  linarith [w.norm_nonneg]

/-- non-vacuity of C89 (m), (n): `v = (2^-13, 0, 0)` is such a vector, and `w = (0, 1, 0)` is perpendicular to it. -/
example : 1 / 10000 ≤ float.norm3 ⟨2⁻¹ ^ 13, 0, 0⟩ ∧ float.norm3 ⟨2⁻¹ ^ 13, 0, 0⟩ ≤ 2⁻¹ ^ 12 ∧
    HasDerivV (fun s => (⟨2⁻¹ ^ 13, s, 0⟩ : V3)) ⟨0, 1, 0⟩ 0 ∧ (⟨2⁻¹ ^ 13, 0, 0⟩ : V3).dot ⟨0, 1, 0⟩ = 0 := by
  have f0 : float.fl 0 = 0 := by
    have := float.err 0
    simpa using this
  have fp : float.fl (2⁻¹ ^ 26) = 2⁻¹ ^ 26 := by
    change roundBinary 24 (2⁻¹ ^ 26) = 2⁻¹ ^ 26
    rw [roundBinary_binade (e := -26) (by norm_num) (by norm_num), round_eq_of (k := 2 ^ 23) (by norm_num) (by norm_num)]
    norm_num
  have fq : float.fl (2⁻¹ ^ 13) = 2⁻¹ ^ 13 := by
    change roundBinary 24 (2⁻¹ ^ 13) = 2⁻¹ ^ 13
    rw [roundBinary_binade (e := -13) (by norm_num) (by norm_num), round_eq_of (k := 2 ^ 23) (by norm_num) (by norm_num)]
    norm_num
  have hn : float.norm3 ⟨2⁻¹ ^ 13, 0, 0⟩ = 2⁻¹ ^ 13 := by
    have e : (2⁻¹ ^ 13 * 2⁻¹ ^ 13 : ℝ) = 2⁻¹ ^ 26 := by norm_num
    have r : Real.sqrt (2⁻¹ ^ 26) = 2⁻¹ ^ 13 := by
      rw [← e]; exact Real.sqrt_mul_self (by positivity)
    simp only [norm3, normSq3, mul_zero, f0, add_zero, e, fp, r, fq]
  rw [hn]
  refine ⟨by norm_num, by norm_num, ⟨hasDerivAt_const _ _, hasDerivAt_id _, hasDerivAt_const _ _⟩, by simp [V3.dot]⟩

end FloatLib
end Kindr
