import Verif.Props.Under1

/-!
# Renormalization with gradual underflow and overflow
-/

set_option autoImplicit false

open Classical

noncomputable section
namespace Kindr
open Spec
namespace Format
variable {f : Format}

lemma pow_emax (f : Format) : (2 : ℝ) ^ (f.emax - 1) = 4 * 2 ^ (f.emax - 3) := by
  rw [show (4 : ℝ) = 2 ^ (2 : ℤ) by norm_num, ← zpow_add₀ (by norm_num)]; congr 1; ring

lemma one_le_emax (hf : f.Ok) : (8192 : ℝ) ≤ 2 ^ (f.emax - 3) := by
  rw [show (8192 : ℝ) = 2 ^ (13 : ℤ) by norm_num]
  exact zpow_le_zpow_right₀ (by norm_num) (by have := hf.emax; have := hf.p; omega)

lemma eta_tiny (hf : f.Ok) : f.eta ≤ f.uu / 8192 ∧ f.eta ≤ 1 / 1000000 := by
  have h1 := eta_le_sq hf
  have h2 := uu_le hf
  have h0 := uu_pos (f := f)
  constructor <;> nlinarith

lemma sqrt_near {R N u : ℝ} (N0 : 0 < N) (u0 : 0 ≤ u) (u1 : u ≤ 1 / 256) (h : |R - N ^ 2| ≤ 501 / 100 * (u * N ^ 2)) :
    0 < R ∧ 98 / 100 * N ≤ Real.sqrt R ∧ Real.sqrt R ≤ 101 / 100 * N ∧ |Real.sqrt R - N| ≤ 254 / 100 * (u * N) := by
  obtain ⟨e3, e4⟩ := abs_le.mp h
  have N2 : 0 < N ^ 2 := by positivity
  have uN2 : u * N ^ 2 ≤ N ^ 2 / 256 := by nlinarith
  have R0 : 0 < R := by linarith
  have s0 := Real.sqrt_nonneg R
  have s2 := Real.sq_sqrt R0.le
  have lo : 98 / 100 * N ≤ Real.sqrt R := Real.le_sqrt_of_sq_le (by nlinarith)
  have hi : Real.sqrt R ≤ 101 / 100 * N := Real.sqrt_le_iff.mpr ⟨by positivity, by nlinarith⟩
  refine ⟨R0, lo, hi, ?_⟩
  have e : (Real.sqrt R - N) * (Real.sqrt R + N) = R - N ^ 2 := by linear_combination s2
  have hp : 198 / 100 * N ≤ Real.sqrt R + N := by linarith
  have h1 : |Real.sqrt R - N| * (Real.sqrt R + N) ≤ 501 / 100 * (u * N ^ 2) := by
    rw [← abs_of_pos (show 0 < Real.sqrt R + N by linarith), ← abs_mul, e]; exact h
  have h2 : |Real.sqrt R - N| * (198 / 100 * N) ≤ 254 / 100 * (u * N) * (198 / 100 * N) := by
    refine (mul_le_mul_of_nonneg_left hp (abs_nonneg _)).trans (h1.trans ?_)
    nlinarith [mul_nonneg u0 N2.le]
  exact le_of_mul_le_mul_right h2 (by positivity)

set_option maxHeartbeats 1000000 in
/-- **fix().** -/
lemma quatFix_range (hf : f.Ok) (q : Quat) (h1 : 2 ^ (f.emin + 2 * f.p + 2) ≤ q.norm ^ 2) (h2 : q.norm ^ 2 ≤ 2 ^ (f.emax - 3)) :
    ∃ q', f.arith.quatFix (embQ q) = embQ q' ∧
      |q'.w - q.w / q.norm| ≤ 5 * f.uu * |q.w / q.norm| + f.eta ∧ |q'.x - q.x / q.norm| ≤ 5 * f.uu * |q.x / q.norm| + f.eta ∧
      |q'.y - q.y / q.norm| ≤ 5 * f.uu * |q.y / q.norm| + f.eta ∧ |q'.z - q.z / q.norm| ≤ 5 * f.uu * |q.z / q.norm| + f.eta := by
  have hr := rn hf
  have nn : q.norm ^ 2 = q.w ^ 2 + q.x ^ 2 + q.y ^ 2 + q.z ^ 2 := by
    rw [Quat.norm, Real.sq_sqrt] <;> unfold Quat.normSq
    · ring
    · nlinarith [sq_nonneg q.w, sq_nonneg q.x, sq_nonneg q.y, sq_nonneg q.z]
  obtain ⟨N, hN⟩ : ∃ N, N = q.norm := ⟨_, rfl⟩
  rw [← hN] at h1 h2 nn ⊢
  have N0 : 0 < N := by
    have : 0 ≤ N := by rw [hN]; exact Real.sqrt_nonneg _
    have h3 : 0 < N ^ 2 := lt_of_lt_of_le (by positivity) h1
    exact lt_of_le_of_ne this (fun h => by rw [← h] at h3; simp at h3)
  have hη := eta_small hf N0 h1
  have hη2 := eta_le h1
  obtain ⟨u, hu⟩ : ∃ u, u = f.uu := ⟨_, rfl⟩
  obtain ⟨η, hh⟩ : ∃ η, η = f.eta := ⟨_, rfl⟩
  have u0 : 0 < u := hu ▸ uu_pos
  have u1 : u ≤ 1 / 256 := hu ▸ uu_le hf
  have η0 : 0 < η := hh ▸ eta_pos
  have ηs : η ≤ 1 / 1000000 := hh ▸ (eta_tiny hf).2
  have p13 := one_le_emax hf
  have hS : |q.w * q.w| + |q.x * q.x| + |q.y * q.y| + |q.z * q.z| ≤ N ^ 2 := by
    simp only [abs_mul_self]; linarith
  have e0 := (hr.sum4 hS).1
  have e1 := (sub_chain hf hS (by rw [pow_emax, ← hh]; linarith)).2.2
  obtain ⟨R, hR⟩ : ∃ R, R = f.round (f.round (f.round (f.round (q.w * q.w) + f.round (q.x * q.x)) + f.round (q.y * q.y)) + f.round (q.z * q.z)) := ⟨_, rfl⟩
  rw [← hR] at e0 e1
  rw [← hu, ← hh] at e0
  rw [← hu, ← hh] at hη hη2
  rw [← hu, ← hh]
  have ER : ∀ x, |f.round x - x| ≤ u * |x| + η := fun x => by rw [hu, hh]; exact hr.err x
  have N2 : 0 < N ^ 2 := by positivity
  have uN2 : u * N ^ 2 ≤ 1 / 256 * N ^ 2 := mul_le_mul_of_nonneg_right u1 N2.le
  have uuN2 : u ^ 2 * N ^ 2 ≤ 1 / 256 * (u * N ^ 2) := by
    rw [sq, mul_assoc]; exact mul_le_mul_of_nonneg_right u1 (by positivity)
  have uN : u * N ≤ 1 / 256 * N := mul_le_mul_of_nonneg_right u1 N0.le
  have e2 : |R - N ^ 2| ≤ 501 / 100 * (u * N ^ 2) := by
    have hs : R - N ^ 2 = R - (q.w * q.w + q.x * q.x + q.y * q.y + q.z * q.z) := by rw [nn]; ring
    rw [hs]
    refine e0.trans ?_
    linarith
  obtain ⟨R0, lo, hi, esq⟩ := sqrt_near N0 u0.le u1 e2
  have s0 := Real.sqrt_nonneg R
  have NB : N ≤ 2 ^ (f.emax - 3) := by
    rcases le_or_gt N 1 with h | h
    · linarith
    · have : N * 1 ≤ N * N := mul_le_mul_of_nonneg_left h.le N0.le
      rw [← sq] at this; linarith
  have en : f.arith.sqrt (.fin R) = .fin (f.round (Real.sqrt R)) := by
    simp only [XArith.sqrt, if_neg (not_lt.mpr R0.le)]
    refine fin_of hf ?_
    rw [abs_of_nonneg s0, pow_emax]; linarith
  have en2 := ER (Real.sqrt R)
  rw [abs_of_nonneg s0] at en2
  obtain ⟨q1, q2⟩ := abs_le.mp esq
  obtain ⟨m1, m2⟩ := abs_le.mp en2
  have us : u * Real.sqrt R ≤ 101 / 100 * (u * N) := by
    have := mul_le_mul_of_nonneg_left hi u0.le; linarith
  obtain ⟨n, hn⟩ : ∃ n, n = f.round (Real.sqrt R) := ⟨_, rfl⟩
  rw [← hn] at en m1 m2
  have nN : |n - N| ≤ 36 / 10 * (u * N) := by rw [abs_le]; constructor <;> linarith
  have n0 : 98 / 100 * N ≤ n := by linarith [(abs_le.mp nN).1]
  have npos : 0 < n := by linarith
  have D : ∀ x : ℝ, |x| ≤ N → f.arith.div (.fin x) (.fin n) = .fin (f.round (x / n)) ∧ |f.round (x / n) - x / N| ≤ 5 * u * |x / N| + η := by
    intro x hx
    have d : |x / n - x / N| ≤ 37 / 10 * (u * |x / N|) := by
      have : x / n - x / N = x / N * ((N - n) / n) := by field_simp
      rw [this, abs_mul, abs_div (N - n), abs_of_pos npos, abs_sub_comm]
      have h3 : |n - N| / n ≤ 37 / 10 * u := by
        rw [div_le_iff₀ npos]
        have := mul_le_mul_of_nonneg_left n0 u0.le
        linarith
      calc |x / N| * (|n - N| / n) ≤ |x / N| * (37 / 10 * u) := mul_le_mul_of_nonneg_left h3 (abs_nonneg _)
        _ = _ := by ring
    have a0 := abs_nonneg (x / N)
    have ux : u * |x / N| ≤ 1 / 256 * |x / N| := mul_le_mul_of_nonneg_right u1 a0
    have hq : |x / n| ≤ 102 / 100 * |x / N| := by
      have := abs_sub_abs_le_abs_sub (x / n) (x / N)
      linarith
    have x1 : |x / N| ≤ 1 := by rw [abs_div, abs_of_pos N0, div_le_one N0]; exact hx
    refine ⟨?_, ?_⟩
    · simp only [XArith.div, if_neg npos.ne']
      refine fin_of hf ?_
      rw [pow_emax]; linarith
    · have r := ER (x / n)
      have ux : u * |x / n| ≤ u * (102 / 100 * |x / N|) := mul_le_mul_of_nonneg_left hq u0.le
      have : 0 ≤ u * |x / N| := by positivity
      calc _ ≤ |f.round (x / n) - x / n| + |x / n - x / N| := abs_sub_le _ _ _
        _ ≤ _ := by linarith
  have cN : ∀ x : ℝ, x ^ 2 ≤ N ^ 2 → |x| ≤ N := fun x hx => abs_le_of_sq_le_sq hx N0.le
  have zw := sq_nonneg q.w; have zx := sq_nonneg q.x; have zy := sq_nonneg q.y; have zz := sq_nonneg q.z
  have dw := D q.w (cN _ (by rw [nn]; linarith))
  have dx := D q.x (cN _ (by rw [nn]; linarith))
  have dy := D q.y (cN _ (by rw [nn]; linarith))
  have dz := D q.z (cN _ (by rw [nn]; linarith))
  refine ⟨⟨f.round (q.w / n), f.round (q.x / n), f.round (q.y / n), f.round (q.z / n)⟩, ?_, dw.2, dx.2, dy.2, dz.2⟩
  have e1' : f.arith.add (f.arith.add (f.arith.add (f.arith.mul (.fin q.w) (.fin q.w)) (f.arith.mul (.fin q.x) (.fin q.x)))
      (f.arith.mul (.fin q.y) (.fin q.y))) (f.arith.mul (.fin q.z) (.fin q.z)) = .fin R := e1
  unfold XArith.quatFix XArith.quatNorm
  simp only [embQ, e1']
  rw [if_pos (by exact R0), en, dw.1, dx.1, dy.1, dz.1]

end Format
end Kindr
