import Verif.Props.Exp1
import Verif.Props.FloatRv

/-!
# The quaternion of a rotation vector in IEEE arithmetic
-/

set_option autoImplicit false

open Classical

noncomputable section
namespace Kindr
open Spec
namespace Format
variable {f : Format}

/-- The threshold of the small-angle branch. -/
lemma tau_facts (hf : AtLeastFloat f) {P : Prec} (hP : P.eps = 2 * f.uu) {τ : ℝ} (hτ : τ = P.eps ^ (1 / 4 : ℝ)) :
    0 < τ ∧ τ ≤ 1 / 50 ∧ τ ^ 4 = 2 * f.uu ∧ f.uu ≤ 4 / 10 ^ 6 * τ := by
  have hu := alf_uu hf
  have t0 : 0 < τ := by rw [hτ]; exact Real.rpow_pos_of_pos P.eps_pos _
  have t4 : τ ^ 4 = 2 * f.uu := by rw [hτ, e4_pow P, hP]
  have t1 : τ ≤ 1 / 50 := by
    by_contra hc
    push Not at hc
    have : (1 / 50 : ℝ) ^ 4 ≤ τ ^ 4 := pow_le_pow_left₀ (by norm_num) hc.le 4
    rw [t4] at this
    have := hu.2
    norm_num at *; linarith
  refine ⟨t0, t1, t4, ?_⟩
  have : τ ^ 3 ≤ (1 / 50) ^ 3 := pow_le_pow_left₀ t0.le t1 3
  have h2 : τ ^ 4 = τ ^ 3 * τ := by ring
  have h3 := mul_le_mul_of_nonneg_right this t0.le
  norm_num at h3
  linarith

lemma half_err (hf : AtLeastFloat f) {n N : ℝ} (N0 : 0 ≤ N) (hn : |n - N| ≤ 4 * f.uu * N + f.uu ^ 2) (hη : f.eta ≤ f.uu ^ 2 / 100) :
    |f.round (n * (1 / 2)) - N / 2| ≤ 251 / 100 * (f.uu * N) + 6 / 10 * f.uu ^ 2 := by
  have hs := alf_small hf
  have hu := alf_uu hf
  have hr := rn (alf_ok hf)
  have e : |n * (1 / 2) - N / 2| ≤ 2 * (f.uu * N) + f.uu ^ 2 / 2 := by
    rw [show n * (1 / 2) - N / 2 = (n - N) * (1 / 2) by ring, abs_mul, abs_of_pos (by norm_num : (0 : ℝ) < 1 / 2)]; linarith
  refine (hr.step e (B := N / 2) (by rw [abs_of_nonneg (by linarith)])).trans ?_
  have k1 : f.uu * (f.uu * N) ≤ 1 / 10 ^ 6 * (f.uu * N) := mul_le_mul_of_nonneg_right hs.1 (mul_nonneg hu.1.le N0)
  have k2 : f.uu * f.uu ^ 2 ≤ 1 / 10 ^ 6 * f.uu ^ 2 := mul_le_mul_of_nonneg_right hs.1 (sq_nonneg _)
  have k3 := mul_nonneg hu.1.le N0
  have k4 := sq_nonneg f.uu
  have : f.uu * (N / 2 + (2 * (f.uu * N) + f.uu ^ 2 / 2)) = f.uu * N / 2 + 2 * (f.uu * (f.uu * N)) + (f.uu * f.uu ^ 2) / 2 := by ring
  rw [this]; linarith

/-- The cosine. -/
lemma cos_acc (hf : AtLeastFloat f) {h N : ℝ} (N0 : 0 ≤ N) (hh : |h - N / 2| ≤ 251 / 100 * (f.uu * N) + 6 / 10 * f.uu ^ 2) :
    f.arith.cos (.fin h) = .fin (f.round (Real.cos h)) ∧ |f.round (Real.cos h) - Real.cos (N / 2)| ≤ 252 / 100 * (f.uu * N) + 102 / 100 * f.uu := by
  have hs := alf_small hf
  have hu := alf_uu hf
  have he := alf_eta hf
  have hr := rn (alf_ok hf)
  constructor
  · exact small_fin hf ((Real.abs_cos_le_one h).trans (by norm_num))
  · have e := (abs_cos_sub_le h (N / 2)).trans hh
    refine (hr.step e (Real.abs_cos_le_one _)).trans ?_
    have k1 : f.uu * (f.uu * N) ≤ 1 / 10 ^ 6 * (f.uu * N) := mul_le_mul_of_nonneg_right hs.1 (mul_nonneg hu.1.le N0)
    have k2 : f.uu * f.uu ^ 2 ≤ 1 / 10 ^ 6 * f.uu ^ 2 := mul_le_mul_of_nonneg_right hs.1 (sq_nonneg _)
    have k3 := mul_nonneg hu.1.le N0
    have k4 : f.uu ^ 2 ≤ 1 / 10 ^ 6 * f.uu := by rw [sq]; exact mul_le_mul_of_nonneg_right hs.1 hu.1.le
    have : f.uu * (1 + (251 / 100 * (f.uu * N) + 6 / 10 * f.uu ^ 2)) = f.uu + 251 / 100 * (f.uu * (f.uu * N)) + 6 / 10 * (f.uu * f.uu ^ 2) := by ring
    rw [this]; linarith [hu.1]

/-- The factor of the vector part in the small-angle branch. -/
lemma na_small (hf : AtLeastFloat f) {n N τ : ℝ} (n0 : 0 ≤ n) (N0 : 0 < N) (t1 : τ ≤ 1 / 50) (t4 : τ ^ 4 = 2 * f.uu) (ut : f.uu ≤ 4 / 10 ^ 6 * τ)
    (hn : |n - N| ≤ 4 * f.uu * N + f.uu ^ 2) (hlt : n < τ) :
    ∃ a, f.arith.sub (.fin (1 / 2)) (f.arith.mul (f.arith.mul (.fin n) (.fin n)) (.fin (1 / 48))) = .fin a ∧ |a - Real.sin (N / 2) / N| ≤ 56 / 10 * f.uu := by
  have hs := alf_small hf
  have hu := alf_uu hf
  have he := alf_eta hf
  have hr := rn (alf_ok hf)
  have u2 : f.uu ^ 2 ≤ 1 / 10 ^ 6 * f.uu := by rw [sq]; exact mul_le_mul_of_nonneg_right hs.1 hu.1.le
  have uN : f.uu * N ≤ 1 / 10 ^ 6 * N := mul_le_mul_of_nonneg_right hs.1 N0.le
  have NT : N ≤ 1001 / 1000 * τ := by
    have := (abs_le.mp hn).1
    linarith
  have N1 : N ≤ 1 / 40 := by linarith
  have e1 : |n * n - N * N| ≤ f.uu := by
    rw [show n * n - N * N = (n - N) * (n + N) by ring, abs_mul, abs_of_nonneg (by linarith : 0 ≤ n + N)]
    have h1 : |n - N| ≤ f.uu / 2 := by
      have : f.uu * N ≤ f.uu * (1 / 40) := mul_le_mul_of_nonneg_left N1 hu.1.le
      linarith
    calc |n - N| * (n + N) ≤ f.uu / 2 * 1 := mul_le_mul h1 (by linarith) (by linarith) (by linarith [hu.1])
      _ ≤ _ := by linarith [hu.1]
  have NN : N * N ≤ 1 / 1600 := by
    calc N * N ≤ 1 / 40 * (1 / 40) := mul_le_mul N1 N1 N0.le (by norm_num)
      _ = _ := by norm_num
  have NN0 : 0 ≤ N * N := mul_self_nonneg _
  have b1 : |N * N| ≤ 1 := by rw [abs_of_nonneg NN0]; linarith
  have e2 : |f.round (n * n) - N * N| ≤ 3 * f.uu := by
    refine (hr.step e1 b1).trans ?_
    have : f.uu * (1 + f.uu) = f.uu + f.uu ^ 2 := by ring
    linarith
  have e3 : |f.round (n * n) * (1 / 48) - N * N * (1 / 48)| ≤ f.uu / 10 := by
    rw [← sub_mul, abs_mul, abs_of_pos (by norm_num : (0 : ℝ) < 1 / 48)]; linarith [hu.1]
  have b3 : |N * N * (1 / 48)| ≤ 1 / 100 := by rw [abs_of_nonneg (by positivity)]; linarith
  have e4 : |f.round (f.round (n * n) * (1 / 48)) - N * N * (1 / 48)| ≤ f.uu / 5 := by
    refine (hr.step e3 b3).trans ?_
    have : f.uu * (1 / 100 + f.uu / 10) = f.uu / 100 + f.uu ^ 2 / 10 := by ring
    linarith
  have e5 : |1 / 2 - f.round (f.round (n * n) * (1 / 48)) - (1 / 2 - N * N * (1 / 48))| ≤ f.uu / 5 := by
    rw [show 1 / 2 - f.round (f.round (n * n) * (1 / 48)) - (1 / 2 - N * N * (1 / 48)) = -(f.round (f.round (n * n) * (1 / 48)) - N * N * (1 / 48)) by ring, abs_neg]
    exact e4
  have b5 : |1 / 2 - N * N * (1 / 48)| ≤ 1 / 2 := by rw [abs_le]; constructor <;> linarith
  have e6 : |f.round (1 / 2 - f.round (f.round (n * n) * (1 / 48))) - (1 / 2 - N * N * (1 / 48))| ≤ f.uu := by
    refine (hr.step e5 b5).trans ?_
    have : f.uu * (1 / 2 + f.uu / 5) = f.uu / 2 + f.uu ^ 2 / 5 := by ring
    linarith
  refine ⟨f.round (1 / 2 - f.round (f.round (n * n) * (1 / 48))), ?_, ?_⟩
  · change f.arith.sub _ (f.arith.mul (f.arith.rnd (n * n)) _) = _
    rw [small_fin hf ((hr.le_of e1 b1).trans (by linarith))]
    change f.arith.sub _ (f.arith.rnd _) = _
    rw [small_fin hf ((hr.le_of e3 b3).trans (by linarith))]
    change f.arith.rnd (1 / 2 + -_) = _
    rw [← sub_eq_add_neg, small_fin hf ((hr.le_of e5 b5).trans (by linarith))]
  · have hb := Real.sin_bound (x := N / 2) (by rw [abs_of_nonneg (by positivity)]; linarith)
    rw [abs_of_nonneg (by positivity : 0 ≤ N / 2)] at hb
    have e7 : |(1 / 2 - N * N * (1 / 48)) - Real.sin (N / 2) / N| ≤ f.uu := by
      have e : (1 / 2 - N * N * (1 / 48)) - Real.sin (N / 2) / N = -((Real.sin (N / 2) - (N / 2 - (N / 2) ^ 3 / 6)) / N) := by field_simp; ring
      rw [e, abs_neg, abs_div, abs_of_pos N0, div_le_iff₀ N0]
      refine hb.trans ?_
      have n4 : N ^ 4 ≤ (1001 / 1000 * τ) ^ 4 := pow_le_pow_left₀ N0.le NT 4
      rw [mul_pow, t4] at n4
      have : (N / 2) ^ 5 / 100 = N ^ 4 / 3200 * N := by ring
      norm_num at this n4 ⊢
      have h9 := mul_le_mul_of_nonneg_right n4 N0.le
      have := mul_nonneg hu.1.le N0.le
      nlinarith
    have := abs_sub_le (f.round (1 / 2 - f.round (f.round (n * n) * (1 / 48)))) (1 / 2 - N * N * (1 / 48)) (Real.sin (N / 2) / N)
    linarith [hu.1]

/-- The factor of the vector part in the general branch. -/
lemma na_big (hf : AtLeastFloat f) {n h N τ : ℝ} (N0 : 0 < N) (_t0 : 0 < τ) (ut : f.uu ≤ 4 / 10 ^ 6 * τ)
    (hn : |n - N| ≤ 4 * f.uu * N + f.uu ^ 2) (hh : |h - N / 2| ≤ 251 / 100 * (f.uu * N) + 6 / 10 * f.uu ^ 2) (hge : τ ≤ n) (hη : f.eta ≤ f.uu ^ 2 / 100) :
    ∃ a, f.arith.div (f.arith.sin (.fin h)) (.fin n) = .fin a ∧ |a - Real.sin (N / 2) / N| ≤ 56 / 10 * f.uu := by
  have hs := alf_small hf
  have hu := alf_uu hf
  have he := alf_eta hf
  have hr := rn (alf_ok hf)
  have n0 : 0 < n := by linarith
  have u2 : f.uu ^ 2 ≤ 1 / 10 ^ 6 * f.uu := by rw [sq]; exact mul_le_mul_of_nonneg_right hs.1 hu.1.le
  have uN : f.uu * N ≤ 1 / 10 ^ 6 * N := mul_le_mul_of_nonneg_right hs.1 N0.le
  have uN0 := mul_nonneg hu.1.le N0.le
  have NT : 999 / 1000 * τ ≤ N := by
    have := (abs_le.mp hn).2
    linarith
  have u2N : f.uu ^ 2 ≤ 1 / 100 * (f.uu * N) := by
    rw [sq, ← mul_assoc, mul_comm (1 / 100), mul_assoc]
    exact mul_le_mul_of_nonneg_left (by linarith) hu.1.le
  have hn' : |n - N| ≤ 401 / 100 * (f.uu * N) := hn.trans (by linarith)
  have nN : 999 / 1000 * N ≤ n := by
    have := (abs_le.mp hn').1
    linarith
  have s1 : |Real.sin (N / 2)| ≤ N / 2 := by
    have := Real.abs_sin_le_abs (x := N / 2)
    rwa [abs_of_pos (by linarith : 0 < N / 2)] at this
  have e1 : |Real.sin h - Real.sin (N / 2)| ≤ 252 / 100 * (f.uu * N) := (abs_sin_sub_le h (N / 2)).trans (hh.trans (by linarith))
  have e2 : |f.round (Real.sin h) - Real.sin (N / 2)| ≤ 304 / 100 * (f.uu * N) := by
    refine (hr.step e1 s1).trans ?_
    have k1 : f.uu * (f.uu * N) ≤ 1 / 10 ^ 6 * (f.uu * N) := mul_le_mul_of_nonneg_right hs.1 uN0
    have : f.uu * (N / 2 + 252 / 100 * (f.uu * N)) = f.uu * N / 2 + 252 / 100 * (f.uu * (f.uu * N)) := by ring
    linarith
  have e3 : |f.round (Real.sin h) / n - Real.sin (N / 2) / N| ≤ 508 / 100 * f.uu := by
    have e : f.round (Real.sin h) / n - Real.sin (N / 2) / N = (f.round (Real.sin h) - Real.sin (N / 2)) / n - Real.sin (N / 2) * (n - N) / (n * N) := by
      field_simp; ring
    rw [e]
    have a1 : |(f.round (Real.sin h) - Real.sin (N / 2)) / n| ≤ 305 / 100 * f.uu := by
      rw [abs_div, abs_of_pos n0, div_le_iff₀ n0]
      refine e2.trans ?_
      have := mul_le_mul_of_nonneg_left nN hu.1.le
      linarith
    have a2 : |Real.sin (N / 2) * (n - N) / (n * N)| ≤ 203 / 100 * f.uu := by
      rw [abs_div, abs_mul, abs_of_pos (mul_pos n0 N0), div_le_iff₀ (mul_pos n0 N0)]
      refine (mul_le_mul s1 hn' (abs_nonneg _) (by linarith)).trans ?_
      have := mul_le_mul_of_nonneg_right (mul_le_mul_of_nonneg_left nN hu.1.le) N0.le
      have := mul_nonneg uN0 N0.le
      linarith
    exact (abs_sub _ _).trans (by linarith)
  have b3 : |Real.sin (N / 2) / N| ≤ 1 / 2 := by
    rw [abs_div, abs_of_pos N0, div_le_iff₀ N0]; linarith
  refine ⟨f.round (f.round (Real.sin h) / n), ?_, ?_⟩
  · change f.arith.div (f.arith.rnd _) _ = _
    rw [small_fin hf ((Real.abs_sin_le_one h).trans (by norm_num))]
    change (if n = 0 then _ else _) = _
    rw [if_neg n0.ne', small_fin hf ((hr.le_of e3 b3).trans (by linarith))]
  · refine (hr.step e3 b3).trans ?_
    have : f.uu * (1 / 2 + 508 / 100 * f.uu) = f.uu / 2 + 508 / 100 * f.uu ^ 2 := by ring
    linarith

/-- **The quaternion of a rotation vector.** -/
lemma quatOfRv_range (h : Standard f) {P : Prec} (hP : P.eps = 2 * f.uu) {r : V3} (hr : r.norm ≤ 2 ^ 20) :
    ∃ q, f.arith.quatOfRv P (emb3 r) = embQ q ∧ |q.w - Real.cos (r.norm / 2)| ≤ 252 / 100 * (f.uu * r.norm) + 102 / 100 * f.uu ∧
      |q.x - Real.sin (r.norm / 2) / r.norm * r.x| ≤ 62 / 10 * (f.uu * |r.x|) + f.eta ∧
      |q.y - Real.sin (r.norm / 2) / r.norm * r.y| ≤ 62 / 10 * (f.uu * |r.y|) + f.eta ∧
      |q.z - Real.sin (r.norm / 2) / r.norm * r.z| ≤ 62 / 10 * (f.uu * |r.z|) + f.eta := by
  have hf := h.toAtLeastFloat
  have hs := alf_small hf
  have hu := alf_uu hf
  have he := alf_eta hf
  have hrn := rn (alf_ok hf)
  have N0 := r.norm_nonneg
  obtain ⟨N, hN⟩ : ∃ N, N = r.norm := ⟨_, rfl⟩
  have hη : f.eta ≤ f.uu ^ 2 / 100 := by
    have := (std_tiny h).2
    have k : f.uu ^ 4 ≤ f.uu ^ 2 * 1 := by
      rw [show f.uu ^ 4 = f.uu ^ 2 * f.uu ^ 2 by ring]
      exact mul_le_mul_of_nonneg_left (pow_le_one₀ hu.1.le (by linarith)) (sq_nonneg _)
    norm_num at this
    linarith [sq_nonneg f.uu]
  obtain ⟨n, en, n0, bn⟩ := norm_any h (v := r) (hr.trans (by norm_num))
  obtain ⟨t0, t1, t4, ut⟩ := tau_facts hf hP (τ := P.eps ^ (1 / 4 : ℝ)) rfl
  obtain ⟨rx, ry, rz⟩ := abs_comp_le r
  rw [← hN] at bn hr N0 rx ry rz ⊢
  have uN : f.uu * N ≤ 1 / 16 := by
    calc f.uu * N ≤ 1 / 2 ^ 24 * 2 ^ 20 := mul_le_mul hu.2 hr N0 (by positivity)
      _ = _ := by norm_num
  have u2 : f.uu ^ 2 ≤ 1 / 10 ^ 6 * f.uu := by rw [sq]; exact mul_le_mul_of_nonneg_right hs.1 hu.1.le
  have hh := half_err hf N0 bn hη
  obtain ⟨hd, hhd⟩ : ∃ x, x = f.round (n * (1 / 2)) := ⟨_, rfl⟩
  rw [← hhd] at hh
  have nfin : |n * (1 / 2)| ≤ 2 ^ (f.emax - 1) := by
    rw [abs_of_nonneg (by linarith), pow_emax]
    have := (abs_le.mp bn).2
    have h3 := (alf_pow hf).2
    norm_num at h3 hr
    linarith
  have eh : f.arith.mul (.fin n) (.fin (1 / 2)) = .fin hd := by
    rw [hhd]; exact fin_of (alf_ok hf) nfin
  obtain ⟨ec, bc⟩ := cos_acc hf N0 hh
  -- the factor of the vector part
  obtain ⟨a, ea, ba⟩ : ∃ a, (if XR.lt (.fin n) (.fin (P.eps ^ (1 / 4 : ℝ))) then f.arith.sub (.fin (1 / 2)) (f.arith.mul (f.arith.mul (.fin n) (.fin n)) (.fin (1 / 48)))
      else f.arith.div (f.arith.sin (f.arith.mul (.fin n) (.fin (1 / 2)))) (.fin n)) = .fin a ∧
      (0 < N → |a - Real.sin (N / 2) / N| ≤ 56 / 10 * f.uu) := by
    rcases eq_or_lt_of_le N0 with z | N1
    · -- the zero vector
      subst z
      have nz : |n| ≤ f.uu ^ 2 := by simpa using bn
      have nt : n < P.eps ^ (1 / 4 : ℝ) := by have := le_abs_self n; linarith
      have r1 := hrn.err (n * n)
      have nn : |n * n| ≤ 1 := by
        rw [abs_mul]
        exact mul_le_one₀ (by linarith) (abs_nonneg _) (by linarith)
      have nn2 : |f.round (n * n)| ≤ 2 := by
        have := abs_add_le (f.round (n * n) - n * n) (n * n)
        rw [sub_add_cancel] at this
        have := mul_le_mul_of_nonneg_left nn hu.1.le
        linarith
      have r2 := hrn.err (f.round (n * n) * (1 / 48))
      have nn3 : |f.round (n * n) * (1 / 48)| ≤ 1 := by rw [abs_mul, abs_of_pos (by norm_num : (0 : ℝ) < 1 / 48)]; linarith
      have nn4 : |f.round (f.round (n * n) * (1 / 48))| ≤ 2 := by
        have := abs_add_le (f.round (f.round (n * n) * (1 / 48)) - f.round (n * n) * (1 / 48)) (f.round (n * n) * (1 / 48))
        rw [sub_add_cancel] at this
        have := mul_le_mul_of_nonneg_left nn3 hu.1.le
        linarith
      refine ⟨f.round (1 / 2 + -f.round (f.round (n * n) * (1 / 48))), ?_, fun h => absurd h (lt_irrefl _)⟩
      rw [if_pos (show XR.lt (.fin n) (.fin _) from nt)]
      change f.arith.sub _ (f.arith.mul (f.arith.rnd (n * n)) _) = _
      rw [small_fin hf (nn.trans (by norm_num))]
      change f.arith.sub _ (f.arith.rnd _) = _
      rw [small_fin hf (nn3.trans (by norm_num))]
      change f.arith.rnd (1 / 2 + -_) = _
      rw [small_fin hf ((abs_add_le _ _).trans (by rw [abs_neg, abs_of_pos (by norm_num : (0 : ℝ) < 1 / 2)]; linarith))]
    · by_cases hlt : n < P.eps ^ (1 / 4 : ℝ)
      · rw [if_pos (show XR.lt (.fin n) (.fin _) from hlt)]
        obtain ⟨a, e1, e2⟩ := na_small hf n0 N1 t1 t4 ut bn hlt
        exact ⟨a, e1, fun _ => e2⟩
      · rw [if_neg (show ¬ XR.lt (.fin n) (.fin _) from hlt), eh]
        obtain ⟨a, e1, e2⟩ := na_big hf N1 t0 ut bn hh (not_lt.mp hlt) hη
        exact ⟨a, e1, fun _ => e2⟩
  have comp : ∀ {x : ℝ}, |x| ≤ N → f.arith.mul (.fin a) (.fin x) = .fin (f.round (a * x)) ∧
      |f.round (a * x) - Real.sin (N / 2) / N * x| ≤ 62 / 10 * (f.uu * |x|) + f.eta := fun {x} hx => by
    rcases eq_or_lt_of_le N0 with z | N1
    · have : x = 0 := by rw [← z] at hx; exact abs_nonpos_iff.mp hx
      subst this
      rw [mul_zero, round_zero, mul_zero, sub_zero, abs_zero, mul_zero, mul_zero, zero_add]
      refine ⟨?_, he.1.le⟩
      change f.arith.rnd (a * 0) = _
      rw [mul_zero]; exact f.arith.rnd_zero
    · have b1 := ba N1
      have s1 : |Real.sin (N / 2) / N| ≤ 1 / 2 := by
        rw [abs_div, abs_of_pos N1, div_le_iff₀ N1]
        have := Real.abs_sin_le_abs (x := N / 2)
        rw [abs_of_pos (by linarith : 0 < N / 2)] at this
        linarith
      have x0 := abs_nonneg x
      have ux := mul_nonneg hu.1.le x0
      have e1 : |a * x - Real.sin (N / 2) / N * x| ≤ 56 / 10 * (f.uu * |x|) := by
        rw [← sub_mul, abs_mul]
        have := mul_le_mul_of_nonneg_right b1 x0
        linarith
      have e2 : |Real.sin (N / 2) / N * x| ≤ |x| / 2 := by
        rw [abs_mul]
        have := mul_le_mul_of_nonneg_right s1 x0
        linarith
      have e3 : f.uu * (f.uu * |x|) ≤ 1 / 10 ^ 6 * (f.uu * |x|) := mul_le_mul_of_nonneg_right hs.1 ux
      refine ⟨fin_of (alf_ok hf) ((hrn.le_of e1 e2).trans ?_), (hrn.step e1 e2).trans ?_⟩
      · rw [pow_emax]
        have h3 := (alf_pow hf).2
        have := mul_le_mul_of_nonneg_left hx hu.1.le
        norm_num at h3 hr
        linarith
      · have : f.uu * (|x| / 2 + 56 / 10 * (f.uu * |x|)) = f.uu * |x| / 2 + 56 / 10 * (f.uu * (f.uu * |x|)) := by ring
        rw [this]; linarith
  refine ⟨⟨f.round (Real.cos hd), f.round (a * r.x), f.round (a * r.y), f.round (a * r.z)⟩, ?_, bc, (comp rx).2, (comp ry).2, (comp rz).2⟩
  unfold XArith.quatOfRv
  rw [en]
  dsimp only
  rw [ea, eh]
  refine XQuat.ext ec (comp rx).1 (comp ry).1 (comp rz).1

end Format
end Kindr
