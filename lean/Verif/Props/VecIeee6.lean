import Verif.Props.VecIeee5
import Mathlib.Algebra.Order.BigOperators.Ring.Finset

/-!
# C119: accuracy of `projectOn`
-/

set_option autoImplicit false

open Classical

noncomputable section
namespace Kindr
open Spec
namespace Format
variable {f : Format} {n : ℕ}

lemma vecLen_sq (a : Fin n → ℝ) : vecLen a ^ 2 = ∑ i, a i ^ 2 := Real.sq_sqrt (Finset.sum_nonneg fun _ _ => sq_nonneg _)

lemma abs_dot_le (a b : Fin n → ℝ) : ∑ i, |a i * b i| ≤ vecLen a * vecLen b := by
  unfold vecLen
  rw [← Real.sqrt_mul (Finset.sum_nonneg fun _ _ => sq_nonneg _)]
  refine Real.le_sqrt_of_sq_le ?_
  have := Finset.sum_mul_sq_le_sq_mul_sq Finset.univ (fun i => |a i|) (fun i => |b i|)
  simpa only [abs_mul, sq_abs] using this

lemma abs_coeff_le (b : Fin n → ℝ) (i : Fin n) : |b i| ≤ vecLen b := by
  unfold vecLen
  refine Real.abs_le_sqrt ?_
  exact Finset.single_le_sum (f := fun i => b i ^ 2) (fun _ _ => sq_nonneg _) (Finset.mem_univ i)

/-- Perturbing numerator and denominator of a quotient. -/
lemma quotient_err {D d N S σ e k : ℝ} (hS : 0 < S) (hd : |d| ≤ σ) (hD : |D - d| ≤ e) (hN : |N - S| ≤ k * S) (hk : k ≤ 1 / 500) (hk0 : 0 ≤ k) :
    0 < N ∧ |D / N - d / S| ≤ 1003 / 1000 * (e + k * σ) / S := by
  have a := abs_le.mp hN
  have kS : k * S ≤ 1 / 500 * S := mul_le_mul_of_nonneg_right hk hS.le
  have N1 : 998 / 1000 * S ≤ N := by linarith
  have N0 : 0 < N := by linarith
  refine ⟨N0, ?_⟩
  have e0 : 0 ≤ e := (abs_nonneg _).trans hD
  have s0 : 0 ≤ σ := (abs_nonneg _).trans hd
  have e1 : D / N - d / S = ((D - d) + d * (S - N) / S) / N := by field_simp; ring
  have e2 : |(D - d) + d * (S - N) / S| ≤ e + k * σ := by
    refine (abs_add_le _ _).trans (add_le_add hD ?_)
    rw [abs_div, abs_mul, abs_of_pos hS, abs_sub_comm S N, div_le_iff₀ hS]
    calc |d| * |N - S| ≤ σ * (k * S) := mul_le_mul hd hN (abs_nonneg _) s0
      _ = k * σ * S := by ring
  rw [e1, abs_div, abs_of_pos N0, div_le_div_iff₀ N0 hS]
  have e3 : 0 ≤ e + k * σ := by positivity
  calc |(D - d) + d * (S - N) / S| * S ≤ (e + k * σ) * S := mul_le_mul_of_nonneg_right e2 hS.le
    _ ≤ 1003 / 1000 * (e + k * σ) * N := by
        have := mul_le_mul_of_nonneg_left N1 e3
        have := mul_nonneg e3 hS.le
        nlinarith

set_option maxHeartbeats 1000000 in
/-- **C119 (d).** `projectOn` of vectors inside the range: finite, and within `5 n u |a|` of the exact projection, plus a multiple of the smallest
number.  (The error is relative to the projected vector, not to the projection.) -/
theorem C119_project (hf : AtLeastFloat f) {t s : SumOrder (Fin n)} (ht : Complete t) (hs : Complete s) (a b : Fin n → ℝ)
    (hn : (n : ℝ) * 2⁻¹ ^ f.p ≤ 1 / 1000) (hb1 : 2 ^ (f.emin + f.p) ≤ vecLen b ^ 2) (hb2 : vecLen b ^ 2 ≤ 2 ^ (f.emax - 2))
    (ha : vecLen a ≤ 2 ^ (f.emax - 2)) (hab : vecLen a * vecLen b ≤ 2 ^ (f.emax - 2)) (hq : vecLen a ≤ 2 ^ (f.emax - 2) * vecLen b) :
    ∃ r : Fin n → ℝ, f.arith.vProjectOn t s (embV a) (embV b) = embV r ∧
      ∀ i, |r i - (∑ j, a j * b j) / vecLen b ^ 2 * b i| ≤
        5 * n * 2⁻¹ ^ f.p * vecLen a + 2 * n * 2 ^ (f.emin - 1) * (1 + vecLen b + 1 / vecLen b) := by
  have ok := alf_ok hf
  have R := rn ok
  obtain ⟨D, hD, -, D1⟩ := C115_dot hf ht a b (hn.trans (by norm_num)) ((abs_dot_le a b).trans hab)
  have sq' : ∑ i, |b i * b i| = vecLen b ^ 2 := by
    rw [vecLen_sq]; refine Finset.sum_congr rfl fun i _ => ?_
    rw [abs_mul_self, sq]
  have sq2 : ∑ i, b i * b i = vecLen b ^ 2 := by
    rw [vecLen_sq]; exact Finset.sum_congr rfl fun i _ => (sq _).symm
  obtain ⟨N, hN, -, N1⟩ := C115_dot hf hs b b (hn.trans (by norm_num)) (by rw [sq']; exact hb2)
  rw [sq', sq2] at N1
  have n1 : (1 : ℝ) ≤ n := by
    have h := complete_len ht; have := leaves_pos t
    exact_mod_cast (show 1 ≤ n by omega)
  have hd := (Finset.abs_sum_le_sum_abs (fun i => a i * b i) Finset.univ).trans (abs_dot_le a b)
  have D2 : |D - ∑ i, a i * b i| ≤ 102 / 100 * n * (2⁻¹ ^ f.p * (vecLen a * vecLen b) + 2 ^ (f.emin - 1)) := by
    refine D1.trans (mul_le_mul_of_nonneg_left ?_ (by positivity))
    have := mul_le_mul_of_nonneg_left (abs_dot_le a b) (show (0 : ℝ) ≤ 2⁻¹ ^ f.p by positivity)
    linarith
  clear D1
  have eη : (2 : ℝ) ^ (f.emin - 1) ≤ 2⁻¹ ^ f.p * vecLen b ^ 2 / 2 := by
    have e : (2 : ℝ) ^ (f.emin - 1) = 2⁻¹ ^ f.p * 2 ^ (f.emin + f.p) / 2 := by
      rw [zpow_add₀ (by norm_num), zpow_sub₀ (by norm_num), zpow_natCast, inv_pow]; field_simp
    rw [e]
    have := mul_le_mul_of_nonneg_left hb1 (show (0 : ℝ) ≤ 2⁻¹ ^ f.p by positivity)
    linarith
  have hu := alf_uu hf
  have E0 : (0 : ℝ) < 2 ^ (f.emin - 1) := by positivity
  change (n : ℝ) * f.uu ≤ _ at hn
  change |D - _| ≤ 102 / 100 * n * (f.uu * _ + f.eta) at D2
  change |N - _| ≤ 102 / 100 * n * (f.uu * _ + f.eta) at N1
  change f.eta ≤ f.uu * _ / 2 at eη
  change 0 < f.eta at E0
  change ∃ r : Fin n → ℝ, _ ∧ ∀ i, _ ≤ 5 * n * f.uu * _ + 2 * n * f.eta * _
  have ηs : f.eta ≤ 1 / 1000000 := by
    have h1 := eta_le_sq ok
    have h2 := R.u1; have h3 := hu.1
    have h4 := hu.2
    norm_num at h4
    nlinarith
  obtain ⟨u, hu'⟩ : ∃ u, u = f.uu := ⟨_, rfl⟩
  obtain ⟨η, hη⟩ : ∃ η, η = f.eta := ⟨_, rfl⟩
  obtain ⟨d, hd'⟩ : ∃ d, d = ∑ i, a i * b i := ⟨_, rfl⟩
  obtain ⟨B, hB⟩ : ∃ B, B = vecLen b := ⟨_, rfl⟩
  obtain ⟨L, hL⟩ : ∃ L, L = vecLen a := ⟨_, rfl⟩
  obtain ⟨m, hm⟩ : ∃ m : ℝ, m = n := ⟨_, rfl⟩
  have R' : Rn f.round u η := by rw [hu', hη]; exact R
  have B0 : 0 ≤ B := by rw [hB]; exact Real.sqrt_nonneg _
  have L0 : 0 ≤ L := by rw [hL]; exact Real.sqrt_nonneg _
  have bi : ∀ i, |b i| ≤ B := fun i => by rw [hB]; exact abs_coeff_le b i
  rw [← hB, ← hL] at D2 hd
  rw [← hB] at hb1 hb2 N1 eη hq hab
  rw [← hL] at hq hab ha
  rw [← hu', ← hη, ← hm] at D2 N1
  rw [← hu', ← hη] at eη
  rw [← hη] at E0 ηs
  rw [← hm, ← hu'] at hn
  rw [← hm] at n1
  rw [← hd'] at D2 hd
  rw [← hu'] at hu
  rw [← hd', ← hB, ← hL, ← hm, ← hu', ← hη]
  have S0 : 0 < B ^ 2 := lt_of_lt_of_le (by positivity) hb1
  have Bp : 0 < B := lt_of_le_of_ne B0 (fun h => by rw [← h] at S0; norm_num at S0)
  have mu0 : 0 ≤ m * u := mul_nonneg (by linarith) hu.1.le
  have mη : m * η ≤ m * u * B ^ 2 / 2 := by
    have := mul_le_mul_of_nonneg_left eη (show 0 ≤ m by linarith)
    linarith
  have N2 : |N - B ^ 2| ≤ 153 / 100 * (m * u) * B ^ 2 := by
    refine N1.trans ?_
    have e : 102 / 100 * m * (u * B ^ 2 + η) = 102 / 100 * (m * u * B ^ 2) + 102 / 100 * (m * η) := by ring
    rw [e]
    linarith only [mη]
  obtain ⟨Np, Q⟩ := quotient_err S0 hd D2 N2 (by linarith) (by positivity)
  -- the quotient
  obtain ⟨x, hx⟩ : ∃ x, x = D / N := ⟨_, rfl⟩
  obtain ⟨y, hy⟩ : ∃ y, y = d / B ^ 2 := ⟨_, rfl⟩
  obtain ⟨I, hI⟩ : ∃ I, I = 1 / B := ⟨_, rfl⟩
  have I0 : 0 ≤ I := by rw [hI]; positivity
  have IB : I * B = 1 := by rw [hI]; field_simp
  have yb : |y| ≤ L * I := by
    rw [hy, hI, abs_div, abs_of_pos S0, div_le_iff₀ S0]
    refine hd.trans (le_of_eq ?_); field_simp
  rw [← hx, ← hy] at Q
  have Q' : |x - y| ≤ 26 / 10 * (m * u) * (L * I) + 103 / 100 * (m * η) * I ^ 2 := by
    refine Q.trans (le_of_le_of_eq (b := (1003 / 1000 * (102 / 100 * m * (u * (L * B) + η) + 153 / 100 * (m * u) * (L * B))) * I ^ 2) (le_of_eq ?_) rfl |>.trans ?_)
    · rw [hI]; field_simp
    · have e1 : (1003 / 1000 * (102 / 100 * m * (u * (L * B) + η) + 153 / 100 * (m * u) * (L * B))) * I ^ 2 =
          (1003 / 1000 * 255 / 100) * (m * u) * (L * I) * (I * B) + (1003 / 1000 * 102 / 100) * (m * η) * I ^ 2 := by ring
      rw [e1, IB]
      have h1 : 0 ≤ m * u * (L * I) := by positivity
      have h2 : 0 ≤ m * η * I ^ 2 := by positivity
      linarith only [h1, h2]
  have mηI : m * η * I ^ 2 ≤ m * u / 2 := by
    have := mul_le_mul_of_nonneg_right mη (sq_nonneg I)
    have e : m * u * B ^ 2 / 2 * I ^ 2 = m * u / 2 * (I * B) ^ 2 := by ring
    rw [e, IB] at this; linarith
  have LI0 : 0 ≤ L * I := mul_nonneg L0 I0
  have xb : |x| ≤ 1003 / 1000 * (L * I) + 1 / 1000 := by
    have h1 := abs_add_le (x - y) y
    rw [sub_add_cancel] at h1
    have h2 := mul_le_mul_of_nonneg_right hn LI0
    linarith only [h1, h2, Q', yb, mηI, hn, LI0]
  obtain ⟨Ω, hΩ⟩ : ∃ Ω : ℝ, Ω = 2 ^ (f.emax - 2) := ⟨_, rfl⟩
  have Ω1 : (1000 : ℝ) ≤ Ω := by
    rw [hΩ]
    refine le_trans (b := (2 : ℝ) ^ (10 : ℤ)) (by norm_num) (zpow_le_zpow_right₀ (by norm_num) ?_)
    have := hf.emax; omega
  rw [← hΩ] at hb2 ha hab hq
  have Ω2 : (2 : ℝ) ^ (f.emax - 1) = 2 * Ω := by rw [hΩ]; exact big_pow f
  have LI1 : L * I ≤ Ω := by
    have := mul_le_mul_of_nonneg_right hq I0
    rwa [mul_assoc, mul_comm B, IB, mul_one] at this
  have fx : f.arith.rnd x = .fin (f.round x) := fin_of ok (by rw [Ω2]; linarith)
  obtain ⟨q, hq'⟩ : ∃ q, q = f.round x := ⟨_, rfl⟩
  have q1 : |q - y| ≤ 37 / 10 * (m * u) * (L * I) + 104 / 100 * (m * η) * I ^ 2 + η := by
    have := R'.err x
    rw [← hq'] at this
    have h1 := abs_add_le (q - x) (x - y)
    rw [sub_add_sub_cancel] at h1
    have xb2 : |x| ≤ 1003 / 1000 * (L * I) + 103 / 100 * (m * η) * I ^ 2 := by
      have h1 := abs_add_le (x - y) y
      rw [sub_add_cancel] at h1
      have h2 := mul_le_mul_of_nonneg_right hn LI0
      linarith only [h1, h2, Q', yb, LI0]
    have h3 := mul_le_mul_of_nonneg_left xb2 hu.1.le
    have h4 : u * (L * I) ≤ m * u * (L * I) := by
      have := mul_le_mul_of_nonneg_right n1 (mul_nonneg hu.1.le LI0)
      linarith
    have h5 : u * (m * η * I ^ 2) ≤ 1 / 1000 * (m * η * I ^ 2) := by
      refine mul_le_mul_of_nonneg_right ?_ (by positivity)
      have := mul_le_mul_of_nonneg_right n1 hu.1.le
      linarith
    have h6 : 0 ≤ m * u * (L * I) := by positivity
    have h7 : 0 ≤ m * η * I ^ 2 := by positivity
    linarith only [this, h1, h3, h4, h5, h6, h7, Q']
  have key : ∀ i, f.arith.rnd (b i * q) = .fin (f.round (b i * q)) ∧ |f.round (b i * q) - y * b i| ≤ 5 * m * u * L + 2 * m * η * (1 + B + I) := by
    intro i
    obtain ⟨E, hE⟩ : ∃ E, E = 37 / 10 * (m * u) * L + 104 / 100 * (m * η) * I + η * B := ⟨_, rfl⟩
    have c1 : |b i * q - b i * y| ≤ E := by
      rw [← mul_sub, abs_mul]
      refine (mul_le_mul (bi i) q1 (abs_nonneg _) B0).trans (le_of_eq ?_)
      have e1 : B * (37 / 10 * (m * u) * (L * I) + 104 / 100 * (m * η) * I ^ 2 + η) =
        37 / 10 * (m * u) * L * (I * B) + 104 / 100 * (m * η) * I * (I * B) + η * B := by ring
      rw [e1, IB, hE]; ring
    have c2 : |b i * y| ≤ L := by
      rw [abs_mul]
      refine (mul_le_mul (bi i) yb (abs_nonneg _) B0).trans (le_of_eq ?_)
      rw [show B * (L * I) = L * (I * B) by ring, IB, mul_one]
    have h1 : 0 ≤ m * u * L := by positivity
    have h2 : 0 ≤ m * η * I := by positivity
    have h3 : 0 ≤ η * B := by positivity
    have h4 : u ≤ 1 / 1000 := by have := mul_le_mul_of_nonneg_right n1 hu.1.le; linarith only [this, hn]
    have h5 : m * u * L ≤ 1 / 1000 * L := mul_le_mul_of_nonneg_right hn L0
    have h6 : m * η * I ≤ 1 / 2000 * B := by
      have := mul_le_mul_of_nonneg_right mηI B0
      have e : m * η * I ^ 2 * B = m * η * I * (I * B) := by ring
      rw [e, IB, mul_one] at this
      have h' := mul_le_mul_of_nonneg_right hn B0
      linarith only [this, h']
    have h7 : B ≤ 1 + B ^ 2 := by linarith only [sq_nonneg (B - 1), sq_nonneg B, show (B - 1) ^ 2 = B ^ 2 - 2 * B + 1 by ring]
    have h8 : η * B ≤ 1 / 1000 * B := mul_le_mul_of_nonneg_right (by linarith) B0
    have c3 := R'.step c1 c2
    constructor
    · refine fin_of ok ?_
      have := R'.le_of c1 c2
      rw [Ω2]; rw [hE] at this; linarith only [this, h5, h6, h8, h7, ha, hb2, Ω1]
    · rw [mul_comm y]
      refine c3.trans ?_
      have h9 : u * L ≤ m * u * L := by
        have := mul_le_mul_of_nonneg_right n1 (mul_nonneg hu.1.le L0); linarith
      have hE0 : 0 ≤ E := (abs_nonneg _).trans c1
      have h10 : u * E ≤ 1 / 1000 * E := mul_le_mul_of_nonneg_right h4 hE0
      have h11 : η ≤ m * η := by have := mul_le_mul_of_nonneg_right n1 E0.le; linarith
      have h12 : η * B ≤ m * η * B := mul_le_mul_of_nonneg_right h11 B0
      have e2 : 5 * m * u * L + 2 * m * η * (1 + B + I) = 5 * (m * u * L) + 2 * (m * η) + 2 * (m * η * B) + 2 * (m * η * I) := by ring
      have e3 : u * (L + E) = u * L + u * E := by ring
      rw [e2, e3]
      have hE' : E = 37 / 10 * (m * u * L) + 104 / 100 * (m * η * I) + η * B := by rw [hE]; ring
      rw [hE'] at h10 ⊢
      linarith only [h1, h2, h3, h9, h10, h11, h12, E0]
  refine ⟨fun i => f.round (b i * q), ?_, fun i => by rw [← hy, ← hI]; exact (key i).2⟩
  unfold XArith.vProjectOn XArith.vSquaredNorm
  rw [hD, hN]
  simp only [XArith.div, if_neg Np.ne']
  rw [← hx, fx, ← hq']
  funext i
  exact (key i).1

/-- Concrete cases: the hypotheses of `C119_project` hold in `float` for `(1, 2, 3)` and `(4, 5, 6)`; in `double` the projection of `(1, 0, 0)` on
`(2⁻⁵⁴⁰, 0, 0)`, exactly `(1, 0, 0)`, is computed as `(inf, NaN, NaN)`; and `(0, NaN, 1000)` is similar to the zero vector up to `1`. -/
theorem C119_example :
    (((3 : ℕ) : ℝ) * 2⁻¹ ^ Format.float.p ≤ 1 / 1000 ∧ 2 ^ (Format.float.emin + Format.float.p) ≤ vecLen ![(4 : ℝ), 5, 6] ^ 2 ∧
      vecLen ![(4 : ℝ), 5, 6] ^ 2 ≤ 2 ^ (Format.float.emax - 2) ∧ vecLen ![(1 : ℝ), 2, 3] ^ 2 = 14) ∧
    Format.double.arith.vProjectOn unrolled3 unrolled3 (embV ![1, 0, 0]) (embV ![2 ^ (-540 : ℤ), 0, 0]) = ![.inf false, .nan, .nan] ∧
    Format.double.arith.vIsSimilarTo unrolled3 ![.fin 0, .nan, .fin 1000] (embV ![0, 0, 0]) (.fin 1) = true ∧
    Complete unrolled3 := by
  refine ⟨⟨by norm_num [Format.float], ?_, ?_, ?_⟩, ?_, ?_, ?_⟩
  · rw [vecLen_sq, Fin.sum_univ_three]
    change (2 : ℝ) ^ _ ≤ (4 : ℝ) ^ 2 + 5 ^ 2 + 6 ^ 2
    norm_num [Format.float]
  · rw [vecLen_sq, Fin.sum_univ_three]
    change (4 : ℝ) ^ 2 + 5 ^ 2 + 6 ^ 2 ≤ _
    norm_num [Format.float]
  · rw [vecLen_sq, Fin.sum_univ_three]
    change (1 : ℝ) ^ 2 + 2 ^ 2 + 3 ^ 2 = _
    norm_num
  · have z : Format.double.arith.rnd 0 = .fin 0 := XArith.rnd_zero _
    have p : Format.double.arith.rnd (2 ^ (-540 : ℤ)) = .fin (2 ^ (-540 : ℤ)) := rnd_pow (alf_ok double_alf) (by norm_num [Format.double]) (by norm_num [Format.double])
    unfold XArith.vProjectOn
    rw [tiny_sum (alf_ok double_alf) unrolled3 _ (by
      intro i
      have e : ((2 : ℝ) ^ (-540 : ℤ)) ^ 2 ≤ 2 ^ (Format.double.emin - 1) := by
        rw [← zpow_natCast, ← zpow_mul]
        exact zpow_le_zpow_right₀ (by norm_num) (by norm_num [Format.double])
      have z0 : (0 : ℝ) ^ 2 ≤ 2 ^ (Format.double.emin - 1) := by rw [zero_pow two_ne_zero]; positivity
      fin_cases i
      · exact e
      · exact z0
      · exact z0)]
    have d : Format.double.arith.vDot unrolled3 (embV ![1, 0, 0]) (embV ![2 ^ (-540 : ℤ), 0, 0]) = .fin (2 ^ (-540 : ℤ)) := by
      change Format.double.arith.add (Format.double.arith.rnd (1 * 2 ^ (-540 : ℤ))) (Format.double.arith.add (Format.double.arith.rnd (0 * 0)) (Format.double.arith.rnd (0 * 0))) = _
      rw [one_mul, mul_zero, p, z]
      change Format.double.arith.add _ (Format.double.arith.rnd (0 + 0)) = _
      rw [add_zero, z]
      change Format.double.arith.rnd (_ + 0) = _
      rw [add_zero, p]
    rw [d]
    have pos : (0 : ℝ) < 2 ^ (-540 : ℤ) := by positivity
    have dv : Format.double.arith.div (.fin (2 ^ (-540 : ℤ))) (.fin 0) = .inf false := by
      simp only [XArith.div, if_true, if_neg pos.ne', not_lt.mpr pos.le, decide_false]
    rw [dv]
    funext i
    fin_cases i
    · change Format.double.arith.mul (.fin (2 ^ (-540 : ℤ))) (.inf false) = .inf false
      simp only [XArith.mul, if_neg pos.ne', not_lt.mpr pos.le, decide_false, Bool.xor_false]
    · change Format.double.arith.mul (.fin 0) (.inf false) = .nan
      simp [XArith.mul]
    · change Format.double.arith.mul (.fin 0) (.inf false) = .nan
      simp [XArith.mul]
  · rw [(C119_similar_nan Format.double.arith (n := 3) (.fin 1)).2.1]
    change (Format.double.arith.rnd (0 + -0)).abs.lt (.fin 1)
    rw [neg_zero, add_zero, XArith.rnd_zero]
    simp [XR.abs, XR.lt]
  · change List.Perm ([0] ++ ([1] ++ [2])) _
    decide
end Format
end Kindr
