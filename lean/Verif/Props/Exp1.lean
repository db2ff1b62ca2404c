import Verif.Spec.ExpIeee
import Verif.Props.Under5

/-!
# The exponential map in IEEE arithmetic
-/

set_option autoImplicit false

open Classical

noncomputable section
namespace Kindr
open Spec
namespace Format
variable {f : Format}

lemma double_std : Standard Format.double := ⟨double_alf, by norm_num [Format.double]⟩
lemma float_std : Standard Format.float := ⟨float_alf, by norm_num [Format.float]⟩

lemma std_tiny (h : Standard f) : (2 : ℝ) ^ (f.emin + 2 * f.p + 2) ≤ (f.uu ^ 2 / 2) ^ 2 / 2 ∧ f.eta ≤ f.uu ^ 4 / 2 ^ 48 := by
  have e : ∀ n : ℕ, f.uu ^ n = 2 ^ (-(n * f.p : ℤ)) := fun n => by
    unfold uu; rw [inv_pow, inv_pow, ← pow_mul, ← zpow_natCast, ← zpow_neg]; congr 1; push_cast; ring
  constructor
  · rw [div_pow, ← pow_mul, e, show ((2 : ℝ) ^ (-((2 * 2 : ℕ) * f.p : ℤ))) / 2 ^ 2 / 2 = 2 ^ (-((2 * 2 : ℕ) * f.p : ℤ)) * 2 ^ (-3 : ℤ) by norm_num; ring, ← zpow_add₀ (by norm_num)]
    refine zpow_le_zpow_right₀ (by norm_num) ?_
    have := h.sub; push_cast; omega
  · rw [e, div_eq_mul_inv, show ((2 : ℝ) ^ 48)⁻¹ = 2 ^ (-48 : ℤ) by norm_num, ← zpow_add₀ (by norm_num)]
    unfold eta
    refine zpow_le_zpow_right₀ (by norm_num) ?_
    have := h.sub; have := h.p; push_cast; omega

/-- The norm of a vector of any size below the overflow of the squares. -/
lemma norm_any (h : Standard f) {v : V3} (hv : v.norm ≤ 2 ^ 50) :
    ∃ n, f.arith.norm3 (emb3 v) = .fin n ∧ 0 ≤ n ∧ |n - v.norm| ≤ 4 * f.uu * v.norm + f.uu ^ 2 := by
  have hf := h.toAtLeastFloat
  have ok := alf_ok hf
  have hs := alf_small hf
  have hu := alf_uu hf
  have he := alf_eta hf
  have v0 := v.norm_nonneg
  have nn : v.norm ^ 2 = v.x ^ 2 + v.y ^ 2 + v.z ^ 2 := by rw [V3.norm_sq]; unfold V3.normSq V3.dot; ring
  have hi : v.norm ^ 2 ≤ 2 ^ (f.emax - 2) := by
    calc v.norm ^ 2 ≤ (2 ^ 50) ^ 2 := pow_le_pow_left₀ v0 hv 2
      _ = (2 : ℝ) ^ (100 : ℤ) := by norm_num
      _ ≤ _ := zpow_le_zpow_right₀ (by norm_num) (by have := hf.emax; have := hf.p; omega)
  by_cases hr : 2 ^ (f.emin + 2 * f.p + 2) ≤ v.norm ^ 2
  · obtain ⟨⟨n, e1, e2⟩, -⟩ := C105_accuracy ok (v := v) ⟨nn ▸ hr, nn ▸ hi⟩
    refine ⟨n, e1, ?_, e2.trans (by change 4 * f.uu * _ ≤ _; linarith [sq_nonneg f.uu])⟩
    obtain ⟨a, b⟩ := abs_le.mp e2
    change -(4 * f.uu * v.norm) ≤ _ at a
    have := mul_le_mul_of_nonneg_right hs.1 v0
    linarith
  · push Not at hr
    obtain ⟨t1, t2⟩ := std_tiny h
    have u2 : 0 ≤ f.uu ^ 2 := sq_nonneg _
    have vt : v.norm ≤ f.uu ^ 2 / 2 := abs_le_of_sq_le_sq' (hr.le.trans (t1.trans (by linarith [sq_nonneg (f.uu ^ 2 / 2)]))) (by linarith) |>.2
    have hrn := rn ok
    obtain ⟨S, hS⟩ : ∃ S, S = v.norm ^ 2 := ⟨_, rfl⟩
    have S0 : 0 ≤ S := by rw [hS]; positivity
    have S1 : S ≤ (f.uu ^ 2) ^ 2 / 8 := by rw [hS]; linarith [hr.le.trans t1]
    rw [← hS] at nn
    have u4 : (f.uu ^ 2) ^ 2 ≤ 1 := by rw [← pow_mul]; exact pow_le_one₀ hu.1.le (by linarith)
    have sum := hrn.sum3 (p := v.y * v.y) (q := v.z * v.z) (r := v.x * v.x) (S := S) (by
      rw [abs_mul_self, abs_mul_self, abs_mul_self, nn]; nlinarith)
    obtain ⟨h1, h2, h3, h4, h5, h6⟩ := sum
    have F : ∀ {x : ℝ}, |x| ≤ 2 * S + 8 * f.eta → f.arith.rnd x = .fin (f.round x) := fun hx => small_fin hf (hx.trans (by linarith))
    obtain ⟨R, hR⟩ : ∃ R, R = f.round (f.round (f.round (v.y * v.y) + f.round (v.z * v.z)) + f.round (v.x * v.x)) := ⟨_, rfl⟩
    have eN : f.arith.normSq3 (emb3 v) = .fin R := by
      change f.arith.add (f.arith.rnd _) (f.arith.add (f.arith.rnd _) (f.arith.rnd _)) = _
      rw [F h2, F h3, F h4]
      change f.arith.add _ (f.arith.rnd _) = _
      rw [F h5]
      change f.arith.rnd (_ + _) = _
      rw [add_comm, F h6, hR]
    rw [← hR] at h1
    have R0 : 0 ≤ R := by
      rw [hR]
      exact round_nonneg (add_nonneg (round_nonneg (add_nonneg (round_nonneg (mul_self_nonneg _)) (round_nonneg (mul_self_nonneg _)))) (round_nonneg (mul_self_nonneg _)))
    have R1 : R ≤ (f.uu ^ 2) ^ 2 / 4 := by
      have := (abs_le.mp h1).2
      rw [show v.y * v.y + v.z * v.z + v.x * v.x = S by rw [nn]; ring] at this
      have h7 : f.uu * S ≤ 1 / 10 ^ 6 * S := mul_le_mul_of_nonneg_right hs.1 S0
      have h8 : f.uu ^ 4 = (f.uu ^ 2) ^ 2 := by ring
      rw [h8] at t2
      have : (0 : ℝ) ≤ (f.uu ^ 2) ^ 2 := by positivity
      norm_num at t2
      linarith
    have q0 := Real.sqrt_nonneg R
    have q1 : Real.sqrt R ≤ f.uu ^ 2 / 2 := Real.sqrt_le_iff.mpr ⟨by linarith, by linarith [show (f.uu ^ 2 / 2) ^ 2 = (f.uu ^ 2) ^ 2 / 4 by ring]⟩
    have q2 := hrn.err (Real.sqrt R)
    have u2s : f.uu ^ 2 ≤ 1 := pow_le_one₀ hu.1.le (by linarith)
    have n1 : f.arith.norm3 (emb3 v) = .fin (f.round (Real.sqrt R)) := by
      unfold XArith.norm3
      rw [eN]
      change (if R < 0 then _ else _) = _
      rw [if_neg (not_lt.mpr R0), small_fin hf (by rw [abs_of_nonneg q0]; linarith)]
    refine ⟨_, n1, round_nonneg q0, ?_⟩
    rw [abs_of_nonneg q0] at q2
    have r0 := round_nonneg (f := f) q0
    have q3 : f.uu * Real.sqrt R ≤ 1 / 10 ^ 6 * (f.uu ^ 2 / 2) := mul_le_mul hs.1 q1 q0 (by norm_num)
    have h8 : f.uu ^ 4 = f.uu ^ 2 * f.uu ^ 2 := by ring
    have h9 : f.uu ^ 2 * f.uu ^ 2 ≤ f.uu ^ 2 * 1 := mul_le_mul_of_nonneg_left u2s u2
    rw [h8] at t2
    have q4 := (abs_le.mp q2).2
    have : 0 ≤ 4 * f.uu * v.norm := by have := hu.1; positivity
    norm_num at t2
    rw [abs_le]; constructor <;> linarith

end Format
end Kindr
