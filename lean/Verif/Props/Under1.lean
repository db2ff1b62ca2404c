import Verif.Props.Align4
import Verif.Props.FloatFix

/-!
# Rounding with gradual underflow

Every operation errs by at most `u |x| + η`, where `η` is half the smallest positive number.
-/

set_option autoImplicit false

open Classical

noncomputable section
namespace Kindr
open Spec

/-- Rounding with relative error `u` and absolute error `η`. -/
structure Rn (R : ℝ → ℝ) (u η : ℝ) : Prop where
  u0 : 0 ≤ u
  u1 : u ≤ 1 / 256
  e0 : 0 ≤ η
  err : ∀ x, |R x - x| ≤ u * |x| + η

namespace Rn
variable {R : ℝ → ℝ} {u η : ℝ}

/-- One more rounding. -/
lemma step (h : Rn R u η) {x x₀ e B : ℝ} (hx : |x - x₀| ≤ e) (hB : |x₀| ≤ B) : |R x - x₀| ≤ e + u * (B + e) + η := by
  have h1 := h.err x
  have h2 : |x| ≤ B + e := by
    have := abs_add_le (x - x₀) x₀
    rw [sub_add_cancel] at this; linarith
  have h3 := abs_sub_le (R x) x x₀
  have h4 := mul_le_mul_of_nonneg_left h2 h.u0
  linarith

lemma le_of (_h : Rn R u η) {x x₀ e B : ℝ} (hx : |x - x₀| ≤ e) (hB : |x₀| ≤ B) : |x| ≤ B + e := by
  have := abs_add_le (x - x₀) x₀
  rw [sub_add_cancel] at this; linarith

/-- The sum of two rounded numbers. -/
lemma sum2 (h : Rn R u η) {p q : ℝ} : |R p + R q - (p + q)| ≤ u * (|p| + |q|) + 2 * η := by
  have h1 := h.err p
  have h2 := h.err q
  have := abs_add_le (R p - p) (R q - q)
  rw [show R p - p + (R q - q) = R p + R q - (p + q) by ring] at this
  linarith

/-- Four products added one after the other. -/
lemma sum4 (h : Rn R u η) {p q r s S : ℝ} (hS : |p| + |q| + |r| + |s| ≤ S) :
    |R (R (R (R p + R q) + R r) + R s) - (p + q + r + s)| ≤ 5 * u * S + 8 * η ∧
    |p| ≤ 2 * S + 8 * η ∧ |q| ≤ 2 * S + 8 * η ∧ |r| ≤ 2 * S + 8 * η ∧ |s| ≤ 2 * S + 8 * η ∧
    |R p + R q| ≤ 2 * S + 8 * η ∧ |R (R p + R q) + R r| ≤ 2 * S + 8 * η ∧ |R (R (R p + R q) + R r) + R s| ≤ 2 * S + 8 * η := by
  have u0 := h.u0; have u1 := h.u1; have e0 := h.e0
  have a1 := abs_nonneg p; have a2 := abs_nonneg q; have a3 := abs_nonneg r; have a4 := abs_nonneg s
  have S0 : 0 ≤ S := by linarith
  have uS : u * S ≤ 1 / 256 * S := mul_le_mul_of_nonneg_right u1 S0
  have uu : u * (u * S) ≤ 1 / 256 * (u * S) := mul_le_mul_of_nonneg_right u1 (by positivity)
  have uη : u * η ≤ 1 / 256 * η := mul_le_mul_of_nonneg_right u1 e0
  have uη0 : 0 ≤ u * η := by positivity
  have uS0 : 0 ≤ u * S := by positivity
  have up : 0 ≤ u * |p| := by positivity
  have uq : 0 ≤ u * |q| := by positivity
  have ur : 0 ≤ u * |r| := by positivity
  have us : 0 ≤ u * |s| := by positivity
  have uSum : u * |p| + u * |q| + u * |r| + u * |s| ≤ u * S := by
    have := mul_le_mul_of_nonneg_left hS u0; linarith
  have b1 : |R p + R q - (p + q)| ≤ u * |p| + u * |q| + 2 * η := h.sum2.trans (by linarith)
  have c1 : |p + q| ≤ S := (abs_add_le p q).trans (by linarith)
  have d1 := h.step b1 c1
  have f1 : |R (R p + R q) - (p + q)| ≤ u * |p| + u * |q| + 101 / 100 * (u * S) + 301 / 100 * η := by
    refine d1.trans ?_
    have h1 : u * (S + (u * |p| + u * |q| + 2 * η)) ≤ u * (S + (u * S + 2 * η)) := mul_le_mul_of_nonneg_left (by linarith) u0
    have : u * (S + (u * S + 2 * η)) = u * S + u * (u * S) + 2 * (u * η) := by ring
    rw [this] at h1; linarith
  have b2 : |R (R p + R q) + R r - (p + q + r)| ≤ u * |p| + u * |q| + u * |r| + 101 / 100 * (u * S) + 401 / 100 * η := by
    have := abs_add_le (R (R p + R q) - (p + q)) (R r - r)
    rw [show R (R p + R q) - (p + q) + (R r - r) = R (R p + R q) + R r - (p + q + r) by ring] at this
    have h3 := h.err r
    linarith
  have c2 : |p + q + r| ≤ S := (abs_add_three p q r).trans (by linarith)
  have d2 := h.step b2 c2
  have f2 : |R (R (R p + R q) + R r) - (p + q + r)| ≤ u * |p| + u * |q| + u * |r| + 203 / 100 * (u * S) + 504 / 100 * η := by
    refine d2.trans ?_
    have h1 : u * (S + (u * |p| + u * |q| + u * |r| + 101 / 100 * (u * S) + 401 / 100 * η)) ≤ u * (S + (201 / 100 * (u * S) + 401 / 100 * η)) :=
      mul_le_mul_of_nonneg_left (by linarith) u0
    have : u * (S + (201 / 100 * (u * S) + 401 / 100 * η)) = u * S + 201 / 100 * (u * (u * S)) + 401 / 100 * (u * η) := by ring
    rw [this] at h1; linarith
  have b3 : |R (R (R p + R q) + R r) + R s - (p + q + r + s)| ≤ 303 / 100 * (u * S) + 604 / 100 * η := by
    have := abs_add_le (R (R (R p + R q) + R r) - (p + q + r)) (R s - s)
    rw [show R (R (R p + R q) + R r) - (p + q + r) + (R s - s) = R (R (R p + R q) + R r) + R s - (p + q + r + s) by ring] at this
    have h3 := h.err s
    linarith
  have c3 : |p + q + r + s| ≤ S := (abs_add_le _ s).trans (by have := abs_add_three p q r; linarith)
  have d3 := h.step b3 c3
  have f3 : |R (R (R (R p + R q) + R r) + R s) - (p + q + r + s)| ≤ 5 * u * S + 8 * η := by
    refine d3.trans ?_
    have : u * (S + (303 / 100 * (u * S) + 604 / 100 * η)) = u * S + 303 / 100 * (u * (u * S)) + 604 / 100 * (u * η) := by ring
    rw [this]; linarith
  have g1 := h.le_of b1 c1
  have g2 := h.le_of b2 c2
  have g3 := h.le_of b3 c3
  refine ⟨f3, ?_, ?_, ?_, ?_, ?_, ?_, ?_⟩ <;> linarith

/-- Three products added one after the other. -/
lemma sum3 (h : Rn R u η) {p q r S : ℝ} (hS : |p| + |q| + |r| ≤ S) :
    |R (R (R p + R q) + R r) - (p + q + r)| ≤ 4 * u * S + 6 * η ∧
    |p| ≤ 2 * S + 8 * η ∧ |q| ≤ 2 * S + 8 * η ∧ |r| ≤ 2 * S + 8 * η ∧ |R p + R q| ≤ 2 * S + 8 * η ∧ |R (R p + R q) + R r| ≤ 2 * S + 8 * η := by
  have u0 := h.u0; have u1 := h.u1; have e0 := h.e0
  have a1 := abs_nonneg p; have a2 := abs_nonneg q; have a3 := abs_nonneg r
  have S0 : 0 ≤ S := by linarith
  have uS : u * S ≤ 1 / 256 * S := mul_le_mul_of_nonneg_right u1 S0
  have uu : u * (u * S) ≤ 1 / 256 * (u * S) := mul_le_mul_of_nonneg_right u1 (by positivity)
  have uη : u * η ≤ 1 / 256 * η := mul_le_mul_of_nonneg_right u1 e0
  have uη0 : 0 ≤ u * η := by positivity
  have uS0 : 0 ≤ u * S := by positivity
  have up : 0 ≤ u * |p| := by positivity
  have uq : 0 ≤ u * |q| := by positivity
  have ur : 0 ≤ u * |r| := by positivity
  have uSum : u * |p| + u * |q| + u * |r| ≤ u * S := by
    have := mul_le_mul_of_nonneg_left hS u0; linarith
  have b1 : |R p + R q - (p + q)| ≤ u * |p| + u * |q| + 2 * η := h.sum2.trans (by linarith)
  have c1 : |p + q| ≤ S := (abs_add_le p q).trans (by linarith)
  have d1 := h.step b1 c1
  have f1 : |R (R p + R q) - (p + q)| ≤ u * |p| + u * |q| + 101 / 100 * (u * S) + 301 / 100 * η := by
    refine d1.trans ?_
    have h1 : u * (S + (u * |p| + u * |q| + 2 * η)) ≤ u * (S + (u * S + 2 * η)) := mul_le_mul_of_nonneg_left (by linarith) u0
    have : u * (S + (u * S + 2 * η)) = u * S + u * (u * S) + 2 * (u * η) := by ring
    rw [this] at h1; linarith
  have b2 : |R (R p + R q) + R r - (p + q + r)| ≤ 201 / 100 * (u * S) + 401 / 100 * η := by
    have := abs_add_le (R (R p + R q) - (p + q)) (R r - r)
    rw [show R (R p + R q) - (p + q) + (R r - r) = R (R p + R q) + R r - (p + q + r) by ring] at this
    have h3 := h.err r
    linarith
  have c2 : |p + q + r| ≤ S := (abs_add_three p q r).trans (by linarith)
  have d2 := h.step b2 c2
  have f2 : |R (R (R p + R q) + R r) - (p + q + r)| ≤ 4 * u * S + 6 * η := by
    refine d2.trans ?_
    have : u * (S + (201 / 100 * (u * S) + 401 / 100 * η)) = u * S + 201 / 100 * (u * (u * S)) + 401 / 100 * (u * η) := by ring
    rw [this]; linarith
  have g1 := h.le_of b1 c1
  have g2 := h.le_of b2 c2
  refine ⟨f2, ?_, ?_, ?_, ?_, ?_⟩ <;> linarith

end Rn

namespace Format
variable {f : Format}

lemma rn (hf : f.Ok) : Rn f.round f.uu f.eta where
  u0 := by unfold uu; positivity
  u1 := by
    unfold uu
    calc (2⁻¹ : ℝ) ^ f.p ≤ 2⁻¹ ^ 8 := pow_le_pow_of_le_one (by norm_num) (by norm_num) hf.p
      _ = 1 / 256 := by norm_num
  e0 := by unfold eta; positivity
  err := round_err hf

lemma eta_le_sq (hf : f.Ok) : f.eta ≤ f.uu ^ 2 / 32 := by
  unfold eta uu
  have := hf.emin
  rw [← pow_mul, inv_pow, ← zpow_natCast, ← zpow_neg, show (32 : ℝ) = 2 ^ (5 : ℤ) by norm_num, ← zpow_sub₀ (by norm_num)]
  refine zpow_le_zpow_right₀ (by norm_num) ?_
  push_cast; linarith

lemma fin_of (hf : f.Ok) {x : ℝ} (h : |x| ≤ 2 ^ (f.emax - 1)) : f.arith.rnd x = .fin (f.round x) :=
  rnd_fin hf (by have := hf.p; have := hf.emin; have := hf.emax; omega) (by omega) h

/-- The quaternion product in the format. -/
def roundMul (f : Format) (a b : Quat) : Quat :=
  let s (p q r s : ℝ) := f.round (f.round (f.round (f.round p + f.round q) + f.round r) + f.round s)
  ⟨s (a.w * b.w) (-(a.x * b.x)) (-(a.y * b.y)) (-(a.z * b.z)), s (a.w * b.x) (a.x * b.w) (a.y * b.z) (-(a.z * b.y)),
   s (a.w * b.y) (a.y * b.w) (a.z * b.x) (-(a.x * b.z)), s (a.w * b.z) (a.z * b.w) (a.x * b.y) (-(a.y * b.x))⟩

lemma sub_chain (hf : f.Ok) {p q r s S : ℝ} (hS : |p| + |q| + |r| + |s| ≤ S) (h : 2 * S + 8 * f.eta ≤ 2 ^ (f.emax - 1)) :
    (f.arith.sub (f.arith.sub (f.arith.sub (f.arith.rnd p) (f.arith.rnd q)) (f.arith.rnd r)) (f.arith.rnd s) =
      .fin (f.round (f.round (f.round (f.round p + f.round (-q)) + f.round (-r)) + f.round (-s)))) ∧
    (f.arith.sub (f.arith.add (f.arith.add (f.arith.rnd p) (f.arith.rnd q)) (f.arith.rnd r)) (f.arith.rnd s) =
      .fin (f.round (f.round (f.round (f.round p + f.round q) + f.round r) + f.round (-s)))) ∧
    (f.arith.add (f.arith.add (f.arith.add (f.arith.rnd p) (f.arith.rnd q)) (f.arith.rnd r)) (f.arith.rnd s) =
      .fin (f.round (f.round (f.round (f.round p + f.round q) + f.round r) + f.round s))) := by
  have hr := rn hf
  obtain ⟨-, k1, k2, k3, k4, -, -, -⟩ := hr.sum4 hS
  obtain ⟨-, -, -, -, -, l1, l2, l3⟩ := hr.sum4 (p := p) (q := -q) (r := -r) (s := -s) (S := S) (by simpa only [abs_neg] using hS)
  obtain ⟨-, -, -, -, -, m1, m2, m3⟩ := hr.sum4 (p := p) (q := q) (r := r) (s := -s) (S := S) (by simpa only [abs_neg] using hS)
  obtain ⟨-, -, -, -, -, n1, n2, n3⟩ := hr.sum4 (p := p) (q := q) (r := r) (s := s) (S := S) hS
  have F : ∀ {x : ℝ}, |x| ≤ 2 * S + 8 * f.eta → f.arith.rnd x = .fin (f.round x) := fun hx => fin_of hf (hx.trans h)
  rw [F k1, F k2, F k3, F k4]
  rw [round_neg, round_neg, round_neg] at l3
  rw [round_neg, round_neg] at l2
  rw [round_neg] at l1 m3
  simp only [round_neg]
  refine ⟨?_, ?_, ?_⟩
  · change f.arith.sub (f.arith.sub (f.arith.rnd (f.round p + -f.round q)) _) _ = _
    rw [F l1]
    change f.arith.sub (f.arith.rnd (_ + -f.round r)) _ = _
    rw [F l2]
    change f.arith.rnd (_ + -f.round s) = _
    rw [F l3]
  · change f.arith.sub (f.arith.add (f.arith.rnd (f.round p + f.round q)) _) _ = _
    rw [F m1]
    change f.arith.sub (f.arith.rnd (_ + f.round r)) _ = _
    rw [F m2]
    change f.arith.rnd (_ + -f.round s) = _
    rw [F m3]
  · change f.arith.add (f.arith.add (f.arith.rnd (f.round p + f.round q)) _) _ = _
    rw [F n1]
    change f.arith.add (f.arith.rnd (_ + f.round r)) _ = _
    rw [F n2]
    change f.arith.rnd (_ + f.round s) = _
    rw [F n3]

/-- **Product.** -/
lemma quatMul_range (hf : f.Ok) (a b : Quat) (h : 2 * (a.norm * b.norm) + 8 * f.eta ≤ 2 ^ (f.emax - 1)) :
    f.arith.quatMul (embQ a) (embQ b) = embQ (f.roundMul a b) ∧
    ‖toH (f.roundMul a b) - toH a * toH b‖ ≤ 10 * f.uu * (a.norm * b.norm) + 16 * f.eta := by
  obtain ⟨N, hN⟩ : ∃ N, N = a.norm * b.norm := ⟨_, rfl⟩
  rw [← hN] at h ⊢
  have hN0 : 0 ≤ N := by rw [hN]; exact mul_nonneg (Real.sqrt_nonneg _) (Real.sqrt_nonneg _)
  have b0 : (|a.w * b.w| + |a.x * b.x| + |a.y * b.y| + |a.z * b.z|) ≤ N := by
    simp only [abs_mul]; rw [hN]; exact cs4 _ _ _ _ _ _ _ _
  have b1 : (|a.w * b.x| + |a.x * b.w| + |a.y * b.z| + |a.z * b.y|) ≤ N := by
    simp only [abs_mul]
    refine (cs4 a.w a.x a.y a.z b.x b.w b.z b.y).trans (le_of_eq ?_)
    rw [hN, Quat.norm, Quat.norm, Quat.normSq, Quat.normSq]; congr 2; ring
  have b2 : (|a.w * b.y| + |a.y * b.w| + |a.z * b.x| + |a.x * b.z|) ≤ N := by
    simp only [abs_mul]
    refine (cs4 a.w a.y a.z a.x b.y b.w b.x b.z).trans (le_of_eq ?_)
    rw [hN, Quat.norm, Quat.norm, Quat.normSq, Quat.normSq]; congr 2 <;> ring
  have b3 : (|a.w * b.z| + |a.z * b.w| + |a.x * b.y| + |a.y * b.x|) ≤ N := by
    simp only [abs_mul]
    refine (cs4 a.w a.z a.x a.y b.z b.w b.y b.x).trans (le_of_eq ?_)
    rw [hN, Quat.norm, Quat.norm, Quat.normSq, Quat.normSq]; congr 2 <;> ring
  have hr := rn hf
  constructor
  · unfold XArith.quatMul
    ext
    · exact (sub_chain hf b0 h).1
    · exact (sub_chain hf b1 h).2.1
    · exact (sub_chain hf b2 h).2.1
    · exact (sub_chain hf b3 h).2.1
  · have e0 := (hr.sum4 (p := a.w * b.w) (q := -(a.x * b.x)) (r := -(a.y * b.y)) (s := -(a.z * b.z)) (S := N) (by simpa only [abs_neg] using b0)).1
    have e1 := (hr.sum4 (p := a.w * b.x) (q := a.x * b.w) (r := a.y * b.z) (s := -(a.z * b.y)) (S := N) (by simpa only [abs_neg] using b1)).1
    have e2 := (hr.sum4 (p := a.w * b.y) (q := a.y * b.w) (r := a.z * b.x) (s := -(a.x * b.z)) (S := N) (by simpa only [abs_neg] using b2)).1
    have e3 := (hr.sum4 (p := a.w * b.z) (q := a.z * b.w) (r := a.x * b.y) (s := -(a.y * b.x)) (S := N) (by simpa only [abs_neg] using b3)).1
    have c0 : 0 ≤ 5 * f.uu * N + 8 * f.eta := le_trans (abs_nonneg _) e0
    have key := norm_le_of_components (q := toH (f.roundMul a b) - toH a * toH b) c0 (by
        refine le_trans (le_of_eq ?_) e0
        rw [Quaternion.re_sub, Quaternion.re_mul]
        simp only [toH, roundMul, sub_eq_add_neg]) (by
        refine le_trans (le_of_eq ?_) e1
        rw [Quaternion.imI_sub, Quaternion.imI_mul]
        simp only [toH, roundMul, sub_eq_add_neg]) (by
        refine le_trans (le_of_eq ?_) e2
        rw [Quaternion.imJ_sub, Quaternion.imJ_mul]
        simp only [toH, roundMul, sub_eq_add_neg]
        congr 1; ring) (by
        refine le_trans (le_of_eq ?_) e3
        rw [Quaternion.imK_sub, Quaternion.imK_mul]
        simp only [toH, roundMul, sub_eq_add_neg]
        congr 1; ring)
    linarith

end Format
end Kindr
