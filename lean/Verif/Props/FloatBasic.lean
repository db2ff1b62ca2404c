import Verif.Model.FloatConv
import Verif.Props.Cast
import Verif.Props.Accepted

/-!
# Error bounds for rounded operations
-/

set_option autoImplicit false

open Classical

noncomputable section
namespace Kindr
open Spec

lemma FloatArith.fl_abs (F : FloatArith) {A a e : ℝ} (h : |A - a| ≤ e) : |F.fl A - a| ≤ e + F.u * (|a| + e) := by
  have h1 := F.err A
  have h2 : |A| ≤ |a| + e := by
    have : A = a + (A - a) := by ring
    rw [this]; exact (abs_add_le _ _).trans (by linarith)
  have h3 := mul_le_mul_of_nonneg_left h2 F.u_nonneg
  have e1 : F.fl A - a = (F.fl A - A) + (A - a) := by ring
  rw [e1]; exact (abs_add_le _ _).trans (by linarith)

/-- Absolute form, with a bound `M` for the exact value. -/
lemma FloatArith.fl_le (F : FloatArith) {A a k M k' : ℝ} (h : |A - a| ≤ k * F.u) (hM : |a| ≤ M) (hk : k ≤ 10000)
    (hk' : k + M + 1 / 1000 ≤ k') : |F.fl A - a| ≤ k' * F.u := by
  have hu := F.u_nonneg
  have hs := cast_u_small F
  refine (F.fl_abs h).trans ?_
  have h2 : |a| + k * F.u ≤ M + 1 / 1000 := by
    have := mul_le_mul hk hs hu (by norm_num)
    linarith
  have h3 := mul_le_mul_of_nonneg_left h2 hu
  have h4 := mul_le_mul_of_nonneg_right hk' hu
  nlinarith

lemma FloatArith.fl_exact (F : FloatArith) {a M : ℝ} (hM : |a| ≤ M) : |F.fl a - a| ≤ M * F.u := by
  have := mul_le_mul_of_nonneg_left hM F.u_nonneg
  have := F.err a
  linarith

lemma abs_mul_sub_le {A a B b e f M N : ℝ} (hA : |A - a| ≤ e) (hB : |B - b| ≤ f) (ha : |a| ≤ M) (hb : |B| ≤ N) :
    |A * B - a * b| ≤ e * N + M * f := by
  have e1 : A * B - a * b = (A - a) * B + a * (B - b) := by ring
  have he : 0 ≤ e := (abs_nonneg _).trans hA
  have hM : 0 ≤ M := (abs_nonneg _).trans ha
  rw [e1]
  refine (abs_add_le _ _).trans (add_le_add ?_ ?_)
  · rw [abs_mul]; exact mul_le_mul hA hb (abs_nonneg _) he
  · rw [abs_mul]; exact mul_le_mul ha hB (abs_nonneg _) hM

namespace Err
variable {F : FloatArith} {k : ℕ} {A a : ℝ}
/-- The square root of a nonnegative quantity with a small relative error. -/
lemma sqrt (h : Err F.u k A a a) (hk : (1 + F.u) ^ k ≤ 2) : Err F.u k (Real.sqrt A) (Real.sqrt a) (Real.sqrt a) := by
  have ha : 0 ≤ a := h.nonneg
  obtain ⟨h1, h2⟩ := h
  have h0 : 0 ≤ (1 + F.u) ^ k - 1 := by have := one_le F.u_nonneg k; linarith
  refine ⟨(abs_of_nonneg (Real.sqrt_nonneg _)).le, ?_⟩
  set e := (1 + F.u) ^ k - 1 with he
  have hA : 0 ≤ A := by
    have := (_root_.abs_le.mp h2).1
    nlinarith
  have sa := Real.sqrt_nonneg a
  have sA := Real.sqrt_nonneg A
  have qa := Real.mul_self_sqrt ha
  have qA := Real.mul_self_sqrt hA
  rcases sa.eq_or_lt with h3 | h3
  · rw [← h3] at qa ⊢
    have : a = 0 := by rw [← qa]; ring
    subst this
    rw [mul_zero, sub_zero] at h2
    have : A = 0 := abs_eq_zero.mp (le_antisymm h2 (abs_nonneg _))
    rw [this]; simp
  · have e1 : (Real.sqrt A - Real.sqrt a) * (Real.sqrt A + Real.sqrt a) = A - a := by
      rw [← qa, ← qA]
      simp only [Real.sqrt_mul_self_eq_abs, abs_of_nonneg sa, abs_of_nonneg sA]; ring
    have h4 : |Real.sqrt A - Real.sqrt a| * Real.sqrt a ≤ e * Real.sqrt a * Real.sqrt a := by
      calc |Real.sqrt A - Real.sqrt a| * Real.sqrt a ≤ |Real.sqrt A - Real.sqrt a| * (Real.sqrt A + Real.sqrt a) :=
            mul_le_mul_of_nonneg_left (by linarith) (abs_nonneg _)
        _ = |A - a| := by rw [← e1, abs_mul, abs_of_nonneg (by linarith : 0 ≤ Real.sqrt A + Real.sqrt a)]
        _ ≤ e * a := h2
        _ = _ := by rw [mul_assoc, qa]
    exact le_of_mul_le_mul_right h4 h3
end Err

lemma pow4_le (F : FloatArith) : (1 + F.u) ^ 4 - 1 ≤ 4.01 * F.u ∧ (1 + F.u) ^ 3 - 1 ≤ 3.01 * F.u ∧ (1 + F.u) ^ 3 ≤ 2 := by
  have hu := F.u_nonneg
  have h : F.u ≤ 1 / 10000000 := cast_u_small F
  have h2 : F.u * F.u ≤ F.u / 10000000 := by nlinarith
  have h3 : F.u * F.u * F.u ≤ F.u / 10000000 := by nlinarith
  have h4 : F.u * F.u * F.u * F.u ≤ F.u / 10000000 := by nlinarith
  refine ⟨?_, ?_, ?_⟩ <;> ring_nf at * <;> linarith

namespace FloatLib
variable (F : FloatLib)

lemma u_small : F.u ≤ 1 / 10000000 := cast_u_small F.toFloatArith

/-- The rounded norm has a small relative error. -/
lemma norm3_err (v : V3) : |F.norm3 v - v.norm| ≤ 4.01 * F.u * v.norm := by
  have p : ∀ x : ℝ, Err F.u 1 (F.fl (x * x)) (x * x) (x * x) := fun x => by
    have := Err.prod F.toFloatArith x x
    rwa [abs_mul_abs_self] at this
  have hu := F.u_nonneg
  have h1 := ((p v.y).add (p v.z)).rnd
  have h2 := (((p v.x).mono hu (by norm_num : 1 ≤ 2)).add h1).rnd
  have e : v.x * v.x + (v.y * v.y + v.z * v.z) = v.normSq := by simp only [V3.normSq, V3.dot]; ring
  rw [e] at h2
  have h3 := (h2.sqrt (pow4_le F.toFloatArith).2.2).rnd.2
  refine h3.trans (mul_le_mul_of_nonneg_right (pow4_le F.toFloatArith).1 (Real.sqrt_nonneg _))

lemma norm3_eq_zero (v : V3) : F.norm3 v = 0 ↔ v = 0 := by
  have h := F.norm3_err v
  have hu := F.u_small
  constructor
  · intro h0
    rw [h0, zero_sub, abs_neg, abs_of_nonneg v.norm_nonneg] at h
    have := v.norm_nonneg
    exact V3.norm_eq_zero.mp (by nlinarith)
  · rintro rfl
    rw [V3.norm_zero] at h
    simpa using h

lemma norm3_nonneg (v : V3) : 0 ≤ F.norm3 v := by
  have h := (abs_le.mp (F.norm3_err v)).1
  have hu := F.u_small
  have := v.norm_nonneg
  nlinarith

end FloatLib
end Kindr
