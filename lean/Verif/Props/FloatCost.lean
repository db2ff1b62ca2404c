import Verif.Props.FloatProgram
import Mathlib.Analysis.SpecialFunctions.Exp
import Mathlib.Algebra.Order.Ring.Pow

/-!
# C91: programs in floating point, for `double`, by counting operations
-/

set_option autoImplicit false

open Classical

noncomputable section
namespace Kindr
open Spec

/-- The constants of `double`: `U` is the unit roundoff. -/
structure Dbl (P : Prec) (u U : ℝ) : Prop where
  u0 : 0 ≤ u
  uU : u ≤ U
  U0 : 0 < U
  U1 : U ≤ 12 / 10 ^ 17
  dp1 : P.dp ≤ 9008 * U
  dp2 : 9007 * U ≤ P.dp
  eps : P.eps ≤ 2 * U

lemma pow_bound {U : ℝ} (h0 : 0 ≤ U) {m : ℕ} (h : U * m ≤ 1 / 300) : (1 + U) ^ m ≤ 1 + 201 / 200 * (U * m) := by
  have h1 : (1 + U) ^ m ≤ Real.exp (U * m) := by
    have := pow_le_pow_left₀ (by linarith) (Real.add_one_le_exp U) m
    rw [← Real.exp_nat_mul] at this
    rw [add_comm, mul_comm U]; exact this
  have hy : 0 ≤ U * m := by positivity
  generalize U * m = y at *
  have h2 := Real.add_one_le_exp (-y)
  have h3 : Real.exp y * Real.exp (-y) = 1 := by rw [← Real.exp_add]; simp
  have h4 : Real.exp y * (1 - y) ≤ 1 := by
    rw [← h3]; exact mul_le_mul_of_nonneg_left (by linarith) (Real.exp_pos _).le
  have h5 : 1 ≤ (1 + 201 / 200 * y) * (1 - y) := by nlinarith
  have h6 : Real.exp y ≤ 1 + 201 / 200 * y := by
    by_contra hc
    push Not at hc
    have := mul_lt_mul_of_pos_right hc (by linarith : 0 < 1 - y)
    linarith
  linarith

lemma lin_le_pow {U : ℝ} (h0 : 0 ≤ U) (n : ℕ) : 1 + n * U ≤ (1 + U) ^ n := one_add_mul_le_pow (by linarith) n

/-- The invariant of the cost analysis. -/
def CInv (U : ℝ) (b : Bound) (k : Kind) (c : ℕ) : Prop :=
  0 ≤ b.off ∧ 0 ≤ b.err ∧ 0 ≤ b.size ∧
  match k with
  | .quat => b.size ≤ 0 ∧ ∃ m : ℕ, m ≤ 105 * c ∧ 1 + b.off ≤ (1 + U) ^ m ∧ b.err + 102 * (U * m) ≤ 32000 * (U * c)
  | .mat => b.size ≤ 0 ∧ ∃ m : ℕ, m ≤ 20 * c ∧ 1 + b.off ≤ (1 + U) ^ m ∧ b.err + 510 * (U * m) ≤ 32000 * (U * c)
  | _ => b.off ≤ 6 * U ∧ b.err ≤ 32000 * (U * c) ∧ b.size ≤ 13 * (1 + 22 * U) ^ c

section
variable {P : Prec} {u U : ℝ} (D : Dbl P u U)
include D

lemma Dbl.cost_small {m c : ℕ} (hm : m ≤ 250 * c + 1000) (hc : c ≤ 5 * 10 ^ 7) : U * m ≤ 2 / 10 ^ 6 := by
  have h1 : (m : ℝ) ≤ 250 * c + 1000 := by exact_mod_cast hm
  have h2 : (c : ℝ) ≤ 5 * 10 ^ 7 := by exact_mod_cast hc
  have h3 : (m : ℝ) ≤ 125 * 10 ^ 8 + 1000 := by linarith
  have := mul_le_mul D.U1 h3 (by positivity) (by norm_num)
  norm_num at this ⊢; linarith

lemma Dbl.size_small {b : Bound} {c : ℕ} (hc : c ≤ 5 * 10 ^ 7) (h : b.size ≤ 13 * (1 + 22 * U) ^ c) : b.size ≤ 14 := by
  have h2 : (c : ℝ) ≤ 5 * 10 ^ 7 := by exact_mod_cast hc
  have h1 : 22 * U * c ≤ 1 / 300 := by
    have := mul_le_mul D.U1 h2 (by positivity) (by norm_num)
    norm_num at this ⊢; linarith
  have := pow_bound (by linarith [D.U0] : 0 ≤ 22 * U) h1
  linarith

/-- What the invariant says of the conversion to a quaternion. -/
lemma CInv.quat {b : Bound} {k : Kind} {c : ℕ} (h : CInv U b k c) (hc : c ≤ 5 * 10 ^ 7) :
    ∃ m : ℕ, m ≤ 105 * c + 96 ∧ (k ≠ .quat → k ≠ .mat → m = 96) ∧ (k = .quat → m ≤ 105 * c ∧ b.err + 102 * (U * m) ≤ 32000 * (U * c)) ∧ 0 ≤ quatErr P u b.off b.size k ∧ 1 + quatErr P u b.off b.size k ≤ (1 + U) ^ m ∧
      quatErr P u b.off b.size k ≤ 201 / 200 * (U * m) ∧
      b.err + 102 * (U * m) ≤ 32000 * (U * c) + 9800 * U ∧ b.off * b.size ≤ 84 * U := by
  obtain ⟨h1, h2, h3, h4⟩ := h
  have hU := D.U0
  have hu := D.u0
  have huU := D.uU
  have he := D.eps
  have hep := P.eps_pos
  have hsu := mul_nonneg h3 hu
  suffices hs : ∃ m : ℕ, m ≤ 105 * c + 96 ∧ (k ≠ .quat → k ≠ .mat → m = 96) ∧ (k = .quat → m ≤ 105 * c ∧ b.err + 102 * (U * m) ≤ 32000 * (U * c)) ∧ 0 ≤ quatErr P u b.off b.size k ∧ 1 + quatErr P u b.off b.size k ≤ (1 + U) ^ m ∧
      b.err + 102 * (U * m) ≤ 32000 * (U * c) + 9800 * U ∧ b.off * b.size ≤ 84 * U by
    obtain ⟨m, a1, a2, a7, a3, a4, a5, a6⟩ := hs
    have := pow_bound hU.le (m := m) ((D.cost_small (m := m) (c := c) (by omega) hc).trans (by norm_num))
    exact ⟨m, a1, a2, a7, a3, a4, by linarith, a5, a6⟩
  have other : k ≠ .quat → b.off ≤ 6 * U ∧ b.err ≤ 32000 * (U * c) ∧ b.size ≤ 13 * (1 + 22 * U) ^ c →
      0 ≤ quatErr P u b.off b.size k → quatErr P u b.off b.size k ≤ 96 * U → ∃ m : ℕ, m ≤ 105 * c + 96 ∧ (k ≠ .quat → k ≠ .mat → m = 96) ∧ (k = .quat → m ≤ 105 * c ∧ b.err + 102 * (U * m) ≤ 32000 * (U * c)) ∧ 0 ≤ quatErr P u b.off b.size k ∧ 1 + quatErr P u b.off b.size k ≤ (1 + U) ^ m ∧
      b.err + 102 * (U * m) ≤ 32000 * (U * c) + 9800 * U ∧ b.off * b.size ≤ 84 * U := by
    rintro hk ⟨g1, g2, g3⟩ q0 q1
    refine ⟨96, by omega, fun _ _ => rfl, fun h => absurd h hk, q0, (by push_cast; linarith : 1 + quatErr P u b.off b.size k ≤ 1 + (96 : ℕ) * U).trans (lin_le_pow hU.le 96), by push_cast; linarith, ?_⟩
    have := mul_le_mul g1 (D.size_small hc g3) h3 (by linarith)
    linarith
  have szu : b.size ≤ 13 * (1 + 22 * U) ^ c → b.size * u ≤ 14 * U := fun g => mul_le_mul (D.size_small hc g) huU hu (by norm_num)
  cases k
  · obtain ⟨g1, m, g2, g3, g4⟩ := h4
    refine ⟨m, by omega, fun h => absurd rfl h, fun _ => ⟨g2, g4⟩, h1, g3, by linarith, ?_⟩
    have : b.size = 0 := le_antisymm g1 h3
    rw [this, mul_zero]; linarith
  · obtain ⟨g1, m, g2, g3, g4⟩ := h4
    refine ⟨5 * m + 35, by omega, fun _ h => absurd rfl h, (fun h => absurd h (by decide)), by simp only [quatErr]; linarith, ?_, by push_cast; linarith, ?_⟩
    · simp only [quatErr]
      have a1 := one_add_mul_le_pow (by linarith : -2 ≤ b.off) 5
      have a2 := pow_le_pow_left₀ (by linarith) g3 5
      have a3 := lin_le_pow hU.le 35
      rw [pow_add, pow_mul']
      push_cast at a1 a3
      have a4 := mul_le_mul (a1.trans a2) a3 (by linarith) (by positivity)
      have a5 := mul_nonneg h1 hU.le
      nlinarith
    · have : b.size = 0 := le_antisymm g1 h3
      rw [this, mul_zero]; linarith
  · refine other (by decide) h4 ?_ ?_ <;> simp only [quatErr]
    · linarith
    · have := szu h4.2.2; linarith [h4.1]
  · refine other (by decide) h4 ?_ ?_ <;> simp only [quatErr]
    · linarith
    · have := szu h4.2.2; linarith
  · refine other (by decide) h4 ?_ ?_ <;> simp only [quatErr]
    · linarith
    · have := szu h4.2.2; linarith
  · refine other (by decide) h4 ?_ ?_ <;> simp only [quatErr]
    · linarith
    · have := szu h4.2.2; linarith

/-- The result of a conversion through a quaternion whose error is `e`: the part common to conversions and products.  `x` is the error
of the rotation before, `n` and `c` the costs. -/
lemma CInv.of_quat {d : Kind} {e x η S σ : ℝ} {m n c : ℕ} (he0 : 0 ≤ e) (he : 1 + e ≤ (1 + U) ^ m)
    (he2 : e ≤ 201 / 200 * (U * m)) (hx0 : 0 ≤ x) (hx : x + 102 * (U * m) ≤ 32000 * (U * n) + 20600 * U) (hηS : η * S ≤ 84 * U) (hηS0 : 0 ≤ η * S)
    (hσ0 : 0 ≤ σ) (hσ1 : d = .quat ∨ d = .mat → σ = 0) (hσ2 : σ ≤ 13 * (1 + 22 * U) ^ c)
    (hq : d = .quat → m ≤ 105 * c ∧ x + 102 * (U * m) ≤ 32000 * (U * c))
    (hmat : d = .mat → 15 * m + 63 ≤ 20 * c ∧ 80 * n + 50 ≤ c) (ho : d ≠ .quat → d ≠ .mat → n + 1 ≤ c) :
    CInv U ⟨progOff u e d, x + convLoss P u η e S d, σ⟩ d c := by
  have hU := D.U0
  have hu := D.u0
  have huU := D.uU
  have hd1 := D.dp1
  have hdp := P.dp_pos
  have hn0 : (0 : ℝ) ≤ U * n := by positivity
  have hm0 : (0 : ℝ) ≤ U * m := by positivity
  have hoff : 0 ≤ progOff u e d := by cases d <;> simp only [progOff] <;> linarith
  have herr : 0 ≤ convLoss P u η e S d := by cases d <;> simp only [convLoss] <;> linarith
  refine ⟨hoff, by simp only; linarith, hσ0, ?_⟩
  have cast : ∀ {a : ℝ}, d ≠ .quat → d ≠ .mat → a ≤ 32000 * (U * n) + 32000 * U → a ≤ 32000 * (U * c) := by
    intro a h1 h2 h3
    have : ((n : ℝ) + 1) ≤ c := by exact_mod_cast ho h1 h2
    have := mul_le_mul_of_nonneg_left this hU.le
    linarith
  cases d
  · refine ⟨(hσ1 (Or.inl rfl)).le, m, (hq rfl).1, he, ?_⟩
    simp only [convLoss]; linarith [(hq rfl).2]
  · obtain ⟨m1, m2⟩ := hmat rfl
    refine ⟨(hσ1 (Or.inr rfl)).le, 15 * m + 63, m1, ?_, ?_⟩
    · simp only [progOff]
      have a1 := one_add_mul_le_pow (by linarith : -2 ≤ e) 15
      have a2 := pow_le_pow_left₀ (by linarith) he 15
      have a3 := lin_le_pow hU.le 63
      rw [pow_add, pow_mul']
      push_cast at a1 a3
      have a4 := mul_le_mul (a1.trans a2) a3 (by linarith) (by positivity)
      have a5 := mul_nonneg he0 hU.le
      nlinarith
    · simp only [convLoss]
      have : (80 * (n : ℝ) + 50) ≤ c := by exact_mod_cast m2
      have := mul_le_mul_of_nonneg_left this hU.le
      push_cast
      linarith
  · refine ⟨by simp only [progOff]; linarith, cast (by decide) (by decide) ?_, hσ2⟩
    simp only [convLoss]; linarith
  · refine ⟨by simp only [progOff]; linarith, cast (by decide) (by decide) ?_, hσ2⟩
    simp only [convLoss]; linarith
  · refine ⟨by simp only [progOff]; linarith, cast (by decide) (by decide) ?_, hσ2⟩
    simp only [convLoss]; linarith
  · refine ⟨by simp only [progOff]; linarith, cast (by decide) (by decide) ?_, hσ2⟩
    simp only [convLoss]; linarith

omit D in
lemma one_le_pow' {U : ℝ} (h0 : 0 ≤ U) (c : ℕ) : 1 ≤ (1 + U) ^ c := one_le_pow₀ (by linarith)

/-- Conversion. -/
lemma CInv.conv {b : Bound} {d s : Kind} {c : ℕ} (h : CInv U b s c) (hc : c ≤ 4 * 10 ^ 7) (hr : RvCost d s c) :
    CInv U (convBound P u d s b) d (convCost d s c) ∧ convFits P u d s b := by
  have hU := D.U0
  have hu := D.u0
  have huU := D.uU
  by_cases hds : d = s
  · subst hds
    rw [convBound, if_pos rfl, convCost, if_pos rfl]
    exact ⟨h, Or.inl rfl⟩
  obtain ⟨m, a1, a2, a8, a3, a4, a5, a6, a7⟩ := h.quat D (by omega)
  have hb := h
  obtain ⟨b1, b2, b3, b4⟩ := h
  have sm := D.cost_small (m := m) (c := c) (by omega) (by omega)
  constructor
  · rw [convBound, if_neg hds, convCost, if_neg hds]
    have sz : ∀ k : Kind, k = s → k = .aa ∨ k = .rv → b.off ≤ 6 * U ∧ b.size ≤ 13 * (1 + 22 * U) ^ c := by
      rintro k rfl (rfl | rfl)
      · exact ⟨b4.1, b4.2.2⟩
      · exact ⟨b4.1, b4.2.2⟩
    have p22 : (0 : ℝ) ≤ (1 + 22 * U) ^ c := by positivity
    have h13 : ∀ n : ℕ, (13 : ℝ) ≤ 13 * (1 + 22 * U) ^ n := fun n => by
      have := one_le_pow' (by linarith : 0 ≤ 22 * U) n; linarith
    refine CInv.of_quat D (m := m) (n := c) a3 a4 a5 b2 (by linarith) a7 (mul_nonneg b1 b3) ?_ ?_ ?_ ?_ ?_ ?_
    · cases d <;> cases s <;> simp only [progSize] <;> first | exact le_rfl | positivity
    · rintro (rfl | rfl) <;> rfl
    · have hcc : (if d = .mat then 80 * c + 80 else c + 1) = c + 1 ∨ d = .mat := by
        by_cases hd : d = .mat
        · right; exact hd
        · left; rw [if_neg hd]
      rcases hcc with e | rfl
      · rw [e]
        have step : ∀ t : ℝ, t ≤ (1 + 22 * U) * b.size → b.size ≤ 13 * (1 + 22 * U) ^ c → t ≤ 13 * (1 + 22 * U) ^ (c + 1) := by
          intro t ht hs
          rw [pow_succ]
          have := mul_le_mul_of_nonneg_left hs (by linarith : 0 ≤ 1 + 22 * U)
          linarith
        cases d
        · simp only [progSize]; positivity
        · simp only [progSize]; positivity
        · cases s
          case rv =>
            refine step _ ?_ (sz _ rfl (Or.inr rfl)).2
            simp only [progSize]
            exact mul_le_mul_of_nonneg_right (by linarith) b3
          all_goals exact h13 _
        · cases s
          case aa =>
            obtain ⟨g1, g2⟩ := sz _ rfl (Or.inl rfl)
            refine step _ ?_ g2
            simp only [progSize]
            rw [← mul_assoc]
            refine mul_le_mul_of_nonneg_right ?_ b3
            have k1 := mul_le_mul huU g1 b1 hU.le
            have k2 : U * (6 * U) ≤ U * (6 / 100) := mul_le_mul_of_nonneg_left (by linarith [D.U1, show (12 : ℝ) / 10 ^ 17 ≤ 1 / 100 by norm_num]) hU.le
            linarith
          all_goals exact h13 _
        · exact h13 _
        · exact h13 _
      · simp only [progSize]; positivity
    · rintro rfl
      have : m ≤ 105 * (c + 1) ∧ (m : ℝ) = m := ⟨by omega, rfl⟩
      simp only [show ¬ (Kind.quat = .mat) by decide, if_false]
      refine ⟨this.1, ?_⟩
      push_cast; linarith
    · rintro rfl
      simp only [if_true]
      refine ⟨?_, by omega⟩
      cases s
      case mat => exact absurd rfl hds
      case quat => omega
      all_goals rw [a2 (by decide) (by decide)]; omega
    · intro h1 h2
      rw [if_neg h2]
  · refine Or.inr ⟨by linarith, fun h1 h2 => ?_⟩
    have hc25 := hr h1 h2
    have : m ≤ 2721 := by omega
    have hm : (m : ℝ) ≤ 2721 := by exact_mod_cast this
    have := mul_le_mul_of_nonneg_left hm hU.le
    linarith [D.dp2]

/-- Product. -/
lemma CInv.mul {a b : Bound} {k₁ k₂ : Kind} {c₁ c₂ : ℕ} (ha : CInv U a k₁ c₁) (hb : CInv U b k₂ c₂) (h1 : c₁ ≤ 2 * 10 ^ 7) (h2 : c₂ ≤ 2 * 10 ^ 7)
    (hr : RvCost k₁ k₂ c₂) : CInv U (mulBound P u k₁ k₂ a b) k₁ (mulCost k₁ k₂ c₁ c₂) ∧ mulFits P u k₁ k₂ a b := by
  have hU := D.U0
  have hu := D.u0
  have huU := D.uU
  obtain ⟨m₁, a1, a2, a8, a3, a4, a5, a6, a7⟩ := ha.quat D (by omega)
  obtain ⟨m₂, b1, b2, b8, b3, b4, b5, b6, b7⟩ := hb.quat D (by omega)
  have sm1 := D.cost_small (m := m₁) (c := c₁) (by omega) (by omega)
  have sm2 := D.cost_small (m := m₂) (c := c₂) (by omega) (by omega)
  have ha' := ha
  have hb' := hb
  obtain ⟨x1, x2, x3, x4⟩ := ha
  obtain ⟨y1, y2, y3, y4⟩ := hb
  by_cases hk : k₁ = .mat ∧ k₂ = .mat
  · rw [mulBound, if_pos hk, mulFits, if_pos hk, mulCost, if_neg (fun h => h.2 hk.2)]
    obtain ⟨rfl, rfl⟩ := hk
    obtain ⟨p1, m, p2, p3, p4⟩ := x4
    obtain ⟨q1, n, q2, q3, q4⟩ := y4
    have sm := pow_bound hU.le (m := m) ((D.cost_small (m := m) (c := c₁) (by omega) (by omega)).trans (by norm_num))
    have sn := pow_bound hU.le (m := n) ((D.cost_small (m := n) (c := c₂) (by omega) (by omega)).trans (by norm_num))
    have sm' := D.cost_small (m := m) (c := c₁) (by omega) (by omega)
    have sn' := D.cost_small (m := n) (c := c₂) (by omega) (by omega)
    refine ⟨⟨?_, by simp only; linarith, le_rfl, le_rfl, m + n + 11, by omega, ?_, ?_⟩, by norm_num at *; linarith, by norm_num at *; linarith⟩
    · simp only
      have := mul_nonneg x1 y1
      linarith
    · simp only
      have k1 := mul_le_mul p3 q3 (by linarith) (by positivity)
      have k2 := lin_le_pow hU.le 11
      have k3 := one_le_pow' hU.le (m + n)
      rw [← pow_add] at k1
      rw [pow_add]
      push_cast at k2
      have k4 := mul_le_mul_of_nonneg_left k2 (by linarith : 0 ≤ (1 + U) ^ (m + n))
      nlinarith
    · push_cast; linarith
  · rw [mulBound, if_neg hk, mulFits, if_neg hk]
    have E0 : 0 ≤ mulErr P u k₁ k₂ a b := by
      rw [mulErr]; have := mul_nonneg a3 b3; linarith
    have E1 : 1 + mulErr P u k₁ k₂ a b ≤ (1 + U) ^ (m₁ + m₂ + 9) := by
      rw [mulErr]
      have k1 := mul_le_mul a4 b4 (by linarith) (by positivity)
      have k2 := lin_le_pow hU.le 9
      have k3 := one_le_pow' hU.le (m₁ + m₂)
      rw [← pow_add] at k1
      rw [pow_add]
      push_cast at k2
      have k4 := mul_le_mul_of_nonneg_left k2 (by linarith : 0 ≤ (1 + U) ^ (m₁ + m₂))
      nlinarith
    have sm := D.cost_small (m := m₁ + m₂ + 9) (c := c₁ + c₂) (by omega) (by omega)
    have E2 : mulErr P u k₁ k₂ a b ≤ 201 / 200 * (U * (m₁ + m₂ + 9 : ℕ)) := by
      have := pow_bound hU.le (m := m₁ + m₂ + 9) (sm.trans (by norm_num))
      linarith
    generalize mulErr P u k₁ k₂ a b = E at *
    constructor
    · refine CInv.of_quat D (m := m₁ + m₂ + 9) (n := c₁ + c₂) E0 E1 E2 (by linarith) ?_ ?_ ?_ ?_ ?_ ?_ ?_ ?_ ?_
      · push_cast; linarith
      · rw [mul_zero]; linarith
      · rw [mul_zero]
      · split_ifs <;> norm_num
      · intro h; rw [if_pos h]
      · split_ifs
        · positivity
        · have := one_le_pow' (by linarith : 0 ≤ 22 * U) (mulCost k₁ k₂ c₁ c₂); linarith
      · rintro rfl
        obtain ⟨p1, p2⟩ := a8 rfl
        rw [mulCost, if_neg (fun h => by cases h.1)]
        refine ⟨by omega, ?_⟩
        push_cast; linarith
      · rintro rfl
        rw [mulCost, if_pos ⟨rfl, fun h => hk ⟨rfl, h⟩⟩]
        exact ⟨by omega, by omega⟩
      · intro g1 g2
        rw [mulCost, if_neg (fun h => g2 h.1)]
    · refine ⟨by linarith, fun h => ?_⟩
      subst h
      have : m₁ + m₂ + 9 ≤ 2826 := by
        rw [a2 (by decide) (by decide)]
        by_cases hk2 : k₂ = .quat ∨ k₂ = .mat
        · have := hr rfl hk2; omega
        · rw [b2 (fun h => hk2 (Or.inl h)) (fun h => hk2 (Or.inr h))]; omega
      have hm : ((m₁ + m₂ + 9 : ℕ) : ℝ) ≤ 2826 := by exact_mod_cast this
      have := mul_le_mul_of_nonneg_left hm hU.le
      linarith [D.dp2]


omit D in
lemma CInv.mono {b : Bound} {k : Kind} {c c' : ℕ} (h : CInv U b k c) (hU : 0 ≤ U) (hc : c ≤ c') : CInv U b k c' := by
  obtain ⟨h1, h2, h3, h4⟩ := h
  have h5 : U * c ≤ U * c' := mul_le_mul_of_nonneg_left (by exact_mod_cast hc) hU
  have h6 : (1 + 22 * U) ^ c ≤ (1 + 22 * U) ^ c' := pow_le_pow_right₀ (by linarith) hc
  refine ⟨h1, h2, h3, ?_⟩
  cases k
  · obtain ⟨g1, m, g2, g3, g4⟩ := h4
    exact ⟨g1, m, by omega, g3, by linarith⟩
  · obtain ⟨g1, m, g2, g3, g4⟩ := h4
    exact ⟨g1, m, by omega, g3, by linarith⟩
  all_goals exact ⟨h4.1, by linarith [h4.2.1], by linarith [h4.2.2]⟩

/-- Inverse. -/
lemma CInv.inv {b : Bound} {k : Kind} {c : ℕ} (h : CInv U b k c) (hc : c ≤ 4 * 10 ^ 7) :
    CInv U (invBound P u k b) k (c + 1) ∧ invFits P u k b := by
  have hU := D.U0
  have hu := D.u0
  have huU := D.uU
  obtain ⟨m, a1, a2, a8, a3, a4, a5, a6, a7⟩ := h.quat D (by omega)
  have sm := D.cost_small (m := m) (c := c) (by omega) (by omega)
  refine ⟨?_, fun _ => by linarith⟩
  by_cases hk : k = .xyz ∨ k = .zyx
  · rw [invBound, if_pos hk]
    have hm : m = 96 := a2 (by rintro rfl; simp at hk) (by rintro rfl; simp at hk)
    subst hm
    push_cast at a5 a6
    have hd := D.dp1
    have hdp := P.dp_pos
    have p := one_le_pow' (by linarith : 0 ≤ 22 * U) (c + 1)
    have L : 0 ≤ convLoss P u b.off (quatErr P u b.off b.size k) 0 k ∧ convLoss P u b.off (quatErr P u b.off b.size k) 0 k ≤ 22000 * U := by
      rcases hk with rfl | rfl <;> simp only [convLoss] at * <;> constructor <;> linarith
    have o : b.off ≤ 6 * U ∧ b.err ≤ 32000 * (U * c) := by
      rcases hk with rfl | rfl <;> exact ⟨h.2.2.2.1, h.2.2.2.2.1⟩
    refine ⟨h.1, by simp only; linarith [h.2.1], by simp only; norm_num, ?_⟩
    have goal : b.off ≤ 6 * U ∧ b.err + convLoss P u b.off (quatErr P u b.off b.size k) 0 k ≤ 32000 * (U * (c + 1 : ℕ)) ∧
        (13 : ℝ) ≤ 13 * (1 + 22 * U) ^ (c + 1) := ⟨o.1, by push_cast; linarith [o.2, L.2], by linarith⟩
    rcases hk with rfl | rfl <;> exact goal
  · rw [invBound, if_neg hk]
    exact h.mono hU.le (by omega)

/-- `setUnique()`. -/
lemma CInv.unique {b : Bound} {k : Kind} {c : ℕ} (h : CInv U b k c) (hc : c ≤ 4 * 10 ^ 7) (h1 : k ≠ .xyz) (h2 : k ≠ .zyx) :
    CInv U (uniqueBound P u k b) k (c + 1) ∧ uniqueFits P u k b := by
  have hU := D.U0
  have hu := D.u0
  have huU := D.uU
  have hU1 := D.U1
  have hep := D.eps
  have hep0 := P.eps_pos
  have hd := D.dp1
  have hdp := P.dp_pos
  have p := one_le_pow' (by linarith : 0 ≤ 22 * U) (c + 1)
  have hs : b.size ≤ 14 := by
    obtain ⟨-, -, -, h⟩ := h
    cases k
    · exact h.1.trans (by norm_num)
    · exact h.1.trans (by norm_num)
    all_goals exact D.size_small (by omega) h.2.2
  refine ⟨?_, by linarith, ?_⟩
  · cases k
    · exact h.mono hU.le (by omega)
    · exact h.mono hU.le (by omega)
    · obtain ⟨g1, g2, g3, g4, g5, g6⟩ := h
      exact ⟨g1, by simp only [uniqueBound]; linarith, by simp only [uniqueBound]; norm_num, g4, by simp only [uniqueBound]; push_cast; linarith, by simp only [uniqueBound]; linarith⟩
    · obtain ⟨g1, g2, g3, g4, g5, g6⟩ := h
      exact ⟨g1, by simp only [uniqueBound]; linarith, by simp only [uniqueBound]; norm_num, g4, by simp only [uniqueBound]; push_cast; linarith, by simp only [uniqueBound]; linarith⟩
    · exact absurd rfl h1
    · exact absurd rfl h2
  · rintro rfl
    obtain ⟨m, a1, -, -, -, -, a5, -⟩ := h.quat D (by omega)
    exact a5.trans (by have := D.cost_small (m := m) (c := c) (by omega) (by omega); norm_num at this ⊢; linarith)

omit D in
lemma CInv.expArg {w : V3} (hU : 0 ≤ U) (h : w.norm ≤ 13) : CInv U (expArg w) .rv 0 := by
  refine ⟨le_rfl, le_rfl, w.norm_nonneg, ?_⟩
  simp only [Spec.expArg]
  refine ⟨by linarith, ?_, ?_⟩
  · push_cast; linarith
  · rw [pow_zero, mul_one]; exact h

omit D in
lemma CInv.identity {k : Kind} (hU : 0 ≤ U) : CInv U ⟨0, 0, 0⟩ k 0 := by
  refine ⟨le_rfl, le_rfl, le_rfl, ?_⟩
  cases k
  · exact ⟨le_rfl, 0, by norm_num, by norm_num, by norm_num⟩
  · exact ⟨le_rfl, 0, by norm_num, by norm_num, by norm_num⟩
  all_goals exact ⟨by linarith, by norm_num, by rw [pow_zero]; norm_num⟩

/-- `rotate()`. -/
lemma CInv.rotate {b : Bound} {k : Kind} {c : ℕ} (h : CInv U b k c) (hc : c ≤ 4 * 10 ^ 7) :
    rotErr P u k b ≤ 32000 * (U * (c + 1)) ∧ rotFits P u k b := by
  have hU := D.U0
  have hu := D.u0
  have huU := D.uU
  by_cases hk : k = .mat
  · rw [rotErr, if_pos hk, rotFits, if_pos hk]
    subst hk
    obtain ⟨h1, h2, h3, g1, m, g2, g3, g4⟩ := h
    have sm := D.cost_small (m := m) (c := c) (by omega) (by omega)
    have := pow_bound hU.le (m := m) (sm.trans (by norm_num))
    have : (0 : ℝ) ≤ U * m := by positivity
    constructor
    · linarith
    · norm_num at sm ⊢; linarith
  · obtain ⟨m, a1, a2, a8, a3, a4, a5, a6, a7⟩ := h.quat D (by omega)
    have sm := D.cost_small (m := m) (c := c) (by omega) (by omega)
    have : (0 : ℝ) ≤ U * m := by positivity
    rw [rotErr, if_neg hk, rotFits, if_neg hk]
    constructor
    · linarith
    · linarith

/-- The quotient of `getDisparityAngle()`. -/
lemma CInv.quot {a b : Bound} {k₁ k₂ : Kind} {c₁ c₂ : ℕ} (ha : CInv U a k₁ c₁) (hb : CInv U b k₂ c₂) (h1 : c₁ ≤ 10 ^ 7) (h2 : c₂ ≤ 10 ^ 7)
    (hr : RvCost k₁ k₂ (c₂ + 1)) (hm : mulCost k₁ k₂ c₁ (c₂ + 1) ≤ 10 ^ 7) :
    (convBound P u .aa k₁ (quotBound P u k₁ k₂ a b)).err ≤ 32000 * (U * (mulCost k₁ k₂ c₁ (c₂ + 1) + 1)) ∧ quotFits P u k₁ k₂ a b := by
  obtain ⟨i1, i2⟩ := hb.inv D (by omega)
  obtain ⟨m1, m2⟩ := ha.mul D i1 (by omega) (by omega) hr
  obtain ⟨v1, v2⟩ := m1.conv D (d := .aa) (by omega) (fun h => absurd h (by decide))
  have e : convCost .aa k₁ (mulCost k₁ k₂ c₁ (c₂ + 1)) ≤ mulCost k₁ k₂ c₁ (c₂ + 1) + 1 := by
    rw [convCost]
    simp only [show ¬ (Kind.aa = .mat) by decide, if_false]
    split_ifs <;> omega
  have v3 := v1.mono D.U0.le e
  refine ⟨?_, i2, m2, v2, ?_⟩
  · have := v3.2.2.2.2.1
    push_cast at this
    exact this
  · exact (D.size_small (by omega) v3.2.2.2.2.2).trans (by norm_num)

/-- One command. -/
lemma cost_step (hK : 32000 * U ≤ 4 / 10 ^ 12) {cls : ℕ → Kind} {β : ℕ → Bound} {κ : ℕ → ℕ} (h : ∀ i, CInv U (β i) (cls i) (κ i)) (hκ : ∀ i, κ i ≤ 10 ^ 7)
    (c : Cmd) (hc : cmdCheap cls κ c) (hκ' : ∀ i, costStep cls κ c i ≤ 10 ^ 7) :
    cmdFits P u cls β c ∧ (∀ i, CInv U (boundStep P u cls β c i) (cls i) (costStep cls κ c i)) ∧ outErr P u cls β c ≤ costErr cls κ c := by
  have hU := D.U0
  have hu := D.u0
  have huU := D.uU
  have upd : ∀ (d : ℕ) (b : Bound) (n : ℕ), CInv U b (cls d) n → ∀ i, CInv U (Function.update β d b i) (cls i) (Function.update κ d n i) := by
    intro d b n hb i
    by_cases hi : i = d
    · subst hi; rw [Function.update_self, Function.update_self]; exact hb
    · rw [Function.update_of_ne hi, Function.update_of_ne hi]; exact h i
  have ccge : ∀ d s n, n ≤ convCost d s n := by
    intro d s n; rw [convCost]; split_ifs <;> omega
  have disp : ∀ a b, RvCost (cls a) (cls b) (κ b + 1) → mulCost (cls a) (cls b) (κ a) (κ b + 1) ≤ 10 ^ 7 →
      quotFits P u (cls a) (cls b) (β a) (β b) ∧
      2 * (convBound P u .aa (cls a) (quotBound P u (cls a) (cls b) (β a) (β b))).err + 1000 * u ≤ (mulCost (cls a) (cls b) (κ a) (κ b + 1) + 2) * (1 / 10 ^ 11) := by
    intro a b g1 g2
    obtain ⟨q1, q2⟩ := (h a).quot D (h b) (hκ a) (hκ b) g1 g2
    refine ⟨q2, ?_⟩
    have hM : (0 : ℝ) ≤ mulCost (cls a) (cls b) (κ a) (κ b + 1) := by positivity
    generalize ((mulCost (cls a) (cls b) (κ a) (κ b + 1) : ℕ) : ℝ) = M at *
    have := mul_le_mul_of_nonneg_right hK (by linarith : 0 ≤ M + 1)
    norm_num at this hK ⊢
    linarith
  have rot : ∀ n : ℕ, 32000 * (U * (n + 1)) ≤ (n + 1) * (4 / 10 ^ 12) := fun n => by
    have := mul_le_mul_of_nonneg_right hK (by positivity : (0 : ℝ) ≤ n + 1)
    linarith
  cases c with
  | assign d s =>
    obtain ⟨v1, v2⟩ := (h s).conv D (d := cls d) (by have := hκ s; omega) hc
    exact ⟨v2, upd _ _ _ v1, le_rfl⟩
  | mul d a b =>
    have k := hκ' d
    simp only [costStep, Function.update_self] at k
    have k2 := ccge (cls d) (cls a) (mulCost (cls a) (cls b) (κ a) (κ b))
    obtain ⟨m1, m2⟩ := (h a).mul D (h b) (by have := hκ a; omega) (by have := hκ b; omega) hc.1
    obtain ⟨v1, v2⟩ := m1.conv D (d := cls d) (by omega) hc.2
    exact ⟨⟨m2, v2⟩, upd _ _ _ v1, le_rfl⟩
  | inv d a =>
    obtain ⟨i1, i2⟩ := (h a).inv D (by have := hκ a; omega)
    obtain ⟨v1, v2⟩ := i1.conv D (d := cls d) (by have := hκ a; omega) hc
    exact ⟨⟨i2, v2⟩, upd _ _ _ v1, le_rfl⟩
  | setIdentity d => exact ⟨trivial, upd _ _ _ (CInv.identity hU.le), le_rfl⟩
  | exp d w =>
    obtain ⟨v1, v2⟩ := (CInv.expArg hU.le hc).conv D (d := cls d) (by omega) (fun _ h => absurd h (by decide))
    exact ⟨v2, upd _ _ _ v1, le_rfl⟩
  | boxPlus d a w =>
    have k := hκ' d
    simp only [costStep, Function.update_self] at k
    have k2 := ccge (cls d) (cls a) (mulCost (cls a) (cls a) (convCost (cls a) .rv 0) (κ a))
    have k3 : convCost (cls a) .rv 0 ≤ 80 := by rw [convCost]; split_ifs <;> omega
    obtain ⟨v1, v2⟩ := (CInv.expArg hU.le hc.1).conv D (d := cls a) (by omega) (fun _ h => absurd h (by decide))
    obtain ⟨m1, m2⟩ := v1.mul D (h a) (by omega) (by have := hκ a; omega) (fun h1 h2 => by rw [h1] at h2; exact absurd h2 (by decide))
    obtain ⟨w1, w2⟩ := m1.conv D (d := cls d) (by omega) hc.2
    exact ⟨⟨v2, m2, w2⟩, upd _ _ _ w1, le_rfl⟩
  | setUnique d =>
    obtain ⟨v1, v2⟩ := (h d).unique D (by have := hκ d; omega) hc.1 hc.2
    exact ⟨v2, upd _ _ _ v1, le_rfl⟩
  | rotate a v =>
    obtain ⟨v1, v2⟩ := (h a).rotate D (by have := hκ a; omega)
    exact ⟨v2, h, v1.trans (rot _)⟩
  | inverseRotate a v =>
    obtain ⟨i1, i2⟩ := (h a).inv D (by have := hκ a; omega)
    obtain ⟨v1, v2⟩ := i1.rotate D (by have := hκ a; omega)
    refine ⟨⟨i2, v2⟩, h, v1.trans ((rot _).trans (le_of_eq ?_))⟩
    simp only [costErr]; push_cast; ring
  | disparity a b =>
    obtain ⟨q1, q2⟩ := disp a b hc.1 hc.2
    exact ⟨q1, h, q2⟩
  | isNear a b tol =>
    obtain ⟨q1, q2⟩ := disp a b hc.1 hc.2
    exact ⟨q1, h, q2⟩


/-- Every program. -/
lemma cost_run (hK : 32000 * U ≤ 4 / 10 ^ 12) {cls : ℕ → Kind} (p : List Cmd) {β : ℕ → Bound} {κ : ℕ → ℕ} (h : ∀ i, CInv U (β i) (cls i) (κ i))
    (hc : Cheap cls κ p) : Fits P u cls β p ∧ (∀ i, CInv U (boundRun P u cls β p i) (cls i) (costRun cls κ p i)) ∧ (∀ i, costRun cls κ p i ≤ 10 ^ 7) ∧
      List.Forall₂ (· ≤ ·) (outErrs P u cls β p) (costErrs cls κ p) := by
  induction p generalizing β κ with
  | nil => exact ⟨trivial, h, hc, List.Forall₂.nil⟩
  | cons c p ih =>
    obtain ⟨c1, c2, c3⟩ := hc
    have c4 : ∀ i, costStep cls κ c i ≤ 10 ^ 7 := by
      cases p with
      | nil => exact c3
      | cons d p => exact c3.1
    obtain ⟨s1, s2, s3⟩ := cost_step D hK h c1 c c2 c4
    obtain ⟨i1, i2, i3, i4⟩ := ih s2 c3
    exact ⟨⟨s1, i1⟩, i2, i3, List.Forall₂.cons s3 i4⟩

end

lemma Spec.Allowed.mono {S : Store} {ε ε' : ℝ} (h : ε ≤ ε') {c : Cmd} {o : List Out} (ha : Allowed S ε c o) : Allowed S ε' c o := by
  have l : ∀ v : Fin 3 → ℝ, ε * len v ≤ ε' * len v := fun v => mul_le_mul_of_nonneg_right h (Real.sqrt_nonneg _)
  cases c with
  | rotate a v => obtain ⟨x, h1, h2⟩ := ha; exact ⟨x, h1, h2.trans (l _)⟩
  | inverseRotate a v => obtain ⟨x, h1, h2⟩ := ha; exact ⟨x, h1, h2.trans (l _)⟩
  | disparity a b => obtain ⟨x, h1, h2⟩ := ha; exact ⟨x, h1, h2.trans h⟩
  | isNear a b tol => obtain ⟨q, h1, h2, h3⟩ := ha; exact ⟨q, h1, fun g => h2 (by linarith), fun g => (h3 g).trans (by linarith)⟩
  | _ => exact ha

lemma Spec.Prints.mono {es es' : List ℝ} (h : List.Forall₂ (· ≤ ·) es es') {S : Store} {p : List Cmd} {o : List Out} (ha : Prints es S p o) :
    Prints es' S p o := by
  induction h generalizing S p o with
  | nil => exact ha
  | cons h1 h2 ih =>
    cases p with
    | nil => exact ha
    | cons c p =>
      obtain ⟨o₁, o₂, e, g1, g2⟩ := ha
      exact ⟨o₁, o₂, e, g1.mono h1, ih g2⟩

/-- The final bound, in terms of the images of vectors. -/
lemma CInv.act {P : Prec} {u U : ℝ} (D : Dbl P u U) {b : Bound} {k : Kind} {c : ℕ} (h : CInv U b k c) (hc : c ≤ 4 * 10 ^ 7) {r : Rep k} {R : M3} (hw : Within b k r R)
    (v : V3) : (Spec.act k r v - R.mulVec v).norm ≤ 32000 * (U * (c + 1)) * v.norm := by
  have hU := D.U0
  have hn := v.norm_nonneg
  by_cases hk : k = .mat
  · subst hk
    obtain ⟨h1, h2, h3, g1, m, g2, g3, g4⟩ := h
    have sm := D.cost_small (m := m) (c := c) (by omega) (by omega)
    have := pow_bound hU.le (m := m) (sm.trans (by norm_num))
    have : (0 : ℝ) ≤ U * m := by positivity
    obtain ⟨a1, a2, Q, a3, a4, a5⟩ := within_mat.mp hw
    rw [act_eq_dmat]
    exact ((a4.trans a5) v).trans (mul_le_mul_of_nonneg_right (by linarith) hn)
  · have key : b.off ≤ 1 / 100 ∧ 7 * b.off + b.err ≤ 32000 * (U * (c + 1)) := by
      have other : b.off ≤ 6 * U ∧ b.err ≤ 32000 * (U * c) ∧ b.size ≤ 13 * (1 + 22 * U) ^ c → b.off ≤ 1 / 100 ∧ 7 * b.off + b.err ≤ 32000 * (U * (c + 1)) := by
        rintro ⟨g1, g2, -⟩
        have := D.U1
        constructor
        · norm_num at this ⊢; linarith
        · linarith
      obtain ⟨h1, h2, h3, h4⟩ := h
      cases k
      · obtain ⟨g1, m, g2, g3, g4⟩ := h4
        have sm := D.cost_small (m := m) (c := c) (by omega) (by omega)
        have := pow_bound hU.le (m := m) (sm.trans (by norm_num))
        have : (0 : ℝ) ≤ U * m := by positivity
        constructor
        · norm_num at sm ⊢; linarith
        · linarith
      · exact absurd rfl hk
      all_goals exact other h4
    exact (hw.rounded.act key.1 v).trans (mul_le_mul_of_nonneg_right key.2 hn)

lemma dbl_double {u : ℝ} (h0 : 0 ≤ u) (h : u ≤ 2⁻¹ ^ 53) : Dbl Prec.double u (2⁻¹ ^ 53) :=
  ⟨h0, h, by norm_num, by norm_num, by norm_num [Prec.double], by norm_num [Prec.double], by norm_num [Prec.double]⟩

namespace FloatWide

/-- **C91 (d).** Programs in `double`.  Start from exactly represented rotations with angles of at most 13 (two turns), take any program
whose costs stay below ten million (`Cheap`: every operation costs one and the costs of the operands add up, except that a conversion to
a matrix multiplies by 80; a quaternion or matrix that becomes a rotation vector must have cost at most 25, cf. C84; no `setUnique()` of
Euler angles, C17, C18).  Then everything the library prints is what the ideal program on rotation matrices prints, up to `4e-12` times the
cost (`1e-11` for angles), and every variable ends as close to the ideal rotation. -/
theorem C91_double (F : FloatWide) (hF : F.u ≤ 2⁻¹ ^ 53) (cls : ℕ → Kind) (p : List Cmd) (σ : (i : ℕ) → Rep (cls i)) (S : Store)
    (hv : ∀ i, Valid (cls i) (σ i)) (hs : ∀ i, angleSize (cls i) (σ i) ≤ 13) (hS : ∀ i v, (S i).mulVec (toVec v) = toVec (act (cls i) (σ i) v))
    (hc : Cheap cls (fun _ => 0) p) :
    Prints (costErrs cls (fun _ => 0) p) S p (floatRun F Prec.double cls σ p).2 ∧
    ∀ i v, len (toVec (act (cls i) ((floatRun F Prec.double cls σ p).1 i) v) - ((runIdeal S p).1 i).mulVec (toVec v)) ≤
      (costRun cls (fun _ => 0) p i + 1) * (4 / 10 ^ 12) * len (toVec v) := by
  have D := dbl_double F.u_nonneg hF
  have hK : 32000 * (2⁻¹ ^ 53 : ℝ) ≤ 4 / 10 ^ 12 := by norm_num
  obtain ⟨U, eU⟩ : ∃ U : ℝ, U = 2⁻¹ ^ 53 := ⟨_, rfl⟩
  rw [← eU] at D hK
  have init : ∀ i, CInv U ⟨0, 0, angleSize (cls i) (σ i)⟩ (cls i) 0 := by
    intro i
    have g := hs i
    have g0 := angleSize_nonneg (cls i) (σ i)
    refine ⟨le_rfl, le_rfl, g0, ?_⟩
    have hU := D.U0
    generalize σ i = r at *
    generalize cls i = k at *
    cases k
    · exact ⟨le_rfl, 0, by norm_num, by norm_num, by norm_num⟩
    · exact ⟨le_rfl, 0, by norm_num, by norm_num, by norm_num⟩
    all_goals exact ⟨by simp only; linarith, by norm_num, by rw [pow_zero, mul_one]; exact g⟩
  have h0 : ∀ i, ∃ R, IsSO3 R ∧ S i = toMat R ∧ Within ⟨0, 0, angleSize (cls i) (σ i)⟩ (cls i) (σ i) R := by
    intro i
    refine ⟨den (cls i) (σ i), den_isSO3 (hv i), ?_, within_of_rounded (rounded_of_valid (hv i)) le_rfl (fun _ => by simp) le_rfl le_rfl⟩
    apply Matrix.ext_of_mulVec_single
    intro j
    have key : ∀ v : V3, (S i).mulVec (toVec v) = (toMat (den (cls i) (σ i))).mulVec (toVec v) := fun v => by
      rw [toMat_mulVec', ← act_eq]; exact hS i v
    obtain ⟨v, hv⟩ : ∃ v, toVec v = Pi.single j 1 := ⟨⟨(Pi.single j 1 : Fin 3 → ℝ) 0, (Pi.single j 1 : Fin 3 → ℝ) 1, (Pi.single j 1 : Fin 3 → ℝ) 2⟩, by ext l; fin_cases l <;> rfl⟩
    rw [← hv]; exact key v
  obtain ⟨f1, f2, f3, f4⟩ := cost_run D hK p init hc
  obtain ⟨p1, p2⟩ := F.C91_program Prec.double cls p _ σ S h0 f1
  refine ⟨p1.mono f4, fun i v => ?_⟩
  obtain ⟨R, hR, e, w⟩ := p2 i
  rw [e, toMat_mulVec', len_sub, len_toVec]
  refine ((f2 i).act D (by have := f3 i; omega) w v).trans (mul_le_mul_of_nonneg_right ?_ v.norm_nonneg)
  have := mul_le_mul_of_nonneg_right hK (by positivity : (0 : ℝ) ≤ (costRun cls (fun _ => 0) p i : ℝ) + 1)
  linarith


/-- **C91 (e).** With exact operations the programs of this file are the programs of C77. -/
theorem C91_exact_operations (P : Prec) (cls : ℕ → Kind) (p : List Cmd) (σ : (i : ℕ) → Rep (cls i)) :
    floatRun exact P cls σ p = run P cls σ p := by
  have hc : ∀ (d s : Kind) (r : Rep s), exact.conv P d s r = Kindr.conv P d s r := FloatLib.C85_exact_table P
  have hm : ∀ (k k' : Kind) (a : Rep k) (b : Rep k'), exact.mult P k k' a b = Kindr.mult P k k' a b := fun k k' a b =>
    (FloatLib.C85_exact_operations P k k' a b 0).2.1
  have hi : ∀ (k : Kind) (a : Rep k), exact.inverted k a = Kindr.inverted k a := fun k a => (FloatLib.C85_exact_operations P k k a a 0).2.2.1
  have hr : ∀ (k : Kind) (a : Rep k) (v : V3), exact.rotate P k a v = Kindr.rotate P k a v := fun k a v => (FloatLib.C85_exact_operations P k k a a v).1
  have hir : ∀ (k : Kind) (a : Rep k) (v : V3), exact.inverseRotate P k a v = Kindr.inverseRotate P k a v := fun k a v =>
    (FloatLib.C85_exact_operations P k k a a v).2.2.2
  have he : ∀ (k : Kind) (w : V3), exact.exponentialMap P k w = Kindr.exponentialMap P k w := fun k w => hc k .rv (⟨w⟩ : RotVec)
  have hb : ∀ (k : Kind) (a : Rep k) (w : V3), exact.boxPlus P k a w = Kindr.boxPlus P k a w := fun k a w => by
    change exact.mult P k k (exact.exponentialMap P k w) a = Kindr.mult P k k (Kindr.exponentialMap P k w) a
    rw [he, hm]
  have hs : ∀ (c : Cmd) (σ : (i : ℕ) → Rep (cls i)), floatStep exact P cls σ c = step P cls σ c := by
    intro c σ
    cases c with
    | assign d s => simp only [floatStep, step, hc]
    | mul d a b => simp only [floatStep, step, hc, hm]
    | inv d a => simp only [floatStep, step, hc, hi]
    | setIdentity d => rfl
    | exp d w => simp only [floatStep, step, he]
    | boxPlus d a w => simp only [floatStep, step, hc, hb]
    | setUnique d => simp only [floatStep, step, C90_exact_operations]
    | rotate a v => simp only [floatStep, step, hr]
    | inverseRotate a v => simp only [floatStep, step, hir]
    | disparity a b => simp only [floatStep, step, (C87_exact_operations P (cls a) (cls b) (σ a) (σ b) 0).2.2.1]
    | isNear a b tol => simp only [floatStep, step, (C87_exact_operations P (cls a) (cls b) (σ a) (σ b) tol).2.2.2.1]
  induction p generalizing σ with
  | nil => rfl
  | cons c p ih => rw [floatRun, run, hs, ih]

/-- One variable of every class. -/
def exampleClasses : ℕ → Kind
  | 0 => .quat
  | 1 => .mat
  | 2 => .aa
  | 3 => .rv
  | 4 => .xyz
  | _ => .zyx

/-- A program that uses every class and every operation. -/
def exampleProgram : List Cmd :=
  [.exp 0 ⟨1, 2, 3⟩, .assign 1 0, .mul 4 1 0, .inv 5 4, .boxPlus 2 5 ⟨0, 1, 0⟩, .setUnique 2, .mul 3 2 0, .setIdentity 1, .mul 0 0 3,
   .rotate 5 ⟨1, 0, 0⟩, .inverseRotate 3 ⟨0, 0, 1⟩, .disparity 5 2, .isNear 0 4 (1 / 100)]

/-- The example is accepted by the cost analysis, and so in any arithmetic at least as accurate as `double` (and for every start) its
four results have errors below `1e-6`. -/
theorem C91_example (F : FloatWide) (hF : F.u ≤ 2⁻¹ ^ 53) (σ : (i : ℕ) → Rep (exampleClasses i)) (S : Store)
    (hv : ∀ i, Valid (exampleClasses i) (σ i)) (hs : ∀ i, angleSize (exampleClasses i) (σ i) ≤ 13)
    (hS : ∀ i v, (S i).mulVec (toVec v) = toVec (act (exampleClasses i) (σ i) v)) :
    Cheap exampleClasses (fun _ => 0) exampleProgram ∧
    Prints [0, 0, 0, 0, 0, 0, 0, 0, 0, 1 / 10 ^ 6, 1 / 10 ^ 6, 1 / 10 ^ 6, 1 / 10 ^ 6] S exampleProgram
      (floatRun F Prec.double exampleClasses σ exampleProgram).2 := by
  have hc : Cheap exampleClasses (fun _ => 0) exampleProgram := by
    have n1 : V3.norm ⟨1, 2, 3⟩ ≤ 13 := V3.norm_le_of_sq (by norm_num) (by norm_num [V3.normSq, V3.dot])
    have n2 : V3.norm ⟨0, 1, 0⟩ ≤ 13 := V3.norm_le_of_sq (by norm_num) (by norm_num [V3.normSq, V3.dot])
    simp only [Cheap, exampleProgram, cmdCheap, RvCost, costStep, convCost, mulCost, exampleClasses, Function.update]
    simp [n1, n2]
    refine ⟨?_, ?_, ?_, ?_, ?_, ?_, ?_, ?_, ?_⟩
    all_goals intro i; repeat' split_ifs <;> norm_num
  refine ⟨hc, (F.C91_double hF exampleClasses exampleProgram σ S hv hs hS hc).1.mono ?_⟩
  simp only [costErrs, exampleProgram, costErr, costStep, convCost, mulCost, exampleClasses, Function.update]
  simp
  norm_num

end FloatWide
end Kindr
