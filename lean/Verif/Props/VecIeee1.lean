import Verif.Spec.VecIeee
import Verif.Props.Mixed
import Verif.Props.PoseIeee

/-!
# C115: vectors and wrenches in IEEE arithmetic

Sums of stored numbers have a purely relative error (no underflow error), whatever the order of the additions.
-/

set_option autoImplicit false

open Classical

noncomputable section
namespace Kindr
open Spec

namespace Format
variable {f : Format} {n : ℕ}

lemma stored_iff {x : ℝ} : Storable f x ↔ f.round x = x ∧ |x| < 2 ^ f.emax := by
  constructor
  · intro h
    have := rnd_fin_lt h
    exact ⟨this.2.symm, this.1⟩
  · rintro ⟨h1, h2⟩
    change (if 2 ^ f.emax ≤ |f.round x| then XR.inf (decide (x < 0)) else .fin (f.round x)) = _
    rw [h1, if_neg (not_le.mpr h2)]

lemma stored_round {x : ℝ} (h : Storable f x) : f.round x = x := (stored_iff.mp h).1

lemma stored_grid {x : ℝ} (h : Storable f x) : OnGrid f.emin x := by
  rw [← stored_round h]; exact round_grid x

/-- The rounding of a multiple of the smallest number has no underflow error. -/
lemma round_err_grid (hf : f.Ok) {x : ℝ} (h : OnGrid f.emin x) : |f.round x - x| ≤ f.uu * |x| := by
  by_cases h1 : (2 : ℝ) ^ (f.emin + (f.p - 1)) ≤ |x|
  · exact round_rel hf h1
  · rw [round_onGrid le_rfl h ((not_le.mp h1).trans_le (zpow_le_zpow_right₀ (by norm_num) (by omega))), sub_self, abs_zero]
    have := uu_pos (f := f); positivity

lemma round_idem (hf : f.Ok) (x : ℝ) : f.round (f.round x) = f.round x := by
  have hg : OnGrid (f.qexp x) (f.round x) := ⟨_, round_def f x⟩
  have hp := hf.p
  have e := emin_le_qexp (f := f) x
  have h1 : |x| ≤ 2 ^ (f.qexp x + f.p) := by
    refine (Int.lt_zpow_succ_log_self (b := 2) (by norm_num) |x|).le.trans ?_
    push_cast
    refine zpow_le_zpow_right₀ (by norm_num) ?_
    have : Int.log 2 |x| - ((f.p : ℤ) - 1) ≤ f.qexp x := le_max_left _ _
    omega
  have h2 := round_le_pow hf (j := f.qexp x + f.p) (by omega) h1
  rcases h2.lt_or_eq with h | h
  · exact round_onGrid e hg h
  · rcases abs_eq (by positivity) |>.mp h with h | h
    · rw [h, round_pow hf (by omega)]
    · rw [h, round_neg, round_pow hf (by omega)]

lemma storable_of_rnd (hf : f.Ok) {x : ℝ} (h : |x| ≤ 2 ^ (f.emax - 1)) : Storable f (f.round x) ∧ f.arith.rnd x = .fin (f.round x) := by
  have h1 := fin_of hf h
  exact ⟨(stored_iff).mpr ⟨round_idem hf x, (rnd_fin_lt h1).1⟩, h1⟩

/-- One more addition: the growth factor `g` becomes `g (1 + u)`. -/
lemma add_step (hf : f.Ok) {x s S g : ℝ} (hx : OnGrid f.emin x) (h : |x - s| ≤ (g - 1) * S) (hs : |s| ≤ S)
    (hb : g * S ≤ 2 ^ (f.emax - 1)) :
    Storable f (f.round x) ∧ f.arith.rnd x = .fin (f.round x) ∧ |f.round x - s| ≤ (g * (1 + f.uu) - 1) * S := by
  have u0 := uu_pos (f := f)
  have hx' : |x| ≤ g * S := by
    have := abs_add_le (x - s) s
    rw [sub_add_cancel] at this; linarith
  obtain ⟨a, b⟩ := storable_of_rnd hf (hx'.trans hb)
  refine ⟨a, b, ?_⟩
  have h1 := round_err_grid hf hx
  have h2 := mul_le_mul_of_nonneg_left hx' u0.le
  have := abs_add_le (f.round x - x) (x - s)
  rw [sub_add_sub_cancel] at this
  nlinarith

lemma gamma {k : ℕ} {u : ℝ} (u0 : 0 ≤ u) (h : k * u ≤ 1 / 100) : (1 + u) ^ k - 1 ≤ 101 / 100 * k * u := by
  have h0 : 0 ≤ k * u := by positivity
  have h1 : (1 + u) ^ k ≤ Real.exp (k * u) := by
    rw [Real.exp_nat_mul]
    exact pow_le_pow_left₀ (by positivity) (by linarith [Real.add_one_le_exp u]) k
  have h2 := Real.abs_exp_sub_one_sub_id_le (x := k * u) (by rw [abs_of_nonneg h0]; linarith)
  have := (abs_le.mp h2).2
  nlinarith

lemma leaves_pos {ι : Type} (t : SumOrder ι) : 1 ≤ t.leaves.length := by
  induction t with
  | leaf i => simp [SumOrder.leaves]
  | node l r hl hr => simp only [SumOrder.leaves, List.length_append]; omega

lemma abs_sum_le {ι : Type} (c : ι → ℝ) (l : List ι) : |(l.map c).sum| ≤ (l.map fun i => |c i|).sum := by
  induction l with
  | nil => simp
  | cons i l ih => simp only [List.map_cons, List.sum_cons]; exact (abs_add_le _ _).trans (by linarith)

lemma sum_abs_nonneg {ι : Type} (c : ι → ℝ) (l : List ι) : 0 ≤ (l.map fun i => |c i|).sum := (abs_nonneg _).trans (abs_sum_le c l)

/-- A reduction in any order. -/
lemma tree (hf : f.Ok) {ι : Type} (c : ι → ℝ) (t : SumOrder ι) (hc : ∀ i ∈ t.leaves, Storable f (c i))
    (hb : (1 + f.uu) ^ t.leaves.length * (t.leaves.map fun i => |c i|).sum ≤ 2 ^ (f.emax - 1)) :
    ∃ r, f.arith.reduce (fun i => .fin (c i)) t = .fin r ∧ Storable f r ∧
      |r - (t.leaves.map c).sum| ≤ ((1 + f.uu) ^ (t.leaves.length - 1) - 1) * (t.leaves.map fun i => |c i|).sum := by
  have u0 := uu_pos (f := f)
  induction t with
  | leaf i => exact ⟨c i, rfl, hc i (by simp [SumOrder.leaves]), by simp [SumOrder.leaves]⟩
  | node l r hl hr =>
    simp only [SumOrder.leaves, List.map_append, List.sum_append, List.length_append, List.mem_append] at hc hb ⊢
    have la := leaves_pos l
    have lb := leaves_pos r
    obtain ⟨a, ha⟩ : ∃ a, l.leaves.length = a + 1 := ⟨l.leaves.length - 1, by omega⟩
    obtain ⟨b, hb'⟩ : ∃ b, r.leaves.length = b + 1 := ⟨r.leaves.length - 1, by omega⟩
    rw [ha] at hl hb ⊢
    rw [hb'] at hr hb ⊢
    have s1 := sum_abs_nonneg c l.leaves
    have s2 := sum_abs_nonneg c r.leaves
    have g1 : ∀ {i j : ℕ}, i ≤ j → (1 + f.uu) ^ i ≤ (1 + f.uu) ^ j := fun h => pow_le_pow_right₀ (by linarith) h
    have gp : ∀ i : ℕ, 1 ≤ (1 + f.uu) ^ i := fun i => one_le_pow₀ (by linarith)
    obtain ⟨A1, hA1⟩ : ∃ A1, A1 = (l.leaves.map fun i => |c i|).sum := ⟨_, rfl⟩
    obtain ⟨A2, hA2⟩ : ∃ A2, A2 = (r.leaves.map fun i => |c i|).sum := ⟨_, rfl⟩
    rw [← hA1] at hl hb s1 ⊢
    rw [← hA2] at hr hb s2 ⊢
    have q1 : (1 + f.uu) ^ (a + 1) * A1 ≤ (1 + f.uu) ^ (a + 1 + (b + 1)) * (A1 + A2) := mul_le_mul (g1 (by omega)) (by linarith) s1 (by positivity)
    have q2 : (1 + f.uu) ^ (b + 1) * A2 ≤ (1 + f.uu) ^ (a + 1 + (b + 1)) * (A1 + A2) := mul_le_mul (g1 (by omega)) (by linarith) s2 (by positivity)
    obtain ⟨r1, e1, t1, b1⟩ := hl (fun i h => hc i (Or.inl h)) (q1.trans hb)
    obtain ⟨r2, e2, t2, b2⟩ := hr (fun i h => hc i (Or.inr h)) (q2.trans hb)
    have k1 : ((1 + f.uu) ^ a - 1) * A1 ≤ ((1 + f.uu) ^ (a + b) - 1) * A1 := mul_le_mul_of_nonneg_right (by linarith [g1 (show a ≤ a + b by omega)]) s1
    have k2 : ((1 + f.uu) ^ b - 1) * A2 ≤ ((1 + f.uu) ^ (a + b) - 1) * A2 := mul_le_mul_of_nonneg_right (by linarith [g1 (show b ≤ a + b by omega)]) s2
    rw [Nat.add_sub_cancel] at b1 b2
    have b3 : |r1 + r2 - ((l.leaves.map c).sum + (r.leaves.map c).sum)| ≤ ((1 + f.uu) ^ (a + b) - 1) * (A1 + A2) := by
      have := abs_add_le (r1 - (l.leaves.map c).sum) (r2 - (r.leaves.map c).sum)
      rw [show r1 - (l.leaves.map c).sum + (r2 - (r.leaves.map c).sum) = r1 + r2 - ((l.leaves.map c).sum + (r.leaves.map c).sum) by ring] at this
      linarith
    have ss : |(l.leaves.map c).sum + (r.leaves.map c).sum| ≤ A1 + A2 := by
      rw [hA1, hA2]
      exact (abs_add_le _ _).trans (add_le_add (abs_sum_le _ _) (abs_sum_le _ _))
    have gb : (1 + f.uu) ^ (a + b) * (A1 + A2) ≤ 2 ^ (f.emax - 1) :=
      (mul_le_mul_of_nonneg_right (g1 (by omega)) (by linarith)).trans hb
    obtain ⟨z1, z2, z3⟩ := add_step hf ((stored_grid t1).add (stored_grid t2)) b3 ss gb
    refine ⟨_, ?_, z1, ?_⟩
    · change f.arith.add (f.arith.reduce _ l) (f.arith.reduce _ r) = _
      rw [e1, e2]; exact z2
    · rw [show a + 1 + (b + 1) - 1 = a + b + 1 by omega, pow_succ]; exact z3

/-- A reduction of whole multiples of one number is exact in any order. -/
lemma tree_exact {ι : Type} {k : ℤ} (hk : f.emin ≤ k) (hk' : k + f.p ≤ f.emax) (c : ι → ℝ) (t : SumOrder ι) (hc : ∀ i ∈ t.leaves, OnGrid k (c i))
    (hb : (t.leaves.map fun i => |c i|).sum < 2 ^ (k + f.p)) :
    OnGrid k (t.leaves.map c).sum ∧ f.arith.reduce (fun i => .fin (c i)) t = .fin (t.leaves.map c).sum := by
  induction t with
  | leaf i => simpa [SumOrder.leaves, XArith.reduce] using hc
  | node l r hl hr =>
    simp only [SumOrder.leaves, List.map_append, List.sum_append, List.mem_append] at hc hb ⊢
    have s1 := sum_abs_nonneg c l.leaves
    have s2 := sum_abs_nonneg c r.leaves
    obtain ⟨g1, e1⟩ := hl (fun i h => hc i (Or.inl h)) (by linarith)
    obtain ⟨g2, e2⟩ := hr (fun i h => hc i (Or.inr h)) (by linarith)
    refine ⟨g1.add g2, ?_⟩
    have hlt : |(l.leaves.map c).sum + (r.leaves.map c).sum| < 2 ^ (k + f.p) :=
      ((abs_add_le _ _).trans (add_le_add (abs_sum_le _ _) (abs_sum_le _ _))).trans_lt hb
    change f.arith.add (f.arith.reduce _ l) (f.arith.reduce _ r) = _
    rw [e1, e2]
    exact stored_iff.mpr ⟨round_onGrid hk (g1.add g2) hlt, hlt.trans_le (zpow_le_zpow_right₀ (by norm_num) hk')⟩

/-- The left-to-right sum as an order. -/
lemma comb {ι : Type} (A : XArith) (c : ι → XR) (l : List ι) (t : SumOrder ι) :
    (l.foldl (fun t i => SumOrder.node t (.leaf i)) t).leaves = t.leaves ++ l ∧
    A.reduce c (l.foldl (fun t i => SumOrder.node t (.leaf i)) t) = l.foldl (fun a i => A.add a (c i)) (A.reduce c t) := by
  induction l generalizing t with
  | nil => simp
  | cons i l ih =>
    obtain ⟨h1, h2⟩ := ih (.node t (.leaf i))
    refine ⟨?_, h2⟩
    rw [List.foldl_cons, h1]; simp [SumOrder.leaves]

lemma big_pow (f : Format) : (2 : ℝ) ^ (f.emax - 1) = 2 * 2 ^ (f.emax - 2) := by
  rw [show f.emax - 1 = 1 + (f.emax - 2) by ring, zpow_add₀ (by norm_num), zpow_one]

lemma tree_acc (hf : f.Ok) {ι : Type} (c : ι → ℝ) (t : SumOrder ι) (hc : ∀ i ∈ t.leaves, Storable f (c i)) {m : ℕ} (hm : t.leaves.length = m + 1)
    (hn : (m + 1) * f.uu ≤ 1 / 100) (hb : (t.leaves.map fun i => |c i|).sum ≤ 15 / 8 * 2 ^ (f.emax - 2)) :
    ∃ r, f.arith.reduce (fun i => .fin (c i)) t = .fin r ∧ Storable f r ∧
      |r - (t.leaves.map c).sum| ≤ 101 / 100 * m * f.uu * (t.leaves.map fun i => |c i|).sum := by
  have u0 := uu_pos (f := f)
  have s0 := sum_abs_nonneg c t.leaves
  have g := gamma (k := m + 1) u0.le (by push_cast; exact hn)
  have g' := gamma (k := m) u0.le (by nlinarith)
  push_cast at g
  obtain ⟨r, e, h, b⟩ := tree hf c t hc (by
    rw [hm, big_pow]
    have : (1 + f.uu) ^ (m + 1) ≤ 1 + 2 / 100 := by nlinarith
    have := mul_le_mul_of_nonneg_right this s0
    have : (0 : ℝ) < 2 ^ (f.emax - 2) := by positivity
    linarith)
  refine ⟨r, e, h, b.trans ?_⟩
  rw [hm, Nat.add_sub_cancel]
  exact mul_le_mul_of_nonneg_right g' s0

lemma complete_sum {t : SumOrder (Fin n)} (ht : Complete t) (c : Fin n → ℝ) : (t.leaves.map c).sum = ∑ i, c i := by
  rw [(ht.map c).sum_eq, ← List.ofFn_eq_map, List.sum_ofFn]

lemma complete_len {t : SumOrder (Fin n)} (ht : Complete t) : t.leaves.length = n := by rw [ht.length_eq, List.length_finRange]

lemma complete_mem {t : SumOrder (Fin n)} (ht : Complete t) (i : Fin n) : i ∈ t.leaves := ht.mem_iff.mpr (List.mem_finRange i)

/-- **C115 (sum).** `sum()` adds the coefficients with a relative error, in whatever order they are added. -/
theorem C115_sum (hf : AtLeastFloat f) {t : SumOrder (Fin n)} (ht : Complete t) (a : Fin n → ℝ) (ha : ∀ i, Storable f (a i))
    (hn : (n : ℝ) * 2⁻¹ ^ f.p ≤ 1 / 100) (hS : ∑ i, |a i| ≤ 2 ^ (f.emax - 2)) :
    ∃ r, f.arith.vSum t (embV a) = .fin r ∧ Storable f r ∧ |r - ∑ i, a i| ≤ 101 / 100 * (n - 1) * 2⁻¹ ^ f.p * ∑ i, |a i| := by
  have len := complete_len ht
  have pos := leaves_pos t
  obtain ⟨m, hm⟩ : ∃ m, n = m + 1 := ⟨n - 1, by omega⟩
  have hm' : (n : ℝ) = m + 1 := by rw [hm]; push_cast; rfl
  have P : (0 : ℝ) < 2 ^ (f.emax - 2) := by positivity
  obtain ⟨r, e, h, b⟩ := tree_acc (alf_ok hf) a t (fun i _ => ha i) (len.trans hm) (by rw [← hm']; exact hn)
    (by rw [complete_sum ht]; linarith)
  rw [complete_sum ht, complete_sum ht] at b
  exact ⟨r, e, h, by rw [hm', add_sub_cancel_right]; exact b⟩

/-- **C115 (exact sums).** Whole multiples of `2 ^ k` with absolute values adding up to less than `2 ^ (k + p)` are added exactly,
in whatever order. -/
theorem C115_sum_exact {k : ℤ} (hk : f.emin ≤ k) (hk' : k + f.p ≤ f.emax) {t : SumOrder (Fin n)} (ht : Complete t) (a : Fin n → ℝ)
    (ha : ∀ i, MultipleOf k (a i)) (hS : ∑ i, |a i| < 2 ^ (k + f.p)) : f.arith.vSum t (embV a) = .fin (∑ i, a i) := by
  have := (tree_exact hk hk' a t (fun i _ => ha i) (by rwa [complete_sum ht])).2
  rwa [complete_sum ht] at this

lemma rounded_list (hf : f.Ok) {ι : Type} (x : ι → ℝ) (l : List ι) {D : ℝ} (hD : (l.map fun i => |x i|).sum ≤ D) (hD2 : D ≤ 2 ^ (f.emax - 1)) :
    (∀ i ∈ l, f.arith.rnd (x i) = .fin (f.round (x i)) ∧ Storable f (f.round (x i))) ∧
    (l.map fun i => |f.round (x i)|).sum ≤ (1 + f.uu) * (l.map fun i => |x i|).sum + l.length * f.eta ∧
    |(l.map fun i => f.round (x i)).sum - (l.map x).sum| ≤ f.uu * (l.map fun i => |x i|).sum + l.length * f.eta := by
  induction l generalizing D with
  | nil => simp
  | cons i l ih =>
    simp only [List.map_cons, List.sum_cons, List.length_cons, List.mem_cons, forall_eq_or_imp] at hD ⊢
    have s0 := sum_abs_nonneg x l
    obtain ⟨h1, h2, h3⟩ := ih (D := D) (by linarith [abs_nonneg (x i)]) hD2
    obtain ⟨a, b⟩ := storable_of_rnd hf (x := x i) (by linarith)
    have e := err hf (x i)
    have e' : |f.round (x i)| ≤ |x i| + (f.uu * |x i| + f.eta) := by
      have := abs_add_le (x i) (f.round (x i) - x i)
      rw [add_sub_cancel] at this; linarith
    refine ⟨⟨⟨b, a⟩, h1⟩, ?_, ?_⟩
    · push_cast; linarith
    · have := abs_add_le (f.round (x i) - x i) ((l.map fun i => f.round (x i)).sum - (l.map x).sum)
      rw [show f.round (x i) - x i + ((l.map fun i => f.round (x i)).sum - (l.map x).sum) =
        f.round (x i) + (l.map fun i => f.round (x i)).sum - (x i + (l.map x).sum) by ring] at this
      push_cast; linarith

lemma len_eta (hf : f.Ok) {m : ℝ} (m0 : 0 ≤ m) (h : m * f.uu ≤ 1 / 100) : m * f.eta ≤ 1 / 8 * 2 ^ (f.emax - 2) := by
  have u0 := uu_pos (f := f)
  have u1 := uu_le hf
  have e := eta_le_sq hf
  have h1 : m * f.eta ≤ m * (f.uu ^ 2 / 32) := mul_le_mul_of_nonneg_left e m0
  have h2 : m * (f.uu ^ 2 / 32) = m * f.uu * f.uu / 32 := by ring
  have h3 : m * f.uu * f.uu ≤ 1 / 100 * (1 / 256) := mul_le_mul h u1 u0.le (by norm_num)
  have h4 : (1 : ℝ) ≤ 2 ^ (f.emax - 2) := one_le_zpow₀ (by norm_num) (by have := hf.emax; omega)
  linarith

/-- **C115 (dot).** `dot()` in any order: a relative error with respect to the absolute values of the products, and the underflow of
the products. -/
theorem C115_dot (hf : AtLeastFloat f) {t : SumOrder (Fin n)} (ht : Complete t) (a b : Fin n → ℝ)
    (hn : (n : ℝ) * 2⁻¹ ^ f.p ≤ 1 / 100) (hS : ∑ i, |a i * b i| ≤ 2 ^ (f.emax - 2)) :
    ∃ r, f.arith.vDot t (embV a) (embV b) = .fin r ∧ Storable f r ∧
      |r - ∑ i, a i * b i| ≤ 102 / 100 * n * (2⁻¹ ^ f.p * ∑ i, |a i * b i| + 2 ^ (f.emin - 1)) := by
  have ok := alf_ok hf
  have len := complete_len ht
  have pos := leaves_pos t
  have u0 := uu_pos (f := f)
  have e0 := eta_pos (f := f)
  have u1 := uu_le ok
  have P : (0 : ℝ) < 2 ^ (f.emax - 2) := by positivity
  obtain ⟨m, hm⟩ : ∃ m, n = m + 1 := ⟨n - 1, by omega⟩
  have hm' : (n : ℝ) = m + 1 := by rw [hm]; push_cast; rfl
  obtain ⟨c1, c2, c3⟩ := rounded_list ok (fun i => a i * b i) t.leaves le_rfl (by rw [complete_sum ht, big_pow]; linarith)
  rw [len] at c2 c3
  have ne := len_eta ok (m := n) (by positivity) hn
  change (n : ℝ) * f.uu ≤ _ at hn
  obtain ⟨D, hD⟩ : ∃ D, D = ∑ i, |a i * b i| := ⟨_, rfl⟩
  have D0 : 0 ≤ D := by rw [hD]; exact Finset.sum_nonneg fun i _ => abs_nonneg _
  rw [complete_sum ht (fun i => |a i * b i|), ← hD] at c2 c3
  rw [← hD] at hS ⊢
  have uD : f.uu * D ≤ 1 / 256 * D := mul_le_mul_of_nonneg_right u1 D0
  obtain ⟨r, e, h, bd⟩ := tree_acc ok (fun i => f.round (a i * b i)) t (fun i hi => (c1 i hi).2) (len.trans hm) (by rw [← hm']; exact hn)
    (by linarith)
  refine ⟨r, ?_, h, ?_⟩
  · rw [← e]
    unfold XArith.vDot
    congr 1
    funext i
    exact (c1 i (complete_mem ht i)).1
  · rw [complete_sum ht] at bd c3
    rw [complete_sum ht (fun i => a i * b i)] at c3
    have := abs_add_le (r - ∑ i, f.round (a i * b i)) (∑ i, f.round (a i * b i) - ∑ i, a i * b i)
    rw [sub_add_sub_cancel] at this
    change _ ≤ 102 / 100 * (n : ℝ) * (f.uu * D + f.eta)
    have m0 : (0 : ℝ) ≤ m := Nat.cast_nonneg m
    have mu : m * f.uu ≤ 1 / 100 := by rw [hm'] at hn; linarith
    have k1 : 101 / 100 * m * f.uu * (t.leaves.map fun i => |f.round (a i * b i)|).sum ≤ 101 / 100 * m * f.uu * ((1 + f.uu) * D + n * f.eta) :=
      mul_le_mul_of_nonneg_left c2 (by positivity)
    have k2 : m * f.uu * (n * f.eta) ≤ 1 / 100 * (n * f.eta) := mul_le_mul_of_nonneg_right mu (by positivity)
    have k3 : m * f.uu * (f.uu * D) ≤ m * f.uu * (1 / 256 * D) := mul_le_mul_of_nonneg_left uD (by positivity)
    have k4 : 0 ≤ m * f.uu * D := by positivity
    have k5 : 0 ≤ f.uu * D := by positivity
    rw [show (102 / 100 * (n : ℝ) * (f.uu * D + f.eta)) = 102 / 100 * (m * f.uu * D) + 102 / 100 * (f.uu * D) + 102 / 100 * (n * f.eta) by rw [hm']; ring]
    rw [show 101 / 100 * m * f.uu * ((1 + f.uu) * D + n * f.eta) = 101 / 100 * (m * f.uu * D) + 101 / 100 * (m * f.uu * (f.uu * D)) + 101 / 100 * (m * f.uu * (n * f.eta)) by ring] at k1
    have k6 : 0 ≤ (n : ℝ) * f.eta := by positivity
    rw [show m * f.uu * (1 / 256 * D) = 1 / 256 * (m * f.uu * D) by ring] at k3
    linarith

end Format
end Kindr
