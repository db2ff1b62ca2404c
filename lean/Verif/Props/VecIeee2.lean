import Verif.Props.VecIeee1

/-!
# C115: loops over vectors and wrenches, integration of positions, differences, cross products
-/

set_option autoImplicit false

open Classical

noncomputable section
namespace Kindr
open Spec

namespace Format
variable {f : Format} {n : ℕ}

/-- **C115 (mean).** -/
theorem C115_mean (hf : AtLeastFloat f) {t : SumOrder (Fin n)} (ht : Complete t) (a : Fin n → ℝ) (ha : ∀ i, Storable f (a i))
    (hn : (n : ℝ) * 2⁻¹ ^ f.p ≤ 1 / 100) (hS : ∑ i, |a i| ≤ 2 ^ (f.emax - 2)) :
    ∃ r, f.arith.vMean t (embV a) = .fin r ∧ |r - (∑ i, a i) / n| ≤ 102 / 100 * 2⁻¹ ^ f.p * ∑ i, |a i| + 2 ^ (f.emin - 1) := by
  have ok := alf_ok hf
  obtain ⟨s, e, _, b⟩ := C115_sum hf ht a ha hn hS
  have n1 : 1 ≤ n := by have := complete_len ht; have := leaves_pos t; omega
  have n1' : (1 : ℝ) ≤ n := by exact_mod_cast n1
  have u0 := uu_pos (f := f)
  have u1 := uu_le ok
  have e0 := eta_pos (f := f)
  change (n : ℝ) * f.uu ≤ _ at hn
  change |s - ∑ i, a i| ≤ 101 / 100 * (n - 1) * f.uu * ∑ i, |a i| at b
  change ∃ r, _ ∧ _ ≤ 102 / 100 * f.uu * ∑ i, |a i| + f.eta
  have P : (0 : ℝ) < 2 ^ (f.emax - 2) := by positivity
  have two : (2 : ℝ) ^ (0 + (f.p : ℤ)) * f.uu = 1 := by unfold uu; rw [zero_add, zpow_natCast, ← mul_pow]; norm_num
  have np : (n : ℝ) < 2 ^ (0 + (f.p : ℤ)) := by
    by_contra hh
    have := mul_le_mul_of_nonneg_right (not_lt.mp hh) u0.le
    linarith
  have rn : f.arith.rnd n = .fin n := by
    refine stored_iff.mpr ⟨round_onGrid (k := 0) (by have := hf.emin; omega) ⟨n, by simp⟩ (by rwa [Nat.abs_cast]), ?_⟩
    rw [Nat.abs_cast]
    exact np.trans_le (zpow_le_zpow_right₀ (by norm_num) (by have := hf.emax; omega))
  obtain ⟨D, hD⟩ : ∃ D, D = ∑ i, |a i| := ⟨_, rfl⟩
  have D0 : 0 ≤ D := by rw [hD]; exact Finset.sum_nonneg fun i _ => abs_nonneg _
  have sD : |∑ i, a i| ≤ D := by rw [hD]; exact Finset.abs_sum_le_sum_abs _ _
  rw [← hD] at hS b ⊢
  have nn : (0 : ℝ) < n := by linarith
  have q1 : |s / n - (∑ i, a i) / n| ≤ 101 / 100 * (n - 1) * f.uu * D / n := by
    rw [← sub_div, abs_div, abs_of_pos nn]; exact div_le_div_of_nonneg_right b nn.le
  have nu : 101 / 100 * (n - 1) * f.uu * D ≤ 2 / 100 * D := mul_le_mul_of_nonneg_right (by nlinarith) D0
  have sb : |s| ≤ 102 / 100 * D := by
    have := abs_add_le (s - ∑ i, a i) (∑ i, a i)
    rw [sub_add_cancel] at this; linarith
  have q2 : |s / n| ≤ 102 / 100 * D / n := by rw [abs_div, abs_of_pos nn]; exact div_le_div_of_nonneg_right sb nn.le
  have q3 : 102 / 100 * D / n ≤ 102 / 100 * D := div_le_self (by linarith) n1'
  have fin := fin_of ok (x := s / n) (by rw [big_pow]; linarith)
  have er := err ok (s / n)
  refine ⟨f.round (s / n), ?_, ?_⟩
  · unfold XArith.vMean
    rw [e, rn]
    change (if (n : ℝ) = 0 then _ else f.arith.rnd (s / n)) = _
    rw [if_neg nn.ne', fin]
  · have := abs_add_le (f.round (s / n) - s / n) (s / n - (∑ i, a i) / n)
    rw [sub_add_sub_cancel] at this
    have q4 := mul_le_mul_of_nonneg_left q2 u0.le
    have : f.uu * (102 / 100 * D / n) + 101 / 100 * (n - 1) * f.uu * D / n ≤ 102 / 100 * f.uu * D := by
      rw [← mul_div_assoc, ← add_div, div_le_iff₀ nn]
      nlinarith [mul_nonneg u0.le D0]
    linarith

lemma loop_apply (A : XArith) (s : XVec n) (l : List (XVec n)) (i : Fin n) :
    sumLoop A s l i = l.foldl (fun a v => A.add a (v i)) (s i) := by
  unfold sumLoop
  induction l generalizing s with
  | nil => rfl
  | cons v l ih => exact ih _

lemma scalar_loop (hf : f.Ok) (s : ℝ) (l : List ℝ) (hs : Storable f s) (hl : ∀ x ∈ l, Storable f x)
    (hn : (l.length + 1) * f.uu ≤ 1 / 100) (hb : |s| + (l.map fun x => |x|).sum ≤ 15 / 8 * 2 ^ (f.emax - 2)) :
    ∃ r, l.foldl (fun a x => f.arith.add a (.fin x)) (.fin s) = .fin r ∧ Storable f r ∧
      |r - (s + l.sum)| ≤ 101 / 100 * l.length * f.uu * (|s| + (l.map fun x => |x|).sum) := by
  obtain ⟨h1, h2⟩ := comb f.arith (fun x : ℝ => XR.fin x) l (.leaf s)
  obtain ⟨r, e, h, b⟩ := tree_acc hf (fun x => x) (l.foldl (fun t i => SumOrder.node t (.leaf i)) (.leaf s))
    (by rw [h1]; intro x hx; rcases List.mem_append.mp hx with hx | hx
        · rw [List.mem_singleton.mp hx]; exact hs
        · exact hl x hx) (m := l.length) (by rw [h1]; simp [SumOrder.leaves, Nat.add_comm]) hn
    (by rw [h1]; simpa [SumOrder.leaves] using hb)
  refine ⟨r, by rw [← e, h2]; rfl, h, ?_⟩
  rw [h1] at b
  simpa [SumOrder.leaves] using b

/-- **C115 (accumulating vectors).** -/
theorem C115_accumulate (hf : AtLeastFloat f) (s : Fin n → ℝ) (l : List (Fin n → ℝ)) (hs : ∀ i, Storable f (s i))
    (hl : ∀ v ∈ l, ∀ i, Storable f (v i)) (hn : (l.length + 1 : ℝ) * 2⁻¹ ^ f.p ≤ 1 / 100)
    (hb : ∀ i, |s i| + (l.map fun v => |v i|).sum ≤ 2 ^ (f.emax - 2)) :
    ∃ S : Fin n → ℝ, sumLoop f.arith (embV s) (l.map embV) = embV S ∧ ∀ i, Storable f (S i) ∧
      |S i - (s i + (l.map fun v => v i).sum)| ≤ 101 / 100 * l.length * 2⁻¹ ^ f.p * (|s i| + (l.map fun v => |v i|).sum) := by
  have P : (0 : ℝ) < 2 ^ (f.emax - 2) := by positivity
  have key : ∀ i, ∃ r, sumLoop f.arith (embV s) (l.map embV) i = .fin r ∧ Storable f r ∧
      |r - (s i + (l.map fun v => v i).sum)| ≤ 101 / 100 * l.length * 2⁻¹ ^ f.p * (|s i| + (l.map fun v => |v i|).sum) := by
    intro i
    have e : (l.map fun v => |v i|) = (l.map fun v => v i).map fun x => |x| := by simp
    have hb' := hb i
    rw [e] at hb' ⊢
    obtain ⟨r, e1, e2, e3⟩ := scalar_loop (alf_ok hf) (s i) (l.map fun v => v i) (hs i)
      (by intro x hx; obtain ⟨v, hv, rfl⟩ := List.mem_map.mp hx; exact hl v hv i) (by rw [List.length_map]; exact hn) (by linarith)
    refine ⟨r, ?_, e2, ?_⟩
    · rw [loop_apply, ← e1, List.foldl_map, List.foldl_map]; rfl
    · rw [List.length_map] at e3; exact e3
  choose S h1 h2 h3 using key
  exact ⟨S, funext h1, fun i => ⟨h2 i, h3 i⟩⟩

/-- **C115 (order of additions).** Any other order of the same vectors gives nearly the same sum. -/
theorem C115_order (hf : AtLeastFloat f) (s : Fin n → ℝ) {l l' : List (Fin n → ℝ)} (hp : l.Perm l') (hs : ∀ i, Storable f (s i))
    (hl : ∀ v ∈ l, ∀ i, Storable f (v i)) (hn : (l.length + 1 : ℝ) * 2⁻¹ ^ f.p ≤ 1 / 100)
    (hb : ∀ i, |s i| + (l.map fun v => |v i|).sum ≤ 2 ^ (f.emax - 2)) :
    ∃ S S' : Fin n → ℝ, sumLoop f.arith (embV s) (l.map embV) = embV S ∧ sumLoop f.arith (embV s) (l'.map embV) = embV S' ∧
      ∀ i, |S i - S' i| ≤ 202 / 100 * l.length * 2⁻¹ ^ f.p * (|s i| + (l.map fun v => |v i|).sum) := by
  obtain ⟨S, e, h⟩ := C115_accumulate hf s l hs hl hn hb
  have pe : ∀ i, (l'.map fun v => |v i|).sum = (l.map fun v => |v i|).sum := fun i => ((hp.map _).sum_eq).symm
  have ps : ∀ i, (l'.map fun v => v i).sum = (l.map fun v => v i).sum := fun i => ((hp.map _).sum_eq).symm
  obtain ⟨S', e', h'⟩ := C115_accumulate hf s l' hs (fun v hv => hl v (hp.mem_iff.mpr hv)) (by rw [← hp.length_eq]; exact hn)
    (fun i => by rw [pe]; exact hb i)
  refine ⟨S, S', e, e', fun i => ?_⟩
  have a := (h i).2
  have b := (h' i).2
  rw [pe, ps, ← hp.length_eq] at b
  obtain ⟨T, hT⟩ : ∃ T, T = s i + (l.map fun v => v i).sum := ⟨_, rfl⟩
  rw [← hT] at a b
  have := abs_sub_le (S i) T (S' i)
  rw [abs_sub_comm T] at this
  linarith

/-- **C115 (exact accumulation).** Whole multiples of `2 ^ k` with absolute values adding up to less than `2 ^ (k + p)` are summed
exactly, so the order makes no difference. -/
theorem C115_accumulate_exact {k : ℤ} (hk : f.emin ≤ k) (hk' : k + f.p ≤ f.emax) (s : Fin n → ℝ) (l : List (Fin n → ℝ))
    (hs : ∀ i, MultipleOf k (s i)) (hl : ∀ v ∈ l, ∀ i, MultipleOf k (v i)) (hb : ∀ i, |s i| + (l.map fun v => |v i|).sum < 2 ^ (k + f.p)) :
    sumLoop f.arith (embV s) (l.map embV) = embV fun i => s i + (l.map fun v => v i).sum := by
  funext i
  obtain ⟨h1, h2⟩ := comb f.arith (fun x : ℝ => XR.fin x) (l.map fun v => v i) (.leaf (s i))
  obtain ⟨-, e⟩ := tree_exact hk hk' (fun x => x) ((l.map fun v => v i).foldl (fun t i => SumOrder.node t (.leaf i)) (.leaf (s i)))
    (by rw [h1]; intro x hx; rcases List.mem_append.mp hx with hx | hx
        · rw [List.mem_singleton.mp hx]; exact hs i
        · obtain ⟨v, hv, rfl⟩ := List.mem_map.mp hx; exact hl v hv i)
    (by rw [h1]; have := hb i; simpa [SumOrder.leaves, Function.comp_def] using this)
  rw [h1, h2] at e
  rw [loop_apply, List.foldl_map]
  rw [List.foldl_map] at e
  simpa [SumOrder.leaves, Function.comp_def, XArith.reduce, embV] using e

/-- **C115 (finding).** The order does matter: adding `2 ^ (p + 2)`, `1` and `-2 ^ (p + 2)` gives 0 in this order and 1 if the two large
numbers come first. -/
theorem C115_order_matters (hf : AtLeastFloat f) :
    sumLoop (n := 1) f.arith (embV 0) [embV ![2 ^ (f.p + 2)], embV ![1], embV ![-2 ^ (f.p + 2)]] = embV ![0] ∧
    sumLoop (n := 1) f.arith (embV 0) [embV ![2 ^ (f.p + 2)], embV ![-2 ^ (f.p + 2)], embV ![1]] = embV ![1] := by
  have ok := alf_ok hf
  have k0 := hf.emin
  have k1 := hf.emax
  have hu := uu_pos (f := f)
  have e2 : (2 : ℝ) ^ (f.p + 2) = 2 ^ ((f.p : ℤ) + 2) := by rw [← zpow_natCast]; push_cast; rfl
  have eu : (2 : ℝ) ^ (f.p + 2) * f.uu = 4 := by
    unfold uu; rw [pow_add, mul_right_comm, ← mul_pow]; norm_num
  have hlt : (2 : ℝ) ^ (f.p + 2) < 2 ^ f.emax := by rw [e2]; exact zpow_lt_zpow_right₀ (by norm_num) (by omega)
  have z0 : f.arith.rnd 0 = .fin 0 := f.arith.rnd_zero
  have r1 : f.arith.rnd (2 ^ (f.p + 2)) = .fin (2 ^ (f.p + 2)) :=
    stored_iff.mpr ⟨by rw [e2, round_pow ok (by omega)], by rw [abs_of_pos (by positivity)]; exact hlt⟩
  have r2 : f.arith.rnd (2 ^ (f.p + 2) + 1) = .fin (2 ^ (f.p + 2)) := by
    have h := round_near_pow ok (j := (f.p : ℤ) + 2) (x := 2 ^ (f.p + 2) + 1) (by omega) (by rw [← e2, eu]; norm_num)
    change (if 2 ^ f.emax ≤ |f.round _| then XR.inf _ else .fin (f.round _)) = _
    rw [h, ← e2, if_neg (by rw [abs_of_pos (by positivity)]; exact not_le.mpr hlt)]
  have r3 : f.arith.rnd 1 = .fin 1 := rnd_one hf (by rw [sub_self, abs_zero]; linarith)
  constructor
  all_goals
    funext i
    fin_cases i
    simp [sumLoop, XArith.vAdd, embV, XArith.add, r1, r2, r3, z0]

end Format
end Kindr
