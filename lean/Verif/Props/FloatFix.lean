import Verif.Props.Float

/-!
# C78: a floating-point history that is renormalized with `fix()` after every product

`q = q * qᵢ; q.fix();` — in contrast to C56, where the norm drifts, the norm stays within five units of rounding for ever, and
the direction error grows only linearly with the number of steps.
-/

set_option autoImplicit false

noncomputable section
namespace Kindr
open Spec

namespace Spec

/-- The user loop `for (qi : l) { q = q * qi; q.fix(); }` in rounded arithmetic. -/
def fixedHistory (F : FloatArith) (acc : Quat) (l : List Quat) : Quat := l.foldl (fun a q => F.quatFix (F.quatMul a q)) acc

/-- The exact unit quaternion in the direction of `q`. -/
def dirH (q : Quat) : Quaternion ℝ := ‖toH q‖⁻¹ • toH q

/-- The exact product of the directions. -/
def exactDirection (acc : Quat) (l : List Quat) : Quaternion ℝ := dirH acc * (l.map dirH).prod

end Spec

private lemma norm_dirH {q : Quat} (h : toH q ≠ 0) : ‖dirH q‖ = 1 := by
  rw [dirH, norm_smul, norm_inv, norm_norm, inv_mul_cancel₀ (norm_ne_zero_iff.mpr h)]

/-- Normalizing two nearby vectors. -/
private lemma normalize_diff (x y : Quaternion ℝ) (hy : y ≠ 0) :
    ‖‖x‖⁻¹ • x - ‖y‖⁻¹ • y‖ ≤ 2 * (‖x - y‖ / ‖y‖) := by
  have hny : 0 < ‖y‖ := norm_pos_iff.mpr hy
  have e : ‖x‖⁻¹ • x - ‖y‖⁻¹ • y = ‖y‖⁻¹ • (x - y) + (‖x‖⁻¹ - ‖y‖⁻¹) • x := by
    rw [smul_sub, sub_smul]; abel
  rw [e]
  refine (norm_add_le _ _).trans ?_
  rw [norm_smul, norm_smul, norm_inv, norm_norm, Real.norm_eq_abs]
  have h2 : |‖x‖⁻¹ - ‖y‖⁻¹| * ‖x‖ ≤ ‖x - y‖ / ‖y‖ := by
    by_cases hx : x = 0
    · rw [hx]; simp; positivity
    have hnx : 0 < ‖x‖ := norm_pos_iff.mpr hx
    have e2 : ‖x‖⁻¹ - ‖y‖⁻¹ = (‖y‖ - ‖x‖) / (‖x‖ * ‖y‖) := by field_simp
    rw [e2, abs_div, abs_of_pos (mul_pos hnx hny), div_mul_eq_mul_div, div_le_div_iff₀ (mul_pos hnx hny) hny]
    have h3 : |‖y‖ - ‖x‖| ≤ ‖x - y‖ := by rw [norm_sub_rev]; exact abs_norm_sub_norm_le y x
    have := mul_le_mul_of_nonneg_right h3 (mul_pos hnx hny).le
    nlinarith
  have h1 : ‖y‖⁻¹ * ‖x - y‖ = ‖x - y‖ / ‖y‖ := by rw [div_eq_inv_mul]
  linarith

private lemma fix_dist (F : FloatArith) {q : Quat} (hq : toH q ≠ 0) :
    ‖toH (F.quatFix q) - dirH q‖ ≤ 5 * F.u ∧ toH (F.quatFix q) ≠ 0 := by
  have hu := F.u_nonneg
  have hu1 : F.u ≤ 1 / 10000000 := F.u_le.trans (by norm_num)
  obtain ⟨h0, hw, hx, hy, hz, -⟩ := C57_fix_rounded F q hq
  constructor
  · have key : ‖toH (F.quatFix q) - dirH q‖ ^ 2 ≤ (5 * F.u) ^ 2 := by
      have hd : ‖dirH q‖ ^ 2 = 1 := by rw [norm_dirH hq, one_pow]
      have hn : ∀ p : Quaternion ℝ, ‖p‖ ^ 2 = p.re ^ 2 + p.imI ^ 2 + p.imJ ^ 2 + p.imK ^ 2 := fun p => by
        rw [sq, ← Quaternion.normSq_eq_norm_mul_self, Quaternion.normSq_def']
      rw [hn] at hd ⊢
      have c : ∀ {a b : ℝ}, |a - b| ≤ 5 * F.u * |b| → (a - b) ^ 2 ≤ (5 * F.u) ^ 2 * b ^ 2 := fun {a b} h => by
        rw [← sq_abs (a - b), ← sq_abs b, ← mul_pow]; exact pow_le_pow_left₀ (abs_nonneg _) h 2
      have e : (dirH q).re = q.w / q.norm ∧ (dirH q).imI = q.x / q.norm ∧ (dirH q).imJ = q.y / q.norm ∧
          (dirH q).imK = q.z / q.norm := by
        refine ⟨?_, ?_, ?_, ?_⟩ <;> simp [dirH, norm_toH, div_eq_inv_mul]
      rw [e.1, e.2.1, e.2.2.1, e.2.2.2] at hd
      simp only [Quaternion.re_sub, Quaternion.imI_sub, Quaternion.imJ_sub, Quaternion.imK_sub, toH_re, toH_imI, toH_imJ, toH_imK]
      rw [e.1, e.2.1, e.2.2.1, e.2.2.2]
      have := c hw; have := c hx; have := c hy; have := c hz
      nlinarith
    exact abs_le_of_sq_le_sq' key (by linarith) |>.2
  · intro h
    have : (F.quatFix q).norm = 0 := by rw [← norm_toH, h, norm_zero]
    rw [this] at h0
    rw [zero_sub, abs_neg, abs_one] at h0
    linarith

/-- **C78.** For every start and every list of factors (of any nonzero length: the factors need not even be normalized), after
at least one step of `q = q * qᵢ; q.fix();` in rounded arithmetic
* the norm is within `5u` of one, however long the history, and the debug constructor accepts the value;
* the value is within `(27·n + 5)·u` of the exact product of the directions of the factors. -/
theorem C78_renormalized_history (F : FloatArith) (acc : Quat) (l : List Quat) (hacc : toH acc ≠ 0) (hl : ∀ q ∈ l, toH q ≠ 0)
    (hne : l ≠ []) :
    |(fixedHistory F acc l).norm - 1| ≤ 5 * F.u ∧
    quatCtorDbg (fixedHistory F acc l) = .ok (fixedHistory F acc l) ∧
    ‖exactDirection acc l‖ = 1 ∧
    ‖toH (fixedHistory F acc l) - exactDirection acc l‖ ≤ (27 * l.length + 5) * F.u := by
  have hu := F.u_nonneg
  have hu1 : F.u ≤ 1 / 10000000 := F.u_le.trans (by norm_num)
  have hg := quatMulErr_le F
  have hg0 := quatMulErr_nonneg hu
  -- one step
  have hstep : ∀ a q : Quat, toH a ≠ 0 → toH q ≠ 0 → toH (F.quatMul a q) ≠ 0 ∧
      ‖dirH (F.quatFix (F.quatMul a q)) - dirH a * dirH q‖ ≤ 27 * F.u := by
    intro a q ha hq
    have hN : 0 < ‖toH a‖ * ‖toH q‖ := mul_pos (norm_pos_iff.mpr ha) (norm_pos_iff.mpr hq)
    have h1 := quatMul_err F a q
    have hmul : toH a * toH q ≠ 0 := mul_ne_zero ha hq
    have hne : toH (F.quatMul a q) ≠ 0 := by
      intro h0
      rw [h0, zero_sub, norm_neg, norm_mul] at h1
      nlinarith
    refine ⟨hne, ?_⟩
    have d1 := normalize_diff (toH (F.quatMul a q)) (toH a * toH q) hmul
    have d2 : ‖toH (F.quatMul a q) - toH a * toH q‖ / ‖toH a * toH q‖ ≤ quatMulErr F.u := by
      rw [norm_mul, div_le_iff₀ hN]; exact h1
    have e1 : ‖toH a * toH q‖⁻¹ • (toH a * toH q) = dirH a * dirH q := by
      rw [norm_mul, mul_inv, dirH, dirH, smul_mul_smul_comm]
    rw [e1] at d1
    obtain ⟨f1, f2⟩ := fix_dist F hne
    have d3 := normalize_diff (toH (F.quatFix (F.quatMul a q))) (dirH (F.quatMul a q)) (by
      intro h0; have := norm_dirH hne; rw [h0, norm_zero] at this; norm_num at this)
    rw [norm_dirH hne, div_one, inv_one, one_smul] at d3
    have d4 := norm_sub_le_norm_sub_add_norm_sub (dirH (F.quatFix (F.quatMul a q))) (dirH (F.quatMul a q)) (dirH a * dirH q)
    change ‖dirH (F.quatFix (F.quatMul a q)) - dirH (F.quatMul a q)‖ ≤ _ at d3
    change ‖dirH (F.quatMul a q) - dirH a * dirH q‖ ≤ _ at d1
    linarith
  have hprod : ∀ l : List Quat, (∀ q ∈ l, toH q ≠ 0) → ‖(l.map dirH).prod‖ = 1 := by
    intro l
    induction l with
    | nil => intro _; simp
    | cons q l ih =>
      intro h
      rw [List.map_cons, List.prod_cons, norm_mul, norm_dirH (h q (by simp)), ih (fun q hq => h q (by simp [hq])), one_mul]
  -- directions along the loop
  have main : ∀ (l : List Quat) (a : Quat), toH a ≠ 0 → (∀ q ∈ l, toH q ≠ 0) →
      toH (fixedHistory F a l) ≠ 0 ∧ ‖dirH (fixedHistory F a l) - exactDirection a l‖ ≤ l.length * (27 * F.u) := by
    intro l
    induction l with
    | nil => intro a ha _; exact ⟨ha, by simp [fixedHistory, exactDirection]⟩
    | cons q l ih =>
      intro a ha h
      have hq := h q (by simp)
      obtain ⟨s1, s2⟩ := hstep a q ha hq
      obtain ⟨i1, i2⟩ := ih (F.quatFix (F.quatMul a q)) (fix_dist F s1).2 (fun q hq => h q (by simp [hq]))
      refine ⟨i1, ?_⟩
      have e : fixedHistory F a (q :: l) = fixedHistory F (F.quatFix (F.quatMul a q)) l := rfl
      rw [e]
      have e2 : exactDirection (F.quatFix (F.quatMul a q)) l - exactDirection a (q :: l) =
          (dirH (F.quatFix (F.quatMul a q)) - dirH a * dirH q) * (l.map dirH).prod := by
        rw [exactDirection, exactDirection, List.map_cons, List.prod_cons, sub_mul, mul_assoc (dirH a)]
      have e3 : ‖exactDirection (F.quatFix (F.quatMul a q)) l - exactDirection a (q :: l)‖ ≤ 27 * F.u := by
        rw [e2, norm_mul, hprod l (fun q hq => h q (by simp [hq])), mul_one]; exact s2
      have := norm_sub_le_norm_sub_add_norm_sub (dirH (fixedHistory F (F.quatFix (F.quatMul a q)) l))
        (exactDirection (F.quatFix (F.quatMul a q)) l) (exactDirection a (q :: l))
      push_cast [List.length_cons]
      linarith
  obtain ⟨l', q, rfl⟩ : ∃ l' q, l = l' ++ [q] := ⟨l.dropLast, l.getLast hne, (List.dropLast_append_getLast hne).symm⟩
  have hl' : ∀ q ∈ l', toH q ≠ 0 := fun p hp => hl p (by simp [hp])
  have m1 := (main l' acc hacc hl').1
  have e : fixedHistory F acc (l' ++ [q]) = F.quatFix (F.quatMul (fixedHistory F acc l') q) := by
    simp [fixedHistory, List.foldl_append]
  obtain ⟨s1, -⟩ := hstep _ q m1 (hl q (by simp))
  obtain ⟨c1, -, -, -, -, c6⟩ := C57_fix_rounded F _ s1
  obtain ⟨m2, m3⟩ := main (l' ++ [q]) acc hacc hl
  refine ⟨by rw [e]; exact c1, by rw [e]; exact c6, ?_, ?_⟩
  · rw [exactDirection, norm_mul, norm_dirH hacc, hprod _ hl, one_mul]
  · -- the value is within 5u of its own direction
    have hn : ‖toH (fixedHistory F acc (l' ++ [q])) - dirH (fixedHistory F acc (l' ++ [q]))‖ ≤ 5 * F.u := by
      have hp := norm_pos_iff.mpr m2
      have e2 : toH (fixedHistory F acc (l' ++ [q])) - dirH (fixedHistory F acc (l' ++ [q])) =
          (1 - ‖toH (fixedHistory F acc (l' ++ [q]))‖⁻¹) • toH (fixedHistory F acc (l' ++ [q])) := by
        rw [sub_smul, one_smul, dirH]
      rw [e2, norm_smul, Real.norm_eq_abs, ← abs_of_pos hp, ← abs_mul, abs_of_pos hp, sub_mul, one_mul,
        inv_mul_cancel₀ hp.ne', norm_toH, e]
      exact c1
    have := norm_sub_le_norm_sub_add_norm_sub (toH (fixedHistory F acc (l' ++ [q])))
      (dirH (fixedHistory F acc (l' ++ [q]))) (exactDirection acc (l' ++ [q]))
    linarith

/-- non-vacuity: in double precision, a thousand renormalized quarter turns. -/
example : toH (⟨1, 0, 0, 0⟩ : Quat) ≠ 0 ∧ (∀ q ∈ List.replicate 1000 (⟨1, 0, 0, 1⟩ : Quat), toH q ≠ 0) ∧
    List.replicate 1000 (⟨1, 0, 0, 1⟩ : Quat) ≠ [] := by
  have h : ∀ z : ℝ, toH (⟨1, 0, 0, z⟩ : Quat) ≠ 0 := fun z h => by
    have h1 : (1 : ℝ) = 0 := congrArg (fun p : Quaternion ℝ => p.re) h
    norm_num at h1
  refine ⟨h 0, fun q hq => ?_, fun h => absurd (congrArg List.length h) (by rw [List.length_replicate]; simp)⟩
  rw [List.eq_of_mem_replicate hq]; exact h 1

end Kindr
