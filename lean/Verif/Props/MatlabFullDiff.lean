import Verif.Spec.FullDiff
import Mathlib.Analysis.Calculus.Deriv.Mul
import Mathlib.Analysis.Calculus.Deriv.Inv
import Mathlib.Algebra.BigOperators.Field
import Mathlib.Data.List.Sublists
import Std.Data.String.ToNat

/-!
# C98: the total derivative of matlab/utils/fulldMATdt.m
-/

set_option autoImplicit false

open Classical

noncomputable section
namespace Kindr.Matlab
open Spec

/-! ## Expressions -/

namespace Sym

lemma isZero_eval {a : Sym} (h : a.isZero) (ρ : Name → ℝ) : a.eval ρ = 0 := by
  cases a <;> simp_all [isZero, eval]

lemma isZero_eq {a : Sym} (h : a.isZero) : a = num 0 := by
  cases a <;> simp_all [isZero]

@[simp] lemma eval_plus (a b : Sym) (ρ : Name → ℝ) : (a.plus b).eval ρ = a.eval ρ + b.eval ρ := by
  unfold plus
  split_ifs with h1 h2
  · rw [isZero_eval h1, zero_add]
  · rw [isZero_eval h2, add_zero]
  · rfl

@[simp] lemma eval_times (a b : Sym) (ρ : Name → ℝ) : (a.times b).eval ρ = a.eval ρ * b.eval ρ := by
  unfold times
  split_ifs with h1 h2
  · rw [isZero_eval h1, zero_mul]; rfl
  · rw [isZero_eval h2, mul_zero]; rfl
  · rfl

@[simp] lemma eval_minus (a : Sym) (ρ : Name → ℝ) : a.minus.eval ρ = -a.eval ρ := by
  unfold minus
  split_ifs with h1
  · rw [isZero_eval h1, neg_zero]; rfl
  · rfl

lemma vars_plus (a b : Sym) : (a.plus b).vars ⊆ a.vars ∪ b.vars := by
  unfold plus
  split_ifs
  · exact Finset.subset_union_right
  · exact Finset.subset_union_left
  · exact subset_rfl

lemma vars_times (a b : Sym) : (a.times b).vars ⊆ a.vars ∪ b.vars := by
  unfold times
  split_ifs
  · exact Finset.empty_subset _
  · exact Finset.empty_subset _
  · exact subset_rfl

lemma vars_minus (a : Sym) : a.minus.vars ⊆ a.vars := by
  unfold minus
  split_ifs
  · exact Finset.empty_subset _
  · exact subset_rfl

lemma defined_plus {a b : Sym} {ρ : Name → ℝ} (ha : a.Defined ρ) (hb : b.Defined ρ) : (a.plus b).Defined ρ := by
  unfold plus
  split_ifs
  · exact hb
  · exact ha
  · exact ⟨ha, hb⟩

lemma defined_times {a b : Sym} {ρ : Name → ℝ} (ha : a.Defined ρ) (hb : b.Defined ρ) : (a.times b).Defined ρ := by
  unfold times
  split_ifs
  · trivial
  · trivial
  · exact ⟨ha, hb⟩

lemma defined_minus {a : Sym} {ρ : Name → ℝ} (ha : a.Defined ρ) : a.minus.Defined ρ := by
  unfold minus
  split_ifs
  · trivial
  · exact ha

lemma vars_diff (v : Name) : ∀ e : Sym, (e.diff v).vars ⊆ e.vars
  | num _ => Finset.empty_subset _
  | var w => by
    unfold diff
    split_ifs <;> exact Finset.empty_subset _
  | add a b => (vars_plus _ _).trans (Finset.union_subset_union (vars_diff v a) (vars_diff v b))
  | mul a b => (vars_plus _ _).trans (Finset.union_subset
      ((vars_times _ _).trans (Finset.union_subset ((vars_diff v a).trans Finset.subset_union_left) Finset.subset_union_right))
      ((vars_times _ _).trans (Finset.union_subset Finset.subset_union_left ((vars_diff v b).trans Finset.subset_union_right))))
  | neg a => (vars_minus _).trans (vars_diff v a)
  | inv a => (vars_times _ _).trans (Finset.union_subset ((vars_minus _).trans (vars_diff v a)) (by simp [vars]))
  | sin a => (vars_times _ _).trans (Finset.union_subset (vars_diff v a) (by simp [vars]))
  | cos a => (vars_times _ _).trans (Finset.union_subset ((vars_minus _).trans (vars_diff v a)) (by simp [vars]))

lemma defined_diff (v : Name) (ρ : Name → ℝ) : ∀ e : Sym, e.Defined ρ → (e.diff v).Defined ρ
  | num _, _ => trivial
  | var w, _ => by
    unfold diff
    split_ifs <;> trivial
  | add a b, h => defined_plus (defined_diff v ρ a h.1) (defined_diff v ρ b h.2)
  | mul a b, h => defined_plus (defined_times (defined_diff v ρ a h.1) h.2) (defined_times h.1 (defined_diff v ρ b h.2))
  | neg a, h => defined_minus (defined_diff v ρ a h)
  | inv a, h => defined_times (defined_minus (defined_diff v ρ a h.1)) ⟨h, h⟩
  | sin a, h => defined_times (defined_diff v ρ a h) h
  | cos a, h => defined_times (defined_minus (defined_diff v ρ a h)) h

lemma zero_isZero : (num 0).isZero := rfl

/-- Differentiating by a variable that does not occur gives the number 0. -/
lemma diff_zero {v : Name} : ∀ {e : Sym}, v ∉ e.vars → (e.diff v).isZero
  | num _, _ => rfl
  | var w, h => by
    have : w ≠ v := fun e => h (by simp [vars, e])
    simp [diff, this, isZero]
  | add a b, h => by
    simp only [vars, Finset.mem_union, not_or] at h
    rw [diff, plus, if_pos (diff_zero h.1)]
    exact diff_zero h.2
  | mul a b, h => by
    simp only [vars, Finset.mem_union, not_or] at h
    have e1 : (diff v a).times b = num 0 := by rw [times, if_pos (diff_zero h.1)]
    have e2 : (a.times (diff v b)) = num 0 := by
      rw [times]
      split_ifs with h1
      · rfl
      · rfl
      · exact absurd (diff_zero h.2) (by assumption)
    rw [diff, e1, e2, plus, if_pos zero_isZero]
    exact zero_isZero
  | neg a, h => by rw [diff, minus, if_pos (diff_zero (e := a) h)]; exact zero_isZero
  | inv a, h => by
    rw [diff, times, minus, if_pos (diff_zero (e := a) h), if_pos zero_isZero]; exact zero_isZero
  | sin a, h => by
    rw [diff, times, if_pos (diff_zero (e := a) h)]; exact zero_isZero
  | cos a, h => by
    rw [diff, times, minus, if_pos (diff_zero (e := a) h), if_pos zero_isZero]; exact zero_isZero

/-- The chain rule. -/
lemma hasDerivAt_eval {x : ℝ → Name → ℝ} {t : ℝ} {rate : Name → ℝ} {S : Finset Name} :
    ∀ {e : Sym}, e.vars ⊆ S → (∀ v ∈ e.vars, HasDerivAt (fun s => x s v) (rate v) t) → e.Defined (x t) →
      HasDerivAt (fun s => e.eval (x s)) (∑ v ∈ S, (e.diff v).eval (x t) * rate v) t
  | num r, _, _, _ => by
    simp only [diff, eval, zero_mul, Finset.sum_const_zero]
    exact hasDerivAt_const _ _
  | var w, hS, h, _ => by
    have hw : w ∈ S := hS (by simp [vars])
    have e : ∑ v ∈ S, ((var w).diff v).eval (x t) * rate v = rate w := by
      rw [Finset.sum_eq_single w]
      · simp [diff, eval]
      · intro b _ hb
        simp [diff, Ne.symm hb, eval]
      · exact fun h => absurd hw h
    rw [e]
    exact h w (by simp [vars])
  | add a b, hS, h, d => by
    have ha := hasDerivAt_eval (e := a) (Finset.union_subset_left hS) (fun v hv => h v (Finset.mem_union_left _ hv)) d.1
    have hb := hasDerivAt_eval (e := b) (Finset.union_subset_right hS) (fun v hv => h v (Finset.mem_union_right _ hv)) d.2
    refine (ha.add hb).congr_deriv ?_
    simp only [diff, eval_plus, add_mul, Finset.sum_add_distrib]
  | mul a b, hS, h, d => by
    have ha := hasDerivAt_eval (e := a) (Finset.union_subset_left hS) (fun v hv => h v (Finset.mem_union_left _ hv)) d.1
    have hb := hasDerivAt_eval (e := b) (Finset.union_subset_right hS) (fun v hv => h v (Finset.mem_union_right _ hv)) d.2
    refine (ha.mul hb).congr_deriv ?_
    rw [Finset.sum_mul, Finset.mul_sum, ← Finset.sum_add_distrib]
    refine Finset.sum_congr rfl (fun v _ => ?_)
    simp only [diff, eval_plus, eval_times]
    ring
  | neg a, hS, h, d => by
    refine (hasDerivAt_eval (e := a) hS h d).neg.congr_deriv ?_
    rw [← Finset.sum_neg_distrib]
    refine Finset.sum_congr rfl (fun v _ => ?_)
    simp only [diff, eval_minus]
    ring
  | inv a, hS, h, d => by
    refine ((hasDerivAt_eval (e := a) hS h d.1).inv d.2).congr_deriv ?_
    rw [← Finset.sum_neg_distrib, Finset.sum_div]
    refine Finset.sum_congr rfl (fun v _ => ?_)
    simp only [diff, eval_minus, eval_times, eval]
    have := d.2
    field_simp
  | sin a, hS, h, d => by
    refine (hasDerivAt_eval (e := a) hS h d).sin.congr_deriv ?_
    rw [Finset.mul_sum]
    refine Finset.sum_congr rfl (fun v _ => ?_)
    simp only [diff, eval_times, eval]
    ring
  | cos a, hS, h, d => by
    refine (hasDerivAt_eval (e := a) hS h d).cos.congr_deriv ?_
    rw [Finset.mul_sum]
    refine Finset.sum_congr rfl (fun v _ => ?_)
    simp only [diff, eval_times, eval_minus, eval]
    ring

end Sym

/-! ## The sum over the rows -/

lemma eval_fullDiff (e : Sym) (ρ : Name → ℝ) : ∀ rows : List Row,
    (fullDiff rows e).eval ρ = (rows.map (fun r => (e.diff r.1).eval ρ * ρ r.2)).sum
  | [] => rfl
  | r :: rs => by
    have key : ∀ (l : List Row) (acc : Sym),
        (l.foldl (fun acc r => acc.plus ((e.diff r.1).times (.var r.2))) acc).eval ρ =
          acc.eval ρ + (l.map (fun r => (e.diff r.1).eval ρ * ρ r.2)).sum := by
      intro l
      induction l with
      | nil => intro acc; simp
      | cons a l ih => intro acc; simp [ih, Sym.eval]; ring
    simp [fullDiff, key, Sym.eval]

lemma defined_fullDiff {e : Sym} {ρ : Name → ℝ} (h : e.Defined ρ) : ∀ rows : List Row, (fullDiff rows e).Defined ρ
  | [] => trivial
  | r :: rs => by
    have key : ∀ (l : List Row) (acc : Sym), acc.Defined ρ →
        (l.foldl (fun acc r => acc.plus ((e.diff r.1).times (.var r.2))) acc).Defined ρ := by
      intro l
      induction l with
      | nil => exact fun acc h => h
      | cons a l ih =>
        exact fun acc h' => ih _ (Sym.defined_plus h' (Sym.defined_times (Sym.defined_diff _ _ _ h) trivial))
    exact key _ _ (Sym.defined_times (Sym.defined_diff _ _ _ h) trivial)

lemma vars_term (e : Sym) (r : Row) : ∀ v ∈ ((e.diff r.1).times (.var r.2)).vars, v ∈ e.vars ∨ (v = r.2 ∧ r.1 ∈ e.vars) := by
  intro v hv
  by_cases h : r.1 ∈ e.vars
  · rcases Finset.mem_union.mp (Sym.vars_times _ _ hv) with h1 | h1
    · exact Or.inl (Sym.vars_diff _ _ h1)
    · exact Or.inr ⟨by simpa [Sym.vars] using h1, h⟩
  · rw [Sym.times, if_pos (Sym.diff_zero h)] at hv
    simp [Sym.vars] at hv

/-- The result contains only the variables of the argument and their derivatives. -/
lemma vars_fullDiff (e : Sym) : ∀ (rows : List Row), ∀ v ∈ (fullDiff rows e).vars,
    v ∈ e.vars ∨ ∃ r ∈ rows, v = r.2 ∧ r.1 ∈ e.vars
  | [], v, hv => by simp [fullDiff, Sym.vars] at hv
  | r :: rs, v, hv => by
    have key : ∀ (l : List Row) (acc : Sym), ∀ v ∈ (l.foldl (fun acc r => acc.plus ((e.diff r.1).times (.var r.2))) acc).vars,
        v ∈ acc.vars ∨ v ∈ e.vars ∨ ∃ r ∈ l, v = r.2 ∧ r.1 ∈ e.vars := by
      intro l
      induction l with
      | nil => exact fun acc v h => Or.inl h
      | cons a l ih =>
        intro acc v h
        rcases ih _ v h with h | h | ⟨r, hr, h⟩
        · rcases Finset.mem_union.mp (Sym.vars_plus _ _ h) with h | h
          · exact Or.inl h
          · rcases vars_term e a v h with h | h
            · exact Or.inr (Or.inl h)
            · exact Or.inr (Or.inr ⟨a, by simp, h⟩)
        · exact Or.inr (Or.inl h)
        · exact Or.inr (Or.inr ⟨r, List.mem_cons_of_mem _ hr, h⟩)
    rcases key rs _ v hv with h | h | ⟨r', hr, h⟩
    · rcases vars_term e r v h with h | h
      · exact Or.inl h
      · exact Or.inr ⟨r, by simp, h⟩
    · exact Or.inl h
    · exact Or.inr ⟨r', List.mem_cons_of_mem _ hr, h⟩

/-! ## The rows -/

lemma dedup_cons (r : Row) (rs : List Row) : dedup (r :: rs) = r :: dedup (rs.filter (fun r' => ¬ r.1 <+: r'.1)) := by
  rw [dedup]

lemma dedup_sublist : ∀ (n : ℕ) (rs : List Row), rs.length ≤ n → (dedup rs).Sublist rs
  | _, [], _ => by rw [dedup]
  | 0, r :: rs, h => by simp at h
  | n + 1, r :: rs, h => by
    rw [dedup_cons]
    have hl : (rs.filter (fun r' => ¬ r.1 <+: r'.1)).length ≤ n := (List.length_filter_le _ _).trans (by simpa using h)
    exact ((dedup_sublist n _ hl).trans List.filter_sublist).cons_cons r

lemma mem_of_mem_dedup {rs : List Row} {r : Row} (h : r ∈ dedup rs) : r ∈ rs := (dedup_sublist _ rs le_rfl).subset h

lemma dedup_pairwise : ∀ (n : ℕ) (rs : List Row), rs.length ≤ n → (dedup rs).Pairwise (fun a b => ¬ a.1 <+: b.1)
  | _, [], _ => by rw [dedup]; exact List.Pairwise.nil
  | 0, r :: rs, h => by simp at h
  | n + 1, r :: rs, h => by
    rw [dedup_cons, List.pairwise_cons]
    have hl : (rs.filter (fun r' => ¬ r.1 <+: r'.1)).length ≤ n := (List.length_filter_le _ _).trans (by simpa using h)
    refine ⟨fun b hb => ?_, dedup_pairwise n _ hl⟩
    have := mem_of_mem_dedup hb
    simpa using (List.mem_filter.mp this).2

lemma dedup_nodup (rs : List Row) : ((dedup rs).map Prod.fst).Nodup := by
  rw [List.Nodup, List.pairwise_map]
  exact (dedup_pairwise _ rs le_rfl).imp (fun h e => h (by rw [e]))

/-- A row survives if no other name is a beginning of its name. -/
lemma dedup_keeps : ∀ (n : ℕ) (rs : List Row), rs.length ≤ n → ∀ r ∈ rs, (∀ r' ∈ rs, r'.1 <+: r.1 → r'.1 = r.1) →
    ∃ r' ∈ dedup rs, r'.1 = r.1
  | _, [], _, r, hr, _ => by simp at hr
  | 0, a :: rs, h, _, _, _ => by simp at h
  | n + 1, a :: rs, h, r, hr, hp => by
    rw [dedup_cons]
    have hl : (rs.filter (fun r' => ¬ a.1 <+: r'.1)).length ≤ n := (List.length_filter_le _ _).trans (by simpa using h)
    by_cases ha : a.1 <+: r.1
    · exact ⟨a, by simp, hp a (by simp) ha⟩
    · have hr' : r ∈ rs := (List.mem_cons.mp hr).resolve_left (fun e => ha (by rw [e]))
      obtain ⟨r', h1, h2⟩ := dedup_keeps n _ hl r (List.mem_filter.mpr ⟨hr', by simpa using ha⟩)
        (fun r' h' => hp r' (List.mem_cons_of_mem _ (List.mem_filter.mp h').1))
      exact ⟨r', List.mem_cons_of_mem _ h1, h2⟩

/-- The rows the code can write. -/
def RowOk (xs : List TimeVar) (r : Row) : Prop :=
  ∃ x ∈ xs, r = (x.q, x.dq) ∨ r = (x.dq, x.ddq) ∨ ∃ i, 2 ≤ i ∧ r.1 = hname i x.q

lemma derivRows_ok {xs : List TimeVar} {x : TimeVar} (hx : x ∈ xs) (text : Name) : ∀ (n i : ℕ), 1 ≤ i →
    ∀ r ∈ derivRows text x n i, RowOk xs r
  | 0, _, _, r, h => by simp [derivRows] at h
  | n + 1, i, hi, r, h => by
    rw [derivRows] at h
    split at h
    · rcases List.mem_cons.mp h with h | h
      · by_cases h1 : i = 1
        · refine ⟨x, hx, Or.inr (Or.inl ?_)⟩
          rw [h, fstr, if_pos h1]
        · refine ⟨x, hx, Or.inr (Or.inr ⟨i, by omega, ?_⟩)⟩
          rw [h, fstr, if_neg h1]
      · exact derivRows_ok hx text n (i + 1) (by omega) r h
    · simp at h

lemma mem_writeRows {rows new : List Row} {prev : ℕ} {r : Row} (h : r ∈ writeRows rows prev new) : r ∈ rows ∨ r ∈ new := by
  unfold writeRows at h
  rcases List.mem_append.mp h with h | h
  · rcases List.mem_append.mp h with h | h
    · exact Or.inl (List.mem_of_mem_take h)
    · exact Or.inr h
  · exact Or.inl (List.mem_of_mem_drop h)

lemma mem_writeRows_new {rows new : List Row} {prev : ℕ} {r : Row} (h : r ∈ new) : r ∈ writeRows rows prev new := by
  unfold writeRows
  simp [h]

lemma mem_writeRows_old {rows new : List Row} {r : Row} (h : r ∈ rows) : r ∈ writeRows rows rows.length new := by
  unfold writeRows
  simp [h]

lemma collect_spec (text : Name) (passes : ℕ) (xs : List TimeVar) (stale : List Row) :
    (∀ r ∈ collectRows text passes xs stale, r ∈ stale ∨ ∃ x ∈ xs, r ∈ (x.q, x.dq) :: derivRows text x passes 1) ∧
    (∀ x ∈ xs, ∀ r ∈ (x.q, x.dq) :: derivRows text x passes 1, r ∈ collectRows text passes xs stale) := by
  have gen : ∀ (ys : List TimeVar) (s : List Row × ℕ),
      (∀ r ∈ (ys.foldl (fun s x => (writeRows s.1 s.2 ((x.q, x.dq) :: derivRows text x passes 1),
          (writeRows s.1 s.2 ((x.q, x.dq) :: derivRows text x passes 1)).length)) s).1,
        r ∈ s.1 ∨ ∃ x ∈ ys, r ∈ (x.q, x.dq) :: derivRows text x passes 1) ∧
      (∀ x ∈ ys, ∀ r ∈ (x.q, x.dq) :: derivRows text x passes 1,
        r ∈ (ys.foldl (fun s x => (writeRows s.1 s.2 ((x.q, x.dq) :: derivRows text x passes 1),
          (writeRows s.1 s.2 ((x.q, x.dq) :: derivRows text x passes 1)).length)) s).1) ∧
      (s.2 = s.1.length → ∀ r ∈ s.1, r ∈ (ys.foldl (fun s x => (writeRows s.1 s.2 ((x.q, x.dq) :: derivRows text x passes 1),
          (writeRows s.1 s.2 ((x.q, x.dq) :: derivRows text x passes 1)).length)) s).1) := by
    intro ys
    induction ys with
    | nil => exact fun s => ⟨fun r h => Or.inl h, fun x hx => by simp at hx, fun _ r h => h⟩
    | cons y ys ih =>
      intro s
      obtain ⟨i1, i2, i3⟩ := ih (writeRows s.1 s.2 ((y.q, y.dq) :: derivRows text y passes 1),
        (writeRows s.1 s.2 ((y.q, y.dq) :: derivRows text y passes 1)).length)
      rw [List.foldl_cons]
      refine ⟨fun r h => ?_, fun x hx r hr => ?_, fun hs r hr => ?_⟩
      · rcases i1 r h with h | ⟨x, hx, h⟩
        · rcases mem_writeRows h with h | h
          · exact Or.inl h
          · exact Or.inr ⟨y, by simp, h⟩
        · exact Or.inr ⟨x, List.mem_cons_of_mem _ hx, h⟩
      · rcases List.mem_cons.mp hx with rfl | hx
        · exact i3 rfl r (mem_writeRows_new hr)
        · exact i2 x hx r hr
      · refine i3 rfl r ?_
        rw [hs]
        exact mem_writeRows_old hr
  obtain ⟨g1, g2, -⟩ := gen xs (stale, 0)
  exact ⟨g1, g2⟩

/-- The `while true` loop of fulldiff2 terminates: a text contains only finitely many of the names it looks for. -/
theorem C98_terminates (text : Name) (x : TimeVar) : ∃ m, ∀ n, m ≤ n → derivRows text x n 1 = derivRows text x m 1 := by
  have absent : ∃ i, 2 ≤ i ∧ ¬ hname i x.q <:+: text := by
    by_contra hc
    push Not at hc
    have inj : Function.Injective (fun i : ℕ => hname (i + 2) x.q) := by
      intro i j h
      simp only [hname, List.cons.injEq, true_and] at h
      have h' := List.append_cancel_right h
      have := Nat.repr_inj.mp (String.toList_inj.mp h')
      omega
    have sub : Set.range (fun i : ℕ => hname (i + 2) x.q) ⊆ {l | l ∈ text.sublists} := by
      rintro _ ⟨i, rfl⟩
      exact List.mem_sublists.mpr (hc (i + 2) (by omega)).sublist
    exact Set.infinite_range_of_injective inj ((List.finite_toSet _).subset sub)
  obtain ⟨i, hi, ha⟩ := absent
  have stop : ∀ d n j, 1 ≤ j → j + d = i → d + 1 ≤ n → derivRows text x n j = derivRows text x (d + 1) j := by
    intro d
    induction d with
    | zero =>
      intro n j hj e hn
      obtain ⟨n, rfl⟩ : ∃ k, n = k + 1 := ⟨n - 1, by omega⟩
      have : ¬ j = 1 := by omega
      have hj' : j = i := by omega
      have hf : ¬ (fstr x j).1 <:+: text := by rw [fstr, if_neg this, hj']; exact ha
      rw [derivRows, if_neg hf, derivRows, if_neg hf]
    | succ d ih =>
      intro n j hj e hn
      obtain ⟨n, rfl⟩ : ∃ k, n = k + 1 := ⟨n - 1, by omega⟩
      rw [derivRows, derivRows, ih n (j + 1) (by omega) (by omega) (by omega)]
  refine ⟨i - 1 + 1, fun n hn => ?_⟩
  exact stop (i - 1) n 1 le_rfl (by omega) hn

/-! ## Higher derivatives in the argument -/

lemma mem_higherLoop {isNum : Char → Bool} {str2num : Name → ℕ} {vars : List Name} {rows : List Row} {s : Name} {r : Row} :
    ∀ (suf pre : Name) (num : ℕ), r ∈ higherLoop isNum str2num vars rows s num pre suf →
      r.1 = s ∧ (∀ r' ∈ rows, ¬ s <+: r'.1) ∧ ∃ v ∈ vars, v <:+ suf
  | [], _, _, h => by simp [higherLoop] at h
  | c :: cs, pre, num, h => by
    rw [higherLoop] at h
    split at h
    · obtain ⟨h1, h2, v, h3, h4⟩ := mem_higherLoop cs _ _ h
      exact ⟨h1, h2, v, h3, h4.trans (List.suffix_cons _ _)⟩
    · rcases List.mem_append.mp h with h | h
      · split at h
        · rename_i hc
          rw [List.mem_singleton] at h
          exact ⟨by rw [h], hc.2, _, hc.1, List.suffix_rfl⟩
        · simp at h
      · obtain ⟨h1, h2, v, h3, h4⟩ := mem_higherLoop cs _ _ h
        exact ⟨h1, h2, v, h3, h4.trans (List.suffix_cons _ _)⟩

lemma mem_findhigher {ι : Type} {T : Toolbox ι} {f : ι → Sym} {vars : List Name} {rows : List Row} {r : Row}
    (h : r ∈ findhigher T f vars rows) : r ∈ rows ∨
      (r.1 ∈ T.findsym f ∧ (∀ r' ∈ rows, ¬ r.1 <+: r'.1) ∧ ∃ t, r.1 = 'd' :: t ∧ ∃ v ∈ vars, v <:+ t) := by
  unfold findhigher at h
  rcases List.mem_append.mp h with h | h
  · exact Or.inl h
  · obtain ⟨s, hs, h⟩ := List.mem_flatMap.mp h
    split at h
    · obtain ⟨h1, h2, v, h3, h4⟩ := mem_higherLoop _ _ _ h
      rw [h1]
      exact Or.inr ⟨hs, h2, _, rfl, v, h3, h4⟩
    · simp at h

/-! ## One derivative -/

/-- The rows of one derivative. -/
lemma step_rows {ι : Type} {T : Toolbox ι} (hT : IsToolbox T) {xs : List TimeVar} (hn : GoodNames xs) {stale : List Row} {f : ι → Sym}
    (hs : ∀ r ∈ stale, RowOk xs r)
    (hf : ∀ i, ∀ v ∈ (f i).vars, v ∈ xs.map TimeVar.q ∨ v ∈ xs.map TimeVar.dq ∨ IsParameter xs v) :
    (∀ r ∈ (fulldiffStep T xs (stale, f)).1, RowOk xs r) ∧ ((fulldiffStep T xs (stale, f)).1.map Prod.fst).Nodup ∧
    (∀ x ∈ xs, ∃ r ∈ (fulldiffStep T xs (stale, f)).1, r.1 = x.q) ∧
    (∀ x ∈ xs, x.dq <:+: T.char f → ∃ r ∈ (fulldiffStep T xs (stale, f)).1, r.1 = x.dq) := by
  obtain ⟨c1, c2⟩ := collect_spec (T.char f) T.passes xs stale
  obtain ⟨C, hC⟩ : ∃ C, C = collectRows (T.char f) T.passes xs stale := ⟨_, rfl⟩
  rw [← hC] at c1 c2
  have ok : ∀ r ∈ C, RowOk xs r := by
    intro r hr
    rcases c1 r hr with h | ⟨x, hx, h⟩
    · exact hs r h
    · rcases List.mem_cons.mp h with h | h
      · exact ⟨x, hx, Or.inl h⟩
      · exact derivRows_ok hx _ _ _ le_rfl r h
  have names : ∀ x ∈ xs, x.q ∈ xs.map TimeVar.q ++ xs.map TimeVar.dq ∧ x.dq ∈ xs.map TimeVar.q ++ xs.map TimeVar.dq :=
    fun x hx => ⟨List.mem_append_left _ (List.mem_map_of_mem hx), List.mem_append_right _ (List.mem_map_of_mem hx)⟩
  have keep : ∀ r ∈ C, r.1 ∈ xs.map TimeVar.q ++ xs.map TimeVar.dq → ∃ r' ∈ dedup C, r'.1 = r.1 := by
    intro r hr hm
    refine dedup_keeps _ C le_rfl r hr (fun r' hr' hp => ?_)
    obtain ⟨x, hx, h | h | ⟨i, hi, h⟩⟩ := ok r' hr'
    · exact hn.prefixFree _ (by rw [h]; exact (names x hx).1) _ hm hp
    · exact hn.prefixFree _ (by rw [h]; exact (names x hx).2) _ hm hp
    · rw [h] at hp
      exact absurd hp (hn.reserved _ hm x hx i hi)
  have kq : ∀ x ∈ xs, ∃ r ∈ dedup C, r.1 = x.q := fun x hx => keep (x.q, x.dq) (c2 x hx _ (by simp)) (names x hx).1
  have kd : ∀ x ∈ xs, x.dq <:+: T.char f → ∃ r ∈ dedup C, r.1 = x.dq := by
    intro x hx h
    obtain ⟨n, hp⟩ : ∃ n, T.passes = n + 1 := ⟨T.passes - 1, by have := hT.passes_pos; omega⟩
    refine keep (x.dq, x.ddq) (c2 x hx _ ?_) (names x hx).2
    rw [hp, derivRows, fstr, if_pos rfl, if_pos h]
    simp
  have hi : findhigher T f (xs.map TimeVar.q) (dedup C) = dedup C := by
    unfold findhigher
    refine (congrArg _ (List.eq_nil_iff_forall_not_mem.mpr (fun r hr => ?_))).trans (List.append_nil _)
    obtain ⟨s, hs, h⟩ := List.mem_flatMap.mp hr
    split at h
    · obtain ⟨h1, h2, v, h3, h4⟩ := mem_higherLoop _ _ _ h
      obtain ⟨i, hv⟩ := hT.findsym_vars f _ hs
      rcases hf i _ hv with hv | hv | hv
      · obtain ⟨x, hx, e⟩ := List.mem_map.mp hv
        obtain ⟨r', m, e'⟩ := kq x hx
        exact h2 r' m (by rw [e', e])
      · obtain ⟨x, hx, e⟩ := List.mem_map.mp hv
        obtain ⟨r', m, e'⟩ := kd x hx (by rw [e]; exact hT.findsym_text f _ hs)
        exact h2 r' m (by rw [e', e])
      · obtain ⟨x, hx, e⟩ := List.mem_map.mp h3
        exact hv.not_d x hx _ rfl (by rw [e]; exact h4)
    · simp at h
  have e : (fulldiffStep T xs (stale, f)).1 = dedup C := by
    unfold fulldiffStep
    simp only
    rw [← hC, hi]
  rw [e]
  exact ⟨fun r hr => ok r (mem_of_mem_dedup hr), dedup_nodup C, kq, kd⟩

/-- One pass differentiates. -/
lemma step_deriv {ι : Type} {T : Toolbox ι} (hT : IsToolbox T) {xs : List TimeVar} (hn : GoodNames xs) {stale : List Row} {f : ι → Sym}
    (hs : ∀ r ∈ stale, RowOk xs r)
    (hf : ∀ i, ∀ v ∈ (f i).vars, v ∈ xs.map TimeVar.q ∨ v ∈ xs.map TimeVar.dq ∨ IsParameter xs v)
    {x : ℝ → Name → ℝ} (hx : IsTrajectory xs x) {i : ι} {t : ℝ} (hd : (f i).Defined (x t)) :
    HasDerivAt (fun s => (f i).eval (x s)) (((fulldiffStep T xs (stale, f)).2 i).eval (x t)) t := by
  obtain ⟨ok, nd, kq, kd⟩ := step_rows hT hn hs hf
  have e : (fulldiffStep T xs (stale, f)).2 i = fullDiff (fulldiffStep T xs (stale, f)).1 (f i) := rfl
  obtain ⟨R, hR⟩ : ∃ R, R = (fulldiffStep T xs (stale, f)).1 := ⟨_, rfl⟩
  rw [e, eval_fullDiff]
  rw [← hR] at ok nd kq kd ⊢
  -- the rates of change of the variables
  obtain ⟨rate, hrate⟩ : ∃ rate : Name → ℝ, ∀ v ∈ (f i).vars, HasDerivAt (fun s => x s v) (rate v) t ∧
      (∀ y ∈ xs, v = y.q → rate v = x t y.dq) ∧ (∀ y ∈ xs, v = y.dq → rate v = x t y.ddq) ∧ (IsParameter xs v → rate v = 0) := by
    refine ⟨fun v => deriv (fun s => x s v) t, fun v hv => ?_⟩
    have p : IsParameter xs v → HasDerivAt (fun s => x s v) 0 t := fun h => by
      have : (fun s => x s v) = fun _ => x t v := funext (fun s => hx.const v h s t)
      rw [this]
      exact hasDerivAt_const _ _
    refine ⟨?_, fun y hy e => ?_, fun y hy e => ?_, fun h => (p h).deriv⟩
    · refine DifferentiableAt.hasDerivAt ?_
      rcases hf i v hv with h | h | h
      · obtain ⟨y, hy, e⟩ := List.mem_map.mp h
        rw [← e]
        exact (hx.first y hy t).differentiableAt
      · obtain ⟨y, hy, e⟩ := List.mem_map.mp h
        rw [← e]
        exact (hx.second y hy t).differentiableAt
      · exact (p h).differentiableAt
    · subst e
      exact (hx.first y hy t).deriv
    · subst e
      exact (hx.second y hy t).deriv
  have main := Sym.hasDerivAt_eval (x := x) (t := t) (rate := rate) (e := f i) (S := (R.map Prod.fst).toFinset ∪ (f i).vars)
    Finset.subset_union_right (fun v hv => (hrate v hv).1) hd
  refine main.congr_deriv ?_
  have split : ∑ v ∈ (R.map Prod.fst).toFinset ∪ (f i).vars, ((f i).diff v).eval (x t) * rate v =
      ∑ v ∈ (R.map Prod.fst).toFinset, ((f i).diff v).eval (x t) * rate v := by
    symm
    refine Finset.sum_subset Finset.subset_union_left (fun v hv hv' => ?_)
    have hv2 := (Finset.mem_union.mp hv).resolve_left hv'
    rw [List.mem_toFinset, List.mem_map] at hv'
    rcases hf i v hv2 with h | h | h
    · obtain ⟨y, hy, e⟩ := List.mem_map.mp h
      obtain ⟨r, hr, e'⟩ := kq y hy
      exact absurd ⟨r, hr, e'.trans e⟩ hv'
    · obtain ⟨y, hy, e⟩ := List.mem_map.mp h
      have : ¬ y.dq <:+: T.char f := fun hc => by
        obtain ⟨r, hr, e'⟩ := kd y hy hc
        exact hv' ⟨r, hr, e'.trans e⟩
      rw [← e, hT.char_spec f _ this i _ hd, zero_mul]
    · rw [(hrate v hv2).2.2.2 h, mul_zero]
  rw [split, List.sum_toFinset _ nd, List.map_map]
  congr 1
  refine List.map_congr_left (fun r hr => ?_)
  simp only [Function.comp]
  by_cases hv : r.1 ∈ (f i).vars
  · congr 1
    obtain ⟨y, hy, h | h | ⟨k, hk, h⟩⟩ := ok r hr
    · rw [h]
      rw [h] at hv
      exact (hrate _ hv).2.1 y hy rfl
    · rw [h]
      rw [h] at hv
      exact (hrate _ hv).2.2.1 y hy rfl
    · exfalso
      rcases hf i _ hv with h' | h' | h'
      · exact hn.reserved _ (List.mem_append_left _ h') y hy k hk (by rw [h])
      · exact hn.reserved _ (List.mem_append_right _ h') y hy k hk (by rw [h])
      · refine h'.not_d y hy _ h ?_
        exact List.suffix_append _ _
  · rw [Sym.isZero_eval (Sym.diff_zero hv), zero_mul, zero_mul]

/-- The variables of the derivative of an expression in the `q`. -/
lemma step_vars {ι : Type} {T : Toolbox ι} (hT : IsToolbox T) {xs : List TimeVar} (hn : GoodNames xs) {f : ι → Sym}
    (hf : ∀ i, ∀ v ∈ (f i).vars, v ∈ xs.map TimeVar.q ∨ IsParameter xs v) :
    ∀ i, ∀ v ∈ ((fulldiffStep T xs ([], f)).2 i).vars, v ∈ xs.map TimeVar.q ∨ v ∈ xs.map TimeVar.dq ∨ IsParameter xs v := by
  intro i v hv
  have hf' : ∀ i, ∀ v ∈ (f i).vars, v ∈ xs.map TimeVar.q ∨ v ∈ xs.map TimeVar.dq ∨ IsParameter xs v :=
    fun i v h => (hf i v h).imp id Or.inr
  obtain ⟨ok, -, -, -⟩ := step_rows hT hn (stale := []) (by simp) hf'
  rcases vars_fullDiff (f i) _ v hv with h | ⟨r, hr, e, h⟩
  · exact hf' i v h
  · obtain ⟨y, hy, h1 | h1 | ⟨k, hk, h1⟩⟩ := ok r hr
    · rw [e, h1]
      exact Or.inr (Or.inl (List.mem_map_of_mem hy))
    · exfalso
      rw [h1] at h
      rcases hf i _ h with h' | h'
      · have := List.nodup_append.mp hn.nodup
        exact this.2.2 _ h' _ (List.mem_map_of_mem hy) rfl
      · exact h'.not_dq (List.mem_map_of_mem hy)
    · exfalso
      rcases hf i _ h with h' | h'
      · exact hn.reserved _ (List.mem_append_left _ h') y hy k hk (by rw [h1])
      · exact h'.not_d y hy _ h1 (List.suffix_append _ _)

/-- **C98, first derivative.** `fulldMATdt(A,1,q,dq,ddq)` is the time derivative of every entry of `A(q,dq)`. -/
theorem C98_first {ι : Type} (T : Toolbox ι) (hT : IsToolbox T) (xs : List TimeVar) (hxs : xs ≠ []) (hn : GoodNames xs) (A : ι → Sym)
    (hA : ∀ i, ∀ v ∈ (A i).vars, v ∈ xs.map TimeVar.q ∨ v ∈ xs.map TimeVar.dq ∨ IsParameter xs v)
    (x : ℝ → Name → ℝ) (hx : IsTrajectory xs x) (hd : ∀ i t, (A i).Defined (x t)) :
    ∃ B, fulldMATdt T A 1 xs = some B ∧ ∀ i t, HasDerivAt (fun s => (A i).eval (x s)) ((B i).eval (x t)) t := by
  refine ⟨(fulldiffStep T xs ([], A)).2, ?_, fun i t => step_deriv hT hn (by simp) hA hx (hd i t)⟩
  simp [fulldMATdt, fulldiff2, hxs]

/-- **C98, second derivative.** `fulldMATdt(A,2,q,dq,ddq)` is the second time derivative of every entry of `A(q)`. -/
theorem C98_second {ι : Type} (T : Toolbox ι) (hT : IsToolbox T) (xs : List TimeVar) (hxs : xs ≠ []) (hn : GoodNames xs) (A : ι → Sym)
    (hA : ∀ i, ∀ v ∈ (A i).vars, v ∈ xs.map TimeVar.q ∨ IsParameter xs v)
    (x : ℝ → Name → ℝ) (hx : IsTrajectory xs x) (hd : ∀ i t, (A i).Defined (x t)) :
    ∃ B, fulldMATdt T A 2 xs = some B ∧ ∃ V : ι → ℝ → ℝ, ∀ i t,
      HasDerivAt (fun s => (A i).eval (x s)) (V i t) t ∧ HasDerivAt (V i) ((B i).eval (x t)) t := by
  have hA' : ∀ i, ∀ v ∈ (A i).vars, v ∈ xs.map TimeVar.q ∨ v ∈ xs.map TimeVar.dq ∨ IsParameter xs v :=
    fun i v h => (hA i v h).imp id Or.inr
  obtain ⟨ok, -, -, -⟩ := step_rows hT hn (stale := []) (by simp) hA'
  refine ⟨(fulldiffStep T xs (fulldiffStep T xs ([], A))).2, ?_, fun i t => ((fulldiffStep T xs ([], A)).2 i).eval (x t), fun i t => ⟨?_, ?_⟩⟩
  · simp [fulldMATdt, fulldiff2, hxs]
  · exact step_deriv hT hn (by simp) hA' hx (hd i t)
  · exact step_deriv (stale := (fulldiffStep T xs ([], A)).1) hT hn ok (step_vars hT hn hA) hx (defined_fullDiff (hd i t) _)

/-- **C98, higher and zeroth derivatives.** Nothing is returned for `n = 0`, for `n > 2` and without variables. -/
theorem C98_errors {ι : Type} (T : Toolbox ι) (xs : List TimeVar) (A : ι → Sym) (n : ℕ) :
    fulldMATdt T A n xs = none ↔ n = 0 ∨ 2 < n ∨ xs = [] := by
  unfold fulldMATdt fulldiff2
  split_ifs with h1 h2
  · simp [h1]
  · simp; tauto
  · simp; push Not at h2; exact ⟨h2.1, by omega, h2.2⟩

/-- **C98, names.** If the name of the first variable is the beginning of the name of a later one (`q1` and `q10`), the derivative by the
later one is lost: an expression in the later one alone gets the derivative 0. -/
theorem C98_prefix {ι : Type} (T : Toolbox ι) (x : TimeVar) (xs : List TimeVar) (v : Name) (hp : x.q <+: v) (hv : v ≠ x.q)
    (hd : ∀ t, v ≠ 'd' :: t) (A : ι → Sym) (hA : ∀ i, (A i).vars ⊆ {v}) :
    ∃ B, fulldMATdt T A 1 (x :: xs) = some B ∧ ∀ i ρ, (B i).eval ρ = 0 := by
  refine ⟨(fulldiffStep T (x :: xs) ([], A)).2, by simp [fulldMATdt, fulldiff2], fun i ρ => ?_⟩
  have e : (fulldiffStep T (x :: xs) ([], A)).2 i = fullDiff (fulldiffStep T (x :: xs) ([], A)).1 (A i) := rfl
  rw [e, eval_fullDiff]
  refine List.sum_eq_zero (fun y hy => ?_)
  obtain ⟨r, hr, rfl⟩ := List.mem_map.mp hy
  have hne : r.1 ≠ v := by
    intro hrv
    have h := mem_findhigher (T := T) (f := A) (vars := (x :: xs).map TimeVar.q) hr
    rcases h with h | ⟨-, -, t, h, -⟩
    · obtain ⟨rest, hrest⟩ : ∃ rest, collectRows (T.char A) T.passes (x :: xs) [] = (x.q, x.dq) :: rest := by
        have gen : ∀ (ys : List TimeVar) (s : List Row × ℕ) (r0 : Row) (l : List Row), s.1 = r0 :: l → s.2 = s.1.length →
            ∃ rest, (ys.foldl (fun s x => (writeRows s.1 s.2 ((x.q, x.dq) :: derivRows (T.char A) x T.passes 1),
              (writeRows s.1 s.2 ((x.q, x.dq) :: derivRows (T.char A) x T.passes 1)).length)) s).1 = r0 :: rest := by
          intro ys
          induction ys with
          | nil => exact fun s r0 l h _ => ⟨l, h⟩
          | cons y ys ih =>
            intro s r0 l h h'
            rw [List.foldl_cons]
            refine ih _ r0 (l ++ ((y.q, y.dq) :: derivRows (T.char A) y T.passes 1)) ?_ rfl
            simp [writeRows, h', h]
        unfold collectRows
        rw [List.foldl_cons]
        exact gen xs _ (x.q, x.dq) (derivRows (T.char A) x T.passes 1) (by simp [writeRows]) rfl
      rw [hrest, dedup_cons] at h
      rcases List.mem_cons.mp h with h | h
      · exact hv (by rw [← hrv, h])
      · have := (List.mem_filter.mp (mem_of_mem_dedup h)).2
        rw [hrv] at this
        simp [hp] at this
    · exact hd t (by rw [← hrv, h])
  rw [Sym.isZero_eval (Sym.diff_zero (fun h => hne (by simpa using hA i h))), zero_mul]

/-! ## The hypotheses are met -/

/-- A toolbox for matrices with finitely many entries: the text is the concatenation of the names. -/
def exampleToolbox (ι : Type) [Fintype ι] : Toolbox ι where
  char f := (Finset.univ.biUnion (fun i => (f i).vars)).toList.flatten
  findsym f := (Finset.univ.biUnion (fun i => (f i).vars)).toList
  isNum c := c.isDigit
  str2num _ := 0
  passes := 1

lemma infix_flatten_of_mem {v : Name} {L : List Name} (h : v ∈ L) : v <:+: L.flatten := by
  obtain ⟨a, b, rfl⟩ := List.append_of_mem h
  exact ⟨a.flatten, b.flatten, by simp⟩

lemma exampleToolbox_is (ι : Type) [Fintype ι] : IsToolbox (exampleToolbox ι) where
  char_spec f v hv i ρ _ := by
    refine Sym.isZero_eval (Sym.diff_zero (fun h => hv ?_)) ρ
    exact infix_flatten_of_mem (Finset.mem_toList.mpr (Finset.mem_biUnion.mpr ⟨i, Finset.mem_univ _, h⟩))
  findsym_vars f v hv := by
    obtain ⟨i, -, h⟩ := Finset.mem_biUnion.mp (Finset.mem_toList.mp hv)
    exact ⟨i, h⟩
  findsym_text f v hv := infix_flatten_of_mem hv
  passes_pos := le_rfl

/-- `q1`, `dq1`, `ddq1`. -/
def q1 : TimeVar := ⟨['q', '1'], ['d', 'q', '1'], ['d', 'd', 'q', '1']⟩

/-- `q2`, `dq2`, `ddq2`. -/
def q2 : TimeVar := ⟨['q', '2'], ['d', 'q', '2'], ['d', 'd', 'q', '2']⟩

/-- `q10`, `dq10`, `ddq10`. -/
def q10 : TimeVar := ⟨['q', '1', '0'], ['d', 'q', '1', '0'], ['d', 'd', 'q', '1', '0']⟩

/-- The second character of a name `d2q`, `d3q`, ... is a digit. -/
lemma hname_prefix {i : ℕ} {v w : Name} {c : Char} (h : hname i v <+: 'd' :: c :: w) : c.isDigit := by
  unfold hname at h
  rw [List.cons_prefix_cons] at h
  have h := h.2
  rw [Nat.toList_repr] at h
  obtain ⟨a, l, e⟩ : ∃ a l, Nat.toDigits 10 i = a :: l := by
    cases hc : Nat.toDigits 10 i with
    | nil => exact absurd hc Nat.toDigits_ne_nil
    | cons a l => exact ⟨a, l, rfl⟩
  have hd := Nat.isDigit_of_mem_toDigits (b := 10) (n := i) (c := a) (by norm_num) le_rfl (by rw [e]; simp)
  rw [e, List.cons_append, List.cons_prefix_cons] at h
  rw [← h.1]
  exact hd

lemma q12_good : GoodNames [q1, q2] where
  nodup := by decide
  prefixFree := by decide
  reserved a ha x hx i hi h := by
    simp only [q1, q2, List.map_cons, List.map_nil, List.cons_append, List.nil_append, List.mem_cons, List.not_mem_nil, or_false] at ha
    rcases ha with rfl | rfl | rfl | rfl
    · simp [hname] at h
    · simp [hname] at h
    · exact absurd (hname_prefix h) (by decide)
    · exact absurd (hname_prefix h) (by decide)

/-- `q1` runs with velocity 1, `q2` stands still. -/
def exampleTrajectory (t : ℝ) (v : Name) : ℝ := if v = q1.q then t else if v = q1.dq then 1 else if v = q2.q then 2 else 0

lemma exampleTrajectory_is : IsTrajectory [q1, q2] exampleTrajectory where
  first v hv t := by
    simp only [List.mem_cons, List.not_mem_nil, or_false] at hv
    rcases hv with rfl | rfl
    · have e : (fun s => exampleTrajectory s q1.q) = fun s => s := funext (fun s => by simp [exampleTrajectory])
      have e' : exampleTrajectory t q1.dq = 1 := by simp [exampleTrajectory, show q1.dq ≠ q1.q by decide]
      rw [e, e']
      exact hasDerivAt_id t
    · have e : (fun s => exampleTrajectory s q2.q) = fun _ => 2 :=
        funext (fun s => by simp [exampleTrajectory, show q2.q ≠ q1.q by decide, show q2.q ≠ q1.dq by decide])
      have e' : exampleTrajectory t q2.dq = 0 := by
        simp [exampleTrajectory, show q2.dq ≠ q1.q by decide, show q2.dq ≠ q1.dq by decide, show q2.dq ≠ q2.q by decide]
      rw [e, e']
      exact hasDerivAt_const _ _
  second v hv t := by
    simp only [List.mem_cons, List.not_mem_nil, or_false] at hv
    rcases hv with rfl | rfl
    · have e : (fun s => exampleTrajectory s q1.dq) = fun _ => 1 :=
        funext (fun s => by simp [exampleTrajectory, show q1.dq ≠ q1.q by decide])
      have e' : exampleTrajectory t q1.ddq = 0 := by
        simp [exampleTrajectory, show q1.ddq ≠ q1.q by decide, show q1.ddq ≠ q1.dq by decide, show q1.ddq ≠ q2.q by decide]
      rw [e, e']
      exact hasDerivAt_const _ _
    · have e : (fun s => exampleTrajectory s q2.dq) = fun _ => 0 := funext (fun s => by
        simp [exampleTrajectory, show q2.dq ≠ q1.q by decide, show q2.dq ≠ q1.dq by decide, show q2.dq ≠ q2.q by decide])
      have e' : exampleTrajectory t q2.ddq = 0 := by
        simp [exampleTrajectory, show q2.ddq ≠ q1.q by decide, show q2.ddq ≠ q1.dq by decide, show q2.ddq ≠ q2.q by decide]
      rw [e, e']
      exact hasDerivAt_const _ _
  const p hp s t := by
    have h1 : p ≠ q1.q := fun h => hp.not_q (by simp [h])
    have h2 : p ≠ q1.dq := fun h => hp.not_dq (by simp [h])
    simp [exampleTrajectory, h1, h2]

/-- The theorems apply, e.g., to `A = [l sin(q1) q2, 1/q2]` with a parameter `l`. -/
theorem C98_example :
    ∃ B, fulldMATdt (exampleToolbox (Fin 2))
        ![.mul (.var ['l']) (.mul (.sin (.var q1.q)) (.var q2.q)), .inv (.var q2.q)] 2 [q1, q2] = some B ∧
      ∃ V : Fin 2 → ℝ → ℝ, ∀ i t,
        HasDerivAt (fun s => (![Sym.mul (.var ['l']) (.mul (.sin (.var q1.q)) (.var q2.q)), .inv (.var q2.q)] i).eval (exampleTrajectory s))
          (V i t) t ∧ HasDerivAt (V i) ((B i).eval (exampleTrajectory t)) t := by
  refine C98_second _ (exampleToolbox_is _) _ (by simp) q12_good _ (fun i v hv => ?_) _ exampleTrajectory_is (fun i t => ?_)
  · fin_cases i
    · simp only [Fin.zero_eta, Matrix.cons_val_zero, Sym.vars, Finset.mem_union, Finset.mem_singleton] at hv
      rcases hv with rfl | rfl | rfl
      · refine Or.inr ⟨by decide, by decide, fun x _ t h => by simp at h⟩
      · exact Or.inl (by simp)
      · exact Or.inl (by simp)
    · simp only [Fin.mk_one, Matrix.cons_val_one, Matrix.cons_val_zero, Sym.vars, Finset.mem_singleton] at hv
      subst hv
      exact Or.inl (by simp)
  · fin_cases i
    · exact ⟨trivial, trivial, trivial⟩
    · refine ⟨trivial, ?_⟩
      simp [Sym.eval, exampleTrajectory, show q2.q ≠ q1.q by decide, show q2.q ≠ q1.dq by decide]

/-- With `q = [q1; ...; q10]` the derivative of `q10` comes out as 0 instead of `dq10`, in every toolbox and for all values. -/
theorem C98_q10 {ι : Type} (T : Toolbox ι) (xs : List TimeVar) :
    ∃ B, fulldMATdt T (fun _ => .var q10.q) 1 (q1 :: xs) = some B ∧ ∀ i ρ, (B i).eval ρ = 0 :=
  C98_prefix T q1 xs q10.q (by decide) (by decide) (fun t h => by simp [q10] at h) _ (fun i => by simp [Sym.vars])

end Kindr.Matlab
