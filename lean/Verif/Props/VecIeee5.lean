import Verif.Spec.VecIeee2
import Verif.Props.VecIeee4

/-!
# C119: `isSimilarTo` and `projectOn` in IEEE arithmetic
-/

set_option autoImplicit false

open Classical

noncomputable section
namespace Kindr
open Spec

/-! ## Maxima -/

lemma XR.max_lt {a b c : XR} (ha : a ≠ .nan) (hb : b ≠ .nan) : (a.max b).lt c ↔ a.lt c ∧ b.lt c := by
  unfold XR.max
  cases a with
  | nan => exact absurd rfl ha
  | fin x => cases b with
    | nan => exact absurd rfl hb
    | fin y =>
      cases c with
      | nan => simp [XR.lt]
      | inf s => split_ifs <;> simp [XR.lt]
      | fin z =>
        by_cases h : x < y
        · rw [if_pos (show (XR.fin x).lt (.fin y) from h)]; exact ⟨fun k => ⟨lt_trans h k, k⟩, fun k => k.2⟩
        · rw [if_neg (show ¬ (XR.fin x).lt (.fin y) from h)]; exact ⟨fun k => ⟨k, lt_of_le_of_lt (not_lt.mp h) k⟩, fun k => k.1⟩
    | inf s => cases s <;> cases c with
      | nan => simp [XR.lt]
      | inf s => cases s <;> simp [XR.lt]
      | fin z => simp [XR.lt]
  | inf r => cases b with
    | nan => exact absurd rfl hb
    | fin y => cases r <;> cases c with
      | nan => simp [XR.lt]
      | inf s => cases s <;> simp [XR.lt]
      | fin z => simp [XR.lt]
    | inf s => cases r <;> cases s <;> cases c with
      | nan => simp [XR.lt]
      | inf s => cases s <;> simp [XR.lt]
      | fin z => simp [XR.lt]

lemma XR.max_ne_nan {a b : XR} (ha : a ≠ .nan) (hb : b ≠ .nan) : a.max b ≠ .nan := by
  unfold XR.max; split_ifs <;> assumption

lemma XR.nan_max (b : XR) : XR.max .nan b = .nan := by simp [XR.max, XR.lt]
lemma XR.max_nan (a : XR) : XR.max a .nan = a := by cases a <;> simp [XR.max, XR.lt]

lemma XR.reduceMax_lt {ι : Type} (c : ι → XR) (t : SumOrder ι) (h : ∀ i ∈ t.leaves, c i ≠ .nan) (tol : XR) :
    XR.reduceMax c t ≠ .nan ∧ ((XR.reduceMax c t).lt tol ↔ ∀ i ∈ t.leaves, (c i).lt tol) := by
  induction t with
  | leaf i => simpa [SumOrder.leaves, XR.reduceMax] using h
  | node l r hl hr =>
    simp only [SumOrder.leaves, List.mem_append] at h ⊢
    obtain ⟨l1, l2⟩ := hl fun i hi => h i (.inl hi)
    obtain ⟨r1, r2⟩ := hr fun i hi => h i (.inr hi)
    refine ⟨XR.max_ne_nan l1 r1, ?_⟩
    change ((XR.reduceMax c l).max (XR.reduceMax c r)).lt tol ↔ _
    rw [XR.max_lt l1 r1, l2, r2]
    exact ⟨fun k i hi => hi.elim (k.1 i) (k.2 i), fun k => ⟨fun i hi => k i (.inl hi), fun i hi => k i (.inr hi)⟩⟩

lemma XR.reduceMax_first {ι : Type} (c : ι → XR) (t : SumOrder ι) {i : ι} {l : List ι} (h : t.leaves = i :: l) (hi : c i = .nan) :
    XR.reduceMax c t = .nan := by
  induction t generalizing l with
  | leaf j =>
    simp only [SumOrder.leaves, List.cons.injEq] at h
    change c j = _
    rw [h.1, hi]
  | node a b ha hb =>
    simp only [SumOrder.leaves] at h
    have : ∃ l', a.leaves = i :: l' := by
      rcases e : a.leaves with _ | ⟨j, l'⟩
      · have := Format.leaves_pos a; rw [e] at this; simp at this
      · rw [e] at h; simp only [List.cons_append, List.cons.injEq] at h; exact ⟨l', by rw [h.1]⟩
    obtain ⟨l', e⟩ := this
    change (XR.reduceMax c a).max _ = _
    rw [ha e, XR.nan_max]

lemma similar_iff (A : XArith) {n : ℕ} (t : SumOrder (Fin n)) (a b : XVec n) (tol : XR) :
    A.vIsSimilarTo t a b tol = true ↔ (XR.reduceMax (fun i => (A.sub (a i) (b i)).abs) t).lt tol := by
  unfold XArith.vIsSimilarTo
  change (if (XR.reduceMax (fun i => (A.sub (a i) (b i)).abs) t).lt tol then true else false) = true ↔ _
  split_ifs with h <;> simp [h]

lemma XR.abs_ne_nan {a : XR} : a.abs ≠ .nan ↔ a ≠ .nan := by cases a <;> simp [XR.abs]

/-- **C119 (a).** As long as no difference is NaN, `isSimilarTo` compares every coefficient, in whatever order the maximum is formed. -/
theorem C119_similar_iff (A : XArith) {n : ℕ} {t : SumOrder (Fin n)} (ht : Complete t) (a b : XVec n) (tol : XR)
    (h : ∀ i, A.sub (a i) (b i) ≠ .nan) :
    A.vIsSimilarTo t a b tol = true ↔ ∀ i, (A.sub (a i) (b i)).abs.lt tol := by
  rw [similar_iff, (XR.reduceMax_lt _ t (fun i _ => XR.abs_ne_nan.mpr (h i)) tol).2]
  exact ⟨fun k i => k i (Format.complete_mem ht i), fun k i _ => k i⟩

/-- **C119 (finding).** A NaN in the first coefficient makes vectors dissimilar, but in a `Vector` of dimension three a NaN in the second coefficient
hides both itself and the third coefficient: `(x, NaN, z)` is similar to every vector whose first coefficient is close to `x`; and from left to
right a NaN anywhere but in the first place is ignored. -/
theorem C119_similar_nan (A : XArith) {n : ℕ} (tol : XR) :
    (∀ (t : SumOrder (Fin n)) (a b : XVec n) (i : Fin n) (l : List (Fin n)), t.leaves = i :: l → A.sub (a i) (b i) = .nan →
      A.vIsSimilarTo t a b tol = false) ∧
    (∀ x z : XR, ∀ b : XVec 3, A.vIsSimilarTo unrolled3 ![x, .nan, z] b tol = true ↔ (A.sub x (b 0)).abs.lt tol) ∧
    (∀ a b : XVec (n + 1), A.vIsSimilarTo (leftToRight n) a b tol = true ↔
      (A.sub (a 0) (b 0)).abs.lt tol ∧ ∀ i, A.sub (a i) (b i) = .nan ∨ (A.sub (a i) (b i)).abs.lt tol) := by
  refine ⟨fun t a b i l h1 h2 => ?_, fun x z b => ?_, fun a b => ?_⟩
  · rw [← Bool.not_eq_true, similar_iff, XR.reduceMax_first _ t h1 (by rw [h2]; rfl)]
    simp [XR.lt]
  · rw [similar_iff]
    have e : A.sub .nan (b 1) = .nan := by cases h : b 1 <;> rfl
    have : XR.reduceMax (fun i => (A.sub ((![x, .nan, z] : XVec 3) i) (b i)).abs) unrolled3 = (A.sub x (b 0)).abs := by
      change XR.max (A.sub x (b 0)).abs (XR.max (A.sub .nan (b 1)).abs (A.sub z (b 2)).abs) = _
      rw [e]
      change XR.max _ (XR.max .nan _) = _
      rw [XR.nan_max, XR.max_nan]
    rw [this]
  · rw [similar_iff]
    obtain ⟨c, hc⟩ : ∃ c : Fin (n + 1) → XR, c = fun i => (A.sub (a i) (b i)).abs := ⟨_, rfl⟩
    have key : ∀ (l : List (Fin (n + 1))) (t : SumOrder (Fin (n + 1))),
        (XR.reduceMax c (l.foldl (fun t i => .node t (.leaf i)) t)).lt tol ↔
          (XR.reduceMax c t).lt tol ∧ ∀ i ∈ l, (XR.reduceMax c t ≠ .nan → c i = .nan ∨ (c i).lt tol) := by
      intro l
      induction l with
      | nil => intro t; simp
      | cons i l ih =>
        intro t
        rw [List.foldl_cons, ih]
        change ((XR.reduceMax c t).max (c i)).lt tol ∧ (∀ j ∈ l, (XR.reduceMax c t).max (c i) ≠ .nan → _) ↔ _
        by_cases h1 : XR.reduceMax c t = .nan
        · rw [h1, XR.nan_max]; simp [XR.lt]
        · by_cases h2 : c i = .nan
          · rw [h2, XR.max_nan]; simp [h1, h2]
          · rw [XR.max_lt h1 h2]
            have h3 := XR.max_ne_nan h1 h2
            simp only [ne_eq, h1, h2, h3, not_false_eq_true, true_imp_iff, List.mem_cons, forall_eq_or_imp, false_or]
            tauto
    have e : ∀ i, c i = .nan ↔ A.sub (a i) (b i) = .nan := fun i => by
      rw [hc]; have := XR.abs_ne_nan (a := A.sub (a i) (b i)); exact not_iff_not.mp this
    rw [← hc]
    unfold leftToRight
    rw [key]
    change (c 0).lt tol ∧ (∀ i ∈ (List.finRange n).map Fin.succ, c 0 ≠ .nan → _) ↔ _
    have z : ∀ i, (A.sub (a i) (b i)).abs = c i := fun i => by rw [hc]
    simp only [← e, z]
    constructor
    · rintro ⟨h1, h2⟩
      have n0 : c 0 ≠ .nan := by intro h; rw [h] at h1; simp [XR.lt] at h1
      refine ⟨h1, fun i => ?_⟩
      rcases Fin.eq_zero_or_eq_succ i with rfl | ⟨j, rfl⟩
      · exact .inr h1
      · exact h2 _ (List.mem_map.mpr ⟨j, List.mem_finRange j, rfl⟩) n0
    · rintro ⟨h1, h2⟩
      exact ⟨h1, fun i _ _ => h2 i⟩

namespace Format
variable {f : Format} {n : ℕ}

lemma sub_swap (x y : XR) : f.arith.sub x y = (f.arith.sub y x).neg := by
  cases x with
  | nan => cases y <;> rfl
  | fin x => cases y with
    | nan => rfl
    | inf s => rfl
    | fin y =>
      change f.arith.rnd (x + -y) = (f.arith.rnd (y + -x)).neg
      rw [← rnd_neg]; congr 1; ring
  | inf r => cases y with
    | nan => rfl
    | fin y => simp [XArith.sub, XArith.add, XR.neg]
    | inf s => cases r <;> cases s <;> simp [XArith.sub, XArith.add, XR.neg]

/-- **C119 (b).** `isSimilarTo` is symmetric, also for infinite and NaN coefficients. -/
theorem C119_similar_symmetric (t : SumOrder (Fin n)) (a b : XVec n) (tol : XR) :
    f.arith.vIsSimilarTo t a b tol = f.arith.vIsSimilarTo t b a tol := by
  have e : (fun i => (f.arith.sub (a i) (b i)).abs) = fun i => (f.arith.sub (b i) (a i)).abs := by
    funext i
    rw [sub_swap]
    cases f.arith.sub (b i) (a i) <;> simp [XR.abs, XR.neg]
  rw [Bool.eq_iff_iff, similar_iff, similar_iff, e]

lemma round_mono_nonneg (hf : f.Ok) {x y : ℝ} (h0 : 0 ≤ x) (h : x ≤ y) : f.round x ≤ f.round y := by
  rcases h0.eq_or_lt with rfl | h0
  · rw [round_zero]; exact round_nonneg h
  have y0 : 0 < y := h0.trans_le h
  have hq := qexp_mono (f := f) (y := y) h0.ne' (by rw [abs_of_pos h0, abs_of_pos y0]; exact h)
  rcases hq.eq_or_lt with e | e
  · rw [round_def, round_def, e]
    refine mul_le_mul_of_nonneg_right ?_ (by positivity)
    exact_mod_cast roundTiesEven_mono (div_le_div_of_nonneg_right h (by positivity))
  · have hp := hf.p
    have e1 : f.qexp y = Int.log 2 |y| - (f.p - 1) := by
      have := emin_le_qexp (f := f) x
      unfold qexp at e this ⊢; omega
    have e2 : Int.log 2 |x| < Int.log 2 |y| := by
      have : Int.log 2 |x| - (f.p - 1) ≤ f.qexp x := le_max_left _ _
      omega
    have a1 : x ≤ 2 ^ Int.log 2 |y| := by
      refine (le_abs_self x).trans ((Int.lt_zpow_succ_log_self (b := 2) (by norm_num) |x|).le.trans ?_)
      push_cast
      exact zpow_le_zpow_right₀ (by norm_num) (by omega)
    have a2 : (2 : ℝ) ^ Int.log 2 |y| ≤ y := by
      have := Int.zpow_log_le_self (b := 2) (by norm_num) (abs_pos.mpr y0.ne')
      rw [abs_of_pos y0] at this ⊢
      exact_mod_cast this
    exact (round_le a1 (grid_pow (by omega))).trans (le_round a2 (grid_pow (by omega)))

/-- **C119 (c).** Of stored vectors `isSimilarTo` never accepts a coefficient that deviates by the tolerance or more, although the difference is
rounded; it accepts all deviations up to the next smaller number, and it is exact if the differences are numbers of the format. -/
theorem C119_similar (hf : AtLeastFloat f) {t : SumOrder (Fin n)} (ht : Complete t) (a b : Fin n → ℝ) {tol : ℝ} (htol : Storable f tol) :
    (f.arith.vIsSimilarTo t (embV a) (embV b) (.fin tol) = true → ∀ i, |a i - b i| < tol) ∧
    (∀ s, Storable f s → s < tol → (∀ i, |a i - b i| ≤ s) → f.arith.vIsSimilarTo t (embV a) (embV b) (.fin tol) = true) ∧
    ((∀ i, Storable f (a i - b i)) → (f.arith.vIsSimilarTo t (embV a) (embV b) (.fin tol) = true ↔ ∀ i, |a i - b i| < tol)) := by
  have ok := alf_ok hf
  have ne : ∀ i, f.arith.sub (embV a i) (embV b i) ≠ .nan := fun i => f.arith.rnd_ne_nan _
  have e := C119_similar_iff f.arith ht (embV a) (embV b) (.fin tol) ne
  have c : ∀ i, (f.arith.sub (embV a i) (embV b i)).abs.lt (.fin tol) ↔ |f.round (a i - b i)| < tol := fun i => by
    change (f.arith.rnd (a i + -b i)).abs.lt _ ↔ _
    rw [← sub_eq_add_neg]
    change (if 2 ^ f.emax ≤ |f.round (a i - b i)| then XR.inf _ else .fin (f.round (a i - b i))).abs.lt _ ↔ _
    split_ifs with h
    · have := (stored_iff.mp htol).2
      have := le_abs_self tol
      simp only [XR.abs, XR.lt, Bool.false_eq_true, false_iff, not_lt]
      linarith
    · rfl
  have m1 : ∀ i, |f.round (a i - b i)| < tol → |a i - b i| < tol := fun i h => by
    by_contra hc
    rw [abs_round] at h
    have t0 : 0 ≤ tol := by rw [← abs_round] at h; exact (abs_nonneg _).trans h.le
    have := round_mono_nonneg ok t0 (not_lt.mp hc)
    rw [stored_round htol] at this
    linarith
  refine ⟨fun h i => m1 i ((c i).mp (e.mp h i)), fun s hs h1 h2 => e.mpr fun i => (c i).mpr ?_, fun hs => ?_⟩
  · rw [abs_round]
    have := round_mono_nonneg ok (abs_nonneg _) (h2 i)
    rw [stored_round hs] at this
    linarith
  · rw [e]
    refine forall_congr' fun i => ?_
    rw [c, stored_round (hs i)]

/-! ## Projection: the ends of the range -/

lemma tiny_sum (hf : f.Ok) (t : SumOrder (Fin n)) (b : Fin n → ℝ) (h : ∀ i, b i ^ 2 ≤ 2 ^ (f.emin - 1)) :
    f.arith.vSquaredNorm t (embV b) = .fin 0 := by
  unfold XArith.vSquaredNorm XArith.vDot
  induction t with
  | leaf i =>
    change f.arith.rnd (b i * b i) = _
    rw [rnd_eq_zero hf, abs_mul_self, ← sq]; exact h i
  | node l r hl hr =>
    change f.arith.add (f.arith.reduce _ l) (f.arith.reduce _ r) = _
    rw [hl, hr]
    change f.arith.rnd (0 + 0) = _
    rw [add_zero, f.arith.rnd_zero]

/-- **C119 (finding).** If the squares of all coefficients of the other vector underflow (`double`: coefficients up to about `1.5e-162`), no
coefficient of the projection is finite, whatever is projected. -/
theorem C119_project_tiny (hf : AtLeastFloat f) (t s : SumOrder (Fin n)) (a : XVec n) (b : Fin n → ℝ) (h : ∀ i, b i ^ 2 ≤ 2 ^ (f.emin - 1)) (i : Fin n) :
    ¬ (f.arith.vProjectOn t s a (embV b) i).IsFinite := by
  unfold XArith.vProjectOn
  rw [tiny_sum (alf_ok hf) s b h]
  change ¬ (f.arith.mul (.fin (b i)) _).IsFinite
  cases f.arith.vDot t a (embV b) with
  | nan => exact fun h => h
  | inf r =>
    simp only [XArith.div, XArith.mul]
    split_ifs <;> exact fun h => h
  | fin x =>
    simp only [XArith.div, if_true]
    by_cases hx : x = 0
    · rw [if_pos hx]; exact fun h => h
    · rw [if_neg hx]
      simp only [XArith.mul]
      split_ifs <;> exact fun h => h

lemma gn_reduce (t : SumOrder (Fin n)) (b : Fin n → ℝ) : f.GN (f.arith.vSquaredNorm t (embV b)) := by
  unfold XArith.vSquaredNorm XArith.vDot
  induction t with
  | leaf i => exact gn_sq (b i)
  | node l r hl hr => exact gn_add hl hr

lemma huge_sum (hf : f.Ok) (t : SumOrder (Fin n)) (b : Fin n → ℝ) {i : Fin n} (hi : i ∈ t.leaves) (h : 2 ^ f.emax ≤ b i ^ 2) :
    f.arith.vSquaredNorm t (embV b) = .inf false := by
  induction t with
  | leaf j =>
    simp only [SumOrder.leaves, List.mem_singleton] at hi
    rw [← hi]; exact sq_inf hf h
  | node l r hl hr =>
    simp only [SumOrder.leaves, List.mem_append] at hi
    rcases hi with hi | hi
    · exact add_inf_left (hl hi) (gn_reduce r b)
    · exact add_inf_right (hr hi) (gn_reduce l b)

/-- **C119 (finding).** If the square of a coefficient of the other vector overflows (`double`: from about `1.34e154`), the projection is the zero
vector, or NaN in every coefficient if the inner product overflows as well. -/
theorem C119_project_huge (hf : AtLeastFloat f) (t : SumOrder (Fin n)) {s : SumOrder (Fin n)} (hs : Complete s) (a : XVec n) (b : Fin n → ℝ)
    (h : ∃ i, 2 ^ f.emax ≤ b i ^ 2) :
    f.arith.vProjectOn t s a (embV b) = if (f.arith.vDot t a (embV b)).IsFinite then fun _ => .fin 0 else fun _ => .nan := by
  obtain ⟨i, hi⟩ := h
  unfold XArith.vProjectOn
  rw [huge_sum (alf_ok hf) s b (complete_mem hs i) hi]
  cases f.arith.vDot t a (embV b) with
  | nan => rw [if_neg (show ¬ XR.nan.IsFinite from fun h => h)]; rfl
  | inf r => rw [if_neg (show ¬ (XR.inf r).IsFinite from fun h => h)]; rfl
  | fin x =>
    rw [if_pos (show (XR.fin x).IsFinite from trivial)]
    funext j
    change f.arith.rnd (b j * 0) = _
    rw [mul_zero, f.arith.rnd_zero]

end Format
end Kindr
