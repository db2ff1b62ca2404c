import Verif.Model.Macro
import Verif.Props.Checks

/-!
# C111: the assertion macros as program text
-/

set_option autoImplicit false

open Classical

noncomputable section
namespace Kindr
open Macro

/-! ## Texts -/

private lemma split_at {c : Char} : ∀ {a a' x x' : Text}, c ∉ a → c ∉ a' → a ++ c :: x = a' ++ c :: x' → a = a' ∧ x = x'
  | [], [], _, _, _, _, h => by simpa using h
  | [], d :: a', _, _, _, h2, h => by
      simp only [List.nil_append, List.cons_append, List.cons.injEq] at h
      exact absurd (h.1 ▸ List.mem_cons_self) h2
  | d :: a, [], _, _, h1, _, h => by
      simp only [List.nil_append, List.cons_append, List.cons.injEq] at h
      exact absurd (h.1 ▸ List.mem_cons_self) h1
  | d :: a, d' :: a', x, x', h1, h2, h => by
      simp only [List.cons_append, List.cons.injEq] at h
      obtain ⟨i1, i2⟩ := split_at (fun m => h1 (List.mem_cons_of_mem _ m)) (fun m => h2 (List.mem_cons_of_mem _ m)) h.2
      exact ⟨by rw [h.1, i1], i2⟩

private lemma digit_char {d : ℕ} (h : d < 10) : (Nat.digitChar d).toNat - 48 = d ∧ Nat.digitChar d ≠ ':' := by
  interval_cases d <;> decide

private lemma decimal_inv (n : ℕ) : Nat.ofDigits 10 ((decimal n).reverse.map fun c => c.toNat - 48) = n := by
  rw [decimal]
  split_ifs with h
  · rw [h]; rfl
  · rw [← List.map_reverse, List.reverse_reverse, List.map_map]
    have : (Nat.digits 10 n).map ((fun c : Char => c.toNat - 48) ∘ Nat.digitChar) = (Nat.digits 10 n).map id :=
      List.map_congr_left fun d hd => (digit_char (Nat.digits_lt_base (by norm_num) hd)).1
    rw [this, List.map_id, Nat.ofDigits_digits]

private lemma decimal_inj {n n' : ℕ} (h : decimal n = decimal n') : n = n' := by
  rw [← decimal_inv n, h, decimal_inv]

private lemma colon_not_mem (n : ℕ) : ':' ∉ decimal n := by
  rw [decimal]
  split_ifs
  · decide
  · rw [List.mem_map]
    rintro ⟨d, hd, e⟩
    exact (digit_char (Nat.digits_lt_base (by norm_num) (List.mem_reverse.mp hd))).2 e

/-- **C111 (a).** Both ways of printing a source position agree, and the text of an exception determines everything it is made of: the
name of the exception class, file, line, function and message (names without `]`, files without `:`, functions without `(`). -/
theorem C111_text (w w' : Site) (t t' : Text) :
    w.pos.toText = w.pos.stream ∧
    (']' ∉ w.exc → ']' ∉ w'.exc → ':' ∉ w.pos.file → ':' ∉ w'.pos.file → '(' ∉ w.pos.function → '(' ∉ w'.pos.function →
      w.what t = w'.what t' →
      w.exc = w'.exc ∧ w.pos.file = w'.pos.file ∧ w.pos.line = w'.pos.line ∧ w.pos.function = w'.pos.function ∧ t = t') := by
  refine ⟨by simp [SourcePos.toText, SourcePos.stream], ?_⟩
  intro h1 h2 h3 h4 h5 h6 h
  have e : ∀ (w : Site) (t : Text), w.what t = '[' :: (w.exc ++ ']' :: ' ' :: (w.pos.file ++ ':' :: (decimal w.pos.line ++ ':' :: ' ' ::
      (w.pos.function ++ '(' :: ')' :: ' ' :: t)))) := by
    intro w t
    simp [Site.what, throwText, SourcePos.toText]
  rw [e, e] at h
  obtain ⟨a1, h⟩ := split_at h1 h2 (List.cons.inj h).2
  obtain ⟨a2, h⟩ := split_at h3 h4 (List.cons.inj h).2
  obtain ⟨a3, h⟩ := split_at (colon_not_mem _) (colon_not_mem _) h
  obtain ⟨a4, h⟩ := split_at h5 h6 (List.cons.inj h).2
  exact ⟨a1, a2, decimal_inj a3, a4, (List.cons.inj (List.cons.inj h).2).2⟩

/-- Example of the text: the site of the check in `setFromVectors`. -/
example : (⟨"std::runtime_error".toList, ⟨"setFromVectors".toList, "RotationImpl.hpp".toList, 183⟩, []⟩ : Site).what "x".toList =
    "[std::runtime_error] RotationImpl.hpp:183: setFromVectors() x".toList := by
  have : decimal 183 = "183".toList := by
    rw [decimal]; norm_num; decide
  simp [Site.what, throwText, SourcePos.toText, this]

/-! ## Verdict and evaluation -/

variable {σ : Type} (o : Orders) (fmt : XR → Text) (dbg : Bool) (w : Site) (vs ls us : Text)

/-- **C111 (b).** With operands without side effects, each macro passes exactly if the relation in its name is not violated (C73), and
leaves everything as it was; otherwise the text shows the source text and the values of both operands. -/
theorem C111_values (r : Rel) (x y z : XR) (c : Bool) (s : σ) :
    (execAll (relBody o fmt dbg r w vs us (fun s => (x, s)) (fun s => (y, s))) s =
      if r.bad x y then .threw (w.what (label dbg ++ vs ++ r.sign ++ us ++ ") failed [".toList ++ fmt x ++ r.sign ++ fmt y ++
        "]: ".toList ++ w.msg)) s else .next s) ∧
    (r.bad x y = false ↔ match r with
      | .lt => assertLt x y = .ok () | .ge => assertGe x y = .ok () | .le => assertLe x y = .ok ()
      | .gt => assertGt x y = .ok () | .eq => assertEq x y = .ok () | .ne => assertNe x y = .ok ()) ∧
    (execAll (geLtBody o fmt dbg w vs ls us (fun s => (x, s)) (fun s => (y, s)) (fun s => (z, s))) s =
      if assertGeLt x y z = .ok () then .next s else .threw (w.what (label dbg ++ ls ++ " <= ".toList ++ vs ++ " < ".toList ++ us ++
        ") failed [".toList ++ fmt y ++ " <= ".toList ++ fmt x ++ " < ".toList ++ fmt z ++ "]: ".toList ++ w.msg)) s) ∧
    (execAll (boolBody dbg false w vs (fun s => (c, s))) s =
      if c = true then .next s else .threw (w.what (label dbg ++ vs ++ ") failed: ".toList ++ w.msg)) s) ∧
    (execAll (boolBody dbg true w vs (fun s => (c, s))) s =
      if c = true then .threw (w.what (label dbg ++ " not ".toList ++ vs ++ ") failed: ".toList ++ w.msg)) s else .next s) := by
  have e2 : ∀ (b : Bool) (x y : XR) (s : σ), ev2 b (fun s => (x, s)) (fun s => (y, s)) s = ((x, y), s) := by
    intro b x y s; cases b <;> rfl
  have e3 : ∀ (b : Bool) (x y z : XR) (s : σ), ev2 b (fun s => (x, s)) (ev2 b (fun s => (y, s)) (fun s => (z, s))) s = ((x, (y, z)), s) := by
    intro b x y z s; cases b <;> rfl
  refine ⟨?_, ?_, ?_, ?_, ?_⟩
  · simp only [relBody, execAll, Stmt.exec, e2]
    cases r.bad x y <;> simp
  · cases r <;> simp [Rel.bad, assertLt, assertGe, assertLe, assertGt, assertEq, assertNe]
  · simp only [geLtBody, execAll, Stmt.exec, e2, e3, Rel.bad]
    by_cases h1 : x.lt y
    · simp [h1, assertGeLt]
    · by_cases h2 : z.le x
      · simp [h1, h2, assertGeLt]
      · simp [h1, h2, assertGeLt]
  · cases c <;> simp [boolBody, execAll, Stmt.exec]
  · cases c <;> simp [boolBody, execAll, Stmt.exec]

/-- **C111 (b), in plain terms.** The relations on numbers, with NaN (only `EQ` refuses it), the relation signs and the labels. -/
theorem C111_relations (r : Rel) (a b : ℝ) (x : XR) :
    (r.bad (.fin a) (.fin b) = false ↔ match r with
      | .lt => a < b | .ge => b ≤ a | .le => a ≤ b | .gt => b < a | .eq => a = b | .ne => a ≠ b) ∧
    (r.bad .nan x = true ↔ r = .eq) ∧ (r.bad x .nan = true ↔ r = .eq) ∧
    r.sign = (match r with | .lt => " < " | .ge => " >= " | .le => " <= " | .gt => " > " | .eq => " == " | .ne => " != ").toList ∧
    label false = "assert(".toList ∧ label true = "debug assert(".toList := by
  refine ⟨?_, ?_, ?_, ?_, rfl, rfl⟩
  · cases r <;> simp only [Rel.bad, decide_eq_false_iff_not] <;> simp [XR.le, XR.lt, XR.eq, ← le_iff_lt_or_eq]
  · cases r <;> simp only [Rel.bad, decide_eq_true_eq] <;> cases x <;> simp [XR.le, XR.lt, XR.eq]
  · cases r <;> simp only [Rel.bad, decide_eq_true_eq] <;> cases x <;> simp [XR.le, XR.lt, XR.eq]
  · cases r <;> rfl

/-- **C111 (c).** How often the first operand is evaluated, for every state and every other operand: `LT`, `GE`, `LE`, `GT`, `EQ`, `NE`
evaluate it once if they pass and twice if they throw; `GE_LT` twice if it passes and two or three times if it throws; `TRUE` and `FALSE`
once.  `n` counts the evaluations. -/
theorem C111_evaluations (r : Rel) (v l u : Ev σ XR) (c : Ev σ Bool) (neg : Bool) (n : σ → ℕ) (hv : ∀ s, n (v s).2 = n s + 1)
    (hl : ∀ s, n (l s).2 = n s) (hu : ∀ s, n (u s).2 = n s) (hc : ∀ s, n (c s).2 = n s + 1) (s s' : σ) (t : Text) :
    (execAll (relBody o fmt dbg r w vs us v u) s = .next s' → n s' = n s + 1) ∧
    (execAll (relBody o fmt dbg r w vs us v u) s = .threw t s' → n s' = n s + 2) ∧
    (execAll (geLtBody o fmt dbg w vs ls us v l u) s = .next s' → n s' = n s + 2) ∧
    (execAll (geLtBody o fmt dbg w vs ls us v l u) s = .threw t s' → n s' = n s + 2 ∨ n s' = n s + 3) ∧
    (execAll (boolBody dbg neg w vs c) s = .next s' ∨ execAll (boolBody dbg neg w vs c) s = .threw t s' → n s' = n s + 1) := by
  have e2 : ∀ (b : Bool) (u : Ev σ XR) (_ : ∀ s, n (u s).2 = n s) (s : σ), n (ev2 b v u s).2 = n s + 1 := by
    intro b u hu s; cases b <;> simp [ev2, hu, hv]
  have e3 : ∀ (b : Bool) (s : σ), n (ev2 b l (ev2 b v u) s).2 = n s + 1 := by
    intro b s; cases b <;> simp [ev2, hu, hv, hl]
  refine ⟨?_, ?_, ?_, ?_, ?_⟩
  · simp only [relBody, execAll, Stmt.exec]
    by_cases h : r.bad (ev2 o.cond v u s).1.1 (ev2 o.cond v u s).1.2 = true
    · simp [h]
    · simp only [h, if_false, Flow.next.injEq, Bool.false_eq_true]
      rintro rfl; exact e2 _ u hu s
  · simp only [relBody, execAll, Stmt.exec]
    by_cases h : r.bad (ev2 o.cond v u s).1.1 (ev2 o.cond v u s).1.2 = true
    · simp only [h, if_true, Flow.threw.injEq]
      rintro ⟨_, rfl⟩; rw [e2 _ u hu, e2 _ u hu]
    · simp [h]
  · simp only [geLtBody, execAll, Stmt.exec]
    by_cases h : Rel.bad .ge (ev2 o.cond v l s).1.1 (ev2 o.cond v l s).1.2 = true
    · simp [h]
    · by_cases h' : Rel.bad .lt (ev2 o.cond v u (ev2 o.cond v l s).2).1.1 (ev2 o.cond v u (ev2 o.cond v l s).2).1.2 = true
      · simp [h, h']
      · simp only [h, h', if_false, Flow.next.injEq, Bool.false_eq_true]
        rintro rfl; rw [e2 _ u hu, e2 _ l hl]
  · simp only [geLtBody, execAll, Stmt.exec]
    by_cases h : Rel.bad .ge (ev2 o.cond v l s).1.1 (ev2 o.cond v l s).1.2 = true
    · simp only [h, if_true, Flow.threw.injEq]
      rintro ⟨_, rfl⟩; left; rw [e3, e2 _ l hl]
    · by_cases h' : Rel.bad .lt (ev2 o.cond v u (ev2 o.cond v l s).2).1.1 (ev2 o.cond v u (ev2 o.cond v l s).2).1.2 = true
      · simp only [h, h', if_false, if_true, Flow.threw.injEq, Bool.false_eq_true]
        rintro ⟨_, rfl⟩; right; rw [e3, e2 _ u hu, e2 _ l hl]
      · simp [h, h']
  · simp only [boolBody, execAll, Stmt.exec]
    by_cases h : (if neg = true then (c s).1 else !(c s).1) = true
    · simp only [h, if_true, Flow.threw.injEq, reduceCtorEq, false_or]
      rintro ⟨_, rfl⟩; exact hc s
    · simp only [h, if_false, Flow.next.injEq, reduceCtorEq, or_false, Bool.false_eq_true]
      rintro rfl; exact hc s

/-- **C111 (d), finding.** Because a failing macro evaluates its operands again for the text, the text need not show the values that
failed: whatever value `x` fails against `y`, there is an operand for which the macro throws and the text shows any other value `d` —
also one that satisfies the relation. -/
theorem C111_contradiction (r : Rel) (x y d : XR) (h : r.bad x y = true) : ∃ (v : Ev Bool XR) (s : Bool),
    (v s).1 = x ∧ execAll (relBody o fmt dbg r w vs us v (fun s => (y, s))) s =
      .threw (w.what (label dbg ++ vs ++ r.sign ++ us ++ ") failed [".toList ++ fmt d ++ r.sign ++ fmt y ++ "]: ".toList ++ w.msg)) true := by
  refine ⟨fun s => (if s then d else x, true), false, rfl, ?_⟩
  have e2 : ∀ (b s : Bool), ev2 b (fun s => (if s then d else x, true)) (fun s => (y, s)) s = ((if s then d else x, y), true) := by
    intro b s; cases b <;> rfl
  simp only [relBody, execAll, Stmt.exec, e2]
  simp [h]

/-- **C111 (e).** In a release build a `_DBG` macro evaluates nothing, changes nothing and throws nothing; in a debug build it is its
expansion. -/
theorem C111_release (body : List (Stmt σ)) (s : σ) :
    execAll (dbgBody .release body) s = .next s ∧ dbgBody .debug body = body := ⟨rfl, rfl⟩

/-! ## Inside `if` and `if`/`else` -/

/-- **C111 (f).** Behind an `if` without braces, the scalar macros are executed exactly if the condition holds.  Finding: of
`KINDR_ASSERT_MATRIX_NEAR_DBG` only the comparison of the row counts is: with a false condition the columns and all coefficients are
still compared, so it throws for matrices of equal size that differ (in the code under `if (false)`). -/
theorem C111_if (c : Ev σ Bool) (s : σ) (r : Rel) (v l u : Ev σ XR) (d : Ev σ Bool) (neg : Bool) (A : XArith) (tol : XR)
    (a b : DynMat XR) (sizeText : Text) (coeffText : ℕ → ℕ → Text) :
    (∀ body, body = relBody o fmt dbg r w vs us v u ∨ body = geLtBody o fmt dbg w vs ls us v l u ∨ body = boolBody dbg neg w vs d →
      execAll (underIf c body) s = if (c s).1 = true then execAll body (c s).2 else .next (c s).2) ∧
    ((c s).1 = false →
      (execAll (underIf c (matrixNearBody A tol a b sizeText coeffText)) s = .next (c s).2 ↔
        a.cols = b.cols ∧ ∀ i j, i < a.rows → j < a.cols → A.compareRelative (a.coeff i j) (b.coeff i j) tol = true)) ∧
    (∃ (m m' : DynMat XR), ∀ (c : Ev σ Bool) s, (c s).1 = false →
      ∃ t s', execAll (underIf c (matrixNearBody XArith.exact (.fin 1) m m' sizeText coeffText)) s = .threw t s') := by
  have key : ∀ (A : XArith) (tol : XR) (a b : DynMat XR) (c : Ev σ Bool) (s : σ), (c s).1 = false →
      execAll (underIf c (matrixNearBody A tol a b sizeText coeffText)) s =
      if a.cols ≠ b.cols then .threw sizeText (c s).2 else
        match loopRows (fun r c => A.compareRelative (a.coeff r c) (b.coeff r c) tol) a.cols 0 a.rows with
        | none => .next (c s).2
        | some (r, k) => .threw (coeffText r k) (c s).2 := by
    intro A tol a b c s h
    simp only [matrixNearBody, underIf, execAll, Stmt.exec, h, if_false, Bool.false_eq_true, decide_eq_true_eq]
    by_cases hc : a.cols = b.cols
    · simp only [hc, ne_eq, not_true_eq_false, if_false]
      cases loopRows (fun r c => A.compareRelative (a.coeff r c) (b.coeff r c) tol) b.cols 0 a.rows with
      | none => rfl
      | some p => rfl
    · simp only [hc, ne_eq, not_false_eq_true, if_true]
  have iff_ : ∀ (A : XArith) (tol : XR) (a b : DynMat XR) (c : Ev σ Bool) (s : σ), (c s).1 = false →
      (execAll (underIf c (matrixNearBody A tol a b sizeText coeffText)) s = .next (c s).2 ↔
        a.cols = b.cols ∧ ∀ i j, i < a.rows → j < a.cols → A.compareRelative (a.coeff i j) (b.coeff i j) tol = true) := by
    intro A tol a b c s h
    rw [key A tol a b c s h]
    by_cases hc : a.cols = b.cols
    · simp only [ne_eq, hc, not_true_eq_false, if_false, true_and]
      rw [← hc]
      cases hl : loopRows (fun r c => A.compareRelative (a.coeff r c) (b.coeff r c) tol) a.cols 0 a.rows with
      | none =>
        rw [loopRows_none] at hl
        simp only [true_iff]
        exact fun i j hi hj => hl i j (Nat.zero_le _) (by omega) hj
      | some p =>
        simp only [reduceCtorEq, false_iff]
        intro h'
        have : loopRows (fun r c => A.compareRelative (a.coeff r c) (b.coeff r c) tol) a.cols 0 a.rows = none := by
          rw [loopRows_none]
          exact fun i j _ hi hj => h' i j (by omega) hj
        rw [this] at hl; cases hl
    · simp [hc]
  refine ⟨?_, iff_ A tol a b c s, ?_⟩
  · have one : ∀ t : Stmt σ, execAll (underIf c [t]) s = if (c s).1 = true then execAll [t] (c s).2 else .next (c s).2 := by
      intro t
      simp only [underIf, execAll, Stmt.exec]
      by_cases h : (c s).1 = true
      · simp only [h, if_true]
      · simp only [h, if_false, Bool.false_eq_true]
    rintro body (rfl | rfl | rfl)
    · exact one _
    · exact one _
    · exact one _
  · refine ⟨⟨1, 1, fun _ _ => .fin 1⟩, ⟨1, 1, fun _ _ => .fin 2⟩, fun c s h => ?_⟩
    have h1 := (iff_ XArith.exact (.fin 1) ⟨1, 1, fun _ _ => .fin 1⟩ ⟨1, 1, fun _ _ => .fin 2⟩ c s h).not.mpr (by
      rintro ⟨_, h2⟩
      have := h2 0 0 (by norm_num) (by norm_num)
      rw [exact_compareRelative] at this
      rw [C27_compareRelative_iff _ _ _ (by norm_num)] at this
      norm_num [max_def] at this)
    rw [key _ _ _ _ c s h] at h1 ⊢
    split_ifs at h1 ⊢ with h0
    · exact ⟨_, _, rfl⟩
    · cases hl : loopRows (fun (r c : ℕ) => XArith.exact.compareRelative (.fin 1) (.fin 2) (.fin 1)) 1 0 1 with
      | none => simp only [hl] at h1; exact absurd trivial h1
      | some p => exact ⟨_, _, rfl⟩

/-- **C111 (g), finding.** `if (c) KINDR_ASSERT_TRUE(..) else e`: the `else` belongs to the `if` inside the macro.  With a false `c`
nothing is executed — not even `e` — and with a true `c` the branch `e` is executed exactly if the assertion holds.  In a release build
the `_DBG` version is not a program at all. -/
theorem C111_else (c d : Ev σ Bool) (e : Stmt σ) (s : σ) :
    (∃ prog, underIfElse c e (boolBody dbg false w vs d) = some prog ∧
      ((c s).1 = false → execAll prog s = .next (c s).2) ∧
      ((c s).1 = true → (d (c s).2).1 = true → execAll prog s = execAll [e] (d (c s).2).2) ∧
      ((c s).1 = true → (d (c s).2).1 = false → ∃ t, execAll prog s = .threw t (d (c s).2).2)) ∧
    underIfElse c e (dbgBody .release (boolBody dbg false w vs d)) = none := by
  refine ⟨⟨_, rfl, ?_, ?_, ?_⟩, rfl⟩
  · intro h; simp [execAll, Stmt.exec, h]
  · intro h h'
    simp only [execAll, Stmt.exec, h, if_true, h', Bool.not_true, if_false, Bool.false_eq_true]
  · intro h h'
    simp [execAll, Stmt.exec, h, h']

/-! ## Arguments without parentheses -/

private lemma finite_pass (A : XArith) (a : Arg) : finiteMacro A a = .pass ↔
    ∀ r c : ℕ, (r : ℝ) < a.textSize A DynMat.rows → (c : ℝ) < a.textSize A DynMat.cols →
      r < (a.value A).rows ∧ c < (a.value A).cols ∧ ((a.value A).coeff r c).IsFinite := by
  unfold finiteMacro
  cases hl : loopRows (fun r c => decide (r < (a.value A).rows ∧ c < (a.value A).cols ∧ ((a.value A).coeff r c).IsFinite))
      ⌈a.textSize A DynMat.cols⌉₊ 0 ⌈a.textSize A DynMat.rows⌉₊ with
  | none =>
    rw [loopRows_none] at hl
    simp only [true_iff]
    intro r c hr hc
    exact of_decide_eq_true (hl r c (Nat.zero_le _) (by rw [zero_add]; exact Nat.lt_ceil.mpr hr) (Nat.lt_ceil.mpr hc))
  | some p =>
    have : ¬ (∀ r c : ℕ, (r : ℝ) < a.textSize A DynMat.rows → (c : ℝ) < a.textSize A DynMat.cols →
      r < (a.value A).rows ∧ c < (a.value A).cols ∧ ((a.value A).coeff r c).IsFinite) := by
      intro h'
      have : loopRows (fun r c => decide (r < (a.value A).rows ∧ c < (a.value A).cols ∧ ((a.value A).coeff r c).IsFinite))
          ⌈a.textSize A DynMat.cols⌉₊ 0 ⌈a.textSize A DynMat.rows⌉₊ = none := by
        rw [loopRows_none]
        intro r c _ hr hc
        exact decide_eq_true (h' r c (Nat.lt_ceil.mp (by omega)) (Nat.lt_ceil.mp hc))
      rw [this] at hl; cases hl
    simp only [this, iff_false]
    split_ifs <;> simp

/-- **C111 (h).** `KINDR_ASSERT_MAT_IS_FINITE(E, m, ..)` with a variable or a parenthesised expression passes exactly if every
coefficient is finite.  Finding: the macro pastes its argument without parentheses, so `-m.rows()` is a negative number and
`0.5*m.rows()` half the number of rows: with `-m` the macro passes for every matrix, whatever it contains, and with `x*m`, `0 ≤ x ≤ 1`,
it looks at the coefficients with `r < x·rows`, `c < x·cols` only; with `x > 1` it reads outside of the matrix if all is finite. -/
theorem C111_finite (A : XArith) (m : DynMat XR) (a : Arg) (x : ℝ) :
    (finiteMacro A (.var m) = .pass ↔ ∀ r c, r < m.rows → c < m.cols → (m.coeff r c).IsFinite) ∧
    (finiteMacro A (.paren a) = .pass ↔
      ∀ r c, r < (a.value A).rows → c < (a.value A).cols → ((a.value A).coeff r c).IsFinite) ∧
    finiteMacro A (.neg (.var m)) = .pass ∧
    (0 ≤ x → x ≤ 1 → (finiteMacro A (.scale x (.var m)) = .pass ↔
      ∀ r c : ℕ, (r : ℝ) < x * m.rows → (c : ℝ) < x * m.cols → (A.mul (.fin x) (m.coeff r c)).IsFinite)) ∧
    (1 < x → 0 < m.rows → 0 < m.cols → (∀ r c, r < m.rows → c < m.cols → (A.mul (.fin x) (m.coeff r c)).IsFinite) →
      finiteMacro A (.scale x (.var m)) = .outOfRange) := by
  refine ⟨?_, ?_, ?_, ?_, ?_⟩
  · rw [finite_pass]
    simp only [Arg.textSize, Arg.value, Nat.cast_lt]
    exact ⟨fun h r c hr hc => (h r c hr hc).2.2, fun h r c hr hc => ⟨hr, hc, h r c hr hc⟩⟩
  · rw [finite_pass]
    simp only [Arg.textSize, Arg.value, Nat.cast_lt]
    exact ⟨fun h r c hr hc => (h r c hr hc).2.2, fun h r c hr hc => ⟨hr, hc, h r c hr hc⟩⟩
  · rw [finite_pass]
    intro r c hr _
    exfalso
    simp only [Arg.textSize] at hr
    have h1 : (0 : ℝ) ≤ r := Nat.cast_nonneg r
    have h2 : (0 : ℝ) ≤ m.rows := Nat.cast_nonneg _
    linarith
  · intro h0 h1
    rw [finite_pass]
    simp only [Arg.textSize, Arg.value]
    have hlt : ∀ k n : ℕ, (k : ℝ) < x * n → k < n := by
      intro k n h
      have : (0 : ℝ) ≤ n := Nat.cast_nonneg _
      have h2 : (k : ℝ) < n := by nlinarith
      exact_mod_cast h2
    exact ⟨fun h r c hr hc => (h r c hr hc).2.2, fun h r c hr hc => ⟨hlt _ _ hr, hlt _ _ hc, h r c hr hc⟩⟩
  · intro hx hr hc hf
    have hR : (0 : ℝ) < m.rows := by exact_mod_cast hr
    have hC : (0 : ℝ) < m.cols := by exact_mod_cast hc
    have hnp : finiteMacro A (.scale x (.var m)) ≠ .pass := by
      rw [Ne, finite_pass]
      intro h
      have := (h m.rows 0 (by simp only [Arg.textSize]; nlinarith) (by simp only [Arg.textSize, Nat.cast_zero]; nlinarith)).1
      simp [Arg.value] at this
    unfold finiteMacro at hnp ⊢
    cases hl : loopRows (fun r c => decide (r < ((Arg.scale x (.var m)).value A).rows ∧ c < ((Arg.scale x (.var m)).value A).cols ∧
        (((Arg.scale x (.var m)).value A).coeff r c).IsFinite)) ⌈(Arg.scale x (.var m)).textSize A DynMat.cols⌉₊ 0
        ⌈(Arg.scale x (.var m)).textSize A DynMat.rows⌉₊ with
    | none => rw [hl] at hnp; exact absurd rfl hnp
    | some p =>
      obtain ⟨_, _, _, h4, _⟩ := loopRows_some _ _ _ _ _ hl
      simp only
      rw [if_neg]
      rintro ⟨h5, h6⟩
      rw [decide_eq_false_iff_not] at h4
      exact h4 ⟨h5, h6, hf _ _ h5 h6⟩

/-- **C111 (i), finding.** The texts of the two versions are interchanged: the version for all builds says "debug assert(", the debug
version says "assert(" (all other macros: the other way round). -/
theorem C111_labels : finiteLabel false = label true ++ " isfinite(".toList ∧ finiteLabel true = label false ++ " isfinite(".toList ∧
    finiteLabel false ≠ finiteLabel true := by
  refine ⟨by simp [finiteLabel, label], by simp [finiteLabel, label], by simp [finiteLabel]⟩

/-- Instances of C111 (h): a matrix full of NaN passes as `-m`, and a 3x3 matrix with NaN in its last row passes as `0.5*m`. -/
example : finiteMacro XArith.exact (.neg (.var ⟨3, 3, fun _ _ => .nan⟩)) = .pass ∧
    finiteMacro XArith.exact (.var ⟨3, 3, fun r _ => if r = 2 then .nan else .fin 1⟩) ≠ .pass ∧
    finiteMacro XArith.exact (.scale (1 / 2) (.var ⟨3, 3, fun r _ => if r = 2 then .nan else .fin 1⟩)) = .pass := by
  refine ⟨(C111_finite XArith.exact _ (.var ⟨3, 3, fun _ _ => .nan⟩) 0).2.2.1, ?_, ?_⟩
  · rw [Ne, (C111_finite XArith.exact ⟨3, 3, fun r _ => if r = 2 then .nan else .fin 1⟩ (.var ⟨3, 3, fun _ _ => .nan⟩) 0).1]
    intro h
    have := h 2 0 (by norm_num) (by norm_num)
    simp [XR.IsFinite] at this
  · rw [(C111_finite XArith.exact ⟨3, 3, fun r _ => if r = 2 then .nan else .fin 1⟩ (.var ⟨3, 3, fun _ _ => .nan⟩) (1 / 2)).2.2.2.1
      (by norm_num) (by norm_num)]
    intro r c hr _
    have hr2 : (r : ℝ) < 2 := by
      refine hr.trans ?_
      norm_num
    have : r ≠ 2 := by
      rintro rfl; norm_num at hr2
    simp [this, XArith.mul, XR.IsFinite, XArith.exact]

end Kindr
