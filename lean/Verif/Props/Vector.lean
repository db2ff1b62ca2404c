import Mathlib.Analysis.InnerProductSpace.Projection.Basic
import Mathlib.LinearAlgebra.CrossProduct
import Mathlib.Data.List.FinRange
import Verif.Model.Vector
import Verif.Spec.Vector
import Verif.Props.PhysicalType

/-!
# C36, C37, C38: vectors of any dimension
-/

set_option autoImplicit false

open Classical

noncomputable section
namespace Kindr
open Spec
variable {t t₁ t₂ : PhysicalType} {n m : ℕ}

/-! ## C36: access -/

/-- Reading component `i` after one write: the stored value if the write touches the cell, the old one otherwise. -/
theorem exec_coeff (v : Vec t n) (w : Write t n) (i : Fin n) :
    (w.exec v).coeff i = (w.stores i).getD (v.coeff i) := by
  cases w with
  | head m h d =>
    by_cases hi : (i : ℕ) < m <;>
      simp [Write.exec, Write.stores, Vec.setHead, Vec.setSegment, hi]
  | tail m h d =>
    by_cases hi : n - m ≤ (i : ℕ)
    · have : (i : ℕ) < n - m + m := by omega
      simp only [Write.exec, Write.stores, Vec.setTail, Vec.setSegment, hi, this, and_self, dite_true,
        Option.getD_some]
    · simp only [Write.exec, Write.stores, Vec.setTail, Vec.setSegment, hi, false_and, dite_false,
        Option.getD_none]
  | segment s m h d =>
    by_cases hi : s ≤ (i : ℕ) ∧ (i : ℕ) < s + m
    · simp [Write.exec, Write.stores, Vec.setSegment, hi]
    · simp only [Write.exec, Write.stores, Vec.setSegment, hi, dite_false, Option.getD_none]
  | zero => simp [Write.exec, Write.stores, Vec.Zero]

/-- C36: after *any* history of `setHead`/`setTail`/`setSegment`/`setZero` calls, every component holds the value stored by
the last call that touched it, or its initial value if no call touched it. -/
theorem C36_last_write_wins (v : Vec t n) (ws : List (Write t n)) (i : Fin n) :
    (∀ w ∈ ws, w.stores i = none) ∧ (ws.foldl Write.exec v).coeff i = v.coeff i ∨
    ∃ before w after a, ws = before ++ w :: after ∧ w.stores i = some a ∧ (∀ w' ∈ after, w'.stores i = none) ∧
      (ws.foldl Write.exec v).coeff i = a := by
  induction ws using List.reverseRecOn with
  | nil => left; simp
  | append_singleton ws w ih =>
    have hc : ((ws ++ [w]).foldl Write.exec v).coeff i = (w.stores i).getD ((ws.foldl Write.exec v).coeff i) := by
      rw [List.foldl_append]; exact exec_coeff _ _ _
    cases hs : w.stores i with
    | some a =>
      right
      exact ⟨ws, w, [], a, rfl, hs, by simp, by rw [hc, hs]; rfl⟩
    | none =>
      rw [hs] at hc
      rcases ih with ⟨h1, h2⟩ | ⟨b, w', af, a, h1, h2, h3, h4⟩
      · left
        refine ⟨?_, hc.trans h2⟩
        intro u hu
        rcases List.mem_append.1 hu with hu | hu
        · exact h1 u hu
        · rw [List.mem_singleton.1 hu]; exact hs
      · right
        refine ⟨b, w', af ++ [w], a, by rw [h1]; simp, h2, ?_, hc.trans h4⟩
        intro u hu
        rcases List.mem_append.1 hu with hu | hu
        · exact h3 u hu
        · rw [List.mem_singleton.1 hu]; exact hs

/-- C36: reading back a segment, head or tail right after writing it returns what was written; the components outside
are unchanged; and a getter reads exactly the components of its range. -/
theorem C36_get_set (v : Vec t n) (start : ℕ) (d : Vec t m) (h : start + m ≤ n) (hm : m ≤ n) :
    (v.setSegment start d).getSegment start m h = d ∧ (v.setHead d).getHead m hm = d ∧
    (v.setTail d).getTail m hm = d ∧
    (∀ i : Fin n, ((i : ℕ) < start ∨ start + m ≤ i) → (v.setSegment start d).coeff i = v.coeff i) ∧
    (∀ i : Fin n, m ≤ i → (v.setHead d).coeff i = v.coeff i) ∧
    (∀ i : Fin n, (i : ℕ) < n - m → (v.setTail d).coeff i = v.coeff i) ∧
    (∀ j : Fin m, (v.getSegment start m h).coeff j = v.coeff ⟨start + j, by omega⟩) ∧
    (∀ j : Fin m, (v.getHead m hm).coeff j = v.coeff ⟨j, by omega⟩) ∧
    (∀ j : Fin m, (v.getTail m hm).coeff j = v.coeff ⟨n - m + j, by omega⟩) := by
  refine ⟨?_, ?_, ?_, ?_, ?_, ?_, ?_, ?_, ?_⟩
  · ext j; simp [Vec.getSegment, Vec.setSegment]
  · ext j; simp [Vec.getHead, Vec.setHead, Vec.getSegment, Vec.setSegment]
  · ext j
    have h1 : n - m ≤ n - m + (j : ℕ) := by omega
    have h2 : n - m + (j : ℕ) < n - m + m := by omega
    simp only [Vec.getTail, Vec.setTail, Vec.getSegment, Vec.setSegment, h1, h2, and_self, dite_true]
    congr 1
    apply Fin.ext
    simp only
    omega
  · intro i hi
    have : ¬ (start ≤ (i : ℕ) ∧ (i : ℕ) < start + m) := by omega
    simp only [Vec.setSegment, this, dite_false]
  · intro i hi
    have : ¬ (0 ≤ (i : ℕ) ∧ (i : ℕ) < 0 + m) := by omega
    simp only [Vec.setHead, Vec.setSegment, this, dite_false]
  · intro i hi
    have : ¬ (n - m ≤ (i : ℕ) ∧ (i : ℕ) < n - m + m) := by omega
    simp only [Vec.setTail, Vec.setSegment, this, dite_false]
  · intro j; rfl
  · intro j; simp [Vec.getHead, Vec.getSegment]
  · intro j; rfl

/-- C36: head, middle segment and tail of a vector determine it and reassemble it. -/
theorem C36_reassemble (v u : Vec t n) (k l : ℕ) (h : k + l ≤ n) :
    ((u.setHead (v.getHead k (by omega))).setSegment k (v.getSegment k l h)).setTail
      (v.getTail (n - (k + l)) (by omega)) = v := by
  ext i
  by_cases h3 : n - (n - (k + l)) ≤ (i : ℕ)
  · have h3' : (i : ℕ) < n - (n - (k + l)) + (n - (k + l)) := by omega
    simp only [Vec.setTail, Vec.setSegment, Vec.getTail, Vec.getSegment, h3, h3', and_self, dite_true]
    congr 1
    apply Fin.ext
    simp only
    omega
  · by_cases h2 : k ≤ (i : ℕ)
    · have h2' : (i : ℕ) < k + l := by omega
      simp only [Vec.setTail, Vec.setSegment, Vec.getSegment, h3, h2, h2', false_and, and_self, dite_false,
        dite_true]
      congr 1
      apply Fin.ext
      simp only
      omega
    · have h1 : (i : ℕ) < k := by omega
      have h0 : (0 ≤ (i : ℕ) ∧ (i : ℕ) < 0 + k) := by omega
      simp only [Vec.setTail, Vec.setHead, Vec.setSegment, Vec.getHead, Vec.getSegment, h3, h2, h0, false_and,
        and_self, dite_false, dite_true]
      congr 1
      apply Fin.ext
      simp only
      omega

/-- C36: constructors have the documented components, and `==` / `!=` are componentwise equality and its negation. -/
theorem C36_constructors_eq (a b : Vec t n) (x y z s : ℝ) (i : Fin n) :
    (Vec.Zero : Vec t n).coeff i = 0 ∧
    ((Vec.ofXyz x y z : Vec t 3).x = x ∧ (Vec.ofXyz x y z : Vec t 3).y = y ∧ (Vec.ofXyz x y z : Vec t 3).z = z) ∧
    (Vec.ofScalar s : Vec t 1).coeff 0 = s ∧
    ((Vec.UnitX : Vec t 3) = Vec.ofXyz 1 0 0 ∧ (Vec.UnitY : Vec t 3) = Vec.ofXyz 0 1 0 ∧
      (Vec.UnitZ : Vec t 3) = Vec.ofXyz 0 0 1) ∧
    (Vec.ofVec a : Vec t₁ n).coeff i = a.coeff i ∧
    (a.eq b = true ↔ a = b) ∧ (a.eq b = true ↔ ∀ j, a.coeff j = b.coeff j) ∧ (a.ne b = !a.eq b) := by
  have he : a.eq b = true ↔ ∀ j, a.coeff j = b.coeff j := by
    simp [Vec.eq]
  refine ⟨rfl, ⟨rfl, rfl, rfl⟩, rfl, ⟨?_, ?_, ?_⟩, rfl, ?_, he, ?_⟩
  · ext j; fin_cases j <;> simp [Vec.UnitX, Vec.unit, Vec.ofXyz]
  · ext j; fin_cases j <;> simp [Vec.UnitY, Vec.unit, Vec.ofXyz]
  · ext j; fin_cases j <;> simp [Vec.UnitZ, Vec.unit, Vec.ofXyz]
  · rw [he]
    exact ⟨fun h => Vec.ext (funext h), fun h => by simp [h]⟩
  · rw [Vec.ne, Vec.eq, List.not_all_eq_any_not]
    simp

/-! ## C37: a Euclidean vector space -/

theorem toE_injective : Function.Injective (toE (t := t) (n := n)) := by
  intro a b h
  have := congrArg (WithLp.ofLp) h
  exact Vec.ext this

/-- C37: the operators are the operations of Euclidean `n`-space (so all vector-space laws hold), the compound
assignments compute the same values, and `*=`, `/=` by a typeless one-vector use its single component. -/
theorem C37_linear (a b : Vec t n) (s : ℝ) (f : Vec .Typeless 1) :
    toE (a.add b) = toE a + toE b ∧ toE (a.sub b) = toE a - toE b ∧ toE (a.smul s) = s • toE a ∧
    (s ≠ 0 → toE (a.sdiv s) = s⁻¹ • toE a) ∧ toE a.neg = -toE a ∧ toE (Vec.Zero : Vec t n) = 0 ∧
    a.addAssign b = a.add b ∧ a.subAssign b = a.sub b ∧ a.mulAssign s = a.smul s ∧ a.divAssign s = a.sdiv s ∧
    a.mulAssignV f = a.smul (f.coeff 0) ∧ a.divAssignV f = a.sdiv (f.coeff 0) := by
  refine ⟨rfl, rfl, ?_, ?_, rfl, rfl, rfl, rfl, rfl, rfl, rfl, rfl⟩
  · ext i; simp [toE, Vec.smul, mul_comm]
  · intro _; ext i; simp [toE, Vec.sdiv, div_eq_mul_inv, mul_comm]

/-- C37: the vector-space laws, spelled out through the interface. -/
theorem C37_vector_space_laws (a b c : Vec t n) (r s : ℝ) :
    (a.add b).add c = a.add (b.add c) ∧ a.add b = b.add a ∧ a.add Vec.Zero = a ∧ a.add a.neg = Vec.Zero ∧
    a.sub b = a.add b.neg ∧ (a.add b).smul s = (a.smul s).add (b.smul s) ∧
    a.smul (r + s) = (a.smul r).add (a.smul s) ∧ (a.smul r).smul s = a.smul (r * s) ∧ a.smul 1 = a ∧
    (s ≠ 0 → (a.sdiv s).smul s = a ∧ (a.smul s).sdiv s = a) ∧ (a.add b).sub b = a := by
  refine ⟨?_, ?_, ?_, ?_, ?_, ?_, ?_, ?_, ?_, ?_, ?_⟩
  any_goals (ext i; simp only [Vec.add, Vec.sub, Vec.smul, Vec.neg, Vec.Zero]; ring1)
  intro hs
  constructor <;> ext i <;> simp [Vec.sdiv, Vec.smul, hs]

/-- C37: `dot`, `norm`, `squaredNorm` are the inner product and norm of Euclidean space. -/
theorem C37_inner_product (a b : Vec t n) :
    a.dot b = inner ℝ (toE a) (toE b) ∧ a.norm = ‖toE a‖ ∧ a.squaredNorm = ‖toE a‖ ^ 2 ∧ a.squaredNorm = a.dot a := by
  have hsq : a.squaredNorm = ‖toE a‖ ^ 2 := by
    rw [EuclideanSpace.norm_sq_eq]
    simp [Vec.squaredNorm, toE, ← sq]
  refine ⟨?_, ?_, hsq, rfl⟩
  · simp [Vec.dot, toE, PiLp.inner_apply, mul_comm]
  · rw [Vec.norm, hsq, Real.sqrt_sq (norm_nonneg _)]

/-- C37: Cauchy-Schwarz, triangle inequality, definiteness. -/
theorem C37_norm_laws (a b : Vec t n) (s : ℝ) :
    |a.dot b| ≤ a.norm * b.norm ∧ (a.add b).norm ≤ a.norm + b.norm ∧ (a.smul s).norm = |s| * a.norm ∧
    0 ≤ a.norm ∧ (a.norm = 0 ↔ a = Vec.Zero) ∧ a.dot b = b.dot a := by
  have hs : toE (a.smul s) = s • toE a := (C37_linear a b s Vec.Zero).2.2.1
  refine ⟨?_, ?_, ?_, ?_, ?_, ?_⟩
  · rw [(C37_inner_product a b).1, (C37_inner_product a b).2.1, (C37_inner_product b a).2.1]
    exact abs_real_inner_le_norm _ _
  · rw [(C37_inner_product _ a).2.1, (C37_inner_product a b).2.1, (C37_inner_product b a).2.1]
    exact norm_add_le (toE a) (toE b)
  · rw [(C37_inner_product _ a).2.1, (C37_inner_product a b).2.1, hs, norm_smul, Real.norm_eq_abs]
  · exact Real.sqrt_nonneg _
  · rw [(C37_inner_product a b).2.1, norm_eq_zero]
    exact ⟨fun h => toE_injective (h.trans rfl), fun h => by rw [h]; rfl⟩
  · exact Finset.sum_congr rfl fun i _ => mul_comm _ _

/-- C37: a normalized nonzero vector has norm one and the same direction; the zero vector is left unchanged. -/
theorem C37_normalized (a : Vec t n) :
    (a ≠ Vec.Zero → a.normalized.norm = 1 ∧ a.normalized.smul a.norm = a) ∧
    (Vec.Zero : Vec t n).normalized = Vec.Zero := by
  constructor
  · intro ha
    have hn : a.norm ≠ 0 := fun h => ha ((C37_norm_laws a a 1).2.2.2.2.1.1 h)
    have hpos : 0 < a.squaredNorm := by
      rcases lt_or_ge 0 a.squaredNorm with h | h
      · exact h
      · exact absurd (Real.sqrt_eq_zero_of_nonpos h) hn
    have hnd : a.normalized = a.sdiv a.norm := by
      rw [Vec.normalized, if_pos hpos]; rfl
    have hsd : a.sdiv a.norm = a.smul a.norm⁻¹ := by
      ext i; simp [Vec.sdiv, Vec.smul, div_eq_mul_inv]
    constructor
    · rw [hnd, hsd, (C37_norm_laws a a _).2.2.1, abs_of_nonneg (inv_nonneg.2 (show 0 ≤ a.norm from Real.sqrt_nonneg _))]
      exact inv_mul_cancel₀ hn
    · rw [hnd]; exact ((C37_vector_space_laws a a a 1 a.norm).2.2.2.2.2.2.2.2.2.1 hn).1
  · have : (Vec.Zero : Vec t n).squaredNorm = 0 := by simp [Vec.squaredNorm, Vec.Zero]
    rw [Vec.normalized, this, if_neg (lt_irrefl _)]

example : (Vec.ofXyz 3 4 0 : Vec .Position 3) ≠ Vec.Zero := fun h => by
  have := congrArg Vec.x h; simp [Vec.x, Vec.ofXyz, Vec.Zero] at this

/-- C37: `cross` is the vector product: Mathlib's `crossProduct` on the coordinates; it is bilinear, antisymmetric and
orthogonal to both arguments, and satisfies Lagrange's identity.  The result has the product physical type. -/
theorem C37_cross (a : Vec t₁ 3) (b c : Vec t₂ 3) (s : ℝ) :
    (a.cross b).coeff = crossProduct a.coeff b.coeff ∧
    (a.cross b).dot a = 0 ∧ (a.cross b).dot b = 0 ∧
    (a.cross (b.add c)) = (a.cross b).add (a.cross c) ∧ (a.cross (b.smul s)) = (a.cross b).smul s ∧
    (a.cross b).coeff = (b.cross a).neg.coeff ∧
    (a.cross b).squaredNorm = a.squaredNorm * b.squaredNorm - a.dot b ^ 2 := by
  refine ⟨?_, ?_, ?_, ?_, ?_, ?_, ?_⟩
  · ext i; fin_cases i <;> simp [Vec.cross, cross_apply]
  · simp [Vec.cross, Vec.dot, Fin.sum_univ_three]; ring
  · simp [Vec.cross, Vec.dot, Fin.sum_univ_three]; ring
  · ext i; fin_cases i <;> simp [Vec.cross, Vec.add] <;> ring
  · ext i; fin_cases i <;> simp [Vec.cross, Vec.smul] <;> ring
  · ext i; fin_cases i <;> simp [Vec.cross, Vec.neg] <;> ring
  · simp [Vec.cross, Vec.dot, Vec.squaredNorm, Fin.sum_univ_three]; ring

/-- C37: products and quotients with a one-dimensional vector scale by its component, in either operand order, and a
division by the factor undoes the multiplication (including the physical type when the product type is known). -/
theorem C37_vector_products (a : Vec t₁ n) (b : Vec t₂ 1) (c : Vec t₂ n) (hb : b.coeff 0 ≠ 0) :
    (∀ i, (a.mulV b).coeff i = a.coeff i * b.coeff 0) ∧
    (∀ i, (b.vMul a (C39_mult_symmetric t₁ t₂)).coeff i = b.coeff 0 * a.coeff i) ∧
    (∀ i, (a.divV b).coeff i = a.coeff i / b.coeff 0) ∧
    (∀ i, ((a.mulV b).divV b).coeff i = a.coeff i) ∧
    (∀ i, (a.elementwiseMultiplication c).coeff i = a.coeff i * c.coeff i) ∧
    (∀ i, (a.elementwiseDivision c).coeff i = a.coeff i / c.coeff i) := by
  have hcast : ∀ {u u' : PhysicalType} (h : u = u') (w : Vec u n), (h ▸ w : Vec u' n).coeff = w.coeff := by
    intro u u' h w; subst h; rfl
  refine ⟨fun i => rfl, fun i => ?_, fun i => rfl, fun i => ?_, fun i => rfl, fun i => rfl⟩
  · rw [Vec.vMul, hcast]; exact mul_comm _ _
  · show a.coeff i * b.coeff 0 / b.coeff 0 = a.coeff i
    field_simp

example : (Vec.ofScalar 2 : Vec .Time 1).coeff 0 ≠ 0 := by simp [Vec.ofScalar]

theorem foldl_max_spec (c : Fin n → ℝ) : ∀ (l : List (Fin n)) (r : ℝ),
    (r ≤ l.foldl (fun r i => Max.max r (c i)) r ∧ ∀ i ∈ l, c i ≤ l.foldl (fun r i => Max.max r (c i)) r) ∧
    (l.foldl (fun r i => Max.max r (c i)) r = r ∨ ∃ i ∈ l, l.foldl (fun r i => Max.max r (c i)) r = c i)
  | [], r => by simp
  | j :: l, r => by
    obtain ⟨⟨h1, h2⟩, h3⟩ := foldl_max_spec c l (Max.max r (c j))
    simp only [List.foldl_cons]
    refine ⟨⟨(le_max_left _ _).trans h1, ?_⟩, ?_⟩
    · intro i hi
      rcases List.mem_cons.1 hi with rfl | hi
      · exact (le_max_right _ _).trans h1
      · exact h2 i hi
    · rcases h3 with h3 | ⟨i, hi, h3⟩
      · rcases max_choice r (c j) with h | h
        · left; rw [h3, h]
        · right; exact ⟨j, by simp, h3.trans h⟩
      · right; exact ⟨i, List.mem_cons_of_mem _ hi, h3⟩

theorem foldl_min_spec (c : Fin n → ℝ) : ∀ (l : List (Fin n)) (r : ℝ),
    (l.foldl (fun r i => Min.min r (c i)) r ≤ r ∧ ∀ i ∈ l, l.foldl (fun r i => Min.min r (c i)) r ≤ c i) ∧
    (l.foldl (fun r i => Min.min r (c i)) r = r ∨ ∃ i ∈ l, l.foldl (fun r i => Min.min r (c i)) r = c i)
  | [], r => by simp
  | j :: l, r => by
    obtain ⟨⟨h1, h2⟩, h3⟩ := foldl_min_spec c l (Min.min r (c j))
    simp only [List.foldl_cons]
    refine ⟨⟨h1.trans (min_le_left _ _), ?_⟩, ?_⟩
    · intro i hi
      rcases List.mem_cons.1 hi with rfl | hi
      · exact h1.trans (min_le_right _ _)
      · exact h2 i hi
    · rcases h3 with h3 | ⟨i, hi, h3⟩
      · rcases min_choice r (c j) with h | h
        · left; rw [h3, h]
        · right; exact ⟨j, by simp, h3.trans h⟩
      · right; exact ⟨i, List.mem_cons_of_mem _ hi, h3⟩

theorem max_spec (a : Vec t (n + 1)) : (∀ i, a.coeff i ≤ a.max) ∧ ∃ i, a.max = a.coeff i := by
  obtain ⟨⟨h1, h2⟩, h3⟩ := foldl_max_spec (fun i => a.coeff i.succ) (List.finRange n) (a.coeff 0)
  constructor
  · intro i
    refine Fin.cases h1 (fun j => h2 j (List.mem_finRange j)) i
  · rcases h3 with h3 | ⟨i, -, h3⟩
    · exact ⟨0, h3⟩
    · exact ⟨i.succ, h3⟩

/-- C37: `max` and `min` are the greatest and least component, `sum` is the sum of all components, `mean` times the
dimension is the sum and lies between `min` and `max`, `abs` is componentwise. -/
theorem C37_reductions (a : Vec t (n + 1)) :
    ((∀ i, a.coeff i ≤ a.max) ∧ ∃ i, a.max = a.coeff i) ∧
    ((∀ i, a.min ≤ a.coeff i) ∧ ∃ i, a.min = a.coeff i) ∧
    a.sum = ∑ i, a.coeff i ∧ a.mean * ((n + 1 : ℕ) : ℝ) = a.sum ∧ a.min ≤ a.mean ∧ a.mean ≤ a.max ∧
    (∀ i, a.abs.coeff i = |a.coeff i|) := by
  have hmin : (∀ i, a.min ≤ a.coeff i) ∧ ∃ i, a.min = a.coeff i := by
    obtain ⟨⟨h1, h2⟩, h3⟩ := foldl_min_spec (fun i => a.coeff i.succ) (List.finRange n) (a.coeff 0)
    constructor
    · intro i
      refine Fin.cases h1 (fun j => h2 j (List.mem_finRange j)) i
    · rcases h3 with h3 | ⟨i, -, h3⟩
      · exact ⟨0, h3⟩
      · exact ⟨i.succ, h3⟩
  have hfold : ∀ (l : List (Fin (n + 1))) (r : ℝ), l.foldl (fun r i => r + a.coeff i) r = r + (l.map a.coeff).sum := by
    intro l
    induction l with
    | nil => simp
    | cons j l ih => intro r; rw [List.foldl_cons, ih, List.map_cons, List.sum_cons]; ring
  have hsum : a.sum = ∑ i, a.coeff i := by
    rw [Vec.sum, hfold, zero_add, Fin.sum_univ_def]
  have hn : (0 : ℝ) < ((n + 1 : ℕ) : ℝ) := by positivity
  refine ⟨max_spec a, hmin, hsum, div_mul_cancel₀ _ hn.ne', ?_, ?_, fun i => rfl⟩
  · rw [Vec.mean, le_div_iff₀ hn, hsum]
    calc a.min * ((n + 1 : ℕ) : ℝ) = ∑ _i : Fin (n + 1), a.min := by simp [mul_comm]
      _ ≤ _ := Finset.sum_le_sum fun i _ => hmin.1 i
  · rw [Vec.mean, div_le_iff₀ hn, hsum]
    calc ∑ i, a.coeff i ≤ ∑ _i : Fin (n + 1), a.max := Finset.sum_le_sum fun i _ => (max_spec a).1 i
      _ = _ := by simp [mul_comm]

/-! ## C38: projection and similarity -/

/-- C38: `a.projectOn(b)` is Mathlib's orthogonal projection of `a` on the line spanned by `b`.  (`b ≠ 0`: the code divides by
its squared norm, see `C38_projectOn_zero_nan`.) -/
theorem C38_projectOn_is_projection (a b : Vec t n) (_ : b ≠ Vec.Zero) :
    toE (a.projectOn b) = (Submodule.span ℝ {toE b}).starProjection (toE a) := by
  rw [Submodule.starProjection_singleton, Vec.projectOn, (C37_linear b b _ Vec.Zero).2.2.1,
    (C37_inner_product a b).1, (C37_inner_product b b).2.2.1, real_inner_comm]
  simp

/-- C38: the projection is a multiple of `b`, the remainder is orthogonal to `b`, projecting twice changes nothing and
projecting never increases the norm. -/
theorem C38_projectOn (a b : Vec t n) (hb0 : b ≠ Vec.Zero) :
    (∃ s, a.projectOn b = b.smul s) ∧ (a.sub (a.projectOn b)).dot b = 0 ∧
    (a.projectOn b).projectOn b = a.projectOn b ∧ (a.projectOn b).norm ≤ a.norm := by
  refine ⟨⟨_, rfl⟩, ?_, ?_, ?_⟩
  · have hd : (a.sub (a.projectOn b)).dot b = a.dot b - a.dot b / b.squaredNorm * b.squaredNorm := by
      simp only [Vec.dot, Vec.sub, Vec.projectOn, Vec.smul, Vec.squaredNorm, Finset.mul_sum,
        ← Finset.sum_sub_distrib]
      refine Finset.sum_congr rfl fun i _ => ?_
      ring
    rw [hd]
    by_cases hb : b.squaredNorm = 0
    · have : b = Vec.Zero := (C37_norm_laws b b 1).2.2.2.2.1.1 (by rw [Vec.norm, hb, Real.sqrt_zero])
      rw [this]; simp [Vec.dot, Vec.Zero]
    · rw [div_mul_cancel₀ _ hb, sub_self]
  · apply toE_injective
    rw [C38_projectOn_is_projection _ _ hb0, C38_projectOn_is_projection _ _ hb0]
    apply Submodule.starProjection_eq_self_iff.2
    exact Submodule.starProjection_apply_mem _ _
  · rw [(C37_inner_product _ a).2.1, (C37_inner_product a a).2.1, C38_projectOn_is_projection _ _ hb0]
    exact Submodule.norm_starProjection_apply_le _ _

/-- C38: `isSimilarTo` holds iff every component differs by less than the tolerance. -/
theorem C38_isSimilarTo_iff (a b : Vec t (n + 1)) (tol : ℝ) :
    a.isSimilarTo b tol = true ↔ ∀ i, |a.coeff i - b.coeff i| < tol := by
  have h : a.isSimilarTo b tol = true ↔ (a.sub b).abs.max < tol := by
    rw [Vec.isSimilarTo]; split_ifs with h <;> simp [h]
  rw [h]
  obtain ⟨h1, i, h2⟩ := max_spec (a.sub b).abs
  exact ⟨fun hm i => (h1 i).trans_lt hm, fun hm => by rw [h2]; exact hm i⟩

/-- C38: `isSimilarTo` is reflexive for positive tolerances, symmetric, monotone in the tolerance, and tolerances add
up along any chain of similar vectors. -/
theorem C38_isSimilarTo_relation (a b c : Vec t (n + 1)) (s u : ℝ) :
    (0 < s → a.isSimilarTo a s = true) ∧ (a.isSimilarTo b s = b.isSimilarTo a s) ∧
    (s ≤ u → a.isSimilarTo b s = true → a.isSimilarTo b u = true) ∧
    (a.isSimilarTo b s = true → b.isSimilarTo c u = true → a.isSimilarTo c (s + u) = true) ∧
    (a.isSimilarTo a 0 = false) := by
  refine ⟨?_, ?_, ?_, ?_, ?_⟩
  · intro hs; rw [C38_isSimilarTo_iff]; simpa using hs
  · rw [Bool.eq_iff_iff, C38_isSimilarTo_iff, C38_isSimilarTo_iff]
    exact forall_congr' fun i => by rw [abs_sub_comm]
  · intro hsu; rw [C38_isSimilarTo_iff, C38_isSimilarTo_iff]; exact fun h i => (h i).trans_le hsu
  · rw [C38_isSimilarTo_iff, C38_isSimilarTo_iff, C38_isSimilarTo_iff]
    exact fun h1 h2 i => (abs_sub_le _ (b.coeff i) _).trans_lt (add_lt_add (h1 i) (h2 i))
  · rw [Bool.eq_false_iff, Ne, C38_isSimilarTo_iff]
    simp

/-- C38: chains: if consecutive vectors of a list are similar with tolerance `tol`, the first and last vector are similar
with `k * tol`, `k` the number of steps. -/
theorem C38_isSimilarTo_chain (v : ℕ → Vec t (n + 1)) (tol : ℝ) (k : ℕ)
    (h : ∀ j < k + 1, (v j).isSimilarTo (v (j + 1)) tol = true) :
    (v 0).isSimilarTo (v (k + 1)) ((k + 1 : ℕ) * tol) = true := by
  induction k with
  | zero => simpa using h 0 (by norm_num)
  | succ k ih =>
    have h1 := ih fun j hj => h j (by omega)
    have h2 := h (k + 1) (by omega)
    have := (C38_isSimilarTo_relation _ _ _ _ _).2.2.2.1 h1 h2
    rwa [show ((k + 1 : ℕ) : ℝ) * tol + tol = ((k + 1 + 1 : ℕ) : ℝ) * tol by push_cast; ring] at this

end Kindr
