import Verif.Model.Mixed
import Verif.Props.Range3
import Verif.Props.PhysicalType

set_option autoImplicit false

open Classical

noncomputable section
namespace Kindr
open Spec

/-! ## Types -/

/-- **C112.** `a * b` of two vectors compiles exactly if the right factor is one-dimensional, or the left one is and both have the same
number type; the result has the number type of the left factor and the dimension of the other factor. -/
theorem C112_product_programs (a b r : VType) :
    productType a b = some r ↔
      r.phys = a.phys.multType b.phys ∧ r.num = a.num ∧
        ((b.dim = .static 1 ∧ r.dim = a.dim) ∨ (b.dim ≠ .static 1 ∧ a.dim = .static 1 ∧ a.num = b.num ∧ r.dim = b.dim)) := by
  have hc := C39_mult_symmetric b.phys a.phys
  have hd : ∀ x y : VType, y.dim = .static 1 → multReturn x y = some ⟨x.phys.multType y.phys, x.num, x.dim⟩ := by
    intro x y h
    unfold multReturn
    have : multDim x.dim y.dim = some x.dim := by rw [h]; unfold multDim; split <;> simp_all
    rw [this]; rfl
  have hd' : ∀ x y : VType, x.dim = .static 1 → multReturn x y = some ⟨x.phys.multType y.phys, x.num, y.dim⟩ := by
    intro x y h
    unfold multReturn
    have : multDim x.dim y.dim = some y.dim := by rw [h]; unfold multDim; split <;> simp_all
    rw [this]; rfl
  have ext : ∀ (p : PhysicalType) (m : NumType) (d : Dim), some (⟨p, m, d⟩ : VType) = some r ↔ r.phys = p ∧ r.num = m ∧ r.dim = d := by
    intro p m d
    obtain ⟨p', m', d'⟩ := r
    rw [Option.some.injEq, VType.mk.injEq]
    exact ⟨fun h => ⟨h.1.symm, h.2.1.symm, h.2.2.symm⟩, fun h => ⟨h.1.symm, h.2.1.symm, h.2.2.symm⟩⟩
  unfold productType
  by_cases hb : b.dim = .static 1
  · rw [if_pos hb, hd a b hb, ext]
    constructor
    · rintro ⟨h1, h2, h3⟩; exact ⟨h1, h2, .inl ⟨hb, h3⟩⟩
    · rintro ⟨h1, h2, ⟨-, h3⟩ | ⟨h, -⟩⟩
      · exact ⟨h1, h2, h3⟩
      · exact absurd hb h
  · rw [if_neg hb]
    by_cases ha : a.dim = .static 1 ∧ multReturn b a = multReturn a b
    · rw [if_pos ha, hd' a b ha.1, ext]
      have hn : a.num = b.num := by
        have := ha.2
        rw [hd b a ha.1, hd' a b ha.1, Option.some.injEq, VType.mk.injEq] at this
        exact this.2.1.symm
      constructor
      · rintro ⟨h1, h2, h3⟩; exact ⟨h1, h2, .inr ⟨hb, ha.1, hn, h3⟩⟩
      · rintro ⟨h1, h2, ⟨h, -⟩ | ⟨-, -, -, h3⟩⟩
        · exact absurd h hb
        · exact ⟨h1, h2, h3⟩
    · rw [if_neg ha]
      constructor
      · intro h; cases h
      · rintro ⟨-, -, ⟨h, -⟩ | ⟨-, h, hn, -⟩⟩
        · exact absurd h hb
        · refine absurd ⟨h, ?_⟩ ha
          rw [hd b a h, hd' a b h, hc, hn]

/-- **C112.** With different number types the order of the factors decides whether a product of a one-dimensional vector and a longer one
compiles, and which number type a product of two one-dimensional vectors has. -/
theorem C112_product_order (a b : VType) (h1 : a.dim = .static 1) :
    (b.dim ≠ .static 1 → a.num ≠ b.num → productType a b = none ∧ ∃ r, productType b a = some r) ∧
    (b.dim ≠ .static 1 → a.num = b.num → productType a b = productType b a ∧ ∃ r, productType b a = some r) ∧
    (b.dim = .static 1 → ∃ r s, productType a b = some r ∧ productType b a = some s ∧ r.phys = s.phys ∧ r.dim = s.dim ∧
      r.num = a.num ∧ s.num = b.num) := by
  have hc := C39_mult_symmetric b.phys a.phys
  refine ⟨fun hb hn => ⟨?_, ⟨⟨b.phys.multType a.phys, b.num, b.dim⟩, ?_⟩⟩, fun hb hn => ?_, fun hb => ?_⟩
  · rcases hr : productType a b with _ | r
    · rfl
    · rcases ((C112_product_programs a b r).mp hr).2.2 with h | h
      · exact absurd h.1 hb
      · exact absurd h.2.2.1 hn
  · exact (C112_product_programs _ _ _).mpr ⟨rfl, rfl, .inl ⟨h1, rfl⟩⟩
  · have e : productType b a = some ⟨b.phys.multType a.phys, b.num, b.dim⟩ :=
      (C112_product_programs _ _ _).mpr ⟨rfl, rfl, .inl ⟨h1, rfl⟩⟩
    refine ⟨?_, _, e⟩
    rw [e]
    exact (C112_product_programs _ _ _).mpr ⟨hc, hn.symm, .inr ⟨hb, h1, hn, rfl⟩⟩
  · exact ⟨⟨_, _, a.dim⟩, ⟨_, _, b.dim⟩, (C112_product_programs _ _ _).mpr ⟨rfl, rfl, .inl ⟨hb, rfl⟩⟩,
      (C112_product_programs _ _ _).mpr ⟨rfl, rfl, .inl ⟨h1, rfl⟩⟩, hc.symm, h1.trans hb.symm, rfl, rfl⟩

/-- **C112.** `a / b` compiles exactly for a one-dimensional divisor of the same number type. -/
theorem C112_quotient_programs (a b r : VType) :
    quotientType a b = some r ↔
      b.dim = .static 1 ∧ a.num = b.num ∧ r.phys = a.phys.divType b.phys ∧ r.num = a.num ∧ r.dim = a.dim := by
  obtain ⟨t, x, d⟩ := a
  obtain ⟨t', x', d'⟩ := b
  obtain ⟨t'', x'', d''⟩ := r
  simp only [quotientType]
  by_cases h : d' = .static 1 ∧ x = x'
  · obtain ⟨rfl, rfl⟩ := h
    simp only [if_true, divDim, Option.map_some, Option.some.injEq, VType.mk.injEq, true_and, and_self]
    constructor
    · rintro ⟨rfl, rfl, rfl⟩; exact ⟨rfl, rfl, rfl⟩
    · rintro ⟨rfl, rfl, rfl⟩; exact ⟨rfl, rfl, rfl⟩
  · rw [if_neg h]
    constructor
    · intro h; cases h
    · rintro ⟨h1, h2, -⟩; exact absurd ⟨h1, h2⟩ h

/-! ## One meaning for all spellings -/

lemma cast_self (p : NumType) (x : p.Val) : NumType.cast p p x = some x := by cases p <;> rfl

/-- **C112.** For every pair of number types all spellings of the product with a scalar give the same vector (or are all undefined):
`v * f`, `f * v`, `v *= f`, `v *= F`, `v * F` with the one-dimensional vector `F = (f)`, and, within one number type, `F * v`; likewise
`v / f`, `v /= f`, `v /= F`. -/
theorem C112_spellings {p q : NumType} {n : ℕ} (v : NVec p n) (f : q.Val) (g : p.Val) :
    NVec.scalarMul f v = NVec.mulScalar v f ∧ NVec.mulAssign v f = NVec.mulScalar v f ∧
    NVec.mulAssignV v (fun _ : Fin 1 => f) = NVec.mulScalar v f ∧ NVec.mulV v (fun _ : Fin 1 => f) = NVec.mulScalar v f ∧
    NVec.vMul (fun _ : Fin 1 => g) v = NVec.mulScalar v g ∧
    NVec.divAssign v f = NVec.divScalar v f ∧ NVec.divAssignV v (fun _ : Fin 1 => f) = NVec.divScalar v f := by
  refine ⟨?_, rfl, rfl, ?_, ?_, rfl, rfl⟩
  · unfold NVec.scalarMul NVec.mulScalar
    simp only [cast_self, Option.bind_some]
  · unfold NVec.mulV NVec.mulScalar
    simp only [cast_self, Option.bind_some]
  · unfold NVec.vMul NVec.mulV NVec.mulScalar
    simp only [cast_self, Option.bind_some]

lemma collect_some {α : Type} {n : ℕ} {g : Fin n → Option α} {w : Fin n → α} : collect g = some w ↔ ∀ i, g i = some (w i) := by
  unfold collect
  constructor
  · intro h
    split_ifs at h with hc
    injection h with h
    intro i
    rw [← h]; simp
  · intro h
    rw [dif_pos (fun i => by rw [h i]; rfl)]
    congr 1
    funext i
    simp [h i]

lemma collect_none {α : Type} {n : ℕ} {g : Fin n → Option α} : collect g = none ↔ ∃ i, g i = none := by
  unfold collect
  constructor
  · intro h
    split_ifs at h with hc
    push Not at hc
    obtain ⟨i, hi⟩ := hc
    exact ⟨i, by simpa using hi⟩
  · rintro ⟨i, hi⟩
    rw [dif_neg]
    intro hc
    have := hc i
    rw [hi] at this; cases this

/-! ## `int` vectors -/

lemma checked_some {z w : ℤ} : NumType.checked z = some w ↔ NumType.Fits z ∧ w = z := by
  unfold NumType.checked
  split_ifs with h
  · simp [h, eq_comm]
  · simp [h]

lemma trunc_small {x : ℝ} (h : |x| < 1) : NumType.trunc x = 0 := by
  obtain ⟨h1, h2⟩ := abs_lt.mp h
  unfold NumType.trunc
  split_ifs with h0
  · exact Int.floor_eq_zero_iff.mpr ⟨h0, h2⟩
  · push Not at h0
    rw [Int.ceil_eq_iff]; push_cast; constructor <;> linarith

lemma trunc_abs_le (x : ℝ) : |(NumType.trunc x : ℝ)| ≤ |x| ∧ |x - NumType.trunc x| < 1 := by
  unfold NumType.trunc
  split_ifs with h0
  · have h1 := Int.floor_le x
    have h2 := Int.lt_floor_add_one x
    have h3 : (0 : ℝ) ≤ ⌊x⌋ := by exact_mod_cast Int.floor_nonneg.mpr h0
    rw [abs_of_nonneg h3, abs_of_nonneg h0, abs_of_nonneg (by linarith)]
    exact ⟨h1, by linarith⟩
  · push Not at h0
    have h1 := Int.le_ceil x
    have h2 := Int.ceil_lt_add_one x
    have h3 : (⌈x⌉ : ℝ) ≤ 0 := by exact_mod_cast Int.ceil_le.mpr (by exact_mod_cast h0.le)
    rw [abs_of_nonpos h3, abs_of_neg h0, abs_of_nonpos (by linarith)]
    exact ⟨by linarith, by linarith⟩

lemma trunc_eq_iff (x : ℝ) : (NumType.trunc x : ℝ) = x ↔ ∃ z : ℤ, x = z := by
  constructor
  · intro h; exact ⟨_, h.symm⟩
  · rintro ⟨z, rfl⟩
    unfold NumType.trunc
    split_ifs <;> simp

lemma mul_int {n : ℕ} (v w : NVec .int n) (f : ℝ) :
    NVec.mulScalar (q := .double) v (.fin f) = some w ↔ NumType.Fits (NumType.trunc f) ∧ ∀ i, NumType.Fits (v i * NumType.trunc f) ∧ w i = v i * NumType.trunc f := by
  unfold NVec.mulScalar
  change (NumType.checked (NumType.trunc f)).bind _ = _ ↔ _
  unfold NumType.checked
  split_ifs with h
  · rw [Option.bind_some, collect_some]
    change (∀ i, NumType.checked (v i * NumType.trunc f) = some (w i)) ↔ _
    simp only [checked_some, h, true_and]
  · simp [h]

/-- **C112.** An `int` vector times a `double` factor uses only the integral part of the factor: the product is never larger than the exact one,
each component is off by less than its own size, and the product is exact if and only if the factor is an integer (or the vector zero). -/
theorem C112_int_factor {n : ℕ} (v w : NVec .int n) (f : ℝ) (h : NVec.mulScalar (q := .double) v (.fin f) = some w) :
    (∀ i, |(w i : ℝ)| ≤ |v i * f| ∧ (v i ≠ 0 → |(w i : ℝ) - v i * f| < |(v i : ℝ)|)) ∧
    ((∃ i, v i ≠ 0) → ((∀ i, (w i : ℝ) = v i * f) ↔ ∃ z : ℤ, f = z)) := by
  obtain ⟨-, hw⟩ := (mul_int v w f).mp h
  obtain ⟨t1, t2⟩ := trunc_abs_le f
  refine ⟨fun i => ⟨?_, fun h0 => ?_⟩, fun ⟨j, hj⟩ => ⟨fun he => ?_, fun hz i => ?_⟩⟩
  · rw [(hw i).2]; push_cast
    rw [abs_mul, abs_mul]
    exact mul_le_mul_of_nonneg_left t1 (abs_nonneg _)
  · rw [(hw i).2]; push_cast
    have h0' : 0 < |(v i : ℝ)| := abs_pos.mpr (by exact_mod_cast h0)
    rw [← mul_sub, abs_mul, abs_sub_comm]
    calc |(v i : ℝ)| * |f - NumType.trunc f| < |(v i : ℝ)| * 1 := mul_lt_mul_of_pos_left t2 h0'
      _ = _ := mul_one _
  · have := he j
    rw [(hw j).2] at this; push_cast at this
    have hj' : (v j : ℝ) ≠ 0 := by exact_mod_cast hj
    exact (trunc_eq_iff f).mp (mul_left_cancel₀ hj' this)
  · rw [(hw i).2]; push_cast
    rw [(trunc_eq_iff f).mpr hz]

/-- The hypothesis of `C112_int_factor` is met: (3, -5) * 2.5 is (6, -10). -/
example : NVec.mulScalar (p := .int) (q := .double) (n := 2) ![3, -5] (.fin (5 / 2)) = some ![6, -10] := by
  have ht : NumType.trunc (5 / 2) = 2 := by
    unfold NumType.trunc
    rw [if_pos (by norm_num), Int.floor_eq_iff]; norm_num
  rw [mul_int, ht]
  refine ⟨by norm_num [NumType.Fits], fun i => ?_⟩
  fin_cases i <;> norm_num [NumType.Fits]

/-- **C112.** In particular a factor between -1 and 1 makes every `int` vector zero, and a divisor between -1 and 1 divides by zero (undefined
behaviour), although the exact result of both is a perfectly good number. -/
theorem C112_int_fraction {n : ℕ} (v : NVec .int n) (f : ℝ) (h : |f| < 1) :
    NVec.mulScalar (q := .double) v (.fin f) = some (fun _ => (0 : ℤ)) ∧ (0 < n → NVec.divScalar (q := .double) v (.fin f) = none) := by
  have h0 := trunc_small h
  constructor
  · rw [mul_int, h0]
    refine ⟨by norm_num [NumType.Fits], fun i => ⟨by norm_num [NumType.Fits], by simp⟩⟩
  · intro hn
    unfold NVec.divScalar
    change (NumType.checked (NumType.trunc f)).bind _ = _
    rw [h0, checked_some.mpr ⟨by norm_num [NumType.Fits], rfl⟩, Option.bind_some]
    exact collect_none.mpr ⟨⟨0, hn⟩, by simp [NumType.div]⟩

lemma foldlM_sum {n : ℕ} (g : Fin n → ℤ) (step : ℤ → Fin n → Option ℤ) (hs : ∀ s i t, step s i = some t → t = s + g i) :
    ∀ (l : List (Fin n)) (s d : ℤ), l.foldlM step s = some d → d = s + (l.map g).sum := by
  intro l
  induction l with
  | nil => intro s d h; simp at h; simp [h]
  | cons i l ih =>
    intro s d h
    rw [List.foldlM_cons] at h
    rcases hst : step s i with _ | t
    · rw [hst] at h; cases h
    · rw [hst] at h
      have := ih t d h
      rw [this, hs s i t hst, List.map_cons, List.sum_cons]; ring

lemma sum_finRange {n : ℕ} (g : Fin n → ℤ) : ((List.finRange n).map g).sum = ∑ i, g i := by
  rw [Fin.sum_univ_def]

lemma dot_int {n : ℕ} {a b : NVec .int n} {d : ℤ} (h : NVec.dot a b = some d) : d = ∑ i, a i * b i := by
  unfold NVec.dot at h
  have := foldlM_sum (fun i => (a i : ℤ) * b i) _ (fun s i t ht => ?_) _ _ _ h
  · rw [this, sum_finRange]; simp [NumType.zero]
  · rcases hm : NumType.mul .int (a i) (b i) with _ | m
    · rw [hm] at ht; cases ht
    · rw [hm] at ht
      have e1 := (checked_some.mp (show NumType.checked (a i * b i) = some m from hm)).2
      have e2 := (checked_some.mp (show NumType.checked (s + m) = some t from ht)).2
      rw [e2, e1]

lemma tdiv_trunc (s d : ℤ) (hd : 0 < d) : Int.tdiv s d = NumType.trunc ((s : ℝ) / d) := by
  have hd' : (0 : ℝ) < d := by exact_mod_cast hd
  have key : ∀ t : ℤ, 0 ≤ t → Int.tdiv t d = ⌊(t : ℝ) / d⌋ := by
    intro t ht
    rw [Int.tdiv_eq_ediv_of_nonneg ht, eq_comm, Int.floor_eq_iff]
    have h1 := Int.ediv_mul_le t hd.ne'
    have h2 := Int.lt_ediv_add_one_mul_self t hd
    constructor
    · rw [le_div_iff₀ hd']; exact_mod_cast h1
    · rw [div_lt_iff₀ hd']; exact_mod_cast h2
  unfold NumType.trunc
  split_ifs with h0
  · refine key s ?_
    have : (0 : ℝ) ≤ s := by
      have := mul_nonneg h0 hd'.le
      rwa [div_mul_cancel₀ _ hd'.ne'] at this
    exact_mod_cast this
  · push Not at h0
    have hs : (s : ℝ) < 0 := by
      have := mul_neg_of_neg_of_pos h0 hd'
      rwa [div_mul_cancel₀ _ hd'.ne'] at this
    have hs' : s < 0 := by exact_mod_cast hs
    have := key (-s) (by omega)
    rw [Int.neg_tdiv] at this
    push_cast at this
    rw [neg_div, Int.floor_neg] at this
    omega

/-- **C112.** `mean()` of an `int` vector is the mean cut off towards zero (off by less than one); it is undefined for an empty vector. -/
theorem C112_int_mean {n : ℕ} (v : NVec .int n) :
    (∀ m, NVec.mean v = some m → 0 < n ∧ |(m : ℝ)| ≤ |(∑ i, (v i : ℝ)) / n| ∧ |(∑ i, (v i : ℝ)) / n - m| < 1) ∧
    (n = 0 → NVec.mean v = none) := by
  constructor
  · intro m h
    unfold NVec.mean at h
    rcases hs : NVec.sum v with _ | s
    · rw [hs] at h; cases h
    · rw [hs, Option.bind_some] at h
      have es : s = ∑ i, v i := by
        unfold NVec.sum at hs
        have := foldlM_sum (fun i => (v i : ℤ)) _ (fun s i t ht => ?_) _ _ _ hs
        · rw [this, sum_finRange]; simp [NumType.zero]
        · exact (checked_some.mp (show NumType.checked (s + v i) = some t from ht)).2
      change (if (n : ℤ) = 0 then none else NumType.checked (Int.tdiv s n)) = some m at h
      split_ifs at h with hn
      have em := (checked_some.mp h).2
      have hn' : 0 < n := by omega
      have et : m = NumType.trunc ((∑ i, (v i : ℝ)) / n) := by
        have : (∑ i, (v i : ℝ)) = ((s : ℤ) : ℝ) := by rw [es]; push_cast; rfl
        rw [em, this, tdiv_trunc s n (by omega)]; simp
      rw [et]
      have := trunc_abs_le ((∑ i, (v i : ℝ)) / n)
      exact ⟨hn', this.1, this.2⟩
  · rintro rfl
    rfl

lemma projectOn_int {n : ℕ} {a b w : NVec .int n} (h : NVec.projectOn a b = some w) :
    0 < ∑ i, b i * b i ∧ ∀ i, w i = b i * Int.tdiv (∑ i, a i * b i) (∑ i, b i * b i) := by
  unfold NVec.projectOn at h
  rcases h1 : NVec.dot a b with _ | d
  · rw [h1] at h; cases h
  rw [h1, Option.bind_some] at h
  rcases h2 : NVec.dot b b with _ | s
  · rw [h2] at h; cases h
  rw [h2, Option.bind_some] at h
  have e1 := dot_int h1
  have e2 := dot_int h2
  rcases h3 : NumType.div .int d s with _ | c
  · rw [h3] at h; cases h
  rw [h3, Option.bind_some] at h
  change (if s = 0 then none else NumType.checked (Int.tdiv d s)) = some c at h3
  split_ifs at h3 with hs
  have e3 := (checked_some.mp h3).2
  have hs0 : 0 ≤ s := by rw [e2]; exact Finset.sum_nonneg fun i _ => mul_self_nonneg _
  refine ⟨by rw [← e2]; exact lt_of_le_of_ne hs0 (Ne.symm hs), fun i => ?_⟩
  unfold NVec.mulScalar at h
  rw [cast_self, Option.bind_some, collect_some] at h
  have := (checked_some.mp (show NumType.checked (b i * c) = some (w i) from h i)).2
  rw [this, e3, e1, e2]

/-- **C112.** `projectOn` of `int` vectors, where defined: the target is not zero; the result is an integral multiple of the target, hence zero
whenever the exact projection is shorter than the target, and it is the exact projection if and only if `b · b` divides `a · b`; projecting the
result again changes nothing. -/
theorem C112_int_projectOn {n : ℕ} (a b w : NVec .int n) (h : NVec.projectOn a b = some w) :
    (∃ i, b i ≠ 0) ∧ (∃ k : ℤ, ∀ i, w i = k * b i) ∧
    (|∑ i, a i * b i| < ∑ i, b i * b i → ∀ i, w i = 0) ∧
    ((∀ i, (w i : ℝ) = (∑ j, (a j * b j : ℝ)) / (∑ j, (b j * b j : ℝ)) * b i) ↔ (∑ i, b i * b i) ∣ ∑ i, a i * b i) ∧
    (∀ w', NVec.projectOn w b = some w' → w' = w) := by
  obtain ⟨hs, hw⟩ := projectOn_int h
  have hb : ∃ i, b i ≠ 0 := by
    by_contra hc
    push Not at hc
    simp [hc] at hs
  obtain ⟨d, hd⟩ : ∃ d, d = ∑ i, a i * b i := ⟨_, rfl⟩
  obtain ⟨s, hss⟩ : ∃ s, s = ∑ i, b i * b i := ⟨_, rfl⟩
  have rd : (∑ j, (a j * b j : ℝ)) = ((d : ℤ) : ℝ) := by rw [hd]; push_cast; rfl
  have rs : (∑ j, (b j * b j : ℝ)) = ((s : ℤ) : ℝ) := by rw [hss]; push_cast; rfl
  rw [← hd, ← hss] at hw
  rw [rd, rs, ← hd, ← hss]
  rw [← hss] at hs
  have hs' : (0 : ℝ) < s := by exact_mod_cast hs
  refine ⟨hb, ⟨_, fun i => (hw i).trans (mul_comm _ _)⟩, fun hlt i => ?_, ⟨fun he => ?_, fun hdv i => ?_⟩, fun w' hw' => ?_⟩
  · have h0 : NumType.trunc ((d : ℝ) / s) = 0 := trunc_small (by
      rw [abs_div, abs_of_pos hs', div_lt_one hs']; exact_mod_cast hlt)
    rw [hw i, tdiv_trunc d s hs, h0, mul_zero]
  · obtain ⟨j, hj⟩ := hb
    have hj' : (b j : ℝ) ≠ 0 := by exact_mod_cast hj
    have e := he j
    rw [hw j] at e; push_cast at e
    rw [mul_comm] at e
    have e2 := mul_right_cancel₀ hj' e
    rw [eq_div_iff hs'.ne'] at e2
    refine ⟨Int.tdiv d s, ?_⟩
    have : Int.tdiv d s * s = d := by exact_mod_cast e2
    rw [mul_comm]; exact this.symm
  · obtain ⟨k, hk⟩ := hdv
    rw [hw i, hk, Int.mul_tdiv_cancel_left _ hs.ne']
    push_cast
    field_simp
  · obtain ⟨-, hw2⟩ := projectOn_int hw'
    rw [← hss] at hw2
    funext i
    have e : (∑ i, w i * b i) = s * Int.tdiv d s := by
      rw [hss, Finset.sum_mul]
      exact Finset.sum_congr rfl fun i _ => by rw [hw i, ← hss]; ring
    rw [hw2 i, e, Int.mul_tdiv_cancel_left _ hs.ne', hw i]

lemma proj_two (x y z u t : ℤ) (h0 : z ≠ 0) (h1 : NumType.Fits (x * z)) (h2 : NumType.Fits (z * z)) (ht : Int.tdiv (x * z) (z * z) = t)
    (h3 : NumType.Fits t) (h4 : NumType.Fits (z * t)) (hu : z * t = u) :
    NVec.projectOn (p := .int) (n := 2) ![x, y] ![z, 0] = some ![u, 0] := by
  have f0 : NumType.Fits 0 := by norm_num [NumType.Fits]
  have d : ∀ x y : ℤ, NumType.Fits (x * z) → NVec.dot (p := .int) (n := 2) ![x, y] ![z, 0] = some (x * z) := by
    intro x y h
    simp [NVec.dot, List.finRange_succ, NumType.mul, NumType.add, NumType.zero, NumType.checked, h, f0]
  have hz : z * z ≠ 0 := mul_ne_zero h0 h0
  unfold NVec.projectOn
  rw [d x y h1, d z 0 h2, Option.bind_some, Option.bind_some]
  have : NumType.div .int (x * z) (z * z) = some t := by
    change (if z * z = 0 then none else NumType.checked (Int.tdiv (x * z) (z * z))) = some t
    rw [if_neg hz, ht, checked_some.mpr ⟨h3, rfl⟩]
  rw [this, Option.bind_some]
  unfold NVec.mulScalar
  rw [cast_self, Option.bind_some, collect_some]
  intro i
  fin_cases i
  · change NumType.checked (z * t) = some u
    rw [checked_some]; exact ⟨h4, hu.symm⟩
  · change NumType.checked (0 * t) = some 0
    rw [zero_mul, checked_some]; exact ⟨f0, rfl⟩

/-- A projection that loses everything: (3, 1) projected on (2, 0) is (2, 0), and (1, 1) on (2, 0) is zero. -/
example : NVec.projectOn (p := .int) (n := 2) ![3, 1] ![2, 0] = some ![2, 0] ∧
    NVec.projectOn (p := .int) (n := 2) ![1, 1] ![2, 0] = some ![0, 0] :=
  ⟨proj_two 3 1 2 2 1 (by norm_num) (by norm_num [NumType.Fits]) (by norm_num [NumType.Fits]) (by decide) (by norm_num [NumType.Fits])
    (by norm_num [NumType.Fits]) (by norm_num),
   proj_two 1 1 2 0 0 (by norm_num) (by norm_num [NumType.Fits]) (by norm_num [NumType.Fits]) (by decide) (by norm_num [NumType.Fits])
    (by norm_num [NumType.Fits]) (by norm_num)⟩

/-! ## `float` vectors and `double` factors -/

namespace Format
variable {f : Format}

lemma round_onGrid {x : ℝ} {k : ℤ} (hk : f.emin ≤ k) (hx : OnGrid k x) (h : |x| < 2 ^ (k + f.p)) : f.round x = x := by
  rcases eq_or_ne x 0 with rfl | h0
  · exact round_zero
  have h1 : f.qexp x ≤ k := by
    have := log_le (x := |x|) (j := k + f.p - 1) (abs_pos.mpr h0) (by rwa [sub_add_cancel])
    rw [abs_abs] at this
    unfold qexp
    exact max_le (by omega) hk
  obtain ⟨n, hn⟩ := hx
  have hg : OnGrid (f.qexp x) x := by
    have := onGrid_of_le h1 n
    rwa [← hn] at this
  exact le_antisymm (round_le le_rfl hg) (le_round le_rfl hg)

lemma round_rel (hf : f.Ok) {x : ℝ} (h : (2 : ℝ) ^ (f.emin + (f.p - 1)) ≤ |x|) : |f.round x - x| ≤ f.uu * |x| := by
  rw [round_eq_roundEven h]
  exact FloatWide.roundEven_err (p := f.p) (by have := hf.p; omega) x

end Format

/-- The hypotheses of `C112_float_factor` are met by an everyday case. -/
example : (1 : ℝ) / 2 ^ 126 ≤ |(1 / 3 : ℝ)| ∧ |(1 / 3 : ℝ)| ≤ 2 ^ 127 ∧
    (∀ i : Fin 3, (![1, 0, -2] i : ℝ) = 0 ∨ 1 / 2 ^ 125 ≤ |(![1, 0, -2] i : ℝ) * (1 / 3)|) ∧
    ∀ i : Fin 3, |(![1, 0, -2] i : ℝ) * (1 / 3)| ≤ 2 ^ 126 := by
  refine ⟨by norm_num, by norm_num, fun i => ?_, fun i => ?_⟩ <;> fin_cases i <;> norm_num [abs_mul]

/-- **C112.** A `float` vector times a `double` factor: the factor is rounded to `float` first.  While neither factor nor product leaves the range of
normal `float` numbers, the relative error is at most `2 u + u²` with `u = 2⁻²⁴` (a single rounding would give `u`). -/
theorem C112_float_factor {n : ℕ} (v : Fin n → ℝ) (f : ℝ) (hf1 : 1 / 2 ^ 126 ≤ |f|) (hf2 : |f| ≤ 2 ^ 127)
    (h1 : ∀ i, v i = 0 ∨ 1 / 2 ^ 125 ≤ |v i * f|) (h2 : ∀ i, |v i * f| ≤ 2 ^ 126) :
    ∃ w : Fin n → ℝ, NVec.mulScalar (p := .float) (q := .double) (fun i => XR.fin (v i)) (.fin f) = some (fun i => XR.fin (w i)) ∧
      ∀ i, |w i - v i * f| ≤ (2 / 2 ^ 24 + (1 / 2 ^ 24) ^ 2) * |v i * f| := by
  have hF := Format.float_ok
  have eu : Format.float.uu = 1 / 2 ^ 24 := by norm_num [Format.uu, Format.float]
  have hc := Format.round_rel hF (x := f) (by norm_num [Format.float]; norm_num at hf1; exact hf1)
  rw [eu] at hc
  obtain ⟨c, ec⟩ : ∃ c, c = Format.float.round f := ⟨_, rfl⟩
  rw [← ec] at hc
  have ecast : NumType.cast .double .float (.fin f) = some (XR.fin c) := by
    change some (Format.float.arith.rnd f) = _
    rw [Format.rnd_fin hF (j := 127) (by norm_num [Format.float]) (by norm_num [Format.float]) (by exact_mod_cast hf2), ec]
  have key : ∀ i, |v i * c - v i * f| ≤ 1 / 2 ^ 24 * |v i * f| := fun i => by
    rw [← mul_sub, abs_mul, abs_mul]
    calc |v i| * |c - f| ≤ |v i| * (1 / 2 ^ 24 * |f|) := mul_le_mul_of_nonneg_left hc (abs_nonneg _)
      _ = _ := by ring
  have ub : ∀ i, |v i * c| ≤ 2 ^ 127 := fun i => by
    have a := abs_le.mp (key i)
    have b := h2 i
    have t : |v i * c| ≤ |v i * f| + 1 / 2 ^ 24 * |v i * f| := by
      have := abs_add_le (v i * f) (v i * c - v i * f)
      rw [add_sub_cancel] at this
      linarith [key i]
    norm_num at b t ⊢; linarith
  refine ⟨fun i => Format.float.round (v i * c), ?_, fun i => ?_⟩
  · unfold NVec.mulScalar
    rw [ecast, Option.bind_some, collect_some]
    intro i
    change some (Format.float.arith.rnd (v i * c)) = _
    rw [Format.rnd_fin hF (j := 127) (by norm_num [Format.float]) (by norm_num [Format.float]) (by exact_mod_cast ub i)]
  · rcases h1 i with h | h
    · simp [h, Format.round_zero]
    have t : |v i * f| ≤ |v i * c| + 1 / 2 ^ 24 * |v i * f| := by
      have := abs_add_le (v i * c) (v i * f - v i * c)
      rw [add_sub_cancel, abs_sub_comm (v i * f)] at this
      linarith [key i]
    have r := Format.round_rel hF (x := v i * c) (by
      norm_num [Format.float]; norm_num at h t; linarith)
    rw [eu] at r
    have t2 : |v i * c| ≤ |v i * f| + 1 / 2 ^ 24 * |v i * f| := by
      have := abs_add_le (v i * f) (v i * c - v i * f)
      rw [add_sub_cancel] at this
      linarith [key i]
    have t3 := abs_add_le (Format.float.round (v i * c) - v i * c) (v i * c - v i * f)
    rw [sub_add_sub_cancel] at t3
    have := key i
    linarith

/-- **C112.** A `double` factor outside the range of `float` destroys the vector, whatever the product would be: from `2¹²⁸` on, zero components
become NaN and all others infinite; up to `2⁻¹⁵⁰` all components become zero as factor, and none stays finite as divisor. -/
theorem C112_float_factor_range {n : ℕ} (v : Fin n → ℝ) (f : ℝ) :
    (2 ^ 128 ≤ |f| → ∃ w, NVec.mulScalar (p := .float) (q := .double) (fun i => XR.fin (v i)) (.fin f) = some w ∧
      ∀ i, (v i = 0 → w i = XR.nan) ∧ (v i ≠ 0 → ∃ b, w i = XR.inf b)) ∧
    (|f| ≤ 1 / 2 ^ 150 →
      NVec.mulScalar (p := .float) (q := .double) (fun i => XR.fin (v i)) (.fin f) = some (fun _ => XR.fin 0) ∧
      ∃ w, NVec.divScalar (p := .float) (q := .double) (fun i => XR.fin (v i)) (.fin f) = some w ∧ ∀ i, ¬ (w i).IsFinite) := by
  have hF := Format.float_ok
  constructor
  · intro h
    have ec : NumType.cast .double .float (.fin f) = some (XR.inf (decide (f < 0))) := by
      change some (Format.float.arith.rnd f) = _
      rw [Format.rnd_inf hF (by norm_num [Format.float]; norm_num at h; exact h)]
    refine ⟨fun i => Format.float.arith.mul (.fin (v i)) (.inf (decide (f < 0))), ?_, fun i => ⟨fun h0 => ?_, fun h0 => ?_⟩⟩
    · unfold NVec.mulScalar
      rw [ec, Option.bind_some, collect_some]
      intro i; rfl
    · simp [XArith.mul, h0]
    · simp [XArith.mul, h0]
  · intro h
    have ec : NumType.cast .double .float (.fin f) = some (XR.fin 0) := by
      change some (Format.float.arith.rnd f) = _
      rw [(Format.rnd_eq_zero hF).mpr]
      norm_num [Format.float]; norm_num at h; exact h
    refine ⟨?_, fun i => Format.float.arith.div (.fin (v i)) (.fin 0), ?_, fun i => ?_⟩
    · unfold NVec.mulScalar
      rw [ec, Option.bind_some, collect_some]
      intro i
      change some (Format.float.arith.rnd (v i * 0)) = _
      rw [mul_zero, Format.float.arith.rnd_zero]
    · unfold NVec.divScalar
      rw [ec, Option.bind_some, collect_some]
      intro i; rfl
    · by_cases h0 : v i = 0 <;> simp [XArith.div, h0, XR.IsFinite]

/-- **C112.** A `double` vector times a `float` or `int` factor: the factor is converted without error, each component is the correctly
rounded product. -/
theorem C112_double_factor {n : ℕ} (v : NVec .double n) (f : XR) (z : ℤ) (hz : NumType.Fits z) :
    NVec.mulScalar (q := .float) v f = some (fun i => Format.double.arith.mul (v i) f) ∧
    NVec.mulScalar (q := .int) v z = some (fun i => Format.double.arith.mul (v i) (.fin z)) := by
  constructor
  · unfold NVec.mulScalar
    change (some f).bind _ = _
    rw [Option.bind_some, collect_some]
    intro i; rfl
  · have ec : NumType.cast .int .double z = some (XR.fin z) := by
      change some (Format.double.arith.rnd z) = _
      have hb : |(z : ℝ)| ≤ 2 ^ (31 : ℤ) := by
        rw [abs_le]
        obtain ⟨h1, h2⟩ := hz
        have h1' : (-2 ^ 31 : ℝ) ≤ z := by exact_mod_cast h1
        have h2' : (z : ℝ) < 2 ^ 31 := by exact_mod_cast h2
        norm_num at h1' h2' ⊢; constructor <;> linarith
      rw [Format.rnd_fin Format.double_ok (j := 31) (by norm_num [Format.double]) (by norm_num [Format.double]) hb,
        Format.round_onGrid (k := 0) (by norm_num [Format.double]) ⟨z, by simp⟩
          (lt_of_le_of_lt hb (zpow_lt_zpow_right₀ (by norm_num) (by norm_num [Format.double])))]
    unfold NVec.mulScalar
    rw [ec, Option.bind_some, collect_some]
    intro i; rfl

/-- **C112.** A `float` vector times an `int` factor: exact conversion up to `2²⁴`, but `2²⁴ + 1` acts as `2²⁴`. -/
theorem C112_float_int_factor {n : ℕ} (v : NVec .float n) (z : ℤ) :
    (|z| ≤ 2 ^ 24 → NVec.mulScalar (q := .int) v z = some (fun i => Format.float.arith.mul (v i) (.fin z))) ∧
    NVec.mulScalar (q := .int) v (2 ^ 24 + 1 : ℤ) = NVec.mulScalar (q := .int) v (2 ^ 24 : ℤ) := by
  have hF := Format.float_ok
  have e24 : Format.float.arith.rnd (((2 : ℤ) ^ 24 : ℤ) : ℝ) = .fin ((2 : ℝ) ^ (24 : ℤ)) := by
    have := Format.rnd_pow hF (j := 24) (by norm_num [Format.float]) (by norm_num [Format.float])
    rw [← this]; norm_num
  constructor
  · intro hz
    have ec : NumType.cast .int .float z = some (XR.fin z) := by
      change some (Format.float.arith.rnd z) = _
      have hb : |(z : ℝ)| ≤ 2 ^ (24 : ℤ) := by exact_mod_cast hz
      congr 1
      rcases lt_or_eq_of_le hb with h | h
      · rw [Format.rnd_fin hF (j := 24) (by norm_num [Format.float]) (by norm_num [Format.float]) hb,
          Format.round_onGrid (k := 0) (by norm_num [Format.float]) ⟨z, by simp⟩ (by simpa [Format.float] using h)]
      · rw [Format.rnd_fin hF (j := 24) (by norm_num [Format.float]) (by norm_num [Format.float]) hb]
        congr 1
        rcases abs_eq (by positivity : (0 : ℝ) ≤ 2 ^ (24 : ℤ)) |>.mp h with h | h
        · rw [h, Format.round_pow hF (by norm_num [Format.float])]
        · rw [h, Format.round_neg, Format.round_pow hF (by norm_num [Format.float])]
    unfold NVec.mulScalar
    rw [ec, Option.bind_some, collect_some]
    intro i; rfl
  · have e : Format.float.arith.rnd (((2 : ℤ) ^ 24 + 1 : ℤ) : ℝ) = .fin ((2 : ℝ) ^ (24 : ℤ)) := by
      rw [Format.rnd_fin hF (j := 25) (by norm_num [Format.float]) (by norm_num [Format.float]) (by norm_num)]
      congr 1
      have hl : Int.log 2 |(((2 : ℤ) ^ 24 + 1 : ℤ) : ℝ)| = 24 :=
        le_antisymm (Format.log_le (by norm_num) (by norm_num)) (Format.le_log (by norm_num))
      have hq : Format.float.qexp (((2 : ℤ) ^ 24 + 1 : ℤ) : ℝ) = 1 := by
        unfold Format.qexp; rw [hl]; norm_num [Format.float]
      rw [Format.round_def, hq]
      have ef : ⌊((((2 : ℤ) ^ 24 + 1 : ℤ) : ℝ)) / 2 ^ (1 : ℤ)⌋ = 2 ^ 23 := by
        rw [Int.floor_eq_iff]; norm_num
      have er : roundTiesEven ((((2 : ℤ) ^ 24 + 1 : ℤ) : ℝ) / 2 ^ (1 : ℤ)) = 2 ^ 23 := by
        unfold roundTiesEven
        have hfr : Int.fract ((((2 : ℤ) ^ 24 + 1 : ℤ) : ℝ) / 2 ^ (1 : ℤ)) = 1 / 2 := by
          rw [Int.fract, ef]; norm_num
        rw [hfr, ef, if_neg (lt_irrefl _), if_neg (lt_irrefl _), if_pos (by decide)]
      rw [er]; norm_num
    have ec : NumType.cast .int .float (2 ^ 24 + 1 : ℤ) = NumType.cast .int .float (2 ^ 24 : ℤ) := by
      change some (Format.float.arith.rnd (((2 : ℤ) ^ 24 + 1 : ℤ) : ℝ)) = some (Format.float.arith.rnd (((2 : ℤ) ^ 24 : ℤ) : ℝ))
      rw [e, e24]
    unfold NVec.mulScalar
    rw [ec]

end Kindr
