import Mathlib.Analysis.Complex.Exponential
import Verif.Model.Float
import Verif.Props.Fix

/-!
# Floating-point robustness: C56 (histories of quaternion products), C57 (normalization), C58 (rotating vectors)
-/

set_option autoImplicit false

open Classical

noncomputable section
namespace Kindr
open Spec

/-! ## Forward error calculus -/

/-- `A` approximates `a` (of magnitude at most `M`) after at most `k` roundings. -/
def Err (u : ℝ) (k : ℕ) (A a M : ℝ) : Prop := |a| ≤ M ∧ |A - a| ≤ ((1 + u) ^ k - 1) * M

namespace Err
variable {F : FloatArith} {k l : ℕ} {A B a b M N : ℝ}

lemma one_le {u : ℝ} (hu : 0 ≤ u) (k : ℕ) : 1 ≤ (1 + u) ^ k := one_le_pow₀ (by linarith)

lemma exact (u a : ℝ) : Err u 0 a a |a| := ⟨le_refl _, by simp⟩

lemma abs_le {u : ℝ} (h : Err u k A a M) : |A| ≤ (1 + u) ^ k * M := by
  have : |A| ≤ |A - a| + |a| := by simpa using abs_add_le (A - a) a
  obtain ⟨h1, h2⟩ := h
  linarith

lemma nonneg {u : ℝ} (h : Err u k A a M) : 0 ≤ M := (abs_nonneg _).trans h.1

lemma mono {u : ℝ} (hu : 0 ≤ u) (h : Err u k A a M) (hkl : k ≤ l) : Err u l A a M :=
  ⟨h.1, h.2.trans (mul_le_mul_of_nonneg_right
    (sub_le_sub_right (pow_le_pow_right₀ (by linarith) hkl) _) h.nonneg)⟩

lemma bound {u : ℝ} (hu : 0 ≤ u) (h : Err u k A a M) (hMN : M ≤ N) : Err u k A a N :=
  ⟨h.1.trans hMN, h.2.trans (mul_le_mul_of_nonneg_left hMN (by linarith [one_le hu k]))⟩

lemma rnd (h : Err F.u k A a M) : Err F.u (k + 1) (F.fl A) a M := by
  refine ⟨h.1, ?_⟩
  have h1 := F.err A
  have h2 := h.abs_le
  have h3 : |F.fl A - a| ≤ |F.fl A - A| + |A - a| := by simpa using abs_add_le (F.fl A - A) (A - a)
  have h4 := mul_le_mul_of_nonneg_left h2 F.u_nonneg
  have h5 := h.2
  rw [pow_succ]; linarith

lemma add {u : ℝ} (h : Err u k A a M) (h' : Err u k B b N) : Err u k (A + B) (a + b) (M + N) := by
  refine ⟨(abs_add_le _ _).trans (add_le_add h.1 h'.1), ?_⟩
  have : A + B - (a + b) = (A - a) + (B - b) := by ring
  rw [this, mul_add]
  exact (abs_add_le _ _).trans (add_le_add h.2 h'.2)

lemma neg {u : ℝ} (h : Err u k A a M) : Err u k (-A) (-a) M := by
  refine ⟨by rw [abs_neg]; exact h.1, ?_⟩
  have : -A - -a = -(A - a) := by ring
  rw [this, abs_neg]; exact h.2

lemma sub {u : ℝ} (h : Err u k A a M) (h' : Err u k B b N) : Err u k (A - B) (a - b) (M + N) := by
  rw [sub_eq_add_neg, sub_eq_add_neg]; exact h.add h'.neg

lemma mul {u : ℝ} (hu : 0 ≤ u) (h : Err u k A a M) (h' : Err u l B b N) : Err u (k + l) (A * B) (a * b) (M * N) := by
  have hM := h.nonneg
  have hN := h'.nonneg
  refine ⟨by rw [abs_mul]; exact mul_le_mul h.1 h'.1 (abs_nonneg _) hM, ?_⟩
  have e : A * B - a * b = (A - a) * B + a * (B - b) := by ring
  have h1 : |(A - a) * B| ≤ ((1 + u) ^ k - 1) * M * ((1 + u) ^ l * N) := by
    rw [abs_mul]
    exact mul_le_mul h.2 h'.abs_le (abs_nonneg _) (mul_nonneg (by linarith [one_le hu k]) hM)
  have h2 : |a * (B - b)| ≤ M * (((1 + u) ^ l - 1) * N) := by
    rw [abs_mul]; exact mul_le_mul h.1 h'.2 (abs_nonneg _) hM
  rw [e, pow_add]
  refine (abs_add_le _ _).trans ?_
  linarith

/-- A rounded product of exact numbers. -/
lemma prod (F : FloatArith) (a b : ℝ) : Err F.u 1 (F.fl (a * b)) (a * b) (|a| * |b|) :=
  (((exact F.u a).mul F.u_nonneg (exact F.u b)).rnd)

/-- `fl (fl (fl (fl (a b) ± fl (c d)) ± fl (e f)) ± fl (g h))`. -/
lemma sum4 {a b c d : ℝ} {Ma Mb Mc Md A B C D : ℝ} (ha : Err F.u 1 A a Ma) (hb : Err F.u 1 B b Mb)
    (hc : Err F.u 1 C c Mc) (hd : Err F.u 1 D d Md) :
    Err F.u 4 (F.fl (F.fl (F.fl (A + B) + C) + D)) (a + b + c + d) (Ma + Mb + Mc + Md) := by
  have hu := F.u_nonneg
  exact ((((ha.add hb).rnd.add (hc.mono hu (by norm_num))).rnd).add (hd.mono hu (by norm_num))).rnd

lemma sum3 {a b c : ℝ} {Ma Mb Mc A B C : ℝ} (ha : Err F.u k A a Ma) (hb : Err F.u k B b Mb)
    (hc : Err F.u k C c Mc) :
    Err F.u (k + 2) (F.fl (F.fl (A + B) + C)) (a + b + c) (Ma + Mb + Mc) :=
  ((ha.add hb).rnd.add (hc.mono F.u_nonneg (by omega))).rnd

end Err

/-! ## C56: one product and histories of products -/

lemma cs4 (a1 a2 a3 a4 b1 b2 b3 b4 : ℝ) :
    |a1| * |b1| + |a2| * |b2| + |a3| * |b3| + |a4| * |b4| ≤
      Real.sqrt (a1 * a1 + a2 * a2 + a3 * a3 + a4 * a4) * Real.sqrt (b1 * b1 + b2 * b2 + b3 * b3 + b4 * b4) := by
  rw [← Real.sqrt_mul (by nlinarith [mul_self_nonneg a1, mul_self_nonneg a2, mul_self_nonneg a3, mul_self_nonneg a4])]
  apply Real.le_sqrt_of_sq_le
  have e : ∀ x : ℝ, x * x = |x| ^ 2 := fun x => by rw [sq_abs]; ring
  simp only [e]
  nlinarith [sq_nonneg (|a1| * |b2| - |a2| * |b1|), sq_nonneg (|a1| * |b3| - |a3| * |b1|),
    sq_nonneg (|a1| * |b4| - |a4| * |b1|), sq_nonneg (|a2| * |b3| - |a3| * |b2|),
    sq_nonneg (|a2| * |b4| - |a4| * |b2|), sq_nonneg (|a3| * |b4| - |a4| * |b3|)]

/-- Euclidean norm of a quaternion whose four components are bounded by `c`. -/
lemma norm_le_of_components {q : Quaternion ℝ} {c : ℝ} (hc : 0 ≤ c) (h0 : |q.re| ≤ c) (h1 : |q.imI| ≤ c)
    (h2 : |q.imJ| ≤ c) (h3 : |q.imK| ≤ c) : ‖q‖ ≤ 2 * c := by
  have e : ‖q‖ ^ 2 = q.re ^ 2 + q.imI ^ 2 + q.imJ ^ 2 + q.imK ^ 2 := by
    rw [sq, ← Quaternion.normSq_eq_norm_mul_self, Quaternion.normSq_def']
  have s : ∀ x : ℝ, |x| ≤ c → x ^ 2 ≤ c ^ 2 := fun x hx => by
    rw [← sq_abs]; exact pow_le_pow_left₀ (abs_nonneg _) hx 2
  have := s _ h0; have := s _ h1; have := s _ h2; have := s _ h3
  refine abs_le_of_sq_le_sq' ?_ (by linarith) |>.2
  rw [e]; linarith

/-- The error constant of one rounded quaternion product, `2((1+u)⁴-1)`, about `8u`. -/
def quatMulErr (u : ℝ) : ℝ := 2 * ((1 + u) ^ 4 - 1)

lemma quatMulErr_nonneg {u : ℝ} (hu : 0 ≤ u) : 0 ≤ quatMulErr u := by
  have := Err.one_le hu 4; unfold quatMulErr; linarith

lemma quatMul_err (F : FloatArith) (a b : Quat) :
    ‖toH (F.quatMul a b) - toH a * toH b‖ ≤ quatMulErr F.u * (‖toH a‖ * ‖toH b‖) := by
  have hu := F.u_nonneg
  have P := Err.prod F
  have hg : 0 ≤ (1 + F.u) ^ 4 - 1 := by have := Err.one_le hu 4; linarith
  rw [norm_toH, norm_toH]
  set N := a.norm * b.norm with hN
  have hN0 : 0 ≤ N := mul_nonneg (Real.sqrt_nonneg _) (Real.sqrt_nonneg _)
  have b0 : (|a.w| * |b.w| + |a.x| * |b.x| + |a.y| * |b.y| + |a.z| * |b.z|) ≤ N := cs4 _ _ _ _ _ _ _ _
  have b1 : (|a.w| * |b.x| + |a.x| * |b.w| + |a.y| * |b.z| + |a.z| * |b.y|) ≤ N := by
    refine (cs4 a.w a.x a.y a.z b.x b.w b.z b.y).trans (le_of_eq ?_)
    rw [hN, Quat.norm, Quat.norm, Quat.normSq, Quat.normSq]; congr 2; ring
  have b2 : (|a.w| * |b.y| + |a.y| * |b.w| + |a.z| * |b.x| + |a.x| * |b.z|) ≤ N := by
    refine (cs4 a.w a.y a.z a.x b.y b.w b.x b.z).trans (le_of_eq ?_)
    rw [hN, Quat.norm, Quat.norm, Quat.normSq, Quat.normSq]; congr 2 <;> ring
  have b3 : (|a.w| * |b.z| + |a.z| * |b.w| + |a.x| * |b.y| + |a.y| * |b.x|) ≤ N := by
    refine (cs4 a.w a.z a.x a.y b.z b.w b.y b.x).trans (le_of_eq ?_)
    rw [hN, Quat.norm, Quat.norm, Quat.normSq, Quat.normSq]; congr 2 <;> ring
  have e0 := (Err.sum4 (P a.w b.w) (P a.x b.x).neg (P a.y b.y).neg (P a.z b.z).neg).bound hu b0
  have e1 := (Err.sum4 (P a.w b.x) (P a.x b.w) (P a.y b.z) (P a.z b.y).neg).bound hu b1
  have e2 := (Err.sum4 (P a.w b.y) (P a.y b.w) (P a.z b.x) (P a.x b.z).neg).bound hu b2
  have e3 := (Err.sum4 (P a.w b.z) (P a.z b.w) (P a.x b.y) (P a.y b.x).neg).bound hu b3
  have key := norm_le_of_components (q := toH (F.quatMul a b) - toH a * toH b) (mul_nonneg hg hN0) (by
      refine le_trans (le_of_eq ?_) e0.2
      rw [Quaternion.re_sub, Quaternion.re_mul]
      simp only [toH, FloatArith.quatMul, sub_eq_add_neg]
    ) (by
      refine le_trans (le_of_eq ?_) e1.2
      rw [Quaternion.imI_sub, Quaternion.imI_mul]
      simp only [toH, FloatArith.quatMul, sub_eq_add_neg]
    ) (by
      refine le_trans (le_of_eq ?_) e2.2
      rw [Quaternion.imJ_sub, Quaternion.imJ_mul]
      simp only [toH, FloatArith.quatMul, sub_eq_add_neg]
      congr 1; ring
    ) (by
      refine le_trans (le_of_eq ?_) e3.2
      rw [Quaternion.imK_sub, Quaternion.imK_mul]
      simp only [toH, FloatArith.quatMul, sub_eq_add_neg]
      congr 1; ring)
  refine key.trans (le_of_eq ?_)
  unfold quatMulErr; ring

/-- Product of the norms of a list of quaternions. -/
def normProd (l : List Quat) : ℝ := (l.map fun q => ‖toH q‖).prod

lemma normProd_nonneg (l : List Quat) : 0 ≤ normProd l :=
  List.prod_nonneg (by simp only [List.mem_map]; rintro _ ⟨q, _, rfl⟩; exact norm_nonneg _)

lemma norm_prod_toH (l : List Quat) : ‖(l.map toH).prod‖ = normProd l := by
  induction l with
  | nil => simp [normProd]
  | cons q l ih =>
    simp only [normProd, List.map_cons, List.prod_cons] at ih ⊢
    rw [norm_mul, ih]

/-- **C56 (a).** However long the history of products of quaternions (not necessarily unit ones), the accumulated
floating-point result differs from the exact product by at most `(1+2((1+u)⁴-1))ⁿ - 1` relative to the product of the norms. -/
theorem C56_history_error (F : FloatArith) (acc : Quat) (l : List Quat) :
    ‖toH (F.quatHistory acc l) - toH acc * (l.map toH).prod‖ ≤
      ((1 + quatMulErr F.u) ^ l.length - 1) * (‖toH acc‖ * normProd l) := by
  induction l generalizing acc with
  | nil => simp [FloatArith.quatHistory, normProd]
  | cons q l ih =>
    have hg := quatMulErr_nonneg F.u_nonneg
    set g := quatMulErr F.u with hgdef
    have h1 := ih (F.quatMul acc q)
    have h2 := quatMul_err F acc q
    rw [← hgdef] at h2
    set acc' := toH (F.quatMul acc q)
    set N := ‖toH acc‖ * ‖toH q‖ with hN
    have hp := normProd_nonneg l
    have h3 : ‖acc'‖ ≤ (1 + g) * N := by
      have : ‖acc'‖ ≤ ‖acc' - toH acc * toH q‖ + ‖toH acc * toH q‖ := by
        simpa using norm_add_le (acc' - toH acc * toH q) (toH acc * toH q)
      rw [norm_mul, ← hN] at this
      linarith
    have h4 : ‖(acc' - toH acc * toH q) * (l.map toH).prod‖ ≤ g * N * normProd l := by
      rw [norm_mul, norm_prod_toH]; exact mul_le_mul_of_nonneg_right h2 hp
    have hpow : 0 ≤ (1 + g) ^ l.length - 1 := by
      have := Err.one_le hg l.length; linarith
    have h5 : ((1 + g) ^ l.length - 1) * (‖acc'‖ * normProd l) ≤
        ((1 + g) ^ l.length - 1) * ((1 + g) * N * normProd l) := by
      apply mul_le_mul_of_nonneg_left _ hpow
      exact mul_le_mul_of_nonneg_right h3 hp
    have e : toH (F.quatHistory acc (q :: l)) - toH acc * ((q :: l).map toH).prod =
        (toH (F.quatHistory (F.quatMul acc q) l) - acc' * (l.map toH).prod) +
          (acc' - toH acc * toH q) * (l.map toH).prod := by
      simp only [FloatArith.quatHistory, List.foldl_cons, List.map_cons, List.prod_cons, sub_mul, ← mul_assoc]
      abel
    rw [e]
    refine (norm_add_le _ _).trans ?_
    refine (add_le_add (h1.trans h5) h4).trans (le_of_eq ?_)
    simp only [normProd, List.map_cons, List.prod_cons, List.length_cons, pow_succ, hN]
    ring

lemma pow_sub_one_le {g : ℝ} (hg : 0 ≤ g) {n : ℕ} {b : ℝ} (h : n * g ≤ b) (hb : b ≤ 1) :
    (1 + g) ^ n - 1 ≤ b + b ^ 2 := by
  have hb0 : 0 ≤ (n : ℝ) * g := by positivity
  have h1 : (1 + g) ^ n ≤ Real.exp (n * g) := by
    rw [Real.exp_nat_mul]
    exact pow_le_pow_left₀ (by linarith) (by linarith [Real.add_one_le_exp g]) n
  have h2 : Real.exp (n * g) ≤ Real.exp b := Real.exp_le_exp.mpr h
  have h3 := Real.abs_exp_sub_one_sub_id_le (x := b) (by rw [abs_of_nonneg (hb0.trans h)]; exact hb)
  have := (abs_le.mp h3).2
  linarith

lemma quatMulErr_le (F : FloatArith) : quatMulErr F.u ≤ 8.0001 * F.u := by
  have hu := F.u_nonneg
  have h : F.u ≤ 1 / 10000000 := F.u_le.trans (by norm_num)
  have e : quatMulErr F.u = F.u * (8 + F.u * (12 + 8 * F.u + 2 * F.u ^ 2)) := by unfold quatMulErr; ring
  rw [e, mul_comm]
  apply mul_le_mul_of_nonneg_right _ hu
  nlinarith [sq_nonneg F.u]

/-- **C56 (b).** As long as `n u ≤ 1.2e-5` (see the instances for `double` and `float` below) a history of `n` products of unit quaternions keeps its norm within `1e-4` of one and
its result within `1e-4` of the exact product: the debug-mode constructor accepts it. -/
theorem C56_history_accepted (F : FloatArith) (acc : Quat) (l : List Quat) (hacc : Valid .quat acc)
    (hl : ∀ q ∈ l, Valid .quat q) (hn : l.length * F.u ≤ 1.2e-5) :
    ‖toH (F.quatHistory acc l) - toH acc * (l.map toH).prod‖ ≤ 1 / 10 ^ 4 ∧
    |(F.quatHistory acc l).norm - 1| ≤ 1 / 10 ^ 4 ∧
    quatCtorDbg (F.quatHistory acc l) = .ok (F.quatHistory acc l) := by
  have h := C56_history_error F acc l
  have hv : ∀ q : Quat, Valid .quat q → ‖toH q‖ = 1 := fun q hq => by
    rw [norm_toH, Quat.norm, (valid_quat_iff q).mp hq, Real.sqrt_one]
  have hp : normProd l = 1 := by
    unfold normProd
    apply List.prod_eq_one
    simp only [List.mem_map]; rintro _ ⟨q, hq, rfl⟩; exact hv q (hl q hq)
  rw [hv acc hacc, hp, mul_one, mul_one] at h
  have hb : (l.length : ℝ) * quatMulErr F.u ≤ 9.7e-5 := by
    have := mul_le_mul_of_nonneg_left (quatMulErr_le F) (Nat.cast_nonneg l.length (α := ℝ))
    have e : (l.length : ℝ) * (8.0001 * F.u) = 8.0001 * (l.length * F.u) := by ring
    rw [e] at this
    refine this.trans ?_
    have := mul_le_mul_of_nonneg_left hn (by norm_num : (0 : ℝ) ≤ 8.0001)
    refine this.trans (by norm_num)
  have hpow := pow_sub_one_le (quatMulErr_nonneg F.u_nonneg) hb (by norm_num)
  have h1 : ‖toH (F.quatHistory acc l) - toH acc * (l.map toH).prod‖ ≤ 1 / 10 ^ 4 :=
    h.trans (hpow.trans (by norm_num))
  have h2 : |(F.quatHistory acc l).norm - 1| ≤ 1 / 10 ^ 4 := by
    have := abs_norm_sub_norm_le (toH (F.quatHistory acc l)) (toH acc * (l.map toH).prod)
    rw [norm_mul, norm_prod_toH, hv acc hacc, hp, mul_one, norm_toH] at this
    exact this.trans h1
  refine ⟨h1, h2, (C26_quaternion_ctor _).1.mpr (h2.trans ?_)⟩
  have : (1 : ℝ) ≤ max (F.quatHistory acc l).norm 1 := le_max_right _ _
  linarith

/-! ### Round-to-nearest instances -/

lemma roundBinary_err (p : ℕ) (x : ℝ) : |roundBinary p x - x| ≤ 2⁻¹ ^ p * |x| := by
  unfold roundBinary
  set ulp : ℝ := 2 ^ (Int.log 2 |x| - (p - 1)) with hulp
  have hpos : 0 < ulp := by positivity
  by_cases hx : x = 0
  · subst hx; simp
  have h1 : |(round (x / ulp) : ℝ) * ulp - x| ≤ 1 / 2 * ulp := by
    have e : (round (x / ulp) : ℝ) * ulp - x = ((round (x / ulp) : ℝ) - x / ulp) * ulp := by field_simp
    rw [e, abs_mul, abs_of_pos hpos, abs_sub_comm]
    exact mul_le_mul_of_nonneg_right (abs_sub_round _) hpos.le
  refine h1.trans ?_
  have h2 : (2 : ℝ) ^ (Int.log 2 |x|) ≤ |x| := by
    have := Int.zpow_log_le_self (b := 2) (r := |x|) (by norm_num) (abs_pos.mpr hx)
    simpa using this
  have e : 1 / 2 * ulp = 2⁻¹ ^ p * 2 ^ (Int.log 2 |x|) := by
    rw [hulp, zpow_sub₀ (by norm_num), zpow_sub₀ (by norm_num), inv_pow]
    simp only [zpow_natCast, zpow_one]
    field_simp
  rw [e]
  exact mul_le_mul_of_nonneg_left h2 (by positivity)

/-- `double` with round-to-nearest (unbounded exponent). -/
def FloatArith.double : FloatArith where
  fl := roundBinary 53
  u := 2⁻¹ ^ 53
  u_nonneg := by positivity
  u_le := by norm_num
  err := roundBinary_err 53

/-- `float` with round-to-nearest (unbounded exponent). -/
def FloatArith.float : FloatArith where
  fl := roundBinary 24
  u := 2⁻¹ ^ 24
  u_nonneg := by positivity
  u_le := le_refl _
  err := roundBinary_err 24

/-- The instances of C56 (b): a hundred billion products in `double`, 200 in `float`. -/
theorem C56_double_float (acc : Quat) (l : List Quat) (hacc : Valid .quat acc) (hl : ∀ q ∈ l, Valid .quat q) :
    (l.length ≤ 10 ^ 11 → |(FloatArith.double.quatHistory acc l).norm - 1| ≤ 1 / 10 ^ 4) ∧
    (l.length ≤ 200 → |(FloatArith.float.quatHistory acc l).norm - 1| ≤ 1 / 10 ^ 4) := by
  constructor <;> intro h
  · refine (C56_history_accepted _ acc l hacc hl ?_).2.1
    have h' : (l.length : ℝ) ≤ 10 ^ 11 := by exact_mod_cast h
    have := mul_le_mul_of_nonneg_right h' FloatArith.double.u_nonneg
    refine this.trans ?_
    simp only [FloatArith.double]; norm_num
  · refine (C56_history_accepted _ acc l hacc hl ?_).2.1
    have h' : (l.length : ℝ) ≤ 200 := by exact_mod_cast h
    have := mul_le_mul_of_nonneg_right h' FloatArith.float.u_nonneg
    refine this.trans ?_
    simp only [FloatArith.float]; norm_num

/-- With exact arithmetic the rounded operations are the operations of the main model. -/
def FloatArith.exact : FloatArith where
  fl := id
  u := 0
  u_nonneg := le_refl _
  u_le := by positivity
  err := by simp

theorem C56_exact_arithmetic (a b : Quat) (m : M3) (v : V3) :
    FloatArith.exact.quatMul a b = a * b ∧
    FloatArith.exact.quatFix a = Kindr.quatFix a ∧
    FloatArith.exact.toRotationMatrix a = a.toRotationMatrix ∧
    FloatArith.exact.mulVec m v = m.mulVec v ∧
    (∀ n : M3, FloatArith.exact.matMul m n = m * n) ∧
    (∀ P : Prec, FloatArith.exact.rotateQuat a v = rotate P .quat a v) := by
  refine ⟨rfl, ?_, rfl, rfl, fun n => ?_, fun P => rfl⟩
  · simp only [FloatArith.quatFix, Kindr.quatFix, Quat.normalized, FloatArith.quatNorm, FloatArith.quatNormSq,
      FloatArith.exact, id, Quat.norm, Quat.normSq]
    split_ifs <;> rfl
  · ext <;> rfl

/-! ## C57: normalization -/

/-- A sum of rounded squares, relative bounds. -/
lemma normSq_bounds (F : FloatArith) (a : Quat) :
    (1 - F.u) ^ 4 * a.normSq ≤ F.quatNormSq a ∧ F.quatNormSq a ≤ (1 + F.u) ^ 4 * a.normSq := by
  have hu := F.u_nonneg
  have hu1 : F.u ≤ 1 := F.u_le.trans (by norm_num)
  -- one rounding of a nonnegative number
  have step : ∀ {x X : ℝ} {k : ℕ}, 0 ≤ x → (1 - F.u) ^ k * x ≤ X → X ≤ (1 + F.u) ^ k * x →
      (1 - F.u) ^ (k + 1) * x ≤ F.fl X ∧ F.fl X ≤ (1 + F.u) ^ (k + 1) * x := by
    intro x X k hx h1 h2
    have hX : 0 ≤ X := le_trans (mul_nonneg (pow_nonneg (by linarith) _) hx) h1
    have := abs_le.mp (F.err X)
    rw [abs_of_nonneg hX] at this
    constructor
    · calc (1 - F.u) ^ (k + 1) * x = (1 - F.u) * ((1 - F.u) ^ k * x) := by ring
        _ ≤ (1 - F.u) * X := mul_le_mul_of_nonneg_left h1 (by linarith)
        _ ≤ _ := by linarith
    · calc F.fl X ≤ (1 + F.u) * X := by linarith
        _ ≤ (1 + F.u) * ((1 + F.u) ^ k * x) := mul_le_mul_of_nonneg_left h2 (by linarith)
        _ = _ := by ring
  have lift : ∀ {x X : ℝ} {k l : ℕ}, 0 ≤ x → k ≤ l → (1 - F.u) ^ k * x ≤ X ∧ X ≤ (1 + F.u) ^ k * x →
      (1 - F.u) ^ l * x ≤ X ∧ X ≤ (1 + F.u) ^ l * x := by
    intro x X k l hx hkl h
    exact ⟨(mul_le_mul_of_nonneg_right (pow_le_pow_of_le_one (by linarith) (by linarith) hkl) hx).trans h.1,
      h.2.trans (mul_le_mul_of_nonneg_right (pow_le_pow_right₀ (by linarith) hkl) hx)⟩
  have sq1 : ∀ x : ℝ, (1 - F.u) ^ 1 * (x * x) ≤ F.fl (x * x) ∧ F.fl (x * x) ≤ (1 + F.u) ^ 1 * (x * x) := fun x =>
    step (k := 0) (mul_self_nonneg x) (by simp) (by simp)
  have add : ∀ {x X y Y : ℝ} {k : ℕ}, 0 ≤ x → 0 ≤ y → (1 - F.u) ^ k * x ≤ X ∧ X ≤ (1 + F.u) ^ k * x →
      (1 - F.u) ^ k * y ≤ Y ∧ Y ≤ (1 + F.u) ^ k * y →
      (1 - F.u) ^ (k + 1) * (x + y) ≤ F.fl (X + Y) ∧ F.fl (X + Y) ≤ (1 + F.u) ^ (k + 1) * (x + y) := by
    intro x X y Y k hx hy h1 h2
    exact step (add_nonneg hx hy) (by rw [mul_add]; linarith [h1.1, h2.1]) (by rw [mul_add]; linarith [h1.2, h2.2])
  have n := mul_self_nonneg (R := ℝ)
  have a1 := add (n a.w) (n a.x) (sq1 a.w) (sq1 a.x)
  have a2 := add (add_nonneg (n a.w) (n a.x)) (n a.y) a1 (lift (n _) (by norm_num) (sq1 a.y))
  have a3 := add (add_nonneg (add_nonneg (n a.w) (n a.x)) (n a.y)) (n a.z) a2 (lift (n _) (by norm_num) (sq1 a.z))
  exact a3

/-- **C57.** In floating point, `fix()` brings *every* nonzero quaternion to norm one up to five units of rounding, without
changing its direction by more than that: each component is the exactly normalized one up to the relative error `5u`. -/
theorem C57_fix_rounded (F : FloatArith) (q : Quat) (hq : toH q ≠ 0) :
    |(F.quatFix q).norm - 1| ≤ 5 * F.u ∧
    |(F.quatFix q).w - q.w / q.norm| ≤ 5 * F.u * |q.w / q.norm| ∧
    |(F.quatFix q).x - q.x / q.norm| ≤ 5 * F.u * |q.x / q.norm| ∧
    |(F.quatFix q).y - q.y / q.norm| ≤ 5 * F.u * |q.y / q.norm| ∧
    |(F.quatFix q).z - q.z / q.norm| ≤ 5 * F.u * |q.z / q.norm| ∧
    quatCtorDbg (F.quatFix q) = .ok (F.quatFix q) := by
  have hu := F.u_nonneg
  have hu1 : F.u ≤ 1 / 10000000 := F.u_le.trans (by norm_num)
  have hN : 0 < q.norm := by rw [← norm_toH]; exact norm_pos_iff.mpr hq
  have hN2 : q.normSq = q.norm ^ 2 := (Real.sq_sqrt (Quat.normSq_nonneg q)).symm
  obtain ⟨b1, b2⟩ := normSq_bounds F q
  set S := F.quatNormSq q with hS
  have hpos : 0 < 1 - F.u := by linarith
  have hS0 : 0 < (1 - F.u) ^ 4 * q.normSq := by rw [hN2]; positivity
  have hSpos : 0 < S := lt_of_lt_of_le hS0 b1
  -- the computed norm
  have c1 : (1 - F.u) ^ 2 * q.norm ≤ Real.sqrt S := by
    apply Real.le_sqrt_of_sq_le; rw [hN2] at b1; nlinarith
  have c2 : Real.sqrt S ≤ (1 + F.u) ^ 2 * q.norm := by
    rw [Real.sqrt_le_left (by positivity)]; rw [hN2] at b2; nlinarith
  have hs := abs_le.mp (F.err (Real.sqrt S))
  rw [abs_of_nonneg (Real.sqrt_nonneg S)] at hs
  set s := F.quatNorm q with hsdef
  have hs' : s = F.fl (Real.sqrt S) := rfl
  rw [← hs'] at hs
  have d1 : (1 - F.u) ^ 3 * q.norm ≤ s := by
    have := mul_le_mul_of_nonneg_left c1 (by linarith : 0 ≤ 1 - F.u)
    have e : (1 - F.u) ^ 3 * q.norm = (1 - F.u) * ((1 - F.u) ^ 2 * q.norm) := by ring
    rw [e]; linarith
  have d2 : s ≤ (1 + F.u) ^ 3 * q.norm := by
    have := mul_le_mul_of_nonneg_left c2 (by linarith : 0 ≤ 1 + F.u)
    have e : (1 + F.u) ^ 3 * q.norm = (1 + F.u) * ((1 + F.u) ^ 2 * q.norm) := by ring
    rw [e]; linarith
  have hs0 : 0 < (1 - F.u) ^ 3 * q.norm := by positivity
  have hspos : 0 < s := lt_of_lt_of_le hs0 d1
  -- ratio of exact and computed norm
  have r1 : |q.norm / s - 1| ≤ 7 / 2 * F.u := by
    have e : q.norm / s - 1 = (q.norm - s) / s := by field_simp
    rw [e, abs_div, abs_of_pos hspos, div_le_iff₀ hspos, abs_le]
    have k1 : (1 - F.u) ^ 3 ≥ 1 - 3 * F.u := by nlinarith [mul_nonneg hu hu]
    have k2 : (1 + F.u) ^ 3 ≤ 1 + 3 * F.u + 4 * F.u ^ 2 := by nlinarith [mul_nonneg hu hu]
    have k1' := mul_le_mul_of_nonneg_right k1 hN.le
    have k2' := mul_le_mul_of_nonneg_right k2 hN.le
    have hus : 0 ≤ F.u * q.norm := mul_nonneg hu hN.le
    have hu2 : F.u ^ 2 * q.norm ≤ 1 / 10000000 * (F.u * q.norm) := by
      have := mul_le_mul_of_nonneg_right hu1 hus; linarith [sq F.u]
    have hsl : F.u * s ≥ F.u * ((1 - 3 * F.u) * q.norm) := mul_le_mul_of_nonneg_left (by linarith) hu
    constructor <;> nlinarith
  have comp : ∀ c : ℝ, |F.fl (c / s) - c / q.norm| ≤ 5 * F.u * |c / q.norm| := by
    intro c
    have h1 := F.err (c / s)
    have e : c / s = c / q.norm * (q.norm / s) := by field_simp
    have h2 : |c / s - c / q.norm| ≤ 7 / 2 * F.u * |c / q.norm| := by
      have : c / s - c / q.norm = c / q.norm * (q.norm / s - 1) := by rw [e]; ring
      rw [this, abs_mul, mul_comm]
      exact mul_le_mul_of_nonneg_right r1 (abs_nonneg _)
    have h3 : |c / s| ≤ 5 / 4 * |c / q.norm| := by
      have : |c / s| ≤ |c / s - c / q.norm| + |c / q.norm| := by simpa using abs_add_le (c / s - c / q.norm) (c / q.norm)
      have h4 : 7 / 2 * F.u * |c / q.norm| ≤ 1 / 4 * |c / q.norm| :=
        mul_le_mul_of_nonneg_right (by linarith) (abs_nonneg _)
      linarith
    have h4 : |F.fl (c / s) - c / q.norm| ≤ |F.fl (c / s) - c / s| + |c / s - c / q.norm| := by
      simpa using abs_add_le (F.fl (c / s) - c / s) (c / s - c / q.norm)
    have h5 := mul_le_mul_of_nonneg_left h3 hu
    have h6 : 0 ≤ F.u * |c / q.norm| := mul_nonneg hu (abs_nonneg _)
    linarith
  have hfix : F.quatFix q = ⟨F.fl (q.w / s), F.fl (q.x / s), F.fl (q.y / s), F.fl (q.z / s)⟩ := by
    simp only [FloatArith.quatFix, ← hS, hSpos, if_true, ← hsdef]
  have hnorm : |(F.quatFix q).norm - 1| ≤ 5 * F.u := by
    -- distance to the exactly normalized quaternion
    set n : Quat := ⟨q.w / q.norm, q.x / q.norm, q.y / q.norm, q.z / q.norm⟩ with hn
    have hn1 : n.normSq = 1 := by
      have : n.normSq = q.normSq / q.norm ^ 2 := by simp only [hn, Quat.normSq]; field_simp
      rw [this, hN2]; field_simp
    have hnn : ‖toH n‖ = 1 := by rw [norm_toH, Quat.norm, hn1, Real.sqrt_one]
    have hd : ‖toH (F.quatFix q) - toH n‖ ≤ 5 * F.u := by
      have e : ‖toH (F.quatFix q) - toH n‖ ^ 2 = ((F.quatFix q).w - n.w) ^ 2 + ((F.quatFix q).x - n.x) ^ 2 +
          ((F.quatFix q).y - n.y) ^ 2 + ((F.quatFix q).z - n.z) ^ 2 := by
        rw [sq, ← Quaternion.normSq_eq_norm_mul_self, Quaternion.normSq_def', Quaternion.re_sub, Quaternion.imI_sub,
          Quaternion.imJ_sub, Quaternion.imK_sub]
        rfl
      have sqb : ∀ {d c : ℝ}, |d| ≤ 5 * F.u * |c| → d ^ 2 ≤ (5 * F.u) ^ 2 * (c * c) := by
        intro d c h
        have := pow_le_pow_left₀ (abs_nonneg _) h 2
        rw [sq_abs, mul_pow, sq_abs] at this
        linarith [sq c]
      refine abs_le_of_sq_le_sq' ?_ (by linarith) |>.2
      rw [e, hfix]
      have s1 := sqb (comp q.w); have s2 := sqb (comp q.x); have s3 := sqb (comp q.y); have s4 := sqb (comp q.z)
      have : (5 * F.u) ^ 2 = (5 * F.u) ^ 2 * n.normSq := by rw [hn1, mul_one]
      rw [this]
      simp only [Quat.normSq, hn]
      linarith
    have := abs_norm_sub_norm_le (toH (F.quatFix q)) (toH n)
    rw [hnn, norm_toH] at this
    exact this.trans hd
  refine ⟨hnorm, ?_, ?_, ?_, ?_, (C26_quaternion_ctor _).1.mpr ?_⟩
  · rw [hfix]; exact comp q.w
  · rw [hfix]; exact comp q.x
  · rw [hfix]; exact comp q.y
  · rw [hfix]; exact comp q.z
  · have : (1 : ℝ) ≤ max (F.quatFix q).norm 1 := le_max_right _ _
    refine hnorm.trans ?_
    have h1 : (1 : ℝ) / 10 ^ 4 ≤ 1 / 10 ^ 4 * max (F.quatFix q).norm 1 := by linarith
    refine le_trans ?_ h1
    norm_num; linarith

/-! ## C58: rotating vectors -/

lemma Err.mulComp {F : FloatArith} {k : ℕ} {A B C a b c : ℝ} {M N O : ℝ} (ha : Err F.u k A a M) (hb : Err F.u k B b N)
    (hc : Err F.u k C c O) (v : V3) :
    Err F.u (k + 3) (F.fl (F.fl (F.fl (A * v.x) + F.fl (B * v.y)) + F.fl (C * v.z))) (a * v.x + b * v.y + c * v.z)
      (M * |v.x| + N * |v.y| + O * |v.z|) :=
  Err.sum3 (ha.mul F.u_nonneg (Err.exact F.u v.x)).rnd (hb.mul F.u_nonneg (Err.exact F.u v.y)).rnd
    (hc.mul F.u_nonneg (Err.exact F.u v.z)).rnd

lemma two_abs_mul_le (a b : ℝ) : 2 * |a| * |b| ≤ a * a + b * b := by
  nlinarith [sq_nonneg (|a| - |b|), abs_mul_abs_self a, abs_mul_abs_self b]

/-- The nine entries of the rounded rotation matrix of a unit quaternion. -/
lemma toRotationMatrix_err (F : FloatArith) {q : Quat} (hq : q.normSq = 1) :
    let A := F.toRotationMatrix q
    let a := q.toRotationMatrix
    (Err F.u 4 A.m00 a.m00 3 ∧ Err F.u 4 A.m01 a.m01 1 ∧ Err F.u 4 A.m02 a.m02 1) ∧
    (Err F.u 4 A.m10 a.m10 1 ∧ Err F.u 4 A.m11 a.m11 3 ∧ Err F.u 4 A.m12 a.m12 1) ∧
    (Err F.u 4 A.m20 a.m20 1 ∧ Err F.u 4 A.m21 a.m21 1 ∧ Err F.u 4 A.m22 a.m22 3) := by
  intro A a
  have hu := F.u_nonneg
  have hn : q.w * q.w + q.x * q.x + q.y * q.y + q.z * q.z = 1 := hq
  have nn := mul_self_nonneg (R := ℝ)
  -- `fl (fl (2 * a) * b)`
  have t : ∀ a b : ℝ, Err F.u 2 (F.fl (F.fl (2 * a) * b)) (2 * a * b) (2 * |a| * |b|) := by
    intro a b
    have := (((Err.exact F.u 2).mul hu (Err.exact F.u a)).rnd.mul hu (Err.exact F.u b)).rnd
    rwa [abs_two] at this
  have off : ∀ a b c d : ℝ, a * a + b * b + c * c + d * d = 1 →
      Err F.u 4 (F.fl (F.fl (F.fl (2 * a) * b) + F.fl (F.fl (2 * c) * d))) (2 * a * b + 2 * c * d) 1 ∧
      Err F.u 4 (F.fl (F.fl (F.fl (2 * a) * b) - F.fl (F.fl (2 * c) * d))) (2 * a * b - 2 * c * d) 1 := by
    intro a b c d h
    have hb : 2 * |a| * |b| + 2 * |c| * |d| ≤ 1 := by
      have := two_abs_mul_le a b; have := two_abs_mul_le c d; linarith
    exact ⟨((((t a b).add (t c d)).bound hu hb).rnd).mono hu (by norm_num),
      ((((t a b).sub (t c d)).bound hu hb).rnd).mono hu (by norm_num)⟩
  have diag : ∀ a b : ℝ, a * a + b * b ≤ 1 →
      Err F.u 4 (F.fl (1 - F.fl (F.fl (F.fl (2 * a) * a) + F.fl (F.fl (2 * b) * b)))) (1 - (2 * a * a + 2 * b * b)) 3 := by
    intro a b h
    have hb : 2 * |a| * |a| + 2 * |b| * |b| ≤ 2 := by
      have := abs_mul_abs_self a; have := abs_mul_abs_self b; nlinarith
    have h1 := (((t a a).add (t b b)).bound hu hb).rnd
    have h2 := (((Err.exact F.u 1).mono hu (Nat.zero_le 3)).sub h1).rnd
    rw [abs_one] at h2
    exact h2.bound hu (by norm_num)
  refine ⟨⟨?_, ?_, ?_⟩, ⟨?_, ?_, ?_⟩, ?_, ?_, ?_⟩
  · exact diag q.y q.z (by linarith [nn q.w, nn q.x])
  · exact (off q.y q.x q.z q.w (by linarith)).2
  · exact (off q.z q.x q.y q.w (by linarith)).1
  · exact (off q.y q.x q.z q.w (by linarith)).1
  · exact diag q.x q.z (by linarith [nn q.w, nn q.y])
  · exact (off q.z q.y q.x q.w (by linarith)).2
  · exact (off q.z q.x q.y q.w (by linarith)).2
  · exact (off q.z q.y q.x q.w (by linarith)).1
  · exact diag q.x q.y (by linarith [nn q.w, nn q.z])

/-- Componentwise bound to norm bound. -/
lemma V3.norm_le_of_sq {v : V3} {c : ℝ} (hc : 0 ≤ c) (h : v.x * v.x + v.y * v.y + v.z * v.z ≤ c ^ 2) : v.norm ≤ c := by
  rw [V3.norm, Real.sqrt_le_left hc]; exact h

lemma V3.norm_le_of_abs {v b : V3} (hx : |v.x| ≤ b.x) (hy : |v.y| ≤ b.y) (hz : |v.z| ≤ b.z) : v.norm ≤ b.norm := by
  apply Real.sqrt_le_sqrt
  have s : ∀ {a b : ℝ}, |a| ≤ b → a * a ≤ b * b := fun h => by
    rw [← abs_mul_abs_self]; exact mul_self_le_mul_self (abs_nonneg _) h
  have := s hx; have := s hy; have := s hz
  simp only [V3.normSq, V3.dot]; linarith

lemma norm_5 (v : V3) : (⟨3 * |v.x| + |v.y| + |v.z|, |v.x| + 3 * |v.y| + |v.z|, |v.x| + |v.y| + 3 * |v.z|⟩ : V3).norm ≤
    5 * v.norm := by
  apply V3.norm_le_of_sq (by have := Real.sqrt_nonneg v.normSq; unfold V3.norm; linarith)
  rw [mul_pow, V3.norm_sq, V3.normSq, V3.dot, ← abs_mul_abs_self v.x, ← abs_mul_abs_self v.y, ← abs_mul_abs_self v.z]
  nlinarith [sq_nonneg (|v.x| - |v.y|), sq_nonneg (|v.x| - |v.z|), sq_nonneg (|v.y| - |v.z|)]

lemma rotateQuat_err (F : FloatArith) {q : Quat} (hq : q.normSq = 1) (v : V3) :
    let r := F.rotateQuat q v
    let e := q.toRotationMatrix.mulVec v
    Err F.u 7 r.x e.x (3 * |v.x| + |v.y| + |v.z|) ∧ Err F.u 7 r.y e.y (|v.x| + 3 * |v.y| + |v.z|) ∧
      Err F.u 7 r.z e.z (|v.x| + |v.y| + 3 * |v.z|) := by
  obtain ⟨⟨a00, a01, a02⟩, ⟨a10, a11, a12⟩, a20, a21, a22⟩ := toRotationMatrix_err F hq
  have h0 := Err.mulComp a00 a01 a02 v
  have h1 := Err.mulComp a10 a11 a12 v
  have h2 := Err.mulComp a20 a21 a22 v
  simp only [one_mul] at h0 h1 h2
  exact ⟨h0, h1, h2⟩

lemma V3.norm_smul_nonneg {c : ℝ} (hc : 0 ≤ c) (v : V3) : (c • v).norm = c * v.norm := by
  rw [V3.norm_smul, abs_of_nonneg hc]

lemma V3.norm_nonneg' (v : V3) : 0 ≤ v.norm := Real.sqrt_nonneg _

lemma pow7_le (F : FloatArith) : (1 + F.u) ^ 7 - 1 ≤ 7.01 * F.u ∧ (1 + F.u) ^ 8 - 1 ≤ 8.01 * F.u := by
  have hu := F.u_nonneg
  have h : F.u ≤ 1 / 10000000 := F.u_le.trans (by norm_num)
  have k : ∀ n : ℕ, ∀ c : ℝ, 0 ≤ c → c ≤ 9 → (1 + F.u) ^ n ≤ 1 + c * F.u → (1 + F.u) ^ (n + 1) ≤ 1 + (c + 1.001) * F.u := by
    intro n c hc0 hc9 hc
    rw [pow_succ]
    have := mul_le_mul_of_nonneg_right hc (by linarith : 0 ≤ 1 + F.u)
    have h2 : c * F.u * F.u ≤ 0.001 * F.u := mul_le_mul_of_nonneg_right (by nlinarith) hu
    linarith
  have k1 := k 0 0 (by norm_num) (by norm_num) (by simp)
  have k2 := k 1 _ (by norm_num) (by norm_num) k1
  have k3 := k 2 _ (by norm_num) (by norm_num) k2
  have k4 := k 3 _ (by norm_num) (by norm_num) k3
  have k5 := k 4 _ (by norm_num) (by norm_num) k4
  have k6 := k 5 _ (by norm_num) (by norm_num) k5
  have k7 := k 6 _ (by norm_num) (by norm_num) k6
  have k8 := k 7 _ (by norm_num) (by norm_num) k7
  constructor <;> norm_num at k7 k8 ⊢ <;> linarith

/-- **C58.** The floating-point `rotate` of a unit quaternion is accurate for every vector, however large or small: the error is at
most `36u` relative to the length of the vector (and so the length is preserved up to that), and the floating-point
`transform` of a pose is accurate up to `(45‖p‖ + 9‖t‖)u`. -/
theorem C58_rotate_accurate (F : FloatArith) (q : Rep .quat) (hq : Valid .quat q) (v t : V3) :
    (F.rotateQuat q v - act .quat q v).norm ≤ 36 * F.u * v.norm ∧
    |(F.rotateQuat q v).norm - v.norm| ≤ 36 * F.u * v.norm ∧
    (F.transformQuat q t v - (act .quat q v + t)).norm ≤ (45 * v.norm + 9 * t.norm) * F.u := by
  have hu := F.u_nonneg
  have hq1 := (valid_quat_iff q).mp hq
  have hact : act .quat q v = (Quat.toRotationMatrix q).mulVec v := by
    rw [act_eq_dmat, toRotationMatrix_eq hq1]; rfl
  obtain ⟨h0, h1, h2⟩ := rotateQuat_err F hq1 v
  obtain ⟨p7, p8⟩ := pow7_le F
  have g7 : 0 ≤ (1 + F.u) ^ 7 - 1 := by linarith [Err.one_le hu 7]
  have g8 : 0 ≤ (1 + F.u) ^ 8 - 1 := by linarith [Err.one_le hu 8]
  have hv := V3.norm_nonneg' v
  have ht := V3.norm_nonneg' t
  have huv := mul_nonneg hu hv
  have hut := mul_nonneg hu ht
  have A : (F.rotateQuat q v - act .quat q v).norm ≤ 36 * F.u * v.norm := by
    rw [hact]
    have := V3.norm_le_of_abs (v := F.rotateQuat q v - (Quat.toRotationMatrix q).mulVec v)
      (b := ((1 + F.u) ^ 7 - 1) • (⟨3 * |v.x| + |v.y| + |v.z|, |v.x| + 3 * |v.y| + |v.z|, |v.x| + |v.y| + 3 * |v.z|⟩ : V3))
      h0.2 h1.2 h2.2
    rw [V3.norm_smul_nonneg g7] at this
    refine this.trans ((mul_le_mul_of_nonneg_left (norm_5 v) g7).trans ?_)
    have := mul_le_mul_of_nonneg_right p7 (by positivity : 0 ≤ 5 * v.norm)
    linarith
  refine ⟨A, ?_, ?_⟩
  · have hn : (act .quat q v).norm = v.norm := by
      rw [act_eq, SO3.mulVec_norm (den_isSO3 hq)]
    have k1 : (F.rotateQuat q v).norm ≤ (F.rotateQuat q v - act .quat q v).norm + (act .quat q v).norm := by
      have := V3.norm_add_le (F.rotateQuat q v - act .quat q v) (act .quat q v)
      rwa [sub_add_cancel] at this
    have k2 : (act .quat q v).norm ≤ (F.rotateQuat q v).norm + (F.rotateQuat q v - act .quat q v).norm := by
      have := V3.norm_sub_le (F.rotateQuat q v) (F.rotateQuat q v - act .quat q v)
      rwa [sub_sub_cancel] at this
    rw [hn] at k1 k2
    rw [abs_le]; constructor <;> linarith
  · have e : ∀ {A a M : ℝ} (b : ℝ), Err F.u 7 A a M → Err F.u 8 (F.fl (A + b)) (a + b) (M + |b|) := fun b h =>
      (h.add ((Err.exact F.u b).mono hu (Nat.zero_le 7))).rnd
    have := V3.norm_le_of_abs (v := F.transformQuat q t v - ((Quat.toRotationMatrix q).mulVec v + t))
      (b := ((1 + F.u) ^ 8 - 1) • ((⟨3 * |v.x| + |v.y| + |v.z|, |v.x| + 3 * |v.y| + |v.z|, |v.x| + |v.y| + 3 * |v.z|⟩ : V3)
        + (⟨|t.x|, |t.y|, |t.z|⟩ : V3)))
      (by exact (e t.x h0).2) (by exact (e t.y h1).2) (by exact (e t.z h2).2)
    rw [V3.norm_smul_nonneg g8] at this
    rw [hact]
    refine this.trans ?_
    have ht' : (⟨|t.x|, |t.y|, |t.z|⟩ : V3).norm = t.norm := by
      simp only [V3.norm, V3.normSq, V3.dot, abs_mul_abs_self]
    have hs := (V3.norm_add_le (⟨3 * |v.x| + |v.y| + |v.z|, |v.x| + 3 * |v.y| + |v.z|, |v.x| + |v.y| + 3 * |v.z|⟩ : V3)
      (⟨|t.x|, |t.y|, |t.z|⟩ : V3)).trans (add_le_add (norm_5 v) (le_of_eq ht'))
    refine (mul_le_mul_of_nonneg_left hs g8).trans ?_
    have := mul_le_mul_of_nonneg_right p8 (by positivity : 0 ≤ 5 * v.norm + t.norm)
    linarith

/-! ## C56 for rotation matrices -/

/-- First row of a matrix. -/
def M3.row0 (m : M3) : V3 := ⟨m.m00, m.m01, m.m02⟩
/-- Second row of a matrix. -/
def M3.row1 (m : M3) : V3 := ⟨m.m10, m.m11, m.m12⟩
/-- Third row of a matrix. -/
def M3.row2 (m : M3) : V3 := ⟨m.m20, m.m21, m.m22⟩

/-- A rounded row times a matrix. -/
def FloatArith.rowMul (F : FloatArith) (r : V3) (b : M3) : V3 :=
  ⟨F.fl (F.fl (F.fl (r.x * b.m00) + F.fl (r.y * b.m10)) + F.fl (r.z * b.m20)),
   F.fl (F.fl (F.fl (r.x * b.m01) + F.fl (r.y * b.m11)) + F.fl (r.z * b.m21)),
   F.fl (F.fl (F.fl (r.x * b.m02) + F.fl (r.y * b.m12)) + F.fl (r.z * b.m22))⟩

/-- The error constant of one rounded product with a rotation matrix, `√3((1+u)³-1)`, about `5.2u`. -/
def matMulErr (u : ℝ) : ℝ := Real.sqrt 3 * ((1 + u) ^ 3 - 1)

lemma matMulErr_nonneg {u : ℝ} (hu : 0 ≤ u) : 0 ≤ matMulErr u :=
  mul_nonneg (Real.sqrt_nonneg _) (by linarith [Err.one_le hu 3])

lemma SO3.frob {b : M3} (h : IsSO3 b) :
    b.m00 * b.m00 + b.m01 * b.m01 + b.m02 * b.m02 + (b.m10 * b.m10 + b.m11 * b.m11 + b.m12 * b.m12) +
      (b.m20 * b.m20 + b.m21 * b.m21 + b.m22 * b.m22) = 3 := by
  have := congrArg M3.trace h.1
  simp [M3.trace] at this
  linarith

lemma rowMul_err (F : FloatArith) (r : V3) {b : M3} (hb : IsSO3 b) :
    (F.rowMul r b - b.transpose.mulVec r).norm ≤ matMulErr F.u * r.norm := by
  have hu := F.u_nonneg
  have P := Err.prod F
  have g3 : 0 ≤ (1 + F.u) ^ 3 - 1 := by linarith [Err.one_le hu 3]
  have h0 := (Err.sum3 (P r.x b.m00) (P r.y b.m10) (P r.z b.m20)).2
  have h1 := (Err.sum3 (P r.x b.m01) (P r.y b.m11) (P r.z b.m21)).2
  have h2 := (Err.sum3 (P r.x b.m02) (P r.y b.m12) (P r.z b.m22)).2
  have key := V3.norm_le_of_abs (v := F.rowMul r b - b.transpose.mulVec r)
    (b := ((1 + F.u) ^ 3 - 1) • (⟨|r.x| * |b.m00| + |r.y| * |b.m10| + |r.z| * |b.m20|,
      |r.x| * |b.m01| + |r.y| * |b.m11| + |r.z| * |b.m21|, |r.x| * |b.m02| + |r.y| * |b.m12| + |r.z| * |b.m22|⟩ : V3))
    (by refine le_trans (le_of_eq ?_) h0
        simp only [FloatArith.rowMul, V3.sub_x, M3.mulVec_x, M3.transpose_m00, M3.transpose_m01, M3.transpose_m02]
        congr 1; ring)
    (by refine le_trans (le_of_eq ?_) h1
        simp only [FloatArith.rowMul, V3.sub_y, M3.mulVec_y, M3.transpose_m10, M3.transpose_m11, M3.transpose_m12]
        congr 1; ring)
    (by refine le_trans (le_of_eq ?_) h2
        simp only [FloatArith.rowMul, V3.sub_z, M3.mulVec_z, M3.transpose_m20, M3.transpose_m21, M3.transpose_m22]
        congr 1; ring)
  rw [V3.norm_smul_nonneg g3] at key
  refine key.trans ?_
  have hn : (⟨|r.x| * |b.m00| + |r.y| * |b.m10| + |r.z| * |b.m20|, |r.x| * |b.m01| + |r.y| * |b.m11| + |r.z| * |b.m21|,
      |r.x| * |b.m02| + |r.y| * |b.m12| + |r.z| * |b.m22|⟩ : V3).norm ≤ Real.sqrt 3 * r.norm := by
    apply V3.norm_le_of_sq (mul_nonneg (Real.sqrt_nonneg _) (V3.norm_nonneg' _))
    rw [mul_pow, Real.sq_sqrt (by norm_num), V3.norm_sq]
    have cs : ∀ a b c x y z : ℝ, (|a| * |x| + |b| * |y| + |c| * |z|) * (|a| * |x| + |b| * |y| + |c| * |z|) ≤
        (a * a + b * b + c * c) * (x * x + y * y + z * z) := by
      intro a b c x y z
      rw [← abs_mul_abs_self a, ← abs_mul_abs_self b, ← abs_mul_abs_self c, ← abs_mul_abs_self x, ← abs_mul_abs_self y,
        ← abs_mul_abs_self z]
      nlinarith [sq_nonneg (|a| * |y| - |b| * |x|), sq_nonneg (|a| * |z| - |c| * |x|), sq_nonneg (|b| * |z| - |c| * |y|)]
    have c0 := cs r.x r.y r.z b.m00 b.m10 b.m20
    have c1 := cs r.x r.y r.z b.m01 b.m11 b.m21
    have c2 := cs r.x r.y r.z b.m02 b.m12 b.m22
    have hf := SO3.frob hb
    have e : 3 * r.normSq = (r.x * r.x + r.y * r.y + r.z * r.z) * (b.m00 * b.m00 + b.m10 * b.m10 + b.m20 * b.m20) +
      (r.x * r.x + r.y * r.y + r.z * r.z) * (b.m01 * b.m01 + b.m11 * b.m11 + b.m21 * b.m21) +
      (r.x * r.x + r.y * r.y + r.z * r.z) * (b.m02 * b.m02 + b.m12 * b.m12 + b.m22 * b.m22) := by
      rw [← hf]; simp only [V3.normSq, V3.dot]; ring
    rw [e]; linarith
  refine (mul_le_mul_of_nonneg_left hn g3).trans (le_of_eq ?_)
  unfold matMulErr; ring

/-- **C58 (matrices).** Floating-point `rotate` of a rotation matrix: relative error at most `6u` for every vector. -/
theorem C58_rotate_matrix_accurate (F : FloatArith) (m : Rep .mat) (hm : Valid .mat m) (v : V3) :
    (F.mulVec m v - act .mat m v).norm ≤ 6 * F.u * v.norm := by
  have hm' : IsSO3 m := dmat_isSO3 .mat m hm
  have e : F.mulVec m v = F.rowMul v (M3.transpose m) := by
    simp only [FloatArith.mulVec, FloatArith.rowMul, M3.transpose_m00, M3.transpose_m01, M3.transpose_m02,
      M3.transpose_m10, M3.transpose_m11, M3.transpose_m12, M3.transpose_m20, M3.transpose_m21, M3.transpose_m22,
      mul_comm v.x, mul_comm v.y, mul_comm v.z]
  have h := rowMul_err F v (SO3.transpose hm')
  have hact : act .mat m v = (M3.transpose (M3.transpose m)).mulVec v := by
    rw [act_eq_dmat]; rfl
  rw [e, hact]
  refine h.trans (mul_le_mul_of_nonneg_right ?_ (V3.norm_nonneg' v))
  have hu := F.u_nonneg
  have hu1 : F.u ≤ 1 / 10000000 := F.u_le.trans (by norm_num)
  have s3 : Real.sqrt 3 ≤ 1.8 := by rw [Real.sqrt_le_left (by norm_num)]; norm_num
  have g3 : (1 + F.u) ^ 3 - 1 ≤ 3.01 * F.u := by nlinarith [mul_nonneg hu hu]
  have g0 : 0 ≤ (1 + F.u) ^ 3 - 1 := by linarith [Err.one_le hu 3]
  unfold matMulErr
  have := mul_le_mul s3 g3 g0 (by norm_num)
  linarith

lemma row_history (F : FloatArith) (r : V3) (l : List M3) (hl : ∀ m ∈ l, IsSO3 m) :
    (l.foldl F.rowMul r - l.prod.transpose.mulVec r).norm ≤ ((1 + matMulErr F.u) ^ l.length - 1) * r.norm := by
  induction l generalizing r with
  | nil => simp [V3.norm, V3.normSq, V3.dot]
  | cons m l ih =>
    have hg := matMulErr_nonneg F.u_nonneg
    set g := matMulErr F.u with hgdef
    have hm : IsSO3 m := hl m (by simp)
    have hl' : ∀ m ∈ l, IsSO3 m := fun x hx => hl x (by simp [hx])
    have hP : IsSO3 l.prod := by
      clear ih
      induction l with
      | nil => exact SO3.one
      | cons a l ih =>
        rw [List.prod_cons]
        exact SO3.mul (hl' a (by simp)) (ih (fun x hx => hl x (by
          rcases List.mem_cons.mp hx with h | h
          · simp [h]
          · simp [h])) (fun x hx => hl' x (by simp [hx])))
    have h1 := ih (F.rowMul r m) hl'
    have h2 := rowMul_err F r hm
    rw [← hgdef] at h2
    set r' := F.rowMul r m
    have hr := V3.norm_nonneg' r
    have h3 : r'.norm ≤ (1 + g) * r.norm := by
      have := V3.norm_add_le (r' - m.transpose.mulVec r) (m.transpose.mulVec r)
      rw [sub_add_cancel, SO3.mulVec_norm (SO3.transpose hm)] at this
      linarith
    have h4 : (l.prod.transpose.mulVec (r' - m.transpose.mulVec r)).norm ≤ g * r.norm := by
      rw [SO3.mulVec_norm (SO3.transpose hP)]; exact h2
    have h5 : ((1 + g) ^ l.length - 1) * r'.norm ≤ ((1 + g) ^ l.length - 1) * ((1 + g) * r.norm) :=
      mul_le_mul_of_nonneg_left h3 (by linarith [Err.one_le hg l.length])
    have e : (m :: l).foldl F.rowMul r - (m :: l).prod.transpose.mulVec r =
        (l.foldl F.rowMul r' - l.prod.transpose.mulVec r') + l.prod.transpose.mulVec (r' - m.transpose.mulVec r) := by
      rw [List.foldl_cons, List.prod_cons, M3.transpose_mul, ← M3.mulVec_mulVec, M3.mulVec_sub]
      abel
    rw [e]
    refine (V3.norm_add_le _ _).trans ((add_le_add (h1.trans h5) h4).trans (le_of_eq ?_))
    rw [List.length_cons, pow_succ]; ring

lemma matHistory_rows (F : FloatArith) (acc : M3) (l : List M3) :
    (F.matHistory acc l).row0 = l.foldl F.rowMul acc.row0 ∧ (F.matHistory acc l).row1 = l.foldl F.rowMul acc.row1 ∧
      (F.matHistory acc l).row2 = l.foldl F.rowMul acc.row2 := by
  induction l generalizing acc with
  | nil => exact ⟨rfl, rfl, rfl⟩
  | cons m l ih => exact ih (F.matMul acc m)

lemma row_mul (a b : M3) : (a * b).row0 = b.transpose.mulVec a.row0 ∧ (a * b).row1 = b.transpose.mulVec a.row1 ∧
    (a * b).row2 = b.transpose.mulVec a.row2 := by
  refine ⟨?_, ?_, ?_⟩ <;> ext <;> simp [M3.row0, M3.row1, M3.row2] <;> ring

/-- **C56 (matrices).** The accumulated floating-point product of a history of rotation matrices: every row differs from the row
of the exact product by at most `(1+√3((1+u)³-1))ⁿ - 1`. -/
theorem C56_matrix_history_error (F : FloatArith) (acc : M3) (l : List M3) (hacc : Valid .mat acc)
    (hl : ∀ m ∈ l, Valid .mat m) :
    ((F.matHistory acc l).row0 - (acc * l.prod).row0).norm ≤ (1 + matMulErr F.u) ^ l.length - 1 ∧
    ((F.matHistory acc l).row1 - (acc * l.prod).row1).norm ≤ (1 + matMulErr F.u) ^ l.length - 1 ∧
    ((F.matHistory acc l).row2 - (acc * l.prod).row2).norm ≤ (1 + matMulErr F.u) ^ l.length - 1 := by
  have hacc' : IsSO3 acc := dmat_isSO3 .mat acc hacc
  have hl' : ∀ m ∈ l, IsSO3 m := fun m hm => dmat_isSO3 .mat m (hl m hm)
  obtain ⟨e0, e1, e2⟩ := matHistory_rows F acc l
  obtain ⟨f0, f1, f2⟩ := row_mul acc l.prod
  have n : acc.row0.norm = 1 ∧ acc.row1.norm = 1 ∧ acc.row2.norm = 1 := by
    have h := hacc'.1
    simp only [V3.norm_eq_one_iff]
    have h0 := congrArg M3.m00 h; have h1 := congrArg M3.m11 h; have h2 := congrArg M3.m22 h
    simp at h0 h1 h2
    exact ⟨h0, h1, h2⟩
  have k0 := row_history F acc.row0 l hl'
  have k1 := row_history F acc.row1 l hl'
  have k2 := row_history F acc.row2 l hl'
  rw [n.1, mul_one] at k0
  rw [n.2.1, mul_one] at k1
  rw [n.2.2, mul_one] at k2
  rw [e0, e1, e2, f0, f1, f2]
  exact ⟨k0, k1, k2⟩

lemma det_rows (m : M3) : m.det = m.row0.dot (m.row1.cross m.row2) := by
  simp [M3.det, M3.row0, M3.row1, M3.row2, V3.dot, V3.cross]; ring

lemma dot_diff {a b a' b' : V3} {d : ℝ} (hd : 0 ≤ d) (ha : (a' - a).norm ≤ d) (hb : (b' - b).norm ≤ d) (h1 : a.norm = 1)
    (h2 : b.norm = 1) : |a'.dot b' - a.dot b| ≤ 2 * d + d ^ 2 := by
  have e : a'.dot b' - a.dot b = (a' - a).dot b + a.dot (b' - b) + (a' - a).dot (b' - b) := by
    simp [V3.dot]; ring
  have k1 := V3.dot_abs_le (a' - a) b
  have k2 := V3.dot_abs_le a (b' - b)
  have k3 := V3.dot_abs_le (a' - a) (b' - b)
  have k4 : (a' - a).norm * (b' - b).norm ≤ d * d := mul_le_mul ha hb (V3.norm_nonneg' _) hd
  rw [h2, mul_one] at k1
  rw [h1, one_mul] at k2
  rw [e]
  have := abs_add_le ((a' - a).dot b + a.dot (b' - b)) ((a' - a).dot (b' - b))
  have := abs_add_le ((a' - a).dot b) (a.dot (b' - b))
  nlinarith

lemma cross_diff {a b a' b' : V3} {d : ℝ} (hd : 0 ≤ d) (ha : (a' - a).norm ≤ d) (hb : (b' - b).norm ≤ d) (h1 : a.norm = 1)
    (h2 : b.norm = 1) : (a'.cross b' - a.cross b).norm ≤ 2 * d + d ^ 2 := by
  have e : a'.cross b' - a.cross b = (a' - a).cross b + a.cross (b' - b) + (a' - a).cross (b' - b) := by
    ext <;> simp [V3.cross] <;> ring
  have k1 := V3.norm_cross_le (a' - a) b
  have k2 := V3.norm_cross_le a (b' - b)
  have k3 := V3.norm_cross_le (a' - a) (b' - b)
  have k4 : (a' - a).norm * (b' - b).norm ≤ d * d := mul_le_mul ha hb (V3.norm_nonneg' _) hd
  rw [h2, mul_one] at k1
  rw [h1, one_mul] at k2
  rw [e]
  have := V3.norm_add_le ((a' - a).cross b + a.cross (b' - b)) ((a' - a).cross (b' - b))
  have := V3.norm_add_le ((a' - a).cross b) (a.cross (b' - b))
  nlinarith

/-- A matrix whose rows are within `3e-7` of those of a rotation passes the debug-mode constructor. -/
lemma matCtorDbg_of_rows {A R : M3} (hS : IsSO3 R) {d : ℝ} (hdle : d ≤ 3e-7) (hd0 : 0 ≤ d)
    (h0 : (A.row0 - R.row0).norm ≤ d) (h1 : (A.row1 - R.row1).norm ≤ d) (h2 : (A.row2 - R.row2).norm ≤ d) :
    matCtorDbg A = .ok A := by
  have hR := hS.1
  have r00 := congrArg M3.m00 hR; have r11 := congrArg M3.m11 hR; have r22 := congrArg M3.m22 hR
  have r01 := congrArg M3.m01 hR; have r02 := congrArg M3.m02 hR; have r12 := congrArg M3.m12 hR
  have n0 : R.row0.norm = 1 := by rw [V3.norm_eq_one_iff]; exact r00
  have n1 : R.row1.norm = 1 := by rw [V3.norm_eq_one_iff]; exact r11
  have n2 : R.row2.norm = 1 := by rw [V3.norm_eq_one_iff]; exact r22
  have hsq : 2 * d + d ^ 2 ≤ 7e-7 := by norm_num at hdle ⊢; nlinarith
  have g00 := (dot_diff hd0 h0 h0 n0 n0).trans hsq
  have g11 := (dot_diff hd0 h1 h1 n1 n1).trans hsq
  have g22 := (dot_diff hd0 h2 h2 n2 n2).trans hsq
  have g01 := (dot_diff hd0 h0 h1 n0 n1).trans hsq
  have g02 := (dot_diff hd0 h0 h2 n0 n2).trans hsq
  have g12 := (dot_diff hd0 h1 h2 n1 n2).trans hsq
  have e00 : R.row0.dot R.row0 = 1 := r00
  have e11 : R.row1.dot R.row1 = 1 := r11
  have e22 : R.row2.dot R.row2 = 1 := r22
  have e01 : R.row0.dot R.row1 = 0 := r01
  have e02 : R.row0.dot R.row2 = 0 := r02
  have e12 : R.row1.dot R.row2 = 0 := r12
  rw [e00] at g00; rw [e11] at g11; rw [e22] at g22
  rw [e01, sub_zero] at g01; rw [e02, sub_zero] at g02; rw [e12, sub_zero] at g12
  have hm : ∀ x : ℝ, (1 : ℝ) ≤ max |x| 1 := fun x => le_max_right _ _
  have dg : ∀ x : ℝ, |x - 1| ≤ 1e-6 → |x - 1| ≤ 1 / 10 ^ 6 * max |x| 1 := fun x hx => by
    have := hm x; norm_num at hx ⊢; linarith
  rw [matCtorDbg_iff]
  refine ⟨⟨dg _ (g00.trans (by norm_num)), dg _ (g11.trans (by norm_num)), dg _ (g22.trans (by norm_num))⟩,
    ⟨lt_of_le_of_lt g01 (by norm_num), lt_of_le_of_lt g02 (by norm_num), lt_of_le_of_lt g12 (by norm_num)⟩, dg _ ?_⟩
  -- determinant
  have hdet : R.det = 1 := hS.2
  rw [det_rows] at hdet ⊢
  have c := cross_diff hd0 h1 h2 n1 n2
  set X := R.row1.cross R.row2
  set X' := A.row1.cross A.row2
  have nX : X.norm ≤ 1 := by
    have := V3.norm_cross_le R.row1 R.row2; rwa [n1, n2, mul_one] at this
  have e : A.row0.dot X' - 1 = (A.row0 - R.row0).dot X + R.row0.dot (X' - X) + (A.row0 - R.row0).dot (X' - X) := by
    rw [← hdet]; simp [V3.dot]; ring
  have k1 := V3.dot_abs_le (A.row0 - R.row0) X
  have k2 := V3.dot_abs_le R.row0 (X' - X)
  have k3 := V3.dot_abs_le (A.row0 - R.row0) (X' - X)
  have k4 : (A.row0 - R.row0).norm * X.norm ≤ d * 1 := mul_le_mul h0 nX (V3.norm_nonneg' _) hd0
  have k5 : (A.row0 - R.row0).norm * (X' - X).norm ≤ d * (2 * d + d ^ 2) := mul_le_mul h0 c (V3.norm_nonneg' _) hd0
  rw [n0, one_mul] at k2
  rw [e]
  have l1 := abs_add_le ((A.row0 - R.row0).dot X + R.row0.dot (X' - X)) ((A.row0 - R.row0).dot (X' - X))
  have l2 := abs_add_le ((A.row0 - R.row0).dot X) (R.row0.dot (X' - X))
  have l3 : d * (2 * d + d ^ 2) ≤ d * 7e-7 := mul_le_mul_of_nonneg_left hsq hd0
  have l4 : d ^ 2 ≤ 3e-7 * d := by rw [sq]; exact mul_le_mul_of_nonneg_right hdle hd0
  norm_num at hdle l3 l4 ⊢
  linarith

/-- **C56 (matrices, debug builds).** As long as `n u ≤ 5e-8` (four hundred million products in `double`) the accumulated matrix
passes the unitarity and determinant checks of the debug-mode constructor. -/
theorem C56_matrix_history_accepted (F : FloatArith) (acc : M3) (l : List M3) (hacc : Valid .mat acc)
    (hl : ∀ m ∈ l, Valid .mat m) (hn : l.length * F.u ≤ 5e-8) :
    matCtorDbg (F.matHistory acc l) = .ok (F.matHistory acc l) := by
  obtain ⟨h0, h1, h2⟩ := C56_matrix_history_error F acc l hacc hl
  have hS : IsSO3 (acc * l.prod) := by
    have hP : IsSO3 l.prod := by
      clear h0 h1 h2 hn
      induction l with
      | nil => exact SO3.one
      | cons a l ih =>
        rw [List.prod_cons]
        exact SO3.mul (dmat_isSO3 .mat a (hl a (by simp))) (ih (fun x hx => hl x (by simp [hx])))
    exact SO3.mul (dmat_isSO3 .mat acc hacc) hP
  set R := acc * l.prod
  set A := F.matHistory acc l
  have hu := F.u_nonneg
  have hu1 : F.u ≤ 1 / 10000000 := F.u_le.trans (by norm_num)
  have hg := matMulErr_nonneg hu
  have hgle : matMulErr F.u ≤ 5.5 * F.u := by
    have s3 : Real.sqrt 3 ≤ 1.8 := by rw [Real.sqrt_le_left (by norm_num)]; norm_num
    have g3 : (1 + F.u) ^ 3 - 1 ≤ 3.01 * F.u := by nlinarith [mul_nonneg hu hu]
    have g0 : 0 ≤ (1 + F.u) ^ 3 - 1 := by linarith [Err.one_le hu 3]
    unfold matMulErr
    have := mul_le_mul s3 g3 g0 (by norm_num)
    linarith
  have hb : (l.length : ℝ) * matMulErr F.u ≤ 2.8e-7 := by
    have h1 := mul_le_mul_of_nonneg_left hgle (Nat.cast_nonneg l.length (α := ℝ))
    have h2 := mul_le_mul_of_nonneg_left hn (by norm_num : (0 : ℝ) ≤ 5.5)
    norm_num at h2 ⊢
    linarith
  have hd := pow_sub_one_le hg hb (by norm_num)
  obtain ⟨d, hdle, hd0, hdef⟩ : ∃ d : ℝ, d ≤ 3e-7 ∧ 0 ≤ d ∧ (1 + matMulErr F.u) ^ l.length - 1 = d :=
    ⟨_, hd.trans (by norm_num), by linarith [Err.one_le hg l.length], rfl⟩
  rw [hdef] at h0 h1 h2
  clear hd hdef hb
  exact matCtorDbg_of_rows hS hdle hd0 h0 h1 h2

/-! ## Non-vacuity -/

/-- The rotation `(3/5, 0, 0, 4/5)` about z: a thousand rounded products in `double`. -/
example : Valid .quat (⟨3 / 5, 0, 0, 4 / 5⟩ : Quat) ∧
    |(FloatArith.double.quatHistory ⟨3 / 5, 0, 0, 4 / 5⟩ (List.replicate 1000 ⟨3 / 5, 0, 0, 4 / 5⟩)).norm - 1| ≤ 1 / 10 ^ 4 := by
  have hv : Valid .quat (⟨3 / 5, 0, 0, 4 / 5⟩ : Quat) := by
    rw [valid_quat_iff, Quat.normSq]; norm_num
  refine ⟨hv, (C56_double_float _ _ hv ?_).1 ?_⟩
  · intro q hq; rw [List.eq_of_mem_replicate hq]; exact hv
  · rw [List.length_replicate]; norm_num

/-- A million rounded products of the same rotation matrix. -/
example (m : M3) (hm : Valid .mat m) :
    matCtorDbg (FloatArith.double.matHistory m (List.replicate 1000000 m)) =
      .ok (FloatArith.double.matHistory m (List.replicate 1000000 m)) := by
  refine C56_matrix_history_accepted _ _ _ hm ?_ ?_
  · intro q hq; rw [List.eq_of_mem_replicate hq]; exact hm
  · rw [List.length_replicate]; simp only [FloatArith.double]; norm_num

/-- The rounding of `double` is not the identity, so the model is not exact arithmetic in disguise. -/
example : FloatArith.exact.fl (1 / 3) ≠ FloatArith.double.fl (1 / 3) := by
  intro h
  have hlog : Int.log 2 |(1 / 3 : ℝ)| = -2 := by
    rw [abs_of_pos (by norm_num)]
    apply le_antisymm
    · have : (1 / 3 : ℝ) < ((2 : ℕ) : ℝ) ^ (-1 : ℤ) := by norm_num
      have := (Int.lt_zpow_iff_log_lt (b := 2) (by norm_num) (by norm_num : (0 : ℝ) < 1 / 3)).mp this
      omega
    · have : ((2 : ℕ) : ℝ) ^ (-2 : ℤ) ≤ (1 / 3 : ℝ) := by norm_num
      exact (Int.zpow_le_iff_le_log (b := 2) (by norm_num) (by norm_num : (0 : ℝ) < 1 / 3)).mp this
  simp only [FloatArith.exact, FloatArith.double, roundBinary, id, hlog] at h
  have h3 : ((3 * round ((1 / 3 : ℝ) / 2 ^ (-2 - ((53 : ℕ) - 1 : ℤ))) : ℤ) : ℝ) = (2 ^ 54 : ℤ) := by
    have e : ((2 : ℝ) ^ (-2 - ((53 : ℕ) - 1 : ℤ))) = 1 / 2 ^ 54 := by norm_num
    rw [e] at h ⊢
    push_cast
    field_simp at h
    linarith
  have h4 : 3 * round ((1 / 3 : ℝ) / 2 ^ (-2 - ((53 : ℕ) - 1 : ℤ))) = 2 ^ 54 := by exact_mod_cast h3
  omega

end Kindr
