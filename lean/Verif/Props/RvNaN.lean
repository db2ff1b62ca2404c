import Verif.Props.SpecialFinite
import Verif.Props.Accepted
import Verif.Props.Vector

/-!
# C84: when `RotationVector(q)` is NaN
-/

set_option autoImplicit false

open Classical

noncomputable section
namespace Kindr
open Spec

local notation "𝔼" => XArith.exact

/-- All three coefficients are NaN. -/
private lemma smulV_nan (A : XArith) (v : XV3) : A.smulV .nan v = ⟨.nan, .nan, .nan⟩ := by
  simp [XArith.smulV, XArith.mul]

lemma norm3_zero (A : XArith) : A.norm3 ⟨.fin 0, .fin 0, .fin 0⟩ = .fin 0 := by
  simp [XArith.norm3, XArith.normSq3, XArith.mul, XArith.add, XArith.sqrt, A.rnd_zero]

/-- **C84, every arithmetic.** In every arithmetic (any rounding mode, any overflow behaviour): if the vector part of a quaternion
is exactly zero and the computed `1 - w*w` is not below the threshold, all three coefficients of `RotationVector(q)` are NaN
(the code divides by the length zero).  `logarithmicMap()` of the same quaternion is nevertheless the zero vector, because
`getUnique()` turns NaN into the identity. -/
theorem C84_division_by_zero (A : XArith) (P : Prec) (w : ℝ)
    (h : ¬ (A.sub (.fin 1) (A.mul (.fin w) (.fin w))).lt (.fin P.dp)) :
    A.rvOf P .quat (⟨.fin w, .fin 0, .fin 0, .fin 0⟩ : XQuat) = ⟨.nan, .nan, .nan⟩ ∧
    A.logarithmicMap P .quat (⟨.fin w, .fin 0, .fin 0, .fin 0⟩ : XQuat) = zero3 := by
  have key : A.rvOfQuat P (⟨.fin w, .fin 0, .fin 0, .fin 0⟩ : XQuat) = ⟨.nan, .nan, .nan⟩ := by
    unfold XArith.rvOfQuat
    rw [if_neg h]
    simp only [XQuat.vec, norm3_zero]
    generalize ha : A.mul (.fin 2) (A.atan2 (.fin 0) (.fin w)) = a
    cases a with
    | fin x =>
      by_cases hx : x = 0
      · simp [XArith.div, hx, XArith.smulV, XArith.mul]
      · simp [XArith.div, hx, XArith.smulV, XArith.mul]
    | inf b => simp [XArith.div, XArith.smulV, XArith.mul]
    | nan => simp [XArith.div, XArith.smulV, XArith.mul]
  refine ⟨key, ?_⟩
  change A.rvGetUnique P (A.rvOfQuat P _) = zero3
  rw [key]
  exact rvGetUnique_nf (nf_of_nan (Or.inl rfl))

/-- **C84, exact characterization.** In exact arithmetic `RotationVector(q)` is finite if and only if the vector part is nonzero or
`1 - w²` is below the threshold, and then it is the value of the real-number model. -/
theorem C84_quaternion (P : Prec) (q : Quat) :
    (¬ NonFinite3 ((𝔼).rvOf P .quat (embQ q)) ↔ RvComputable P .quat q) ∧
    (RvComputable P .quat q → (𝔼).rvOf P .quat (embQ q) = emb3 (rvOfQuat P q).v) := by
  have key : RvComputable P .quat q → (𝔼).rvOfQuat P (embQ q) = emb3 (rvOfQuat P q).v := by
    intro h
    unfold XArith.rvOfQuat rvOfQuat
    have e : (embQ q).w = .fin q.w := rfl
    simp only [embQ_vec, e, exact_mul, exact_sub, fin_lt, gt_iff_lt, exact_norm3, exact_smulV, exact_atan2]
    split_ifs with h1 h2
    · rfl
    · rfl
    · have hn : q.vec.norm ≠ 0 := by
        rcases h with h | h
        · exact (V3.norm_pos h).ne'
        · exact absurd h h1
      rw [exact_div hn, exact_smulV]
  refine ⟨⟨fun hf => ?_, fun h => ?_⟩, key⟩
  · by_contra hc
    simp only [RvComputable] at hc
    push Not at hc
    obtain ⟨h0, h1⟩ := hc
    have e : embQ q = ⟨.fin q.w, .fin 0, .fin 0, .fin 0⟩ := by
      have hx : q.x = 0 := congrArg V3.x h0
      have hy : q.y = 0 := congrArg V3.y h0
      have hz : q.z = 0 := congrArg V3.z h0
      simp [embQ, hx, hy, hz]
    apply hf
    rw [e, (C84_division_by_zero (𝔼) P q.w (by simp only [exact_mul, exact_sub, fin_lt]; linarith)).1]
    exact nf_of_nan (Or.inl rfl)
  · change ¬ NonFinite3 ((𝔼).rvOfQuat P (embQ q))
    rw [key h]
    simp [NonFinite3, emb3, XR.IsFinite]

/-- **C84, matrices.** The same for `RotationVector(R)`, which converts to a quaternion first. -/
theorem C84_matrix (P : Prec) (m : M3) :
    (¬ NonFinite3 ((𝔼).rvOf P .mat (embM m)) ↔ RvComputable P .mat m) ∧
    (RvComputable P .mat m → (𝔼).rvOf P .mat (embM m) = emb3 (rvOfMat P m).v) := by
  have h := C84_quaternion P (Quat.ofMatrix m)
  have e : (𝔼).rvOf P .mat (embM m) = (𝔼).rvOf P .quat (embQ (Quat.ofMatrix m)) := by
    change (𝔼).rvOfQuat P ((𝔼).quatOfMat (embM m)) = _
    rw [exact_quatOfMat]; rfl
  rw [e]
  exact h

/-- **C84, sufficient condition.** A quaternion whose norm differs from one by at most a third of the threshold has a rotation
vector; in particular every quaternion that is exactly a rotation, and every rotation matrix. -/
theorem C84_safe (P : Prec) (q : Quat) (h : |q.norm - 1| ≤ P.dp / 3) : RvComputable P .quat q := by
  by_cases h0 : q.vec = 0
  · right
    have hx : q.x = 0 := congrArg V3.x h0
    have hy : q.y = 0 := congrArg V3.y h0
    have hz : q.z = 0 := congrArg V3.z h0
    have e : q.norm ^ 2 = q.w * q.w := by
      rw [Quat.norm, Real.sq_sqrt (Quat.normSq_nonneg _), Quat.normSq, hx, hy, hz]; ring
    have hdp := P.dp_pos
    have hdp' := P.dp_le
    obtain ⟨h1, -⟩ := abs_le.mp h
    change 1 - q.w * q.w < P.dp
    rw [← e]
    nlinarith
  · exact Or.inl h0

/-- **C84, accepted but not convertible.** The debug-mode constructor accepts the quaternion `(c, 0, 0, 0)` for all `c` within
`1e-4` of one, and the matrix `c * Identity` for `c` within `3e-7` of one; but whenever `c² ≤ 1 - dp` (matrix: `c ≤ 1 - 4/3 dp`)
the conversion to `RotationVector` returns NaN. -/
theorem C84_accepted_nan (P : Prec) (c : ℝ) :
    (1 - 1 / 10 ^ 4 ≤ c → c * c ≤ 1 - P.dp →
      (𝔼).quatCtorDbg (embQ ⟨c, 0, 0, 0⟩) = .ok (embQ ⟨c, 0, 0, 0⟩) ∧
      (𝔼).rvOf P .quat (embQ ⟨c, 0, 0, 0⟩) = ⟨.nan, .nan, .nan⟩) ∧
    (1 - 3 / 10 ^ 7 ≤ c → c ≤ 1 - 4 / 3 * P.dp →
      let m : M3 := ⟨c, 0, 0, 0, c, 0, 0, 0, c⟩
      matCtorDbg m = .ok m ∧ (𝔼).rvOf P .mat (embM m) = ⟨.nan, .nan, .nan⟩) := by
  have hdp := P.dp_pos
  constructor
  · intro h1 h2
    constructor
    · rw [(C71_finite_agrees 0 0 0 ⟨c, 0, 0, 0⟩ ⟨0, 0⟩ 0).2.1, (C26_quaternion_ctor _).1]
      have : (⟨c, 0, 0, 0⟩ : Quat).norm = c := by
        rw [Quat.norm, Quat.normSq, show (c * c + 0 * 0 + 0 * 0 + 0 * 0 : ℝ) = c ^ 2 by ring, Real.sqrt_sq (by linarith)]
      have hc : c ≤ 1 := by nlinarith
      rw [this, max_eq_right hc, abs_of_nonpos (by linarith)]
      norm_num at h1 ⊢
      linarith
    · exact (C84_division_by_zero (𝔼) P c (by simp only [exact_mul, exact_sub, fin_lt]; linarith)).1
  · intro h1 h2 m
    have hc : c ≤ 1 := by linarith
    constructor
    · have c2 : 1 - 6 / 10 ^ 7 ≤ c * c := by nlinarith
      have c3 : 1 - 9 / 10 ^ 7 ≤ c * (c * c) := by nlinarith
      have c2' : c * c ≤ 1 := by nlinarith
      have c3' : c * (c * c) ≤ 1 := by nlinarith
      rw [matCtorDbg_iff]
      simp only [m, M3.mul_m00, M3.mul_m01, M3.mul_m02, M3.mul_m11, M3.mul_m12, M3.mul_m22, M3.transpose, M3.det]
      norm_num at c2 c3
      norm_num
      constructor
      · rw [max_eq_right c2', abs_of_nonpos (by linarith)]; linarith
      · rw [abs_of_nonneg (by linarith : (0 : ℝ) ≤ c), max_eq_right c3', abs_of_nonpos (by linarith)]; linarith
    · have e : (𝔼).rvOf P .mat (embM m) = (𝔼).rvOf P .quat (embQ (Quat.ofMatrix m)) := by
        change (𝔼).rvOfQuat P ((𝔼).quatOfMat (embM m)) = _
        rw [exact_quatOfMat]; rfl
      have q : Quat.ofMatrix m = ⟨Real.sqrt (3 * c + 1) / 2, 0, 0, 0⟩ := by
        have ht : m.trace > 0 := by simp only [m, M3.trace]; linarith
        simp only [Quat.ofMatrix, ht, if_true]
        simp only [m, M3.trace]
        ext <;> simp
        congr 1; ring
      rw [e, q]
      refine (C84_division_by_zero (𝔼) P _ ?_).1
      simp only [exact_mul, exact_sub, fin_lt]
      have : Real.sqrt (3 * c + 1) / 2 * (Real.sqrt (3 * c + 1) / 2) = (3 * c + 1) / 4 := by
        rw [div_mul_div_comm, Real.mul_self_sqrt (by linarith)]; norm_num
      rw [this]; linarith

/-- **C84, `boxMinus` of a value with itself.** For every quaternion, normalized or not, `q.boxMinus(q)` is zero: either
the regular result, or NaN turned into zero by `getUnique()`. -/
theorem C84_boxMinus_self (P : Prec) (q : Quat) : (𝔼).boxMinusQuat P (embQ q) (embQ q) = zero3 := by
  have e : (𝔼).quatMul (embQ q) (XArith.quatInverted (embQ q)) = ⟨.fin q.normSq, .fin 0, .fin 0, .fin 0⟩ := by
    simp only [XArith.quatMul, XArith.quatInverted, embQ, exact_mul, exact_sub, exact_add, fin_neg, Quat.normSq]
    congr 2 <;> ring
  unfold XArith.boxMinusQuat
  rw [e]
  by_cases h : ((𝔼).sub (.fin 1) ((𝔼).mul (.fin q.normSq) (.fin q.normSq))).lt (.fin P.dp)
  · change (𝔼).rvGetUnique P ((𝔼).rvOfQuat P _) = zero3
    have e2 : (𝔼).rvOfQuat P ⟨.fin q.normSq, .fin 0, .fin 0, .fin 0⟩ = emb3 0 := by
      unfold XArith.rvOfQuat
      rw [if_pos h]
      have : (XQuat.vec ⟨.fin q.normSq, .fin 0, .fin 0, .fin 0⟩) = emb3 0 := rfl
      split_ifs <;> simp only [this, exact_smulV, smul_zero]
    rw [e2]
    have := exact_rvGetUnique P ⟨0⟩
    rw [this, rvGetUnique_small (by simpa using P.dp_pos)]
    rfl
  · exact (C84_division_by_zero (𝔼) P _ h).2

/-! ## C38: projecting on the zero vector -/

lemma dotN_zero (A : XArith) {n : ℕ} (a : Fin n → ℝ) : A.dotN (fun i => .fin (a i)) (fun _ => .fin 0) = .fin 0 := by
  unfold XArith.dotN
  generalize List.finRange n = l
  induction l with
  | nil => rfl
  | cons i l ih => simpa [XArith.add, XArith.mul, A.rnd_zero] using ih

/-- C38: projecting a finite vector of any dimension on the zero vector gives NaN in every coefficient, in every arithmetic. -/
theorem C38_projectOn_zero_nan (A : XArith) {n : ℕ} (a : Fin n → ℝ) (i : Fin n) :
    A.projectOn (fun j => .fin (a j)) (fun _ => .fin 0) i = .nan := by
  have h := dotN_zero A (n := n) (fun _ => 0)
  simp [XArith.projectOn, dotN_zero, h, XArith.div, XArith.mul]

/-- C38: on a nonzero vector the special-value model is the real-number model. -/
theorem C38_projectOn_finite {t : PhysicalType} {n : ℕ} (a b : Vec t n) (hb : b ≠ Vec.Zero) (i : Fin n) :
    XArith.exact.projectOn (fun j => .fin (a.coeff j)) (fun j => .fin (b.coeff j)) i = .fin ((a.projectOn b).coeff i) := by
  have hd : ∀ c d : Fin n → ℝ, XArith.exact.dotN (fun j => .fin (c j)) (fun j => .fin (d j)) = .fin (∑ j, c j * d j) := by
    intro c d
    have key : ∀ (l : List (Fin n)) (s : ℝ), l.foldl (fun s i => XArith.exact.add s (XArith.exact.mul (.fin (c i)) (.fin (d i)))) (XR.fin s) =
        .fin (s + (l.map fun i => c i * d i).sum) := by
      intro l
      induction l with
      | nil => intro s; simp
      | cons j l ih => intro s; rw [List.foldl_cons, exact_mul, exact_add, ih, List.map_cons, List.sum_cons, add_assoc]
    rw [XArith.dotN, key, zero_add, Fin.sum_univ_def]
  have h0 : b.squaredNorm ≠ 0 := fun h => hb ((C37_norm_laws b b 1).2.2.2.2.1.1 (by rw [Vec.norm, h, Real.sqrt_zero]))
  have e : b.squaredNorm = ∑ j, b.coeff j * b.coeff j := rfl
  simp only [XArith.projectOn, hd, ← e, exact_div h0, exact_mul]
  rfl

/-! ## Non-vacuity: accepted values without a rotation vector, for `double` -/

example : let q : Quat := ⟨1 - 1 / 10 ^ 5, 0, 0, 0⟩
    (𝔼).quatCtorDbg (embQ q) = .ok (embQ q) ∧ (𝔼).rvOf Prec.double .quat (embQ q) = ⟨.nan, .nan, .nan⟩ :=
  (C84_accepted_nan Prec.double (1 - 1 / 10 ^ 5)).1 (by norm_num) (by norm_num [Prec.double])

example : let m : M3 := ⟨1 - 1 / 10 ^ 7, 0, 0, 0, 1 - 1 / 10 ^ 7, 0, 0, 0, 1 - 1 / 10 ^ 7⟩
    matCtorDbg m = .ok m ∧ (𝔼).rvOf Prec.double .mat (embM m) = ⟨.nan, .nan, .nan⟩ :=
  (C84_accepted_nan Prec.double (1 - 1 / 10 ^ 7)).2 (by norm_num) (by norm_num [Prec.double])

example : RvComputable Prec.double .quat ⟨0.6, 0.8, 0, 0⟩ ∧ RvComputable Prec.double .quat ⟨1, 0, 0, 0⟩ :=
  ⟨Or.inl fun h => by have := congrArg V3.x h; norm_num [Quat.vec] at this, Or.inr (by norm_num [Prec.double])⟩

end Kindr
