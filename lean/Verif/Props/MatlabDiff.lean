import Mathlib.Analysis.Calculus.MeanValue
import Mathlib.Analysis.Calculus.Deriv.Pow
import Mathlib.Analysis.Calculus.Deriv.Comp
import Mathlib.Analysis.Calculus.FDeriv.Pi
import Mathlib.Analysis.Calculus.Deriv.Prod
import Mathlib.Analysis.SpecialFunctions.Trigonometric.Deriv
import Mathlib.Analysis.Calculus.Deriv.Pi
import Verif.Model.Matlab

/-!
# C68: differentiation helpers of the Matlab library

`numerical_jacobian` (finite differences) and `getTimeDerivative` / `dMATdt` (chain rule).
-/

set_option autoImplicit false

noncomputable section
namespace Kindr.Matlab
open Kindr

lemma add_update_zero {n : ℕ} (x : Fin n → ℝ) (k : Fin n) (d : ℝ) :
    x + Function.update (fun _ => (0 : ℝ)) k d = Function.update x k (x k + d) := by
  ext i; by_cases h : i = k
  · subst h; simp
  · simp [Function.update_of_ne h]

lemma sub_update_zero {n : ℕ} (x : Fin n → ℝ) (k : Fin n) (d : ℝ) :
    x - Function.update (fun _ => (0 : ℝ)) k d = Function.update x k (x k - d) := by
  ext i; by_cases h : i = k
  · subst h; simp
  · simp [Function.update_of_ne h]

/-- The loop invariant of `numerical_jacobian`: after each pass the perturbation is back to zero and the columns visited so far
are central differences. -/
lemma numericalJacobian_fold {m n : ℕ} (f : (Fin n → ℝ) → Fin m → ℝ) (x0 : Fin n → ℝ) (d : ℝ) (l : List (Fin n))
    (J : Fin m → Fin n → ℝ) :
    l.foldl (numericalJacobianStep f x0 d) (fun _ => 0, J) = (fun _ => 0, fun i k => if k ∈ l then
      (f (Function.update x0 k (x0 k + d)) i - f (Function.update x0 k (x0 k - d)) i) / (2 * d) else J i k) := by
  induction l generalizing J with
  | nil => simp
  | cons a l ih =>
    have e0 : Function.update (Function.update (fun _ => (0 : ℝ)) a d) a 0 = fun _ => (0 : ℝ) := by
      ext i; by_cases h : i = a
      · subst h; simp
      · simp [Function.update_of_ne h]
    rw [List.foldl_cons]
    simp only [numericalJacobianStep]
    rw [e0, ih]
    refine Prod.ext rfl ?_
    funext i k
    simp only [add_update_zero, sub_update_zero, List.mem_cons]
    by_cases h : k ∈ l
    · simp [h]
    · by_cases h2 : k = a
      · subst h2; simp [h]
      · simp [h, h2]

/-- **C68 (a).** `numerical_jacobian` returns exactly the matrix of central differences: entry `(i, k)` compares the `i`-th
output at the point whose `k`-th coordinate only is moved by `+delta` and by `-delta`. -/
theorem C68_central_differences {m n : ℕ} (fcn : ℝ → (Fin n → ℝ) → Fin m → ℝ) (t0 : ℝ) (x0 : Fin n → ℝ) (delta : ℝ)
    (i : Fin m) (k : Fin n) :
    numericalJacobian fcn t0 x0 delta i k =
      (fcn t0 (Function.update x0 k (x0 k + delta)) i - fcn t0 (Function.update x0 k (x0 k - delta)) i) / (2 * delta) := by
  rw [numericalJacobian, numericalJacobian_fold]
  simp

/-- **C68 (b).** If the `i`-th output is a polynomial of degree at most two in the `k`-th coordinate, the entry is the exact
partial derivative, for every non-zero step. -/
theorem C68_exact_for_quadratics {m n : ℕ} (fcn : ℝ → (Fin n → ℝ) → Fin m → ℝ) (t0 : ℝ) (x0 : Fin n → ℝ) (delta : ℝ)
    (hd : delta ≠ 0) (i : Fin m) (k : Fin n) (a b c : ℝ)
    (hf : ∀ s, fcn t0 (Function.update x0 k s) i = a + b * s + c * s ^ 2) :
    HasDerivAt (fun s => fcn t0 (Function.update x0 k s) i) (numericalJacobian fcn t0 x0 delta i k) (x0 k) := by
  rw [C68_central_differences, funext hf, hf, hf]
  have h1 := ((hasDerivAt_id (x0 k)).const_mul b).const_add a
  have h2 := ((hasDerivAt_id (x0 k)).pow 2).const_mul c
  refine (h1.add h2).congr_deriv ?_
  simp only [id]
  field_simp
  push_cast
  ring

/-- Second order: a function with vanishing value at 0, whose derivative is bounded by `c s^2`, is bounded by `c s^3 / 3`. -/
lemma bound_step {φ φ' B B' : ℝ → ℝ} {d : ℝ} (h0 : φ 0 = 0) (hB0 : B 0 = 0)
    (hφ : ∀ s ∈ Set.Icc (0 : ℝ) d, HasDerivAt φ (φ' s) s) (hB : ∀ s, HasDerivAt B (B' s) s)
    (hb : ∀ s ∈ Set.Icc (0 : ℝ) d, |φ' s| ≤ B' s) : ∀ s ∈ Set.Icc (0 : ℝ) d, |φ s| ≤ B s := by
  intro s hs
  have := image_norm_le_of_norm_deriv_right_le_deriv_boundary (f := φ) (f' := φ') (a := 0) (b := d) (B := B) (B' := B')
    (fun x hx => (hφ x hx).continuousAt.continuousWithinAt)
    (fun x hx => (hφ x ⟨hx.1, hx.2.le⟩).hasDerivWithinAt) (by rw [h0, hB0, norm_zero]) hB
    (fun x hx => by rw [Real.norm_eq_abs]; exact hb x ⟨hx.1, hx.2.le⟩) hs
  rwa [Real.norm_eq_abs] at this

/-- **C68 (c).** Accuracy: if the `i`-th output is three times differentiable in the `k`-th coordinate within `delta` of the point,
with third derivative bounded by `M`, the entry differs from the partial derivative by at most `M delta^2 / 6`. -/
theorem C68_accuracy {m n : ℕ} (fcn : ℝ → (Fin n → ℝ) → Fin m → ℝ) (t0 : ℝ) (x0 : Fin n → ℝ) (delta : ℝ) (hd : 0 < delta)
    (i : Fin m) (k : Fin n) (g1 g2 g3 : ℝ → ℝ) (M : ℝ)
    (h1 : ∀ s, |s - x0 k| ≤ delta → HasDerivAt (fun s => fcn t0 (Function.update x0 k s) i) (g1 s) s)
    (h2 : ∀ s, |s - x0 k| ≤ delta → HasDerivAt g1 (g2 s) s)
    (h3 : ∀ s, |s - x0 k| ≤ delta → HasDerivAt g2 (g3 s) s)
    (hM : ∀ s, |s - x0 k| ≤ delta → |g3 s| ≤ M) :
    |numericalJacobian fcn t0 x0 delta i k - g1 (x0 k)| ≤ M * delta ^ 2 / 6 := by
  rw [C68_central_differences]
  set x := x0 k
  set g : ℝ → ℝ := fun s => fcn t0 (Function.update x0 k s) i with hg
  have near1 : ∀ {s}, s ∈ Set.Icc (0 : ℝ) delta → |x + s - x| ≤ delta := fun hs => by
    rw [add_sub_cancel_left, abs_of_nonneg hs.1]; exact hs.2
  have near2 : ∀ {s}, s ∈ Set.Icc (0 : ℝ) delta → |x - s - x| ≤ delta := fun {s} hs => by
    rw [show x - s - x = -s by ring, abs_neg, abs_of_nonneg hs.1]; exact hs.2
  have dplus : ∀ {f f' : ℝ → ℝ} {s : ℝ}, HasDerivAt f (f' (x + s)) (x + s) → HasDerivAt (fun s => f (x + s)) (f' (x + s)) s :=
    fun {f f' s} h =>
      (h.comp s ((hasDerivAt_id s).const_add x)).congr_deriv (by simp)
  have dminus : ∀ {f f' : ℝ → ℝ} {s : ℝ}, HasDerivAt f (f' (x - s)) (x - s) →
      HasDerivAt (fun s => f (x - s)) (-f' (x - s)) s :=
    fun {f f' s} h =>
      (h.comp s ((hasDerivAt_id s).const_sub x)).congr_deriv (by simp)
  -- second derivative of the symmetric difference
  have b2 : ∀ s ∈ Set.Icc (0 : ℝ) delta, |g2 (x + s) - g2 (x - s)| ≤ 2 * M * s := by
    refine bound_step (φ := fun s => g2 (x + s) - g2 (x - s)) (φ' := fun s => g3 (x + s) - -g3 (x - s)) (B := fun s => 2 * M * s)
      (B' := fun _ => 2 * M) (by simp) (by simp) (fun s hs => ?_) (fun s => ?_) (fun s hs => ?_)
    · exact (dplus (h3 _ (near1 hs))).sub (dminus (h3 _ (near2 hs)))
    · simpa using (hasDerivAt_id s).const_mul (2 * M)
    · have a := hM _ (near1 hs)
      have b := hM _ (near2 hs)
      rw [abs_le] at *
      constructor <;> linarith [a.1, a.2, b.1, b.2]
  have b1 : ∀ s ∈ Set.Icc (0 : ℝ) delta, |g1 (x + s) + g1 (x - s) - 2 * g1 x| ≤ M * s ^ 2 := by
    refine bound_step (φ := fun s => g1 (x + s) + g1 (x - s) - 2 * g1 x) (φ' := fun s => g2 (x + s) - g2 (x - s))
      (B := fun s => M * s ^ 2) (B' := fun s => 2 * M * s) (by simp; ring) (by simp) (fun s hs => ?_) (fun s => ?_) b2
    · have := ((dplus (h2 _ (near1 hs))).add (dminus (h2 _ (near2 hs)))).sub_const (2 * g1 x)
      exact this.congr_deriv (by ring)
    · have := ((hasDerivAt_id s).pow 2).const_mul M
      refine this.congr_deriv ?_
      simp; ring
  have b0 : ∀ s ∈ Set.Icc (0 : ℝ) delta, |g (x + s) - g (x - s) - 2 * g1 x * s| ≤ M / 3 * s ^ 3 := by
    refine bound_step (φ := fun s => g (x + s) - g (x - s) - 2 * g1 x * s) (φ' := fun s => g1 (x + s) + g1 (x - s) - 2 * g1 x)
      (B := fun s => M / 3 * s ^ 3) (B' := fun s => M * s ^ 2) (by simp) (by simp) (fun s hs => ?_) (fun s => ?_) b1
    · have := ((dplus (h1 _ (near1 hs))).sub (dminus (h1 _ (near2 hs)))).sub ((hasDerivAt_id s).const_mul (2 * g1 x))
      refine this.congr_deriv ?_
      ring
    · have := ((hasDerivAt_id s).pow 3).const_mul (M / 3)
      refine this.congr_deriv ?_
      simp; ring
  have hb := b0 delta ⟨hd.le, le_rfl⟩
  have e : (g (x + delta) - g (x - delta)) / (2 * delta) - g1 x = (g (x + delta) - g (x - delta) - 2 * g1 x * delta) / (2 * delta) := by
    field_simp
  change |(g (x + delta) - g (x - delta)) / (2 * delta) - g1 x| ≤ _
  rw [e, abs_div, abs_of_pos (by linarith : (0 : ℝ) < 2 * delta), div_le_iff₀ (by linarith)]
  calc _ ≤ M / 3 * delta ^ 3 := hb
    _ = M * delta ^ 2 / 6 * (2 * delta) := by ring

/-- **C68 (d).** Convergence: if the partial derivative exists at all, the entries converge to it as the step goes to zero. -/
theorem C68_converges {m n : ℕ} (fcn : ℝ → (Fin n → ℝ) → Fin m → ℝ) (t0 : ℝ) (x0 : Fin n → ℝ) (i : Fin m) (k : Fin n) (D : ℝ)
    (h : HasDerivAt (fun s => fcn t0 (Function.update x0 k s) i) D (x0 k)) :
    Filter.Tendsto (fun delta => numericalJacobian fcn t0 x0 delta i k) (nhdsWithin 0 {0}ᶜ) (nhds D) := by
  simp only [C68_central_differences]
  set x := x0 k
  set g : ℝ → ℝ := fun s => fcn t0 (Function.update x0 k s) i with hg
  have hx0 : HasDerivAt g D (x + id 0) := by simpa using h
  have hx1 : HasDerivAt g D (x - id 0) := by simpa using h
  have p := hx0.comp (0 : ℝ) ((hasDerivAt_id (0 : ℝ)).const_add x)
  have q := hx1.comp (0 : ℝ) ((hasDerivAt_id (0 : ℝ)).const_sub x)
  have r := (p.sub q).div_const 2
  have r2 := hasDerivAt_iff_tendsto_slope.mp r
  have e : (D * 1 - D * -1) / 2 = D := by ring
  rw [e] at r2
  refine r2.congr' ?_
  filter_upwards [self_mem_nhdsWithin] with s hs
  have hs' : s ≠ 0 := hs
  simp only [slope_def_field, Function.comp, id, Pi.sub_apply, add_zero, sub_zero]
  change _ = (g (x + s) - g (x - s)) / (2 * s)
  field_simp
  ring

/-! ## Chain rule -/

lemma fold_update {n : ℕ} {α : Type} (l : List (Fin n)) (F : Fin n → α) (r : Fin n → α) :
    l.foldl (fun r h => Function.update r h (F h)) r = fun h => if h ∈ l then F h else r h := by
  induction l generalizing r with
  | nil => simp
  | cons a l ih =>
    rw [List.foldl_cons, ih]
    funext h
    by_cases h1 : h ∈ l
    · simp [h1]
    · by_cases h2 : h = a
      · subst h2; simp [h1]
      · simp [h1, h2]

lemma fold_row {m n : ℕ} (l : List (Fin n)) (k : Fin m) (F : Fin n → ℝ) (A : Fin m → Fin n → ℝ) :
    l.foldl (fun A h => Function.update A k (Function.update (A k) h (F h))) A =
      Function.update A k (l.foldl (fun r h => Function.update r h (F h)) (A k)) := by
  induction l generalizing A with
  | nil => simp
  | cons a l ih => rw [List.foldl_cons, ih, List.foldl_cons]; simp

/-- The double loop fills every entry with `jacobian(A(k,h), x) * dx`. -/
lemma getTimeDerivative_entry {m n p : ℕ} (A : (Fin p → ℝ) → Fin m → Fin n → ℝ) (x dx : Fin p → ℝ) (k : Fin m) (h : Fin n) :
    getTimeDerivative A x dx k h = ∑ j, jacobian (fun y => A y k h) x j * dx j := by
  unfold getTimeDerivative
  simp only [fold_row, fold_update]
  have : ∀ (l : List (Fin m)) (B : Fin m → Fin n → ℝ),
      l.foldl (fun (A' : Fin m → Fin n → ℝ) k => Function.update A' k fun h => if h ∈ List.finRange n then
        (∑ j, jacobian (fun y => A y k h) x j * dx j) else A' k h) B =
      fun k => if k ∈ l then fun h => ∑ j, jacobian (fun y => A y k h) x j * dx j else B k := by
    intro l B
    simp only [List.mem_finRange, if_true]
    exact fold_update l (fun k h => ∑ j, jacobian (fun y => A y k h) x j * dx j) B
  rw [this]
  simp

/-- **C68 (e).** `getTimeDerivative` (and `dMATdt`) is the total time derivative: along every differentiable motion `x(t)`, every
entry of `A(x(t))` that is differentiable at the current point changes at the returned rate. -/
theorem C68_time_derivative {m n p : ℕ} (A : (Fin p → ℝ) → Fin m → Fin n → ℝ) (X : ℝ → Fin p → ℝ) (dx : Fin p → ℝ) (t : ℝ)
    (hX : ∀ j, HasDerivAt (fun s => X s j) (dx j) t) (k : Fin m) (h : Fin n)
    (hA : DifferentiableAt ℝ (fun y => A y k h) (X t)) :
    HasDerivAt (fun s => A (X s) k h) (getTimeDerivative A (X t) dx k h) t := by
  rw [getTimeDerivative_entry]
  have hX' : HasDerivAt X dx t := hasDerivAt_pi.mpr hX
  have hf := hA.hasFDerivAt
  have hc := hf.comp_hasDerivAt t hX'
  refine hc.congr_deriv ?_
  have hj : ∀ j, jacobian (fun y => A y k h) (X t) j = fderiv ℝ (fun y => A y k h) (X t) (Pi.single j 1) := by
    intro j
    have hu : HasDerivAt (fun s => Function.update (X t) j s) (Pi.single j 1) (X t j) := hasDerivAt_update _ _ _
    have hf' : HasFDerivAt (fun y => A y k h) (fderiv ℝ (fun y => A y k h) (X t)) (Function.update (X t) j (X t j)) := by
      rw [Function.update_eq_self]; exact hf
    exact (hf'.comp_hasDerivAt (X t j) hu).deriv
  have hd : dx = ∑ j, dx j • (Pi.single j (1 : ℝ) : Fin p → ℝ) := by
    ext i; simp [Finset.sum_apply, Pi.single_apply]
  conv_lhs => rw [hd]
  rw [map_sum]
  refine Finset.sum_congr rfl fun j _ => ?_
  rw [map_smul, hj, smul_eq_mul, mul_comm]

/-- Non-vacuity: the exactness statement applies to the example of matlab/finite_differences/linearizationExample.m:10
(`x(1)^2 + x(2)^2`), with the default step. -/
example (x0 : Fin 2 → ℝ) (t0 : ℝ) :
    numericalJacobian (fun _ x (_ : Fin 1) => x 0 ^ 2 + x 1 ^ 2) t0 x0 defaultDelta 0 1 = 2 * x0 1 := by
  have hd : defaultDelta ≠ 0 := by norm_num [defaultDelta]
  have h := C68_exact_for_quadratics (fun _ x (_ : Fin 1) => x 0 ^ 2 + x 1 ^ 2) t0 x0 defaultDelta hd 0 1 (x0 0 ^ 2) 0 1
    (fun s => by simp)
  have h2 : HasDerivAt (fun s : ℝ => (Function.update x0 1 s) 0 ^ 2 + (Function.update x0 1 s) 1 ^ 2) (2 * x0 1) (x0 1) := by
    have := ((hasDerivAt_id (x0 1)).pow 2).const_add (x0 0 ^ 2)
    simpa using this
  exact h.unique h2

/-- Non-vacuity of the accuracy statement: `sin`, third derivative bounded by 1. -/
example (x0 : Fin 1 → ℝ) : |numericalJacobian (fun _ x (_ : Fin 1) => Real.sin (x 0)) 0 x0 defaultDelta 0 0 - Real.cos (x0 0)| ≤
    1 * defaultDelta ^ 2 / 6 := by
  refine C68_accuracy _ 0 x0 defaultDelta (by norm_num [defaultDelta]) 0 0 Real.cos (fun s => -Real.sin s) (fun s => -Real.cos s) 1
    (fun s _ => by simpa using Real.hasDerivAt_sin s) (fun s _ => Real.hasDerivAt_cos s) (fun s _ => (Real.hasDerivAt_sin s).neg)
    (fun s _ => by rw [abs_neg]; exact Real.abs_cos_le_one s)

end Kindr.Matlab
