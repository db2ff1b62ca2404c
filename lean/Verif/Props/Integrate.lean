import Mathlib.Analysis.Calculus.MeanValue
import Mathlib.Analysis.Calculus.Deriv.Pow
import Verif.Props.Uniform
import Verif.Props.Kinematics
import Verif.Props.Jacobian

/-!
# C75: integrating an angular velocity with `boxPlus`

The documented way to integrate an orientation is `r = r.boxPlus(w * dt)` in a loop.  The theorems bound the distance of the
result, for every number of steps, from (a) the exact composition of the exponentials and (b) the true solution of the
kinematic equation for a Lipschitz angular velocity.
-/

set_option autoImplicit false

noncomputable section
namespace Kindr
open Spec

namespace Spec

/-- The program `for (w : l) r = r.boxPlus(w);`. -/
def boxPlusLoop (P : Prec) (k : Kind) : Rep k → List V3 → Rep k
  | r, [] => r
  | r, w :: l => boxPlusLoop P k (boxPlus P k r w) l

/-- What it should compute: rotate by `f`, then by the rotation vectors in turn. -/
def rotateInTurn : (V3 → V3) → List V3 → V3 → V3
  | f, [] => f
  | f, w :: l => rotateInTurn (fun v => act .rv (⟨w⟩ : RotVec) (f v)) l

/-- The increments of the explicit integration of the angular velocity `w` from `t₀` with `n` steps of length `h`:
`h·w(t₀), h·w(t₀+h), …, h·w(t₀+(n-1)h)`. -/
def samples (w : ℝ → V3) (h : ℝ) : ℝ → ℕ → List V3
  | _, 0 => []
  | t, n + 1 => (h • w t) :: samples w h (t + h) n

end Spec

/-- Invariant of the loop: how near the value `r` is to the exact rotation `R` after steps that inflate the length by at most
`g` in total and that have accumulated the error `δ`. -/
private def LoopInv (k : Kind) (g δ : ℝ) (r : Rep k) (R : M3) : Prop :=
  match k with
  | .quat => NearQ (g - 1) δ r R
  | .mat => (∀ v, (M3.mulVec r v).norm ≤ g * v.norm) ∧ Close (g - 1 + δ) (r : M3) R
  | k => Valid k r ∧ Close δ (den k r) R

private lemma loop_step (P : Prec) {k : Kind} {g δ ℓ : ℝ} {r : Rep k} {R R' : M3} (w : V3) (hR : IsSO3 R)
    (h : LoopInv k g δ r R) (hs : Close ℓ (den .rv (⟨w⟩ : RotVec) * R) R') :
    LoopInv k (g * (1 + (2 * P.dp + P.eps))) (δ + (2 * P.dp + P.eps) + ℓ) (boxPlus P k r w) R' := by
  have he := P.eps_pos
  have hdp := P.dp_pos
  have hW := den_isSO3 (k := .rv) (r := (⟨w⟩ : RotVec)) trivial
  by_cases hq : k = .quat
  · subst hq
    have h1 : NearQ (g - 1) δ r R := h
    have h2 : NearQ (P.eps / 3200) (P.eps / 800) (quatOfRv P ⟨w⟩) (den .rv (⟨w⟩ : RotVec)) := by
      rw [den_eq]; exact quatOfRv_near P ⟨w⟩
    have h3 := (h2.mul h1 hW).close hs
    have e : boxPlus P .quat r w = quatOfRv P ⟨w⟩ * (r : Quat) := by
      rw [boxPlus, mult_eq P .quat .quat _ _ (fun h => by cases h.1)]; rfl
    rw [e]
    change NearQ _ _ _ _
    have hn := h1.nonneg
    refine h3.mono ?_ ?_
    · have : (1 + P.eps / 3200) * g ≤ (1 + (2 * P.dp + P.eps)) * g :=
        mul_le_mul_of_nonneg_right (by linarith) (by linarith)
      nlinarith
    · linarith
  by_cases hm : k = .mat
  · subst hm
    obtain ⟨h1, h2⟩ : (∀ v, (M3.mulVec r v).norm ≤ g * v.norm) ∧ Close (g - 1 + δ) (r : M3) R := h
    have c1 : Close (2 * P.dp + P.eps) (exponentialMap P .mat w : M3) (den .rv (⟨w⟩ : RotVec)) := by
      have h1 : Near (P.eps / 3200) (P.dp + P.eps / 30) .mat (exponentialMap P .mat w) (den .rv (⟨w⟩ : RotVec)) :=
        conv_near P .mat .rv (r := (⟨w⟩ : RotVec)) trivial
      have h2 := h1.close (by linarith) (by linarith [eps_small P])
      rw [den_eq .mat] at h2
      exact h2.mono (by linarith)
    have e : boxPlus P .mat r w = (exponentialMap P .mat w : M3) * (r : M3) := rfl
    rw [e]
    set E : M3 := exponentialMap P .mat w with hE
    refine ⟨fun v => ?_, ?_⟩
    · have := c1 (M3.mulVec r v)
      rw [← M3.mulVec_mulVec]
      have t1 := V3.norm_add_le (E.mulVec (M3.mulVec r v) - (den .rv (⟨w⟩ : RotVec)).mulVec (M3.mulVec r v))
        ((den .rv (⟨w⟩ : RotVec)).mulVec (M3.mulVec r v))
      rw [sub_add_cancel, SO3.mulVec_norm hW] at t1
      have := h1 v
      nlinarith
    · refine Close.mono (δ := ((2 * P.dp + P.eps) * g + (g - 1 + δ)) + ℓ) ?_ (by nlinarith)
      refine Close.trans (B := den .rv (⟨w⟩ : RotVec) * R) (fun v => ?_) hs
      have a1 := c1 (M3.mulVec r v)
      have a2 := h2 v
      have a3 := h1 v
      rw [← M3.mulVec_mulVec, ← M3.mulVec_mulVec]
      have e2 : E.mulVec (M3.mulVec r v) - (den .rv (⟨w⟩ : RotVec)).mulVec (R.mulVec v) =
          (E.mulVec (M3.mulVec r v) - (den .rv (⟨w⟩ : RotVec)).mulVec (M3.mulVec r v)) +
          (den .rv (⟨w⟩ : RotVec)).mulVec (M3.mulVec r v - R.mulVec v) := by
        rw [M3.mulVec_sub]; abel
      rw [e2]
      refine (V3.norm_add_le _ _).trans ?_
      rw [SO3.mulVec_norm hW]
      nlinarith
  · have key : ∀ (hv : Valid k r) (hc : Close δ (den k r) R), Valid k (boxPlus P k r w) ∧
        Close (δ + (2 * P.dp + P.eps) + ℓ) (den k (boxPlus P k r w)) R' := by
      intro hv hc
      have c1 := boxPlus_close P hv w
      have c2 := (c1.trans (hc.mul_left hW)).trans hs
      refine ⟨?_, c2.mono (by linarith)⟩
      have h1 : Near (P.eps / 3200) (P.dp + P.eps / 30) k (exponentialMap P k w) (den .rv (⟨w⟩ : RotVec)) :=
        conv_near P k .rv (r := (⟨w⟩ : RotVec)) trivial
      have h2 := mult_near (P := P) h1 (near_of_valid hv) hW (by linarith) (by linarith [eps_small P]) le_rfl (by norm_num)
        (fun h => hm h.1)
      cases k
      · exact absurd rfl hq
      · exact absurd rfl hm
      · exact (valid_aa_iff _).mpr h2.1
      all_goals trivial
    cases k
    · exact absurd rfl hq
    · exact absurd rfl hm
    all_goals exact key h.1 h.2

/-- A loop along a sequence of exact rotations `R 0, R 1, …` with local errors at most `ℓ`. -/
private lemma loop_run (P : Prec) {k : Kind} {ℓ : ℝ} : ∀ (l : List V3) (R : ℕ → M3) (g δ : ℝ) (r : Rep k),
    (∀ i, IsSO3 (R i)) → (∀ i (hi : i < l.length), Close ℓ (den .rv (⟨l[i]⟩ : RotVec) * R i) (R (i + 1))) →
    LoopInv k g δ r (R 0) →
    LoopInv k (g * (1 + (2 * P.dp + P.eps)) ^ l.length) (δ + l.length * (2 * P.dp + P.eps + ℓ)) (boxPlusLoop P k r l)
      (R l.length) := by
  intro l
  induction l with
  | nil => intro R g δ r _ _ h; simpa [boxPlusLoop] using h
  | cons w l ih =>
    intro R g δ r hR hs h
    have h1 := loop_step P w (hR 0) h (hs 0 (by simp))
    have h2 := ih (fun i => R (i + 1)) _ _ _ (fun i => hR _)
      (fun i hi => by have := hs (i + 1) (by simpa using hi); simpa using this) h1
    rw [boxPlusLoop, List.length_cons, pow_succ]
    have e1 : g * (1 + (2 * P.dp + P.eps)) * (1 + (2 * P.dp + P.eps)) ^ l.length =
        g * ((1 + (2 * P.dp + P.eps)) ^ l.length * (1 + (2 * P.dp + P.eps))) := by ring
    have e2 : δ + (2 * P.dp + P.eps) + ℓ + l.length * (2 * P.dp + P.eps + ℓ) =
        δ + ((l.length + 1 : ℕ) : ℝ) * (2 * P.dp + P.eps + ℓ) := by push_cast; ring
    rw [e1, e2] at h2
    exact h2

private lemma loop_init {k : Kind} {r : Rep k} (h : Valid k r) {δ : ℝ} {R : M3} (hc : Close δ (den k r) R) :
    LoopInv k 1 δ r R := by
  cases k
  · change NearQ (1 - 1) δ r R
    have := NearQ.of_unit ((valid_quat_iff _).mp h)
    rw [den_eq] at hc
    exact (this.close hc).mono (by norm_num) (by linarith)
  · refine ⟨fun v => ?_, ?_⟩
    · have := SO3.mulVec_norm (den_isSO3 h) v
      rw [den_eq] at this
      rw [one_mul]; exact this.le
    · rw [den_eq] at hc; exact hc.mono (by linarith)
  all_goals exact ⟨h, hc⟩

private lemma loop_final {k : Kind} {g δ : ℝ} {r : Rep k} {R : M3} (h : LoopInv k g δ r R)
    (hg : k = .quat ∨ k = .mat → g - 1 ≤ 1 / 100) (h1 : 1 ≤ g) : Close (201 / 100 * (g - 1) + δ) (den k r) R := by
  cases k
  · have h : NearQ (g - 1) δ r R := h
    rw [den_eq]; exact h.sandwich (hg (Or.inl rfl))
  · rw [den_eq]; exact Close.mono h.2 (by linarith)
  all_goals exact Close.mono h.2 (by linarith)

private lemma pow_bound {x : ℝ} (hx : 0 ≤ x) {n : ℕ} (hn : n * x ≤ 1 / 200) :
    1 ≤ (1 + x) ^ n ∧ (1 + x) ^ n - 1 ≤ 2 * (n * x) := by
  refine ⟨one_le_pow₀ (by linarith), ?_⟩
  have h0 : 0 ≤ n * x := by positivity
  have h3 : (1 + x) ^ n ≤ Real.exp (n * x) := by
    rw [Real.exp_nat_mul]; exact pow_le_pow_left₀ (by linarith) (by linarith [Real.add_one_le_exp x]) _
  have h5 := Real.abs_exp_sub_one_le (x := n * x) (by rw [abs_of_nonneg h0]; linarith)
  rw [abs_of_nonneg h0] at h5
  have := (abs_le.mp h5).2
  linarith


/-- `exp((s-t₀) w)` has the constant angular velocity `w`. -/
lemma exp_velocity_line (w : V3) (t₀ t : ℝ) : IsGlobalVelocity .rv (fun s => (⟨(s - t₀) • w⟩ : RotVec)) t w := by
  rw [isGlobalVelocity_iff]
  have h0 : IsGlobalVelocity .rv (fun s => (⟨(s - t) • w⟩ : RotVec)) t w := by
    refine exp_velocity_zero (v := fun s => (s - t) • w) ⟨?_, ?_, ?_⟩ (by simp)
    all_goals
      simp only [V3.smul_x, V3.smul_y, V3.smul_z]
      refine (((hasDerivAt_id t).sub_const t).mul_const _).congr_deriv (by simp)
  rw [isGlobalVelocity_iff] at h0
  have h1 := h0.mul (hasDerivM_const (den .rv (⟨(t - t₀) • w⟩ : RotVec)) t)
  have e : ∀ s, den .rv (⟨(s - t) • w⟩ : RotVec) * den .rv (⟨(t - t₀) • w⟩ : RotVec) = den .rv (⟨(s - t₀) • w⟩ : RotVec) := by
    intro s; rw [den_rv_smul_mul]; congr 3; ring
  simp only [e] at h1
  refine h1.congr ?_
  rw [mul_assoc, e]
  ext <;> simp

private lemma dot_tr (m : M3) (a b : V3) : (m.transpose.mulVec a).dot b = a.dot (m.mulVec b) := by
  simp [V3.dot, M3.mulVec, M3.transpose]; ring

/-- The local error of one exact exponential step: the velocity changes by at most `L·(s-t)`, so the rotations differ by at
most `L·h²/2` after time `h`. -/
lemma exp_step_error {k : Kind} {r : ℝ → Rep k} {w : ℝ → V3} {t h L : ℝ} (h0 : 0 ≤ h)
    (hv : ∀ s ∈ Set.Icc t (t + h), Valid k (r s)) (hw : ∀ s ∈ Set.Icc t (t + h), IsGlobalVelocity k r s (w s))
    (hL : ∀ s ∈ Set.Icc t (t + h), (w s - w t).norm ≤ L * (s - t)) :
    Close (L * h ^ 2 / 2) (den .rv (⟨h • w t⟩ : RotVec) * den k (r t)) (den k (r (t + h))) := by
  intro b
  set A : ℝ → M3 := fun s => den .rv (⟨(s - t) • w t⟩ : RotVec) with hA
  have hAS : ∀ s, IsSO3 (A s) := fun s => den_isSO3 (k := .rv) (r := ⟨(s - t) • w t⟩) trivial
  set d : V3 := (A (t + h) * den k (r t)).mulVec b - (den k (r (t + h))).mulVec b with hd
  have ht : t ∈ Set.Icc t (t + h) := ⟨le_rfl, by linarith⟩
  have hth : t + h ∈ Set.Icc t (t + h) := ⟨by linarith, le_rfl⟩
  set a : V3 := (A (t + h)).transpose.mulVec d with ha
  have han : a.norm = d.norm := SO3.mulVec_norm (SO3.transpose (hAS _)) d
  set φ : ℝ → ℝ := fun s => ((A s).mulVec a).dot ((den k (r s)).mulVec b) with hφ
  have hder : ∀ s ∈ Set.Icc t (t + h), HasDerivAt φ (((A s).mulVec a).dot ((w s - w t).cross ((den k (r s)).mulVec b))) s := by
    intro s hs
    have h1 := exp_velocity_line (w t) t s a
    have h2 := hw s hs b
    simp only [act_eq] at h1 h2
    obtain ⟨x1, y1, z1⟩ := h1
    obtain ⟨x2, y2, z2⟩ := h2
    refine (((x1.mul x2).add (y1.mul y2)).add (z1.mul z2)).congr_deriv ?_
    simp only [hA, V3.dot, V3.cross, V3.sub_x, V3.sub_y, V3.sub_z]
    ring
  have key := image_norm_le_of_norm_deriv_right_le_deriv_boundary (f := fun s => φ s - φ t) (a := t) (b := t + h)
    (f' := fun s => ((A s).mulVec a).dot ((w s - w t).cross ((den k (r s)).mulVec b)))
    (B := fun s => L * (s - t) ^ 2 / 2 * (d.norm * b.norm)) (B' := fun s => L * (s - t) * (d.norm * b.norm))
    (fun s hs => ((hder s hs).sub_const _).continuousAt.continuousWithinAt)
    (fun s hs => ((hder s ⟨hs.1, hs.2.le⟩).sub_const _).hasDerivWithinAt)
    (by simp)
    (fun s => by
      have := (((((hasDerivAt_id s).sub_const t).pow 2).const_mul L).div_const 2).mul_const (d.norm * b.norm)
      refine this.congr_deriv ?_
      change L * (((2 : ℕ) : ℝ) * (s - t) ^ (2 - 1) * 1) / 2 * _ = _
      push_cast; ring)
    (fun s hs => by
      have hs' : s ∈ Set.Icc t (t + h) := ⟨hs.1, hs.2.le⟩
      rw [Real.norm_eq_abs]
      refine (V3.dot_abs_le _ _).trans ?_
      rw [SO3.mulVec_norm (hAS s), han]
      have c1 := V3.norm_cross_le (w s - w t) ((den k (r s)).mulVec b)
      rw [SO3.mulVec_norm (den_isSO3 (hv s hs'))] at c1
      have c2 := mul_le_mul_of_nonneg_right (hL s hs') b.norm_nonneg
      have c3 := mul_le_mul_of_nonneg_left (c1.trans c2) d.norm_nonneg
      linarith)
    hth
  have e1 : φ (t + h) = d.dot ((den k (r (t + h))).mulVec b) := by
    rw [hφ]; simp only [ha]
    rw [M3.mulVec_mulVec, (hAS _).1, M3.one_mulVec]
  have e2 : φ t = d.dot ((A (t + h) * den k (r t)).mulVec b) := by
    have : A t = 1 := by
      rw [hA]; simp only [sub_self, zero_smul]; rw [den_eq]; exact dmat_rv_zero
    rw [hφ]; simp only [ha, this]
    rw [M3.one_mulVec, dot_tr, M3.mulVec_mulVec]
  have e3 : φ t - φ (t + h) = d.normSq := by
    rw [e1, e2, hd]; simp [V3.dot, V3.normSq]; ring
  rw [Real.norm_eq_abs, abs_sub_comm, e3, abs_of_nonneg (by rw [← V3.norm_sq]; positivity), ← V3.norm_sq] at key
  have hAe : A (t + h) = den .rv (⟨h • w t⟩ : RotVec) := by rw [hA]; simp only [add_sub_cancel_left]
  rw [← hAe]
  change d.norm ≤ _
  simp only [add_sub_cancel_left] at key
  by_cases hz : d.norm = 0
  · rw [hz]
    have : 0 ≤ L * h ^ 2 := by
      have h1 := hL (t + h) hth
      rw [add_sub_cancel_left] at h1
      have := mul_nonneg ((V3.norm_nonneg _).trans h1) h0
      nlinarith
    have := b.norm_nonneg
    positivity
  · have hp : 0 < d.norm := lt_of_le_of_ne d.norm_nonneg (Ne.symm hz)
    nlinarith

/-! ## The theorems -/

lemma inTurn_eq : ∀ (l : List V3) (f : V3 → V3) (R : M3), (∀ v, f v = R.mulVec v) →
    ∀ v, rotateInTurn f l v = (l.foldl (fun m w => den .rv (⟨w⟩ : RotVec) * m) R).mulVec v := by
  intro l
  induction l with
  | nil => intro f R hf v; exact hf v
  | cons w l ih =>
    intro f R hf v
    refine ih _ _ (fun v => ?_) v
    rw [hf, act_eq, M3.mulVec_mulVec]

private lemma loop_bound (P : Prec) {k : Kind} {ℓ δ : ℝ} {l : List V3} {R : ℕ → M3} {r : Rep k} (hr : Valid k r)
    (hR : ∀ i, IsSO3 (R i)) (hs : ∀ i (hi : i < l.length), Close ℓ (den .rv (⟨l[i]⟩ : RotVec) * R i) (R (i + 1)))
    (h0 : Close δ (den k r) (R 0)) (hn : k = .quat ∨ k = .mat → l.length * (2 * P.dp + P.eps) ≤ 1 / 200) :
    Close (δ + l.length * (6 * (2 * P.dp + P.eps) + ℓ)) (den k (boxPlusLoop P k r l)) (R l.length) ∧
    (k ≠ .quat → k ≠ .mat → Valid k (boxPlusLoop P k r l) ∧
      Close (δ + l.length * (2 * P.dp + P.eps + ℓ)) (den k (boxPlusLoop P k r l)) (R l.length)) := by
  have he := P.eps_pos
  have hdp := P.dp_pos
  have h1 := loop_run P l R 1 δ r hR hs (loop_init hr h0)
  rw [one_mul] at h1
  have hlen : (0 : ℝ) ≤ l.length * (2 * P.dp + P.eps) := by positivity
  by_cases hk : k = .quat ∨ k = .mat
  · obtain ⟨p1, p2⟩ := pow_bound (x := 2 * P.dp + P.eps) (by linarith) (hn hk)
    refine ⟨(loop_final h1 (fun _ => by linarith [hn hk]) p1).mono (by linarith), fun a b => ?_⟩
    rcases hk with hk | hk
    · exact absurd hk a
    · exact absurd hk b
  · have h2 : Valid k (boxPlusLoop P k r l) ∧
        Close (δ + l.length * (2 * P.dp + P.eps + ℓ)) (den k (boxPlusLoop P k r l)) (R l.length) := by
      cases k
      · simp at hk
      · simp at hk
      all_goals exact h1
    exact ⟨h2.2.mono (by linarith), fun _ _ => h2⟩

/-- **C75 (a).** `for (w : increments) r.boxPlus(w)`: for every valid start and every list of increments the result is within
`n·6·(2·dp+eps)` of the exact composition of the exponentials (a quaternion or matrix as long as `n·(2·dp+eps) ≤ 1/200`,
because those two are never renormalized; the other four classes for every `n`, with the constant 1 instead of 6, and the
result is again admissible). -/
theorem C75_boxPlus_loop (P : Prec) (k : Kind) (r : Rep k) (hr : Valid k r) (l : List V3)
    (hn : k = .quat ∨ k = .mat → l.length * (2 * P.dp + P.eps) ≤ 1 / 200) (v : V3) :
    (act k (boxPlusLoop P k r l) v - rotateInTurn (act k r) l v).norm ≤ l.length * (6 * (2 * P.dp + P.eps)) * v.norm ∧
    (k ≠ .quat → k ≠ .mat → Valid k (boxPlusLoop P k r l) ∧
      (act k (boxPlusLoop P k r l) v - rotateInTurn (act k r) l v).norm ≤ l.length * (2 * P.dp + P.eps) * v.norm) := by
  set R : ℕ → M3 := fun i => (l.take i).foldl (fun m w => den .rv (⟨w⟩ : RotVec) * m) (den k r) with hRd
  have hR : ∀ i, IsSO3 (R i) := by
    intro i
    have : ∀ (l : List V3) (m : M3), IsSO3 m → IsSO3 (l.foldl (fun m w => den .rv (⟨w⟩ : RotVec) * m) m) := by
      intro l
      induction l with
      | nil => intro m hm; exact hm
      | cons w l ih => intro m hm; exact ih _ (SO3.mul (den_isSO3 (k := .rv) (r := (⟨w⟩ : RotVec)) trivial) hm)
    exact this _ _ (den_isSO3 hr)
  have hs : ∀ i (hi : i < l.length), Close 0 (den .rv (⟨l[i]⟩ : RotVec) * R i) (R (i + 1)) := by
    intro i hi
    apply Close.of_eq
    rw [hRd]
    simp only
    rw [List.take_add_one, List.getElem?_eq_getElem hi, List.foldl_append]
    rfl
  have h := loop_bound P hr hR hs (Close.refl _) hn
  have e : R l.length = l.foldl (fun m w => den .rv (⟨w⟩ : RotVec) * m) (den k r) := by rw [hRd]; simp
  rw [inTurn_eq l (act k r) (den k r) (act_eq k r) v, act_eq, ← e]
  refine ⟨(h.1 v).trans (by rw [zero_add, add_zero]), fun a b => ⟨(h.2 a b).1, ((h.2 a b).2 v).trans (by rw [zero_add, add_zero])⟩⟩

lemma samples_length (w : ℝ → V3) (h : ℝ) : ∀ (n : ℕ) (t : ℝ), (samples w h t n).length = n := by
  intro n
  induction n with
  | zero => intro t; rfl
  | succ n ih => intro t; rw [samples, List.length_cons, ih]

lemma samples_get (w : ℝ → V3) (h : ℝ) : ∀ (n : ℕ) (t : ℝ) (i : ℕ) (hi : i < (samples w h t n).length),
    (samples w h t n)[i] = h • w (t + i * h) := by
  intro n
  induction n with
  | zero => intro t i hi; exact absurd hi (by simp [samples])
  | succ n ih =>
    intro t i hi
    cases i with
    | zero => simp [samples]
    | succ i =>
      simp only [samples, List.getElem_cons_succ]
      rw [ih]
      congr 2
      push_cast; ring

/-- **C75 (b).** Integrating a motion: let `q(s)` be any moving rotation (of any class) on `[t₀, t₀+n·h]` whose global angular
velocity `w(s)` is Lipschitz with constant `L`, and let `r` be a valid rotation (of any, possibly different class) within `δ`
of `q(t₀)`.  Then the loop `r = r.boxPlus(h·w(t₀+i·h))` ends within
`δ + n·(L·h²/2 + 6·(2·dp+eps))` of `q(t₀+n·h)`. -/
theorem C75_integrates_motion (P : Prec) (k kq : Kind) (r : Rep k) (hr : Valid k r) (q : ℝ → Rep kq) (w : ℝ → V3)
    (t₀ h L δ : ℝ) (n : ℕ) (h0 : 0 ≤ h)
    (hq : ∀ s ∈ Set.Icc t₀ (t₀ + n * h), Valid kq (q s) ∧ IsGlobalVelocity kq q s (w s))
    (hL : ∀ s ∈ Set.Icc t₀ (t₀ + n * h), ∀ t ∈ Set.Icc t₀ (t₀ + n * h), (w s - w t).norm ≤ L * |s - t|)
    (hδ : ∀ v, (act k r v - act kq (q t₀) v).norm ≤ δ * v.norm)
    (hn : k = .quat ∨ k = .mat → n * (2 * P.dp + P.eps) ≤ 1 / 200) (v : V3) :
    (act k (boxPlusLoop P k r (samples w h t₀ n)) v - act kq (q (t₀ + n * h)) v).norm ≤
      (δ + n * (L * h ^ 2 / 2 + 6 * (2 * P.dp + P.eps))) * v.norm := by
  set R : ℕ → M3 := fun i => den kq (q (t₀ + (min i n : ℕ) * h)) with hRd
  have hmem : ∀ i : ℕ, i ≤ n → t₀ + i * h ∈ Set.Icc t₀ (t₀ + n * h) := by
    intro i hi
    have : (i : ℝ) * h ≤ n * h := mul_le_mul_of_nonneg_right (by exact_mod_cast hi) h0
    have : 0 ≤ (i : ℝ) * h := by positivity
    exact ⟨by linarith, by linarith⟩
  have hR : ∀ i, IsSO3 (R i) := fun i => den_isSO3 (hq _ (hmem _ (Nat.min_le_right i n))).1
  have hlen := samples_length w h n t₀
  have hs : ∀ i (hi : i < (samples w h t₀ n).length),
      Close (L * h ^ 2 / 2) (den .rv (⟨(samples w h t₀ n)[i]⟩ : RotVec) * R i) (R (i + 1)) := by
    intro i hi
    have hi' : i < n := by rw [hlen] at hi; exact hi
    have m1 := hmem i hi'.le
    have m2 := hmem (i + 1) hi'
    have e2 : t₀ + ((i + 1 : ℕ) : ℝ) * h = t₀ + i * h + h := by push_cast; ring
    rw [e2] at m2
    have hsub : ∀ s ∈ Set.Icc (t₀ + i * h) (t₀ + i * h + h), s ∈ Set.Icc t₀ (t₀ + n * h) := fun s hs =>
      ⟨m1.1.trans hs.1, hs.2.trans m2.2⟩
    have := exp_step_error (k := kq) (r := q) (w := w) (t := t₀ + i * h) (h := h) (L := L) h0
      (fun s hs => (hq s (hsub s hs)).1) (fun s hs => (hq s (hsub s hs)).2)
      (fun s hs => by
        have := hL s (hsub s hs) _ m1
        rwa [abs_of_nonneg (by linarith [hs.1])] at this)
    rw [samples_get, hRd]
    simp only
    rw [Nat.min_eq_left hi'.le, Nat.min_eq_left hi', e2]
    exact this
  have hd0 : Close δ (den k r) (R 0) := fun v => by
    have := hδ v
    rw [act_eq, act_eq] at this
    rw [hRd]; simpa using this
  have hb := (loop_bound P hr hR hs hd0 (by rw [hlen]; exact hn)).1
  rw [hlen] at hb
  have := hb v
  rw [act_eq, act_eq]
  rw [hRd] at this
  simp only [Nat.min_self] at this
  rw [add_comm (L * h ^ 2 / 2)]
  exact this

/-- A motion with constant angular velocity is integrated without discretization error, whatever the step. -/
theorem C75_constant_velocity (P : Prec) (k : Kind) (r : Rep k) (hr : Valid k r) (w : V3) (h : ℝ) (n : ℕ) (h0 : 0 ≤ h)
    (hn : k = .quat ∨ k = .mat → n * (2 * P.dp + P.eps) ≤ 1 / 200) (v : V3) :
    (act k (boxPlusLoop P k r (samples (fun _ => w) h 0 n)) v - act .rv (⟨(n * h) • w⟩ : RotVec) (act k r v)).norm ≤
      n * (6 * (2 * P.dp + P.eps)) * v.norm := by
  have hM : ∀ s : ℝ, IsSO3 (den .rv (⟨s • w⟩ : RotVec) * den k r) := fun s =>
    SO3.mul (den_isSO3 (k := .rv) (r := (⟨s • w⟩ : RotVec)) trivial) (den_isSO3 hr)
  have key := C75_integrates_motion P k .mat r hr (fun s : ℝ => den .rv (⟨s • w⟩ : RotVec) * den k r) (fun _ => w) 0 h 0 0 n h0
    (fun s _ => ⟨hM s, by
      rw [isGlobalVelocity_iff]
      have h1 := exp_velocity_line w 0 s
      rw [isGlobalVelocity_iff] at h1
      simp only [sub_zero] at h1
      have h2 := h1.mul (hasDerivM_const (den k r) s)
      simp only [den_eq .mat]
      refine HasDerivM.congr h2 ?_
      change _ = skew w * (den .rv (⟨s • w⟩ : RotVec) * den k r)
      rw [← mul_assoc]; ext <;> simp⟩)
    (fun s _ t _ => by simp)
    (fun v => by
      have : den .rv (⟨(0 : ℝ) • w⟩ : RotVec) = 1 := by rw [zero_smul, den_eq]; exact dmat_rv_zero
      rw [act_eq, act_eq, den_eq .mat]
      change ((den k r).mulVec v - (den .rv (⟨(0 : ℝ) • w⟩ : RotVec) * den k r).mulVec v).norm ≤ _
      rw [this, one_mul]; simp)
    hn v
  rw [act_eq .mat, den_eq .mat] at key
  change (_ - (den .rv (⟨(0 + n * h) • w⟩ : RotVec) * den k r).mulVec v).norm ≤ _ at key
  rw [act_eq .rv, act_eq k r, M3.mulVec_mulVec]
  rw [zero_add] at key
  refine key.trans (le_of_eq ?_)
  ring

/-- non-vacuity of (b): the spin-up `w(s) = (0,0,s)` about the z axis, i.e. the yaw angle `s²/2`, is a motion with
Lipschitz constant 1. -/
example : (∀ s ∈ Set.Icc (0 : ℝ) (0 + (10 : ℕ) * (1 / 10)), Valid .zyx (⟨⟨s ^ 2 / 2, 0, 0⟩⟩ : EulZyx) ∧
      IsGlobalVelocity .zyx (fun s => (⟨⟨s ^ 2 / 2, 0, 0⟩⟩ : EulZyx)) s ⟨0, 0, s⟩) ∧
    (∀ s t : ℝ, ((⟨0, 0, s⟩ : V3) - ⟨0, 0, t⟩).norm ≤ 1 * |s - t|) := by
  refine ⟨fun s _ => ⟨trivial, fun u => ?_⟩, fun s t => ?_⟩
  · have hd : HasDerivAt (fun s : ℝ => s ^ 2 / 2) s s := by
      refine ((hasDerivAt_pow 2 s).div_const 2).congr_deriv (by simp)
    have hc := hd.cos
    have hs := hd.sin
    have e : ∀ s : ℝ, act .zyx (⟨⟨s ^ 2 / 2, 0, 0⟩⟩ : EulZyx) u =
        ⟨Real.cos (s ^ 2 / 2) * u.x - Real.sin (s ^ 2 / 2) * u.y, Real.sin (s ^ 2 / 2) * u.x + Real.cos (s ^ 2 / 2) * u.y, u.z⟩ := by
      intro s
      simp [act, rotX, rotY, rotZ, EulZyx.x, EulZyx.y, EulZyx.z]
    simp only [e]
    refine ⟨?_, ?_, ?_⟩
    · exact ((hc.mul_const u.x).sub (hs.mul_const u.y)).congr_deriv (by simp [V3.cross]; ring)
    · exact ((hs.mul_const u.x).add (hc.mul_const u.y)).congr_deriv (by simp [V3.cross]; ring)
    · exact (hasDerivAt_const s u.z).congr_deriv (by simp [V3.cross])
  · rw [one_mul]
    apply le_of_eq
    rw [V3.norm, V3.normSq, V3.dot]
    simp only [V3.sub_x, V3.sub_y, V3.sub_z]
    rw [show (0 - 0 : ℝ) * (0 - 0) + (0 - 0) * (0 - 0) + (s - t) * (s - t) = (s - t) ^ 2 by ring, Real.sqrt_sq_eq_abs]

end Kindr
