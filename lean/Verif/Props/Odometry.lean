import Verif.Props.FiniteDiff
import Verif.Props.Interpolate
import Verif.Props.Calculus
import Verif.Spec.Odometry

/-!
# C117: dead reckoning with velocities measured in the body frame

`T = T * Pose(Position(v dt), Rotation().exponentialMap(w dt))` advances a pose by the readings of odometry and gyroscope.
-/

set_option autoImplicit false

noncomputable section
namespace Kindr
open Spec

/-- Invariant of the rotation part, as in C75: `g` bounds the growth of the stored numbers, `δ` the error of the rotation. -/
private def RInv (k : Kind) (g δ : ℝ) (r : Rep k) (R : M3) : Prop :=
  match k with
  | .quat => NearQ (g - 1) δ r R
  | .mat => (∀ v, (M3.mulVec r v).norm ≤ g * v.norm) ∧ Close (g - 1 + δ) (r : M3) R
  | k => Valid k r ∧ Close δ (den k r) R

private lemma r_step (P : Prec) {k : Kind} {g δ ℓ : ℝ} {r : Rep k} {R R' : M3} (w : V3) (hR : IsSO3 R) (hg : 1 ≤ g)
    (h : RInv k g δ r R) (hs : Close ℓ (R * den .rv (⟨w⟩ : RotVec)) R') :
    RInv k (g * (1 + (2 * P.dp + P.eps))) (δ + (2 * P.dp + P.eps) + ℓ) (mult P k k r (exponentialMap P k w)) R' := by
  have he := P.eps_pos
  have hdp := P.dp_pos
  have hW := den_isSO3 (k := .rv) (r := (⟨w⟩ : RotVec)) trivial
  by_cases hq : k = .quat
  · subst hq
    have h1 : NearQ (g - 1) δ r R := h
    have h2 : NearQ (P.eps / 3200) (P.eps / 800) (quatOfRv P ⟨w⟩) (den .rv (⟨w⟩ : RotVec)) := by
      rw [den_eq]; exact quatOfRv_near P ⟨w⟩
    have h3 := (h1.mul h2 hR).close hs
    have e : mult P .quat .quat r (exponentialMap P .quat w) = (r : Quat) * quatOfRv P ⟨w⟩ := by
      rw [mult_eq P .quat .quat _ _ (fun h => by cases h.1)]; rfl
    rw [e]
    change NearQ _ _ _ _
    have hn := h1.nonneg
    refine h3.mono ?_ ?_
    · have : (1 + P.eps / 3200) * g ≤ (1 + (2 * P.dp + P.eps)) * g :=
        mul_le_mul_of_nonneg_right (by linarith) (by linarith)
      nlinarith
    · linarith
  by_cases hm : k = .mat
  · subst hm
    obtain ⟨h1, h2⟩ : (∀ v, (M3.mulVec r v).norm ≤ g * v.norm) ∧ Close (g - 1 + δ) (r : M3) R := h
    have c1 : Close (2 * P.dp + P.eps) (exponentialMap P .mat w : M3) (den .rv (⟨w⟩ : RotVec)) := by
      have h1 : Near (P.eps / 3200) (P.dp + P.eps / 30) .mat (exponentialMap P .mat w) (den .rv (⟨w⟩ : RotVec)) :=
        conv_near P .mat .rv (r := (⟨w⟩ : RotVec)) trivial
      have h2 := h1.close (by linarith) (by linarith [eps_small P])
      rw [den_eq .mat] at h2
      exact h2.mono (by linarith)
    have e : mult P .mat .mat r (exponentialMap P .mat w) = (r : M3) * (exponentialMap P .mat w : M3) := rfl
    rw [e]
    obtain ⟨E, hE⟩ : ∃ E : M3, E = exponentialMap P .mat w := ⟨_, rfl⟩
    rw [← hE] at c1 ⊢
    have hEn : ∀ v, (E.mulVec v).norm ≤ (1 + (2 * P.dp + P.eps)) * v.norm := by
      intro v
      have := c1 v
      have t1 := V3.norm_add_le (E.mulVec v - (den .rv (⟨w⟩ : RotVec)).mulVec v) ((den .rv (⟨w⟩ : RotVec)).mulVec v)
      rw [sub_add_cancel, SO3.mulVec_norm hW] at t1
      linarith
    refine ⟨fun v => ?_, ?_⟩
    · rw [← M3.mulVec_mulVec]
      refine (h1 _).trans ?_
      rw [mul_assoc]
      exact mul_le_mul_of_nonneg_left (hEn v) (by linarith)
    · refine Close.mono (δ := (g * (2 * P.dp + P.eps) + (g - 1 + δ)) + ℓ) ?_ (by nlinarith)
      refine Close.trans (B := R * den .rv (⟨w⟩ : RotVec)) (fun v => ?_) hs
      have a1 := c1 v
      have a2 := h2 ((den .rv (⟨w⟩ : RotVec)).mulVec v)
      have a3 := h1 (E.mulVec v - (den .rv (⟨w⟩ : RotVec)).mulVec v)
      rw [SO3.mulVec_norm hW] at a2
      rw [← M3.mulVec_mulVec, ← M3.mulVec_mulVec]
      have e2 : M3.mulVec r (E.mulVec v) - R.mulVec ((den .rv (⟨w⟩ : RotVec)).mulVec v) =
          M3.mulVec r (E.mulVec v - (den .rv (⟨w⟩ : RotVec)).mulVec v) +
          (M3.mulVec r ((den .rv (⟨w⟩ : RotVec)).mulVec v) - R.mulVec ((den .rv (⟨w⟩ : RotVec)).mulVec v)) := by
        rw [M3.mulVec_sub]; abel
      rw [e2]
      refine (V3.norm_add_le _ _).trans ?_
      have := mul_le_mul_of_nonneg_left a1 (show 0 ≤ g by linarith)
      nlinarith
  · have key : ∀ (hv : Valid k r) (hc : Close δ (den k r) R), Valid k (mult P k k r (exponentialMap P k w)) ∧
        Close (δ + (2 * P.dp + P.eps) + ℓ) (den k (mult P k k r (exponentialMap P k w))) R' := by
      intro hv hc
      have h1 : Near (P.eps / 3200) (P.dp + P.eps / 30) k (exponentialMap P k w) (den .rv (⟨w⟩ : RotVec)) :=
        conv_near P k .rv (r := (⟨w⟩ : RotVec)) trivial
      have h2 := mult_near (P := P) (near_of_valid hv) h1 (den_isSO3 hv) le_rfl (by norm_num) (by linarith)
        (by linarith [eps_small P]) (fun h => hm h.1)
      have c1 : Close (2 * P.dp + P.eps) (den k (mult P k k r (exponentialMap P k w))) (den k r * den .rv (⟨w⟩ : RotVec)) := by
        rw [den_eq]
        cases k
        · exact absurd rfl hq
        · exact absurd rfl hm
        · exact h2.2.mono (by linarith)
        all_goals exact Close.mono h2 (by linarith)
      refine ⟨?_, ((c1.trans (hc.mul_right hW)).trans hs).mono (by linarith)⟩
      cases k
      · exact absurd rfl hq
      · exact absurd rfl hm
      · exact (valid_aa_iff _).mpr h2.1
      all_goals trivial
    cases k
    · exact absurd rfl hq
    · exact absurd rfl hm
    all_goals exact key h.1 h.2

private lemma r_init {k : Kind} {r : Rep k} (h : Valid k r) {δ : ℝ} {R : M3} (hc : Close δ (den k r) R) : RInv k 1 δ r R := by
  cases k
  · change NearQ (1 - 1) δ r R
    have := NearQ.of_unit ((valid_quat_iff _).mp h)
    rw [den_eq] at hc
    exact (this.close hc).mono (by norm_num) (by linarith)
  · refine ⟨fun v => ?_, ?_⟩
    · have := SO3.mulVec_norm (den_isSO3 h) v
      rw [den_eq] at this
      rw [one_mul]; exact this.le
    · rw [den_eq] at hc; exact hc.mono (by linarith)
  all_goals exact ⟨h, hc⟩

private lemma r_final {k : Kind} {g δ : ℝ} {r : Rep k} {R : M3} (h : RInv k g δ r R) (hg : g - 1 ≤ 1 / 100) (h1 : 1 ≤ g) :
    Close (201 / 100 * (g - 1) + δ) (den k r) R := by
  cases k
  · have h : NearQ (g - 1) δ r R := h
    rw [den_eq]; exact h.sandwich hg
  · rw [den_eq]; exact Close.mono h.2 (by linarith)
  all_goals exact Close.mono h.2 (by linarith)

/-- What `rotate()` makes of a value in the loop. -/
private lemma r_rotate (P : Prec) {k : Kind} {g δ : ℝ} {r : Rep k} {R : M3} (h : RInv k g δ r R) (hg : g - 1 ≤ 1 / 100) (h1 : 1 ≤ g)
    (v : V3) : (rotate P k r v - R.mulVec v).norm ≤ (402 / 100 * (g - 1) + δ + P.eps) * v.norm := by
  have he := P.eps_pos
  have hv := v.norm_nonneg
  have other : ∀ {k : Kind} {r : Rep k}, Valid k r → Close δ (den k r) R →
      (rotate P k r v - R.mulVec v).norm ≤ (402 / 100 * (g - 1) + δ + P.eps) * v.norm := by
    intro k r hr hc
    have a := rotate_close P hr v
    have b := hc v
    rw [act_eq] at a
    have t := V3.norm_add_le (rotate P k r v - (den k r).mulVec v) ((den k r).mulVec v - R.mulVec v)
    rw [sub_add_sub_cancel] at t
    have := mul_nonneg (show (0 : ℝ) ≤ g - 1 by linarith) hv
    have := mul_nonneg he.le hv
    nlinarith
  cases k
  · have h : NearQ (g - 1) δ r R := h
    exact ((h.toRotationMatrix hg) v).trans (mul_le_mul_of_nonneg_right (by linarith) hv)
  · exact (h.2 v).trans (mul_le_mul_of_nonneg_right (by linarith) hv)
  all_goals exact other h.1 h.2

private lemma pow_growth {x : ℝ} (hx : 0 ≤ x) {n : ℕ} (hn : n * x ≤ 1 / 200) :
    1 ≤ (1 + x) ^ n ∧ (1 + x) ^ n - 1 ≤ 2 * (n * x) := by
  refine ⟨one_le_pow₀ (by linarith), ?_⟩
  have h0 : 0 ≤ n * x := by positivity
  have h3 : (1 + x) ^ n ≤ Real.exp (n * x) := by
    rw [Real.exp_nat_mul]; exact pow_le_pow_left₀ (by linarith) (by linarith [Real.add_one_le_exp x]) _
  have h5 := Real.abs_exp_sub_one_le (x := n * x) (by rw [abs_of_nonneg h0]; linarith)
  rw [abs_of_nonneg h0] at h5
  have := (abs_le.mp h5).2
  linarith

/-- The loop along a sequence of exact poses `(R 0, p 0), (R 1, p 1), …`. -/
private lemma odo_run (P : Prec) {k : Kind} {ℓ m V : ℝ} (hV : 0 ≤ V) : ∀ (l : List (V3 × V3)) (R : ℕ → M3) (p : ℕ → V3) (g δ ρ : ℝ)
    (T : Pose k), 1 ≤ g → g * (1 + (2 * P.dp + P.eps)) ^ l.length - 1 ≤ 1 / 100 → 0 ≤ ℓ → (∀ i, IsSO3 (R i)) →
    (∀ i (hi : i < l.length), (l[i]).1.norm ≤ V ∧ Close ℓ (R i * den .rv (⟨(l[i]).2⟩ : RotVec)) (R (i + 1)) ∧
      (p (i + 1) - (p i + (R i).mulVec (l[i]).1)).norm ≤ m) →
    RInv k g δ T.rotation (R 0) → (T.position - p 0).norm ≤ ρ →
    RInv k (g * (1 + (2 * P.dp + P.eps)) ^ l.length) (δ + l.length * (2 * P.dp + P.eps + ℓ)) (odometryLoop P k T l).rotation
      (R l.length) ∧
    ((odometryLoop P k T l).position - p l.length).norm ≤ ρ + l.length * (m + V *
      (402 / 100 * (g * (1 + (2 * P.dp + P.eps)) ^ l.length - 1) + δ + l.length * (2 * P.dp + P.eps + ℓ) + P.eps)) := by
  have he := P.eps_pos
  have hdp := P.dp_pos
  intro l
  induction l with
  | nil => intro R p g δ ρ T _ _ _ _ _ h hp; exact ⟨by simpa [odometryLoop] using h, by simpa [odometryLoop] using hp⟩
  | cons a l ih =>
    obtain ⟨v, w⟩ := a
    intro R p g δ ρ T hg hgn hℓ hR hs h hp
    obtain ⟨hv, hc, hm⟩ : v.norm ≤ V ∧ Close ℓ (R 0 * den .rv (⟨w⟩ : RotVec)) (R 1) ∧ (p 1 - (p 0 + (R 0).mulVec v)).norm ≤ m :=
      hs 0 (by simp)
    have hpw : 1 ≤ (1 + (2 * P.dp + P.eps)) ^ l.length := one_le_pow₀ (by linarith)
    have e1 : g * (1 + (2 * P.dp + P.eps)) * (1 + (2 * P.dp + P.eps)) ^ l.length =
        g * (1 + (2 * P.dp + P.eps)) ^ ((v, w) :: l).length := by rw [List.length_cons, pow_succ]; ring
    have e2 : δ + (2 * P.dp + P.eps) + ℓ + l.length * (2 * P.dp + P.eps + ℓ) =
        δ + (((v, w) :: l).length : ℝ) * (2 * P.dp + P.eps + ℓ) := by rw [List.length_cons]; push_cast; ring
    have hg' : 1 ≤ g * (1 + (2 * P.dp + P.eps)) := by nlinarith
    have hgle : g ≤ g * (1 + (2 * P.dp + P.eps)) ^ ((v, w) :: l).length :=
      le_mul_of_one_le_right (by linarith) (one_le_pow₀ (by linarith))
    have h1 := r_step P w (hR 0) hg h hc
    have hrot := r_rotate P h (by linarith) hg v
    obtain ⟨E, hE⟩ : ∃ E : ℝ, E = 402 / 100 * (g * (1 + (2 * P.dp + P.eps)) ^ ((v, w) :: l).length - 1) + δ +
      (((v, w) :: l).length : ℝ) * (2 * P.dp + P.eps + ℓ) + P.eps := ⟨_, rfl⟩
    have hδ : 402 / 100 * (g - 1) + δ + P.eps ≤ E := by
      rw [hE]
      have : 0 ≤ (((v, w) :: l).length : ℝ) * (2 * P.dp + P.eps + ℓ) := by positivity
      linarith
    have hδ0 : 0 ≤ 402 / 100 * (g - 1) + δ + P.eps := by
      have hd : 0 ≤ δ ∨ k = .mat := by
        cases k
        · exact Or.inl (NearQ.nonneg h).2
        · exact Or.inr rfl
        all_goals exact Or.inl h.2.nonneg
      rcases hd with hd | rfl
      · linarith
      · have := h.2.nonneg; linarith
    have hpos : ((T.mult P k k ⟨v, exponentialMap P k w⟩).position - p 1).norm ≤ ρ + (m + V * E) := by
      have e : (T.mult P k k ⟨v, exponentialMap P k w⟩).position - p 1 =
          (T.position - p 0) + ((rotate P k T.rotation v - (R 0).mulVec v) + -(p 1 - (p 0 + (R 0).mulVec v))) := by
        simp only [Pose.mult]; abel
      rw [e]
      have n1 := V3.norm_add_le (T.position - p 0) ((rotate P k T.rotation v - (R 0).mulVec v) + -(p 1 - (p 0 + (R 0).mulVec v)))
      have n2 := V3.norm_add_le (rotate P k T.rotation v - (R 0).mulVec v) (-(p 1 - (p 0 + (R 0).mulVec v)))
      rw [V3.norm_neg] at n2
      have n3 : (402 / 100 * (g - 1) + δ + P.eps) * v.norm ≤ V * E := by
        rw [mul_comm]; exact mul_le_mul hv hδ hδ0 hV
      linarith
    have h2 := ih (fun i => R (i + 1)) (fun i => p (i + 1)) _ _ _ (T.mult P k k ⟨v, exponentialMap P k w⟩) hg'
      (by rw [e1]; exact hgn) hℓ (fun i => hR _)
      (fun i hi => by have := hs (i + 1) (by simpa using hi); simpa using this) h1 hpos
    obtain ⟨h3, h4⟩ := h2
    rw [e1, e2] at h3
    have hE' : 402 / 100 * (g * (1 + (2 * P.dp + P.eps)) ^ ((v, w) :: l).length - 1) + (δ + (2 * P.dp + P.eps) + ℓ) +
        l.length * (2 * P.dp + P.eps + ℓ) + P.eps = E := by rw [hE]; linarith
    rw [e1, hE'] at h4
    refine ⟨h3, h4.trans ?_⟩
    rw [← hE, show (((v, w) :: l).length : ℝ) = l.length + 1 by rw [List.length_cons]; push_cast; rfl]
    exact le_of_eq (by ring)

private lemma odo_bound (P : Prec) {k : Kind} {ℓ m V δ ρ : ℝ} (hV : 0 ≤ V) {l : List (V3 × V3)} {R : ℕ → M3} {p : ℕ → V3} {T : Pose k}
    (hT : ValidPose k T) (hℓ : 0 ≤ ℓ) (hR : ∀ i, IsSO3 (R i))
    (hs : ∀ i (hi : i < l.length), (l[i]).1.norm ≤ V ∧ Close ℓ (R i * den .rv (⟨(l[i]).2⟩ : RotVec)) (R (i + 1)) ∧
      (p (i + 1) - (p i + (R i).mulVec (l[i]).1)).norm ≤ m)
    (h0 : Close δ (den k T.rotation) (R 0)) (hp : (T.position - p 0).norm ≤ ρ)
    (hn : l.length * (2 * P.dp + P.eps) ≤ 1 / 200) :
    Close (δ + l.length * (6 * (2 * P.dp + P.eps) + ℓ)) (den k (odometryLoop P k T l).rotation) (R l.length) ∧
    ((odometryLoop P k T l).position - p l.length).norm ≤
      ρ + l.length * (m + V * (δ + l.length * (11 * (2 * P.dp + P.eps) + ℓ))) := by
  have he := P.eps_pos
  have hdp := P.dp_pos
  obtain ⟨p1, p2⟩ := pow_growth (x := 2 * P.dp + P.eps) (by linarith) hn
  obtain ⟨a, b⟩ := odo_run P hV l R p 1 δ ρ T le_rfl (by rw [one_mul]; linarith) hℓ hR hs (r_init hT h0) hp
  rw [one_mul] at a b
  refine ⟨(r_final a (by linarith) p1).mono (by linarith), b.trans ?_⟩
  rcases Nat.eq_zero_or_pos l.length with h | h
  · rw [h]; simp
  · have h1 : (1 : ℝ) ≤ l.length := by exact_mod_cast h
    have h2 : P.eps ≤ l.length * (2 * P.dp + P.eps) := by nlinarith
    have : V * (402 / 100 * ((1 + (2 * P.dp + P.eps)) ^ l.length - 1) + δ + l.length * (2 * P.dp + P.eps + ℓ) + P.eps) ≤
        V * (δ + l.length * (11 * (2 * P.dp + P.eps) + ℓ)) := mul_le_mul_of_nonneg_left (by linarith) hV
    have := mul_le_mul_of_nonneg_left (add_le_add_left this m) (show (0 : ℝ) ≤ l.length by linarith)
    linarith

/-! ## One exact step -/

/-- The rotation after one step of length `h` with the local angular velocity frozen. -/
lemma local_step_error {k : Kind} {r : ℝ → Rep k} {w : ℝ → V3} {t h L : ℝ} (h0 : 0 ≤ h)
    (hv : ∀ s ∈ Set.Icc t (t + h), Valid k (r s)) (hw : ∀ s ∈ Set.Icc t (t + h), IsLocalVelocity k r s (w s))
    (hL : ∀ s ∈ Set.Icc t (t + h), (w s - w t).norm ≤ L * (s - t)) :
    Close (L * h ^ 2 / 2) (den k (r t) * den .rv (⟨h • w t⟩ : RotVec)) (den k (r (t + h))) := by
  have key := exp_step_error (k := .mat) (r := fun s => (den k (r s)).transpose) (w := fun s => -(w s)) (t := t) (h := h) (L := L) h0
    (fun s hs => SO3.transpose (den_isSO3 (hv s hs)))
    (fun s hs => by
      rw [isGlobalVelocity_iff]
      have h1 := (isLocalVelocity_iff.mp (hw s hs)).transpose
      simp only [den_eq .mat]
      refine h1.congr ?_
      change _ = skew (-(w s)) * (den k (r s)).transpose
      rw [M3.transpose_mul]
      congr 1
      ext <;> simp [skew, M3.transpose])
    (fun s hs => by
      have e : -(w s) - -(w t) = -(w s - w t) := by abel
      rw [e, V3.norm_neg]; exact hL s hs)
  have h2 := key.transpose
  simp only [den_eq .mat] at h2
  have e1 : ∀ m : M3, (dmat .mat m : M3) = m := fun _ => rfl
  simp only [e1, M3.transpose_mul, M3.transpose_transpose] at h2
  have e2 : (den .rv (⟨h • -(w t)⟩ : RotVec)).transpose = den .rv (⟨h • w t⟩ : RotVec) := by
    rw [smul_neg, rv_neg_transpose, M3.transpose_transpose]
  rw [e2] at h2
  exact h2

/-- A point whose velocity changes by at most `A (s - t)` is after the time `h` within `A h²/2` of where the frozen velocity leads. -/
lemma position_step_error {p u : ℝ → V3} {t h A : ℝ} (h0 : 0 ≤ h) (hp : ∀ s ∈ Set.Icc t (t + h), HasDerivV p (u s) s)
    (hA : ∀ s ∈ Set.Icc t (t + h), (u s - u t).norm ≤ A * (s - t)) :
    (p (t + h) - (p t + h • u t)).norm ≤ A * h ^ 2 / 2 := by
  obtain ⟨d, hd⟩ : ∃ d : V3, d = p (t + h) - (p t + h • u t) := ⟨_, rfl⟩
  have hth : t + h ∈ Set.Icc t (t + h) := ⟨by linarith, le_rfl⟩
  have hder : ∀ s ∈ Set.Icc t (t + h), HasDerivAt (fun s => d.dot (p s - (p t + (s - t) • u t))) (d.dot (u s - u t)) s := by
    intro s hs
    obtain ⟨x, y, z⟩ := hp s hs
    have lin : ∀ a b : ℝ, HasDerivAt (fun s => a + (s - t) * b) b s := fun a b => by
      refine ((((hasDerivAt_id s).sub_const t).mul_const b).const_add a).congr_deriv (by simp)
    have := (((x.sub (lin (p t).x (u t).x)).const_mul d.x).add ((y.sub (lin (p t).y (u t).y)).const_mul d.y)).add
      ((z.sub (lin (p t).z (u t).z)).const_mul d.z)
    refine this.congr_deriv ?_
    simp [V3.dot]
  have key := image_norm_le_of_norm_deriv_right_le_deriv_boundary (f := fun s => d.dot (p s - (p t + (s - t) • u t))) (a := t) (b := t + h)
    (f' := fun s => d.dot (u s - u t))
    (B := fun s => A * (s - t) ^ 2 / 2 * d.norm) (B' := fun s => A * (s - t) * d.norm)
    (fun s hs => (hder s hs).continuousAt.continuousWithinAt)
    (fun s hs => (hder s ⟨hs.1, hs.2.le⟩).hasDerivWithinAt)
    (by simp [V3.dot])
    (fun s => by
      have := (((((hasDerivAt_id s).sub_const t).pow 2).const_mul A).div_const 2).mul_const d.norm
      refine this.congr_deriv ?_
      change A * (((2 : ℕ) : ℝ) * (s - t) ^ (2 - 1) * 1) / 2 * _ = _
      push_cast; ring)
    (fun s hs => by
      rw [Real.norm_eq_abs]
      refine (V3.dot_abs_le _ _).trans ?_
      rw [mul_comm]
      exact mul_le_mul_of_nonneg_right (hA s ⟨hs.1, hs.2.le⟩) d.norm_nonneg)
    hth
  simp only [add_sub_cancel_left, ← hd] at key
  rw [Real.norm_eq_abs, show d.dot d = d.norm ^ 2 by rw [V3.norm_sq]; rfl, abs_of_nonneg (by positivity)] at key
  rw [← hd]
  by_cases hz : d.norm = 0
  · rw [hz]
    have h1 := hA (t + h) hth
    rw [add_sub_cancel_left] at h1
    have := mul_nonneg ((V3.norm_nonneg _).trans h1) h0
    nlinarith
  · have hq : 0 < d.norm := lt_of_le_of_ne d.norm_nonneg (Ne.symm hz)
    nlinarith

/-! ## The theorems -/

/-- The exact pose after the first steps. -/
private def exactSteps (X : M3 × V3) (l : List (V3 × V3)) : M3 × V3 :=
  l.foldl (fun X a => (X.1 * den .rv (⟨a.2⟩ : RotVec), X.2 + X.1.mulVec a.1)) X

private lemma exactSteps_eq : ∀ (l : List (V3 × V3)) (X : M3 × V3) (q : V3),
    (exactSteps X l).1.mulVec q + (exactSteps X l).2 = X.1.mulVec (stepsInTurn l q) + X.2 := by
  intro l
  induction l with
  | nil => intro X q; rfl
  | cons a l ih =>
    intro X q
    obtain ⟨v, w⟩ := a
    refine (ih (X.1 * den .rv (⟨w⟩ : RotVec), X.2 + X.1.mulVec v) q).trans ?_
    simp only [stepsInTurn]
    rw [M3.mulVec_add, act_eq, ← M3.mulVec_mulVec]
    abel

private lemma exactSteps_so3 : ∀ (l : List (V3 × V3)) (X : M3 × V3), IsSO3 X.1 → IsSO3 (exactSteps X l).1 := by
  intro l
  induction l with
  | nil => intro X h; exact h
  | cons a l ih => intro X h; exact ih _ (SO3.mul h (den_isSO3 (k := .rv) (r := (⟨a.2⟩ : RotVec)) trivial))

/-- **C117 (a).** For every valid pose of every rotation class and every list of body-frame displacements (each at most `V` long) and
rotation vectors: the loop moves every point of the body to within `n·6c·|q| + n²·11c·V` of where the exact displacements, carried
out in turn, move it, `c = 2·dp + eps`, as long as `n c ≤ 1/200`. -/
theorem C117_steps (P : Prec) (k : Kind) (T : Pose k) (hT : ValidPose k T) (l : List (V3 × V3)) (V : ℝ)
    (hV : ∀ a ∈ l, a.1.norm ≤ V) (hn : l.length * (2 * P.dp + P.eps) ≤ 1 / 200) (q : V3) :
    (move k (odometryLoop P k T l) q - move k T (stepsInTurn l q)).norm ≤
      l.length * (6 * (2 * P.dp + P.eps)) * q.norm + l.length * (l.length * (11 * (2 * P.dp + P.eps))) * V := by
  rcases l.eq_nil_or_concat with hl | ⟨l', a', hl⟩
  · subst hl; simp [odometryLoop, stepsInTurn]
  have hV0 : 0 ≤ V := (V3.norm_nonneg _).trans (hV a' (by rw [hl]; simp))
  obtain ⟨X, hX⟩ : ∃ X : ℕ → M3 × V3, X = fun i => exactSteps (den k T.rotation, T.position) (l.take i) := ⟨_, rfl⟩
  have hXs : ∀ i (hi : i < l.length), X (i + 1) = ((X i).1 * den .rv (⟨(l[i]).2⟩ : RotVec), (X i).2 + (X i).1.mulVec (l[i]).1) := by
    intro i hi
    rw [hX]
    simp only [exactSteps]
    rw [List.take_add_one, List.getElem?_eq_getElem hi, List.foldl_append]
    rfl
  obtain ⟨h1, h2⟩ := odo_bound P (ℓ := 0) (m := 0) (δ := 0) (ρ := 0) hV0 (l := l) (R := fun i => (X i).1) (p := fun i => (X i).2) hT le_rfl
    (fun i => by rw [hX]; exact exactSteps_so3 _ _ (den_isSO3 hT))
    (fun i hi => by
      have e := hXs i hi
      refine ⟨hV _ (List.getElem_mem hi), Close.of_eq ?_, ?_⟩
      · simp only [e]
      · simp only [e]; rw [sub_self, V3.norm_zero])
    (Close.of_eq (by rw [hX]; rfl)) (by rw [hX]; simp [exactSteps]) hn
  have e : move k T (stepsInTurn l q) = (X l.length).1.mulVec q + (X l.length).2 := by
    rw [hX]
    simp only [List.take_length]
    rw [exactSteps_eq, move, act_eq]
  rw [e, move, act_eq]
  have t := V3.norm_add_le ((den k (odometryLoop P k T l).rotation).mulVec q - (X l.length).1.mulVec q)
    ((odometryLoop P k T l).position - (X l.length).2)
  rw [show (den k (odometryLoop P k T l).rotation).mulVec q + (odometryLoop P k T l).position -
      ((X l.length).1.mulVec q + (X l.length).2) = ((den k (odometryLoop P k T l).rotation).mulVec q - (X l.length).1.mulVec q) +
    ((odometryLoop P k T l).position - (X l.length).2) by abel]
  have := h1 q
  refine t.trans ?_
  have a1 : (0 + (l.length : ℝ) * (6 * (2 * P.dp + P.eps) + 0)) * q.norm = l.length * (6 * (2 * P.dp + P.eps)) * q.norm := by ring
  have a2 : 0 + (l.length : ℝ) * (0 + V * (0 + l.length * (11 * (2 * P.dp + P.eps) + 0))) =
      l.length * (l.length * (11 * (2 * P.dp + P.eps))) * V := by ring
  rw [a1] at this
  rw [a2] at h2
  linarith

lemma readings_length (v w : ℝ → V3) (h : ℝ) : ∀ (n : ℕ) (t : ℝ), (readings v w h t n).length = n := by
  intro n
  induction n with
  | zero => intro t; rfl
  | succ n ih => intro t; rw [readings, List.length_cons, ih]

lemma readings_get (v w : ℝ → V3) (h : ℝ) : ∀ (n : ℕ) (t : ℝ) (i : ℕ) (hi : i < (readings v w h t n).length),
    (readings v w h t n)[i] = (h • v (t + i * h), h • w (t + i * h)) := by
  intro n
  induction n with
  | zero => intro t i hi; exact absurd hi (by simp [readings])
  | succ n ih =>
    intro t i hi
    cases i with
    | zero => simp [readings]
    | succ i =>
      simp only [readings, List.getElem_cons_succ]
      rw [ih]
      have e : t + h + i * h = t + ((i + 1 : ℕ) : ℝ) * h := by push_cast; ring
      rw [e]

/-- **C117 (b).** Dead reckoning. Let a body move along the poses `T(s)` (of any rotation class) with the body-frame velocities
`v(s)` and `w(s)`; let `w` be Lipschitz with constant `L`, the speed at most `V`, and let the velocity in the world frame change by
at most `A` per unit time (`A` bounds the acceleration). Starting from a valid pose (of any, possibly another rotation class) whose
rotation is within `δ` and whose position is within `ρ` of the truth, the loop over `n` readings with step `h` ends with a rotation
within `δ + n(L h²/2 + 6c)` and a position within `ρ + n A h²/2 + n h V (δ + n(L h²/2 + 11c))` of the truth, `c = 2·dp + eps`. -/
theorem C117_odometry (P : Prec) (k kq : Kind) (T₀ : Pose k) (hT : ValidPose k T₀) (T : ℝ → Pose kq) (v w : ℝ → V3)
    (t₀ h L A V δ ρ : ℝ) (n : ℕ) (h0 : 0 ≤ h)
    (hm : ∀ s ∈ Set.Icc t₀ (t₀ + n * h), ValidPose kq (T s) ∧ MovesWith kq T s (v s) (w s) ∧ (v s).norm ≤ V)
    (hL : ∀ s ∈ Set.Icc t₀ (t₀ + n * h), ∀ t ∈ Set.Icc t₀ (t₀ + n * h), (w s - w t).norm ≤ L * |s - t|)
    (hA : ∀ s ∈ Set.Icc t₀ (t₀ + n * h), ∀ t ∈ Set.Icc t₀ (t₀ + n * h),
      (act kq (T s).rotation (v s) - act kq (T t).rotation (v t)).norm ≤ A * |s - t|)
    (hδ : ∀ u, (act k T₀.rotation u - act kq (T t₀).rotation u).norm ≤ δ * u.norm) (hρ : (T₀.position - (T t₀).position).norm ≤ ρ)
    (hL0 : 0 ≤ L) (hn : n * (2 * P.dp + P.eps) ≤ 1 / 200) :
    (∀ u, (act k (odometryLoop P k T₀ (readings v w h t₀ n)).rotation u - act kq (T (t₀ + n * h)).rotation u).norm ≤
      (δ + n * (L * h ^ 2 / 2 + 6 * (2 * P.dp + P.eps))) * u.norm) ∧
    ((odometryLoop P k T₀ (readings v w h t₀ n)).position - (T (t₀ + n * h)).position).norm ≤
      ρ + n * (A * h ^ 2 / 2) + n * h * V * (δ + n * (L * h ^ 2 / 2 + 11 * (2 * P.dp + P.eps))) := by
  have hmem : ∀ i : ℕ, i ≤ n → t₀ + i * h ∈ Set.Icc t₀ (t₀ + n * h) := by
    intro i hi
    have : (i : ℝ) * h ≤ n * h := mul_le_mul_of_nonneg_right (by exact_mod_cast hi) h0
    have : 0 ≤ (i : ℝ) * h := by positivity
    exact ⟨by linarith, by linarith⟩
  have hlen := readings_length v w h n t₀
  have hV0 : 0 ≤ V := (V3.norm_nonneg _).trans (hm _ (hmem 0 (Nat.zero_le n))).2.2
  obtain ⟨S, hS⟩ : ∃ S : ℕ → Pose kq, S = fun i => T (t₀ + (min i n : ℕ) * h) := ⟨_, rfl⟩
  have hSi : ∀ i, i ≤ n → S i = T (t₀ + i * h) := by
    intro i hi; rw [hS]; simp only [Nat.min_eq_left hi]
  have hb := odo_bound P (ℓ := L * h ^ 2 / 2) (m := A * h ^ 2 / 2) (V := h * V) (δ := δ) (ρ := ρ) (by positivity)
    (l := readings v w h t₀ n) (R := fun i => den kq (S i).rotation) (p := fun i => (S i).position) hT (by positivity)
    (fun i => by rw [hS]; exact den_isSO3 (hm _ (hmem _ (Nat.min_le_right i n))).1)
    (fun i hi => by
      have hi' : i < n := by rw [hlen] at hi; exact hi
      have m1 := hmem i hi'.le
      have m2 := hmem (i + 1) hi'
      have e2 : t₀ + ((i + 1 : ℕ) : ℝ) * h = t₀ + i * h + h := by push_cast; ring
      rw [e2] at m2
      have hsub : ∀ s ∈ Set.Icc (t₀ + i * h) (t₀ + i * h + h), s ∈ Set.Icc t₀ (t₀ + n * h) := fun s hs =>
        ⟨m1.1.trans hs.1, hs.2.trans m2.2⟩
      rw [readings_get]
      simp only [hSi i hi'.le, hSi (i + 1) hi', e2]
      refine ⟨?_, ?_, ?_⟩
      · rw [V3.norm_smul, abs_of_nonneg h0]
        exact mul_le_mul_of_nonneg_left (hm _ m1).2.2 h0
      · exact local_step_error (k := kq) (r := fun s => (T s).rotation) (w := w) h0 (fun s hs => (hm s (hsub s hs)).1)
          (fun s hs => (hm s (hsub s hs)).2.1.1)
          (fun s hs => by
            have := hL s (hsub s hs) _ m1
            rwa [abs_of_nonneg (by linarith [hs.1])] at this)
      · have := position_step_error (p := fun s => (T s).position) (u := fun s => act kq (T s).rotation (v s)) (t := t₀ + i * h) (h := h)
          (A := A) h0 (fun s hs => (hm s (hsub s hs)).2.1.2)
          (fun s hs => by
            have := hA s (hsub s hs) _ m1
            rwa [abs_of_nonneg (by linarith [hs.1])] at this)
        simp only [act_eq] at this
        rwa [M3.mulVec_smul])
    (fun u => by
      have := hδ u
      rw [act_eq, act_eq] at this
      rw [hSi 0 (Nat.zero_le n)]; simpa using this)
    (by rw [hSi 0 (Nat.zero_le n)]; simpa using hρ)
    (by rw [hlen]; exact hn)
  rw [hlen, hSi n le_rfl] at hb
  refine ⟨fun u => ?_, hb.2.trans (le_of_eq (by ring))⟩
  have := hb.1 u
  rw [act_eq, act_eq]
  rw [add_comm (L * h ^ 2 / 2)]
  exact this

/-- **C117 (c).** Body-frame angular velocity by differences: `q(t).inverseRotate(q(t+h).boxMinus(q(t))) / h` is the body-frame angular
velocity at `t` up to `L h + (4 dp + 2 eps)/h`. -/
theorem C117_velocity_by_differences (P : Prec) (k : Kind) (q : ℝ → Rep k) (w : ℝ → V3) (t h L : ℝ) (h0 : 0 < h)
    (hq : ∀ s ∈ Set.Icc t (t + h), Valid k (q s) ∧ IsLocalVelocity k q s (w s))
    (hL : ∀ s ∈ Set.Icc t (t + h), (w s - w t).norm ≤ L * (s - t))
    (hs : h * (w t).norm + L * h ^ 2 ≤ 1 / 2) :
    ((1 / h) • inverseRotate P k (q t) (boxMinus P k k (q (t + h)) (q t)) - w t).norm ≤ L * h + (4 * P.dp + 2 * P.eps) / h := by
  have he := P.eps_pos
  have hdp := P.dp_pos
  have he' := eps_small P
  have hdp' := P.dp_le
  have ht : t ∈ Set.Icc t (t + h) := ⟨le_rfl, by linarith⟩
  have hth : t + h ∈ Set.Icc t (t + h) := ⟨by linarith, le_rfl⟩
  have hv := (hq t ht).1
  have hv' := (hq (t + h) hth).1
  have hR := den_isSO3 hv
  have hLn : 0 ≤ L * h ^ 2 := by
    have h1 := hL (t + h) hth
    rw [add_sub_cancel_left] at h1
    have := mul_nonneg ((V3.norm_nonneg _).trans h1) h0.le
    nlinarith
  obtain ⟨W, hW⟩ : ∃ W : V3, W = (den k (q t)).mulVec (h • w t) := ⟨_, rfl⟩
  have hWn : W.norm = h * (w t).norm := by rw [hW, SO3.mulVec_norm hR, V3.norm_smul, abs_of_pos h0]
  have c1 := local_step_error h0.le (fun s hs => (hq s hs).1) (fun s hs => (hq s hs).2) hL
  rw [den_rv_conj hR, ← hW] at c1
  have c2 := c1.mul_right (SO3.transpose hR)
  rw [mul_assoc, hR.1, mul_one] at c2
  have c3 := (boxMinus_close P hv' hv).trans c2.symm
  have C59b := C59_boxMinus P k k (q (t + h)) (q t) hv' hv
  obtain ⟨b, hb⟩ : ∃ b, b = boxMinus P k k (q (t + h)) (q t) := ⟨_, rfl⟩
  rw [← hb] at c3 C59b ⊢
  have hbn : b.norm ≤ 1 := by
    have a1 := rotAngle_close (den_isSO3 (k := .rv) (r := ⟨b⟩) trivial) (den_isSO3 (k := .rv) (r := ⟨W⟩) trivial) c3
    rw [rotAngle_rv C59b.1] at a1
    have a3 := rotAngle_rv_le (⟨W⟩ : RotVec)
    rw [← den_eq] at a3
    have a3' : rotAngle (den .rv (⟨W⟩ : RotVec)) ≤ h * (w t).norm := by rw [← hWn]; exact a3
    have := (abs_le.mp a1).2
    linarith
  have key := rv_lipschitz hbn (by rw [hWn]; linarith) c3
  have inv := (C59_rotate P k (q t) hv b).2
  obtain ⟨x, hx⟩ : ∃ x, x = inverseRotate P k (q t) b := ⟨_, rfl⟩
  rw [← hx] at inv ⊢
  rw [act_eq] at inv
  have e1 : (x - h • w t).norm ≤ P.eps / 400 + 2 * (2 * P.dp + P.eps / 4 + L * h ^ 2 / 2) := by
    have n1 : (x - h • w t).norm = ((den k (q t)).mulVec x - W).norm := by
      rw [hW, ← M3.mulVec_sub, SO3.mulVec_norm hR]
    have n2 := V3.norm_add_le ((den k (q t)).mulVec x - b) (b - W)
    rw [sub_add_sub_cancel] at n2
    have n3 : P.eps / 400 * b.norm ≤ P.eps / 400 := mul_le_of_le_one_right (by positivity) hbn
    rw [n1]; linarith
  have e : (1 / h) • x - w t = (1 / h) • (x - h • w t) := by
    rw [smul_sub, smul_smul, one_div_mul_cancel h0.ne', one_smul]
  rw [e, V3.norm_smul, abs_of_pos (by positivity)]
  have h2 : 1 / h * (x - h • w t).norm ≤ 1 / h * (L * h ^ 2 + 4 * P.dp + 2 * P.eps) :=
    mul_le_mul_of_nonneg_left (by linarith) (by positivity)
  refine h2.trans (le_of_eq ?_)
  field_simp
  ring

/-- **C117 (d).** Body-frame linear velocity by differences: `T(t).rotation.inverseRotate(p(t+h) - p(t)) / h` is the body-frame linear
velocity at `t` up to `A h/2 (1 + eps/400) + eps/400 |v|`. -/
theorem C117_linear_velocity (P : Prec) (k : Kind) (T : ℝ → Pose k) (v w : ℝ → V3) (t h A : ℝ) (h0 : 0 < h)
    (hm : ∀ s ∈ Set.Icc t (t + h), ValidPose k (T s) ∧ MovesWith k T s (v s) (w s))
    (hA : ∀ s ∈ Set.Icc t (t + h), (act k (T s).rotation (v s) - act k (T t).rotation (v t)).norm ≤ A * (s - t)) :
    ((1 / h) • inverseRotate P k (T t).rotation ((T (t + h)).position - (T t).position) - v t).norm ≤
      (1 + P.eps / 400) * (A * h / 2) + P.eps / 400 * (v t).norm := by
  have he := P.eps_pos
  have ht : t ∈ Set.Icc t (t + h) := ⟨le_rfl, by linarith⟩
  have hR := den_isSO3 (hm t ht).1
  have step := position_step_error (p := fun s => (T s).position) (u := fun s => act k (T s).rotation (v s)) h0.le
    (fun s hs => (hm s hs).2.2) hA
  obtain ⟨d, hd⟩ : ∃ d, d = (T (t + h)).position - (T t).position := ⟨_, rfl⟩
  have inv := (C59_rotate P k (T t).rotation (hm t ht).1 d).2
  rw [← hd]
  obtain ⟨x, hx⟩ : ∃ x, x = inverseRotate P k (T t).rotation d := ⟨_, rfl⟩
  rw [← hx] at inv ⊢
  simp only [act_eq] at inv step
  rw [← sub_sub, ← hd] at step
  have e2 : (x - h • v t).norm = ((den k (T t).rotation).mulVec x - h • (den k (T t).rotation).mulVec (v t)).norm := by
    rw [← M3.mulVec_smul, ← M3.mulVec_sub, SO3.mulVec_norm hR]
  have n2 := V3.norm_add_le ((den k (T t).rotation).mulVec x - d) (d - h • (den k (T t).rotation).mulVec (v t))
  rw [sub_add_sub_cancel, ← e2] at n2
  have n3 := V3.norm_add_le (d - h • (den k (T t).rotation).mulVec (v t)) (h • (den k (T t).rotation).mulVec (v t))
  rw [sub_add_cancel, V3.norm_smul, abs_of_pos h0, SO3.mulVec_norm hR] at n3
  have n4 := mul_le_mul_of_nonneg_left (n3.trans (add_le_add_left step _)) (show 0 ≤ P.eps / 400 by positivity)
  have e : (1 / h) • x - v t = (1 / h) • (x - h • v t) := by
    rw [smul_sub, smul_smul, one_div_mul_cancel h0.ne', one_smul]
  rw [e, V3.norm_smul, abs_of_pos (by positivity)]
  have h2 : 1 / h * (x - h • v t).norm ≤ 1 / h * (P.eps / 400 * (A * h ^ 2 / 2 + h * (v t).norm) + A * h ^ 2 / 2) :=
    mul_le_mul_of_nonneg_left (by linarith) (by positivity)
  refine h2.trans (le_of_eq ?_)
  field_simp
  ring

/-- **C117, in numbers.** In double, one minute of readings at 1 kHz, at most 1 m/s, 1 m/s² and 1 rad/s²: starting from the true pose,
the orientation ends within 0.0301 rad and the position within 1.84 m of the truth, however the body moved. -/
theorem C117_minute (k kq : Kind) (T₀ : Pose k) (hT : ValidPose k T₀) (T : ℝ → Pose kq) (v w : ℝ → V3)
    (hm : ∀ s ∈ Set.Icc (0 : ℝ) 60, ValidPose kq (T s) ∧ MovesWith kq T s (v s) (w s) ∧ (v s).norm ≤ 1)
    (hL : ∀ s ∈ Set.Icc (0 : ℝ) 60, ∀ t ∈ Set.Icc (0 : ℝ) 60, (w s - w t).norm ≤ |s - t|)
    (hA : ∀ s ∈ Set.Icc (0 : ℝ) 60, ∀ t ∈ Set.Icc (0 : ℝ) 60,
      (act kq (T s).rotation (v s) - act kq (T t).rotation (v t)).norm ≤ |s - t|)
    (hδ : ∀ u, act k T₀.rotation u = act kq (T 0).rotation u) (hρ : T₀.position = (T 0).position) :
    (∀ u, (act k (odometryLoop .double k T₀ (readings v w (1 / 1000) 0 60000)).rotation u - act kq (T 60).rotation u).norm ≤
      301 / 10000 * u.norm) ∧
    ((odometryLoop .double k T₀ (readings v w (1 / 1000) 0 60000)).position - (T 60).position).norm ≤ 184 / 100 := by
  have e60 : (0 : ℝ) + ((60000 : ℕ) : ℝ) * (1 / 1000) = 60 := by norm_num
  have key := C117_odometry .double k kq T₀ hT T v w 0 (1 / 1000) 1 1 1 0 0 60000 (by norm_num) (by rw [e60]; exact hm)
    (by rw [e60]; simpa only [one_mul] using hL) (by rw [e60]; simpa only [one_mul] using hA)
    (fun u => by rw [hδ, sub_self, V3.norm_zero, zero_mul]) (by rw [hρ, sub_self, V3.norm_zero]) (by norm_num)
    (by norm_num [Prec.double])
  rw [e60] at key
  refine ⟨fun u => (key.1 u).trans (mul_le_mul_of_nonneg_right ?_ u.norm_nonneg), key.2.trans ?_⟩
  · norm_num [Prec.double]
  · norm_num [Prec.double]

/-- The hypotheses hold for a body that drives along a circle of radius 1 at 1 m/s, turning to the left. -/
theorem C117_example (s t : ℝ) :
    ValidPose .zyx (⟨⟨Real.sin s, 1 - Real.cos s, 0⟩, (⟨⟨s, 0, 0⟩⟩ : EulZyx)⟩ : Pose .zyx) ∧
    MovesWith .zyx (fun s => ⟨⟨Real.sin s, 1 - Real.cos s, 0⟩, (⟨⟨s, 0, 0⟩⟩ : EulZyx)⟩) s ⟨1, 0, 0⟩ ⟨0, 0, 1⟩ ∧
    (⟨1, 0, 0⟩ : V3).norm ≤ 1 ∧ ((⟨0, 0, 1⟩ : V3) - ⟨0, 0, 1⟩).norm ≤ |s - t| ∧
    (act .zyx (⟨⟨s, 0, 0⟩⟩ : EulZyx) ⟨1, 0, 0⟩ - act .zyx (⟨⟨t, 0, 0⟩⟩ : EulZyx) ⟨1, 0, 0⟩).norm ≤ |s - t| := by
  have e : ∀ (s : ℝ) (u : V3), act .zyx (⟨⟨s, 0, 0⟩⟩ : EulZyx) u =
      ⟨Real.cos s * u.x - Real.sin s * u.y, Real.sin s * u.x + Real.cos s * u.y, u.z⟩ := by
    intro s u
    simp [act, rotX, rotY, rotZ, EulZyx.x, EulZyx.y, EulZyx.z]
  have hc := Real.hasDerivAt_cos s
  have hs := Real.hasDerivAt_sin s
  refine ⟨trivial, ⟨fun u => ?_, ?_⟩, ?_, ?_, ?_⟩
  · simp only [e]
    refine ⟨?_, ?_, ?_⟩
    · exact ((hc.mul_const u.x).sub (hs.mul_const u.y)).congr_deriv (by simp [V3.cross]; ring)
    · exact ((hs.mul_const u.x).add (hc.mul_const u.y)).congr_deriv (by simp [V3.cross]; ring)
    · exact (hasDerivAt_const s u.z).congr_deriv (by simp [V3.cross])
  · simp only [e]
    refine ⟨?_, ?_, ?_⟩
    · exact hs.congr_deriv (by simp)
    · exact (hc.const_sub 1).congr_deriv (by simp)
    · exact (hasDerivAt_const s 0).congr_deriv (by simp)
  · exact (V3.norm_eq_one_iff.mpr (by norm_num [V3.normSq, V3.dot])).le
  · rw [sub_self, V3.norm_zero]; exact abs_nonneg _
  · rw [e, e]
    have h1 : (⟨Real.cos s * 1 - Real.sin s * 0, Real.sin s * 1 + Real.cos s * 0, 0⟩ -
        ⟨Real.cos t * 1 - Real.sin t * 0, Real.sin t * 1 + Real.cos t * 0, 0⟩ : V3).norm ^ 2 ≤ |s - t| ^ 2 := by
      rw [V3.norm_sq, sq_abs]
      have h2 := Real.one_sub_sq_div_two_le_cos (x := s - t)
      rw [Real.cos_sub] at h2
      simp only [V3.normSq, V3.dot, V3.sub_x, V3.sub_y, V3.sub_z]
      nlinarith [Real.sin_sq_add_cos_sq s, Real.sin_sq_add_cos_sq t]
    exact abs_le_of_sq_le_sq' h1 (abs_nonneg _) |>.2

end Kindr
