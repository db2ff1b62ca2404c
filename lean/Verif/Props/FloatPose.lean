import Verif.Props.FloatLog
import Verif.Spec.FloatPose

/-!
# C88: poses in floating point
-/

set_option autoImplicit false

open Classical

noncomputable section
namespace Kindr
open Spec

namespace FloatLib
variable (F : FloatLib)

/-- As `quatMul_dist`, with the error of the left factor not amplified. -/
lemma quatMul_dist' {p q a b : Quat} (ha : a.normSq = 1) (hb : b.normSq = 1) {d e : ℝ} (hp : ‖toH p - toH a‖ ≤ d)
    (hq : ‖toH q - toH b‖ ≤ e) (hd : d ≤ 1 / 100) (he : e ≤ 1 / 100) :
    ‖toH (F.quatMul p q) - toH (a * b)‖ ≤ d + 101 / 100 * e + 9 * F.u := by
  have hu := F.u_nonneg
  have hd0 := (norm_nonneg _).trans hp
  have he0 := (norm_nonneg _).trans hq
  have na : ‖toH a‖ = 1 := by rw [norm_toH, unit_norm ha]
  have nb : ‖toH b‖ = 1 := by rw [norm_toH, unit_norm hb]
  have np : ‖toH p‖ ≤ 101 / 100 := by
    have := norm_add_le (toH p - toH a) (toH a)
    rw [sub_add_cancel] at this; linarith
  have nq : ‖toH q‖ ≤ 101 / 100 := by
    have := norm_add_le (toH q - toH b) (toH b)
    rw [sub_add_cancel] at this; linarith
  have h := quatMul_err F.toFloatArith p q
  have hm := quatMulErr_le F.toFloatArith
  have e1 : toH (F.quatMul p q) - toH (a * b) = (toH (F.quatMul p q) - toH p * toH q) +
      ((toH p - toH a) * toH b + toH p * (toH q - toH b)) := by
    rw [toH_mul]; noncomm_ring
  rw [e1]
  refine (norm_add_le _ _).trans ?_
  have k1 := norm_add_le ((toH p - toH a) * toH b) (toH p * (toH q - toH b))
  rw [norm_mul, norm_mul, nb, mul_one] at k1
  have k2 : ‖toH p‖ * ‖toH q - toH b‖ ≤ 101 / 100 * e := mul_le_mul np hq (norm_nonneg _) (by norm_num)
  have k3 : quatMulErr F.u * (‖toH p‖ * ‖toH q‖) ≤ 9 * F.u := by
    have a1 : ‖toH p‖ * ‖toH q‖ ≤ 101 / 100 * (101 / 100) := mul_le_mul np nq (norm_nonneg _) (by norm_num)
    have a2 := mul_le_mul hm a1 (by positivity) (by linarith)
    norm_num at a2 ⊢; linarith
  have k4 : ‖toH (F.quatMul p q) - toH p * toH q‖ ≤ quatMulErr F.u * (‖toH p‖ * ‖toH q‖) := by
    simpa [mul_assoc] using h
  linarith

/-- `rotate()` of a quaternion that is not quite normalized. -/
lemma rotate_quat (P : Prec) {q : Quat} {η δ : ℝ} {R : M3} (h : Rounded η δ .quat q R) (hη : η ≤ 1 / 1000) (v : V3) :
    (F.rotate P .quat q v - R.mulVec v).norm ≤ (δ + 6 * η + 27 * F.u) * v.norm := by
  have hu := F.u_nonneg
  have hs := F.u_small
  have h0 := h.1
  obtain ⟨p, hp, h1, h2⟩ := h.quat
  have hn := abs_norm_sub_norm_le (toH q) (toH p)
  rw [norm_toH, norm_toH, unit_norm hp] at hn
  obtain ⟨n1, n2⟩ := abs_le.mp (hn.trans h1)
  have hsq : q.normSq = q.norm ^ 2 := by rw [Quat.norm, Real.sq_sqrt q.normSq_nonneg]
  have hq0 : 0 ≤ q.norm := Real.sqrt_nonneg _
  have hsq1 : q.normSq ≤ 103 / 100 := by rw [hsq]; nlinarith
  have hdev : |1 - q.normSq| ≤ 2001 / 1000 * η := by
    rw [hsq, abs_le]; constructor <;> nlinarith
  have c1 : Close (3 * η) (sMat q) (sMat p) := fun w => by
    rw [← sandwich_eq, ← sandwich_eq]
    refine (sandwich_lipschitz q p w).trans (mul_le_mul_of_nonneg_right ?_ w.norm_nonneg)
    rw [unit_norm hp]
    exact mul_le_mul (by linarith) h1 (norm_nonneg _) (by norm_num)
  have c2 : Close (2001 / 1000 * η) q.toRotationMatrix (sMat q) := fun w => by
    have e : q.toRotationMatrix.mulVec w - (sMat q).mulVec w = (1 - q.normSq) • w := by
      ext <;> simp [Quat.toRotationMatrix, sMat, M3.mulVec, Quat.normSq] <;> ring
    rw [e, V3.norm_smul]
    exact mul_le_mul_of_nonneg_right hdev w.norm_nonneg
  have c3 := F.toRotationMatrix_round hsq1
  have c4 := (c3.trans c2).trans c1
  have a1 := F.mulVec_round (sMat_isSO3 hp) c4.entry (by linarith) v
  have a2 := (c4.trans h2) v
  have e : F.rotate P .quat q v - R.mulVec v = (F.mulVec (F.toRotationMatrix q) v - (F.toRotationMatrix q).mulVec v) +
      ((F.toRotationMatrix q).mulVec v - R.mulVec v) := by
    change F.mulVec (F.toRotationMatrix q) v - _ = _
    ext <;> simp
  rw [e]
  refine (V3.norm_add_le _ _).trans ((add_le_add a1 a2).trans ?_)
  rw [← add_mul]
  exact mul_le_mul_of_nonneg_right (by linarith) v.norm_nonneg

lemma addV_eq (a b : V3) : F.addV a b = castV3 F.fl (a + b) := rfl
lemma subV_eq (a b : V3) : F.subV a b = castV3 F.fl (a - b) := rfl

lemma addV_err {a b a' b' : V3} {x y : ℝ} (ha : (a - a').norm ≤ x) (hb : (b - b').norm ≤ y) :
    (F.addV a b - (a' + b')).norm ≤ x + y + F.u * (a'.norm + b'.norm + x + y) := by
  have hu := F.u_nonneg
  have h := castV3_err F.toFloatArith (a + b)
  have e : a + b = (a' + b') + ((a - a') + (b - b')) := by ext <;> simp <;> ring
  have h1 : ((a - a') + (b - b')).norm ≤ x + y := (V3.norm_add_le _ _).trans (add_le_add ha hb)
  have h2 : (a + b).norm ≤ a'.norm + b'.norm + x + y := by
    rw [e]
    refine (V3.norm_add_le _ _).trans ((add_le_add (V3.norm_add_le _ _) h1).trans (by linarith))
  have e2 : F.addV a b - (a' + b') = (castV3 F.fl (a + b) - (a + b)) + ((a - a') + (b - b')) := by
    rw [addV_eq]; ext <;> simp <;> ring
  rw [e2]
  have := mul_le_mul_of_nonneg_left h2 hu
  refine (V3.norm_add_le _ _).trans ?_
  linarith

/-- **C88 (a).** `transform()` of every class. -/
theorem C88_transform (P : Prec) {k : Kind} {T : Pose k} {η δ ε : ℝ} {R : M3} {t : V3} (h : Rounded η δ k T.rotation R)
    (ht : (T.position - t).norm ≤ ε) (hR : IsSO3 R) (he : quatErr P F.u η (angleSize k T.rotation) k ≤ 1 / 100000) (hδ : δ ≤ 1 / 2)
    (p : V3) :
    (F.poseTransform P k T p - (R.mulVec p + t)).norm ≤
      (δ + 19 * quatErr P F.u η (angleSize k T.rotation) k + 71 * F.u) * p.norm + ε + F.u * (t.norm + ε) := by
  have hu := F.u_nonneg
  have hs := F.u_small
  have hp := p.norm_nonneg
  have q := F.quatErr_nonneg P h.1 T.rotation
  have h1 := F.C85_rotate P h he p
  have h2 : (F.rotate P k T.rotation p - R.mulVec p).norm ≤
      (δ + 19 * quatErr P F.u η (angleSize k T.rotation) k + 69 * F.u) * p.norm := by
    refine h1.trans (mul_le_mul_of_nonneg_right ?_ hp)
    split_ifs with hk
    · subst hk
      have := h.1
      simp only [quatErr]; linarith
    · linarith
  have := F.addV_err h2 ht
  rw [SO3.mulVec_norm hR] at this
  refine this.trans ?_
  have k1 : (δ + 19 * quatErr P F.u η (angleSize k T.rotation) k + 69 * F.u) ≤ 1 := by linarith
  have k2 := mul_le_mul_of_nonneg_left (mul_le_mul_of_nonneg_right k1 hp) hu
  nlinarith

/-- **C88 (b).** `inverseTransform()` of every class (`e`: a bound on the error of the quaternion). -/
theorem C88_inverseTransform (P : Prec) {k : Kind} {T : Pose k} {η δ ε e : ℝ} {R : M3} {t : V3} (h : Rounded η δ k T.rotation R)
    (ht : (T.position - t).norm ≤ ε) (hR : IsSO3 R) (he : quatErr P F.u η (angleSize k T.rotation) k ≤ e) (he1 : e ≤ 1 / 100000)
    (he2 : 64 * F.u ≤ e) (hδ : δ ≤ 1 / 2) (p : V3) :
    (F.poseInverseTransform P k T p - R.transpose.mulVec (p - t)).norm ≤
      (δ + 120 * e + 1072 * F.u + 101 / 100 * P.dp) * ((p - t).norm + ε) + ε := by
  have hu := F.u_nonneg
  have hs := F.u_small
  have hdp := P.dp_pos
  have hdl := P.dp_le
  have q := F.quatErr_nonneg P h.1 T.rotation
  have hε := (V3.norm_nonneg _).trans ht
  obtain ⟨i1, i2⟩ := (FloatWide.uniform F).inverted_uniform P h he he1 he2
  change Rounded η (δ + 101 * e + 1000 * F.u + 101 / 100 * P.dp) k (F.inverted k T.rotation) R.transpose at i1
  change quatErr P F.u η (angleSize k (F.inverted k T.rotation)) k ≤ e at i2
  obtain ⟨w, hw⟩ : ∃ w, w = F.subV p T.position := ⟨_, rfl⟩
  have h1 := F.C85_rotate P i1 (i2.trans he1) w
  have q2 := F.quatErr_nonneg P i1.1 (F.inverted k T.rotation)
  have h2 : (F.rotate P k (F.inverted k T.rotation) w - R.transpose.mulVec w).norm ≤
      (δ + 120 * e + 1069 * F.u + 101 / 100 * P.dp) * w.norm := by
    refine h1.trans (mul_le_mul_of_nonneg_right ?_ w.norm_nonneg)
    split_ifs with hk
    · subst hk
      have := h.1
      simp only [quatErr] at he ⊢
      linarith
    · linarith
  have e0 : F.poseInverseTransform P k T p = F.rotate P k (F.inverted k T.rotation) w := by rw [hw]; rfl
  rw [e0]
  have hx : (p - T.position - (p - t)).norm ≤ ε := by
    have : p - T.position - (p - t) = -(T.position - t) := by ext <;> simp
    rw [this, V3.norm_neg]; exact ht
  have hpn : (p - T.position).norm ≤ (p - t).norm + ε := by
    have := V3.norm_add_le (p - T.position - (p - t)) (p - t)
    rw [sub_add_cancel] at this
    linarith
  have hc := castV3_err F.toFloatArith (p - T.position)
  rw [← F.subV_eq, ← hw] at hc
  have hc' : (w - (p - T.position)).norm ≤ F.u * ((p - t).norm + ε) := hc.trans (mul_le_mul_of_nonneg_left hpn hu)
  have hwp : (w - (p - t)).norm ≤ F.u * ((p - t).norm + ε) + ε := by
    have e1 : w - (p - t) = (w - (p - T.position)) + (p - T.position - (p - t)) := by ext <;> simp <;> ring
    rw [e1]
    exact (V3.norm_add_le _ _).trans (add_le_add hc' hx)
  have hwn : w.norm ≤ (1 + F.u) * ((p - t).norm + ε) := by
    have e1 : w = (w - (p - T.position)) + (p - T.position) := by ext <;> simp
    have := V3.norm_add_le (w - (p - T.position)) (p - T.position)
    rw [← e1] at this
    linarith
  have e3 : F.rotate P k (F.inverted k T.rotation) w - R.transpose.mulVec (p - t) =
      (F.rotate P k (F.inverted k T.rotation) w - R.transpose.mulVec w) + R.transpose.mulVec (w - (p - t)) := by
    ext <;> simp [M3.mulVec] <;> ring
  rw [e3]
  refine (V3.norm_add_le _ _).trans ?_
  rw [SO3.mulVec_norm (SO3.transpose hR)]
  obtain ⟨X, hX⟩ : ∃ X, X = (p - t).norm + ε := ⟨_, rfl⟩
  rw [← hX] at hwp hwn ⊢
  have hX0 : 0 ≤ X := by rw [hX]; exact add_nonneg (V3.norm_nonneg _) hε
  obtain ⟨c, hcd⟩ : ∃ c, c = δ + 120 * e + 1069 * F.u + 101 / 100 * P.dp := ⟨_, rfl⟩
  rw [← hcd] at h2
  have hδ0 : 0 ≤ δ := by
    obtain ⟨-, r', -, -, k⟩ := h
    have := k ⟨1, 0, 0⟩
    have n1 : (⟨1, 0, 0⟩ : V3).norm = 1 := V3.norm_eq_one_iff.mpr (by simp [V3.normSq, V3.dot])
    rw [n1, mul_one] at this
    exact (V3.norm_nonneg _).trans this
  have hc0 : 0 ≤ c := by rw [hcd]; linarith
  have hc1 : c ≤ 1 := by rw [hcd]; linarith
  have k1 := mul_le_mul_of_nonneg_left hwn hc0
  have k2 := mul_le_mul_of_nonneg_right hc1 (mul_nonneg hu hX0)
  have e4 : δ + 120 * e + 1072 * F.u + 101 / 100 * P.dp = c + 3 * F.u := by rw [hcd]; ring
  rw [e4]
  have k3 := mul_nonneg hu hX0
  nlinarith

/-! ## Chains -/

/-- Invariant of the chain: `a` is the accumulated rounding error of the rotation. -/
private def Inv (k : Kind) (a : ℝ) (r : Rep k) (R : M3) : Prop :=
  match k with
  | .quat => Rounded (a / 7) 0 .quat r R
  | .mat => Close a (r : M3) R
  | k => Rounded (6 * F.u) a k r R ∧ angleSize k r ≤ 13

private lemma inv_init {k : Kind} {r : Rep k} (h : Valid k r) (hS : angleSize k r ≤ 13) : F.Inv k 0 r (den k r) := by
  have hu := F.u_nonneg
  cases k
  · exact (rounded_of_valid h).mono (by norm_num) le_rfl
  · change Close 0 (r : M3) (den .mat r)
    exact Close.of_eq (den_eq .mat r).symm
  all_goals exact ⟨(rounded_of_valid h).mono (by linarith) le_rfl, hS⟩

private lemma inv_rotate (P : Prec) {k : Kind} {a : ℝ} {r : Rep k} {R : M3} (hR : IsSO3 R) (h : F.Inv k a r R) (ha0 : 0 ≤ a)
    (ha : a ≤ 1 / 200) (hP : 160 * F.u + P.eps / 1000 ≤ 1 / 100000) (v : V3) :
    (F.rotate P k r v - R.mulVec v).norm ≤ (a + (1800 * F.u + P.eps / 150)) * v.norm := by
  have hu := F.u_nonneg
  have hs := F.u_small
  have hep := P.eps_pos
  have hv := v.norm_nonneg
  have other : k ≠ .mat → Rounded (6 * F.u) a k r R → quatErr P F.u (6 * F.u) (angleSize k r) k ≤ 89 * F.u + P.eps / 3000 →
      (F.rotate P k r v - R.mulVec v).norm ≤ (a + (1800 * F.u + P.eps / 150)) * v.norm := fun hk h1 h2 => by
    have := F.C85_rotate P h1 (by linarith) v
    rw [if_neg hk] at this
    exact this.trans (mul_le_mul_of_nonneg_right (by linarith) hv)
  cases k
  · refine (F.rotate_quat P (η := a / 7) (δ := 0) h (by linarith) v).trans (mul_le_mul_of_nonneg_right (by linarith) hv)
  · have h : Close a (r : M3) R := h
    have a1 := F.mulVec_round hR h.entry (by linarith) v
    have a2 := h v
    have e : F.rotate P .mat r v - R.mulVec v = (F.mulVec r v - M3.mulVec r v) + (M3.mulVec r v - R.mulVec v) := by
      change F.mulVec r v - _ = _
      ext <;> simp
    rw [e]
    refine (V3.norm_add_le _ _).trans ((add_le_add a1 a2).trans ?_)
    rw [← add_mul]
    exact mul_le_mul_of_nonneg_right (by linarith) hv
  all_goals
    obtain ⟨h1, h2⟩ := h
    have := mul_le_mul_of_nonneg_right h2 hu
    refine other (fun h => by cases h) h1 ?_
    simp only [quatErr]
    linarith

private lemma elem_err (P : Prec) {k : Kind} {r : Rep k} (hS : angleSize k r ≤ 7) :
    quatErr P F.u 0 (angleSize k r) k ≤ 53 * F.u + P.eps / 3000 := by
  have hu := F.u_nonneg
  have hep := P.eps_pos
  have h := mul_le_mul_of_nonneg_right hS hu
  cases k <;> simp only [quatErr] <;> linarith

private lemma inv_mult (P : Prec) {k k₂ : Kind} {a : ℝ} {r : Rep k} {s : Rep k₂} {R : M3} (hR : IsSO3 R) (h : F.Inv k a r R) (ha0 : 0 ≤ a)
    (ha : a ≤ 1 / 200) (hv : Valid k₂ s) (hS : angleSize k₂ s ≤ 7) (hk : k = .mat → k₂ = .mat) (hP : 160 * F.u + P.eps / 1000 ≤ 1 / 100000)
    (hrv : k = .rv → 470 * F.u + P.eps / 400 ≤ P.dp) :
    F.Inv k (a + chainLoss P F.u k) (F.mult P k k₂ r s) (R * den k₂ s) := by
  have hu := F.u_nonneg
  have hus := F.u_small
  have hep := P.eps_pos
  have hdp := P.dp_pos
  have hS2 := den_isSO3 hv
  have q2 := F.elem_err P hS
  have hb := rounded_of_valid hv
  have q0 := F.quatErr_nonneg P hb.1 s
  have other : k ≠ .mat → ∀ E : ℝ, Rounded (6 * F.u) a k r R → 101 / 100 * quatErr P F.u (6 * F.u) (angleSize k r) k +
      (53 * F.u + P.eps / 3000) + 9 * F.u ≤ E → E ≤ 1 / 100000 → (k = .rv → 3 * E + 3 * F.u ≤ P.dp) →
      (∀ x, x ≤ E → convLoss P F.u x x 0 k ≤ chainLoss P F.u k) → (∀ x, convOff F.u x k ≤ 6 * F.u) →
      Rounded (6 * F.u) (a + chainLoss P F.u k) k (F.mult P k k₂ r s) (R * den k₂ s) ∧ angleSize k (F.mult P k k₂ r s) ≤ 13 := by
    intro hkm E h1 h2 h3 h4 h5 h6
    have h2' : 101 / 100 * quatErr P F.u (6 * F.u) (angleSize k r) k + quatErr P F.u 0 (angleSize k₂ s) k₂ + 9 * F.u ≤ E := by linarith
    have z := F.C85_mult P h1 hb hR (fun h => hkm h.1) rfl (h2'.trans h3) (fun h => by have := h4 h; linarith)
    refine ⟨z.mono (h6 _) ?_, F.mult_size P h1 hb hR (fun h => hkm h.1) (h2'.trans h3)⟩
    have := h5 _ h2'
    linarith
  cases k
  · have h : Rounded (a / 7) 0 .quat r R := h
    change Rounded _ _ _ _ _
    have x2 := F.toQuat_rounded P hb (by linarith)
    obtain ⟨p, hp, p1, p2⟩ := h.quat
    obtain ⟨q, hq, q1, q2'⟩ := x2.quat
    have hpq : (p * q).normSq = 1 := by rw [Quat.normSq_mul, hp, hq, one_mul]
    have hm := F.quatMul_dist' hp hq p1 q1 (by linarith) (by linarith)
    have hc : Close (0 + 0) (sMat (p * q)) (R * den k₂ s) := by rw [sMat_mul]; exact p2.mul q2' (sMat_isSO3 hq) hR
    have z := rounded_quat (by positivity) hpq hm hc
    have e : F.mult P .quat k₂ r s = F.quatMul r (F.conv P .quat k₂ s) := by cases k₂ <;> rfl
    rw [e]
    refine Spec.Rounded.mono (k := .quat) (r := F.quatMul r (F.conv P .quat k₂ s)) z ?_ (by linarith)
    simp only [chainLoss]
    linarith
  · obtain rfl := hk rfl
    have h : Close a (r : M3) R := h
    change Close _ (F.matMul r s) _
    have e : den .mat s = s := den_eq .mat s
    rw [e] at hS2 ⊢
    have x := F.matMul_close hR h.entry (by linarith) (r := s) (fun v => by
      rw [SO3.mulVec_norm hS2]; have := v.norm_nonneg; linarith)
    have y : Close a ((r : M3) * (s : M3)) (R * (s : M3)) := fun v => by
      have := h (M3.mulVec s v)
      rw [SO3.mulVec_norm hS2, M3.mulVec_mulVec, M3.mulVec_mulVec] at this
      exact this
    refine (x.trans y).mono ?_
    simp only [chainLoss]
    linarith
  · obtain ⟨h1, h2⟩ := h
    have := mul_le_mul_of_nonneg_right h2 hu
    refine other (fun h => by cases h) (94 * F.u + P.eps / 3000) h1 ?_ (by linarith) (fun h => by cases h) (fun x hx => ?_) (fun x => ?_)
    · simp only [quatErr]; linarith
    · simp only [convLoss, chainLoss]; linarith
    · simp only [convOff]; linarith
  · obtain ⟨h1, h2⟩ := h
    have := mul_le_mul_of_nonneg_right h2 hu
    have h3 := hrv rfl
    refine other (fun h => by cases h) (153 * F.u + P.eps / 1400) h1 ?_ (by linarith) (fun h => by linarith) (fun x hx => ?_) (fun x => ?_)
    · simp only [quatErr]; linarith
    · simp only [convLoss, chainLoss]; linarith
    · simp only [convOff]; linarith
  · obtain ⟨h1, h2⟩ := h
    have := mul_le_mul_of_nonneg_right h2 hu
    refine other (fun h => by cases h) (127 * F.u + P.eps / 3000) h1 ?_ (by linarith) (fun h => by cases h) (fun x hx => ?_) (fun x => ?_)
    · simp only [quatErr]; linarith
    · simp only [convLoss, chainLoss]; linarith
    · simp only [convOff]; linarith
  · obtain ⟨h1, h2⟩ := h
    have := mul_le_mul_of_nonneg_right h2 hu
    refine other (fun h => by cases h) (127 * F.u + P.eps / 3000) h1 ?_ (by linarith) (fun h => by cases h) (fun x hx => ?_) (fun x => ?_)
    · simp only [quatErr]; linarith
    · simp only [convLoss, chainLoss]; linarith
    · simp only [convOff]; linarith

lemma chainLoss_two (P : Prec) (k : Kind) : 2 * F.u ≤ chainLoss P F.u k := by
  have hu := F.u_nonneg
  have hep := P.eps_pos
  have hdp := P.dp_pos
  cases k <;> simp only [chainLoss] <;> linarith

private lemma chain_run (P : Prec) {k : Kind} (hP : 160 * F.u + P.eps / 1000 ≤ 1 / 100000) (hrv : k = .rv → 470 * F.u + P.eps / 400 ≤ P.dp) :
    ∀ (l : List AnyPose) (T : Pose k) (R : M3) (t : V3) (a D : ℝ), IsSO3 R → F.Inv k a T.rotation R → 0 ≤ a →
      a + l.length * chainLoss P F.u k ≤ 1 / 200 → t.norm ≤ D → (T.position - t).norm ≤ (a + (1800 * F.u + P.eps / 150)) * D →
      (∀ S ∈ l, ValidPose S.1 S.2 ∧ angleSize S.1 S.2.rotation ≤ 7 ∧ (k = .mat → S.1 = .mat)) → ∀ p,
      (F.poseTransform P k (floatPoseChain F P k T l) p - (R.mulVec (moveInTurn l p) + t)).norm ≤
        (a + l.length * chainLoss P F.u k + (1802 * F.u + P.eps / 150)) * (p.norm + (D + chainLength l)) := by
  have hu := F.u_nonneg
  have hus := F.u_small
  have hep := P.eps_pos
  intro l
  induction l with
  | nil =>
    intro T R t a D hR h ha0 ha hD ht _ p
    simp only [floatPoseChain, List.foldl_nil, moveInTurn, List.length_nil, Nat.cast_zero, zero_mul, add_zero, chainLength, List.map_nil,
      List.sum_nil] at ha ⊢
    have h1 := F.inv_rotate P hR h ha0 ha hP p
    have h2 := F.addV_err h1 ht
    rw [SO3.mulVec_norm hR] at h2
    refine h2.trans ?_
    obtain ⟨c, hc⟩ : ∃ c, c = a + (1800 * F.u + P.eps / 150) := ⟨_, rfl⟩
    have hc1 : c ≤ 1 := by rw [hc]; linarith
    have hp := p.norm_nonneg
    have hD0 : 0 ≤ D := t.norm_nonneg.trans hD
    have e : a + (1802 * F.u + P.eps / 150) = c + 2 * F.u := by rw [hc]; ring
    rw [e, ← hc]
    have k1 := mul_le_mul_of_nonneg_right hc1 (add_nonneg hp hD0)
    have k2 : p.norm + t.norm + c * p.norm + c * D ≤ 2 * (p.norm + D) := by linarith
    have k3 := mul_le_mul_of_nonneg_left k2 hu
    linarith
  | cons S l ih =>
    intro T R t a D hR h ha0 ha hD ht hl p
    obtain ⟨hv, hS, hk⟩ := hl S (by simp)
    have hL := F.chainLoss_two P k
    have hn : (0 : ℝ) ≤ l.length * chainLoss P F.u k := mul_nonneg (Nat.cast_nonneg _) (by linarith)
    have e1 : a + chainLoss P F.u k + l.length * chainLoss P F.u k = a + ((S :: l).length : ℝ) * chainLoss P F.u k := by
      rw [List.length_cons]; push_cast; ring
    rw [← e1] at ha
    have ha1 : a ≤ 1 / 200 := by linarith
    have hv' : Valid S.1 S.2.rotation := hv
    have i1 := F.inv_mult P hR h ha0 ha1 hv' hS hk hP hrv
    have r1 := F.inv_rotate P hR h ha0 ha1 hP S.2.position
    have h2 := F.addV_err ht r1
    rw [SO3.mulVec_norm hR] at h2
    have hD0 : 0 ≤ D := t.norm_nonneg.trans hD
    have hp := S.2.position.norm_nonneg
    have hD' : (t + R.mulVec S.2.position).norm ≤ D + S.2.position.norm := by
      refine (V3.norm_add_le _ _).trans ?_
      rw [SO3.mulVec_norm hR]; linarith
    have h3 : (F.addV T.position (F.rotate P k T.rotation S.2.position) - (t + R.mulVec S.2.position)).norm ≤
        (a + chainLoss P F.u k + (1800 * F.u + P.eps / 150)) * (D + S.2.position.norm) := by
      refine h2.trans ?_
      obtain ⟨c, hc⟩ : ∃ c, c = a + (1800 * F.u + P.eps / 150) := ⟨_, rfl⟩
      have hc1 : c ≤ 1 := by rw [hc]; linarith
      have e : a + chainLoss P F.u k + (1800 * F.u + P.eps / 150) = c + chainLoss P F.u k := by rw [hc]; ring
      rw [e, ← hc]
      have k1 := mul_le_mul_of_nonneg_right hc1 (add_nonneg hD0 hp)
      have k2 : t.norm + S.2.position.norm + c * D + c * S.2.position.norm ≤ 2 * (D + S.2.position.norm) := by linarith
      have k3 := mul_le_mul_of_nonneg_left k2 hu
      have k4 := mul_le_mul_of_nonneg_right hL (add_nonneg hD0 hp)
      linarith
    have z := ih ⟨F.addV T.position (F.rotate P k T.rotation S.2.position), F.mult P k S.1 T.rotation S.2.rotation⟩ (R * den S.1 S.2.rotation)
      (t + R.mulVec S.2.position) (a + chainLoss P F.u k) (D + S.2.position.norm) (SO3.mul hR (den_isSO3 hv')) i1 (by linarith) ha hD' h3
      (fun x hx => hl x (by simp [hx])) p
    rw [e1] at z
    have e2 : floatPoseChain F P k T (S :: l) = floatPoseChain F P k
      ⟨F.addV T.position (F.rotate P k T.rotation S.2.position), F.mult P k S.1 T.rotation S.2.rotation⟩ l := rfl
    have e3 : R.mulVec (moveInTurn (S :: l) p) + t = (R * den S.1 S.2.rotation).mulVec (moveInTurn l p) + (t + R.mulVec S.2.position) := by
      rw [moveInTurn, move, act_eq, ← M3.mulVec_mulVec]
      ext <;> simp [M3.mulVec] <;> ring
    have e4 : D + chainLength (S :: l) = D + S.2.position.norm + chainLength l := by
      simp only [chainLength, List.map_cons, List.sum_cons]; ring
    rw [e2, e3, e4]
    exact z

/-- **C88 (c).** The program `for (S : l) T = T * S;` in rounded arithmetic, for every rotation class of `T` and poses `S` of any classes
(matrices only, if `T` stores a matrix): the resulting pose, applied to a point in rounded arithmetic, takes it where the motions applied
one after the other take it.  The error is relative to the distance of the point and the length of the chain. -/
theorem C88_chain (P : Prec) {k : Kind} {T : Pose k} {l : List AnyPose} (hT : ValidPose k T) (hS : angleSize k T.rotation ≤ 13)
    (hl : ∀ S ∈ l, ValidPose S.1 S.2 ∧ angleSize S.1 S.2.rotation ≤ 7 ∧ (k = .mat → S.1 = .mat))
    (hP : 160 * F.u + P.eps / 1000 ≤ 1 / 100000) (hrv : k = .rv → 470 * F.u + P.eps / 400 ≤ P.dp)
    (hn : l.length * chainLoss P F.u k ≤ 1 / 200) (p : V3) :
    (F.poseTransform P k (floatPoseChain F P k T l) p - move k T (moveInTurn l p)).norm ≤
      (l.length * chainLoss P F.u k + (1802 * F.u + P.eps / 150)) * (p.norm + (T.position.norm + chainLength l)) := by
  have hu := F.u_nonneg
  have hep := P.eps_pos
  have hT' : Valid k T.rotation := hT
  have z := F.chain_run P hP hrv l T (den k T.rotation) T.position 0 T.position.norm (den_isSO3 hT') (F.inv_init hT' hS) le_rfl (by linarith) le_rfl
    (by rw [sub_self, V3.norm_zero]; have := T.position.norm_nonneg; positivity) hl p
  rw [zero_add, ← act_eq] at z
  exact z

/-- **C88 (d).** In `double`: a chain of `n ≤ 10⁹` poses, relative error `3·10⁻¹² n`; with quaternions `6·10⁻¹⁴ n`, with matrices
`2·10⁻¹⁵ n`. -/
theorem C88_chain_double (hF : F.u ≤ 2⁻¹ ^ 53) {k : Kind} {T : Pose k} {l : List AnyPose} (hT : ValidPose k T) (hS : angleSize k T.rotation ≤ 13)
    (hl : ∀ S ∈ l, ValidPose S.1 S.2 ∧ angleSize S.1 S.2.rotation ≤ 7 ∧ (k = .mat → S.1 = .mat)) (hn : l.length ≤ 10 ^ 9) (p : V3) :
    (F.poseTransform Prec.double k (floatPoseChain F Prec.double k T l) p - move k T (moveInTurn l p)).norm ≤
      (l.length * (if k = .quat then 6 / 10 ^ 14 else if k = .mat then 2 / 10 ^ 15 else 3 / 10 ^ 12) + 1 / 10 ^ 12) *
        (p.norm + (T.position.norm + chainLength l)) := by
  have hu := F.u_nonneg
  obtain ⟨P, hPd⟩ : ∃ P, P = Prec.double := ⟨_, rfl⟩
  have heps : P.eps = 2⁻¹ ^ 52 := by rw [hPd]; rfl
  have hdp : P.dp = 1 / 1000000000000 := by rw [hPd]; rfl
  norm_num at hF heps
  rw [← hPd]
  have hL : chainLoss P F.u k ≤ if k = .quat then 6 / 10 ^ 14 else if k = .mat then 2 / 10 ^ 15 else 3 / 10 ^ 12 := by
    cases k <;> simp [chainLoss] <;> norm_num <;> linarith
  have hL2 : (if k = .quat then 6 / 10 ^ 14 else if k = .mat then 2 / 10 ^ 15 else 3 / 10 ^ 12 : ℝ) ≤ 3 / 10 ^ 12 := by
    split_ifs <;> norm_num
  have hn' : (l.length : ℝ) ≤ 10 ^ 9 := by exact_mod_cast hn
  have hL0 : 0 ≤ chainLoss P F.u k := by linarith [F.chainLoss_two P k]
  have z := F.C88_chain P hT hS hl (by norm_num; linarith) (fun _ => by linarith)
    ((mul_le_mul hn' (hL.trans hL2) hL0 (by norm_num)).trans (by norm_num)) p
  refine z.trans (mul_le_mul_of_nonneg_right ?_ ?_)
  · have := mul_le_mul_of_nonneg_left hL (Nat.cast_nonneg (α := ℝ) l.length)
    norm_num at this ⊢
    linarith
  · have : 0 ≤ chainLength l := List.sum_nonneg (by
      intro x hx
      obtain ⟨S, -, rfl⟩ := List.mem_map.mp hx
      exact V3.norm_nonneg _)
    have := p.norm_nonneg
    have := T.position.norm_nonneg
    linarith

/-- **C88 (f).** In `double`, for every class: `T.inverseTransform(T.transform(p))` is `p` up to `3·10⁻¹² |p| + 2·10⁻¹⁶ |t|`. -/
theorem C88_round_trip_double (hF : F.u ≤ 2⁻¹ ^ 53) {k : Kind} {T : Pose k} (hT : ValidPose k T) (hS : angleSize k T.rotation ≤ 7) (p : V3) :
    (F.poseInverseTransform Prec.double k T (F.poseTransform Prec.double k T p) - p).norm ≤
      3 / 10 ^ 12 * p.norm + 2 / 10 ^ 16 * T.position.norm := by
  have hu := F.u_nonneg
  obtain ⟨P, hPd⟩ : ∃ P, P = Prec.double := ⟨_, rfl⟩
  have heps : P.eps = 2⁻¹ ^ 52 := by rw [hPd]; rfl
  have hdp : P.dp = 1 / 1000000000000 := by rw [hPd]; rfl
  norm_num at hF heps
  rw [← hPd]
  have hT' : Valid k T.rotation := hT
  have hR := den_isSO3 hT'
  have q := F.elem_err P hS
  have hr := rounded_of_valid hT'
  have q0 := F.quatErr_nonneg P hr.1 T.rotation
  have hz : (T.position - T.position).norm ≤ 0 := by rw [sub_self, V3.norm_zero]
  have h1 := F.C88_transform P (t := T.position) hr hz hR (by linarith) (by norm_num) p
  obtain ⟨y, hy⟩ : ∃ y, y = F.poseTransform P k T p := ⟨_, rfl⟩
  rw [← hy] at h1 ⊢
  have h2 := F.C88_inverseTransform P (t := T.position) (e := 64 * F.u + P.eps / 3000) hr hz hR (by linarith) (by linarith) (by linarith)
    (by norm_num) y
  obtain ⟨x, hx⟩ : ∃ x, x = F.poseInverseTransform P k T y := ⟨_, rfl⟩
  rw [← hx] at h2 ⊢
  obtain ⟨R, hRd⟩ : ∃ R, R = den k T.rotation := ⟨_, rfl⟩
  rw [← hRd] at h1 h2 hR
  have hp := p.norm_nonneg
  have ht := T.position.norm_nonneg
  have e1 : x - p = (x - R.transpose.mulVec (y - T.position)) + R.transpose.mulVec (y - (R.mulVec p + T.position)) := by
    have : R.transpose.mulVec (R.mulVec p) = p := by rw [M3.mulVec_mulVec, SO3.tr_mul hR, M3.one_mulVec]
    have e : R.transpose.mulVec (y - (R.mulVec p + T.position)) = R.transpose.mulVec (y - T.position) - R.transpose.mulVec (R.mulVec p) := by
      ext <;> simp [M3.mulVec] <;> ring
    rw [e, this]; ext <;> simp
  have e2 : y - T.position = (y - (R.mulVec p + T.position)) + R.mulVec p := by ext <;> simp <;> ring
  have h3 : (y - T.position).norm ≤ (y - (R.mulVec p + T.position)).norm + p.norm := by
    have := V3.norm_add_le (y - (R.mulVec p + T.position)) (R.mulVec p)
    rw [← e2, SO3.mulVec_norm hR] at this
    exact this
  rw [e1]
  refine (V3.norm_add_le _ _).trans ?_
  rw [SO3.mulVec_norm (SO3.transpose hR)]
  obtain ⟨d, hd⟩ : ∃ d, d = (y - (R.mulVec p + T.position)).norm := ⟨_, rfl⟩
  rw [← hd] at h1 h3 ⊢
  have k1 : d ≤ 2 / 10 ^ 13 * p.norm + 12 / 10 ^ 17 * T.position.norm := by
    refine h1.trans ?_
    have a1 : 0 + 19 * quatErr P F.u 0 (angleSize k T.rotation) k + 71 * F.u ≤ 2 / 10 ^ 13 := by norm_num; linarith
    have a2 := mul_le_mul_of_nonneg_right a1 hp
    have a3 : F.u ≤ 12 / 10 ^ 17 := by norm_num; linarith
    have a4 := mul_le_mul_of_nonneg_right a3 ht
    linarith
  have k2 : (x - R.transpose.mulVec (y - T.position)).norm ≤ 2 / 10 ^ 12 * (y - T.position).norm := by
    refine h2.trans ?_
    rw [add_zero, add_zero]
    exact mul_le_mul_of_nonneg_right (by norm_num; linarith) (V3.norm_nonneg _)
  norm_num at k1 k2 ⊢
  linarith

/-- **C88 (e).** In exact arithmetic these are the operations of Model/Pose.lean. -/
theorem C88_exact_operations (P : Prec) (k₁ k₂ : Kind) (A : Pose k₁) (B : Pose k₂) (p : V3) :
    exact.poseTransform P k₁ A p = A.transform P k₁ p ∧ exact.poseInverseTransform P k₁ A p = A.inverseTransform P k₁ p ∧
    exact.poseMult P k₁ k₂ A B = A.mult P k₁ k₂ B ∧ exact.poseConv P k₂ k₁ A = Pose.ofPose P k₂ k₁ A := by
  have h := fun v => C85_exact_operations P k₁ k₂ A.rotation B.rotation v
  have ea : ∀ a b, exact.addV a b = a + b := fun a b => rfl
  have es : ∀ a b, exact.subV a b = a - b := fun a b => rfl
  refine ⟨?_, ?_, ?_, ?_⟩
  · rw [poseTransform, ea, (h p).1]; rfl
  · rw [poseInverseTransform, es, (h _).2.2.2]; rfl
  · rw [poseMult, ea, (h _).1, (h p).2.1]; rfl
  · rw [poseConv, C85_exact_table]; rfl

/-- A serial arm with seven joints in `double`: the base pose is stored with a quaternion, each link is given by three Euler angles of at
most 2 radian and an offset of at most one metre.  The position of a tool at distance at most one metre from the last joint is computed
within `2·10⁻¹¹` metre. -/
example (q : Quat) (hq : Valid .quat q) (e : Fin 7 → EulXyz) (o : Fin 7 → V3) (he : ∀ i, |(e i).x| ≤ 2 ∧ |(e i).y| ≤ 2 ∧ |(e i).z| ≤ 2)
    (ho : ∀ i, (o i).norm ≤ 1) (p : V3) (hp : p.norm ≤ 1) :
    (double.poseTransform Prec.double .quat (floatPoseChain double Prec.double .quat ⟨0, q⟩ (List.ofFn fun i => ⟨.xyz, ⟨o i, e i⟩⟩)) p -
      move .quat ⟨0, q⟩ (moveInTurn (List.ofFn fun i => ⟨.xyz, ⟨o i, e i⟩⟩) p)).norm ≤ 2 / 10 ^ 11 := by
  have h := C88_chain_double double le_rfl (k := .quat) (T := ⟨0, q⟩) (l := List.ofFn fun i => ⟨.xyz, ⟨o i, e i⟩⟩) hq
    (by change (0 : ℝ) ≤ 13; norm_num) (fun S hS => by
      obtain ⟨i, rfl⟩ := List.mem_ofFn.mp hS
      obtain ⟨h1, h2, h3⟩ := he i
      refine ⟨trivial, ?_, fun h => by cases h⟩
      change |(e i).x| + |(e i).y| + |(e i).z| ≤ 7
      linarith) (by simp) p
  refine h.trans ?_
  have hlen : chainLength (List.ofFn fun i => (⟨.xyz, ⟨o i, e i⟩⟩ : AnyPose)) ≤ 7 := by
    have : chainLength (List.ofFn fun i => (⟨.xyz, ⟨o i, e i⟩⟩ : AnyPose)) = ∑ i, (o i).norm := by
      rw [chainLength, List.map_ofFn, List.sum_ofFn]; rfl
    rw [this]
    refine (Finset.sum_le_sum fun i _ => ho i).trans (by simp)
  have h0 : (0 : V3).norm = 0 := V3.norm_zero
  simp only [List.length_ofFn, if_true, h0]
  push_cast
  have hlen0 : (7 : ℝ) * (6 / 10 ^ 14) + 1 / 10 ^ 12 ≤ 2 / 10 ^ 12 := by norm_num
  refine (mul_le_mul (b := 2 / 10 ^ 12) (d := 10) hlen0 (by linarith) ?_ (by norm_num)).trans (by norm_num)
  have : 0 ≤ chainLength (List.ofFn fun i => (⟨.xyz, ⟨o i, e i⟩⟩ : AnyPose)) := List.sum_nonneg (by
    intro x hx
    obtain ⟨S, -, rfl⟩ := List.mem_map.mp hx
    exact V3.norm_nonneg _)
  have := p.norm_nonneg
  linarith

end FloatLib
end Kindr
