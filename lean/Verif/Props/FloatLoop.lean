import Verif.Props.FloatTrip
import Verif.Props.Integrate

/-!
# C86: integrating with `boxPlus` in floating point, for every class
-/

set_option autoImplicit false

open Classical

noncomputable section
namespace Kindr
open Spec

namespace FloatLib
variable (F : FloatLib)

/-- The rounded product of a matrix that is almost a rotation with a matrix with columns of length at most 1.01. -/
lemma matMul_close {E Q r : M3} (hQ : IsSO3 Q) {η : ℝ} (hE : EntryClose η E Q) (hη : η ≤ 1 / 100)
    (hr : ∀ v : V3, (r.mulVec v).norm ≤ 101 / 100 * v.norm) : Close (11 * F.u) (F.matMul E r) (E * r) := by
  intro v
  have hu := F.u_nonneg
  have col : ∀ {c w : V3}, w.norm = 1 → r.mulVec w = c → (F.mulVec E c - E.mulVec c).norm ≤ 606 / 100 * F.u := by
    intro c w hw hc
    have h1 := F.mulVec_round hQ hE hη c
    have h2 := hr w
    rw [hw, hc] at h2
    have := mul_le_mul_of_nonneg_left h2 hu
    linarith
  have nx : (⟨1, 0, 0⟩ : V3).norm = 1 := V3.norm_eq_one_iff.mpr (by simp [V3.normSq, V3.dot])
  have ny : (⟨0, 1, 0⟩ : V3).norm = 1 := V3.norm_eq_one_iff.mpr (by simp [V3.normSq, V3.dot])
  have nz : (⟨0, 0, 1⟩ : V3).norm = 1 := V3.norm_eq_one_iff.mpr (by simp [V3.normSq, V3.dot])
  have d0 := col (c := ⟨r.m00, r.m10, r.m20⟩) nx (by ext <;> simp [M3.mulVec])
  have d1 := col (c := ⟨r.m01, r.m11, r.m21⟩) ny (by ext <;> simp [M3.mulVec])
  have d2 := col (c := ⟨r.m02, r.m12, r.m22⟩) nz (by ext <;> simp [M3.mulVec])
  have e : (F.matMul E r).mulVec v - (E * r).mulVec v =
      v.x • (F.mulVec E ⟨r.m00, r.m10, r.m20⟩ - E.mulVec ⟨r.m00, r.m10, r.m20⟩) +
      (v.y • (F.mulVec E ⟨r.m01, r.m11, r.m21⟩ - E.mulVec ⟨r.m01, r.m11, r.m21⟩) +
      v.z • (F.mulVec E ⟨r.m02, r.m12, r.m22⟩ - E.mulVec ⟨r.m02, r.m12, r.m22⟩)) := by
    ext <;> simp [FloatArith.matMul, M3.mulVec] <;> ring
  rw [e]
  have t1 := V3.norm_add_le (v.x • (F.mulVec E ⟨r.m00, r.m10, r.m20⟩ - E.mulVec ⟨r.m00, r.m10, r.m20⟩))
      (v.y • (F.mulVec E ⟨r.m01, r.m11, r.m21⟩ - E.mulVec ⟨r.m01, r.m11, r.m21⟩) +
      v.z • (F.mulVec E ⟨r.m02, r.m12, r.m22⟩ - E.mulVec ⟨r.m02, r.m12, r.m22⟩))
  have t2 := V3.norm_add_le (v.y • (F.mulVec E ⟨r.m01, r.m11, r.m21⟩ - E.mulVec ⟨r.m01, r.m11, r.m21⟩))
      (v.z • (F.mulVec E ⟨r.m02, r.m12, r.m22⟩ - E.mulVec ⟨r.m02, r.m12, r.m22⟩))
  refine t1.trans ((add_le_add_right t2 _).trans ?_)
  rw [V3.norm_smul, V3.norm_smul, V3.norm_smul]
  have m0 := mul_le_mul_of_nonneg_left d0 (abs_nonneg v.x)
  have m1 := mul_le_mul_of_nonneg_left d1 (abs_nonneg v.y)
  have m2 := mul_le_mul_of_nonneg_left d2 (abs_nonneg v.z)
  have hs : |v.x| + |v.y| + |v.z| ≤ 174 / 100 * v.norm := by
    have h := V3.norm_sq v
    simp only [V3.normSq, V3.dot] at h
    rw [← abs_mul_abs_self v.x, ← abs_mul_abs_self v.y, ← abs_mul_abs_self v.z] at h
    have hn := v.norm_nonneg
    apply abs_le_of_sq_le_sq' _ (by linarith) |>.2
    nlinarith [sq_nonneg (|v.x| - |v.y|), sq_nonneg (|v.x| - |v.z|), sq_nonneg (|v.y| - |v.z|)]
  have m3 := mul_le_mul_of_nonneg_right hs hu
  have m4 := mul_nonneg v.norm_nonneg hu
  nlinarith

/-- One product in the matrix loop. -/
lemma matMul_step {E Q W r S : M3} (hQ : IsSO3 Q) (hW : IsSO3 W) (hS : IsSO3 S) {η δ a : ℝ} (hE : EntryClose η E Q) (hη : η ≤ 1 / 100)
    (hc : Close δ Q W) (hr : Close a r S) (ha : a ≤ 1 / 100) :
    Close (a + 101 / 100 * (3 * η + δ) + 11 * F.u) (F.matMul E r) (W * S) := by
  have hr' : ∀ v : V3, (r.mulVec v).norm ≤ 101 / 100 * v.norm := fun v => by
    have h1 := hr v
    have h2 := V3.norm_add_le (r.mulVec v - S.mulVec v) (S.mulVec v)
    rw [sub_add_cancel, SO3.mulVec_norm hS] at h2
    have := mul_le_mul_of_nonneg_right ha v.norm_nonneg
    linarith
  have h1 := F.matMul_close hQ hE hη hr'
  have h2 : Close (101 / 100 * (3 * η + δ)) (E * r) (W * r) := fun v => by
    have k := (hE.close.trans hc)
    have k1 := k (r.mulVec v)
    rw [← M3.mulVec_mulVec, ← M3.mulVec_mulVec]
    refine k1.trans ?_
    have := mul_le_mul_of_nonneg_left (hr' v) k.nonneg
    linarith
  exact ((h1.trans h2).trans (hr.mul_left hW)).mono (by linarith)

/-- The result of a product that goes through quaternions has bounded angles. -/
lemma mult_size (P : Prec) {k₁ k₂ : Kind} {a : Rep k₁} {b : Rep k₂} {η δ η' δ' : ℝ} {A B : M3} (ha : Rounded η δ k₁ a A)
    (hb : Rounded η' δ' k₂ b B) (hA : IsSO3 A) (hk : ¬ (k₁ = .mat ∧ k₂ = .mat))
    (hE1 : 101 / 100 * quatErr P F.u η (angleSize k₁ a) k₁ + quatErr P F.u η' (angleSize k₂ b) k₂ + 9 * F.u ≤ 1 / 100000) :
    angleSize k₁ (F.mult P k₁ k₂ a b) ≤ 13 := by
  have hu := F.u_nonneg
  have e1 := F.quatErr_nonneg P ha.1 a
  have e2 := F.quatErr_nonneg P hb.1 b
  have qa := F.toQuat_rounded P ha (by linarith)
  have qb := F.toQuat_rounded P hb (by linarith)
  obtain ⟨p, hp, p1, p2⟩ := qa.quat
  obtain ⟨q, hq, q1, q2⟩ := qb.quat
  have hpq : (p * q).normSq = 1 := by rw [Quat.normSq_mul, hp, hq, one_mul]
  have hm := F.quatMul_dist hp hq p1 q1 (by linarith) (by linarith)
  have hc : Close (δ + δ') (sMat (p * q)) (A * B) := by rw [sMat_mul]; exact p2.mul q2 (sMat_isSO3 hq) hA
  have hr := rounded_quat (by positivity) hpq hm hc
  have e : F.mult P k₁ k₂ a b = F.conv P k₁ .quat (F.quatMul (F.conv P .quat k₁ a) (F.conv P .quat k₂ b)) := by
    cases k₁ <;> cases k₂ <;> first | rfl | exact absurd ⟨rfl, rfl⟩ hk
  rw [e]
  have := F.C85_angle_size P k₁ hr hE1
  have e0 : angleSize .quat (F.quatMul (F.conv P .quat k₁ a) (F.conv P .quat k₂ b)) = 0 := rfl
  rw [e0] at this
  linarith

/-- Invariant of the loop: `a` is the accumulated rounding error, `b` the accumulated discretization error. -/
private def Inv (k : Kind) (a b : ℝ) (r : Rep k) (R : M3) : Prop :=
  match k with
  | .quat => Rounded (a / 7 + 6 * F.u) b .quat r R
  | .mat => ∃ Q, IsSO3 Q ∧ Close (a + 18 * F.u) (r : M3) Q ∧ Close b Q R
  | k => Rounded (6 * F.u) (a + b) k r R ∧ angleSize k r ≤ 13

private lemma step_other (P : Prec) {k : Kind} (hq : k ≠ .quat) (hm : k ≠ .mat) {a b ℓ : ℝ} {r : Rep k} {R R' : M3} {w : V3} (hw : w.norm ≤ 4)
    (hP : 150 * F.u + P.eps / 1000 ≤ 1 / 100000) (hrv : k = .rv → 420 * F.u + P.eps ≤ P.dp)
    (h : Rounded (6 * F.u) (a + b) k r R ∧ angleSize k r ≤ 13) (hs : Close ℓ (den .rv (⟨w⟩ : RotVec) * R) R') :
    Rounded (6 * F.u) (a + loopLoss P F.u k + (b + ℓ)) k (F.boxPlus P k r w) R' ∧ angleSize k (F.boxPlus P k r w) ≤ 13 := by
  have hu := F.u_nonneg
  have hdp := P.dp_pos
  have hep := P.eps_pos
  have hW := den_isSO3 (k := .rv) (r := (⟨w⟩ : RotVec)) trivial
  obtain ⟨h1, h2⟩ := h
  have hS0 := angleSize_nonneg k r
  have x1 := rounded_of_valid (k := .rv) (r := (⟨w⟩ : RotVec)) trivial
  have xs : angleSize .rv (⟨w⟩ : RotVec) = w.norm := rfl
  have hw0 := w.norm_nonneg
  have hwu := mul_le_mul_of_nonneg_right hw hu
  have hE : quatErr P F.u 0 (angleSize .rv (⟨w⟩ : RotVec)) .rv ≤ 35 * F.u + P.eps / 3000 := by
    rw [xs]; simp only [quatErr]; linarith
  have hE0 := F.quatErr_nonneg P le_rfl (s := .rv) (⟨w⟩ : RotVec)
  have hE1 : quatErr P F.u 0 (angleSize .rv (⟨w⟩ : RotVec)) .rv ≤ 1 / 100000 := by linarith
  have x2 := F.C85_convert P k x1 hE1 (fun _ => trivial)
  have x3 := F.C85_angle_size P k x1 hE1
  rw [xs] at x3
  change angleSize k (F.exponentialMap P k w) ≤ _ at x3
  obtain ⟨e, he⟩ : ∃ e, e = F.exponentialMap P k w := ⟨_, rfl⟩
  change Rounded _ _ k (F.exponentialMap P k w) _ at x2
  obtain ⟨E, hEE⟩ : ∃ E, E = quatErr P F.u 0 (angleSize .rv (⟨w⟩ : RotVec)) .rv := ⟨_, rfl⟩
  rw [← hEE] at x2 hE hE0 hE1
  have eb : F.boxPlus P k r w = F.mult P k k e r := by rw [he]; rfl
  rw [eb]
  rw [← he] at x2 x3
  have hes : angleSize k e ≤ 35 / 2 := by linarith
  have hes0 := angleSize_nonneg k e
  have hesu := mul_le_mul_of_nonneg_right hes hu
  have hsu := mul_le_mul_of_nonneg_right h2 hu
  have hxloss : ∀ L : ℝ, (k = .rv ∨ convLoss P F.u 0 E w.norm k ≤ L) → 0 ≤ L → Rounded (6 * F.u) L k e (den .rv (⟨w⟩ : RotVec)) := by
    intro L hL hL0
    refine x2.mono ?_ ?_
    · split_ifs
      · linarith
      · cases k <;> first | exact absurd rfl hq | exact absurd rfl hm | (simp only [convOff]; linarith)
    · rw [zero_add, xs]
      split_ifs with hk
      · exact hL0
      · rcases hL with hL | hL
        · exact absurd hL hk
        · exact hL
  have fin : ∀ L L' E' : ℝ, Rounded (6 * F.u) L k e (den .rv (⟨w⟩ : RotVec)) →
      101 / 100 * quatErr P F.u (6 * F.u) (angleSize k e) k + quatErr P F.u (6 * F.u) (angleSize k r) k + 9 * F.u ≤ E' → E' ≤ 1 / 100000 →
      (k = .rv → 3 * E' + 3 * F.u ≤ P.dp) → (∀ x, x ≤ E' → convLoss P F.u x x 0 k ≤ L') → L + L' ≤ loopLoss P F.u k →
      Rounded (6 * F.u) (a + loopLoss P F.u k + (b + ℓ)) k (F.mult P k k e r) R' ∧ angleSize k (F.mult P k k e r) ≤ 13 := by
    intro L L' E' y1 y2 y3 y4 y5 y6
    have z := F.C85_mult P y1 h1 hW (fun h => hm h.1) rfl (y2.trans y3) (fun h => by have := y4 h; linarith)
    refine ⟨(z.trans hs).mono ?_ ?_, F.mult_size P y1 h1 hW (fun h => hm h.1) (y2.trans y3)⟩
    · cases k <;> first | exact absurd rfl hq | exact absurd rfl hm | (simp only [convOff]; linarith)
    · have := y5 _ y2
      linarith
  cases k
  · exact absurd rfl hq
  · exact absurd rfl hm
  · refine fin (172 * F.u + P.eps / 750 + 101 / 100 * P.dp) (340 * F.u + 101 / 100 * P.dp) (77 * F.u) (hxloss _ (Or.inr ?_) (by positivity)) ?_ ?_ ?_ ?_ ?_
    · simp only [convLoss]; linarith
    · simp only [quatErr]; linarith
    · linarith
    · intro h; cases h
    · intro x hx; simp only [convLoss]; linarith
    · simp only [loopLoss]; linarith
  · have he4 : angleSize .rv e ≤ 4 := by
      have : e = (⟨w⟩ : RotVec) := he
      rw [this]; exact hw
    have he4u := mul_le_mul_of_nonneg_right he4 hu
    have := hrv rfl
    refine fin 0 (970 * F.u + P.eps / 100 + P.dp / 50) (135 * F.u + P.eps / 1400) (hxloss _ (Or.inl rfl) le_rfl) ?_ ?_ ?_ ?_ ?_
    · simp only [quatErr]; linarith
    · linarith
    · intro _; linarith
    · intro x hx; simp only [convLoss]; linarith
    · simp only [loopLoss]; linarith
  · refine fin (4535 * F.u + P.eps / 25 + 101 / 100 * P.dp) (16000 * F.u + 101 / 100 * P.dp) (148 * F.u) (hxloss _ (Or.inr ?_) (by positivity)) ?_ ?_ ?_ ?_ ?_
    · simp only [convLoss]; linarith
    · simp only [quatErr]; linarith
    · linarith
    · intro h; cases h
    · intro x hx; simp only [convLoss]; linarith
    · simp only [loopLoss]; linarith
  · refine fin (4535 * F.u + P.eps / 25 + 101 / 100 * P.dp) (16000 * F.u + 101 / 100 * P.dp) (148 * F.u) (hxloss _ (Or.inr ?_) (by positivity)) ?_ ?_ ?_ ?_ ?_
    · simp only [convLoss]; linarith
    · simp only [quatErr]; linarith
    · linarith
    · intro h; cases h
    · intro x hx; simp only [convLoss]; linarith
    · simp only [loopLoss]; linarith

private lemma step (P : Prec) {k : Kind} {a b ℓ : ℝ} {r : Rep k} {R R' : M3} {w : V3} (hw : w.norm ≤ 4) (ha0 : 0 ≤ a)
    (hP : 150 * F.u + P.eps / 1000 ≤ 1 / 100000) (hrv : k = .rv → 420 * F.u + P.eps ≤ P.dp)
    (ha : k = .quat ∨ k = .mat → a ≤ 1 / 200) (h : F.Inv k a b r R) (hs : Close ℓ (den .rv (⟨w⟩ : RotVec) * R) R') :
    F.Inv k (a + loopLoss P F.u k) (b + ℓ) (F.boxPlus P k r w) R' := by
  have hu := F.u_nonneg
  have hep := P.eps_pos
  have hW := den_isSO3 (k := .rv) (r := (⟨w⟩ : RotVec)) trivial
  have hw0 := w.norm_nonneg
  have hwu := mul_le_mul_of_nonneg_right hw hu
  have x1 := rounded_of_valid (k := .rv) (r := (⟨w⟩ : RotVec)) trivial
  have xs : angleSize .rv (⟨w⟩ : RotVec) = w.norm := rfl
  have hE : quatErr P F.u 0 (angleSize .rv (⟨w⟩ : RotVec)) .rv ≤ 35 * F.u + P.eps / 3000 := by
    rw [xs]; simp only [quatErr]; linarith
  have hE0 := F.quatErr_nonneg P le_rfl (s := .rv) (⟨w⟩ : RotVec)
  have hE1 : quatErr P F.u 0 (angleSize .rv (⟨w⟩ : RotVec)) .rv ≤ 1 / 100000 := by linarith
  cases k
  · have ha' := ha (Or.inl rfl)
    have h : Rounded (a / 7 + 6 * F.u) b .quat r R := h
    change Rounded _ _ _ _ _
    have x2 := F.toQuat_rounded P x1 hE1
    obtain ⟨p, hp, p1, p2⟩ := x2.quat
    obtain ⟨q, hq, q1, q2⟩ := h.quat
    have hpq : (p * q).normSq = 1 := by rw [Quat.normSq_mul, hp, hq, one_mul]
    have hm := F.quatMul_dist hp hq p1 q1 (by linarith) (by linarith)
    have hc : Close (0 + b) (sMat (p * q)) (den .rv (⟨w⟩ : RotVec) * R) := by rw [sMat_mul]; exact p2.mul q2 (sMat_isSO3 hq) hW
    have z := rounded_quat (by positivity) hpq hm (hc.trans hs)
    refine z.mono ?_ (by linarith)
    simp only [loopLoss]
    linarith
  · have ha' := ha (Or.inr rfl)
    obtain ⟨Q, hQ, c1, c2⟩ : ∃ Q, IsSO3 Q ∧ Close (a + 18 * F.u) (r : M3) Q ∧ Close b Q R := h
    have x2 := F.C85_convert P .mat x1 hE1 (fun h => by cases h)
    obtain ⟨E, hEE⟩ : ∃ E, E = quatErr P F.u 0 (angleSize .rv (⟨w⟩ : RotVec)) .rv := ⟨_, rfl⟩
    rw [← hEE] at x2 hE hE0 hE1
    have hne : ¬ (Kind.mat = Kind.rv) := fun h => by cases h
    rw [if_neg hne, if_neg hne] at x2
    simp only [convOff, convLoss, zero_add] at x2
    obtain ⟨A, hA, y1, y2⟩ := x2.mat
    have z := F.matMul_step hA hW hQ y1 (by linarith) y2 c1 (by linarith)
    refine ⟨den .rv (⟨w⟩ : RotVec) * Q, SO3.mul hW hQ, z.mono ?_, (c2.mul_left hW).trans hs⟩
    simp only [loopLoss]
    linarith
  · exact F.step_other P (fun h => by cases h) (fun h => by cases h) hw hP hrv h hs
  · exact F.step_other P (fun h => by cases h) (fun h => by cases h) hw hP hrv h hs
  · exact F.step_other P (fun h => by cases h) (fun h => by cases h) hw hP hrv h hs
  · exact F.step_other P (fun h => by cases h) (fun h => by cases h) hw hP hrv h hs

lemma loopLoss_nonneg (P : Prec) (k : Kind) : 0 ≤ loopLoss P F.u k := by
  have hu := F.u_nonneg
  have hep := P.eps_pos
  have hdp := P.dp_pos
  cases k <;> simp only [loopLoss] <;> positivity

private lemma run (P : Prec) {k : Kind} {ℓ : ℝ} (hP : 150 * F.u + P.eps / 1000 ≤ 1 / 100000)
    (hrv : k = .rv → 420 * F.u + P.eps ≤ P.dp) : ∀ (l : List V3) (R : ℕ → M3) (a b : ℝ) (r : Rep k), (∀ w ∈ l, w.norm ≤ 4) → 0 ≤ a →
    (k = .quat ∨ k = .mat → a + l.length * loopLoss P F.u k ≤ 1 / 200) →
    (∀ i (hi : i < l.length), Close ℓ (den .rv (⟨l[i]⟩ : RotVec) * R i) (R (i + 1))) → F.Inv k a b r (R 0) →
    F.Inv k (a + l.length * loopLoss P F.u k) (b + l.length * ℓ) (floatBoxPlusLoop F P k r l) (R l.length) := by
  intro l
  induction l with
  | nil => intro R a b r _ _ _ _ h; simpa [floatBoxPlusLoop] using h
  | cons w l ih =>
    intro R a b r hl ha0 ha hs h
    have hL := F.loopLoss_nonneg P k
    have hn : (0 : ℝ) ≤ l.length * loopLoss P F.u k := by positivity
    have e1 : a + loopLoss P F.u k + l.length * loopLoss P F.u k = a + ((l.length + 1 : ℕ) : ℝ) * loopLoss P F.u k := by push_cast; ring
    have e2 : b + ℓ + l.length * ℓ = b + ((l.length + 1 : ℕ) : ℝ) * ℓ := by push_cast; ring
    rw [List.length_cons, ← e1] at ha
    have h1 := F.step P (hl w (by simp)) ha0 hP hrv (fun hk => by have := ha hk; linarith) h (hs 0 (by simp))
    have h2 := ih (fun i => R (i + 1)) _ _ _ (fun x hx => hl x (by simp [hx])) (by linarith) ha
      (fun i hi => by have := hs (i + 1) (by simpa using hi); simpa using this) h1
    rw [e1, e2] at h2
    rw [floatBoxPlusLoop, List.length_cons]
    exact h2

private lemma inv_init {k : Kind} {r : Rep k} {δ : ℝ} {R : M3} (h : Rounded (6 * F.u) δ k r R) (hS : angleSize k r ≤ 13) :
    F.Inv k 0 δ r R := by
  cases k
  · exact h.mono (by linarith) le_rfl
  · obtain ⟨A, hA, h1, h2⟩ := h.mat
    exact ⟨A, hA, h1.close.mono (by linarith), h2⟩
  all_goals exact ⟨h.mono le_rfl (by linarith), hS⟩

private lemma inv_final {k : Kind} {a b : ℝ} {r : Rep k} {R : M3} (h : F.Inv k a b r R) (ha0 : 0 ≤ a) (hu1 : F.u ≤ 1 / 15000000)
    (ha : k = .quat ∨ k = .mat → a ≤ 1 / 200) (v : V3) : (act k r v - R.mulVec v).norm ≤ (a + b + 42 * F.u) * v.norm := by
  have hu := F.u_nonneg
  have other : Rounded (6 * F.u) (a + b) k r R ∧ angleSize k r ≤ 13 → (act k r v - R.mulVec v).norm ≤ (a + b + 42 * F.u) * v.norm :=
    fun h => (h.1.act (by linarith) v).trans (mul_le_mul_of_nonneg_right (by linarith) v.norm_nonneg)
  cases k
  · have ha' := ha (Or.inl rfl)
    have h : Rounded (a / 7 + 6 * F.u) b .quat r R := h
    exact (h.act (by linarith) v).trans (mul_le_mul_of_nonneg_right (by linarith) v.norm_nonneg)
  · obtain ⟨Q, hQ, c1, c2⟩ : ∃ Q, IsSO3 Q ∧ Close (a + 18 * F.u) (r : M3) Q ∧ Close b Q R := h
    rw [act_eq_dmat]
    exact ((c1.trans c2).mono (by linarith)) v
  all_goals exact other h

/-- The loop along any sequence of rotations. -/
private lemma loop_along (P : Prec) (k : Kind) {r : Rep k} {δ ℓ : ℝ} {R : ℕ → M3} {l : List V3} (hr : Rounded (6 * F.u) δ k r (R 0))
    (hS : angleSize k r ≤ 13) (hP : 150 * F.u + P.eps / 1000 ≤ 1 / 100000) (hrv : k = .rv → 420 * F.u + P.eps ≤ P.dp)
    (hl : ∀ w ∈ l, w.norm ≤ 4) (hn : k = .quat ∨ k = .mat → l.length * loopLoss P F.u k ≤ 1 / 200)
    (hs : ∀ i (hi : i < l.length), Close ℓ (den .rv (⟨l[i]⟩ : RotVec) * R i) (R (i + 1))) (v : V3) :
    (act k (floatBoxPlusLoop F P k r l) v - (R l.length).mulVec v).norm ≤
      (δ + l.length * (ℓ + loopLoss P F.u k) + 42 * F.u) * v.norm := by
  have hep := P.eps_pos
  have hL := F.loopLoss_nonneg P k
  have h := F.run P hP hrv l R 0 δ r hl le_rfl (by simpa using hn) hs (F.inv_init hr hS)
  rw [zero_add] at h
  refine (F.inv_final h (by positivity) (by linarith) hn v).trans (mul_le_mul_of_nonneg_right (by linarith) v.norm_nonneg)

/-- **C86 (a).** The program `for (w : l) r = r.boxPlus(w);` in rounded arithmetic, for every class and every list of increments of
at most 4 radian each: the result differs from the exact composition of the rotations by at most `loopLoss` per increment.  The start
may be rounded as well.  Quaternions and matrices are never normalized by the library, so their number of steps is limited by
`n·loopLoss ≤ 1/200`; there is no such limit for the other classes. -/
theorem C86_loop (P : Prec) (k : Kind) {r : Rep k} {δ : ℝ} {R : M3} (hr : Rounded (6 * F.u) δ k r R)
    (hS : angleSize k r ≤ 13) (hP : 150 * F.u + P.eps / 1000 ≤ 1 / 100000) (hrv : k = .rv → 420 * F.u + P.eps ≤ P.dp) (l : List V3)
    (hl : ∀ w ∈ l, w.norm ≤ 4) (hn : k = .quat ∨ k = .mat → l.length * loopLoss P F.u k ≤ 1 / 200) (v : V3) :
    (act k (floatBoxPlusLoop F P k r l) v - rotateInTurn (fun v => R.mulVec v) l v).norm ≤
      (δ + l.length * loopLoss P F.u k + 42 * F.u) * v.norm := by
  obtain ⟨R', hRd⟩ : ∃ R' : ℕ → M3, R' = fun i => (l.take i).foldl (fun m w => den .rv (⟨w⟩ : RotVec) * m) R := ⟨_, rfl⟩
  have hs : ∀ i (hi : i < l.length), Close 0 (den .rv (⟨l[i]⟩ : RotVec) * R' i) (R' (i + 1)) := by
    intro i hi
    apply Close.of_eq
    rw [hRd]
    simp only
    rw [List.take_add_one, List.getElem?_eq_getElem hi, List.foldl_append]
    rfl
  have h0 : R' 0 = R := by rw [hRd]; rfl
  have e : R' l.length = l.foldl (fun m w => den .rv (⟨w⟩ : RotVec) * m) R := by rw [hRd]; simp
  have h := F.loop_along P k (R := R') (by rw [h0]; exact hr) hS hP hrv hl hn hs v
  rw [inTurn_eq l _ R (fun _ => rfl) v, ← e]
  simpa using h

/-- **C86 (b).** Integrating a motion in rounded arithmetic: let `q(s)` be any moving rotation (of any class) on `[t₀, t₀+n·h]` whose
global angular velocity `w(s)` is Lipschitz with constant `L`, and let the numbers `r` of a value of any class stand for `q(t₀)` with
error `δ`.  Then the loop `r = r.boxPlus(h·w(t₀+i·h))` ends within `δ + n·(L·h²/2 + loopLoss) + 42u` of `q(t₀+n·h)`.  (The increments
`h·w` and the times are taken as given; their rounding is a change of `w`.) -/
theorem C86_integrates_motion (P : Prec) (k kq : Kind) {r : Rep k} {δ : ℝ} (q : ℝ → Rep kq) (w : ℝ → V3) (t₀ h L : ℝ) (n : ℕ) (h0 : 0 ≤ h)
    (hq : ∀ s ∈ Set.Icc t₀ (t₀ + n * h), Valid kq (q s) ∧ IsGlobalVelocity kq q s (w s))
    (hL : ∀ s ∈ Set.Icc t₀ (t₀ + n * h), ∀ t ∈ Set.Icc t₀ (t₀ + n * h), (w s - w t).norm ≤ L * |s - t|)
    (hw : ∀ s ∈ Set.Icc t₀ (t₀ + n * h), h * (w s).norm ≤ 4)
    (hr : Rounded (6 * F.u) δ k r (den kq (q t₀))) (hS : angleSize k r ≤ 13)
    (hP : 150 * F.u + P.eps / 1000 ≤ 1 / 100000) (hrv : k = .rv → 420 * F.u + P.eps ≤ P.dp)
    (hn : k = .quat ∨ k = .mat → n * loopLoss P F.u k ≤ 1 / 200) (v : V3) :
    (act k (floatBoxPlusLoop F P k r (samples w h t₀ n)) v - act kq (q (t₀ + n * h)) v).norm ≤
      (δ + n * (L * h ^ 2 / 2 + loopLoss P F.u k) + 42 * F.u) * v.norm := by
  obtain ⟨R, hRd⟩ : ∃ R : ℕ → M3, R = fun i => den kq (q (t₀ + (min i n : ℕ) * h)) := ⟨_, rfl⟩
  have hmem : ∀ i : ℕ, i ≤ n → t₀ + i * h ∈ Set.Icc t₀ (t₀ + n * h) := by
    intro i hi
    have : (i : ℝ) * h ≤ n * h := mul_le_mul_of_nonneg_right (by exact_mod_cast hi) h0
    have : 0 ≤ (i : ℝ) * h := by positivity
    exact ⟨by linarith, by linarith⟩
  have hlen := samples_length w h n t₀
  have hs : ∀ i (hi : i < (samples w h t₀ n).length),
      Close (L * h ^ 2 / 2) (den .rv (⟨(samples w h t₀ n)[i]⟩ : RotVec) * R i) (R (i + 1)) := by
    intro i hi
    have hi' : i < n := by rw [hlen] at hi; exact hi
    have m1 := hmem i hi'.le
    have m2 := hmem (i + 1) hi'
    have e2 : t₀ + ((i + 1 : ℕ) : ℝ) * h = t₀ + i * h + h := by push_cast; ring
    rw [e2] at m2
    have hsub : ∀ s ∈ Set.Icc (t₀ + i * h) (t₀ + i * h + h), s ∈ Set.Icc t₀ (t₀ + n * h) := fun s hs =>
      ⟨m1.1.trans hs.1, hs.2.trans m2.2⟩
    have := exp_step_error (k := kq) (r := q) (w := w) (t := t₀ + i * h) (h := h) (L := L) h0
      (fun s hs => (hq s (hsub s hs)).1) (fun s hs => (hq s (hsub s hs)).2)
      (fun s hs => by
        have := hL s (hsub s hs) _ m1
        rwa [abs_of_nonneg (by linarith [hs.1])] at this)
    rw [samples_get, hRd]
    simp only
    rw [Nat.min_eq_left hi'.le, Nat.min_eq_left hi', e2]
    exact this
  have hl : ∀ x ∈ samples w h t₀ n, x.norm ≤ 4 := by
    intro x hx
    obtain ⟨i, hi, rfl⟩ := List.getElem_of_mem hx
    have hi' : i < n := by rw [hlen] at hi; exact hi
    rw [samples_get, V3.norm_smul, abs_of_nonneg h0]
    exact hw _ (hmem i hi'.le)
  have e0 : R 0 = den kq (q t₀) := by rw [hRd]; simp
  have e1 : R n = den kq (q (t₀ + n * h)) := by rw [hRd]; simp
  have hb := F.loop_along P k (R := R) (by rw [e0]; exact hr) hS hP hrv hl (by rw [hlen]; exact hn) hs v
  rw [hlen, e1] at hb
  rw [act_eq kq]
  exact hb

/-- **C86 (c).** In `double`, for every class: one step of the loop costs at most `5·10⁻¹²` (relative); for quaternions and matrices
`10⁻¹³`, for at least `10¹⁰` steps. -/
theorem C86_double (hF : F.u ≤ 2⁻¹ ^ 53) (k : Kind) {r : Rep k} {δ : ℝ} {R : M3} (hr : Rounded (6 * F.u) δ k r R)
    (hS : angleSize k r ≤ 13) (l : List V3) (hl : ∀ w ∈ l, w.norm ≤ 4) (hn : k = .quat ∨ k = .mat → l.length ≤ 10 ^ 10) (v : V3) :
    (act k (floatBoxPlusLoop F Prec.double k r l) v - rotateInTurn (fun v => R.mulVec v) l v).norm ≤
      (δ + l.length * (if k = .quat ∨ k = .mat then 1 / 10 ^ 13 else 5 / 10 ^ 12) + 1 / 10 ^ 14) * v.norm := by
  have hu := F.u_nonneg
  obtain ⟨P, hPd⟩ : ∃ P, P = Prec.double := ⟨_, rfl⟩
  have heps : P.eps = 2⁻¹ ^ 52 := by rw [hPd]; rfl
  have hdp : P.dp = 1 / 1000000000000 := by rw [hPd]; rfl
  norm_num at hF heps
  rw [← hPd]
  have hL : loopLoss P F.u k ≤ if k = .quat ∨ k = .mat then 1 / 10 ^ 13 else 5 / 10 ^ 12 := by
    cases k <;> simp [loopLoss] <;> norm_num <;> linarith
  have key := F.C86_loop P k hr hS (by linarith) (fun _ => by linarith) l hl (fun hk => by
    rw [if_pos hk] at hL
    have h1 := hn hk
    have h2 : (l.length : ℝ) ≤ 10 ^ 10 := by exact_mod_cast h1
    have := mul_le_mul h2 hL (F.loopLoss_nonneg P k) (by norm_num)
    exact this.trans (by norm_num)) v
  refine key.trans (mul_le_mul_of_nonneg_right ?_ v.norm_nonneg)
  have := mul_le_mul_of_nonneg_left hL (Nat.cast_nonneg (α := ℝ) l.length)
  linarith

/-- A billion steps of a milliradian about the z axis with Euler angles in `double`, from any Euler angles of at most 4 radian each:
the error is below `0.006`. -/
example (e : EulZyx) (hx : |e.x| ≤ 4) (hy : |e.y| ≤ 4) (hz : |e.z| ≤ 4) (v : V3) :
    (act .zyx (floatBoxPlusLoop double Prec.double .zyx e (List.replicate (10 ^ 9) ⟨0, 0, 1 / 1000⟩)) v -
      rotateInTurn (act .zyx e) (List.replicate (10 ^ 9) ⟨0, 0, 1 / 1000⟩) v).norm ≤ 6 / 1000 * v.norm := by
  have h := C86_double double le_rfl .zyx (r := e) (δ := 0) (R := den .zyx e)
    ((rounded_of_valid (k := .zyx) (r := e) trivial).mono (by have := double.u_nonneg; linarith) le_rfl)
    (by change |e.x| + |e.y| + |e.z| ≤ 13; linarith) (List.replicate (10 ^ 9) ⟨0, 0, 1 / 1000⟩)
    (fun w hw => by
      rw [List.eq_of_mem_replicate hw]
      refine V3.norm_le_of_sq (by norm_num) (by norm_num [V3.normSq, V3.dot]))
    (fun h => by rcases h with h | h <;> cases h) v
  have e1 : (fun v => (den .zyx e).mulVec v) = act .zyx e := by funext v; rw [act_eq]
  rw [e1] at h
  have hc : ¬ (Kind.zyx = Kind.quat ∨ Kind.zyx = Kind.mat) := fun h => by rcases h with h | h <;> cases h
  rw [if_neg hc, List.length_replicate] at h
  refine h.trans (mul_le_mul_of_nonneg_right (by norm_num) v.norm_nonneg)

end FloatLib
end Kindr
