import Verif.Props.FloatConv

/-!
# C85: conversions, rotation, inverse and product of every class in floating point
-/

set_option autoImplicit false

open Classical

noncomputable section
namespace Kindr
open Spec

/-! ## What the stored numbers themselves denote -/

/-- The action of rounded numbers. -/
lemma Spec.Rounded.act {η δ : ℝ} {k : Kind} {r : Rep k} {R : M3} (h : Rounded η δ k r R) (hη : η ≤ 1 / 100) (v : V3) :
    (act k r v - R.mulVec v).norm ≤ (7 * η + δ) * v.norm := by
  have h0 := h.1
  suffices hs : Close (7 * η + δ) (dmat k r) R by rw [act_eq_dmat]; exact hs v
  cases k
  · obtain ⟨u, hu, h1, h2⟩ := h.quat
    have h3 : Close (3 * η) (sMat r) (sMat u) := fun w => by
      rw [← sandwich_eq, ← sandwich_eq]
      refine (sandwich_lipschitz r u w).trans (mul_le_mul_of_nonneg_right ?_ w.norm_nonneg)
      have hn : (r : Quat).norm ≤ 101 / 100 := by
        have := abs_norm_sub_norm_le (toH r) (toH u)
        rw [norm_toH, norm_toH, unit_norm hu] at this
        have := (abs_le.mp this).2
        linarith
      rw [unit_norm hu]
      exact mul_le_mul (by linarith) h1 (norm_nonneg _) (by norm_num)
    exact (h3.trans h2).mono (by linarith)
  · obtain ⟨A, hA, h1, h2⟩ := h.mat
    exact (h1.close.trans h2).mono (by linarith)
  · obtain ⟨n, hn, h1, h2⟩ := h.aa
    have hn1 : n.norm = 1 := V3.norm_eq_one_iff.mpr hn
    have hax : (AngAx.axis r).norm ≤ 2 := by
      have e : AngAx.axis r = (AngAx.axis r - n) + n := by ext <;> simp
      rw [e]; exact (V3.norm_add_le _ _).trans (by linarith)
    have h3 : Close (7 * η) (rodMat (AngAx.angle r) (AngAx.axis r)) (rodMat (AngAx.angle r) n) := by
      refine Close.symm fun w => ?_
      have := rodrigues_lipschitz' (θ := AngAx.angle r) (θ' := AngAx.angle r) hn hax w
      rw [rodrigues_eq, rodrigues_eq, sub_self, abs_zero, mul_zero, zero_add, V3.norm_sub_comm n] at this
      refine this.trans (mul_le_mul_of_nonneg_right (by linarith) w.norm_nonneg)
    have e : dmat .aa r = rodMat (AngAx.angle r) (AngAx.axis r) := rfl
    rw [e]
    exact h3.trans h2
  · exact h.rv.mono (by linarith)
  · exact h.xyz.mono (by linarith)
  · exact h.zyx.mono (by linarith)

namespace FloatLib
variable (F : FloatLib)

/-- The rounded product of a matrix that is almost a rotation with a vector. -/
lemma mulVec_round {M R : M3} (hR : IsSO3 R) {d : ℝ} (h : EntryClose d M R) (hd : d ≤ 1 / 100) (v : V3) :
    (F.mulVec M v - M.mulVec v).norm ≤ 6 * F.u * v.norm := by
  have hu := F.u_nonneg
  have hR' := SO3.rel hR
  have hn := v.norm_nonneg
  obtain ⟨k0, k1, k2, k3, k4, k5, k6, k7, k8⟩ := h
  have hd0 : 0 ≤ d := (abs_nonneg _).trans k0
  have row : ∀ {a b c a' b' c' : ℝ}, |a - a'| ≤ d → |b - b'| ≤ d → |c - c'| ≤ d → a' * a' + b' * b' + c' * c' = 1 →
      (⟨a, b, c⟩ : V3).norm ≤ 102 / 100 := by
    intro a b c a' b' c' h1 h2 h3 h4
    have e : (⟨a, b, c⟩ : V3) = ⟨a', b', c'⟩ + ⟨a - a', b - b', c - c'⟩ := by ext <;> simp
    rw [e]
    refine (V3.norm_add_le _ _).trans ?_
    have n1 : (⟨a', b', c'⟩ : V3).norm = 1 := V3.norm_eq_one_iff.mpr (by simp only [V3.normSq, V3.dot]; linarith)
    have n2 : (⟨a - a', b - b', c - c'⟩ : V3).norm ≤ 2 * d := by
      apply V3.norm_le_of_sq (by linarith)
      simp only [V3.normSq, V3.dot]
      have s : ∀ {x : ℝ}, |x| ≤ d → x * x ≤ d * d := fun {x} hx => by
        rw [← abs_mul_abs_self]; exact mul_le_mul hx hx (abs_nonneg _) hd0
      nlinarith [s h1, s h2, s h3]
    linarith
  have one : ∀ {a b c : ℝ}, (⟨a, b, c⟩ : V3).norm ≤ 102 / 100 →
      |F.fl (F.fl (F.fl (a * v.x) + F.fl (b * v.y)) + F.fl (c * v.z)) - (a * v.x + b * v.y + c * v.z)| ≤ 31 / 10 * F.u * v.norm := by
    intro a b c h1
    have h3 := (Err.sum3 (F := F.toFloatArith) (Err.prod F.toFloatArith a v.x) (Err.prod F.toFloatArith b v.y) (Err.prod F.toFloatArith c v.z)).2
    refine h3.trans ?_
    have cs : |a| * |v.x| + |b| * |v.y| + |c| * |v.z| ≤ 102 / 100 * v.norm := by
      have k := V3.dot_abs_le (⟨|a|, |b|, |c|⟩ : V3) ⟨|v.x|, |v.y|, |v.z|⟩
      rw [V3.norm_abs, V3.norm_abs ⟨a, b, c⟩] at k
      have k' := (le_abs_self _).trans k
      simp only [V3.dot] at k'
      exact k'.trans (mul_le_mul_of_nonneg_right h1 hn)
    have g := (pow4_le F.toFloatArith).2.1
    have := mul_le_mul g cs (by positivity) (by positivity)
    refine this.trans ?_
    have := mul_nonneg hu hn
    nlinarith
  have c0 := one (row k0 k1 k2 (by linarith [hR'.r00, sq R.m00, sq R.m01, sq R.m02]))
  have c1 := one (row k3 k4 k5 (by linarith [hR'.r11, sq R.m10, sq R.m11, sq R.m12]))
  have c2 := one (row k6 k7 k8 (by linarith [hR'.r22, sq R.m20, sq R.m21, sq R.m22]))
  have key := V3.norm_le_of_abs (v := F.mulVec M v - M.mulVec v) (b := (31 / 10 * F.u * v.norm) • (⟨1, 1, 1⟩ : V3))
    (by simpa [FloatArith.mulVec] using c0) (by simpa [FloatArith.mulVec] using c1) (by simpa [FloatArith.mulVec] using c2)
  refine key.trans ?_
  rw [V3.norm_smul_nonneg (by positivity)]
  have n3 : (⟨1, 1, 1⟩ : V3).norm ≤ 18 / 10 := by
    apply V3.norm_le_of_sq (by norm_num); norm_num [V3.normSq, V3.dot]
  have := mul_le_mul_of_nonneg_left n3 (by positivity : 0 ≤ 31 / 10 * F.u * v.norm)
  have := mul_nonneg hu hn
  linarith

/-- The rounded conversion to a rotation vector does not divide by zero if the threshold is well above the rounding error. -/
lemma rv_defined (P : Prec) {p u : Quat} (hu1 : u.normSq = 1) {c e : ℝ} (hc : |c - 1| ≤ e) (he : e ≤ 1 / 1000)
    (hp : p = ⟨c * u.w, c * u.x, c * u.y, c * u.z⟩) (h : 3 * e + 3 * F.u ≤ P.dp) : F.rvSmall P p ∨ p.vec ≠ 0 := by
  have hu := F.u_nonneg
  have hs := F.u_small
  have hdp := P.dp_pos
  have he0 : 0 ≤ e := (abs_nonneg _).trans hc
  by_cases hv : p.vec = 0
  · left
    have hcp : 0 < c := by have := (abs_le.mp hc).1; linarith
    have huv : u.vec = 0 := by
      rw [hp, vec_scale] at hv
      have := congrArg V3.norm hv
      rw [V3.norm_smul, V3.norm_zero, abs_of_pos hcp] at this
      exact V3.norm_eq_zero.mp ((mul_eq_zero.mp this).resolve_left hcp.ne')
    have hw : u.w ^ 2 = 1 := by
      have := vec_norm_sq hu1
      rw [huv, V3.norm_zero] at this; linarith
    have hpw : p.w * p.w = c ^ 2 := by
      have : p.w = c * u.w := by rw [hp]
      rw [this]; linear_combination c ^ 2 * hw
    have k1 := sq_sub_one_le hc (by linarith)
    have k2 := F.fl_abs (A := p.w * p.w) (a := 1) (e := 201 / 100 * e) (by rw [hpw]; exact k1)
    rw [abs_one] at k2
    have k3 := F.fl_abs (A := 1 - F.fl (p.w * p.w)) (a := 0) (e := 201 / 100 * e + F.u * (1 + 201 / 100 * e))
      (by rw [sub_zero, abs_sub_comm]; exact k2)
    rw [sub_zero, abs_zero, zero_add] at k3
    have k4 := (le_abs_self _).trans k3
    have h2 : F.u * e ≤ e / 1000 := by nlinarith
    have h3 : F.u * F.u ≤ F.u / 1000 := by nlinarith
    have h4 : F.u * (F.u * e) ≤ e / 1000 := by nlinarith
    change F.fl (1 - F.fl (p.w * p.w)) < P.dp
    nlinarith
  · exact Or.inr hv

/-! ## The theorems -/

/-- **C85 (a).** Every entry of the conversion table, with every operation rounded: if the stored numbers stand for the rotation
`R`, so do the numbers the conversion computes, with the errors of the table.  Nothing is assumed about the rounding and the
mathematical library but their error bounds. -/
theorem C85_convert (P : Prec) (d : Kind) {s : Kind} {r : Rep s} {η δ : ℝ} {R : M3} (h : Rounded η δ s r R)
    (he : quatErr P F.u η (angleSize s r) s ≤ 1 / 100000) (hd : d = .rv → RvDefined F P s r) :
    Rounded (if d = s then η else convOff F.u (quatErr P F.u η (angleSize s r) s) d)
      (δ + if d = s then 0 else convLoss P F.u η (quatErr P F.u η (angleSize s r) s) (angleSize s r) d) d (F.conv P d s r) R :=
  F.conv_rounded P d h he hd

/-- **C85 (b).** The conversion to a rotation vector never divides by zero if the threshold of the code is well above the rounding
error of the quaternion. -/
theorem C85_rv_defined (P : Prec) {s : Kind} {r : Rep s} {η δ : ℝ} {R : M3} (h : Rounded η δ s r R)
    (he : quatErr P F.u η (angleSize s r) s ≤ 1 / 100000) (hdp : 3 * quatErr P F.u η (angleSize s r) s + 3 * F.u ≤ P.dp) :
    RvDefined F P s r := by
  have hq := F.toQuat_rounded P h he
  obtain ⟨c, u, hu, hp, hc, -⟩ := Spec.Rounded.near hq (by linarith)
  have k := F.rv_defined P hu hc (by linarith) hp hdp
  cases s
  · exact k
  · exact k
  all_goals exact trivial

lemma convOff_nonneg {u e : ℝ} (hu : 0 ≤ u) (he : 0 ≤ e) (d : Kind) : 0 ≤ convOff u e d := by
  cases d <;> simp only [convOff] <;> linarith

/-- **C85 (c).** Conversion of an exactly represented rotation: the result acts on every vector as the original, up to the error
of the table.  (No hypothesis on the rotation vector: for exact inputs there is no division by zero.) -/
theorem C85_convert_exact_input (P : Prec) (d s : Kind) {r : Rep s} (h : Valid s r)
    (he : quatErr P F.u 0 (angleSize s r) s ≤ 1 / 100000) (hdp : 110 * F.u ≤ P.dp) (v : V3) :
    (act d (F.conv P d s r) v - act s r v).norm ≤
      (7 * convOff F.u (quatErr P F.u 0 (angleSize s r) s) d +
        convLoss P F.u 0 (quatErr P F.u 0 (angleSize s r) s) (angleSize s r) d) * v.norm := by
  have hu := F.u_nonneg
  have hs := F.u_small
  have hdp0 := P.dp_pos
  have hep := P.eps_pos
  have hr := rounded_of_valid h
  have hE0 := F.quatErr_nonneg P le_rfl r
  have hS0 := angleSize_nonneg s r
  have hd : d = .rv → RvDefined F P s r := fun _ => by
    by_cases hs : s = .quat ∨ s = .mat
    · apply F.C85_rv_defined P hr he
      rcases hs with rfl | rfl <;> simp only [quatErr] <;> linarith
    · cases s <;> first | exact trivial | (exact absurd (Or.inl rfl) hs) | (exact absurd (Or.inr rfl) hs)
  have k := F.C85_convert P d hr he hd
  rw [act_eq s r v]
  obtain ⟨E, hE⟩ : ∃ E, E = quatErr P F.u 0 (angleSize s r) s := ⟨_, rfl⟩
  rw [← hE] at k he hE0 ⊢
  have hoff0 := convOff_nonneg hu hE0 d
  have hloss0 : 0 ≤ convLoss P F.u 0 E (angleSize s r) d := by cases d <;> simp only [convLoss] <;> linarith
  have k' := k.mono (η' := convOff F.u E d) (δ' := convLoss P F.u 0 E (angleSize s r) d)
    (by split_ifs <;> first | exact hoff0 | exact le_rfl) (by rw [zero_add]; split_ifs <;> first | exact hloss0 | exact le_rfl)
  refine k'.act ?_ v
  cases d <;> simp only [convOff] <;> linarith

/-- **C85 (d).** `rotate()` of every class, including the conversion to a matrix and the product with the vector. -/
theorem C85_rotate (P : Prec) {k : Kind} {r : Rep k} {η δ : ℝ} {R : M3} (h : Rounded η δ k r R)
    (he : quatErr P F.u η (angleSize k r) k ≤ 1 / 100000) (v : V3) :
    (F.rotate P k r v - R.mulVec v).norm ≤
      (δ + if k = .mat then 3 * η + 6 * F.u else 19 * quatErr P F.u η (angleSize k r) k + 69 * F.u) * v.norm := by
  have hu := F.u_nonneg
  have hs := F.u_small
  have hη0 := h.1
  have hE0 := F.quatErr_nonneg P hη0 r
  have k1 := F.C85_convert P .mat h he (fun h => by cases h)
  have gen : ∀ {m : M3} {η' δ' : ℝ}, Rounded η' δ' .mat m R → η' ≤ 1 / 100 →
      (F.mulVec m v - R.mulVec v).norm ≤ (6 * F.u + 3 * η' + δ') * v.norm := by
    intro m η' δ' hm hη'
    obtain ⟨A, hA, h1, h2⟩ := hm.mat
    have e : F.mulVec m v - R.mulVec v = (F.mulVec m v - m.mulVec v) + (m.mulVec v - R.mulVec v) := by abel
    rw [e]
    refine (V3.norm_add_le _ _).trans ?_
    have a1 := F.mulVec_round hA h1 hη' v
    have a2 := (h1.close.trans h2) v
    linarith
  obtain ⟨E, hE⟩ : ∃ E, E = quatErr P F.u η (angleSize k r) k := ⟨_, rfl⟩
  by_cases hk : k = .mat
  · subst hk
    simp only [if_true, add_zero] at k1
    have hη : η ≤ 1 / 100 := by simp only [quatErr] at he; linarith
    have := gen k1 hη
    simp only [if_true]
    refine this.trans (mul_le_mul_of_nonneg_right ?_ v.norm_nonneg)
    linarith
  · have hk' : ¬ Kind.mat = k := fun e => hk e.symm
    rw [← hE] at k1 he hE0 ⊢
    simp only [hk', if_false, convOff, convLoss] at k1
    have := gen k1 (by linarith)
    simp only [hk, if_false]
    refine this.trans (mul_le_mul_of_nonneg_right ?_ v.norm_nonneg)
    linarith

/-- The rounded product of two matrices that are almost rotations. -/
lemma matMul_rounded {η δ η' δ' : ℝ} {a b A B : M3} (ha : Rounded η δ .mat a A) (hb : Rounded η' δ' .mat b B) (hA : IsSO3 A)
    (hη : η ≤ 1 / 1000) (hη' : η' ≤ 1 / 1000) :
    Rounded (2 * η + 2 * η' + 7 * F.u) (δ + δ') .mat (F.matMul a b) (A * B) := by
  have hu := F.u_nonneg
  have h0 := ha.1
  have h0' := hb.1
  obtain ⟨A', hA', ea, ca⟩ := ha.mat
  obtain ⟨B', hB', eb, cb⟩ := hb.mat
  refine rounded_mat (by positivity) (SO3.mul hA' hB') ?_ (ca.mul cb hB' hA)
  have ra := SO3.rel hA'
  have rb := SO3.rel hB'
  have sum1 : ∀ {x y z : ℝ}, x * x + y * y + z * z = 1 → |x| + |y| + |z| ≤ 174 / 100 := by
    intro x y z h
    rw [← abs_mul_abs_self x, ← abs_mul_abs_self y, ← abs_mul_abs_self z] at h
    nlinarith [sq_nonneg (|x| - |y|), sq_nonneg (|x| - |z|), sq_nonneg (|y| - |z|)]
  have ent : ∀ {p q r p' q' r' x y z x' y' z' f : ℝ}, |p - p'| ≤ η → |q - q'| ≤ η → |r - r'| ≤ η →
      p' * p' + q' * q' + r' * r' = 1 → |x - x'| ≤ η' → |y - y'| ≤ η' → |z - z'| ≤ η' → x' * x' + y' * y' + z' * z' = 1 →
      |f - (p * x + q * y + r * z)| ≤ 7 * F.u → |f - (p' * x' + q' * y' + r' * z')| ≤ 2 * η + 2 * η' + 7 * F.u := by
    intro p q r p' q' r' x y z x' y' z' f a1 a2 a3 a4 b1 b2 b3 b4 hf
    have s1 := sum1 a4
    have s2 := sum1 b4
    have bd : ∀ {p p' : ℝ}, |p - p'| ≤ η → |p| ≤ |p'| + η := fun {p p'} h => by
      have e : p = p' + (p - p') := by ring
      rw [e]; exact (abs_add_le _ _).trans (by simpa using h)
    have t : ∀ {p p' x x' : ℝ}, |p - p'| ≤ η → |x - x'| ≤ η' → |p * x - p' * x'| ≤ η * |x'| + (|p'| + η) * η' := by
      intro p p' x x' h1 h2
      have e : p * x - p' * x' = (p - p') * x' + p * (x - x') := by ring
      rw [e]
      refine (abs_add_le _ _).trans (add_le_add ?_ ?_)
      · rw [abs_mul]; exact mul_le_mul_of_nonneg_right h1 (abs_nonneg _)
      · rw [abs_mul]; exact mul_le_mul (bd h1) h2 (abs_nonneg _) (by have := abs_nonneg p'; linarith)
    have t1 := t a1 b1
    have t2 := t a2 b2
    have t3 := t a3 b3
    have e : f - (p' * x' + q' * y' + r' * z') = (f - (p * x + q * y + r * z)) + ((p * x - p' * x') + ((q * y - q' * y') + (r * z - r' * z'))) := by ring
    rw [e]
    have c1 := abs_add_le (f - (p * x + q * y + r * z)) ((p * x - p' * x') + ((q * y - q' * y') + (r * z - r' * z')))
    have c2 := abs_add_le (p * x - p' * x') ((q * y - q' * y') + (r * z - r' * z'))
    have c3 := abs_add_le (q * y - q' * y') (r * z - r' * z')
    have m1 := mul_le_mul_of_nonneg_left s2 h0
    have m2 := mul_le_mul_of_nonneg_right s1 h0'
    have m3 := mul_le_mul hη (le_refl η') h0' (by norm_num)
    nlinarith
  have colb : ∀ {x y z x' y' z' : ℝ}, |x - x'| ≤ η' → |y - y'| ≤ η' → |z - z'| ≤ η' → x' * x' + y' * y' + z' * z' = 1 →
      (F.mulVec a ⟨x, y, z⟩ - a.mulVec ⟨x, y, z⟩).norm ≤ 7 * F.u := by
    intro x y z x' y' z' h1 h2 h3 h4
    have n1 : (⟨x', y', z'⟩ : V3).norm = 1 := V3.norm_eq_one_iff.mpr (by simp only [V3.normSq, V3.dot]; linarith)
    have nd : (⟨x - x', y - y', z - z'⟩ : V3).norm ≤ 2 * η' := by
      apply V3.norm_le_of_sq (by linarith)
      simp only [V3.normSq, V3.dot]
      have s : ∀ {x : ℝ}, |x| ≤ η' → x * x ≤ η' * η' := fun {x} hx => by
        rw [← abs_mul_abs_self]; exact mul_le_mul hx hx (abs_nonneg _) h0'
      nlinarith [s h1, s h2, s h3, mul_nonneg h0' h0']
    have e1 : (⟨x, y, z⟩ : V3) = ⟨x', y', z'⟩ + ⟨x - x', y - y', z - z'⟩ := by ext <;> simp
    have n2 : (⟨x, y, z⟩ : V3).norm ≤ 101 / 100 := by rw [e1]; exact (V3.norm_add_le _ _).trans (by linarith)
    refine (F.mulVec_round hA' ea (by linarith) _).trans ?_
    have := mul_le_mul_of_nonneg_left n2 hu
    linarith
  obtain ⟨a0, a1, a2, a3, a4, a5, a6, a7, a8⟩ := ea
  obtain ⟨b0, b1, b2, b3, b4, b5, b6, b7, b8⟩ := eb
  have q0 : B'.m00 * B'.m00 + B'.m10 * B'.m10 + B'.m20 * B'.m20 = 1 := by linarith [rb.c00, sq B'.m00, sq B'.m10, sq B'.m20]
  have q1 : B'.m01 * B'.m01 + B'.m11 * B'.m11 + B'.m21 * B'.m21 = 1 := by linarith [rb.c11, sq B'.m01, sq B'.m11, sq B'.m21]
  have q2 : B'.m02 * B'.m02 + B'.m12 * B'.m12 + B'.m22 * B'.m22 = 1 := by linarith [rb.c22, sq B'.m02, sq B'.m12, sq B'.m22]
  have p0 : A'.m00 * A'.m00 + A'.m01 * A'.m01 + A'.m02 * A'.m02 = 1 := by linarith [ra.r00, sq A'.m00, sq A'.m01, sq A'.m02]
  have p1 : A'.m10 * A'.m10 + A'.m11 * A'.m11 + A'.m12 * A'.m12 = 1 := by linarith [ra.r11, sq A'.m10, sq A'.m11, sq A'.m12]
  have p2 : A'.m20 * A'.m20 + A'.m21 * A'.m21 + A'.m22 * A'.m22 = 1 := by linarith [ra.r22, sq A'.m20, sq A'.m21, sq A'.m22]
  have c0 := abs_comp_le (F.mulVec a ⟨b.m00, b.m10, b.m20⟩ - a.mulVec ⟨b.m00, b.m10, b.m20⟩)
  have c1 := abs_comp_le (F.mulVec a ⟨b.m01, b.m11, b.m21⟩ - a.mulVec ⟨b.m01, b.m11, b.m21⟩)
  have c2 := abs_comp_le (F.mulVec a ⟨b.m02, b.m12, b.m22⟩ - a.mulVec ⟨b.m02, b.m12, b.m22⟩)
  have d0 := colb b0 b3 b6 q0
  have d1 := colb b1 b4 b7 q1
  have d2 := colb b2 b5 b8 q2
  simp only [V3.sub_x, V3.sub_y, V3.sub_z, M3.mulVec_x, M3.mulVec_y, M3.mulVec_z] at c0 c1 c2
  refine ⟨?_, ?_, ?_, ?_, ?_, ?_, ?_, ?_, ?_⟩
  · simpa [FloatArith.matMul] using ent a0 a1 a2 p0 b0 b3 b6 q0 (c0.1.trans d0)
  · simpa [FloatArith.matMul] using ent a0 a1 a2 p0 b1 b4 b7 q1 (c1.1.trans d1)
  · simpa [FloatArith.matMul] using ent a0 a1 a2 p0 b2 b5 b8 q2 (c2.1.trans d2)
  · simpa [FloatArith.matMul] using ent a3 a4 a5 p1 b0 b3 b6 q0 (c0.2.1.trans d0)
  · simpa [FloatArith.matMul] using ent a3 a4 a5 p1 b1 b4 b7 q1 (c1.2.1.trans d1)
  · simpa [FloatArith.matMul] using ent a3 a4 a5 p1 b2 b5 b8 q2 (c2.2.1.trans d2)
  · simpa [FloatArith.matMul] using ent a6 a7 a8 p2 b0 b3 b6 q0 (c0.2.2.trans d0)
  · simpa [FloatArith.matMul] using ent a6 a7 a8 p2 b1 b4 b7 q1 (c1.2.2.trans d1)
  · simpa [FloatArith.matMul] using ent a6 a7 a8 p2 b2 b5 b8 q2 (c2.2.2.trans d2)

/-- Conversion of the result of an operation on quaternions. -/
lemma fromQuat_rounded (P : Prec) (d : Kind) {p : Quat} {E δ : ℝ} {R : M3} (h : Rounded E δ .quat p R) (hE : E ≤ 1 / 100000)
    (hd : d = .rv → 3 * E + 3 * F.u ≤ P.dp) :
    Rounded (convOff F.u E d) (δ + convLoss P F.u E E 0 d) d (F.conv P d .quat p) R := by
  have hu := F.u_nonneg
  have hdp0 := P.dp_pos
  have hE0 := h.1
  have k := F.C85_convert P d h hE (fun e => F.C85_rv_defined P h hE (hd e))
  have e1 : quatErr P F.u E (angleSize .quat p) .quat = E := rfl
  have e2 : angleSize .quat p = 0 := rfl
  rw [e1, e2] at k
  refine k.mono ?_ ?_
  · split_ifs with hq
    · rw [hq]; simp only [convOff]; exact le_rfl
    · exact le_rfl
  · split_ifs with hq
    · rw [hq]; simp only [convLoss]; exact le_rfl
    · exact le_rfl

/-- **C85 (e).** `operator*` of every pair of classes that are not both matrices. -/
theorem C85_mult (P : Prec) {k₁ k₂ : Kind} {a : Rep k₁} {b : Rep k₂} {η δ η' δ' : ℝ} {A B : M3} (ha : Rounded η δ k₁ a A)
    (hb : Rounded η' δ' k₂ b B) (hA : IsSO3 A) (hk : ¬ (k₁ = .mat ∧ k₂ = .mat)) {E : ℝ}
    (hE : E = 101 / 100 * quatErr P F.u η (angleSize k₁ a) k₁ + quatErr P F.u η' (angleSize k₂ b) k₂ + 9 * F.u)
    (hE1 : E ≤ 1 / 100000) (hd : k₁ = .rv → 3 * E + 3 * F.u ≤ P.dp) :
    Rounded (convOff F.u E k₁) (δ + δ' + convLoss P F.u E E 0 k₁) k₁ (F.mult P k₁ k₂ a b) (A * B) := by
  have hu := F.u_nonneg
  have e1 := F.quatErr_nonneg P ha.1 a
  have e2 := F.quatErr_nonneg P hb.1 b
  have qa := F.toQuat_rounded P ha (by linarith)
  have qb := F.toQuat_rounded P hb (by linarith)
  obtain ⟨p, hp, p1, p2⟩ := qa.quat
  obtain ⟨q, hq, q1, q2⟩ := qb.quat
  have hpq : (p * q).normSq = 1 := by rw [Quat.normSq_mul, hp, hq, one_mul]
  have hm := F.quatMul_dist hp hq p1 q1 (by linarith) (by linarith)
  have hc : Close (δ + δ') (sMat (p * q)) (A * B) := by rw [sMat_mul]; exact p2.mul q2 (sMat_isSO3 hq) hA
  have hr : Rounded E (δ + δ') .quat (F.quatMul (F.conv P .quat k₁ a) (F.conv P .quat k₂ b)) (A * B) :=
    rounded_quat (by rw [hE]; positivity) hpq (hm.trans hE.ge) hc
  have e : F.mult P k₁ k₂ a b = F.conv P k₁ .quat (F.quatMul (F.conv P .quat k₁ a) (F.conv P .quat k₂ b)) := by
    cases k₁ <;> cases k₂ <;> first | rfl | exact absurd ⟨rfl, rfl⟩ hk
  rw [e]
  exact F.fromQuat_rounded P k₁ hr hE1 hd

/-- **C85 (f).** The product of two rotation matrices. -/
theorem C85_mult_matrix (P : Prec) {a b : M3} {η δ η' δ' : ℝ} {A B : M3} (ha : Rounded η δ .mat a A) (hb : Rounded η' δ' .mat b B)
    (hA : IsSO3 A) (hη : η ≤ 1 / 1000) (hη' : η' ≤ 1 / 1000) :
    Rounded (2 * η + 2 * η' + 7 * F.u) (δ + δ') .mat (F.mult P .mat .mat a b) (A * B) :=
  F.matMul_rounded ha hb hA hη hη'

/-- **C85 (g).** `inverted()` of every class; it is exact but for the Euler angles. -/
theorem C85_inverted (P : Prec) {k : Kind} {r : Rep k} {η δ : ℝ} {R : M3} (h : Rounded η δ k r R)
    (he : quatErr P F.u η (angleSize k r) k ≤ 1 / 100000) :
    Rounded η (δ + if k = .xyz ∨ k = .zyx then convLoss P F.u η (quatErr P F.u η (angleSize k r) k) 0 k else 0) k
      (F.inverted k r) R.transpose := by
  have hu := F.u_nonneg
  have hdp := P.dp_pos
  have h0 := h.1
  have hq := F.toQuat_rounded P h he
  have hE0 := hq.1
  have conjR : ∀ {p : Quat} {E : ℝ}, Rounded E δ .quat p R → Rounded E δ .quat p.conj R.transpose := by
    intro p E hp
    obtain ⟨u, hu1, k1, k2⟩ := hp.quat
    refine rounded_quat hp.1 (by rw [Quat.normSq_conj]; exact hu1) ?_ (by rw [sMat_conj]; exact k2.transpose)
    have e : toH p.conj - toH u.conj = star (toH p - toH u) := by ext <;> simp [Quat.conj] <;> ring
    rw [e, norm_star]; exact k1
  obtain ⟨E, hE⟩ : ∃ E, E = quatErr P F.u η (angleSize k r) k := ⟨_, rfl⟩
  rw [← hE] at he hq hE0 ⊢
  cases k
  · simp; exact conjR h
  · simp
    obtain ⟨A, hA, k1, k2⟩ := h.mat
    obtain ⟨a1, a2, a3, a4, a5, a6, a7, a8, a9⟩ := k1
    exact rounded_mat h0 (SO3.transpose hA) ⟨a1, a4, a7, a2, a5, a8, a3, a6, a9⟩ k2.transpose
  · simp
    obtain ⟨n, hn, k1, k2⟩ := h.aa
    have e : F.inverted .aa r = (⟨AngAx.angle r, -AngAx.axis r⟩ : AngAx) := by
      change aaInverted r = _
      simp [aaInverted, AngAx.inverse]
    rw [e]
    have hn' : (-n).normSq = 1 := by rw [← hn]; simp [V3.normSq, V3.dot]
    refine rounded_aa h0 hn' ?_ (by rw [← rodMat_transpose]; exact k2.transpose)
    have e2 : -AngAx.axis r - -n = -(AngAx.axis r - n) := by ext <;> simp <;> ring
    rw [e2, V3.norm_neg]; exact k1
  · simp
    have e : dmat .rv (F.inverted .rv r) = (dmat .rv r).transpose := by
      have := (inverted_spec (k := .rv) (r := r) trivial).2
      rw [den_eq, den_eq] at this
      exact this
    exact rounded_rv h0 (by rw [e]; exact h.rv.transpose)
  · simp only [true_or, if_true]
    have k1 := F.fromQuat_rounded P .xyz (conjR hq) he (fun h => by cases h)
    refine k1.mono (by simp only [convOff]; exact h0) (by simp only [convLoss]; linarith)
  · simp only [or_true, if_true]
    have k1 := F.fromQuat_rounded P .zyx (conjR hq) he (fun h => by cases h)
    refine k1.mono (by simp only [convOff]; exact h0) (by simp only [convLoss]; linarith)

end FloatLib
end Kindr
