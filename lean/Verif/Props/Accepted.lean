import Verif.Props.Cast
import Verif.Props.Fix
import Verif.Spec.Accepted

/-!
# C82: whatever a debug build lets through is a rotation, in every representation
-/

set_option autoImplicit false

open Classical

noncomputable section
namespace Kindr
open Spec

/-! ## Gram-Schmidt: an almost orthonormal matrix is close to a rotation -/

/-- Matrix with the given rows. -/
def rowsM (a b c : V3) : M3 := ⟨a.x, a.y, a.z, b.x, b.y, b.z, c.x, c.y, c.z⟩

lemma frame_isSO3 {a b : V3} (ha : a.normSq = 1) (hb : b.normSq = 1) (hab : a.dot b = 0) : IsSO3 (rowsM a b (a.cross b)) := by
  have hc : (a.cross b).normSq = 1 := by
    have : (a.cross b).normSq = a.normSq * b.normSq - a.dot b ^ 2 := by
      simp [V3.normSq, V3.dot, V3.cross]; ring
    rw [this, ha, hb, hab]; norm_num
  have ha' : a.x * a.x + a.y * a.y + a.z * a.z = 1 := ha
  have hb' : b.x * b.x + b.y * b.y + b.z * b.z = 1 := hb
  have hab' : a.x * b.x + a.y * b.y + a.z * b.z = 0 := hab
  have hc' : (a.cross b).x * (a.cross b).x + (a.cross b).y * (a.cross b).y + (a.cross b).z * (a.cross b).z = 1 := hc
  constructor
  · ext <;> simp only [rowsM, M3.mul_m00, M3.mul_m01, M3.mul_m02, M3.mul_m10, M3.mul_m11, M3.mul_m12, M3.mul_m20, M3.mul_m21,
      M3.mul_m22, M3.transpose, M3.one_m00, M3.one_m01, M3.one_m02, M3.one_m10, M3.one_m11, M3.one_m12, M3.one_m20,
      M3.one_m21, M3.one_m22]
    · exact ha'
    · exact hab'
    · simp [V3.cross]; ring
    · linarith
    · exact hb'
    · simp [V3.cross]; ring
    · simp [V3.cross]; ring
    · simp [V3.cross]; ring
    · exact hc'
  · have : (rowsM a b (a.cross b)).det =
        (a.cross b).x * (a.cross b).x + (a.cross b).y * (a.cross b).y + (a.cross b).z * (a.cross b).z := by
      simp [rowsM, M3.det, V3.cross]; ring
    rw [this, hc']

lemma near_one_of_sq {x t : ℝ} (hx : 0 ≤ x) (h : |x ^ 2 - 1| ≤ t) : |x - 1| ≤ t := by
  have e : x ^ 2 - 1 = (x - 1) * (x + 1) := by ring
  rw [e, abs_mul, abs_of_nonneg (by linarith : (0 : ℝ) ≤ x + 1)] at h
  have := le_mul_of_one_le_right (abs_nonneg (x - 1)) (by linarith : (1 : ℝ) ≤ x + 1)
  linarith

lemma abs_comp_le (v : V3) : |v.x| ≤ v.norm ∧ |v.y| ≤ v.norm ∧ |v.z| ≤ v.norm := by
  have h : v.norm ^ 2 = v.x ^ 2 + v.y ^ 2 + v.z ^ 2 := by rw [V3.norm_sq]; simp [V3.normSq, V3.dot]; ring
  refine ⟨?_, ?_, ?_⟩ <;> apply abs_le_of_sq_le_sq _ v.norm_nonneg <;> rw [h] <;>
    nlinarith [sq_nonneg v.x, sq_nonneg v.y, sq_nonneg v.z]

set_option maxHeartbeats 1000000 in
/-- **Gram-Schmidt.** A positively oriented triple of almost orthonormal vectors is close to an orthonormal one. -/
lemma gram_schmidt {a b c : V3} {t : ℝ} (ht : t ≤ 1 / 1000) (ha : |a.normSq - 1| ≤ 2 * t) (hb : |b.normSq - 1| ≤ 2 * t)
    (hc : |c.normSq - 1| ≤ 2 * t) (hab : |a.dot b| ≤ t) (hac : |a.dot c| ≤ t) (hbc : |b.dot c| ≤ t)
    (hdet : 0 < (a.cross b).dot c) :
    ∃ e0 e1 e2 : V3, IsSO3 (rowsM e0 e1 e2) ∧ (a - e0).norm ≤ 5 * t ∧ (b - e1).norm ≤ 5 * t ∧ (c - e2).norm ≤ 5 * t := by
  have ht0 : 0 ≤ t := (abs_nonneg _).trans hab
  have htt : t * t ≤ t / 1000 := by nlinarith
  rw [← V3.norm_sq] at ha hb hc
  -- the first vector
  have n0 := near_one_of_sq a.norm_nonneg ha
  obtain ⟨n0a, n0b⟩ := abs_le.mp n0
  have hn0 : 0 < a.norm := by linarith
  obtain ⟨e0, u0, ae0⟩ : ∃ e0 : V3, e0.normSq = 1 ∧ a = a.norm • e0 :=
    ⟨(1 / a.norm) • a, unit_dir hn0.ne', by rw [smul_smul, mul_one_div_cancel hn0.ne', one_smul]⟩
  have d0 : (a - e0).norm ≤ 2 * t := by
    have : a - e0 = (a.norm - 1) • e0 := by
      rw [sub_smul, one_smul, ← ae0]
    rw [this, V3.norm_smul, V3.norm_eq_one_iff.mpr u0, mul_one]; exact n0
  have dotl : ∀ v : V3, a.dot v = a.norm * e0.dot v := fun v => by
    conv_lhs => rw [ae0]
    simp [V3.dot]; ring
  have small : ∀ {x n y : ℝ}, |x| ≤ t → x = n * y → 998 / 1000 ≤ n → |y| ≤ 1003 / 1000 * t := fun {x n y} hx he hn => by
    rw [he, abs_mul, abs_of_pos (by linarith : (0 : ℝ) < n)] at hx
    have := mul_le_mul_of_nonneg_right hn (abs_nonneg y)
    linarith
  -- the second vector
  obtain ⟨p, hp⟩ : ∃ p, p = e0.dot b := ⟨_, rfl⟩
  have hp1 : |p| ≤ 1003 / 1000 * t := small hab (by rw [hp]; exact dotl b) (by linarith)
  have hp2 : p ^ 2 ≤ 2 / 1000 * t := by
    rw [← sq_abs]
    calc |p| ^ 2 ≤ (1003 / 1000 * t) ^ 2 := pow_le_pow_left₀ (abs_nonneg _) hp1 2
      _ ≤ _ := by nlinarith
  obtain ⟨w, hw⟩ : ∃ w, w = b - p • e0 := ⟨_, rfl⟩
  have hww : w.normSq = b.normSq - p ^ 2 := by
    have : w.normSq = b.normSq - 2 * p * e0.dot b + p ^ 2 * e0.normSq := by
      simp [hw, V3.normSq, V3.dot]; ring
    rw [this, u0, ← hp]; ring
  have ns : |w.norm ^ 2 - 1| ≤ 2002 / 1000 * t := by
    rw [V3.norm_sq, hww, ← V3.norm_sq b]
    have h1 := abs_le.mp hb
    have h2 := sq_nonneg p
    rw [abs_le]; constructor <;> linarith [h1.1, h1.2]
  have s1 := near_one_of_sq w.norm_nonneg ns
  obtain ⟨s1a, s1b⟩ := abs_le.mp s1
  have hs : 0 < w.norm := by linarith
  obtain ⟨e1, he1⟩ : ∃ e1, e1 = (1 / w.norm) • w := ⟨_, rfl⟩
  have u1 : e1.normSq = 1 := by rw [he1]; exact unit_dir hs.ne'
  have we1 : w = w.norm • e1 := by rw [he1, smul_smul, mul_one_div_cancel hs.ne', one_smul]
  have be1 : b = p • e0 + w.norm • e1 := by rw [← we1, hw]; ext <;> simp
  have d1 : (b - e1).norm ≤ 4 * t := by
    have e : b - e1 = p • e0 + (w.norm - 1) • e1 := by
      rw [sub_smul, one_smul]; nth_rewrite 1 [be1]; ext <;> simp <;> ring
    rw [e]
    refine (V3.norm_add_le _ _).trans ?_
    rw [V3.norm_smul, V3.norm_smul, V3.norm_eq_one_iff.mpr u0, V3.norm_eq_one_iff.mpr u1]
    linarith
  have orth : e0.dot e1 = 0 := by
    have h1 : e0.dot w = 0 := by
      have : e0.dot w = e0.dot b - p * e0.normSq := by simp [hw, V3.normSq, V3.dot]; ring
      rw [this, u0, ← hp]; ring
    have h2 : e0.dot e1 = (1 / w.norm) * e0.dot w := by rw [he1]; simp [V3.dot]; ring
    rw [h2, h1, mul_zero]
  -- the third vector
  obtain ⟨e2, he2⟩ : ∃ e2, e2 = e0.cross e1 := ⟨_, rfl⟩
  have hSO : IsSO3 (rowsM e0 e1 e2) := by rw [he2]; exact frame_isSO3 u0 u1 orth
  have u2 : e2.normSq = 1 := by
    have : e2.normSq = e0.normSq * e1.normSq - e0.dot e1 ^ 2 := by
      simp [he2, V3.normSq, V3.dot, V3.cross]; ring
    rw [this, u0, u1, orth]; norm_num
  have o02 : e0.dot e2 = 0 := by simp [he2, V3.dot, V3.cross]; ring
  have o12 : e1.dot e2 = 0 := by simp [he2, V3.dot, V3.cross]; ring
  obtain ⟨α, hα⟩ : ∃ α, α = e0.dot c := ⟨_, rfl⟩
  obtain ⟨β, hβ⟩ : ∃ β, β = e1.dot c := ⟨_, rfl⟩
  obtain ⟨γ, hγ⟩ : ∃ γ, γ = e2.dot c := ⟨_, rfl⟩
  have ha1 : |α| ≤ 1003 / 1000 * t := small hac (by rw [hα]; exact dotl c) (by linarith)
  have hbc' : b.dot c = p * α + w.norm * β := by
    conv_lhs => rw [be1]
    simp [hα, hβ, V3.dot]; ring
  have hb1 : |β| ≤ 1006 / 1000 * t := by
    have h1 : |w.norm * β| ≤ 1002 / 1000 * t := by
      have e : w.norm * β = b.dot c - p * α := by rw [hbc']; ring
      rw [e]
      refine (abs_sub _ _).trans ?_
      rw [abs_mul]
      have := mul_le_mul hp1 ha1 (abs_nonneg _) (by linarith)
      nlinarith
    rw [abs_mul, abs_of_pos hs] at h1
    have := mul_le_mul_of_nonneg_right (show (997 / 1000 : ℝ) ≤ w.norm by linarith) (abs_nonneg β)
    linarith
  have pars : ∀ v : V3, v.normSq = (e0.dot v) ^ 2 + (e1.dot v) ^ 2 + (e2.dot v) ^ 2 := fun v => by
    have := SO3.mulVec_normSq hSO v
    rw [← this]
    simp [V3.normSq, V3.dot, rowsM]; ring
  have hg : 0 < γ := by
    have e : (a.cross b).dot c = a.norm * w.norm * γ := by
      conv_lhs => rw [ae0, be1]
      simp [hγ, he2, V3.cross, V3.dot]; ring
    rw [e] at hdet
    exact pos_of_mul_pos_right hdet (by positivity)
  have sqb : ∀ {x : ℝ}, |x| ≤ 1006 / 1000 * t → x ^ 2 ≤ 2 / 1000 * t := fun {x} hx => by
    rw [← sq_abs]
    calc |x| ^ 2 ≤ (1006 / 1000 * t) ^ 2 := pow_le_pow_left₀ (abs_nonneg _) hx 2
      _ ≤ _ := by nlinarith
  have g1 : |γ ^ 2 - 1| ≤ 2004 / 1000 * t := by
    have h1 := pars c
    rw [← V3.norm_sq, ← hα, ← hβ, ← hγ] at h1
    have h2 := abs_le.mp hc
    have h3 := sqb (ha1.trans (by linarith))
    have h4 := sqb hb1
    have h5 := sq_nonneg α
    have h6 := sq_nonneg β
    rw [abs_le]; constructor <;> linarith [h2.1, h2.2]
  have g2 := near_one_of_sq hg.le g1
  have d2 : (c - e2).norm ≤ 5 * t := by
    have e : (c - e2).normSq = α ^ 2 + β ^ 2 + (γ - 1) ^ 2 := by
      rw [pars (c - e2)]
      have e1' : e0.dot (c - e2) = α - e0.dot e2 := by simp [hα, V3.dot]; ring
      have e2' : e1.dot (c - e2) = β - e1.dot e2 := by simp [hβ, V3.dot]; ring
      have e3' : e2.dot (c - e2) = γ - e2.normSq := by simp [hγ, V3.dot, V3.normSq]; ring
      rw [e1', e2', e3', o02, o12, u2]; ring
    apply le_of_sq_le_sq _ (by linarith)
    rw [V3.norm_sq, e, ← sq_abs α, ← sq_abs β, ← sq_abs (γ - 1)]
    have h1 := pow_le_pow_left₀ (abs_nonneg _) ha1 2
    have h2 := pow_le_pow_left₀ (abs_nonneg _) hb1 2
    have h3 := pow_le_pow_left₀ (abs_nonneg _) g2 2
    nlinarith [sq_nonneg t]
  exact ⟨e0, e1, e2, hSO, by linarith, by linarith, d2⟩

/-- The matrices a debug build accepts are entrywise close to a rotation. -/
lemma matCtor_entry {m : M3} (h : matCtorDbg m = .ok m) : ∃ R : M3, IsSO3 R ∧ EntryClose (5 / 10 ^ 6) m R := by
  obtain ⟨⟨d0, d1, d2⟩, ⟨o1, o2, o3⟩, -⟩ := (matCtorDbg_iff m).mp h
  have hdet := abs_le.mp ((C26_matrix_ctor m).2.2 h).1
  have bd : ∀ {v : V3}, |v.normSq - 1| ≤ 1 / 10 ^ 6 * max |v.normSq| 1 → |v.normSq - 1| ≤ 2 * (1 / 10 ^ 6) := fun {v} hv => by
    have := near_one_bounds (V3.normSq_nonneg v) (by norm_num) (by norm_num) hv
    rw [abs_le]; constructor <;> linarith [this.1, this.2]
  obtain ⟨e0, e1, e2, hS, h0, h1, h2⟩ := gram_schmidt (a := ⟨m.m00, m.m01, m.m02⟩) (b := ⟨m.m10, m.m11, m.m12⟩)
    (c := ⟨m.m20, m.m21, m.m22⟩) (t := 1 / 10 ^ 6) (by norm_num) (bd d0) (bd d1) (bd d2) o1.le o2.le o3.le (by
      have e : (V3.cross ⟨m.m00, m.m01, m.m02⟩ ⟨m.m10, m.m11, m.m12⟩).dot ⟨m.m20, m.m21, m.m22⟩ = m.det := by
        simp [V3.cross, V3.dot, M3.det]; ring
      rw [e]; linarith [hdet.1])
  have e5 : 5 * (1 / 10 ^ 6 : ℝ) = 5 / 10 ^ 6 := by norm_num
  rw [e5] at h0 h1 h2
  refine ⟨_, hS, ?_⟩
  obtain ⟨a1, a2, a3⟩ := abs_comp_le ((⟨m.m00, m.m01, m.m02⟩ : V3) - e0)
  obtain ⟨b1, b2, b3⟩ := abs_comp_le ((⟨m.m10, m.m11, m.m12⟩ : V3) - e1)
  obtain ⟨c1, c2, c3⟩ := abs_comp_le ((⟨m.m20, m.m21, m.m22⟩ : V3) - e2)
  exact ⟨a1.trans h0, a2.trans h0, a3.trans h0, b1.trans h1, b2.trans h1, b3.trans h1, c1.trans h2, c2.trans h2, c3.trans h2⟩

/-! ## The conversions of an almost-unit quaternion -/

/-- Error of the conversion from an almost-unit quaternion, in units of its deviation. -/
def quatLoss : Kind → ℝ
  | .quat => 402 / 100
  | .mat => 402 / 100
  | .aa => 0
  | .rv => 1
  | _ => 97

lemma NearQ.to_close {P : Prec} {η δ : ℝ} {p : Quat} {R : M3} (d : Kind) (h : NearQ η δ p R) (hη : η ≤ 1 / 1000) :
    Close (P.dp / 10 + quatLoss d * η + δ) (dmat d (conv P d .quat p)) R := by
  have hη0 : 0 ≤ η := by obtain ⟨c, u, hu, -, hc, -⟩ := h; exact (abs_nonneg _).trans hc
  have hdp := P.dp_pos
  cases d
  · refine (NearQ.sandwich h (by linarith)).mono ?_
    simp only [quatLoss]; linarith
  · refine (NearQ.toRotationMatrix h (by linarith)).mono ?_
    simp only [quatLoss]; linarith
  · refine (h.ofQuat (by linarith)).2.mono ?_
    simp only [quatLoss]; linarith
  · refine (h.rvOfQuat' (P := P) hη).mono ?_
    simp only [quatLoss]; linarith
  · obtain ⟨c, u, hu, e, hc, hcl⟩ := h
    have h' : NearQ η 0 p (sMat u) := ⟨c, u, hu, e, hc, Close.refl _⟩
    refine ((h'.xyzOfQuat (sMat_isSO3 hu) hη (by norm_num)).trans hcl).mono ?_
    simp only [quatLoss]; linarith
  · obtain ⟨c, u, hu, e, hc, hcl⟩ := h
    have h' : NearQ η 0 p (sMat u) := ⟨c, u, hu, e, hc, Close.refl _⟩
    refine ((h'.zyxOfQuat (sMat_isSO3 hu) hη (by norm_num)).trans hcl).mono ?_
    simp only [quatLoss]; linarith

/-! ## The theorem -/

lemma accepted_aa {a : AngAx} (h : aaCtorDbg a = .ok a) : ∃ n : V3, n.normSq = 1 ∧ (a.axis - n).norm ≤ 2 / 10 ^ 6 := by
  obtain ⟨h1, h2⟩ := (C26_angle_axis_ctor a).2.2.1 h
  have hp : 0 < a.axis.norm := by linarith
  refine ⟨(1 / a.axis.norm) • a.axis, unit_dir hp.ne', ?_⟩
  have e : a.axis - (1 / a.axis.norm) • a.axis = (a.axis.norm - 1) • ((1 / a.axis.norm) • a.axis) := by
    rw [smul_smul, sub_mul, mul_one_div_cancel hp.ne', one_mul, sub_smul, one_smul]
  rw [e, V3.norm_smul, V3.norm_eq_one_iff.mpr (unit_dir hp.ne'), mul_one, abs_le]
  constructor <;> linarith

lemma quatOfAa_near {a : AngAx} {n : V3} (hn : n.normSq = 1) {t : ℝ} (ht : t ≤ 1 / 1000) (h : (a.axis - n).norm ≤ t) :
    NearQ t (4 * t) (quatOfAa a) (rodMat a.angle n) := by
  have ht0 : 0 ≤ t := (V3.norm_nonneg _).trans h
  set q : Quat := Quat.ofAngleAxis a.angle n with hq
  have hqu : q.normSq = 1 := normSq_ofAngleAxis _ hn
  have hd : ‖toH (quatOfAa a) - toH q‖ ≤ t := by
    set w := a.axis - n with hw
    set s := Real.sin (1 / 2 * a.angle) with hs
    have hs1 : s ^ 2 ≤ 1 := Real.sin_sq_le_one _
    have k : ‖toH (quatOfAa a) - toH q‖ ^ 2 ≤ t ^ 2 := by
      rw [sq ‖_‖, ← Quaternion.normSq_eq_norm_mul_self, Quaternion.normSq_def']
      change (Real.cos (1 / 2 * a.angle) - Real.cos (1 / 2 * a.angle)) ^ 2 + (s * a.axis.x - s * n.x) ^ 2 +
        (s * a.axis.y - s * n.y) ^ 2 + (s * a.axis.z - s * n.z) ^ 2 ≤ _
      have e : (Real.cos (1 / 2 * a.angle) - Real.cos (1 / 2 * a.angle)) ^ 2 + (s * a.axis.x - s * n.x) ^ 2 +
          (s * a.axis.y - s * n.y) ^ 2 + (s * a.axis.z - s * n.z) ^ 2 = s ^ 2 * w.norm ^ 2 := by
        rw [V3.norm_sq]; simp [hw, V3.normSq, V3.dot]; ring
      rw [e]
      calc s ^ 2 * w.norm ^ 2 ≤ 1 * t ^ 2 :=
            mul_le_mul hs1 (pow_le_pow_left₀ (V3.norm_nonneg _) h 2) (sq_nonneg _) zero_le_one
        _ = _ := one_mul _
    exact abs_le_of_sq_le_sq' k ht0 |>.2
  have c := nearQ_of_dist hqu hd (by linarith)
  have e : sMat q = rodMat a.angle n := sMat_ofAngleAxis _ hn
  rwa [e] at c

/-- **C82.** Whatever value the debug-mode constructor of a rotation class accepts stands for a rotation `R`: its own action is
close to `R` and, for every destination class, so is the action of the converted value (rotation vectors: whenever the
conversion does not divide zero by zero, see C84). -/
theorem C82_accepted (P : Prec) (s : Kind) (r : Rep s) (h : ctorDbg s r = .ok r) :
    ∃ R : M3, IsSO3 R ∧
      (∀ v : V3, (act s r v - R.mulVec v).norm ≤ acceptedTol s * v.norm) ∧
      (∀ (d : Kind) (v : V3), (d = .rv → RvComputable P s r) → (act d (conv P d s r) v - R.mulVec v).norm ≤ (P.dp + P.eps / 20 + acceptedLoss d s r) * v.norm) := by
  suffices hs : ∃ R : M3, IsSO3 R ∧ (∀ v : V3, (act s r v - R.mulVec v).norm ≤ acceptedTol s * v.norm) ∧
      (∀ (d : Kind) (v : V3), (act d (conv P d s r) v - R.mulVec v).norm ≤ (P.dp + P.eps / 20 + acceptedLoss d s r) * v.norm) by
    obtain ⟨R, hR, ha, hc⟩ := hs
    exact ⟨R, hR, ha, fun d v _ => hc d v⟩
  have h1 := P.dp_pos
  have h2 := P.eps_pos
  have h3 := eps_small P
  simp only [act_eq_dmat]
  cases s
  · -- quaternion
    obtain ⟨a1, a2⟩ := (C26_quaternion_ctor r).2.2.1 h
    have hp : 0 < Quat.norm r := by linarith
    obtain ⟨u, hu, n⟩ : ∃ u : Quat, u.normSq = 1 ∧ NearQ (2 / 10 ^ 4) 0 r (sMat u) := by
      refine ⟨⟨Quat.w r / Quat.norm r, Quat.x r / Quat.norm r, Quat.y r / Quat.norm r, Quat.z r / Quat.norm r⟩, ?_, Quat.norm r, _, ?_, ?_, ?_, Close.refl _⟩
      · have e : Quat.norm r ^ 2 = Quat.normSq r := Real.sq_sqrt (Quat.normSq_nonneg _)
        rw [Quat.normSq] at e ⊢
        field_simp
        linarith
      · have e : Quat.norm r ^ 2 = Quat.normSq r := Real.sq_sqrt (Quat.normSq_nonneg _)
        rw [Quat.normSq] at e ⊢
        field_simp
        linarith
      · apply Quat.ext <;> field_simp
      · rw [abs_le]; constructor <;> linarith
    refine ⟨sMat u, sMat_isSO3 hu, ?_, fun d => ?_⟩
    · refine (NearQ.sandwich n (by norm_num)).mono ?_
      simp only [acceptedTol]; norm_num
    · refine (n.to_close (P := P) d (by norm_num)).mono ?_
      cases d <;> simp only [acceptedLoss, quatLoss] <;> norm_num <;> linarith
  · -- matrix
    obtain ⟨R, hR, hE⟩ := matCtor_entry h
    have n := ofMatrix_near hR hE (by norm_num)
    refine ⟨R, hR, ?_, fun d => ?_⟩
    · refine hE.close.mono ?_
      simp only [acceptedTol]; norm_num
    · have k := n.to_close (P := P) d (by norm_num)
      cases d
      · refine Close.mono k ?_
        simp only [acceptedLoss, quatLoss]; norm_num; linarith
      · refine Close.mono (hE.close) ?_
        simp only [acceptedLoss]; norm_num; linarith
      · refine Close.mono k ?_
        simp only [acceptedLoss, quatLoss]; norm_num; linarith
      · refine Close.mono k ?_
        simp only [acceptedLoss, quatLoss]; norm_num; linarith
      · refine Close.mono k ?_
        simp only [acceptedLoss, quatLoss]; norm_num; linarith
      · refine Close.mono k ?_
        simp only [acceptedLoss, quatLoss]; norm_num; linarith
  · -- angle-axis
    obtain ⟨u, hu, hd⟩ := accepted_aa h
    have n := quatOfAa_near (a := r) hu (by norm_num) hd
    have own : Close (14 / 10 ^ 6) (dmat .aa r) (rodMat (AngAx.angle r) u) := fun v => by
      change ((rodMat (AngAx.angle r) (AngAx.axis r)).mulVec v - (rodMat (AngAx.angle r) u).mulVec v).norm ≤ _
      rw [← rodrigues_eq, ← rodrigues_eq, V3.norm_sub_comm]
      have hu1 := V3.norm_eq_one_iff.mpr hu
      refine (rodrigues_lipschitz' hu ?_ v).trans (mul_le_mul_of_nonneg_right ?_ v.norm_nonneg)
      · have := V3.norm_add_le (AngAx.axis r - u) u
        rw [sub_add_cancel, hu1] at this
        refine this.trans ?_
        linarith
      · rw [sub_self, abs_zero, V3.norm_sub_comm]; linarith
    refine ⟨rodMat (AngAx.angle r) u, rodMat_isSO3 _ hu, ?_, fun d => ?_⟩
    · refine own.mono ?_
      simp only [acceptedTol]; norm_num
    · cases d
      · refine Close.mono (n.to_close (P := P) .quat (by norm_num)) ?_
        simp only [acceptedLoss, quatLoss]; norm_num; linarith
      · refine Close.mono own ?_
        simp only [acceptedLoss]; norm_num; linarith
      · refine Close.mono own ?_
        simp only [acceptedLoss]; norm_num; linarith
      · have e1 : dmat .rv (rvOfAa ⟨AngAx.angle r, u⟩) = rodMat (AngAx.angle r) u := rvOfAa_spec (a := ⟨AngAx.angle r, u⟩) hu
        have key : ((AngAx.angle r) • AngAx.axis r - (AngAx.angle r) • u).norm ≤ 2 / 10 ^ 6 * ((AngAx.angle r) • u).norm := by
          rw [← smul_sub, V3.norm_smul, V3.norm_smul, V3.norm_eq_one_iff.mpr hu, mul_one, mul_comm]
          exact mul_le_mul_of_nonneg_right hd (abs_nonneg _)
        have c := rv_perturb key (by norm_num) (by norm_num)
        change Close _ (dmat .rv (rvOfAa r)) _ at c
        change Close _ _ (dmat .rv (rvOfAa ⟨AngAx.angle r, u⟩)) at c
        rw [e1, V3.norm_smul, V3.norm_eq_one_iff.mpr hu, mul_one] at c
        refine Close.mono c ?_
        simp only [acceptedLoss]
        linarith [abs_nonneg (AngAx.angle r)]
      · refine Close.mono (n.to_close (P := P) .xyz (by norm_num)) ?_
        simp only [acceptedLoss, quatLoss]; norm_num; linarith
      · refine Close.mono (n.to_close (P := P) .zyx (by norm_num)) ?_
        simp only [acceptedLoss, quatLoss]; norm_num; linarith
  all_goals
    refine ⟨dmat _ r, dmat_isSO3 _ r trivial, fun v => by simp [acceptedTol], fun d => ?_⟩
  · have c := (conv_near P d .rv (r := r) trivial).close (by linarith) (by linarith)
    rw [den_eq, den_eq] at c
    exact c.mono (by simp only [acceptedLoss]; linarith)
  · have c := (conv_near P d .xyz (r := r) trivial).close (by linarith) (by linarith)
    rw [den_eq, den_eq] at c
    exact c.mono (by simp only [acceptedLoss]; linarith)
  · have c := (conv_near P d .zyx (r := r) trivial).close (by linarith) (by linarith)
    rw [den_eq, den_eq] at c
    exact c.mono (by simp only [acceptedLoss]; linarith)

/-- **C82, `rotate`.** In particular `rotate` on an accepted value is the rotation `R` up to one part in a thousand for
quaternions, and up to `2e-5` for matrices and angle-axis values (plus the small-angle thresholds). -/
theorem C82_accepted_rotate (P : Prec) (s : Kind) (r : Rep s) (h : ctorDbg s r = .ok r) :
    ∃ R : M3, IsSO3 R ∧
      ∀ v : V3, (rotate P s r v - R.mulVec v).norm ≤ (P.dp + P.eps / 20 + acceptedLoss .mat s r) * v.norm := by
  obtain ⟨R, hR, -, hd⟩ := C82_accepted P s r h
  exact ⟨R, hR, fun v => hd .mat v (fun h => by cases h)⟩

/-! ## Non-vacuity: accepted values that are not exact rotations -/

example : ctorDbg .quat ⟨1 + 1 / 10 ^ 5, 0, 0, 0⟩ = .ok ⟨1 + 1 / 10 ^ 5, 0, 0, 0⟩ ∧ ¬ Valid .quat ⟨1 + 1 / 10 ^ 5, 0, 0, 0⟩ := by
  constructor
  · change quatCtorDbg _ = _
    rw [(C26_quaternion_ctor _).1]
    have : (⟨1 + 1 / 10 ^ 5, 0, 0, 0⟩ : Quat).norm = 1 + 1 / 10 ^ 5 := by
      rw [Quat.norm, Quat.normSq, show ((1 + 1 / 10 ^ 5) * (1 + 1 / 10 ^ 5) + 0 * 0 + 0 * 0 + 0 * 0 : ℝ) =
        (1 + 1 / 10 ^ 5) ^ 2 by ring, Real.sqrt_sq (by norm_num)]
    rw [this, max_eq_left (by norm_num)]
    norm_num
  · rw [valid_quat_iff]; norm_num [Quat.normSq]

example : let m : M3 := ⟨1, 5 / 10 ^ 7, 0, 0, 1, 0, 0, 0, 1⟩
    ctorDbg .mat m = .ok m ∧ ¬ Valid .mat m := by
  intro m
  constructor
  · change matCtorDbg m = _
    rw [matCtorDbg_iff]
    simp only [m, M3.mul_m00, M3.mul_m01, M3.mul_m02, M3.mul_m11, M3.mul_m12, M3.mul_m22, M3.transpose, M3.det]
    norm_num [abs_of_pos, max_eq_left, max_eq_right]
  · intro h
    have := congrArg M3.m01 h.1
    norm_num [m, M3.mul_m01, M3.transpose] at this

example : let a : AngAx := ⟨1, ⟨1 + 5 / 10 ^ 7, 0, 0⟩⟩
    ctorDbg .aa a = .ok a ∧ ¬ Valid .aa a := by
  intro a
  have hn : a.axis.norm = 1 + 5 / 10 ^ 7 := by
    rw [V3.norm, show a.axis.normSq = (1 + 5 / 10 ^ 7) ^ 2 by simp [a, V3.normSq, V3.dot]; ring, Real.sqrt_sq (by norm_num)]
  constructor
  · change aaCtorDbg a = _
    rw [(C26_angle_axis_ctor a).1, hn, max_eq_left (by norm_num)]
    norm_num
  · rw [valid_aa_iff, ← V3.norm_sq, hn]; norm_num

end Kindr
