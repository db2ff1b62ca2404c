import Mathlib.Analysis.Real.Pi.Irrational
import Verif.Model.FloatDeriv
import Verif.Props.Deriv
import Verif.Props.EulerRates
import Verif.Props.FloatPose

/-!
# C89: time derivatives of rotations in floating point
-/

set_option autoImplicit false

open Classical

noncomputable section
namespace Kindr
open Spec

lemma V3.norm_le_comp {v : V3} {c : ℝ} (hc : 0 ≤ c) (hx : |v.x| ≤ c) (hy : |v.y| ≤ c) (hz : |v.z| ≤ c) : v.norm ≤ 7 / 4 * c := by
  apply V3.norm_le_of_sq (by linarith)
  have s : ∀ x : ℝ, |x| ≤ c → x * x ≤ c ^ 2 := fun x hx => by
    rw [← abs_mul_abs_self, ← sq]; exact pow_le_pow_left₀ (abs_nonneg _) hx 2
  nlinarith [s _ hx, s _ hy, s _ hz, sq_nonneg c]

/-- A rounded dot product of approximate vectors. -/
lemma FloatArith.dot_close (F : FloatArith) {a x a' x' : V3} {α β A X : ℝ} (ha : (a - a').norm ≤ α) (hx : (x - x').norm ≤ β)
    (hA : a'.norm ≤ A) (hX : x'.norm ≤ X) :
    |F.fl (F.fl (F.fl (a.x * x.x) + F.fl (a.y * x.y)) + F.fl (a.z * x.z)) - (a'.x * x'.x + a'.y * x'.y + a'.z * x'.z)| ≤
      α * (X + β) + A * β + 3.01 * F.u * ((A + α) * (X + β)) := by
  have hu := F.u_nonneg
  have P := Err.prod F
  have h1 := (Err.sum3 (P a.x x.x) (P a.y x.y) (P a.z x.z)).2
  have na : a.norm ≤ A + α := by
    have : a = (a - a') + a' := by ext <;> simp
    rw [this]; exact (V3.norm_add_le _ _).trans (by linarith)
  have nx : x.norm ≤ X + β := by
    have : x = (x - x') + x' := by ext <;> simp
    rw [this]; exact (V3.norm_add_le _ _).trans (by linarith)
  have cs : |a.x| * |x.x| + |a.y| * |x.y| + |a.z| * |x.z| ≤ a.norm * x.norm := by
    have := cs4 a.x a.y a.z 0 x.x x.y x.z 0
    simpa [V3.norm, V3.normSq, V3.dot] using this
  have hα := (V3.norm_nonneg _).trans ha
  have hβ := (V3.norm_nonneg _).trans hx
  have hA0 := (V3.norm_nonneg _).trans hA
  have hX0 := (V3.norm_nonneg _).trans hX
  have m1 := mul_le_mul na nx x.norm_nonneg (by linarith)
  have p3 := (pow4_le F).2.1
  have h2 : ((1 + F.u) ^ 3 - 1) * (|a.x| * |x.x| + |a.y| * |x.y| + |a.z| * |x.z|) ≤ 3.01 * F.u * ((A + α) * (X + β)) :=
    mul_le_mul p3 (cs.trans m1) (by positivity) (by positivity)
  have h3 : |a.x * x.x + a.y * x.y + a.z * x.z - (a'.x * x'.x + a'.y * x'.y + a'.z * x'.z)| ≤ α * (X + β) + A * β := by
    have e : a.x * x.x + a.y * x.y + a.z * x.z - (a'.x * x'.x + a'.y * x'.y + a'.z * x'.z) = (a - a').dot x + a'.dot (x - x') := by
      simp only [V3.dot, V3.sub_x, V3.sub_y, V3.sub_z]; ring
    rw [e]
    refine (abs_add_le _ _).trans (add_le_add ?_ ?_)
    · exact (V3.dot_abs_le _ _).trans (mul_le_mul ha nx x.norm_nonneg hα)
    · exact (V3.dot_abs_le _ _).trans (mul_le_mul hA hx (V3.norm_nonneg _) hA0)
  have h4 := h1.trans h2
  refine (abs_sub_le _ (a.x * x.x + a.y * x.y + a.z * x.z) _).trans ?_
  linarith

namespace FloatLib
variable (F : FloatLib)

/-! ## Quaternions -/

lemma twiceDot_err (r v : V4) : |F.twiceDot r v - 2 * r.dot v| ≤
    10.1 * F.u * (|r.c0| * |v.c0| + |r.c1| * |v.c1| + |r.c2| * |v.c2| + |r.c3| * |v.c3|) := by
  have hu := F.u_nonneg
  have t : ∀ a b : ℝ, Err F.u 2 (F.fl (F.fl (2 * a) * b)) (2 * a * b) (2 * |a| * |b|) := by
    intro a b
    have := (((Err.exact F.u 2).mul hu (Err.exact F.u a)).rnd (F := F.toFloatArith)).mul hu (Err.exact F.u b) |>.rnd (F := F.toFloatArith)
    rwa [abs_two] at this
  have h := ((((t r.c0 v.c0).add (t r.c1 v.c1)).rnd (F := F.toFloatArith)).add
    (((t r.c2 v.c2).add (t r.c3 v.c3)).rnd (F := F.toFloatArith))).rnd (F := F.toFloatArith)
  have p4 := (pow4_le F.toFloatArith).1
  have h2 := h.2
  have n : 0 ≤ |r.c0| * |v.c0| + |r.c1| * |v.c1| + |r.c2| * |v.c2| + |r.c3| * |v.c3| := by positivity
  have e : 2 * r.dot v = 2 * r.c0 * v.c0 + 2 * r.c1 * v.c1 + (2 * r.c2 * v.c2 + 2 * r.c3 * v.c3) := by simp only [V4.dot]; ring
  rw [e]
  refine h2.trans ?_
  have := mul_le_mul_of_nonneg_right p4 n
  have := mul_nonneg hu n
  linarith

end FloatLib

/-- The exact conversions as quaternion products. -/
lemma localOfQuatDiff_norm (q d : Quat) : (localOfQuatDiff q ⟨d⟩).v.norm ≤ 2 * (‖toH q‖ * ‖toH d‖) ∧
    (globalOfQuatDiff q ⟨d⟩).v.norm ≤ 2 * (‖toH q‖ * ‖toH d‖) := by
  have gen : ∀ (p : Quat) (v : V3), v.x = 2 * p.x → v.y = 2 * p.y → v.z = 2 * p.z → v.norm ≤ 2 * ‖toH p‖ := by
    intro p v h1 h2 h3
    rw [norm_toH]
    apply V3.norm_le_of_sq (by have := Real.sqrt_nonneg p.normSq; rw [Quat.norm]; linarith)
    rw [h1, h2, h3, mul_pow, Quat.norm, Real.sq_sqrt (Quat.normSq_nonneg _), Quat.normSq]
    nlinarith [mul_self_nonneg p.w]
  constructor
  · have := gen (q.conj * d) (localOfQuatDiff q ⟨d⟩).v (by rw [mulVec_local]; simp; ring) (by rw [mulVec_local]; simp; ring)
      (by rw [mulVec_local]; simp; ring)
    rwa [toH_mul, norm_mul, toH_conj, norm_star] at this
  · have := gen (d * q.conj) (globalOfQuatDiff q ⟨d⟩).v (by rw [mulVec_global]; simp; ring) (by rw [mulVec_global]; simp; ring)
      (by rw [mulVec_global]; simp; ring)
    rwa [toH_mul, norm_mul, toH_conj, norm_star, mul_comm ‖toH d‖] at this

lemma quatDiffOf_norm (q : Quat) (w : V3) : ‖toH (quatDiffOfLocal q ⟨w⟩).q‖ = ‖toH q‖ * w.norm / 2 ∧
    ‖toH (quatDiffOfGlobal q ⟨w⟩).q‖ = ‖toH q‖ * w.norm / 2 := by
  have hw : ‖toH ⟨0, w.x / 2, w.y / 2, w.z / 2⟩‖ = w.norm / 2 := by
    rw [norm_toH, Quat.norm, Quat.normSq, V3.norm, V3.normSq, V3.dot]
    rw [show (0 : ℝ) * 0 + w.x / 2 * (w.x / 2) + w.y / 2 * (w.y / 2) + w.z / 2 * (w.z / 2) =
      (w.x * w.x + w.y * w.y + w.z * w.z) / 2 ^ 2 by ring, Real.sqrt_div' _ (by norm_num), Real.sqrt_sq (by norm_num)]
  constructor
  · rw [show (quatDiffOfLocal q ⟨w⟩).q = q * ⟨0, w.x / 2, w.y / 2, w.z / 2⟩ by rw [tMulVec_local]; ext <;> simp <;> ring,
      toH_mul, norm_mul, hw]; ring
  · rw [show (quatDiffOfGlobal q ⟨w⟩).q = ⟨0, w.x / 2, w.y / 2, w.z / 2⟩ * q by rw [tMulVec_global]; ext <;> simp <;> ring,
      toH_mul, norm_mul, hw]; ring

namespace FloatLib
variable (F : FloatLib)

lemma localOfQuatDiff_round (q d : Quat) :
    ((F.localOfQuatDiff q ⟨d⟩).v - (Kindr.localOfQuatDiff q ⟨d⟩).v).norm ≤ 17.7 * F.u * (‖toH q‖ * ‖toH d‖) ∧
    ((F.globalOfQuatDiff q ⟨d⟩).v - (Kindr.globalOfQuatDiff q ⟨d⟩).v).norm ≤ 17.7 * F.u * (‖toH q‖ * ‖toH d‖) := by
  have hu := F.u_nonneg
  have N : 0 ≤ ‖toH q‖ * ‖toH d‖ := by positivity
  have key : ∀ r : V4, r.c0 * r.c0 + r.c1 * r.c1 + r.c2 * r.c2 + r.c3 * r.c3 = q.normSq →
      |F.twiceDot r d.toV4 - 2 * r.dot d.toV4| ≤ 10.1 * F.u * (‖toH q‖ * ‖toH d‖) := by
    intro r hr
    refine (F.twiceDot_err r d.toV4).trans (mul_le_mul_of_nonneg_left ?_ (by positivity))
    have := cs4 r.c0 r.c1 r.c2 r.c3 d.w d.x d.y d.z
    rw [hr] at this
    rw [norm_toH, norm_toH]
    exact this
  constructor
  · refine (V3.norm_le_comp (c := 10.1 * F.u * (‖toH q‖ * ‖toH d‖)) (by positivity)
      (key (getLocalQuaternionDiffMatrix q).r0 ?_) (key (getLocalQuaternionDiffMatrix q).r1 ?_)
      (key (getLocalQuaternionDiffMatrix q).r2 ?_)).trans (by linarith [mul_nonneg hu N])
    all_goals simp only [getLocalQuaternionDiffMatrix, Quat.normSq]; ring
  · refine (V3.norm_le_comp (c := 10.1 * F.u * (‖toH q‖ * ‖toH d‖)) (by positivity)
      (key (getGlobalQuaternionDiffMatrix q).r0 ?_) (key (getGlobalQuaternionDiffMatrix q).r1 ?_)
      (key (getGlobalQuaternionDiffMatrix q).r2 ?_)).trans (by linarith [mul_nonneg hu N])
    all_goals simp only [getGlobalQuaternionDiffMatrix, Quat.normSq]; ring

lemma halfDot_err (a b c : ℝ) (w : V3) : |F.halfDot a b c w - 1 / 2 * (a * w.x + b * w.y + c * w.z)| ≤
    2.01 * F.u * (Real.sqrt (a * a + b * b + c * c) * w.norm) := by
  have hu := F.u_nonneg
  have P := Err.prod F.toFloatArith
  have h := ((Err.exact F.u (1 / 2)).mul hu (Err.sum3 (P a w.x) (P b w.y) (P c w.z))).rnd (F := F.toFloatArith)
  have p4 := (pow4_le F.toFloatArith).1
  have cs : |a| * |w.x| + |b| * |w.y| + |c| * |w.z| ≤ Real.sqrt (a * a + b * b + c * c) * w.norm := by
    have := cs4 a b c 0 w.x w.y w.z 0
    simpa [V3.norm, V3.normSq, V3.dot] using this
  have h2 := h.2
  rw [abs_of_pos (by norm_num : (0 : ℝ) < 1 / 2)] at h2
  refine h2.trans ?_
  have n : 0 ≤ |a| * |w.x| + |b| * |w.y| + |c| * |w.z| := by positivity
  have := mul_le_mul p4 cs n (by positivity)
  have N := mul_nonneg hu (n.trans cs)
  norm_num at this N ⊢
  linarith

lemma quatDiffOf_round (q : Quat) (w : V3) :
    ‖toH (F.quatDiffOfLocal q ⟨w⟩).q - toH (Kindr.quatDiffOfLocal q ⟨w⟩).q‖ ≤ 4.02 * F.u * (‖toH q‖ * w.norm) ∧
    ‖toH (F.quatDiffOfGlobal q ⟨w⟩).q - toH (Kindr.quatDiffOfGlobal q ⟨w⟩).q‖ ≤ 4.02 * F.u * (‖toH q‖ * w.norm) := by
  have hu := F.u_nonneg
  have hw := w.norm_nonneg
  have N : 0 ≤ ‖toH q‖ * w.norm := by positivity
  have key : ∀ a b c : ℝ, a * a + b * b + c * c ≤ q.normSq →
      |F.halfDot a b c w - 1 / 2 * (a * w.x + b * w.y + c * w.z)| ≤ 2.01 * F.u * (‖toH q‖ * w.norm) := by
    intro a b c h
    refine (F.halfDot_err a b c w).trans (mul_le_mul_of_nonneg_left ?_ (by positivity))
    rw [norm_toH]
    exact mul_le_mul_of_nonneg_right (Real.sqrt_le_sqrt h) hw
  have s := fun x : ℝ => mul_self_nonneg x
  constructor
  · refine (norm_le_of_components (c := 2.01 * F.u * (‖toH q‖ * w.norm)) (by positivity)
      (key _ _ _ ?_) (key _ _ _ ?_) (key _ _ _ ?_) (key _ _ _ ?_)).trans (by linarith)
    all_goals simp only [getLocalQuaternionDiffMatrix, Quat.normSq]; linarith [s q.w, s q.x, s q.y, s q.z]
  · refine (norm_le_of_components (c := 2.01 * F.u * (‖toH q‖ * w.norm)) (by positivity)
      (key _ _ _ ?_) (key _ _ _ ?_) (key _ _ _ ?_) (key _ _ _ ?_)).trans (by linarith)
    all_goals simp only [getGlobalQuaternionDiffMatrix, Quat.normSq]; linarith [s q.w, s q.x, s q.y, s q.z]

end FloatLib

lemma quatDiff_sub_q (q p d : Quat) : toH d = toH q - toH p → d = ⟨q.w - p.w, q.x - p.x, q.y - p.y, q.z - p.z⟩ := by
  intro h
  apply toH_injective
  rw [h]; ext <;> simp

/-- Perturbation of the exact conversions. -/
lemma localOfQuatDiff_perturb {q p d e : Quat} {η ε D : ℝ} (hp : ‖toH p‖ = 1) (hq : ‖toH q - toH p‖ ≤ η)
    (hd : ‖toH d - toH e‖ ≤ ε * D) (he : ‖toH e‖ = D) :
    ((localOfQuatDiff q ⟨d⟩).v - (localOfQuatDiff p ⟨e⟩).v).norm ≤ 2 * ((η + ε + η * ε) * D) ∧
    ((globalOfQuatDiff q ⟨d⟩).v - (globalOfQuatDiff p ⟨e⟩).v).norm ≤ 2 * ((η + ε + η * ε) * D) := by
  have hη := (norm_nonneg _).trans hq
  have nd : ‖toH d‖ ≤ D + ε * D := by
    have : toH d = (toH d - toH e) + toH e := by abel
    rw [this]; exact (norm_add_le _ _).trans (by linarith)
  have s : ∀ a b : Quat, toH ⟨a.w - b.w, a.x - b.x, a.y - b.y, a.z - b.z⟩ = toH a - toH b := fun a b => by ext <;> simp
  have m1 := mul_le_mul hq nd (norm_nonneg _) hη
  have m2 : ‖toH p‖ * ‖toH d - toH e‖ ≤ ε * D := by rw [hp, one_mul]; exact hd
  constructor
  · have e1 : (localOfQuatDiff q ⟨d⟩).v - (localOfQuatDiff p ⟨e⟩).v = (localOfQuatDiff ⟨q.w - p.w, q.x - p.x, q.y - p.y, q.z - p.z⟩ ⟨d⟩).v +
        (localOfQuatDiff p ⟨⟨d.w - e.w, d.x - e.x, d.y - e.y, d.z - e.z⟩⟩).v := by
      simp only [mulVec_local]; ext <;> simp <;> ring
    have h1 := (localOfQuatDiff_norm ⟨q.w - p.w, q.x - p.x, q.y - p.y, q.z - p.z⟩ d).1
    have h2 := (localOfQuatDiff_norm p ⟨d.w - e.w, d.x - e.x, d.y - e.y, d.z - e.z⟩).1
    rw [s] at h1 h2
    rw [e1]
    refine (V3.norm_add_le _ _).trans ?_
    linarith
  · have e1 : (globalOfQuatDiff q ⟨d⟩).v - (globalOfQuatDiff p ⟨e⟩).v = (globalOfQuatDiff ⟨q.w - p.w, q.x - p.x, q.y - p.y, q.z - p.z⟩ ⟨d⟩).v +
        (globalOfQuatDiff p ⟨⟨d.w - e.w, d.x - e.x, d.y - e.y, d.z - e.z⟩⟩).v := by
      simp only [mulVec_global]; ext <;> simp <;> ring
    have h1 := (localOfQuatDiff_norm ⟨q.w - p.w, q.x - p.x, q.y - p.y, q.z - p.z⟩ d).2
    have h2 := (localOfQuatDiff_norm p ⟨d.w - e.w, d.x - e.x, d.y - e.y, d.z - e.z⟩).2
    rw [s] at h1 h2
    rw [e1]
    refine (V3.norm_add_le _ _).trans ?_
    linarith

lemma quatDiffOf_perturb {q p : Quat} {v w : V3} {η ε : ℝ} (hp : ‖toH p‖ = 1) (hq : ‖toH q - toH p‖ ≤ η)
    (hv : (v - w).norm ≤ ε * w.norm) :
    ‖toH (quatDiffOfLocal q ⟨v⟩).q - toH (quatDiffOfLocal p ⟨w⟩).q‖ ≤ (η + ε + η * ε) * (w.norm / 2) ∧
    ‖toH (quatDiffOfGlobal q ⟨v⟩).q - toH (quatDiffOfGlobal p ⟨w⟩).q‖ ≤ (η + ε + η * ε) * (w.norm / 2) := by
  have hη := (norm_nonneg _).trans hq
  have nv : v.norm ≤ w.norm + ε * w.norm := by
    have : v = (v - w) + w := by ext <;> simp
    rw [this]; exact (V3.norm_add_le _ _).trans (by simpa [add_comm] using hv)
  have s : toH ⟨q.w - p.w, q.x - p.x, q.y - p.y, q.z - p.z⟩ = toH q - toH p := by ext <;> simp
  have m1 := mul_le_mul hq nv v.norm_nonneg hη
  constructor
  · have e1 : toH (quatDiffOfLocal q ⟨v⟩).q - toH (quatDiffOfLocal p ⟨w⟩).q =
        toH (quatDiffOfLocal ⟨q.w - p.w, q.x - p.x, q.y - p.y, q.z - p.z⟩ ⟨v⟩).q + toH (quatDiffOfLocal p ⟨v - w⟩).q := by
      simp only [tMulVec_local]; ext <;> simp <;> ring
    rw [e1]
    refine (norm_add_le _ _).trans ?_
    rw [(quatDiffOf_norm _ _).1, (quatDiffOf_norm _ _).1, s, hp]
    linarith
  · have e1 : toH (quatDiffOfGlobal q ⟨v⟩).q - toH (quatDiffOfGlobal p ⟨w⟩).q =
        toH (quatDiffOfGlobal ⟨q.w - p.w, q.x - p.x, q.y - p.y, q.z - p.z⟩ ⟨v⟩).q + toH (quatDiffOfGlobal p ⟨v - w⟩).q := by
      simp only [tMulVec_global]; ext <;> simp <;> ring
    rw [e1]
    refine (norm_add_le _ _).trans ?_
    rw [(quatDiffOf_norm _ _).2, (quatDiffOf_norm _ _).2, s, hp]
    linarith

namespace FloatLib
variable (F : FloatLib)

/-- **C89 (a).** Angular velocity from quaternion rates: `q` moves through unit quaternions with derivative `d` and has body-frame
velocity `w`, space-frame velocity `W`; the program stores `q(t)` and `d` with errors `η` and (relative) `ε`.  The velocities
computed with rounding are right up to `η + ε + ηε + 10u`, relatively. -/
theorem C89_quat_velocity {q : ℝ → Quat} {d : Quat} {t : ℝ} (hv : ∀ᶠ s in nhds t, Valid .quat (q s)) (hd : HasDerivQ q d t)
    {w W : V3} (hw : IsLocalVelocity .quat q t w) (hW : IsGlobalVelocity .quat q t W) {q' : Quat} {d' : QuatDiff} {η ε : ℝ}
    (hq : ‖toH q' - toH (q t)‖ ≤ η) (hη : η ≤ 1 / 100) (hd' : ‖toH d'.q - toH d‖ ≤ ε * ‖toH d‖) (hε : ε ≤ 1 / 100) :
    ((F.localOfQuatDiff q' d').v - w).norm ≤ (η + ε + η * ε + 10 * F.u) * w.norm ∧
    ((F.globalOfQuatDiff q' d').v - W).norm ≤ (η + ε + η * ε + 10 * F.u) * W.norm := by
  have hu := F.u_nonneg
  obtain ⟨h1, h2, h3, h4⟩ := C29_quaternion_curve q ⟨d⟩ t hv hd
  have hv0 : Valid .quat (q t) := hv.self_of_nhds
  have hn : ‖toH (q t)‖ = 1 := (normSq_eq_one_iff_norm _).mp ((valid_quat_iff _).mp hv0)
  have ew := isLocalVelocity_unique hv0 hw h1
  have eW := isGlobalVelocity_unique hv0 hW h2
  have nw : w.norm = 2 * ‖toH d‖ := by
    have := (quatDiffOf_norm (q t) w).1
    rw [ew, h3, hn] at this
    rw [ew]; dsimp only at this; linarith
  have nW : W.norm = 2 * ‖toH d‖ := by
    have := (quatDiffOf_norm (q t) W).2
    rw [eW, h4, hn] at this
    rw [eW]; dsimp only at this; linarith
  obtain ⟨d'⟩ := d'
  have nq : ‖toH q'‖ ≤ 101 / 100 := by
    have : toH q' = (toH q' - toH (q t)) + toH (q t) := by abel
    rw [this]; exact (norm_add_le _ _).trans (by linarith)
  have D0 := norm_nonneg (toH d)
  have nd : ‖toH d'‖ ≤ 101 / 100 * ‖toH d‖ := by
    have : toH d' = (toH d' - toH d) + toH d := by abel
    rw [this]; refine (norm_add_le _ _).trans ?_
    have := mul_le_mul_of_nonneg_right hε D0
    dsimp only at hd'
    linarith
  have m := mul_le_mul nq nd (norm_nonneg _) (by norm_num)
  have mu := mul_le_mul_of_nonneg_left m hu
  have mu0 := mul_nonneg hu D0
  obtain ⟨p1, p2⟩ := localOfQuatDiff_perturb hn hq hd' rfl
  obtain ⟨r1, r2⟩ := F.localOfQuatDiff_round q' d'
  constructor
  · have e : (F.localOfQuatDiff q' ⟨d'⟩).v - w = ((F.localOfQuatDiff q' ⟨d'⟩).v - (Kindr.localOfQuatDiff q' ⟨d'⟩).v) +
        ((Kindr.localOfQuatDiff q' ⟨d'⟩).v - w) := by ext <;> simp
    rw [e, nw]
    rw [← ew] at p1
    refine (V3.norm_add_le _ _).trans ?_
    linarith
  · have e : (F.globalOfQuatDiff q' ⟨d'⟩).v - W = ((F.globalOfQuatDiff q' ⟨d'⟩).v - (Kindr.globalOfQuatDiff q' ⟨d'⟩).v) +
        ((Kindr.globalOfQuatDiff q' ⟨d'⟩).v - W) := by ext <;> simp
    rw [e, nW]
    rw [← eW] at p2
    refine (V3.norm_add_le _ _).trans ?_
    linarith

/-- **C89 (b).** Quaternion rates from an angular velocity: the other direction of (a). -/
theorem C89_quat_rates {q : ℝ → Quat} {d : Quat} {t : ℝ} (hv : ∀ᶠ s in nhds t, Valid .quat (q s)) (hd : HasDerivQ q d t)
    {w W : V3} (hw : IsLocalVelocity .quat q t w) (hW : IsGlobalVelocity .quat q t W) {q' : Quat} {w' : LocalAV} {W' : GlobalAV} {η ε : ℝ}
    (hq : ‖toH q' - toH (q t)‖ ≤ η) (hη : η ≤ 1 / 100) (hw' : (w'.v - w).norm ≤ ε * w.norm) (hW' : (W'.v - W).norm ≤ ε * W.norm)
    (hε : ε ≤ 1 / 100) :
    ‖toH (F.quatDiffOfLocal q' w').q - toH d‖ ≤ (η + ε + η * ε + 10 * F.u) * ‖toH d‖ ∧
    ‖toH (F.quatDiffOfGlobal q' W').q - toH d‖ ≤ (η + ε + η * ε + 10 * F.u) * ‖toH d‖ := by
  have hu := F.u_nonneg
  obtain ⟨h1, h2, h3, h4⟩ := C29_quaternion_curve q ⟨d⟩ t hv hd
  have hv0 : Valid .quat (q t) := hv.self_of_nhds
  have hn : ‖toH (q t)‖ = 1 := (normSq_eq_one_iff_norm _).mp ((valid_quat_iff _).mp hv0)
  have ew := isLocalVelocity_unique hv0 hw h1
  have eW := isGlobalVelocity_unique hv0 hW h2
  have dw : (Kindr.quatDiffOfLocal (q t) ⟨w⟩).q = d := by rw [ew, h3]
  have dW : (Kindr.quatDiffOfGlobal (q t) ⟨W⟩).q = d := by rw [eW, h4]
  have nw : ‖toH d‖ = w.norm / 2 := by rw [← dw, (quatDiffOf_norm _ _).1, hn, one_mul]
  have nW : ‖toH d‖ = W.norm / 2 := by rw [← dW, (quatDiffOf_norm _ _).2, hn, one_mul]
  have nq : ‖toH q'‖ ≤ 101 / 100 := by
    have : toH q' = (toH q' - toH (q t)) + toH (q t) := by abel
    rw [this]; exact (norm_add_le _ _).trans (by linarith)
  have D0 := norm_nonneg (toH d)
  have nv : ∀ v x : V3, (v - x).norm ≤ ε * x.norm → v.norm ≤ 101 / 100 * x.norm := by
    intro v x h
    have : v = (v - x) + x := by ext <;> simp
    rw [this]; refine (V3.norm_add_le _ _).trans ?_
    have := mul_le_mul_of_nonneg_right hε x.norm_nonneg
    have e : v - x + x - x = v - x := by ext <;> simp
    linarith [h]
  obtain ⟨w'⟩ := w'
  obtain ⟨W'⟩ := W'
  dsimp only at hw' hW'
  have mu0 := mul_nonneg hu D0
  constructor
  · have m := mul_le_mul nq (nv _ _ hw') w'.norm_nonneg (by norm_num)
    have mu := mul_le_mul_of_nonneg_left m hu
    have p1 := (quatDiffOf_perturb hn hq hw').1
    have r1 := (F.quatDiffOf_round q' w').1
    rw [dw, ← nw] at p1
    have : toH (F.quatDiffOfLocal q' ⟨w'⟩).q - toH d = (toH (F.quatDiffOfLocal q' ⟨w'⟩).q - toH (Kindr.quatDiffOfLocal q' ⟨w'⟩).q) +
      (toH (Kindr.quatDiffOfLocal q' ⟨w'⟩).q - toH d) := by abel
    rw [this]
    refine (norm_add_le _ _).trans ?_
    rw [show w.norm = 2 * ‖toH d‖ by linarith] at mu
    linarith
  · have m := mul_le_mul nq (nv _ _ hW') W'.norm_nonneg (by norm_num)
    have mu := mul_le_mul_of_nonneg_left m hu
    have p1 := (quatDiffOf_perturb hn hq hW').2
    have r1 := (F.quatDiffOf_round q' W').2
    rw [dW, ← nW] at p1
    have : toH (F.quatDiffOfGlobal q' ⟨W'⟩).q - toH d = (toH (F.quatDiffOfGlobal q' ⟨W'⟩).q - toH (Kindr.quatDiffOfGlobal q' ⟨W'⟩).q) +
      (toH (Kindr.quatDiffOfGlobal q' ⟨W'⟩).q - toH d) := by abel
    rw [this]
    refine (norm_add_le _ _).trans ?_
    rw [show W.norm = 2 * ‖toH d‖ by linarith] at mu
    linarith


/-! ## Matrices -/

lemma _root_.Kindr.Spec.EntryClose.dot_col {η : ℝ} {a b : M3} (h : EntryClose η a b) (h0 : 0 ≤ η) :
    ((⟨a.m00, a.m10, a.m20⟩ : V3) - ⟨b.m00, b.m10, b.m20⟩).norm ≤ 7 / 4 * η ∧
    ((⟨a.m01, a.m11, a.m21⟩ : V3) - ⟨b.m01, b.m11, b.m21⟩).norm ≤ 7 / 4 * η ∧
    ((⟨a.m02, a.m12, a.m22⟩ : V3) - ⟨b.m02, b.m12, b.m22⟩).norm ≤ 7 / 4 * η ∧
    ((⟨a.m00, a.m01, a.m02⟩ : V3) - ⟨b.m00, b.m01, b.m02⟩).norm ≤ 7 / 4 * η ∧
    ((⟨a.m10, a.m11, a.m12⟩ : V3) - ⟨b.m10, b.m11, b.m12⟩).norm ≤ 7 / 4 * η ∧
    ((⟨a.m20, a.m21, a.m22⟩ : V3) - ⟨b.m20, b.m21, b.m22⟩).norm ≤ 7 / 4 * η := by
  obtain ⟨h1, h2, h3, h4, h5, h6, h7, h8, h9⟩ := h
  exact ⟨V3.norm_le_comp h0 h1 h4 h7, V3.norm_le_comp h0 h2 h5 h8, V3.norm_le_comp h0 h3 h6 h9, V3.norm_le_comp h0 h1 h2 h3,
    V3.norm_le_comp h0 h4 h5 h6, V3.norm_le_comp h0 h7 h8 h9⟩

/-- Columns and rows of a rotation matrix and of its derivative. -/
lemma SO3.unit_cols {m : M3} (h : IsSO3 m) :
    (⟨m.m00, m.m10, m.m20⟩ : V3).norm ≤ 1 ∧ (⟨m.m01, m.m11, m.m21⟩ : V3).norm ≤ 1 ∧ (⟨m.m02, m.m12, m.m22⟩ : V3).norm ≤ 1 ∧
    (⟨m.m00, m.m01, m.m02⟩ : V3).norm ≤ 1 ∧ (⟨m.m10, m.m11, m.m12⟩ : V3).norm ≤ 1 ∧ (⟨m.m20, m.m21, m.m22⟩ : V3).norm ≤ 1 := by
  have r := SO3.rel h
  refine ⟨?_, ?_, ?_, ?_, ?_, ?_⟩ <;> apply V3.norm_le_of_sq (by norm_num) <;> dsimp only <;>
    nlinarith [r.c00, r.c11, r.c22, r.r00, r.r11, r.r22]

lemma mulVec_cols {m : M3} {W : ℝ} (h : ∀ v : V3, (m.mulVec v).norm ≤ W * v.norm) :
    (⟨m.m00, m.m10, m.m20⟩ : V3).norm ≤ W ∧ (⟨m.m01, m.m11, m.m21⟩ : V3).norm ≤ W ∧ (⟨m.m02, m.m12, m.m22⟩ : V3).norm ≤ W := by
  have nx : (⟨1, 0, 0⟩ : V3).norm = 1 := V3.norm_eq_one_iff.mpr (by simp [V3.normSq, V3.dot])
  have ny : (⟨0, 1, 0⟩ : V3).norm = 1 := V3.norm_eq_one_iff.mpr (by simp [V3.normSq, V3.dot])
  have nz : (⟨0, 0, 1⟩ : V3).norm = 1 := V3.norm_eq_one_iff.mpr (by simp [V3.normSq, V3.dot])
  have h1 := h ⟨1, 0, 0⟩
  have h2 := h ⟨0, 1, 0⟩
  have h3 := h ⟨0, 0, 1⟩
  rw [nx] at h1
  rw [ny] at h2
  rw [nz] at h3
  simp only [M3.mulVec, mul_one, mul_zero, add_zero, zero_add] at h1 h2 h3
  exact ⟨h1, h2, h3⟩

lemma matDiff_rows {m d : M3} {w W : V3} (h : IsSO3 m) (hw : d = m * skew w) (hW : d = skew W * m) :
    ((⟨d.m00, d.m10, d.m20⟩ : V3).norm ≤ w.norm ∧ (⟨d.m01, d.m11, d.m21⟩ : V3).norm ≤ w.norm ∧
      (⟨d.m02, d.m12, d.m22⟩ : V3).norm ≤ w.norm) ∧
    (⟨d.m00, d.m01, d.m02⟩ : V3).norm ≤ W.norm ∧ (⟨d.m10, d.m11, d.m12⟩ : V3).norm ≤ W.norm ∧
      (⟨d.m20, d.m21, d.m22⟩ : V3).norm ≤ W.norm := by
  constructor
  · apply mulVec_cols
    intro v
    rw [hw, ← M3.mulVec_mulVec, SO3.mulVec_norm h, skew_mulVec]
    exact V3.norm_cross_le _ _
  · have := mulVec_cols (m := d.transpose) (W := W.norm) (fun v => by
      have e : d.transpose = m.transpose * skew (-W) := by
        rw [hW]; ext <;> simp [M3.transpose, skew] <;> ring
      rw [e, ← M3.mulVec_mulVec, SO3.mulVec_norm (SO3.transpose h), skew_mulVec]
      refine (V3.norm_cross_le _ _).trans ?_
      rw [V3.norm_neg])
    simpa [M3.transpose] using this

lemma skew_cols (w : V3) : ((⟨0, w.z, -w.y⟩ : V3).norm ≤ w.norm ∧ (⟨-w.z, 0, w.x⟩ : V3).norm ≤ w.norm ∧
    (⟨w.y, -w.x, 0⟩ : V3).norm ≤ w.norm) ∧ (⟨0, -w.z, w.y⟩ : V3).norm ≤ w.norm ∧ (⟨w.z, 0, -w.x⟩ : V3).norm ≤ w.norm ∧
    (⟨-w.y, w.x, 0⟩ : V3).norm ≤ w.norm := by
  refine ⟨⟨?_, ?_, ?_⟩, ?_, ?_, ?_⟩ <;> apply Real.sqrt_le_sqrt <;> simp only [V3.normSq, V3.dot] <;>
    nlinarith [sq_nonneg w.x, sq_nonneg w.y, sq_nonneg w.z]

/-- **C89 (c).** Angular velocity from matrix rates: `m` moves through rotation matrices with derivative `d`; the program stores
every entry of `m(t)` up to `η` and every entry of `d` up to `ε` times the velocity. -/
theorem C89_matrix_velocity {m : ℝ → M3} {d : M3} {t : ℝ} (hv : ∀ᶠ s in nhds t, Valid .mat (m s)) (hd : HasDerivM m d t)
    {w W : V3} (hw : IsLocalVelocity .mat m t w) (hW : IsGlobalVelocity .mat m t W) {m' : M3} {d' : MatDiff} {η ε : ℝ}
    (hm : EntryClose η m' (m t)) (hη : η ≤ 1 / 100) (hd' : EntryClose (ε * w.norm) d'.m d) (hε : ε ≤ 1 / 100) :
    ((F.localOfMatDiff m' d').v - w).norm ≤ (4 * (η + ε) + 6 * F.u) * w.norm ∧
    ((F.globalOfMatDiff m' d').v - W).norm ≤ (4 * (η + ε) + 6 * F.u) * W.norm := by
  have hu := F.u_nonneg
  obtain ⟨h1, h2, h3, h4⟩ := C30_matrix_curve m ⟨d⟩ t hv hd
  have hv0 : Valid .mat (m t) := hv.self_of_nhds
  have hS : IsSO3 (m t) := hv0
  have ew := isLocalVelocity_unique hv0 hw h1
  have eW := isGlobalVelocity_unique hv0 hW h2
  have dw : d = m t * skew w := by rw [ew]; exact (congrArg MatDiff.m h3).symm
  have dW : d = skew W * m t := by rw [eW]; exact (congrArg MatDiff.m h4).symm
  have nW : W.norm = w.norm := by
    have := (local_iff_global (k := .mat) (r := m) (t := t) hv0 (w := w)).mp hw
    have e := isGlobalVelocity_unique hv0 hW this
    rw [e, den_eq]; exact SO3.mulVec_norm hS _
  generalize m t = R at *
  obtain ⟨d'⟩ := d'
  dsimp only at hd'
  have n0 := w.norm_nonneg
  have hη0 : 0 ≤ η := (abs_nonneg _).trans hm.1
  have hε0 : 0 ≤ ε * w.norm := (abs_nonneg _).trans hd'.1
  obtain ⟨a1, a2, a3, a4, a5, a6⟩ := hm.dot_col hη0
  obtain ⟨b1, b2, b3, b4, b5, b6⟩ := hd'.dot_col hε0
  obtain ⟨c1, c2, c3, c4, c5, c6⟩ := SO3.unit_cols hS
  obtain ⟨⟨e1, e2, e3⟩, e4, e5, e6⟩ := matDiff_rows hS dw dW
  rw [nW] at e4 e5 e6
  have k1 : 7 / 4 * η * (w.norm + 7 / 4 * (ε * w.norm)) ≤ 179 / 100 * η * w.norm := by
    have := mul_le_mul_of_nonneg_right hε n0
    have h : w.norm + 7 / 4 * (ε * w.norm) ≤ 1018 / 1000 * w.norm := by linarith
    have := mul_le_mul_of_nonneg_left h (by linarith : 0 ≤ 7 / 4 * η)
    have := mul_nonneg hη0 n0
    linarith
  have k2 : 3.01 * F.u * ((1 + 7 / 4 * η) * (w.norm + 7 / 4 * (ε * w.norm))) ≤ 312 / 100 * F.u * w.norm := by
    have := mul_le_mul_of_nonneg_right hε n0
    have h : w.norm + 7 / 4 * (ε * w.norm) ≤ 1018 / 1000 * w.norm := by linarith
    have h' : 1 + 7 / 4 * η ≤ 1018 / 1000 := by linarith
    have := mul_le_mul h' h (by linarith) (by norm_num)
    have := mul_le_mul_of_nonneg_left this (by linarith : 0 ≤ 3.01 * F.u)
    have := mul_nonneg hu n0
    linarith
  have un := mul_nonneg hu n0
  have ηn := mul_nonneg hη0 n0
  have c0 : 0 ≤ 179 / 100 * η * w.norm + 175 / 100 * (ε * w.norm) + 312 / 100 * F.u * w.norm := by positivity
  have sw : vee (skew w) = w := (C04_skew w 0 0 0 0).2.2.2.2.1
  have sW : vee (skew W) = W := (C04_skew W 0 0 0 0).2.2.2.2.1
  constructor
  · have e : w = vee (R.transpose * d) := by rw [dw, ← mul_assoc, SO3.tr_mul hS, one_mul, sw]
    have y1 := F.dot_close a3 b2 c3 e2
    have y2 := F.dot_close a1 b3 c1 e3
    have y3 := F.dot_close a2 b1 c2 e1
    rw [show (F.localOfMatDiff m' ⟨d'⟩).v - w = (F.localOfMatDiff m' ⟨d'⟩).v - vee (R.transpose * d) by rw [← e]]
    refine (V3.norm_le_comp c0 ?_ ?_ ?_).trans ?_
    · exact y1.trans (by linarith)
    · exact y2.trans (by linarith)
    · exact y3.trans (by linarith)
    · linarith
  · have e : W = vee (d * R.transpose) := by rw [dW, mul_assoc, hS.1, mul_one, sW]
    have y1 := F.dot_close b6 a5 e6 c5
    have y2 := F.dot_close b4 a6 e4 c6
    have y3 := F.dot_close b5 a4 e5 c4
    rw [show (F.globalOfMatDiff m' ⟨d'⟩).v - W = (F.globalOfMatDiff m' ⟨d'⟩).v - vee (d * R.transpose) by rw [← e], nW]
    refine (V3.norm_le_comp c0 ?_ ?_ ?_).trans ?_
    · exact y1.trans (by linarith)
    · exact y2.trans (by linarith)
    · exact y3.trans (by linarith)
    · linarith

/-- **C89 (d).** Matrix rates from an angular velocity: the other direction of (c). -/
theorem C89_matrix_rates {m : ℝ → M3} {d : M3} {t : ℝ} (hv : ∀ᶠ s in nhds t, Valid .mat (m s)) (hd : HasDerivM m d t)
    {w W : V3} (hw : IsLocalVelocity .mat m t w) (hW : IsGlobalVelocity .mat m t W) {m' : M3} {w' : LocalAV} {W' : GlobalAV} {η ε : ℝ}
    (hm : EntryClose η m' (m t)) (hη : η ≤ 1 / 100) (hw' : (w'.v - w).norm ≤ ε * w.norm) (hW' : (W'.v - W).norm ≤ ε * W.norm)
    (hε : ε ≤ 1 / 100) :
    EntryClose ((2 * (η + ε) + 4 * F.u) * w.norm) (F.matDiffOfLocal m' w').m d ∧
    EntryClose ((2 * (η + ε) + 4 * F.u) * W.norm) (F.matDiffOfGlobal m' W').m d := by
  have hu := F.u_nonneg
  obtain ⟨h1, h2, h3, h4⟩ := C30_matrix_curve m ⟨d⟩ t hv hd
  have hv0 : Valid .mat (m t) := hv.self_of_nhds
  have hS : IsSO3 (m t) := hv0
  have ew := isLocalVelocity_unique hv0 hw h1
  have eW := isGlobalVelocity_unique hv0 hW h2
  have dw : d = m t * skew w := by rw [ew]; exact (congrArg MatDiff.m h3).symm
  have dW : d = skew W * m t := by rw [eW]; exact (congrArg MatDiff.m h4).symm
  generalize m t = R at *
  obtain ⟨w'⟩ := w'
  obtain ⟨W'⟩ := W'
  dsimp only at hw' hW'
  have hη0 : 0 ≤ η := (abs_nonneg _).trans hm.1
  obtain ⟨a1, a2, a3, a4, a5, a6⟩ := hm.dot_col hη0
  obtain ⟨c1, c2, c3, c4, c5, c6⟩ := SO3.unit_cols hS
  have bnd : ∀ x : V3, 0 ≤ ε * x.norm → (7 / 4 * η * (x.norm + ε * x.norm) + 1 * (ε * x.norm) +
      3.01 * F.u * ((1 + 7 / 4 * η) * (x.norm + ε * x.norm)) ≤ (2 * (η + ε) + 4 * F.u) * x.norm) ∧
      (ε * x.norm * (1 + 7 / 4 * η) + x.norm * (7 / 4 * η) +
      3.01 * F.u * ((x.norm + ε * x.norm) * (1 + 7 / 4 * η)) ≤ (2 * (η + ε) + 4 * F.u) * x.norm) := by
    intro x hx
    have n0 := x.norm_nonneg
    have := mul_le_mul_of_nonneg_right hε n0
    have h : x.norm + ε * x.norm ≤ 101 / 100 * x.norm := by linarith
    have h' : 1 + 7 / 4 * η ≤ 1018 / 1000 := by linarith
    have q1 := mul_le_mul_of_nonneg_left h (by linarith : 0 ≤ 7 / 4 * η)
    have q2 := mul_le_mul h' h (by linarith) (by norm_num)
    have q3 := mul_le_mul_of_nonneg_left q2 (by linarith : 0 ≤ 3.01 * F.u)
    have q4 := mul_le_mul_of_nonneg_left h' hx
    have := mul_nonneg hu n0
    have := mul_nonneg hη0 n0
    constructor <;> linarith
  constructor
  · rw [dw]
    have B := (bnd w ((V3.norm_nonneg _).trans hw')).1
    obtain ⟨⟨s1, s2, s3⟩, -⟩ := skew_cols (w' - w)
    obtain ⟨⟨z1, z2, z3⟩, -⟩ := skew_cols w
    have t1 : ((⟨0, w'.z, -w'.y⟩ : V3) - ⟨0, w.z, -w.y⟩).norm ≤ ε * w.norm := by
      refine le_trans (le_of_eq ?_) (s1.trans hw'); congr 1; ext <;> simp; ring
    have t2 : ((⟨-w'.z, 0, w'.x⟩ : V3) - ⟨-w.z, 0, w.x⟩).norm ≤ ε * w.norm := by
      refine le_trans (le_of_eq ?_) (s2.trans hw'); congr 1; ext <;> simp; ring
    have t3 : ((⟨w'.y, -w'.x, 0⟩ : V3) - ⟨w.y, -w.x, 0⟩).norm ≤ ε * w.norm := by
      refine le_trans (le_of_eq ?_) (s3.trans hw'); congr 1; ext <;> simp; ring
    exact ⟨(F.dot_close a4 t1 c4 z1).trans B, (F.dot_close a4 t2 c4 z2).trans B, (F.dot_close a4 t3 c4 z3).trans B,
      (F.dot_close a5 t1 c5 z1).trans B, (F.dot_close a5 t2 c5 z2).trans B, (F.dot_close a5 t3 c5 z3).trans B,
      (F.dot_close a6 t1 c6 z1).trans B, (F.dot_close a6 t2 c6 z2).trans B, (F.dot_close a6 t3 c6 z3).trans B⟩
  · rw [dW]
    have B := (bnd W ((V3.norm_nonneg _).trans hW')).2
    obtain ⟨-, s1, s2, s3⟩ := skew_cols (W' - W)
    obtain ⟨-, z1, z2, z3⟩ := skew_cols W
    have t1 : ((⟨0, -W'.z, W'.y⟩ : V3) - ⟨0, -W.z, W.y⟩).norm ≤ ε * W.norm := by
      refine le_trans (le_of_eq ?_) (s1.trans hW'); congr 1; ext <;> simp; ring
    have t2 : ((⟨W'.z, 0, -W'.x⟩ : V3) - ⟨W.z, 0, -W.x⟩).norm ≤ ε * W.norm := by
      refine le_trans (le_of_eq ?_) (s2.trans hW'); congr 1; ext <;> simp; ring
    have t3 : ((⟨-W'.y, W'.x, 0⟩ : V3) - ⟨-W.y, W.x, 0⟩).norm ≤ ε * W.norm := by
      refine le_trans (le_of_eq ?_) (s3.trans hW'); congr 1; ext <;> simp; ring
    exact ⟨(F.dot_close t1 a1 z1 c1).trans B, (F.dot_close t1 a2 z1 c2).trans B, (F.dot_close t1 a3 z1 c3).trans B,
      (F.dot_close t2 a1 z2 c1).trans B, (F.dot_close t2 a2 z2 c2).trans B, (F.dot_close t2 a3 z2 c3).trans B,
      (F.dot_close t3 a1 z3 c1).trans B, (F.dot_close t3 a2 z3 c2).trans B, (F.dot_close t3 a3 z3 c3).trans B⟩


/-! ## Euler angles -/

lemma trig_close {x' x η : ℝ} (h : |x' - x| ≤ η) : |F.sin x' - Real.sin x| ≤ 2 * F.u + η ∧ |F.cos x' - Real.cos x| ≤ 2 * F.u + η := by
  constructor
  · refine (abs_sub_le _ (Real.sin x') _).trans (add_le_add (F.sin_err x') ?_)
    exact (Real.abs_sin_sub_sin_le x' x).trans h
  · refine (abs_sub_le _ (Real.cos x') _).trans (add_le_add (F.cos_err x') ?_)
    exact (Real.abs_cos_sub_cos_le x' x).trans h

lemma neg_close {A a e : ℝ} (h : |A - a| ≤ e) : |-A - -a| ≤ e := by rwa [neg_sub_neg, abs_sub_comm]

lemma mul_close_one {A a B b η : ℝ} (hA : |A - a| ≤ 2 * F.u + η) (hB : |B - b| ≤ 2 * F.u + η) (ha : |a| ≤ 1) (hb : |b| ≤ 1) (hη0 : 0 ≤ η) (hη : η ≤ 1 / 100) :
    |F.fl (A * B) - a * b| ≤ 51 / 10 * F.u + 205 / 100 * η := by
  have hu := F.u_nonneg
  have hs := F.u_small
  have hκ : 0 ≤ 2 * F.u + η := (abs_nonneg _).trans hA
  have nB : |B| ≤ 1 + (2 * F.u + η) := by
    have := abs_sub_abs_le_abs_sub B b; linarith
  have h1 := abs_mul_sub_le hA hB ha nB
  have h2 := F.fl_abs h1
  have h3 : |a * b| ≤ 1 := by rw [abs_mul]; exact mul_le_one₀ ha (abs_nonneg _) hb
  obtain ⟨κ, hk⟩ : ∃ κ, κ = 2 * F.u + η := ⟨_, rfl⟩
  rw [← hk] at h2 hκ
  have k1 : κ ≤ 1001 / 100000 := by linarith
  have k2 : κ * (1 + κ) ≤ 101001 / 100000 * κ := by nlinarith
  have k3 := mul_le_mul_of_nonneg_left (show |a * b| + (κ * (1 + κ) + 1 * κ) ≤ 103 / 100 by linarith) hu
  refine h2.trans ?_
  linarith

lemma mulVec_rows {M M' : M3} {v v' : V3} {α β A E : ℝ}
    (h0 : ((⟨M.m00, M.m01, M.m02⟩ : V3) - ⟨M'.m00, M'.m01, M'.m02⟩).norm ≤ α)
    (h1 : ((⟨M.m10, M.m11, M.m12⟩ : V3) - ⟨M'.m10, M'.m11, M'.m12⟩).norm ≤ α)
    (h2 : ((⟨M.m20, M.m21, M.m22⟩ : V3) - ⟨M'.m20, M'.m21, M'.m22⟩).norm ≤ α)
    (a0 : (⟨M'.m00, M'.m01, M'.m02⟩ : V3).norm ≤ A) (a1 : (⟨M'.m10, M'.m11, M'.m12⟩ : V3).norm ≤ A)
    (a2 : (⟨M'.m20, M'.m21, M'.m22⟩ : V3).norm ≤ A) (hv : (v - v').norm ≤ β)
    (hE : α * (v'.norm + β) + A * β + 3.01 * F.u * ((A + α) * (v'.norm + β)) ≤ E) :
    (F.mulVec M v - M'.mulVec v').norm ≤ 7 / 4 * E := by
  have y0 := (F.dot_close h0 hv a0 le_rfl).trans hE
  exact V3.norm_le_comp ((abs_nonneg _).trans y0) y0 ((F.dot_close h1 hv a1 le_rfl).trans hE) ((F.dot_close h2 hv a2 le_rfl).trans hE)

lemma direct_bound {η β X : ℝ} (hη0 : 0 ≤ η) (hη : η ≤ 1 / 100) (hX : 0 ≤ X) (hβ : 0 ≤ β) :
    7 / 4 * (51 / 10 * F.u + 205 / 100 * η) * (X + β) + 3 / 2 * β + 3.01 * F.u * ((3 / 2 + 7 / 4 * (51 / 10 * F.u + 205 / 100 * η)) * (X + β)) ≤
      (136 / 10 * F.u + 36 / 10 * η) * (X + β) + 3 / 2 * β := by
  have hu := F.u_nonneg
  have hs := F.u_small
  have h1 : 3 / 2 + 7 / 4 * (51 / 10 * F.u + 205 / 100 * η) ≤ 154 / 100 := by linarith
  have h2 := mul_le_mul_of_nonneg_right h1 (by linarith : 0 ≤ X + β)
  have h3 := mul_le_mul_of_nonneg_left h2 (by linarith : 0 ≤ 3.01 * F.u)
  have h4 := mul_nonneg hu (by linarith : 0 ≤ X + β)
  have h5 := mul_nonneg hη0 (by linarith : 0 ≤ X + β)
  nlinarith

/-- **C89 (e).** Angular velocity from Euler-angle rates: `e` moves with rates `d`; the program stores the angles up to `η` (radians)
and the rates up to `β`. -/
theorem C89_xyz_velocity {e : ℝ → EulXyz} {d : V3} {t : ℝ} (hd : HasDerivV (fun s => (e s).v) d t) {w W : V3}
    (hw : IsLocalVelocity .xyz e t w) (hW : IsGlobalVelocity .xyz e t W) {e' : EulXyz} {d' : XyzDiff} {η β : ℝ}
    (he : |e'.x - (e t).x| ≤ η ∧ |e'.y - (e t).y| ≤ η ∧ |e'.z - (e t).z| ≤ η) (hη : η ≤ 1 / 100) (hd' : (d'.v - d).norm ≤ β) :
    ((F.localOfXyzDiff e' d').v - w).norm ≤ (24 * F.u + 7 * η) * (d.norm + β) + 3 * β ∧
    ((F.globalOfXyzDiff e' d').v - W).norm ≤ (24 * F.u + 7 * η) * (d.norm + β) + 3 * β := by
  have hu := F.u_nonneg
  obtain ⟨h1, h2⟩ := C31_xyz_rates e ⟨d⟩ t hd
  have ew := isLocalVelocity_unique (k := .xyz) trivial hw h1
  have eW := isGlobalVelocity_unique (k := .xyz) trivial hW h2
  generalize e t = p at *
  obtain ⟨hx, hy, hz⟩ := he
  have hη0 := (abs_nonneg _).trans hx
  have hβ := (V3.norm_nonneg _).trans hd'
  have n0 := d.norm_nonneg
  obtain ⟨sx, cx⟩ := F.trig_close hx
  obtain ⟨sy, cy⟩ := F.trig_close hy
  obtain ⟨sz, cz⟩ := F.trig_close hz
  have S := Real.abs_sin_le_one
  have C := Real.abs_cos_le_one
  have B := F.direct_bound hη0 hη n0 hβ
  have E0 : 0 ≤ 51 / 10 * F.u + 205 / 100 * η := by positivity
  have z : ∀ a : ℝ, |a - a| ≤ 51 / 10 * F.u + 205 / 100 * η := fun a => by simpa using E0
  have l : ∀ {A a : ℝ}, |A - a| ≤ 2 * F.u + η → |A - a| ≤ 51 / 10 * F.u + 205 / 100 * η := fun h => h.trans (by linarith)
  have fin : ∀ {x : ℝ}, x ≤ 7 / 4 * ((136 / 10 * F.u + 36 / 10 * η) * (d.norm + β) + 3 / 2 * β) →
      x ≤ (24 * F.u + 7 * η) * (d.norm + β) + 3 * β := fun h => h.trans (by
    have h4 := mul_nonneg hu (by linarith : 0 ≤ d.norm + β)
    have h5 := mul_nonneg hη0 (by linarith : 0 ≤ d.norm + β)
    linarith)
  have q1 := Real.sin_sq_add_cos_sq p.x
  have q2 := Real.sin_sq_add_cos_sq p.y
  have q3 := Real.sin_sq_add_cos_sq p.z
  constructor
  · rw [ew]
    refine fin (F.mulVec_rows (V3.norm_le_comp E0 ?_ ?_ ?_) (V3.norm_le_comp E0 ?_ ?_ ?_) (V3.norm_le_comp E0 ?_ ?_ ?_) (A := 3 / 2)
      ?_ ?_ ?_ hd' B)
    · exact F.mul_close_one cy cz (C _) (C _) hη0 hη
    · exact l sz
    · exact z 0
    · exact F.mul_close_one (neg_close cy) sz (by rw [abs_neg]; exact C _) (S _) hη0 hη
    · exact l cz
    · exact z 0
    · exact l sy
    · exact z 0
    · exact z 1
    all_goals apply V3.norm_le_of_sq (by norm_num); simp only [Kindr.xyzDiffToLocal]
    · nlinarith [sq_nonneg (Real.cos p.z), sq_nonneg (Real.sin p.y * Real.cos p.z)]
    · nlinarith [sq_nonneg (Real.cos p.z), sq_nonneg (Real.sin p.y * Real.sin p.z)]
    · nlinarith [sq_nonneg (Real.cos p.y)]
  · rw [eW]
    refine fin (F.mulVec_rows (V3.norm_le_comp E0 ?_ ?_ ?_) (V3.norm_le_comp E0 ?_ ?_ ?_) (V3.norm_le_comp E0 ?_ ?_ ?_) (A := 3 / 2)
      ?_ ?_ ?_ hd' B)
    · exact z 1
    · exact z 0
    · exact l sy
    · exact z 0
    · exact l cx
    · exact F.mul_close_one (neg_close sx) cy (by rw [abs_neg]; exact S _) (C _) hη0 hη
    · exact z 0
    · exact l sx
    · exact F.mul_close_one cx cy (C _) (C _) hη0 hη
    all_goals apply V3.norm_le_of_sq (by norm_num); simp only [Kindr.xyzDiffToGlobal]
    · nlinarith [sq_nonneg (Real.cos p.y)]
    · nlinarith [sq_nonneg (Real.sin p.y * Real.sin p.x)]
    · nlinarith [sq_nonneg (Real.sin p.y * Real.cos p.x)]

/-- **C89 (f).** The same for z-y-x Euler angles. -/
theorem C89_zyx_velocity {e : ℝ → EulZyx} {d : V3} {t : ℝ} (hd : HasDerivV (fun s => (e s).v) d t) {w : V3}
    (hw : IsLocalVelocity .zyx e t w) {e' : EulZyx} {d' : ZyxDiff} {η β : ℝ}
    (he : |e'.x - (e t).x| ≤ η ∧ |e'.y - (e t).y| ≤ η ∧ |e'.z - (e t).z| ≤ η) (hη : η ≤ 1 / 100) (hd' : (d'.v - d).norm ≤ β) :
    ((F.localOfZyxDiff e' d').v - w).norm ≤ (24 * F.u + 7 * η) * (d.norm + β) + 3 * β := by
  have hu := F.u_nonneg
  have h1 := C32_zyx_rates e ⟨d⟩ t hd
  have ew := isLocalVelocity_unique (k := .zyx) trivial hw h1
  generalize e t = p at *
  obtain ⟨hx, hy, hz⟩ := he
  have hη0 := (abs_nonneg _).trans hx
  have hβ := (V3.norm_nonneg _).trans hd'
  have n0 := d.norm_nonneg
  obtain ⟨sx, cx⟩ := F.trig_close hx
  obtain ⟨sy, cy⟩ := F.trig_close hy
  have S := Real.abs_sin_le_one
  have C := Real.abs_cos_le_one
  have B := F.direct_bound hη0 hη n0 hβ
  have E0 : 0 ≤ 51 / 10 * F.u + 205 / 100 * η := by positivity
  have z : ∀ a : ℝ, |a - a| ≤ 51 / 10 * F.u + 205 / 100 * η := fun a => by simpa using E0
  have l : ∀ {A a : ℝ}, |A - a| ≤ 2 * F.u + η → |A - a| ≤ 51 / 10 * F.u + 205 / 100 * η := fun h => h.trans (by linarith)
  have fin : ∀ {x : ℝ}, x ≤ 7 / 4 * ((136 / 10 * F.u + 36 / 10 * η) * (d.norm + β) + 3 / 2 * β) →
      x ≤ (24 * F.u + 7 * η) * (d.norm + β) + 3 * β := fun h => h.trans (by
    have h4 := mul_nonneg hu (by linarith : 0 ≤ d.norm + β)
    have h5 := mul_nonneg hη0 (by linarith : 0 ≤ d.norm + β)
    linarith)
  have q1 := Real.sin_sq_add_cos_sq p.x
  have q2 := Real.sin_sq_add_cos_sq p.y
  rw [ew]
  refine fin (F.mulVec_rows (V3.norm_le_comp E0 ?_ ?_ ?_) (V3.norm_le_comp E0 ?_ ?_ ?_) (V3.norm_le_comp E0 ?_ ?_ ?_) (A := 3 / 2)
    ?_ ?_ ?_ hd' B)
  · exact l (neg_close sy)
  · exact z 0
  · exact z 1
  · exact F.mul_close_one cy sx (C _) (S _) hη0 hη
  · exact l cx
  · exact z 0
  · exact F.mul_close_one cx cy (C _) (C _) hη0 hη
  · exact l (neg_close sx)
  · exact z 0
  all_goals apply V3.norm_le_of_sq (by norm_num); simp only [Kindr.zyxDiffToLocal]
  · nlinarith [sq_nonneg (Real.cos p.y)]
  · nlinarith [sq_nonneg (Real.cos p.x), sq_nonneg (Real.sin p.y * Real.sin p.x)]
  · nlinarith [sq_nonneg (Real.cos p.x), sq_nonneg (Real.sin p.y * Real.cos p.x)]


/-! ## Euler rates from an angular velocity -/

/-- `fl (1 / t2)` with an approximate `t2`. -/
lemma inv_close {C c s L : ℝ} (hc : c ≠ 0) (hL : L = 1 / |c|) (hC : |C - c| ≤ s - F.u) (hs : s * L ≤ 1 / 1000) (hc1 : |c| ≤ 1) :
    C ≠ 0 ∧ |F.fl (1 / C) - 1 / c| ≤ 1002 / 1000 * s * L ^ 2 := by
  have hu := F.u_nonneg
  have c0 : 0 < |c| := abs_pos.mpr hc
  have L1 : 1 ≤ L := by rw [hL, le_div_iff₀ c0]; linarith
  have sc : s ≤ |c| / 1000 := by
    rw [hL, mul_one_div, div_le_iff₀ c0] at hs; linarith
  have C0 : 999 / 1000 * |c| ≤ |C| := by
    have := abs_sub_abs_le_abs_sub c C
    rw [abs_sub_comm] at this
    linarith
  have Cp : 0 < |C| := by linarith [mul_pos (by norm_num : (0 : ℝ) < 999 / 1000) c0]
  have Cn : C ≠ 0 := abs_pos.mp Cp
  refine ⟨Cn, ?_⟩
  have h0 : 0 ≤ s - F.u := (abs_nonneg _).trans hC
  have e1 : |1 / C - 1 / c| ≤ 10011 / 10000 * (s - F.u) * L ^ 2 := by
    have : 1 / C - 1 / c = (c - C) / (C * c) := by field_simp
    rw [this, abs_div, abs_mul, abs_sub_comm, div_le_iff₀ (mul_pos Cp c0)]
    refine hC.trans ?_
    have k : L ^ 2 * (|C| * |c|) = |C| / |c| := by rw [hL]; field_simp
    have k2 : 999 / 1000 ≤ |C| / |c| := by rw [le_div_iff₀ c0]; exact C0
    rw [mul_assoc, k]
    have := mul_le_mul_of_nonneg_left k2 h0
    linarith
  have h2 := F.fl_abs e1
  have h3 : |1 / c| = L := by rw [abs_div, abs_one, hL]
  rw [h3] at h2
  have sL0 : 0 ≤ (s - F.u) * L := by positivity
  have uL : 0 ≤ F.u * L := by positivity
  have k1 : (s - F.u) * L ^ 2 ≤ 1 / 1000 * L := by
    have : (s - F.u) * L ^ 2 = ((s - F.u) * L) * L := by ring
    rw [this]; exact mul_le_mul_of_nonneg_right (by linarith) (by linarith)
  have k2 : F.u * L ≤ F.u * L ^ 2 := by
    have := mul_le_mul_of_nonneg_left L1 uL
    linarith [show F.u * L ^ 2 = F.u * L * L by ring]
  have k3 := mul_le_mul_of_nonneg_left (show L + 10011 / 10000 * (s - F.u) * L ^ 2 ≤ 10011 / 10000 * L by linarith) hu
  have : 0 ≤ (s - F.u) * L ^ 2 := by positivity
  refine h2.trans ?_
  linarith

/-- `fl (A * B)` with `|a| ≤ L` and a sine or cosine `b`. -/
lemma mul_close_L {A a B b s L k : ℝ} (hA : |A - a| ≤ k * s * L ^ 2) (ha : |a| ≤ L) (hB : |B - b| ≤ s - F.u) (hb : |b| ≤ 1)
    (hL : 1 ≤ L) (hs : s * L ≤ 1 / 1000) (hk : k ≤ 3) :
    |F.fl (A * B) - a * b| ≤ (1001 / 1000 * k + 1005 / 1000) * s * L ^ 2 := by
  have hu := F.u_nonneg
  have h0 : 0 ≤ s - F.u := (abs_nonneg _).trans hB
  have s0 : 0 ≤ s := by linarith
  have sl : s ≤ 1 / 1000 := by
    have := mul_le_mul_of_nonneg_left hL s0
    linarith
  have nB : |B| ≤ 1001 / 1000 := by
    have := abs_sub_abs_le_abs_sub B b; linarith
  have h1 := abs_mul_sub_le hA hB ha nB
  have sL2 : s * L ^ 2 ≤ 1 / 1000 * L := by
    have : s * L ^ 2 = (s * L) * L := by ring
    rw [this]; exact mul_le_mul_of_nonneg_right hs (by linarith)
  have sL20 : 0 ≤ s * L ^ 2 := by positivity
  have uL : F.u * L ≤ F.u * L ^ 2 := by
    have := mul_le_mul_of_nonneg_left hL (by positivity : 0 ≤ F.u * L)
    linarith [show F.u * L ^ 2 = F.u * L * L by ring]
  have lL : L * (s - F.u) ≤ s * L ^ 2 - F.u * L ^ 2 := by
    have := mul_le_mul_of_nonneg_left hL (by positivity : 0 ≤ L * (s - F.u))
    linarith [show L * (s - F.u) * L = s * L ^ 2 - F.u * L ^ 2 by ring]
  have h2 := F.fl_abs h1
  have h3 : |a * b| ≤ L := by
    rw [abs_mul]
    have := mul_le_mul ha hb (abs_nonneg _) (by linarith)
    linarith
  have kk := mul_le_mul_of_nonneg_right hk sL20
  have uL2 : 0 ≤ F.u * L ^ 2 := by positivity
  have k3 := mul_le_mul_of_nonneg_left (show |a * b| + (k * s * L ^ 2 * (1001 / 1000) + L * (s - F.u)) ≤ 10041 / 10000 * L by
    linarith) hu
  have us : F.u * L ^ 2 ≤ s * L ^ 2 := mul_le_mul_of_nonneg_right (by linarith) (by positivity)
  refine h2.trans ?_
  linarith

lemma inverse_bound {s η L β X : ℝ} (hs : s = 3 * F.u + η) (hη0 : 0 ≤ η) (hsL : s * L ≤ 1 / 1000) (hL : 1 ≤ L) (hX : 0 ≤ X) (hβ : 0 ≤ β) :
    7 / 4 * (303 / 100 * s * L ^ 2) * (X + β) + L * β + 3.01 * F.u * ((L + 7 / 4 * (303 / 100 * s * L ^ 2)) * (X + β)) ≤
      (191 / 10 * F.u + 54 / 10 * η) * L ^ 2 * (X + β) + L * β := by
  have hu := F.u_nonneg
  have s0 : 0 ≤ s := by linarith
  have sL2 : s * L ^ 2 ≤ 1 / 1000 * L := by
    have : s * L ^ 2 = (s * L) * L := by ring
    rw [this]; exact mul_le_mul_of_nonneg_right hsL (by linarith)
  have X0 : 0 ≤ X + β := by linarith
  have h1 : L + 7 / 4 * (303 / 100 * s * L ^ 2) ≤ 1006 / 1000 * L := by linarith
  have h2 := mul_le_mul_of_nonneg_right h1 X0
  have h3 := mul_le_mul_of_nonneg_left h2 (by linarith : 0 ≤ 3.01 * F.u)
  have h4 : F.u * (L * (X + β)) ≤ F.u * (L ^ 2 * (X + β)) := by
    apply mul_le_mul_of_nonneg_left _ hu
    apply mul_le_mul_of_nonneg_right _ X0
    nlinarith
  have h5 : 0 ≤ F.u * (L ^ 2 * (X + β)) := by positivity
  have h6 : 0 ≤ η * (L ^ 2 * (X + β)) := by positivity
  subst hs
  linarith

set_option maxHeartbeats 1000000 in
/-- **C89 (g).** Euler-angle rates from an angular velocity, away from gimbal lock: if the cosine of the pitch is at least
`1000 (3u + η)`, the computation does not throw, and the rates are right up to `(34u + 10η)/cos² · |w|` plus the propagated error of
the velocity. -/
theorem C89_xyz_rates {e : ℝ → EulXyz} {d : V3} {t : ℝ} (hd : HasDerivV (fun s => (e s).v) d t) {w W : V3}
    (hw : IsLocalVelocity .xyz e t w) (hW : IsGlobalVelocity .xyz e t W) {e' : EulXyz} {w' : LocalAV} {W' : V3} {η β : ℝ}
    (he : |e'.x - (e t).x| ≤ η ∧ |e'.y - (e t).y| ≤ η ∧ |e'.z - (e t).z| ≤ η)
    (hc : 1000 * (3 * F.u + η) ≤ |Real.cos (e t).y|) (hc0 : Real.cos (e t).y ≠ 0) (hw' : (w'.v - w).norm ≤ β) (hW' : (W' - W).norm ≤ β) :
    (∃ d', F.xyzDiffOfLocal e' w' = .ok d' ∧ (d'.v - d).norm ≤
      (34 * F.u + 10 * η) / Real.cos (e t).y ^ 2 * (w.norm + β) + 2 * β / |Real.cos (e t).y|) ∧
    (∃ M, F.xyzGlobalToDiff e' = .ok M ∧ (F.mulVec M W' - d).norm ≤
      (34 * F.u + 10 * η) / Real.cos (e t).y ^ 2 * (W.norm + β) + 2 * β / |Real.cos (e t).y|) := by
  have hu := F.u_nonneg
  obtain ⟨h1, h2⟩ := C31_xyz_rates e ⟨d⟩ t hd
  have ew := isLocalVelocity_unique (k := .xyz) trivial hw h1
  have eW := isGlobalVelocity_unique (k := .xyz) trivial hW h2
  generalize e t = p at *
  obtain ⟨hx, hy, hz⟩ := he
  have hη0 := (abs_nonneg _).trans hx
  have hβ := (V3.norm_nonneg _).trans hw'
  obtain ⟨sx, cx⟩ := F.trig_close hx
  obtain ⟨sy, cy⟩ := F.trig_close hy
  obtain ⟨sz, cz⟩ := F.trig_close hz
  have S := Real.abs_sin_le_one
  have C := Real.abs_cos_le_one
  obtain ⟨s, hs⟩ : ∃ s, s = 3 * F.u + η := ⟨_, rfl⟩
  obtain ⟨L, hL⟩ : ∃ L, L = 1 / |Real.cos p.y| := ⟨_, rfl⟩
  have c0 : 0 < |Real.cos p.y| := abs_pos.mpr hc0
  have L1 : 1 ≤ L := by rw [hL, le_div_iff₀ c0, one_mul]; exact C _
  have hsL : s * L ≤ 1 / 1000 := by
    rw [hL, hs, mul_one_div, div_le_iff₀ c0]; linarith
  have es : 2 * F.u + η = s - F.u := by rw [hs]; ring
  rw [es] at sx cx sy cy sz cz
  have s0 : 0 ≤ s := by rw [hs]; positivity
  have E0 : 0 ≤ 303 / 100 * s * L ^ 2 := by positivity
  have z : ∀ a : ℝ, |a - a| ≤ 303 / 100 * s * L ^ 2 := fun a => by simpa using E0
  have sL2 : s ≤ s * L ^ 2 := le_mul_of_one_le_right s0 (one_le_pow₀ L1)
  have l : ∀ {A a : ℝ}, |A - a| ≤ s - F.u → |A - a| ≤ 303 / 100 * s * L ^ 2 := fun h => h.trans (by linarith)
  obtain ⟨hne, ht3⟩ := F.inv_close hc0 hL cy hsL (C _)
  have a3 : |1 / Real.cos p.y| = L := by rw [abs_div, abs_one, hL]
  have fst : ∀ {A a B b : ℝ}, |A - a| ≤ 1002 / 1000 * s * L ^ 2 → |a| ≤ L → |B - b| ≤ s - F.u → |b| ≤ 1 →
      |F.fl (A * B) - a * b| ≤ 201 / 100 * s * L ^ 2 := fun hA ha hB hb =>
    (F.mul_close_L hA ha hB hb L1 hsL (by norm_num)).trans (by
      have : 0 ≤ s * L ^ 2 := by positivity
      linarith)
  have snd : ∀ {A a B b : ℝ}, |A - a| ≤ 201 / 100 * s * L ^ 2 → |a| ≤ L → |B - b| ≤ s - F.u → |b| ≤ 1 →
      |F.fl (A * B) - a * b| ≤ 303 / 100 * s * L ^ 2 := fun hA ha hB hb =>
    (F.mul_close_L hA ha hB hb L1 hsL (by norm_num)).trans (by
      have : 0 ≤ s * L ^ 2 := by positivity
      linarith)
  have up : ∀ {x : ℝ}, x ≤ 201 / 100 * s * L ^ 2 → x ≤ 303 / 100 * s * L ^ 2 := fun h => h.trans (by
      have : 0 ≤ s * L ^ 2 := by positivity
      linarith)
  have aL : ∀ b : ℝ, |b| ≤ 1 → |1 / Real.cos p.y * b| ≤ L := fun b hb => by
    rw [abs_mul, a3]
    have := mul_le_mul_of_nonneg_left hb (by linarith : 0 ≤ L)
    linarith
  have fin : ∀ {x X : ℝ}, 0 ≤ X → x ≤ 7 / 4 * ((191 / 10 * F.u + 54 / 10 * η) * L ^ 2 * (X + β) + L * β) →
      x ≤ (34 * F.u + 10 * η) / Real.cos p.y ^ 2 * (X + β) + 2 * β / |Real.cos p.y| := by
    intro x X hX h
    refine h.trans ?_
    have e1 : (34 * F.u + 10 * η) / Real.cos p.y ^ 2 = (34 * F.u + 10 * η) * L ^ 2 := by
      rw [hL, div_pow, sq_abs, one_pow, mul_one_div]
    have e2 : 2 * β / |Real.cos p.y| = 2 * β * L := by rw [hL, mul_one_div]
    rw [e1, e2]
    have h4 : 0 ≤ F.u * (L ^ 2 * (X + β)) := by positivity
    have h5 : 0 ≤ η * (L ^ 2 * (X + β)) := by positivity
    have h6 : 0 ≤ L * β := by positivity
    linarith
  have q1 := Real.sin_sq_add_cos_sq p.x
  have q2 := Real.sin_sq_add_cos_sq p.y
  have q3 := Real.sin_sq_add_cos_sq p.z
  have L2 : L ^ 2 * Real.cos p.y ^ 2 = 1 := by rw [hL, div_pow, sq_abs]; field_simp
  have cL : (1 / Real.cos p.y) ^ 2 = L ^ 2 := by rw [← sq_abs, a3]
  obtain ⟨i, hi⟩ : ∃ i, i = 1 / Real.cos p.y := ⟨_, rfl⟩
  have LL : 1 ≤ L ^ 2 := one_le_pow₀ L1
  have L0 : 0 ≤ L := by linarith
  have B : ∀ X : ℝ, 0 ≤ X → _ := fun X hX => F.inverse_bound hs hη0 hsL L1 hX hβ
  rw [← hi] at ht3 a3 aL cL
  have nt3 := neg_close ht3
  have na3 : |-i| ≤ L := by rw [abs_neg, a3]
  have naL : ∀ b : ℝ, |b| ≤ 1 → |-i * b| ≤ L := fun b hb => by rw [neg_mul, abs_neg]; exact aL b hb
  have id2 : i ^ 2 * Real.sin p.y ^ 2 + 1 = L ^ 2 := by
    rw [cL]; linear_combination L ^ 2 * q2 - L2
  constructor
  · refine ⟨⟨F.mulVec ⟨F.fl (F.fl (1 / F.cos e'.y) * F.cos e'.z), F.fl (-F.fl (1 / F.cos e'.y) * F.sin e'.z), 0, F.sin e'.z, F.cos e'.z, 0,
      F.fl (F.fl (-F.fl (1 / F.cos e'.y) * F.cos e'.z) * F.sin e'.y), F.fl (F.fl (F.fl (1 / F.cos e'.y) * F.sin e'.z) * F.sin e'.y), 1⟩ w'.v⟩, ?_, ?_⟩
    · simp only [FloatLib.xyzDiffOfLocal, FloatLib.xyzLocalToDiff, ne_eq, hne, not_false_eq_true, if_true]
    · have hd2 : d = (⟨i * Real.cos p.z, -i * Real.sin p.z, 0, Real.sin p.z, Real.cos p.z, 0, -i * Real.cos p.z * Real.sin p.y,
          i * Real.sin p.z * Real.sin p.y, 1⟩ : M3).mulVec w := by
        have := (C31_xyz_roundtrip p ⟨d⟩ ⟨w⟩).2.1 hc0
        simp only [Kindr.xyzDiffOfLocal, Kindr.xyzLocalToDiff, ne_eq, hc0, not_false_eq_true, if_true, Res.ok.injEq, XyzDiff.mk.injEq, ← ew,
          ← hi] at this
        exact this.symm
      rw [hd2]
      refine fin w.norm_nonneg (F.mulVec_rows (V3.norm_le_comp E0 ?_ ?_ ?_) (V3.norm_le_comp E0 ?_ ?_ ?_) (V3.norm_le_comp E0 ?_ ?_ ?_) (A := L)
        ?_ ?_ ?_ hw' (B _ w.norm_nonneg))
      · exact up (fst ht3 a3.le cz (C _))
      · exact up (fst nt3 na3 sz (S _))
      · exact z 0
      · exact l sz
      · exact l cz
      · exact z 0
      · exact snd (fst nt3 na3 cz (C _)) (naL _ (C _)) sy (S _)
      · exact snd (fst ht3 a3.le sz (S _)) (aL _ (S _)) sy (S _)
      · exact z 1
      all_goals apply V3.norm_le_of_sq L0; dsimp only
      · rw [← cL]; exact le_of_eq (by linear_combination i ^ 2 * q3)
      · exact le_trans (le_of_eq (by linear_combination q3)) LL
      · rw [← id2]; exact le_of_eq (by linear_combination i ^ 2 * Real.sin p.y ^ 2 * q3)
  · refine ⟨⟨1, F.fl (F.fl (F.fl (1 / F.cos e'.y) * F.sin e'.y) * F.sin e'.x), F.fl (F.fl (-F.fl (1 / F.cos e'.y) * F.sin e'.y) * F.cos e'.x), 0,
      F.cos e'.x, F.sin e'.x, 0, F.fl (-F.fl (1 / F.cos e'.y) * F.sin e'.x), F.fl (F.fl (1 / F.cos e'.y) * F.cos e'.x)⟩, ?_, ?_⟩
    · simp only [FloatLib.xyzGlobalToDiff, ne_eq, hne, not_false_eq_true, if_true]
    · have hd2 : d = (⟨1, i * Real.sin p.y * Real.sin p.x, -i * Real.sin p.y * Real.cos p.x, 0, Real.cos p.x, Real.sin p.x, 0, -i * Real.sin p.x,
          i * Real.cos p.x⟩ : M3).mulVec W := by
        have h := (C31_xyz_inverse_mapping p).2.2.2 ⟨1, i * Real.sin p.y * Real.sin p.x, -i * Real.sin p.y * Real.cos p.x, 0, Real.cos p.x, Real.sin p.x, 0,
          -i * Real.sin p.x, i * Real.cos p.x⟩ (by simp only [Kindr.xyzGlobalToDiff, ne_eq, hc0, not_false_eq_true, if_true, hi])
        rw [eW]
        simp only [Kindr.globalOfXyzDiff, M3.mulVec_mulVec, h.1, M3.one_mulVec]
      rw [hd2]
      refine fin W.norm_nonneg (F.mulVec_rows (V3.norm_le_comp E0 ?_ ?_ ?_) (V3.norm_le_comp E0 ?_ ?_ ?_) (V3.norm_le_comp E0 ?_ ?_ ?_) (A := L)
        ?_ ?_ ?_ hW' (B _ W.norm_nonneg))
      · exact z 1
      · exact snd (fst ht3 a3.le sy (S _)) (aL _ (S _)) sx (S _)
      · exact snd (fst nt3 na3 sy (S _)) (naL _ (S _)) cx (C _)
      · exact z 0
      · exact l cx
      · exact l sx
      · exact z 0
      · exact up (fst nt3 na3 sx (S _))
      · exact up (fst ht3 a3.le cx (C _))
      all_goals apply V3.norm_le_of_sq L0; dsimp only
      · rw [← id2]; exact le_of_eq (by linear_combination i ^ 2 * Real.sin p.y ^ 2 * q1)
      · exact le_trans (le_of_eq (by linear_combination q1)) LL
      · rw [← cL]; exact le_of_eq (by linear_combination i ^ 2 * q1)

set_option maxHeartbeats 1000000 in
/-- **C89 (h).** The same for z-y-x Euler angles. -/
theorem C89_zyx_rates {e : ℝ → EulZyx} {d : V3} {t : ℝ} (hd : HasDerivV (fun s => (e s).v) d t) {w : V3}
    (hw : IsLocalVelocity .zyx e t w) {e' : EulZyx} {w' : LocalAV} {η β : ℝ}
    (he : |e'.x - (e t).x| ≤ η ∧ |e'.y - (e t).y| ≤ η ∧ |e'.z - (e t).z| ≤ η)
    (hc : 1000 * (3 * F.u + η) ≤ |Real.cos (e t).y|) (hc0 : Real.cos (e t).y ≠ 0) (hw' : (w'.v - w).norm ≤ β) :
    ∃ d', F.zyxDiffOfLocal e' w' = .ok d' ∧ (d'.v - d).norm ≤
      (34 * F.u + 10 * η) / Real.cos (e t).y ^ 2 * (w.norm + β) + 2 * β / |Real.cos (e t).y| := by
  have hu := F.u_nonneg
  have h1 := C32_zyx_rates e ⟨d⟩ t hd
  have ew := isLocalVelocity_unique (k := .zyx) trivial hw h1
  generalize e t = p at *
  obtain ⟨hx, hy, hz⟩ := he
  have hη0 := (abs_nonneg _).trans hx
  have hβ := (V3.norm_nonneg _).trans hw'
  obtain ⟨sx, cx⟩ := F.trig_close hx
  obtain ⟨sy, cy⟩ := F.trig_close hy
  have S := Real.abs_sin_le_one
  have C := Real.abs_cos_le_one
  obtain ⟨s, hs⟩ : ∃ s, s = 3 * F.u + η := ⟨_, rfl⟩
  obtain ⟨L, hL⟩ : ∃ L, L = 1 / |Real.cos p.y| := ⟨_, rfl⟩
  have c0 : 0 < |Real.cos p.y| := abs_pos.mpr hc0
  have L1 : 1 ≤ L := by rw [hL, le_div_iff₀ c0, one_mul]; exact C _
  have hsL : s * L ≤ 1 / 1000 := by
    rw [hL, hs, mul_one_div, div_le_iff₀ c0]; linarith
  have es : 2 * F.u + η = s - F.u := by rw [hs]; ring
  rw [es] at sx cx sy cy
  have s0 : 0 ≤ s := by rw [hs]; positivity
  have E0 : 0 ≤ 303 / 100 * s * L ^ 2 := by positivity
  have z : ∀ a : ℝ, |a - a| ≤ 303 / 100 * s * L ^ 2 := fun a => by simpa using E0
  have sL2 : s ≤ s * L ^ 2 := le_mul_of_one_le_right s0 (one_le_pow₀ L1)
  have l : ∀ {A a : ℝ}, |A - a| ≤ s - F.u → |A - a| ≤ 303 / 100 * s * L ^ 2 := fun h => h.trans (by linarith)
  obtain ⟨hne, ht3⟩ := F.inv_close hc0 hL cy hsL (C _)
  have a3 : |1 / Real.cos p.y| = L := by rw [abs_div, abs_one, hL]
  have fst : ∀ {A a B b : ℝ}, |A - a| ≤ 1002 / 1000 * s * L ^ 2 → |a| ≤ L → |B - b| ≤ s - F.u → |b| ≤ 1 →
      |F.fl (A * B) - a * b| ≤ 201 / 100 * s * L ^ 2 := fun hA ha hB hb =>
    (F.mul_close_L hA ha hB hb L1 hsL (by norm_num)).trans (by
      have : 0 ≤ s * L ^ 2 := by positivity
      linarith)
  have snd : ∀ {A a B b : ℝ}, |A - a| ≤ 201 / 100 * s * L ^ 2 → |a| ≤ L → |B - b| ≤ s - F.u → |b| ≤ 1 →
      |F.fl (A * B) - a * b| ≤ 303 / 100 * s * L ^ 2 := fun hA ha hB hb =>
    (F.mul_close_L hA ha hB hb L1 hsL (by norm_num)).trans (by
      have : 0 ≤ s * L ^ 2 := by positivity
      linarith)
  have up : ∀ {x : ℝ}, x ≤ 201 / 100 * s * L ^ 2 → x ≤ 303 / 100 * s * L ^ 2 := fun h => h.trans (by
      have : 0 ≤ s * L ^ 2 := by positivity
      linarith)
  have aL : ∀ b : ℝ, |b| ≤ 1 → |1 / Real.cos p.y * b| ≤ L := fun b hb => by
    rw [abs_mul, a3]
    have := mul_le_mul_of_nonneg_left hb (by linarith : 0 ≤ L)
    linarith
  have fin : ∀ {x X : ℝ}, 0 ≤ X → x ≤ 7 / 4 * ((191 / 10 * F.u + 54 / 10 * η) * L ^ 2 * (X + β) + L * β) →
      x ≤ (34 * F.u + 10 * η) / Real.cos p.y ^ 2 * (X + β) + 2 * β / |Real.cos p.y| := by
    intro x X hX h
    refine h.trans ?_
    have e1 : (34 * F.u + 10 * η) / Real.cos p.y ^ 2 = (34 * F.u + 10 * η) * L ^ 2 := by
      rw [hL, div_pow, sq_abs, one_pow, mul_one_div]
    have e2 : 2 * β / |Real.cos p.y| = 2 * β * L := by rw [hL, mul_one_div]
    rw [e1, e2]
    have h4 : 0 ≤ F.u * (L ^ 2 * (X + β)) := by positivity
    have h5 : 0 ≤ η * (L ^ 2 * (X + β)) := by positivity
    have h6 : 0 ≤ L * β := by positivity
    linarith
  have q1 := Real.sin_sq_add_cos_sq p.x
  have q2 := Real.sin_sq_add_cos_sq p.y
  have L2 : L ^ 2 * Real.cos p.y ^ 2 = 1 := by rw [hL, div_pow, sq_abs]; field_simp
  have cL : (1 / Real.cos p.y) ^ 2 = L ^ 2 := by rw [← sq_abs, a3]
  obtain ⟨i, hi⟩ : ∃ i, i = 1 / Real.cos p.y := ⟨_, rfl⟩
  have LL : 1 ≤ L ^ 2 := one_le_pow₀ L1
  have L0 : 0 ≤ L := by linarith
  have B := F.inverse_bound hs hη0 hsL L1 w.norm_nonneg hβ
  rw [← hi] at ht3 a3 aL cL
  have id2 : i ^ 2 * Real.sin p.y ^ 2 + 1 = L ^ 2 := by
    rw [cL]; linear_combination L ^ 2 * q2 - L2
  refine ⟨⟨F.mulVec ⟨0, F.fl (F.fl (1 / F.cos e'.y) * F.sin e'.x), F.fl (F.fl (1 / F.cos e'.y) * F.cos e'.x), 0, F.cos e'.x, -F.sin e'.x, 1,
    F.fl (F.fl (F.fl (1 / F.cos e'.y) * F.sin e'.x) * F.sin e'.y), F.fl (F.fl (F.fl (1 / F.cos e'.y) * F.cos e'.x) * F.sin e'.y)⟩ w'.v⟩, ?_, ?_⟩
  · simp only [FloatLib.zyxDiffOfLocal, FloatLib.zyxLocalToDiff, ne_eq, hne, not_false_eq_true, if_true]
  · have hd2 : d = (⟨0, i * Real.sin p.x, i * Real.cos p.x, 0, Real.cos p.x, -Real.sin p.x, 1, i * Real.sin p.x * Real.sin p.y,
        i * Real.cos p.x * Real.sin p.y⟩ : M3).mulVec w := by
      have := (C32_zyx_roundtrip p ⟨d⟩ ⟨w⟩).2.1 hc0
      simp only [Kindr.zyxDiffOfLocal, Kindr.zyxLocalToDiff, ne_eq, hc0, not_false_eq_true, if_true, Res.ok.injEq, ZyxDiff.mk.injEq, ← ew,
        ← hi] at this
      exact this.symm
    rw [hd2]
    refine fin w.norm_nonneg (F.mulVec_rows (V3.norm_le_comp E0 ?_ ?_ ?_) (V3.norm_le_comp E0 ?_ ?_ ?_) (V3.norm_le_comp E0 ?_ ?_ ?_) (A := L)
      ?_ ?_ ?_ hw' B)
    · exact z 0
    · exact up (fst ht3 a3.le sx (S _))
    · exact up (fst ht3 a3.le cx (C _))
    · exact z 0
    · exact l cx
    · exact l (neg_close sx)
    · exact z 1
    · exact snd (fst ht3 a3.le sx (S _)) (aL _ (S _)) sy (S _)
    · exact snd (fst ht3 a3.le cx (C _)) (aL _ (C _)) sy (S _)
    all_goals apply V3.norm_le_of_sq L0; dsimp only
    · rw [← cL]; exact le_of_eq (by linear_combination i ^ 2 * q1)
    · exact le_trans (le_of_eq (by linear_combination q1)) LL
    · rw [← id2]; exact le_of_eq (by linear_combination i ^ 2 * Real.sin p.y ^ 2 * q1)


/-! ## Velocities of any rotation class -/

/-- **C89 (i).** Changing the frame of an angular velocity, for every rotation class: `r` is a moving rotation with body-frame velocity
`w` and space-frame velocity `W`; the program stores `r(t)` up to rounding (`Rounded`) and the velocity up to `β`. -/
theorem C89_frames (P : Prec) {k : Kind} {r : ℝ → Rep k} {t : ℝ} (hv : Valid k (r t)) {w W : V3} (hw : IsLocalVelocity k r t w)
    (hW : IsGlobalVelocity k r t W) {r' : Rep k} {w' : LocalAV} {W' : GlobalAV} {η δ e β : ℝ} (h : Rounded η δ k r' (den k (r t)))
    (he : quatErr P F.u η (angleSize k r') k ≤ e) (he1 : e ≤ 1 / 100000) (he2 : 64 * F.u ≤ e)
    (hw' : (w'.v - w).norm ≤ β) (hW' : (W'.v - W).norm ≤ β) :
    ((F.globalOfLocal P k r' w').v - W).norm ≤ (δ + 19 * e + 69 * F.u) * (w.norm + β) + β ∧
    ((F.localOfGlobal P k r' W').v - w).norm ≤ (δ + 120 * e + 1069 * F.u + 101 / 100 * P.dp) * (W.norm + β) + β := by
  have hu := F.u_nonneg
  have hdp := P.dp_pos
  have hR := den_isSO3 hv
  have hWw : W = (den k (r t)).mulVec w := by
    exact isGlobalVelocity_unique hv hW ((local_iff_global hv).mp hw)
  have hwW : w = (den k (r t)).transpose.mulVec W := by
    rw [hWw, M3.mulVec_mulVec, SO3.tr_mul hR, M3.one_mulVec]
  generalize den k (r t) = R at *
  have hδ0 : 0 ≤ δ := by
    obtain ⟨-, r', -, -, k⟩ := h
    have := k ⟨1, 0, 0⟩
    have n1 : (⟨1, 0, 0⟩ : V3).norm = 1 := V3.norm_eq_one_iff.mpr (by simp [V3.normSq, V3.dot])
    rw [n1, mul_one] at this
    exact (V3.norm_nonneg _).trans this
  obtain ⟨i1, i2⟩ := (FloatWide.uniform F).inverted_uniform P h he he1 he2
  change Rounded η (δ + 101 * e + 1000 * F.u + 101 / 100 * P.dp) k (F.inverted k r') R.transpose at i1
  change quatErr P F.u η (angleSize k (F.inverted k r')) k ≤ e at i2
  have gen : ∀ {s : Rep k} {Q : M3} {δ' : ℝ} {x v : V3}, IsSO3 Q → 0 ≤ δ' → Rounded η δ' k s Q → quatErr P F.u η (angleSize k s) k ≤ e →
      (x - v).norm ≤ β → (F.rotate P k s x - Q.mulVec v).norm ≤ (δ' + 19 * e + 69 * F.u) * (v.norm + β) + β := by
    intro s Q δ' x v hQ hδ' hr hq hx
    have h1 := F.C85_rotate P hr (hq.trans he1) x
    have nx : x.norm ≤ v.norm + β := by
      have h := V3.norm_add_le (x - v) v
      rw [show (x - v) + v = x by ext <;> simp] at h
      linarith
    have e3 : F.rotate P k s x - Q.mulVec v = (F.rotate P k s x - Q.mulVec x) + Q.mulVec (x - v) := by
      ext <;> simp [M3.mulVec] <;> ring
    rw [e3]
    refine (V3.norm_add_le _ _).trans ?_
    rw [SO3.mulVec_norm hQ]
    have c : (δ' + if k = .mat then 3 * η + 6 * F.u else 19 * quatErr P F.u η (angleSize k s) k + 69 * F.u) ≤ δ' + 19 * e + 69 * F.u := by
      split_ifs with hk
      · subst hk
        have := h.1
        simp only [quatErr] at hq
        linarith
      · linarith
    have h2 := mul_le_mul c nx x.norm_nonneg (by linarith)
    linarith
  constructor
  · rw [hWw]
    exact gen hR hδ0 h he hw'
  · have := gen (SO3.transpose hR) (by linarith) i1 i2 hW'
    rw [← hwW] at this
    refine this.trans (le_of_eq ?_)
    ring

/-! ## The gimbal-lock check -/

lemma cos_rat_ne_zero (y : ℚ) : Real.cos (y : ℝ) ≠ 0 := by
  intro h
  obtain ⟨n, hn⟩ := Real.cos_eq_zero_iff.mp h
  have : Irrational ((2 * n + 1) * Real.pi / 2) := by
    have hne : (2 * (n : ℚ) + 1) / 2 ≠ 0 := by
      have : (2 * n + 1 : ℤ) ≠ 0 := by omega
      have h2 : (2 * (n : ℚ) + 1) ≠ 0 := by exact_mod_cast this
      exact div_ne_zero h2 (by norm_num)
    have := irrational_pi.ratCast_mul hne
    convert this using 1
    push_cast; ring
  exact this ⟨y, by rw [hn]⟩

/-- **C89 (j).** The gimbal-lock assertion is dead code: every `float` and every `double` is a rational number, the cosine of a rational
number is not zero, and a library with a relative error below one never rounds it to zero.  So for every representable pitch, however
close to a right angle, the rates are computed and nothing is thrown. -/
theorem C89_gimbal_check_dead (A : FloatArith) (y : ℚ) (e : EulXyz) (he : e.y = y) (f : EulZyx) (hf : f.y = y) (w : LocalAV) :
    (∃ d, (correctlyRounded A).xyzDiffOfLocal e w = .ok d) ∧ (∃ M, (correctlyRounded A).xyzGlobalToDiff e = .ok M) ∧
    (∃ d, (correctlyRounded A).zyxDiffOfLocal f w = .ok d) ∧
    (∃ d, Kindr.xyzDiffOfLocal e w = .ok d) ∧ (∃ d, Kindr.zyxDiffOfLocal f w = .ok d) := by
  have h0 := cos_rat_ne_zero y
  have h1 : (correctlyRounded A).cos (y : ℝ) ≠ 0 := by
    intro h
    change A.fl (Real.cos y) = 0 at h
    have := A.err (Real.cos y)
    rw [h, zero_sub, abs_neg] at this
    have hu := A.u_le
    have : 0 < |Real.cos y| := abs_pos.mpr h0
    norm_num at hu
    nlinarith
  refine ⟨?_, ?_, ?_, ?_, ?_⟩
  · simp only [FloatLib.xyzDiffOfLocal, FloatLib.xyzLocalToDiff, he, ne_eq, h1, not_false_eq_true, if_true]; exact ⟨_, rfl⟩
  · simp only [FloatLib.xyzGlobalToDiff, he, ne_eq, h1, not_false_eq_true, if_true]; exact ⟨_, rfl⟩
  · simp only [FloatLib.zyxDiffOfLocal, FloatLib.zyxLocalToDiff, hf, ne_eq, h1, not_false_eq_true, if_true]; exact ⟨_, rfl⟩
  · simp only [Kindr.xyzDiffOfLocal, Kindr.xyzLocalToDiff, he, ne_eq, h0, not_false_eq_true, if_true]; exact ⟨_, rfl⟩
  · simp only [Kindr.zyxDiffOfLocal, Kindr.zyxLocalToDiff, hf, ne_eq, h0, not_false_eq_true, if_true]; exact ⟨_, rfl⟩

/-! ## The exact instance -/

lemma exact_mulVec (m : M3) (v : V3) : exact.mulVec m v = m.mulVec v := rfl
lemma exact_matMul' (a b : M3) : exact.matMul a b = a * b := rfl

/-- **C89 (k).** With exact arithmetic the rounded operations are the operations of the main model. -/
theorem C89_exact_operations (q : Quat) (d : QuatDiff) (m : M3) (n : MatDiff) (e : EulXyz) (f : EulZyx) (x : XyzDiff) (z : ZyxDiff) (w : LocalAV)
    (W : GlobalAV) (v : V3) :
    exact.localOfQuatDiff q d = Kindr.localOfQuatDiff q d ∧ exact.globalOfQuatDiff q d = Kindr.globalOfQuatDiff q d ∧
    exact.quatDiffOfLocal q w = Kindr.quatDiffOfLocal q w ∧ exact.quatDiffOfGlobal q W = Kindr.quatDiffOfGlobal q W ∧
    exact.localOfMatDiff m n = Kindr.localOfMatDiff m n ∧ exact.globalOfMatDiff m n = Kindr.globalOfMatDiff m n ∧
    exact.matDiffOfLocal m w = Kindr.matDiffOfLocal m w ∧ exact.matDiffOfGlobal m W = Kindr.matDiffOfGlobal m W ∧
    exact.localOfXyzDiff e x = Kindr.localOfXyzDiff e x ∧ exact.globalOfXyzDiff e x = Kindr.globalOfXyzDiff e x ∧
    exact.localOfZyxDiff f z = Kindr.localOfZyxDiff f z ∧ exact.xyzDiffOfLocal e w = Kindr.xyzDiffOfLocal e w ∧
    exact.zyxDiffOfLocal f w = Kindr.zyxDiffOfLocal f w ∧ exact.xyzGlobalToDiff e = Kindr.xyzGlobalToDiff e ∧
    exact.getJacobianOfExponentialMap v = Kindr.getJacobianOfExponentialMap v := by
  refine ⟨?_, ?_, ?_, ?_, rfl, rfl, rfl, rfl, rfl, rfl, rfl, rfl, rfl, rfl, ?_⟩
  · apply LocalAV.ext; rw [mulVec_local]
    ext <;> simp [FloatLib.localOfQuatDiff, twiceDot, exact_fl, getLocalQuaternionDiffMatrix, Quat.toV4] <;> ring
  · apply GlobalAV.ext; rw [mulVec_global]
    ext <;> simp [FloatLib.globalOfQuatDiff, twiceDot, exact_fl, getGlobalQuaternionDiffMatrix, Quat.toV4] <;> ring
  · apply QuatDiff.ext; rw [tMulVec_local]
    ext <;> simp [FloatLib.quatDiffOfLocal, halfTMulVec, halfDot, exact_fl, getLocalQuaternionDiffMatrix, Quaternion.ofVector4] <;> ring
  · apply QuatDiff.ext; rw [tMulVec_global]
    ext <;> simp [FloatLib.quatDiffOfGlobal, halfTMulVec, halfDot, exact_fl, getGlobalQuaternionDiffMatrix, Quaternion.ofVector4] <;> ring
  · simp only [FloatLib.getJacobianOfExponentialMap, Kindr.getJacobianOfExponentialMap, exact_norm3, exact_fl, exact_matMul', plusScaled, onePlus]
    split_ifs
    · ext <;> simp
    · ext <;> simp [exact]

open Filter

/-- non-vacuity of C89 (a), (b): a rotation about the x axis with unit rate, stored with an error of `1/1000` in the scalar part. -/
example (t : ℝ) : ∃ (q : ℝ → Quat) (d : Quat) (w W : V3) (q' : Quat), (∀ᶠ s in nhds t, Valid .quat (q s)) ∧ HasDerivQ q d t ∧
    IsLocalVelocity .quat q t w ∧ IsGlobalVelocity .quat q t W ∧ ‖toH q' - toH (q t)‖ ≤ 1 / 1000 ∧ q' ≠ q t ∧ w = ⟨1, 0, 0⟩ := by
  have hs := Real.sin_sq_add_cos_sq
  have hv : ∀ᶠ s in nhds t, Valid .quat (⟨Real.cos (s / 2), Real.sin (s / 2), 0, 0⟩ : Quat) :=
    Eventually.of_forall fun s => by simp only [Valid]; have := hs (s / 2); linarith
  have hd : HasDerivQ (fun s => ⟨Real.cos (s / 2), Real.sin (s / 2), 0, 0⟩) ⟨-Real.sin (t / 2) / 2, Real.cos (t / 2) / 2, 0, 0⟩ t := by
    refine ⟨?_, ?_, hasDerivAt_const _ _, hasDerivAt_const _ _⟩
    · exact ((Real.hasDerivAt_cos _).comp t ((hasDerivAt_id t).div_const 2)).congr_deriv (by simp; ring)
    · exact ((Real.hasDerivAt_sin _).comp t ((hasDerivAt_id t).div_const 2)).congr_deriv (by simp; ring)
  obtain ⟨h1, h2, -⟩ := C29_quaternion_curve _ ⟨⟨-Real.sin (t / 2) / 2, Real.cos (t / 2) / 2, 0, 0⟩⟩ t hv hd
  refine ⟨_, _, _, _, ⟨Real.cos (t / 2) + 1 / 1000, Real.sin (t / 2), 0, 0⟩, hv, hd, h1, h2, ?_, ?_, ?_⟩
  · have e : toH ⟨Real.cos (t / 2) + 1 / 1000, Real.sin (t / 2), 0, 0⟩ - toH ⟨Real.cos (t / 2), Real.sin (t / 2), 0, 0⟩ =
        toH ⟨1 / 1000, 0, 0, 0⟩ := by ext <;> simp
    rw [e, norm_toH]
    simp [Quat.norm, Quat.normSq]
  · intro h
    have := congrArg Quat.w h
    simp at this
  · rw [mulVec_local]
    ext <;> dsimp only
    · linear_combination hs (t / 2)
    · ring
    · ring

/-- non-vacuity of C89 (c), (d): a rotation about the z axis with rate 3, stored with an error in one entry. -/
example (t : ℝ) : ∃ (m : ℝ → M3) (d : M3) (w W : V3) (m' : M3), (∀ᶠ s in nhds t, Valid .mat (m s)) ∧ HasDerivM m d t ∧
    IsLocalVelocity .mat m t w ∧ IsGlobalVelocity .mat m t W ∧ EntryClose (1 / 1000) m' (m t) ∧ m' ≠ m t := by
  have h3 : HasDerivAt (fun s : ℝ => 3 * s) 3 t := by simpa using (hasDerivAt_id t).const_mul 3
  have hc := h3.cos
  have hs := h3.sin
  have hv : ∀ᶠ s in nhds t, Valid .mat (rZ (3 * s)) := Eventually.of_forall fun s => rZ_isSO3 _
  have hd : HasDerivM (fun s => rZ (3 * s)) ⟨-3 * Real.sin (3 * t), -3 * Real.cos (3 * t), 0,
      3 * Real.cos (3 * t), -3 * Real.sin (3 * t), 0, 0, 0, 0⟩ t := by
    refine ⟨⟨?_, ?_, hasDerivAt_const _ _⟩, ⟨?_, ?_, hasDerivAt_const _ _⟩, hasDerivAt_const _ _, hasDerivAt_const _ _, hasDerivAt_const _ _⟩
    · exact hc.congr_deriv (by ring)
    · exact hs.neg.congr_deriv (by ring)
    · exact hs.congr_deriv (by ring)
    · exact hc.congr_deriv (by ring)
  obtain ⟨h1, h2, -⟩ := C30_matrix_curve _ ⟨⟨-3 * Real.sin (3 * t), -3 * Real.cos (3 * t), 0,
      3 * Real.cos (3 * t), -3 * Real.sin (3 * t), 0, 0, 0, 0⟩⟩ t hv hd
  refine ⟨_, _, _, _, { rZ (3 * t) with m22 := (rZ (3 * t)).m22 + 1 / 1000 }, hv, hd, h1, h2, ?_, ?_⟩
  · simp only [EntryClose, sub_self, abs_zero]
    norm_num [abs_of_pos]
  · intro h
    have := congrArg M3.m22 h
    norm_num at this

/-- non-vacuity of C89 (e)-(h): Euler angles moving with rates `(1, 1/2, 2)`, stored with an error of `1e-6` radians, away from gimbal
lock. -/
example (F : FloatLib) : (∃ (e : ℝ → EulXyz) (w W : V3) (e' : EulXyz), HasDerivV (fun s => (e s).v) ⟨1, 1 / 2, 2⟩ 0 ∧ IsLocalVelocity .xyz e 0 w ∧
      IsGlobalVelocity .xyz e 0 W ∧ (|e'.x - (e 0).x| ≤ 1 / 1000000 ∧ |e'.y - (e 0).y| ≤ 1 / 1000000 ∧ |e'.z - (e 0).z| ≤ 1 / 1000000) ∧ e' ≠ e 0 ∧
      1000 * (3 * F.u + 1 / 1000000) ≤ |Real.cos (e 0).y| ∧ Real.cos (e 0).y ≠ 0) ∧
    (∃ (e : ℝ → EulZyx) (w : V3) (e' : EulZyx), HasDerivV (fun s => (e s).v) ⟨1, 1 / 2, 2⟩ 0 ∧ IsLocalVelocity .zyx e 0 w ∧
      (|e'.x - (e 0).x| ≤ 1 / 1000000 ∧ |e'.y - (e 0).y| ≤ 1 / 1000000 ∧ |e'.z - (e 0).z| ≤ 1 / 1000000) ∧ e' ≠ e 0 ∧
      1000 * (3 * F.u + 1 / 1000000) ≤ |Real.cos (e 0).y| ∧ Real.cos (e 0).y ≠ 0) := by
  have hs := F.u_small
  have l : ∀ c : ℝ, HasDerivAt (fun s : ℝ => c * s) c 0 := fun c => by simpa using (hasDerivAt_id (0 : ℝ)).const_mul c
  have hd : HasDerivV (fun s => (⟨1 * s, 1 / 2 * s, 2 * s⟩ : V3)) ⟨1, 1 / 2, 2⟩ 0 := ⟨l 1, l (1 / 2), l 2⟩
  constructor
  · obtain ⟨h1, h2⟩ := C31_xyz_rates (fun s => ⟨⟨1 * s, 1 / 2 * s, 2 * s⟩⟩) ⟨⟨1, 1 / 2, 2⟩⟩ 0 hd
    refine ⟨_, _, _, ⟨⟨1 / 1000000, 0, 0⟩⟩, hd, h1, h2, ?_, ?_, ?_, ?_⟩
    · norm_num [EulXyz.x, EulXyz.y, EulXyz.z]
    · intro h
      have := congrArg (fun e => e.v.x) h
      norm_num at this
    · norm_num [EulXyz.y]; linarith
    · norm_num [EulXyz.y]
  · have h1 := C32_zyx_rates (fun s => ⟨⟨1 * s, 1 / 2 * s, 2 * s⟩⟩) ⟨⟨1, 1 / 2, 2⟩⟩ 0 hd
    refine ⟨_, _, ⟨⟨1 / 1000000, 0, 0⟩⟩, hd, h1, ?_, ?_, ?_, ?_⟩
    · norm_num [EulZyx.x, EulZyx.y, EulZyx.z]
    · intro h
      have := congrArg (fun e => e.v.x) h
      norm_num at this
    · norm_num [EulZyx.y]; linarith
    · norm_num [EulZyx.y]

/-- non-vacuity of C89 (i): every valid quaternion, matrix or pair of Euler angles of at most a turn is stored well enough. -/
example (F : FloatLib) (P : Prec) (k : Kind) (hk : k ≠ .rv) (r : Rep k) (h : Valid k r) (hS : angleSize k r ≤ 7) :
    Rounded 0 0 k r (den k r) ∧ quatErr P F.u 0 (angleSize k r) k ≤ 64 * F.u ∧ 64 * F.u ≤ 1 / 100000 := by
  have hu := F.u_nonneg
  have hs := F.u_small
  refine ⟨rounded_of_valid h, ?_, by linarith⟩
  have := mul_le_mul_of_nonneg_right hS hu
  cases k <;> simp only [quatErr] <;> first | linarith | exact absurd rfl hk

end FloatLib
end Kindr
