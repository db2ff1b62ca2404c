import Verif.Model.Cast
import Verif.Props.Float
import Verif.Props.Uniform
import Verif.Props.AngleAxisEq
import Verif.Props.Binary
import Verif.Spec.Cast
import Verif.Spec.Pose
import Verif.Lemmas.Stable

/-!
# C81: converting rotations between scalar types
-/

set_option autoImplicit false

open Classical

noncomputable section
namespace Kindr
open Spec

/-! ## Componentwise rounding -/

lemma V3.norm_abs (v : V3) : (⟨|v.x|, |v.y|, |v.z|⟩ : V3).norm = v.norm := by
  simp [V3.norm, V3.normSq, V3.dot]

lemma castV3_err (F : FloatArith) (v : V3) : (castV3 F.fl v - v).norm ≤ F.u * v.norm := by
  have := V3.norm_le_of_abs (v := castV3 F.fl v - v) (b := F.u • (⟨|v.x|, |v.y|, |v.z|⟩ : V3))
    (by simpa [castV3] using F.err v.x) (by simpa [castV3] using F.err v.y) (by simpa [castV3] using F.err v.z)
  rwa [V3.norm_smul_nonneg F.u_nonneg, V3.norm_abs] at this

lemma castQuat_err (F : FloatArith) {q : Quat} (hq : q.normSq = 1) : ‖toH (castQuat F.fl q) - toH q‖ ≤ F.u := by
  have hu := F.u_nonneg
  have h : ‖toH (castQuat F.fl q) - toH q‖ ^ 2 ≤ F.u ^ 2 := by
    rw [sq ‖_‖, ← Quaternion.normSq_eq_norm_mul_self, Quaternion.normSq_def']
    have s : ∀ x : ℝ, (F.fl x - x) ^ 2 ≤ F.u ^ 2 * x ^ 2 := fun x => by
      have := F.err x
      rw [← sq_abs (F.fl x - x), ← sq_abs x, ← mul_pow]
      exact pow_le_pow_left₀ (abs_nonneg _) this 2
    have e : F.u ^ 2 = F.u ^ 2 * q.w ^ 2 + F.u ^ 2 * q.x ^ 2 + F.u ^ 2 * q.y ^ 2 + F.u ^ 2 * q.z ^ 2 := by
      have : q.w ^ 2 + q.x ^ 2 + q.y ^ 2 + q.z ^ 2 = 1 := by rw [← hq, Quat.normSq]; ring
      rw [← mul_add, ← mul_add, ← mul_add, this, mul_one]
    rw [e]
    have := s q.w; have := s q.x; have := s q.y; have := s q.z
    change (F.fl q.w - q.w) ^ 2 + (F.fl q.x - q.x) ^ 2 + (F.fl q.y - q.y) ^ 2 + (F.fl q.z - q.z) ^ 2 ≤ _
    linarith
  exact abs_le_of_sq_le_sq' h hu |>.2

lemma cast_u_small (F : FloatArith) : F.u ≤ 1 / 10000000 := F.u_le.trans (by norm_num)

lemma castQuat_near (F : FloatArith) {q : Quat} (hq : q.normSq = 1) : NearQ F.u (4 * F.u) (castQuat F.fl q) (sMat q) :=
  nearQ_of_dist hq (castQuat_err F hq) (by linarith [cast_u_small F])

/-- Rodrigues' formula with an axis that is only approximately of unit length. -/
lemma rodrigues_lipschitz' {θ θ' : ℝ} {n n' : V3} (hn : n.normSq = 1) (hn' : n'.norm ≤ 2) (v : V3) :
    (rodrigues θ n v - rodrigues θ' n' v).norm ≤ (3 * |θ - θ'| + 7 * (n - n').norm) * v.norm := by
  have e : rodrigues θ n v - rodrigues θ' n' v =
      (((Real.cos θ - Real.cos θ') • v + (Real.sin θ - Real.sin θ') • n.cross v) +
        Real.sin θ' • (n - n').cross v) + (((Real.cos θ' - Real.cos θ) * n.dot v) • n +
        (((1 - Real.cos θ') * n.dot v) • (n - n') + ((1 - Real.cos θ') * (n - n').dot v) • n')) := by
    ext <;> simp [rodrigues, V3.cross, V3.dot] <;> ring
  have h1 := V3.norm_eq_one_iff.mpr hn
  have hs := abs_sin_sub_le θ θ'
  have hc := abs_cos_sub_le θ θ'
  have hv := v.norm_nonneg
  have hd := (n - n').norm_nonneg
  have b1 : ((Real.cos θ - Real.cos θ') • v).norm ≤ |θ - θ'| * v.norm := by
    rw [V3.norm_smul]; exact mul_le_mul_of_nonneg_right hc hv
  have b2 : ((Real.sin θ - Real.sin θ') • n.cross v).norm ≤ |θ - θ'| * v.norm := by
    rw [V3.norm_smul]
    have := V3.norm_cross_le n v
    rw [h1, one_mul] at this
    exact mul_le_mul hs this (V3.norm_nonneg _) (abs_nonneg _)
  have b3 : (Real.sin θ' • (n - n').cross v).norm ≤ (n - n').norm * v.norm := by
    rw [V3.norm_smul]
    have := V3.norm_cross_le (n - n') v
    calc _ ≤ 1 * ((n - n').norm * v.norm) :=
          mul_le_mul (Real.abs_sin_le_one _) this (V3.norm_nonneg _) zero_le_one
      _ = _ := one_mul _
  have hdot : |n.dot v| ≤ v.norm := by have := V3.dot_abs_le n v; rwa [h1, one_mul] at this
  have hdot' : |(n - n').dot v| ≤ (n - n').norm * v.norm := V3.dot_abs_le _ _
  have hcos : |1 - Real.cos θ'| ≤ 2 := by
    rw [abs_le]; constructor <;> linarith [Real.neg_one_le_cos θ', Real.cos_le_one θ']
  have b4 : (((Real.cos θ' - Real.cos θ) * n.dot v) • n).norm ≤ |θ - θ'| * v.norm := by
    rw [V3.norm_smul, h1, mul_one, abs_mul, abs_sub_comm]
    exact mul_le_mul hc hdot (abs_nonneg _) (abs_nonneg _)
  have b5 : (((1 - Real.cos θ') * n.dot v) • (n - n')).norm ≤ 2 * v.norm * (n - n').norm := by
    rw [V3.norm_smul, abs_mul]
    exact mul_le_mul_of_nonneg_right (mul_le_mul hcos hdot (abs_nonneg _) (by norm_num)) hd
  have b6 : (((1 - Real.cos θ') * (n - n').dot v) • n').norm ≤ 2 * ((n - n').norm * v.norm) * 2 := by
    rw [V3.norm_smul, abs_mul]
    exact mul_le_mul (mul_le_mul hcos hdot' (abs_nonneg _) (by norm_num)) hn' (V3.norm_nonneg _) (by positivity)
  rw [e]
  refine (V3.norm_add_le _ _).trans ?_
  have t1 := V3.norm_add_le ((Real.cos θ - Real.cos θ') • v + (Real.sin θ - Real.sin θ') • n.cross v)
    (Real.sin θ' • (n - n').cross v)
  have t2 := V3.norm_add_le ((Real.cos θ - Real.cos θ') • v) ((Real.sin θ - Real.sin θ') • n.cross v)
  have t3 := V3.norm_add_le (((Real.cos θ' - Real.cos θ) * n.dot v) • n)
    (((1 - Real.cos θ') * n.dot v) • (n - n') + ((1 - Real.cos θ') * (n - n').dot v) • n')
  have t4 := V3.norm_add_le (((1 - Real.cos θ') * n.dot v) • (n - n')) (((1 - Real.cos θ') * (n - n').dot v) • n')
  linarith

lemma rXYZ_isSO3 (a : ℝ) : IsSO3 (rX a) ∧ IsSO3 (rY a) ∧ IsSO3 (rZ a) := by
  have h : ∀ (x y z : ℝ), IsSO3 (rX x * rY y * rZ z) := fun x y z =>
    dmat_isSO3 .xyz (⟨⟨x, y, z⟩⟩ : EulXyz) trivial
  have z0 : rX 0 = 1 ∧ rY 0 = 1 ∧ rZ 0 = 1 := by
    refine ⟨?_, ?_, ?_⟩ <;> ext <;> simp [rX, rY, rZ]
  refine ⟨?_, ?_, ?_⟩
  · have := h a 0 0; rwa [z0.2.1, z0.2.2, mul_one, mul_one] at this
  · have := h 0 a 0; rwa [z0.1, z0.2.2, one_mul, mul_one] at this
  · have := h 0 0 a; rwa [z0.1, z0.2.1, one_mul, one_mul] at this

lemma rXYZ_close (a b : ℝ) : Close |a - b| (rX a) (rX b) ∧ Close |a - b| (rY a) (rY b) ∧ Close |a - b| (rZ a) (rZ b) := by
  obtain ⟨a1, a2, a3⟩ := rXYZ_isSO3 a
  obtain ⟨b1, b2, b3⟩ := rXYZ_isSO3 b
  refine ⟨close_of_rotAngle a1 b1 (rotAngle_of_trace ?_), close_of_rotAngle a2 b2 (rotAngle_of_trace ?_),
    close_of_rotAngle a3 b3 (rotAngle_of_trace ?_)⟩ <;>
  · rw [Real.cos_sub]; simp [rX, rY, rZ, M3.trace, M3.transpose]; ring

lemma so3_entry_le {m : M3} (h : IsSO3 m) : EntryClose 1 m ⟨0, 0, 0, 0, 0, 0, 0, 0, 0⟩ := by
  have R := SO3.rel h
  have c : ∀ {a r : ℝ}, a ^ 2 + r = 1 → 0 ≤ r → |a - 0| ≤ 1 := fun {a r} h1 h2 => by
    rw [sub_zero]; exact abs_le_of_sq_le_sq (by linarith) zero_le_one
  have r0 := R.r00; have r1 := R.r11; have r2 := R.r22
  refine ⟨c (r := m.m01 ^ 2 + m.m02 ^ 2) ?_ ?_, c (r := m.m00 ^ 2 + m.m02 ^ 2) ?_ ?_, c (r := m.m00 ^ 2 + m.m01 ^ 2) ?_ ?_,
    c (r := m.m11 ^ 2 + m.m12 ^ 2) ?_ ?_, c (r := m.m10 ^ 2 + m.m12 ^ 2) ?_ ?_, c (r := m.m10 ^ 2 + m.m11 ^ 2) ?_ ?_,
    c (r := m.m21 ^ 2 + m.m22 ^ 2) ?_ ?_, c (r := m.m20 ^ 2 + m.m22 ^ 2) ?_ ?_, c (r := m.m20 ^ 2 + m.m21 ^ 2) ?_ ?_⟩ <;>
    first | positivity | linarith

lemma castM3_entry (F : FloatArith) {m : M3} (h : IsSO3 m) : EntryClose F.u (castM3 F.fl m) m := by
  have hu := F.u_nonneg
  have c : ∀ {a : ℝ}, |a - 0| ≤ 1 → |F.fl a - a| ≤ F.u := fun {a} ha => by
    rw [sub_zero] at ha
    exact (F.err a).trans (mul_le_of_le_one_right hu ha)
  obtain ⟨h1, h2, h3, h4, h5, h6, h7, h8, h9⟩ := so3_entry_le h
  exact ⟨c h1, c h2, c h3, c h4, c h5, c h6, c h7, c h8, c h9⟩

lemma Spec.EntryClose.close {d : ℝ} {A R : M3} (h : EntryClose d A R) : Close (3 * d) A R := fun v => by
  obtain ⟨h1, h2, h3, h4, h5, h6, h7, h8, h9⟩ := h
  have hd0 : 0 ≤ d := (abs_nonneg _).trans h1
  have r : ∀ {a b c : ℝ}, |a| ≤ d → |b| ≤ d → |c| ≤ d → |a * v.x + b * v.y + c * v.z| ≤ d * (|v.x| + |v.y| + |v.z|) :=
    fun {a b c} ha hb hc => by
      refine (abs_add_le _ _).trans ?_
      have h1 := abs_add_le (a * v.x) (b * v.y)
      rw [abs_mul, abs_mul] at h1
      rw [abs_mul]
      have := mul_le_mul_of_nonneg_right ha (abs_nonneg v.x)
      have := mul_le_mul_of_nonneg_right hb (abs_nonneg v.y)
      have := mul_le_mul_of_nonneg_right hc (abs_nonneg v.z)
      linarith
  have k := V3.norm_le_of_abs (v := A.mulVec v - R.mulVec v)
    (b := (d * (|v.x| + |v.y| + |v.z|)) • (⟨1, 1, 1⟩ : V3))
    (by have := r h1 h2 h3; simp only [V3.smul_x, mul_one]; convert this using 2; simp; ring)
    (by have := r h4 h5 h6; simp only [V3.smul_y, mul_one]; convert this using 2; simp; ring)
    (by have := r h7 h8 h9; simp only [V3.smul_z, mul_one]; convert this using 2; simp; ring)
  rw [V3.norm_smul_nonneg (by positivity)] at k
  refine k.trans ?_
  have hs : (|v.x| + |v.y| + |v.z|) * (⟨1, 1, 1⟩ : V3).norm ≤ 3 * v.norm := by
    apply le_of_sq_le_sq _ (by have := v.norm_nonneg; linarith)
    rw [mul_pow, mul_pow, V3.norm_sq, V3.norm_sq]
    simp only [V3.normSq, V3.dot]
    rw [← abs_mul_abs_self v.x, ← abs_mul_abs_self v.y, ← abs_mul_abs_self v.z]
    nlinarith [sq_nonneg (|v.x| - |v.y|), sq_nonneg (|v.x| - |v.z|), sq_nonneg (|v.y| - |v.z|)]
  calc _ = d * ((|v.x| + |v.y| + |v.z|) * (⟨1, 1, 1⟩ : V3).norm) := by ring
    _ ≤ d * (3 * v.norm) := mul_le_mul_of_nonneg_left hs hd0
    _ = _ := by ring

/-! ## The same class in another scalar type -/

lemma castAxis_norm (F : FloatArith) {n : V3} (hn : n.normSq = 1) :
    (castV3 F.fl n - n).norm ≤ F.u ∧ |(castV3 F.fl n).norm - 1| ≤ F.u := by
  have h1 := V3.norm_eq_one_iff.mpr hn
  have h := castV3_err F n
  rw [h1, mul_one] at h
  refine ⟨h, ?_⟩
  have a := V3.norm_add_le (castV3 F.fl n - n) n
  have b := V3.norm_add_le (n - castV3 F.fl n) (castV3 F.fl n)
  rw [sub_add_cancel, h1] at a b
  rw [V3.norm_sub_comm] at b
  rw [abs_le]; constructor <;> linarith

/-- A perturbed rotation vector. -/
lemma rv_perturb {v v' : V3} {u : ℝ} (h : (v' - v).norm ≤ u * v.norm) (hu0 : 0 ≤ u) (hu : u ≤ 1 / 2) :
    Close ((3 * v.norm + 10) * u) (dmat .rv (⟨v'⟩ : RotVec)) (dmat .rv (⟨v⟩ : RotVec)) := by
  by_cases hv : v = 0
  · subst hv
    rw [V3.norm_zero, mul_zero, sub_zero] at h
    have : v' = 0 := V3.norm_eq_zero.mp (le_antisymm h (V3.norm_nonneg _))
    subst this
    refine (Close.refl _).mono ?_
    rw [V3.norm_zero]; linarith
  · have hp := V3.norm_pos hv
    have a := V3.norm_add_le (v' - v) v
    have b := V3.norm_add_le (v - v') v'
    rw [sub_add_cancel] at a b
    rw [V3.norm_sub_comm] at b
    set t := v.norm with ht
    set t' := v'.norm with ht'
    have hp' : 0 < t' := by
      have := mul_le_mul_of_nonneg_right hu hp.le
      linarith
    have hv' : v' ≠ 0 := fun e => by rw [ht', e, V3.norm_zero] at hp'; exact lt_irrefl _ hp'
    have hd : |t' - t| ≤ u * t := by rw [abs_le]; constructor <;> linarith
    intro w
    rw [dmat_rv_ne hv, dmat_rv_ne hv', ← rodrigues_eq, ← rodrigues_eq, ← ht, ← ht']
    refine (rodrigues_lipschitz (unit_dir hp'.ne') (unit_dir hp.ne') w).trans ?_
    apply mul_le_mul_of_nonneg_right _ w.norm_nonneg
    have hn : ((1 / t') • v' - (1 / t) • v).norm ≤ 2 * u := by
      have e : (1 / t') • v' - (1 / t) • v = (1 / t) • (v' - v) + ((t - t') / (t * t')) • v' := by
        ext <;> simp <;> field_simp <;> ring
      rw [e]
      refine (V3.norm_add_le _ _).trans ?_
      rw [V3.norm_smul, V3.norm_smul, ← ht', abs_of_pos (by positivity), abs_div, abs_mul, abs_of_pos hp, abs_of_pos hp']
      have e1 : 1 / t * (v' - v).norm ≤ u := by
        rw [div_mul_eq_mul_div, one_mul, div_le_iff₀ hp]; exact h
      have e2 : |t - t'| / (t * t') * t' ≤ u := by
        rw [abs_sub_comm, div_mul_eq_mul_div, div_le_iff₀ (by positivity)]
        calc |t' - t| * t' ≤ u * t * t' := mul_le_mul_of_nonneg_right hd hp'.le
          _ = _ := by ring
      linarith
    linarith

lemma xyz_perturb (a b c a' b' c' : ℝ) :
    Close (|a' - a| + |b' - b| + |c' - c|) (rX a' * rY b' * rZ c') (rX a * rY b * rZ c) := by
  have h1 := (rXYZ_close a' a).1
  have h2 := (rXYZ_close b' b).2.1
  have h3 := (rXYZ_close c' c).2.2
  exact (h1.mul h2 (rY_isSO3 _) (rX_isSO3 _)).mul h3 (rZ_isSO3 _) (SO3.mul (rX_isSO3 _) (rY_isSO3 _))

lemma zyx_perturb (a b c a' b' c' : ℝ) :
    Close (|a' - a| + |b' - b| + |c' - c|) (rZ a' * rY b' * rX c') (rZ a * rY b * rX c) := by
  have h1 := (rXYZ_close a' a).2.2
  have h2 := (rXYZ_close b' b).2.1
  have h3 := (rXYZ_close c' c).1
  exact (h1.mul h2 (rY_isSO3 _) (rZ_isSO3 _)).mul h3 (rX_isSO3 _) (SO3.mul (rZ_isSO3 _) (rY_isSO3 _))

lemma aa_perturb (F : FloatArith) {a : AngAx} (hn : a.axis.normSq = 1) :
    Close ((3 * |a.angle| + 7) * F.u) (dmat .aa (castRep F.fl .aa a)) (dmat .aa a) := fun v => by
  have hu := F.u_nonneg
  obtain ⟨h1, h2⟩ := castAxis_norm F hn
  have hu1 := cast_u_small F
  have k := rodrigues_lipschitz' (θ := a.angle) (θ' := F.fl a.angle) hn (n' := castV3 F.fl a.axis)
    (by have := (abs_le.mp h2).2; linarith) v
  change ((rodMat (F.fl a.angle) (castV3 F.fl a.axis)).mulVec v - (rodMat a.angle a.axis).mulVec v).norm ≤ _
  rw [← rodrigues_eq, ← rodrigues_eq, V3.norm_sub_comm]
  refine k.trans (mul_le_mul_of_nonneg_right ?_ v.norm_nonneg)
  have := F.err a.angle
  rw [V3.norm_sub_comm, abs_sub_comm]
  linarith

/-- Converting the stored numbers moves the rotation by at most `castBound` rounding errors. -/
lemma castRep_close (F : FloatArith) {k : Kind} {r : Rep k} (h : Valid k r) :
    Close (castBound k r * F.u) (dmat k (castRep F.fl k r)) (dmat k r) := by
  have hu := F.u_nonneg
  have hu1 := cast_u_small F
  cases k
  · intro v
    have hq := (valid_quat_iff _).mp h
    have e := castQuat_err F hq
    rw [← act_eq_dmat, ← act_eq_dmat]
    refine (sandwich_lipschitz _ _ v).trans (mul_le_mul_of_nonneg_right ?_ v.norm_nonneg)
    have hn : (castQuat F.fl r).norm ≤ 1 + F.u := by
      have := abs_norm_sub_norm_le (toH (castQuat F.fl r)) (toH r)
      rw [norm_toH, norm_toH, unit_norm hq] at this
      have := (abs_le.mp (this.trans e)).2
      linarith
    change ((castQuat F.fl r).norm + Quat.norm r) * ‖toH (castQuat F.fl r) - toH r‖ ≤ 3 * F.u
    have hr : Quat.norm r = 1 := unit_norm hq
    rw [hr]
    exact mul_le_mul (by linarith) e (norm_nonneg _) (by norm_num)
  · exact (castM3_entry F h).close
  · exact aa_perturb F ((valid_aa_iff _).mp h)
  · exact rv_perturb (castV3_err F _) hu (by linarith)
  · refine (xyz_perturb _ _ _ _ _ _).mono ?_
    have := F.err (EulXyz.x r); have := F.err (EulXyz.y r); have := F.err (EulXyz.z r)
    change |F.fl (EulXyz.x r) - EulXyz.x r| + |F.fl (EulXyz.y r) - EulXyz.y r| + |F.fl (EulXyz.z r) - EulXyz.z r| ≤
      (|EulXyz.x r| + |EulXyz.y r| + |EulXyz.z r|) * F.u
    linarith
  · refine (zyx_perturb _ _ _ _ _ _).mono ?_
    have := F.err (EulZyx.x r); have := F.err (EulZyx.y r); have := F.err (EulZyx.z r)
    change |F.fl (EulZyx.z r) - EulZyx.z r| + |F.fl (EulZyx.y r) - EulZyx.y r| + |F.fl (EulZyx.x r) - EulZyx.x r| ≤
      (|EulZyx.x r| + |EulZyx.y r| + |EulZyx.z r|) * F.u
    linarith

/-- **C81 (a).** Converting a rotation to the same class with another scalar type moves the rotated vector by at most
`castBound` rounding errors: three for quaternions and matrices, a number that grows with the angle for the other classes. -/
theorem C81_cast_action (F : FloatArith) {k : Kind} {r : Rep k} (h : Valid k r) (v : V3) :
    (act k (castRep F.fl k r) v - act k r v).norm ≤ castBound k r * F.u * v.norm := by
  rw [act_eq_dmat, act_eq_dmat]; exact castRep_close F h v

/-! ## The checks of the destination constructor -/

lemma row_cast_err (F : FloatArith) {v : V3} (h : v.normSq = 1) : (castV3 F.fl v - v).norm ≤ F.u :=
  (castAxis_norm F h).1

/-- Relative bounds after `k` roundings. -/
def RelB (u : ℝ) (k : ℕ) (x X : ℝ) : Prop := (1 - u) ^ k * x ≤ X ∧ X ≤ (1 + u) ^ k * x

lemma RelB.round (F : FloatArith) {k : ℕ} {x X : ℝ} (hx : 0 ≤ x) (h : RelB F.u k x X) : RelB F.u (k + 1) x (F.fl X) := by
  have hu := F.u_nonneg
  have hu1 := cast_u_small F
  have hX : 0 ≤ X := le_trans (mul_nonneg (pow_nonneg (by linarith) _) hx) h.1
  have := abs_le.mp (F.err X)
  rw [abs_of_nonneg hX] at this
  constructor
  · calc (1 - F.u) ^ (k + 1) * x = (1 - F.u) * ((1 - F.u) ^ k * x) := by ring
      _ ≤ (1 - F.u) * X := mul_le_mul_of_nonneg_left h.1 (by linarith)
      _ ≤ _ := by linarith
  · calc F.fl X ≤ (1 + F.u) * X := by linarith
      _ ≤ (1 + F.u) * ((1 + F.u) ^ k * x) := mul_le_mul_of_nonneg_left h.2 (by linarith)
      _ = _ := by ring

lemma RelB.lift {u : ℝ} (hu : 0 ≤ u) (hu1 : u ≤ 1) {k l : ℕ} (hkl : k ≤ l) {x X : ℝ} (hx : 0 ≤ x) (h : RelB u k x X) :
    RelB u l x X :=
  ⟨(mul_le_mul_of_nonneg_right (pow_le_pow_of_le_one (by linarith) (by linarith) hkl) hx).trans h.1,
    h.2.trans (mul_le_mul_of_nonneg_right (pow_le_pow_right₀ (by linarith) hkl) hx)⟩

lemma RelB.add {u : ℝ} {k : ℕ} {x X y Y : ℝ} (h : RelB u k x X) (h' : RelB u k y Y) : RelB u k (x + y) (X + Y) :=
  ⟨by rw [mul_add]; linarith [h.1, h'.1], by rw [mul_add]; linarith [h.2, h'.2]⟩

/-- A rounded root of a number known to four roundings. -/
lemma root_check (F : FloatArith) {N S : ℝ} (hN : |N - 1| ≤ F.u) (hS : RelB F.u 4 (N ^ 2) S) :
    |F.fl (Real.sqrt S) - 1| ≤ 5 * F.u := by
  have hu := F.u_nonneg
  have hu1 := cast_u_small F
  obtain ⟨k1, k2⟩ := abs_le.mp hN
  have hN0 : 0 ≤ N := by linarith
  have c1 : (1 - F.u) ^ 2 * N ≤ Real.sqrt S := by
    apply Real.le_sqrt_of_sq_le
    calc ((1 - F.u) ^ 2 * N) ^ 2 = (1 - F.u) ^ 4 * N ^ 2 := by ring
      _ ≤ S := hS.1
  have c2 : Real.sqrt S ≤ (1 + F.u) ^ 2 * N := by
    apply Real.sqrt_le_iff.mpr ⟨by positivity, ?_⟩
    calc S ≤ (1 + F.u) ^ 4 * N ^ 2 := hS.2
      _ = ((1 + F.u) ^ 2 * N) ^ 2 := by ring
  obtain ⟨b1, b2⟩ := RelB.round F hN0 (k := 2) ⟨c1, c2⟩
  have l1 : (1 - F.u) ^ 4 ≤ (1 - F.u) ^ (2 + 1) * N := by
    calc (1 - F.u) ^ 4 = (1 - F.u) ^ (2 + 1) * (1 - F.u) := by ring
      _ ≤ _ := mul_le_mul_of_nonneg_left (by linarith) (pow_nonneg (by linarith) _)
  have l2 : (1 + F.u) ^ (2 + 1) * N ≤ (1 + F.u) ^ 4 := by
    calc (1 + F.u) ^ (2 + 1) * N ≤ (1 + F.u) ^ (2 + 1) * (1 + F.u) :=
          mul_le_mul_of_nonneg_left (by linarith) (by positivity)
      _ = _ := by ring
  have hsq : F.u ^ 2 ≤ 1 / 10000000 * F.u := by rw [sq]; exact mul_le_mul_of_nonneg_right hu1 hu
  have l3 : 1 - 5 * F.u ≤ (1 - F.u) ^ 4 := by
    have : (1 - F.u) ^ 4 = 1 - 4 * F.u + F.u ^ 2 * (6 - 4 * F.u + F.u ^ 2) := by ring
    have : 0 ≤ F.u ^ 2 * (6 - 4 * F.u + F.u ^ 2) := mul_nonneg (sq_nonneg _) (by nlinarith [sq_nonneg F.u])
    linarith
  have l4 : (1 + F.u) ^ 4 ≤ 1 + 5 * F.u := by
    have e : (1 + F.u) ^ 4 = 1 + 4 * F.u + F.u ^ 2 * (6 + 4 * F.u + F.u ^ 2) := by ring
    have : F.u ^ 2 * (6 + 4 * F.u + F.u ^ 2) ≤ 1 / 10000000 * F.u * 11 :=
      mul_le_mul hsq (by linarith) (by positivity) (by positivity)
    linarith
  rw [abs_le]; constructor <;> linarith

lemma vecNorm_check (F : FloatArith) {v : V3} (hv : |v.norm - 1| ≤ F.u) : |F.vecNorm v - 1| ≤ 5 * F.u := by
  have hu := F.u_nonneg
  have hu1 := cast_u_small F
  have n := mul_self_nonneg (R := ℝ)
  have sq1 : ∀ x : ℝ, RelB F.u 1 (x * x) (F.fl (x * x)) := fun x => RelB.round F (n x) ⟨by simp, by simp⟩
  have a1 := RelB.round F (add_nonneg (n v.x) (n v.y)) ((sq1 v.x).add (sq1 v.y))
  have a2 := RelB.round F (add_nonneg (add_nonneg (n v.x) (n v.y)) (n v.z))
    (a1.add ((sq1 v.z).lift hu (by linarith) (by norm_num : 1 ≤ 2) (n _)))
  exact root_check F (N := v.norm) hv (by rw [V3.norm_sq]; exact a2.lift hu (by linarith) (by norm_num) (V3.normSq_nonneg v))

/-- **C81 (b).** In debug builds the destination constructor accepts every converted rotation: the stored quaternion, axis or
matrix passes the check. -/
theorem C81_accepted (F : FloatArith) :
    (∀ q : Quat, Valid .quat q → quatCtorDbg (castQuat F.fl q) = .ok (castQuat F.fl q)) ∧
    (∀ a : AngAx, Valid .aa a → aaCtorDbg (castRep F.fl .aa a) = .ok (castRep F.fl .aa a)) ∧
    (∀ m : M3, Valid .mat m → matCtorDbg (castM3 F.fl m) = .ok (castM3 F.fl m)) := by
  have hu := F.u_nonneg
  have hu1 := cast_u_small F
  refine ⟨fun q h => ?_, fun a h => ?_, fun m h => ?_⟩
  · have hq := (valid_quat_iff _).mp h
    have e := castQuat_err F hq
    rw [(C26_quaternion_ctor _).1]
    have := abs_norm_sub_norm_le (toH (castQuat F.fl q)) (toH q)
    rw [norm_toH, norm_toH, unit_norm hq] at this
    refine (this.trans e).trans ?_
    have := le_max_right (castQuat F.fl q).norm 1
    linarith
  · have h2 := (castAxis_norm F ((valid_aa_iff _).mp h)).2
    rw [(C26_angle_axis_ctor _).1]
    change |(castV3 F.fl a.axis).norm - 1| ≤ 1 / 10 ^ 6 * max (castV3 F.fl a.axis).norm 1
    have := le_max_right (castV3 F.fl a.axis).norm 1
    refine h2.trans ?_
    linarith
  · have R := SO3.rel h
    refine matCtorDbg_of_rows (R := m) h (d := F.u) (by norm_num at hu1 ⊢; linarith) hu ?_ ?_ ?_
    · exact row_cast_err F (v := m.row0) (by have := R.r00; simp only [V3.normSq, V3.dot, M3.row0]; linarith)
    · exact row_cast_err F (v := m.row1) (by have := R.r11; simp only [V3.normSq, V3.dot, M3.row1]; linarith)
    · exact row_cast_err F (v := m.row2) (by have := R.r22; simp only [V3.normSq, V3.dot, M3.row2]; linarith)

/-- **C81 (b').** The same with the norm evaluated in the destination type, rounding every operation. -/
theorem C81_accepted_rounded (F : FloatArith) :
    (∀ q : Quat, Valid .quat q → quatCtorDbgRounded F (castQuat F.fl q) = .ok (castQuat F.fl q)) ∧
    (∀ a : AngAx, Valid .aa a → aaCtorDbgRounded F (castRep F.fl .aa a) = .ok (castRep F.fl .aa a)) := by
  have hu := F.u_nonneg
  have hu2 : F.u ≤ 1 / 16000000 := F.u_le.trans (by norm_num)
  refine ⟨fun q h => ?_, fun a h => ?_⟩
  · have hq := (valid_quat_iff _).mp h
    have e := castQuat_err F hq
    have hn := abs_norm_sub_norm_le (toH (castQuat F.fl q)) (toH q)
    rw [norm_toH, norm_toH, unit_norm hq] at hn
    have hc : |F.quatNorm (castQuat F.fl q) - 1| ≤ 5 * F.u :=
      root_check F (hn.trans e) (by
        have e2 : (castQuat F.fl q).norm ^ 2 = (castQuat F.fl q).normSq := Real.sq_sqrt (Quat.normSq_nonneg _)
        rw [e2]; exact normSq_bounds F _)
    rw [quatCtorDbgRounded, assertScalarNearDbg, if_pos]
    rw [compareRelative_one]
    have := le_max_right |F.quatNorm (castQuat F.fl q)| 1
    refine hc.trans ?_
    linarith
  · have hc := vecNorm_check F (castAxis_norm F ((valid_aa_iff _).mp h)).2
    rw [aaCtorDbgRounded, assertScalarNearDbg, if_pos]
    rw [compareRelative_one]
    have := le_max_right |F.vecNorm (AngAx.axis (castRep F.fl .aa a))| 1
    refine hc.trans ?_
    linarith

/-! ## Exactness -/

/-- **C81 (c).** If every stored number is representable in the destination type — in particular for `float → double` — the
conversion changes nothing. -/
theorem C81_widening_exact {p : ℕ} {fl : ℝ → ℝ} (R : BinaryRounding p fl) {k : Kind} {r : Rep k}
    (h : Stored (IsFloat p) k r) : castRep fl k r = r := by
  have f := R.fix
  cases k
  · obtain ⟨h0, h1, h2, h3⟩ := h
    exact Quat.ext (f _ h0) (f _ h1) (f _ h2) (f _ h3)
  · obtain ⟨h1, h2, h3, h4, h5, h6, h7, h8, h9⟩ := h
    exact M3.ext (f _ h1) (f _ h2) (f _ h3) (f _ h4) (f _ h5) (f _ h6) (f _ h7) (f _ h8) (f _ h9)
  · obtain ⟨h0, h1, h2, h3⟩ := h
    exact AngAx.ext (f _ h0) (V3.ext (f _ h1) (f _ h2) (f _ h3))
  · obtain ⟨h1, h2, h3⟩ := h
    exact RotVec.ext (V3.ext (f _ h1) (f _ h2) (f _ h3))
  · obtain ⟨h1, h2, h3⟩ := h
    exact EulXyz.ext (V3.ext (f _ h1) (f _ h2) (f _ h3))
  · obtain ⟨h1, h2, h3⟩ := h
    exact EulZyx.ext (V3.ext (f _ h3) (f _ h2) (f _ h1))

/-- The converted numbers are numbers of the destination type. -/
theorem C81_stored {p : ℕ} {fl : ℝ → ℝ} (R : BinaryRounding p fl) (k : Kind) (r : Rep k) :
    Stored (IsFloat p) k (castRep fl k r) := by
  have f := R.range
  cases k
  · exact ⟨f _, f _, f _, f _⟩
  · exact ⟨f _, f _, f _, f _, f _, f _, f _, f _, f _⟩
  · exact ⟨f _, f _, f _, f _⟩
  all_goals exact ⟨f _, f _, f _⟩

lemma Spec.Stored.mono {p q : ℝ → Prop} (h : ∀ x, p x → q x) {k : Kind} {r : Rep k} (hs : Stored p k r) : Stored q k r := by
  cases k
  · exact ⟨h _ hs.1, h _ hs.2.1, h _ hs.2.2.1, h _ hs.2.2.2⟩
  · obtain ⟨h1, h2, h3, h4, h5, h6, h7, h8, h9⟩ := hs
    exact ⟨h _ h1, h _ h2, h _ h3, h _ h4, h _ h5, h _ h6, h _ h7, h _ h8, h _ h9⟩
  · exact ⟨h _ hs.1, h _ hs.2.1, h _ hs.2.2.1, h _ hs.2.2.2⟩
  all_goals exact ⟨h _ hs.1, h _ hs.2.1, h _ hs.2.2⟩

/-- **C81 (d).** Narrow, widen, narrow again: after the first narrowing nothing is lost; and widening followed by narrowing
restores the rotation bit by bit. -/
theorem C81_roundtrip {p p' : ℕ} (hp : p ≤ p') {fl fl' : ℝ → ℝ} (R : BinaryRounding p fl) (R' : BinaryRounding p' fl')
    (k : Kind) (r : Rep k) :
    castRep fl' k (castRep fl k r) = castRep fl k r ∧
    castRep fl k (castRep fl' k (castRep fl k r)) = castRep fl k r ∧
    (Stored (IsFloat p) k r → castRep fl k (castRep fl' k r) = r) := by
  have h1 : castRep fl' k (castRep fl k r) = castRep fl k r :=
    C81_widening_exact R' ((C81_stored R k r).mono fun _ h => h.mono hp)
  refine ⟨h1, ?_, fun h => ?_⟩
  · rw [h1]; exact C81_widening_exact R (C81_stored R k r)
  · rw [C81_widening_exact R' (h.mono fun _ h => h.mono hp)]; exact C81_widening_exact R h

/-! ## Conversions between different classes and scalar types -/

lemma abs_atan2_le (y x : ℝ) : |atan2 y x| ≤ Real.pi := abs_le.mpr ⟨(neg_pi_lt_atan2 y x).le, atan2_le_pi y x⟩

lemma euler012_bound (m : M3) : |(eulerAngles012 m).x| + |(eulerAngles012 m).y| + |(eulerAngles012 m).z| ≤ 10 := by
  have hpi := Real.pi_lt_d2
  have h0 := Real.pi_pos
  have a := abs_le.mp (abs_atan2_le m.m12 m.m22)
  have e1 : |(eulerAngles012 m).x| ≤ Real.pi := by
    simp only [eulerAngles012, abs_neg]
    split_ifs with h
    · rw [abs_le]; constructor <;> linarith
    · exact abs_atan2_le _ _
  have e2 : |(eulerAngles012 m).y| ≤ Real.pi := by
    simp only [eulerAngles012, abs_neg]
    split_ifs <;> exact abs_atan2_le _ _
  have e3 : |(eulerAngles012 m).z| ≤ Real.pi := by
    simp only [eulerAngles012, abs_neg]; exact abs_atan2_le _ _
  linarith

lemma euler210_bound (m : M3) : |(eulerAngles210 m).x| + |(eulerAngles210 m).y| + |(eulerAngles210 m).z| ≤ 10 := by
  have hpi := Real.pi_lt_d2
  have h0 := Real.pi_pos
  have a := abs_le.mp (abs_atan2_le m.m10 m.m00)
  have e1 : |(eulerAngles210 m).x| ≤ Real.pi := by
    simp only [eulerAngles210]
    split_ifs with h h'
    · rw [abs_le]; constructor <;> linarith
    · rw [abs_le]; constructor <;> linarith
    · exact abs_atan2_le _ _
  have e2 : |(eulerAngles210 m).y| ≤ Real.pi := by
    simp only [eulerAngles210]
    split_ifs <;> exact abs_atan2_le _ _
  have e3 : |(eulerAngles210 m).z| ≤ Real.pi := by
    simp only [eulerAngles210]; exact abs_atan2_le _ _
  linarith

lemma cast_xyzOfQuat (F : FloatArith) (q : Quat) :
    Close (10 * F.u) (dmat .xyz (castRep F.fl .xyz (xyzOfQuat q))) (dmat .xyz (xyzOfQuat q)) := by
  have hu := F.u_nonneg
  refine (castRep_close F (k := .xyz) (r := xyzOfQuat q) trivial).mono (mul_le_mul_of_nonneg_right ?_ hu)
  exact euler012_bound _

lemma cast_zyxOfQuat (F : FloatArith) (q : Quat) :
    Close (10 * F.u) (dmat .zyx (castRep F.fl .zyx (zyxOfQuat q))) (dmat .zyx (zyxOfQuat q)) := by
  have hu := F.u_nonneg
  refine (castRep_close F (k := .zyx) (r := zyxOfQuat q) trivial).mono (mul_le_mul_of_nonneg_right ?_ hu)
  have := euler210_bound q.toRotationMatrix
  change |(eulerAngles210 q.toRotationMatrix).z| + |(eulerAngles210 q.toRotationMatrix).y| +
    |(eulerAngles210 q.toRotationMatrix).x| ≤ 10
  linarith

/-- `RotationQuaternion<Dest>(AngleAxis<Source>)`. -/
lemma cast_quatOfAa (F : FloatArith) {a : AngAx} (hn : a.axis.normSq = 1) :
    NearQ F.u ((3 * |a.angle| + 4) * F.u) (quatOfAa (castRep F.fl .aa a)) (dmat .aa a) := by
  have hu := F.u_nonneg
  have hu1 := cast_u_small F
  obtain ⟨h1, -⟩ := castAxis_norm F hn
  set q : Quat := Quat.ofAngleAxis (F.fl a.angle) a.axis with hq
  have hqu : q.normSq = 1 := normSq_ofAngleAxis _ hn
  have hd : ‖toH (quatOfAa (castRep F.fl .aa a)) - toH q‖ ≤ F.u := by
    set w := castV3 F.fl a.axis - a.axis with hw
    set s := Real.sin (1 / 2 * F.fl a.angle) with hs
    have hs1 : s ^ 2 ≤ 1 := Real.sin_sq_le_one _
    have k : ‖toH (quatOfAa (castRep F.fl .aa a)) - toH q‖ ^ 2 ≤ F.u ^ 2 := by
      rw [sq ‖_‖, ← Quaternion.normSq_eq_norm_mul_self, Quaternion.normSq_def']
      change (Real.cos (1 / 2 * F.fl a.angle) - Real.cos (1 / 2 * F.fl a.angle)) ^ 2 + (s * F.fl a.axis.x - s * a.axis.x) ^ 2 +
        (s * F.fl a.axis.y - s * a.axis.y) ^ 2 + (s * F.fl a.axis.z - s * a.axis.z) ^ 2 ≤ _
      have e : (Real.cos (1 / 2 * F.fl a.angle) - Real.cos (1 / 2 * F.fl a.angle)) ^ 2 +
          (s * F.fl a.axis.x - s * a.axis.x) ^ 2 + (s * F.fl a.axis.y - s * a.axis.y) ^ 2 +
          (s * F.fl a.axis.z - s * a.axis.z) ^ 2 = s ^ 2 * w.norm ^ 2 := by
        rw [V3.norm_sq]; simp [hw, V3.normSq, V3.dot, castV3]; ring
      rw [e]
      calc s ^ 2 * w.norm ^ 2 ≤ 1 * F.u ^ 2 :=
            mul_le_mul hs1 (pow_le_pow_left₀ (V3.norm_nonneg _) h1 2) (sq_nonneg _) zero_le_one
        _ = _ := one_mul _
    exact abs_le_of_sq_le_sq' k hu |>.2
  have c := nearQ_of_dist hqu hd (by linarith)
  have e : sMat q = rodMat (F.fl a.angle) a.axis := sMat_ofAngleAxis _ hn
  rw [e] at c
  have c2 : Close (3 * |a.angle| * F.u) (rodMat (F.fl a.angle) a.axis) (dmat .aa a) := fun v => by
    change ((rodMat (F.fl a.angle) a.axis).mulVec v - (rodMat a.angle a.axis).mulVec v).norm ≤ _
    rw [← rodrigues_eq, ← rodrigues_eq]
    refine (rodrigues_lipschitz hn hn v).trans (mul_le_mul_of_nonneg_right ?_ v.norm_nonneg)
    have := F.err a.angle
    rw [sub_self, V3.norm_zero]
    linarith
  exact (c.close c2).mono le_rfl (by linarith)

/-- `RotationVector<Dest>(AngleAxis<Source>)`. -/
lemma cast_rvOfAa (F : FloatArith) {a : AngAx} (hn : a.axis.normSq = 1) :
    Close ((7 * |a.angle| + 21) * F.u) (dmat .rv (rvOfAa (castRep F.fl .aa a))) (dmat .aa a) := by
  have hu := F.u_nonneg
  have hu1 := cast_u_small F
  obtain ⟨h1, h2⟩ := castAxis_norm F hn
  have h3 := V3.norm_eq_one_iff.mpr hn
  have e1 : dmat .rv (rvOfAa a) = dmat .aa a := rvOfAa_spec hn
  rw [← e1]
  have key : ((F.fl a.angle) • castV3 F.fl a.axis - a.angle • a.axis).norm ≤ 21 / 10 * F.u * (a.angle • a.axis).norm := by
    have e : (F.fl a.angle) • castV3 F.fl a.axis - a.angle • a.axis =
        (F.fl a.angle - a.angle) • castV3 F.fl a.axis + a.angle • (castV3 F.fl a.axis - a.axis) := by
      ext <;> simp <;> ring
    rw [e]
    refine (V3.norm_add_le _ _).trans ?_
    rw [V3.norm_smul, V3.norm_smul, V3.norm_smul, h3, mul_one]
    have b1 : |F.fl a.angle - a.angle| * (castV3 F.fl a.axis).norm ≤ F.u * |a.angle| * (11 / 10) :=
      mul_le_mul (F.err _) (by have := (abs_le.mp h2).2; linarith) (V3.norm_nonneg _) (by positivity)
    have b2 := mul_le_mul_of_nonneg_left h1 (abs_nonneg a.angle)
    linarith
  have := rv_perturb key (by linarith) (by linarith)
  rw [V3.norm_smul, h3, mul_one] at this
  refine Close.mono this ?_
  have := mul_nonneg (abs_nonneg a.angle) hu
  linarith

/-- The factor `na` times the angle. -/
lemma na_bound (P : Prec) {t : ℝ} (ht : 0 ≤ t) :
    |(if isLessThenEpsilons4thRoot P t then 1 / 2 - t * t * (1 / 48) else Real.sin (t * (1 / 2)) / t)| * t ≤ 1 := by
  split_ifs with h
  · have he : t ≤ 1 := by
      have h1 : P.eps ^ (1 / 4 : ℝ) ≤ 1 :=
        Real.rpow_le_one P.eps_pos.le (P.eps_le.trans (by norm_num)) (by norm_num)
      exact h.le.trans h1
    have : |1 / 2 - t * t * (1 / 48)| ≤ 1 := by
      rw [abs_le]
      have := mul_self_nonneg t
      have : t * t ≤ 1 * 1 := mul_le_mul he he ht zero_le_one
      constructor <;> linarith
    calc _ ≤ 1 * 1 := mul_le_mul this he ht zero_le_one
      _ = _ := one_mul _
  · rcases ht.eq_or_lt with rfl | hp
    · simp
    · rw [abs_div, abs_of_pos hp, div_mul_cancel₀ _ hp.ne']
      exact Real.abs_sin_le_one _

/-- `RotationQuaternion<Dest>(RotationVector<Source>)`. -/
lemma quatOfRvTyped_near (Pd : Prec) (F : FloatArith) (r : RotVec) :
    NearQ (Pd.eps / 3000 + 5 * F.u) (Pd.eps / 300 + (3 * r.v.norm + 30) * F.u) (quatOfRvTyped Pd F.fl r) (dmat .rv r) := by
  have hu := F.u_nonneg
  have hu1 := cast_u_small F
  have he := Pd.eps_pos
  have he' := eps_small Pd
  obtain ⟨v⟩ := r
  have f0 : F.fl 0 = 0 := by have := F.err 0; simpa using this
  by_cases hv : v = 0
  · subst hv
    have e : quatOfRvTyped Pd F.fl ⟨0⟩ = quatOfRv Pd ⟨0⟩ := by
      have hz : castV3 F.fl 0 = 0 := V3.ext f0 f0 f0
      simp only [quatOfRvTyped, quatOfRv, hz, V3.norm_zero, f0]
    rw [e]
    refine (quatOfRv_near Pd ⟨0⟩).mono (by linarith) ?_
    simp only [V3.norm_zero]; linarith
  · have hp := V3.norm_pos hv
    set t := v.norm with ht
    have ht' := abs_le.mp (F.err t)
    rw [abs_of_pos hp] at ht'
    have hut := mul_le_mul_of_nonneg_right hu1 hp.le
    set t' := F.fl t with htt
    have hp' : 0 < t' := by linarith
    -- the rotation vector whose length is the converted one
    set v2 : V3 := (t' / t) • v with hv2
    have hn2 : v2.norm = t' := by
      rw [hv2, V3.norm_smul, abs_of_pos (by positivity), ← ht]; field_simp
    have hd2 : (v2 - v).norm ≤ F.u * t := by
      have e : v2 - v = ((t' - t) / t) • v := by
        rw [hv2]; ext <;> simp <;> field_simp
      rw [e, V3.norm_smul, abs_div, abs_of_pos hp, ← ht, div_mul_cancel₀ _ hp.ne', abs_le]
      constructor <;> linarith
    have c1 := rv_perturb hd2 hu (by linarith)
    set na := (if isLessThenEpsilons4thRoot Pd t' then 1 / 2 - t' * t' * (1 / 48) else Real.sin (t' * (1 / 2)) / t') with hna
    have hnb : |na| * t' ≤ 1 := na_bound Pd hp'.le
    have hq2 : quatOfRv Pd ⟨v2⟩ = ⟨Real.cos (t' * (1 / 2)), (na • v2).x, (na • v2).y, (na • v2).z⟩ := by
      simp only [quatOfRv, hn2]; rfl
    have hq1 : quatOfRvTyped Pd F.fl ⟨v⟩ = ⟨Real.cos (t' * (1 / 2)), (na • castV3 F.fl v).x, (na • castV3 F.fl v).y,
        (na • castV3 F.fl v).z⟩ := rfl
    have hw : (castV3 F.fl v - v2).norm ≤ 2 * F.u * t := by
      have e : castV3 F.fl v - v2 = (castV3 F.fl v - v) + (v - v2) := by ext <;> simp
      rw [e]
      refine (V3.norm_add_le _ _).trans ?_
      rw [V3.norm_sub_comm v v2]
      have := castV3_err F v
      rw [← ht] at this
      linarith
    have hdist : ‖toH (quatOfRvTyped Pd F.fl ⟨v⟩) - toH (quatOfRv Pd ⟨v2⟩)‖ ≤ 21 / 10 * F.u := by
      have k : ‖toH (quatOfRvTyped Pd F.fl ⟨v⟩) - toH (quatOfRv Pd ⟨v2⟩)‖ ^ 2 ≤ (21 / 10 * F.u) ^ 2 := by
        rw [sq ‖_‖, ← Quaternion.normSq_eq_norm_mul_self, Quaternion.normSq_def', hq1, hq2]
        change (Real.cos (t' * (1 / 2)) - Real.cos (t' * (1 / 2))) ^ 2 + (na * F.fl v.x - na * v2.x) ^ 2 +
          (na * F.fl v.y - na * v2.y) ^ 2 + (na * F.fl v.z - na * v2.z) ^ 2 ≤ _
        have e : (Real.cos (t' * (1 / 2)) - Real.cos (t' * (1 / 2))) ^ 2 + (na * F.fl v.x - na * v2.x) ^ 2 +
            (na * F.fl v.y - na * v2.y) ^ 2 + (na * F.fl v.z - na * v2.z) ^ 2 = (|na| * (castV3 F.fl v - v2).norm) ^ 2 := by
          rw [mul_pow, V3.norm_sq, sq_abs]; simp [V3.normSq, V3.dot, castV3]; ring
        rw [e]
        refine pow_le_pow_left₀ (mul_nonneg (abs_nonneg _) (V3.norm_nonneg _)) ?_ 2
        have h1 := mul_le_mul_of_nonneg_left hw (abs_nonneg na)
        have h2 : t ≤ 21 / 20 * t' := by linarith
        have h3 : |na| * (2 * F.u * t) ≤ 2 * F.u * (21 / 20) := by
          calc |na| * (2 * F.u * t) ≤ |na| * (2 * F.u * (21 / 20 * t')) := by
                apply mul_le_mul_of_nonneg_left _ (abs_nonneg _)
                exact mul_le_mul_of_nonneg_left h2 (by linarith)
            _ = 2 * F.u * (21 / 20) * (|na| * t') := by ring
            _ ≤ 2 * F.u * (21 / 20) * 1 := mul_le_mul_of_nonneg_left hnb (by positivity)
            _ = _ := mul_one _
        linarith
      exact abs_le_of_sq_le_sq' k (by linarith) |>.2
    obtain ⟨c, w, hw1, hqe, hc, hcl⟩ := quatOfRv_near Pd ⟨v2⟩
    -- distance to the unit quaternion
    have hdw : ‖toH (quatOfRvTyped Pd F.fl ⟨v⟩) - toH w‖ ≤ 21 / 10 * F.u + Pd.eps / 3200 := by
      have e1 : ‖toH (quatOfRv Pd ⟨v2⟩) - toH w‖ ≤ Pd.eps / 3200 := by
        have : toH (quatOfRv Pd ⟨v2⟩) - toH w = (c - 1) • toH w := by
          rw [hqe]; ext <;> simp [sub_mul]
        rw [this, norm_smul, norm_toH, unit_norm hw1, mul_one, Real.norm_eq_abs]; exact hc
      have := norm_sub_le_norm_sub_add_norm_sub (toH (quatOfRvTyped Pd F.fl ⟨v⟩)) (toH (quatOfRv Pd ⟨v2⟩)) (toH w)
      linarith
    have n1 := nearQ_of_dist hw1 hdw (by linarith)
    exact (n1.close (hcl.trans c1)).mono (by linarith) (by linarith)

lemma ofAngleAxis_atan2 {u : Quat} (hu : u.normSq = 1) (hv : u.vec ≠ 0) :
    Quat.ofAngleAxis (2 * atan2 u.vec.norm u.w) ((1 / u.vec.norm) • u.vec) = u := by
  have hmpos := V3.norm_pos hv
  have hm2 : u.vec.norm ^ 2 = 1 - u.w ^ 2 := vec_norm_sq hu
  have h1 : u.w ^ 2 + u.vec.norm ^ 2 = 1 := by linarith
  have e : 1 / 2 * (2 * atan2 u.vec.norm u.w) = atan2 u.vec.norm u.w := by ring
  ext <;> simp only [Quat.ofAngleAxis, e, cos_atan2 h1, sin_atan2 h1, V3.smul_x, V3.smul_y, V3.smul_z,
    Quat.vec_x, Quat.vec_y, Quat.vec_z] <;> field_simp

/-- `2 vec` (with the sign of the real part) for a quaternion close to the identity. -/
lemma rv_small_branch {q : Quat} (hq : q.normSq = 1) {D : ℝ} (hD : 1 - q.w ^ 2 ≤ D) (hD1 : D ≤ 15 / 1000000) :
    Close (D / 100) (dmat .rv (if q.w > 0 then (⟨(2 : ℝ) • q.vec⟩ : RotVec) else ⟨(-2 : ℝ) • q.vec⟩)) (sMat q) := by
  have hm2 : q.vec.norm ^ 2 = 1 - q.w ^ 2 := vec_norm_sq hq
  have hD0 : 0 ≤ D := by have := sq_nonneg q.vec.norm; linarith
  by_cases hv : q.vec = 0
  · have h1 : sMat q = 1 := by
      rw [hv, V3.norm_zero] at hm2
      have hx : q.x = 0 := congrArg V3.x hv
      have hy : q.y = 0 := congrArg V3.y hv
      have hz : q.z = 0 := congrArg V3.z hv
      have hw : q.w ^ 2 = 1 := by linarith
      ext <;> simp [sMat, hx, hy, hz, hw]
    rw [h1, hv, smul_zero, smul_zero, ite_self, dmat_rv_zero]
    exact (Close.refl _).mono (by positivity)
  · have hmpos := V3.norm_pos hv
    have hwne : q.w ≠ 0 := by intro e; rw [e] at hD; norm_num at hD; linarith
    obtain ⟨σ, n, hn, hvn, hrod, hσ⟩ := half_angle_form hq hv hwne
    set m := q.vec.norm with hm
    have hrv : (if q.w > 0 then (⟨(2 : ℝ) • q.vec⟩ : RotVec) else ⟨(-2 : ℝ) • q.vec⟩) = ⟨(2 * m) • n⟩ := by
      rcases hσ with ⟨rfl, hw⟩ | ⟨rfl, hw⟩
      · rw [if_pos hw, hvn, smul_smul]; congr 2; ring
      · rw [if_neg (not_lt.mpr hw.le), hvn, smul_smul]; congr 2; ring
    rw [hrv, dmat_rv_smul _ hn, hrod]
    apply close_of_rotAngle (rodMat_isSO3 _ hn) (rodMat_isSO3 _ hn)
    refine (rotAngle_rodMat_diff _ _ hn).trans ?_
    have hm3 : m ^ 2 ≤ D := by linarith
    have hm4 : m ≤ 4 / 1000 := by
      apply le_of_sq_le_sq _ (by norm_num)
      norm_num at hD1 ⊢; linarith
    set α := Real.arcsin m with hα
    have hsin : Real.sin α = m := Real.sin_arcsin (by linarith) (by linarith)
    have hα0 : 0 < α := Real.arcsin_pos.mpr hmpos
    have hα2 : α ≤ Real.pi / 2 := Real.arcsin_le_pi_div_two _
    have hαm : α ≤ 63 / 40 * m := by
      have h1 := Real.mul_le_sin hα0.le hα2
      rw [hsin] at h1
      have hpi := Real.pi_lt_d2
      have hpi0 := Real.pi_pos
      have h2 : α = Real.pi / 2 * (2 / Real.pi * α) := by field_simp
      rw [h2]
      have h3 : 0 ≤ 2 / Real.pi * α := by positivity
      nlinarith
    have h1 := Real.sin_gt_sub_cube hα0
    have h2 := Real.sin_lt hα0
    rw [hsin] at h1 h2
    have h3 : α ^ 3 ≤ (63 / 40 * m) ^ 3 := pow_le_pow_left₀ hα0.le hαm 3
    have h4 : α - m ≤ m ^ 3 := by nlinarith [pow_pos hmpos 3]
    have h5 : m ^ 3 ≤ 4 / 1000 * D := by
      have : m ^ 3 = m * m ^ 2 := by ring
      rw [this]; exact mul_le_mul hm4 hm3 (sq_nonneg _) (by norm_num)
    rw [abs_le]; constructor <;> linarith

/-- `RotationVector<Dest>(RotationQuaternion<Source>)`. -/
lemma rvOfQuatTyped_close (Ps : Prec) (F : FloatArith) {q : Quat} (hq : q.normSq = 1) :
    Close (Ps.dp / 50 + 60 * F.u) (dmat .rv (rvOfQuatTyped Ps F.fl q)) (sMat q) := by
  have hu := F.u_nonneg
  have hu1 := cast_u_small F
  have hdp := Ps.dp_pos
  have hdp1 := Ps.dp_le
  have hm2 : q.vec.norm ^ 2 = 1 - q.w ^ 2 := vec_norm_sq hq
  have hx0 : 0 ≤ 1 - q.w * q.w := by have := sq_nonneg q.vec.norm; linarith [sq q.w]
  have herr := abs_le.mp (F.err (1 - q.w * q.w))
  rw [abs_of_nonneg hx0] at herr
  have huw := mul_le_mul_of_nonneg_right hu1 hx0
  by_cases hb : F.fl (1 - q.w * q.w) < Ps.dp
  · have hD : 1 - q.w ^ 2 ≤ 11 / 10 * Ps.dp := by rw [sq]; linarith
    have c1 := rv_small_branch hq hD (by linarith)
    set e := (if q.w > 0 then (2 : ℝ) else -2) with he
    have ea : |e| = 2 := by rw [he]; split_ifs <;> norm_num
    have e1 : rvOfQuatTyped Ps F.fl q = ⟨e • castV3 F.fl q.vec⟩ := by
      simp only [rvOfQuatTyped, if_pos hb, he]; split_ifs <;> rfl
    have e2 : (if q.w > 0 then (⟨(2 : ℝ) • q.vec⟩ : RotVec) else ⟨(-2 : ℝ) • q.vec⟩) = ⟨e • q.vec⟩ := by
      rw [he]; split_ifs <;> rfl
    rw [e2] at c1
    rw [e1]
    have key : (e • castV3 F.fl q.vec - e • q.vec).norm ≤ F.u * (e • q.vec).norm := by
      have : e • castV3 F.fl q.vec - e • q.vec = e • (castV3 F.fl q.vec - q.vec) := by ext <;> simp <;> ring
      rw [this, V3.norm_smul, V3.norm_smul, ea]
      have := castV3_err F q.vec
      linarith
    have c2 := rv_perturb key hu (by linarith)
    refine (c2.trans c1).mono ?_
    have hn : (e • q.vec).norm ≤ 2 := by
      rw [V3.norm_smul, ea]
      have : q.vec.norm ≤ 1 := by
        apply le_of_sq_le_sq _ zero_le_one
        rw [hm2]; linarith [sq_nonneg q.w]
      linarith
    have := mul_le_mul_of_nonneg_right hn hu
    linarith
  · have hpos : 0 < 1 - q.w * q.w := by
      rcases hx0.eq_or_lt with h0 | h0
      · exfalso
        rw [← h0] at herr hb
        push Not at hb
        linarith
      · exact h0
    have hv : q.vec ≠ 0 := fun e => by
      rw [e, V3.norm_zero] at hm2; linarith [sq q.w]
    have hn := V3.norm_pos hv
    set n := q.vec.norm with hnd
    have hn1 : n ≤ 1 := by
      apply le_of_sq_le_sq _ zero_le_one
      rw [hm2]; linarith [sq_nonneg q.w]
    have hne := abs_le.mp (F.err n)
    rw [abs_of_pos hn] at hne
    have hun := mul_le_mul_of_nonneg_right hu1 hn.le
    set n' := F.fl n with hn'
    have hn'pos : 0 < n' := by linarith
    set p : Quat := ⟨q.w, n' / n * q.x, n' / n * q.y, n' / n * q.z⟩ with hp
    have hpv : p.vec = (n' / n) • q.vec := by ext <;> simp [hp]
    have hpn : p.vec.norm = n' := by
      rw [hpv, V3.norm_smul, abs_of_pos (by positivity), ← hnd]; field_simp
    have hdist : ‖toH p - toH q‖ ≤ F.u := by
      have k : ‖toH p - toH q‖ ^ 2 ≤ F.u ^ 2 := by
        rw [sq ‖_‖, ← Quaternion.normSq_eq_norm_mul_self, Quaternion.normSq_def']
        change (q.w - q.w) ^ 2 + (n' / n * q.x - q.x) ^ 2 + (n' / n * q.y - q.y) ^ 2 + (n' / n * q.z - q.z) ^ 2 ≤ _
        have e : (q.w - q.w) ^ 2 + (n' / n * q.x - q.x) ^ 2 + (n' / n * q.y - q.y) ^ 2 + (n' / n * q.z - q.z) ^ 2 =
            (n' - n) ^ 2 := by
          have h1 : q.x * q.x + q.y * q.y + q.z * q.z = n ^ 2 := by
            rw [hnd, V3.norm_sq]; simp [V3.normSq, V3.dot]
          have h2 : (n' - n) ^ 2 = (n' / n - 1) ^ 2 * n ^ 2 := by field_simp
          rw [h2, ← h1]; ring
        rw [e]
        exact sq_le_sq' (by nlinarith) (by nlinarith)
      exact abs_le_of_sq_le_sq' k hu |>.2
    obtain ⟨c, w, hw1, hpe, hc, hcl⟩ := nearQ_of_dist hq hdist (by linarith)
    have hcpos : 0 < c := by have := (abs_le.mp hc).1; linarith
    have hpw : p.vec = c • w.vec := by rw [hpe]; exact vec_scale c w
    have hpw' : q.w = c * w.w := by have := congrArg Quat.w hpe; exact this
    have hwn : n' = c * w.vec.norm := by rw [← hpn, hpw, V3.norm_smul, abs_of_pos hcpos]
    have hwne : w.vec ≠ 0 := fun e => by rw [hwn, e, V3.norm_zero, mul_zero] at hn'pos; exact lt_irrefl _ hn'pos
    have hwpos := V3.norm_pos hwne
    have hat : atan2 n' q.w = atan2 w.vec.norm w.w := by rw [hwn, hpw', atan2_scale hcpos]
    have hdir : (1 / w.vec.norm) • w.vec = (1 / n) • q.vec := by
      have h1 : w.vec = (1 / c) • p.vec := by rw [hpw, smul_smul, one_div_mul_cancel hcpos.ne', one_smul]
      rw [h1, hpv, V3.norm_smul, V3.norm_smul, abs_of_pos (by positivity), abs_of_pos (by positivity : 0 < n' / n), ← hnd,
        smul_smul, smul_smul]
      congr 1; field_simp
    have hdu : ((1 / n) • q.vec).normSq = 1 := unit_dir hn.ne'
    set a := 2 * atan2 n' q.w with ha
    have hrod : rodMat a ((1 / n) • q.vec) = sMat w := by
      rw [← hdir, ha, hat, ← sMat_ofAngleAxis _ (unit_dir hwpos.ne'), ofAngleAxis_atan2 hw1 hwne]
    rw [← hrod] at hcl
    have habs : |a| ≤ 63 / 10 := by
      have := abs_atan2_le n' q.w
      have hpi := Real.pi_lt_d2
      rw [ha, abs_mul, abs_of_pos (by norm_num : (0 : ℝ) < 2)]; linarith
    -- before the last conversion
    have hval : (2 * atan2 n' q.w / n') • q.vec = (a * (n / n')) • ((1 / n) • q.vec) := by
      rw [smul_smul]; congr 1; rw [ha]; field_simp
    have hratio : |n / n' - 1| ≤ 11 / 10 * F.u := by
      have e : n / n' - 1 = (n - n') / n' := by field_simp
      rw [e, abs_div, abs_of_pos hn'pos, div_le_iff₀ hn'pos, abs_sub_comm]
      have h1 : |n' - n| ≤ F.u * n := by rw [abs_le]; exact hne
      have h2 : F.u * n ≤ F.u * (11 / 10 * n') := mul_le_mul_of_nonneg_left (by linarith) hu
      linarith
    have c2 : Close (7 * F.u) (rodMat (a * (n / n')) ((1 / n) • q.vec)) (rodMat a ((1 / n) • q.vec)) := by
      apply close_of_rotAngle (rodMat_isSO3 _ hdu) (rodMat_isSO3 _ hdu)
      refine (rotAngle_rodMat_diff _ _ hdu).trans ?_
      have e : a * (n / n') - a = a * (n / n' - 1) := by ring
      rw [e, abs_mul]
      calc |a| * |n / n' - 1| ≤ 63 / 10 * (11 / 10 * F.u) := mul_le_mul habs hratio (abs_nonneg _) (by norm_num)
        _ ≤ _ := by linarith
    have c3 := rv_perturb (castV3_err F ((2 * atan2 n' q.w / n') • q.vec)) hu (by linarith)
    have e4 : dmat .rv (⟨(2 * atan2 n' q.w / n') • q.vec⟩ : RotVec) = rodMat (a * (n / n')) ((1 / n) • q.vec) := by
      rw [hval]; exact dmat_rv_smul _ hdu
    rw [e4] at c3
    have hnorm : ((2 * atan2 n' q.w / n') • q.vec).norm ≤ 7 := by
      rw [hval, V3.norm_smul, V3.norm_eq_one_iff.mpr hdu, mul_one, abs_mul]
      have : |n / n'| ≤ 11 / 10 := by
        have := abs_le.mp hratio
        rw [abs_of_pos (by positivity)]; linarith
      calc |a| * |n / n'| ≤ 63 / 10 * (11 / 10) := mul_le_mul habs this (abs_nonneg _) (by norm_num)
        _ ≤ _ := by norm_num
    have e5 : rvOfQuatTyped Ps F.fl q = ⟨castV3 F.fl ((2 * atan2 n' q.w / n') • q.vec)⟩ := by
      simp only [rvOfQuatTyped, if_neg hb]; rfl
    rw [e5]
    refine ((c3.trans c2).trans hcl).mono ?_
    have := mul_le_mul_of_nonneg_right hnorm hu
    linarith

lemma aaOfRv_angle (P : Prec) (r : RotVec) : |(aaOfRv P r).angle| ≤ r.v.norm := by
  simp only [aaOfRv]
  split_ifs
  · simpa [AngAx.identity] using r.v.norm_nonneg
  · exact (abs_of_nonneg r.v.norm_nonneg).le

lemma castBound_nonneg (k : Kind) (r : Rep k) : 0 ≤ castBound k r := by
  cases k
  · exact (by norm_num : (0 : ℝ) ≤ 3)
  · exact (by norm_num : (0 : ℝ) ≤ 3)
  · change 0 ≤ 3 * |AngAx.angle r| + 7; positivity
  · change 0 ≤ 3 * (RotVec.v r).norm + 10
    have := (RotVec.v r).norm_nonneg; linarith
  · change 0 ≤ |EulXyz.x r| + |EulXyz.y r| + |EulXyz.z r|; positivity
  · change 0 ≤ |EulZyx.x r| + |EulZyx.y r| + |EulZyx.z r|; positivity

lemma convTyped_close (Pd Ps : Prec) (F : FloatArith) (d s : Kind) {r : Rep s} (h : Valid s r) :
    Close (Pd.dp + Ps.dp + (Pd.eps + Ps.eps) / 20 + (3 * castBound s r + 600) * F.u)
      (dmat d (convTyped Pd Ps F.fl d s r)) (dmat s r) := by
  have hu := F.u_nonneg
  have hu1 := cast_u_small F
  have hu2 : F.u ≤ 1 / 16000000 := F.u_le.trans (by norm_num)
  have h1 := Pd.dp_pos
  have h2 := Ps.dp_pos
  have h3 := Pd.eps_pos
  have h4 := Ps.eps_pos
  have h5 := eps_small Pd
  have h6 := eps_small Ps
  have hcb := mul_nonneg (castBound_nonneg s r) hu
  have fin : ∀ {δ : ℝ} {k : Kind} {x : Rep k} {R : M3}, Close δ (den k x) R → Close δ (dmat k x) R := fun {δ k x R} hc => by
    rwa [den_eq] at hc
  cases s
  · -- quaternion
    have hq := (valid_quat_iff _).mp h
    have n := castQuat_near F hq
    cases d
    · exact (castRep_close F h).mono (by linarith)
    · exact (fin ((n.to (P := Pd) .mat (by linarith)).close hu (by linarith))).mono (by linarith)
    · exact (fin ((n.to (P := Pd) .aa (by linarith)).close hu (by linarith))).mono (by linarith)
    · exact (rvOfQuatTyped_close Ps F hq).mono (by linarith)
    · have e : dmat .xyz (xyzOfQuat r) = sMat r := xyzOfQuat_spec hq
      have c := cast_xyzOfQuat F r
      rw [e] at c
      exact c.mono (by linarith)
    · have e : dmat .zyx (zyxOfQuat r) = sMat r := zyxOfQuat_spec hq
      have c := cast_zyxOfQuat F r
      rw [e] at c
      exact c.mono (by linarith)
  · -- matrix
    have n := ofMatrix_near h (castM3_entry F h) (by linarith)
    cases d
    · exact (fin (Near.close (k := .quat) (h := n) (by linarith) (by linarith))).mono (by linarith)
    · exact (castRep_close F h).mono (by linarith)
    · exact (fin ((n.to (P := Pd) .aa (by linarith)).close (by linarith) (by linarith))).mono (by linarith)
    · exact (fin ((n.to (P := Pd) .rv (by linarith)).close (by linarith) (by linarith))).mono (by linarith)
    · exact (fin ((n.to (P := Pd) .xyz (by linarith)).close (by linarith) (by linarith))).mono (by linarith)
    · exact (fin ((n.to (P := Pd) .zyx (by linarith)).close (by linarith) (by linarith))).mono (by linarith)
  · -- angle-axis
    have hn := (valid_aa_iff _).mp h
    have n := cast_quatOfAa F hn
    have hb : castBound .aa r = 3 * |AngAx.angle r| + 7 := rfl
    have ha := mul_nonneg (abs_nonneg (AngAx.angle r)) hu
    rw [hb] at hcb ⊢
    cases d
    · exact (fin (Near.close (k := .quat) (h := n) hu (by linarith))).mono (by linarith)
    · exact (aa_perturb F hn).mono (by linarith)
    · exact (aa_perturb F hn).mono (by linarith)
    · exact (cast_rvOfAa F hn).mono (by linarith)
    · exact (fin ((n.to (P := Pd) .xyz (by linarith)).close hu (by linarith))).mono (by linarith)
    · exact (fin ((n.to (P := Pd) .zyx (by linarith)).close hu (by linarith))).mono (by linarith)
  · -- rotation vector
    have n := quatOfRvTyped_near Pd F r
    have hb : castBound .rv r = 3 * (RotVec.v r).norm + 10 := rfl
    have ha := mul_nonneg (RotVec.v r).norm_nonneg hu
    rw [hb] at hcb ⊢
    cases d
    · exact (fin (Near.close (k := .quat) (h := n) (by linarith) (by linarith))).mono (by linarith)
    · exact (fin (Near.close (k := .mat) (r := (quatOfRvTyped Pd F.fl r).toRotationMatrix) (h := ⟨_, n, rfl⟩)
        (by linarith) (by linarith))).mono (by linarith)
    · have c := castRep_close F (k := .rv) (r := r) trivial
      rw [hb] at c
      exact ((aaOfRv_close Ps (castRep F.fl .rv r)).trans c).mono (by linarith)
    · have c := castRep_close F (k := .rv) (r := r) trivial
      rw [hb] at c
      exact c.mono (by linarith)
    · have n2 := (cast_quatOfAa F (aaOfRv_unit Ps r)).close (aaOfRv_close Ps r)
      have hang := mul_le_mul_of_nonneg_right (aaOfRv_angle Ps r) hu
      exact (fin ((n2.to (P := Pd) .xyz (by linarith)).close hu (by linarith))).mono (by linarith)
    · have n2 := quatOfRv_near Ps r
      have c := fin ((n2.to (P := Ps) .zyx (by linarith)).close (by linarith) (by linarith))
      exact ((cast_zyxOfQuat F _).trans c).mono (by linarith)
  · -- Euler angles
    have c := castRep_close F h
    have n : ∀ d, Close (Pd.dp + Pd.eps / 20 + (3 * castBound .xyz r + 600) * F.u)
        (dmat d (conv Pd d .xyz (castRep F.fl .xyz r))) (dmat .xyz r) := fun d => by
      have n := fin ((conv_near Pd d .xyz (r := castRep F.fl .xyz r) trivial).close (by linarith) (by linarith))
      rw [den_eq] at n
      exact (n.trans c).mono (by linarith)
    cases d <;> exact (n _).mono (by linarith)
  · have c := castRep_close F h
    have n : ∀ d, Close (Pd.dp + Pd.eps / 20 + (3 * castBound .zyx r + 600) * F.u)
        (dmat d (conv Pd d .zyx (castRep F.fl .zyx r))) (dmat .zyx r) := fun d => by
      have n := fin ((conv_near Pd d .zyx (r := castRep F.fl .zyx r) trivial).close (by linarith) (by linarith))
      rw [den_eq] at n
      exact (n.trans c).mono (by linarith)
    cases d <;> exact (n _).mono (by linarith)

/-- **C81 (e).** Converting between any two rotation classes and any two scalar types: the converted rotation moves every
vector to the same place up to the thresholds of the two types and a multiple of the rounding error of the destination. -/
theorem C81_convert (Pd Ps : Prec) (F : FloatArith) (d s : Kind) {r : Rep s} (h : Valid s r) (v : V3) :
    (act d (convTyped Pd Ps F.fl d s r) v - act s r v).norm ≤
      (Pd.dp + Ps.dp + (Pd.eps + Ps.eps) / 20 + (3 * castBound s r + 600) * F.u) * v.norm := by
  rw [act_eq_dmat, act_eq_dmat]; exact convTyped_close Pd Ps F d s h v

/-- **C81 (f).** Between equal scalar types (no rounding) the typed conversion is the ordinary conversion. -/
theorem C81_same_type (P : Prec) (d s : Kind) (r : Rep s) : convTyped P P id d s r = conv P d s r := by
  have e : castRep id s r = r := by cases s <;> rfl
  cases d <;> cases s <;> first | rfl | exact congrArg _ e

/-- **C81 (g).** Converting a pose to another rotation class and scalar type moves every transformed point by at most the
rotation's error times the distance of the point plus one rounding error of the position. -/
theorem C81_pose (Pd Ps : Prec) (F : FloatArith) (d s : Kind) (T : Pose s) (h : ValidPose s T) (p : V3) :
    (move d (T.ofPoseTyped Pd Ps F.fl d s) p - move s T p).norm ≤
      (Pd.dp + Ps.dp + (Pd.eps + Ps.eps) / 20 + (3 * castBound s T.rotation + 600) * F.u) * p.norm +
        F.u * T.position.norm := by
  have h1 := C81_convert Pd Ps F d s h p
  have h2 := castV3_err F T.position
  have e : move d (T.ofPoseTyped Pd Ps F.fl d s) p - move s T p =
      (act d (convTyped Pd Ps F.fl d s T.rotation) p - act s T.rotation p) + (castV3 F.fl T.position - T.position) := by
    simp only [move, Pose.ofPoseTyped]; ext <;> simp <;> ring
  rw [e]
  exact (V3.norm_add_le _ _).trans (add_le_add h1 h2)

/-- Concrete numbers: for a quaternion converted between any two classes from `double` to `float`, every unit vector ends up
within 0.00007 of the right place. -/
theorem C81_convert_quat_float (d : Kind) {q : Quat} (h : Valid .quat q) {v : V3} (hv : v.norm = 1) :
    (act d (convTyped Prec.float Prec.double FloatArith.float.fl d .quat q) v - act .quat q v).norm ≤ 7 / 100000 := by
  refine (C81_convert Prec.float Prec.double FloatArith.float d .quat h v).trans ?_
  rw [hv]
  simp only [Prec.float, Prec.double, FloatArith.float, castBound]
  norm_num

/-! ## Non-vacuity -/

/-- A rotation that no float represents: the hypotheses of C81 (a), (b), (e), (g) hold and the conversion really rounds. -/
example : Valid .quat ⟨3 / 5, 0, 0, 4 / 5⟩ ∧ FloatArith.float.fl (3 / 5) ≠ 3 / 5 := by
  refine ⟨(valid_quat_iff _).mpr (by norm_num [Quat.normSq]), fun h => ?_⟩
  have e : FloatArith.float.fl = roundBinary 24 := rfl
  rw [e, roundBinary] at h
  have hl : Int.log 2 |(3 / 5 : ℝ)| = -1 := by
    have h1 : (-1 : ℤ) ≤ Int.log 2 |(3 / 5 : ℝ)| := (Int.zpow_le_iff_le_log (by norm_num) (by norm_num)).mp (by norm_num)
    have h2 : Int.log 2 |(3 / 5 : ℝ)| < 0 := (Int.lt_zpow_iff_log_lt (by norm_num) (by norm_num)).mp (by norm_num)
    omega
  rw [hl] at h
  generalize (round ((3 / 5 : ℝ) / 2 ^ ((-1 : ℤ) - (((24 : ℕ) : ℤ) - 1))) : ℤ) = n at h
  norm_num at h
  have h' : (5 : ℤ) * n = 50331648 := by
    have : (5 : ℝ) * n = 50331648 := by linarith
    exact_mod_cast this
  omega

/-- `double → float → double → float` loses nothing after the first step, for round-to-nearest-even. -/
example (k : Kind) (r : Rep k) :
    castRep (roundEven 24) k (castRep (roundEven 53) k (castRep (roundEven 24) k r)) = castRep (roundEven 24) k r :=
  (C81_roundtrip (p := 24) (p' := 53) (by norm_num) (roundEven_spec (by norm_num)) (roundEven_spec (by norm_num)) k r).2.1

end Kindr
