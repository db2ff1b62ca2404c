import Verif.Props.Log3

/-!
# Logarithmic map, boxMinus and disparity angle of quaternions in IEEE arithmetic
-/

set_option autoImplicit false

open Classical

noncomputable section
namespace Kindr
open Spec
namespace Inst
variable {M : Inst}

/-! ## Directions -/

lemma dir_normSq {q : Quat} (h : 0 < q.norm) : (direction q).normSq = 1 := by
  have e : q.norm ^ 2 = q.normSq := Real.sq_sqrt (by unfold Quat.normSq; nlinarith [mul_self_nonneg q.w, mul_self_nonneg q.x, mul_self_nonneg q.y, mul_self_nonneg q.z])
  have : (direction q).normSq = q.normSq / q.norm ^ 2 := by unfold direction Quat.normSq; field_simp
  rw [this, e, div_self]
  rw [← e]; positivity

lemma dir_scale {q : Quat} (h : 0 < q.norm) :
    q = ⟨q.norm * (direction q).w, q.norm * (direction q).x, q.norm * (direction q).y, q.norm * (direction q).z⟩ := by
  ext <;> simp only [direction] <;> field_simp

lemma toH_dir (q : Quat) : toH (direction q) = (q.norm)⁻¹ • toH q := by
  apply QuaternionAlgebra.ext
  · change q.w / q.norm = (q.norm)⁻¹ * q.w; ring
  · change q.x / q.norm = (q.norm)⁻¹ * q.x; ring
  · change q.y / q.norm = (q.norm)⁻¹ * q.y; ring
  · change q.z / q.norm = (q.norm)⁻¹ * q.z; ring

lemma dir_dist {p q : Quat} (hp : 0 < p.norm) (hq : 0 < q.norm) :
    ‖toH (direction p) - toH (direction q)‖ ≤ 2 * ‖toH p - toH q‖ / q.norm := by
  have e : toH (direction p) - toH (direction q) = (q.norm)⁻¹ • (toH p - toH q) + ((p.norm)⁻¹ - (q.norm)⁻¹) • toH p := by
    rw [toH_dir, toH_dir, smul_sub, sub_smul]; abel
  rw [e]
  refine (norm_add_le _ _).trans ?_
  rw [norm_smul, norm_smul, norm_toH, Real.norm_eq_abs, Real.norm_eq_abs, abs_of_pos (inv_pos.mpr hq)]
  have e2 : |(p.norm)⁻¹ - (q.norm)⁻¹| * p.norm = |p.norm - q.norm| / q.norm := by
    have e3 : (p.norm)⁻¹ - (q.norm)⁻¹ = (q.norm - p.norm) / (q.norm * p.norm) := by field_simp
    rw [e3, abs_div, abs_of_pos (mul_pos hq hp), abs_sub_comm]; field_simp
  rw [e2]
  have h1 : |p.norm - q.norm| ≤ ‖toH p - toH q‖ := by
    have := abs_norm_sub_norm_le (toH p) (toH q)
    rwa [norm_toH, norm_toH] at this
  have h2 := div_le_div_of_nonneg_right h1 hq.le
  have e4 : 2 * ‖toH p - toH q‖ / q.norm = (q.norm)⁻¹ * ‖toH p - toH q‖ + ‖toH p - toH q‖ / q.norm := by ring
  rw [e4]; linarith

lemma norm_quot (a b : Quat) : (a * b.conj).norm = a.norm * b.norm := by
  rw [← norm_toH, toH_mul, norm_mul, toH_conj, norm_star, norm_toH, norm_toH]

lemma dir_quot {a b : Quat} (ha : 0 < a.norm) (hb : 0 < b.norm) : sMat (direction (a * b.conj)) = sMat (direction a) * (sMat (direction b)).transpose := by
  rw [← sMat_conj, ← sMat_mul]
  congr 1
  have e := norm_quot a b
  ext <;> simp only [direction, e] <;> simp <;> field_simp

/-- The quotient of two stored quaternions. -/
lemma quot_spec (h : Sound M) {a b : Quat} {d : ℝ} (ha : UnitUpTo d a) (hb : UnitUpTo d b) (hd : d ≤ 1 / 1000) :
    ∃ m, M.scalar.arith.quatMul (embQ a) (XArith.quatInverted (embQ b)) = embQ m ∧ 0 < m.norm ∧ UnitUpTo (21 / 10 * d + 102 / 10 * M.scalar.uu) m ∧
      Close (41 * M.scalar.uu) (sMat (direction m)) (sMat (direction a) * (sMat (direction b)).transpose) := by
  have hu := uu_pos h
  have hs := (Format.alf_small (alf h)).1
  have he := (Format.alf_eta (alf h)).2
  have he' := (Format.alf_small (alf h)).2
  obtain ⟨a1, a2⟩ := abs_le.mp ha
  obtain ⟨b1, b2⟩ := abs_le.mp hb
  have d0 : 0 ≤ d := (abs_nonneg _).trans ha
  have ap : 0 < a.norm := by linarith
  have bp : 0 < b.norm := by linarith
  obtain ⟨L, hL⟩ : ∃ L, L = a.norm * b.norm := ⟨_, rfl⟩
  have L1 : L ≤ 1 + 2001 / 1000 * d := by
    rw [hL]
    have := mul_le_mul (by linarith : a.norm ≤ 1 + d) (by linarith : b.norm ≤ 1 + d) bp.le (by linarith)
    have dd : d * d ≤ 1 / 1000 * d := mul_le_mul_of_nonneg_right hd d0
    linarith
  have L2 : 1 - 2 * d ≤ L := by
    rw [hL]
    have := mul_le_mul (by linarith : 1 - d ≤ a.norm) (by linarith : 1 - d ≤ b.norm) (by linarith) ap.le
    have dd : 0 ≤ d * d := mul_self_nonneg d
    linarith
  have Lp : 0 < L := by linarith
  have nb : b.conj.norm = b.norm := by rw [← norm_toH, toH_conj, norm_star, norm_toH]
  have he2 : M.scalar.eta ≤ 1 := by norm_num at hs; linarith
  obtain ⟨m1, m2⟩ := Format.quatMul_range (Format.alf_ok (alf h)) a b.conj (by
    rw [nb, ← hL]
    have : (100 : ℝ) ≤ 2 ^ (M.scalar.emax - 1) := by
      calc (100 : ℝ) ≤ 2 ^ (60 : ℤ) := by norm_num
        _ ≤ _ := zpow_le_zpow_right₀ (by norm_num) (by have := (alf h).emax; have := (alf h).p; omega)
    linarith)
  obtain ⟨m, hm⟩ : ∃ m, m = M.scalar.roundMul a b.conj := ⟨_, rfl⟩
  rw [← hm] at m1 m2
  rw [nb, ← hL, ← toH_mul] at m2
  have nE : (a * b.conj).norm = L := by rw [norm_quot, hL]
  have uL : M.scalar.uu * L ≤ M.scalar.uu * (1003 / 1000) := mul_le_mul_of_nonneg_left (by linarith) hu.le
  have m3 : ‖toH m - toH (a * b.conj)‖ ≤ 1015 / 100 * M.scalar.uu * L := by
    have : M.scalar.uu * (99 / 100) ≤ M.scalar.uu * L := mul_le_mul_of_nonneg_left (by linarith) hu.le
    have e5 : M.scalar.uu / 2 ^ 100 ≤ M.scalar.uu / 1000 := div_le_div_of_nonneg_left hu.le (by norm_num) (by norm_num)
    linarith
  have m4 : |m.norm - L| ≤ 1015 / 100 * M.scalar.uu * L := by
    have := abs_norm_sub_norm_le (toH m) (toH (a * b.conj))
    rw [norm_toH, norm_toH, nE] at this
    exact this.trans m3
  obtain ⟨m5, m6⟩ := abs_le.mp m4
  have mp : 0 < m.norm := by norm_num at hs; linarith
  refine ⟨m, m1, mp, ?_, ?_⟩
  · unfold UnitUpTo; rw [abs_le]; constructor <;> linarith
  · rw [← dir_quot ap bp]
    have k := dir_dist mp (by rw [nE]; exact Lp : 0 < (a * b.conj).norm)
    have k2 : ‖toH (direction m) - toH (direction (a * b.conj))‖ ≤ 203 / 10 * M.scalar.uu := by
      refine k.trans ?_
      rw [nE, div_le_iff₀ Lp]; linarith
    exact (sMat_lipschitz (dir_normSq mp) (dir_normSq (by rw [nE]; exact Lp)) k2).mono (by linarith)

/-! ## The theorems -/

lemma log_close (h : Sound M) (P : Prec) (hP : 100 * M.scalar.uu ≤ P.dp) {q : Quat} {d : ℝ} (hq : UnitUpTo d q) (hd : d ≤ P.dp / 4) :
    ∃ ρ, M.logarithmicMap P (embQ q) = emb3 ρ ∧ ρ.norm ≤ Real.pi + 93 * M.scalar.uu ∧
      Close (588 * M.scalar.uu + 103 / 100 * P.dp) (dmat .rv (⟨ρ⟩ : RotVec)) (sMat (direction q)) := by
  have hdp := P.dp_le
  have qp : 0 < q.norm := by have := (abs_le.mp hq).1; linarith
  obtain ⟨r, er, r1, r2⟩ := rvOfQuat_spec h P hP (dir_normSq qp) hq hd (dir_scale qp)
  obtain ⟨ρ, eρ, c1, c2⟩ := rvGetUnique_spec h P hP r2 r1
  exact ⟨ρ, by unfold logarithmicMap; rw [er, eρ], c2, c1.mono (by linarith)⟩

/-- **C113 (a).** `logarithmicMap()` of a stored quaternion, in IEEE arithmetic with underflow and overflow: the result is finite, not longer than a half turn, and
rotates every vector as the quaternion does, up to rounding and the threshold of the code. -/
theorem C113_log (h : Sound M) (P : Prec) (hP : 100 * 2⁻¹ ^ M.scalar.p ≤ P.dp) (q : Quat) {d : ℝ} (hq : UnitUpTo d q) (hd : d ≤ P.dp / 4) :
    ∃ ρ, M.logarithmicMap P (embQ q) = emb3 ρ ∧ ρ.norm ≤ Real.pi + 93 * 2⁻¹ ^ M.scalar.p ∧
      ∀ v, (act .rv (⟨ρ⟩ : RotVec) v - act .quat (direction q) v).norm ≤ (588 * 2⁻¹ ^ M.scalar.p + 103 / 100 * P.dp) * v.norm := by
  obtain ⟨ρ, e, r1, r2⟩ := log_close h P hP hq hd
  refine ⟨ρ, e, r1, fun v => ?_⟩
  rw [act_eq_dmat, act_eq_dmat]
  exact r2 v

lemma boxMinus_close (h : Sound M) (P : Prec) (hP : 100 * M.scalar.uu ≤ P.dp) {a b : Quat} {d : ℝ} (ha : UnitUpTo d a) (hb : UnitUpTo d b)
    (hd : d ≤ P.dp / 16) :
    ∃ ρ, M.boxMinus P (embQ a) (embQ b) = emb3 ρ ∧ ρ.norm ≤ Real.pi + 93 * M.scalar.uu ∧
      Close (629 * M.scalar.uu + 103 / 100 * P.dp) (dmat .rv (⟨ρ⟩ : RotVec)) (sMat (direction a) * (sMat (direction b)).transpose) := by
  have hdp := P.dp_le
  have hdp0 := P.dp_pos
  obtain ⟨m, em, mp, m1, m2⟩ := quot_spec h ha hb (by linarith)
  obtain ⟨ρ, e, r1, r2⟩ := log_close h P hP m1 (by linarith)
  exact ⟨ρ, by unfold boxMinus; rw [em, e], r1, (r2.trans m2).mono (by linarith)⟩

/-- **C113 (b).** `a.boxMinus(b)` in IEEE arithmetic takes `b` to `a`. -/
theorem C113_boxMinus (h : Sound M) (P : Prec) (hP : 100 * 2⁻¹ ^ M.scalar.p ≤ P.dp) (a b : Quat) {d : ℝ} (ha : UnitUpTo d a) (hb : UnitUpTo d b)
    (hd : d ≤ P.dp / 16) :
    ∃ ρ, M.boxMinus P (embQ a) (embQ b) = emb3 ρ ∧ ρ.norm ≤ Real.pi + 93 * 2⁻¹ ^ M.scalar.p ∧
      ∀ v, (act .rv (⟨ρ⟩ : RotVec) (act .quat (direction b) v) - act .quat (direction a) v).norm ≤
        (629 * 2⁻¹ ^ M.scalar.p + 103 / 100 * P.dp) * v.norm := by
  have hdp := P.dp_le
  obtain ⟨ρ, e, r1, r2⟩ := boxMinus_close h P hP ha hb hd
  have bp : 0 < b.norm := by have := (abs_le.mp hb).1; linarith
  have hB : IsSO3 (sMat (direction b)) := by have := den_isSO3 ((valid_quat_iff _).mpr (dir_normSq bp)); rw [den_eq .quat] at this; exact this
  refine ⟨ρ, e, r1, fun v => ?_⟩
  rw [act_eq_dmat, act_eq_dmat, act_eq_dmat]
  have k := r2 ((sMat (direction b)).mulVec v)
  have e1 : (sMat (direction a) * (sMat (direction b)).transpose).mulVec ((sMat (direction b)).mulVec v) = (sMat (direction a)).mulVec v := by
    rw [M3.mulVec_mulVec, mul_assoc, SO3.tr_mul hB, mul_one]
  rw [e1, SO3.mulVec_norm hB] at k
  exact k

end Inst
end Kindr
