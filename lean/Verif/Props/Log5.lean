import Verif.Props.Log4

/-!
# Disparity angle, isNear, round trip and interpolation of quaternions in IEEE arithmetic
-/

set_option autoImplicit false

open Classical

noncomputable section
namespace Kindr
open Spec
namespace Inst
variable {M : Inst}

private lemma abs_tri {a b c x y : ℝ} (h1 : |a - b| ≤ x) (h2 : |b - c| ≤ y) : |a - c| ≤ x + y := by
  have := abs_sub_le a b c; linarith

lemma atan2_small {x w : ℝ} (hx : 0 ≤ x) (hw : 9 / 10 ≤ w) : 0 ≤ Kindr.atan2 x w ∧ Kindr.atan2 x w ≤ 9 / 5 * x := by
  have h0 := atan2_nonneg (x := w) hx
  have h1 := atan2_le_pi_div_two (y := x) (by linarith : 0 ≤ w)
  have h2 := atan2_mul_sin x w
  have h3 := Real.mul_le_sin h0 h1
  have hp := Real.pi_lt_d2
  have hp0 := Real.pi_pos
  refine ⟨h0, ?_⟩
  have h4 : 9 / 10 ≤ Real.sqrt (w * w + x * x) := by
    apply Real.le_sqrt_of_sq_le
    nlinarith
  have s0 : 0 ≤ Real.sin (Kindr.atan2 x w) := Real.sin_nonneg_of_nonneg_of_le_pi h0 (by linarith)
  have h5 := mul_le_mul_of_nonneg_right h4 s0
  obtain ⟨a, ha⟩ : ∃ a, a = Kindr.atan2 x w := ⟨_, rfl⟩
  rw [← ha] at h0 h1 h2 h3 h5 s0 ⊢
  have h6 : 2 / Real.pi * a = 2 * a / Real.pi := by ring
  rw [h6, div_le_iff₀ hp0] at h3
  have h7 := mul_le_mul_of_nonneg_left hp.le s0
  linarith

set_option maxHeartbeats 1000000 in
/-- The angle of `AngleAxis(q)`. -/
lemma aaAngle_spec (h : Sound M) {m : Quat} {d : ℝ} (hm : UnitUpTo d m) (hd : d ≤ 1 / 1000) :
    ∃ θ, (M.scalar.arith.aaOfQuat (embQ m)).angle = .fin θ ∧ |θ| ≤ 4 ∧
      ∃ n : V3, n.normSq = 1 ∧ Close (17 * M.scalar.uu) (rodMat θ n) (sMat (direction m)) := by
  have hu := uu_pos h
  have hs := (Format.alf_small (alf h)).1
  have he := (Format.alf_small (alf h)).2
  have R := Format.rn (Format.alf_ok (alf h))
  have hp := Real.pi_lt_d2
  obtain ⟨m1, m2⟩ := abs_le.mp hm
  have mp : 0 < m.norm := by linarith
  have eu : M.scalar.uu ^ 2 ≤ M.scalar.uu / 10 ^ 6 := by
    have := mul_le_mul_of_nonneg_left hs hu.le
    rw [sq]; linarith
  have hrod : rodMat (AngAx.ofQuat m).angle (AngAx.ofQuat m).axis = sMat (direction m) := by
    have e := ofQuat_scale mp (direction m)
    rw [← dir_scale mp] at e
    rw [e]; exact rodMat_ofQuat (dir_normSq mp)
  have hax : (AngAx.ofQuat m).axis.normSq = 1 := by
    have e := ofQuat_scale mp (direction m)
    rw [← dir_scale mp] at e
    rw [e]; exact (ofQuat_spec (dir_normSq mp)).1
  obtain ⟨N, hN⟩ : ∃ N, N = m.vec.norm := ⟨_, rfl⟩
  have N0 : 0 ≤ N := by rw [hN]; exact V3.norm_nonneg _
  have e2 : m.norm ^ 2 = m.w ^ 2 + N ^ 2 := by
    have q := Real.sq_sqrt (show 0 ≤ m.normSq by unfold Quat.normSq; nlinarith [mul_self_nonneg m.w, mul_self_nonneg m.x, mul_self_nonneg m.y, mul_self_nonneg m.z])
    rw [hN, V3.norm_sq]
    change m.norm ^ 2 = _ at q
    rw [q]; simp only [Quat.normSq, V3.normSq, V3.dot, Quat.vec]; ring
  have Nb : N ≤ 2 := by
    refine abs_le_of_sq_le_sq' (?_ : N ^ 2 ≤ 2 ^ 2) (by norm_num) |>.2
    have : m.norm ^ 2 ≤ 2 ^ 2 := pow_le_pow_left₀ mp.le (by linarith) 2
    have := sq_nonneg m.w
    linarith
  have eθ0 : (AngAx.ofQuat m).angle = 2 * Kindr.atan2 N |m.w| := by
    unfold AngAx.ofQuat
    simp only [← hN]
    by_cases z : N = 0
    · rw [if_neg (by simpa using z), z]
      have : Kindr.atan2 0 |m.w| = 0 := by
        have := Complex.arg_ofReal_of_nonneg (abs_nonneg m.w)
        have e : ((|m.w| : ℝ) : ℂ) = ⟨|m.w|, 0⟩ := rfl
        rw [e] at this; exact this
      rw [this, mul_zero]
    · rw [if_pos z]
  obtain ⟨n, en, n0, n1⟩ := Format.norm_any h.scalar (v := m.vec) (by rw [← hN]; exact Nb.trans (by norm_num))
  rw [← hN] at n1
  have key : ∃ t, (M.scalar.arith.aaOfQuat (embQ m)).angle = .fin t ∧ |t| ≤ 4 ∧ |t - 2 * Kindr.atan2 N (|m.w|)| ≤ 17 * M.scalar.uu := by
    have small : N < M.scalar.uu → Kindr.atan2 N |m.w| ≤ 9 / 5 * N ∧ 0 ≤ Kindr.atan2 N |m.w| ∧ 9 / 10 ≤ |m.w| := fun hsm => by
      have : 9 / 10 ≤ |m.w| := by
        refine abs_le_of_sq_le_sq' (?_ : (9 / 10) ^ 2 ≤ |m.w| ^ 2) (abs_nonneg _) |>.2
        rw [sq_abs]
        have k1 := pow_le_pow_left₀ (by norm_num) (by linarith : (99 : ℝ) / 100 ≤ m.norm) 2
        have k2 : N ^ 2 ≤ 1 / 100 := by
          have := pow_le_pow_left₀ N0 (by norm_num at hs; linarith : N ≤ 1 / 10) 2
          norm_num at this ⊢; exact this
        norm_num at k1 ⊢; linarith
      have := atan2_small N0 this
      exact ⟨this.2, this.1, by assumption⟩
    unfold XArith.aaOfQuat
    have ev : (embQ m).vec = emb3 m.vec := rfl
    rw [ev, en]
    by_cases z : n = 0
    · refine ⟨0, ?_, by norm_num, ?_⟩
      · simp only [z, XR.eq, not_true_eq_false, if_false]
      · have Ns : N < M.scalar.uu := by
          rw [z, zero_sub, abs_neg, abs_of_nonneg N0] at n1
          by_contra hc; push Not at hc
          have := mul_le_mul_of_nonneg_right hs N0
          norm_num at this eu n1 hs
          linarith
        obtain ⟨k1, k2, -⟩ := small Ns
        rw [zero_sub, abs_neg, abs_of_nonneg (by linarith)]; linarith
    · have A0 := atan2_nonneg (x := |m.w|) n0
      have A1 := atan2_le_pi_div_two (y := n) (abs_nonneg m.w)
      obtain ⟨B, hB⟩ : ∃ B, B = Kindr.atan2 n |m.w| := ⟨_, rfl⟩
      have eB : M.scalar.arith.atan2 (.fin n) (embQ m).w.abs = .fin (M.scalar.round B) := by
        rw [hB]
        exact (fin_le h (by rw [abs_of_nonneg A0]; linarith)).1
      rw [← hB] at A0 A1
      have r1 := R.err B
      rw [abs_of_nonneg A0] at r1
      have r1' : |M.scalar.round B - B| ≤ 16 / 10 * M.scalar.uu := by
        have := mul_le_mul_of_nonneg_left (A1.trans (by linarith : Real.pi / 2 ≤ 1575 / 1000)) hu.le
        linarith
      obtain ⟨X, hX⟩ : ∃ X, X = M.scalar.round B := ⟨_, rfl⟩
      rw [← hX] at r1' eB
      obtain ⟨a1, a2⟩ := abs_le.mp r1'
      have bX : |2 * X| ≤ 316 / 100 := by norm_num at hs; rw [abs_le]; constructor <;> linarith
      have eX : M.scalar.arith.mul (.fin 2) (.fin X) = .fin (M.scalar.round (2 * X)) := (fin_le h (by linarith)).1
      have r2 := R.err (2 * X)
      have r2' : |M.scalar.round (2 * X) - 2 * X| ≤ 32 / 10 * M.scalar.uu := by
        have := mul_le_mul_of_nonneg_left bX hu.le
        linarith
      obtain ⟨T, hT⟩ : ∃ T, T = M.scalar.round (2 * X) := ⟨_, rfl⟩
      rw [← hT] at r2' eX
      obtain ⟨b1, b2⟩ := abs_le.mp r2'
      have BC : |B - Kindr.atan2 N (|m.w|)| ≤ 5 * M.scalar.uu := by
        by_cases Ns : N < M.scalar.uu
        · obtain ⟨k1, k2, k3⟩ := small Ns
          have k4 := (atan2_small n0 k3).2
          rw [← hB] at k4
          have uN := mul_le_mul_of_nonneg_left Ns.le hu.le
          have : n ≤ 101 / 100 * M.scalar.uu := by
            have := (abs_le.mp n1).2
            norm_num at eu
            rw [← sq] at uN
            linarith
          rw [abs_le]; constructor <;> linarith
        · push Not at Ns
          have Np : 0 < N := by linarith
          rw [hB]
          refine FloatLib.atan2_perturb Np _ (n1.trans ?_) (by norm_num at hs; linarith)
          have := mul_le_mul_of_nonneg_left Ns hu.le
          rw [sq]; linarith
      obtain ⟨c1, c2⟩ := abs_le.mp BC
      refine ⟨T, ?_, ?_, ?_⟩
      · rw [if_pos (by simpa [XR.eq] using z)]
        simp only [eB, eX]
      · obtain ⟨x1, x2⟩ := abs_le.mp bX
        norm_num at hs
        rw [abs_le]; constructor <;> linarith
      · rw [abs_le]; constructor <;> linarith
  obtain ⟨t, et, t1, t2⟩ := key
  refine ⟨t, et, t1, _, hax, ?_⟩
  have := (Matlab.rodMat_close t (AngAx.ofQuat m).angle hax).mono (eθ0 ▸ t2)
  rwa [hrod] at this

lemma dir_so3 {q : Quat} {d : ℝ} (hq : UnitUpTo d q) (hd : d ≤ 1 / 1000) : IsSO3 (sMat (direction q)) :=
  sMat_isSO3 (dir_normSq (by have := (abs_le.mp hq).1; linarith))

/-- **C113 (c).** `a.getDisparityAngle(b)` of two stored quaternions in IEEE arithmetic is the angle between the two rotations, up to rounding: no threshold of the
code enters. -/
theorem C113_disparity (h : Sound M) (a b : Quat) {d : ℝ} (ha : UnitUpTo d a) (hb : UnitUpTo d b) (hd : d ≤ 1 / 10000) :
    ∃ t, M.disparityAngle (embQ a) (embQ b) = .fin t ∧ 0 ≤ t ∧
      |t - rotAngle (den .quat (direction a) * (den .quat (direction b)).transpose)| ≤ 1070 * 2⁻¹ ^ M.scalar.p := by
  have hu := uu_pos h
  have hU : M.U = 1001 / 1000 * M.scalar.uu := rfl
  have hUs := U_small h
  have hU0 := U_pos h
  have hp2 := Real.pi_lt_d2
  have hp1 := Real.pi_gt_d2
  have hs := (Format.alf_small (alf h)).1
  have d0 : 0 ≤ d := (abs_nonneg _).trans ha
  obtain ⟨m, em, mp, m1, m2⟩ := quot_spec h ha hb (by linarith)
  obtain ⟨θ, eθ, θ1, n, hn, hc⟩ := aaAngle_spec h m1 (by norm_num at hs; linarith)
  obtain ⟨t, et, k, k1, k2⟩ := wrapDouble_spec h (θ1.trans (by norm_num))
  obtain ⟨s, hsd⟩ : ∃ s, s = |t| := ⟨_, rfl⟩
  have hs0 : 0 ≤ s := by rw [hsd]; exact abs_nonneg _
  have sA := dir_so3 ha (by linarith)
  have sB := dir_so3 hb (by linarith)
  have hR : IsSO3 (sMat (direction a) * (sMat (direction b)).transpose) := SO3.mul sA (SO3.transpose sB)
  have hcl : Close (430 * M.U + 17 * M.scalar.uu + 41 * M.scalar.uu) (rodMat t n) (sMat (direction a) * (sMat (direction b)).transpose) := by
    have e : rodMat (θ - 2 * Real.pi * k) n = rodMat θ n := by
      rw [← rodMat_add_two_pi θ (-k) n]; congr 1; push_cast; ring
    have := (Matlab.rodMat_close t (θ - 2 * Real.pi * k) hn).mono k1
    rw [e] at this
    exact (this.trans hc).trans m2
  have c1 := rotAngle_close (rodMat_isSO3 t hn) hR hcl
  have c2 : |s - rotAngle (rodMat t n)| ≤ 80 * M.U := by
    have e : rotAngle (rodMat t n) = Real.arccos (Real.cos s) := by
      rw [rotAngle, trace_rodMat t hn, hsd, Real.cos_abs]; congr 1; ring
    rw [e]
    rw [← hsd] at k2
    by_cases hle : s ≤ Real.pi
    · rw [Real.arccos_cos hs0 hle, sub_self, abs_zero]; linarith
    · have e2 : Real.cos s = Real.cos (2 * Real.pi - s) := by rw [Real.cos_two_pi_sub]
      rw [e2, Real.arccos_cos (by linarith) (by linarith), abs_le]
      constructor <;> linarith
  have c3 := (err_le h (x := s) (B := 4) (by norm_num) (by rw [abs_of_nonneg hs0]; linarith)).1
  refine ⟨M.scalar.round s, ?_, ?_, ?_⟩
  · unfold disparityAngle
    rw [em, eθ, et]
    change M.scalar.arith.rnd |t| = _
    rw [← hsd]
    exact (fin_le h (by rw [abs_of_nonneg hs0]; linarith)).1
  · exact Format.round_nonneg hs0
  · have e : rotAngle (den .quat (direction a) * (den .quat (direction b)).transpose) = rotAngle (sMat (direction a) * (sMat (direction b)).transpose) := by
      rw [den_eq .quat, den_eq .quat]; rfl
    rw [e]
    have := abs_tri (abs_tri c3 c2) c1
    refine this.trans ?_
    change _ ≤ 1070 * M.scalar.uu
    rw [hU]; linarith

/-- **C113 (d).** `a.isNear(b, tol)` in IEEE arithmetic decides whether the angle between the rotations is at most the tolerance, outside a band of `1070` rounding units. -/
theorem C113_isNear (h : Sound M) (a b : Quat) {d : ℝ} (ha : UnitUpTo d a) (hb : UnitUpTo d b) (hd : d ≤ 1 / 10000) (tol : ℝ) :
    (rotAngle (den .quat (direction a) * (den .quat (direction b)).transpose) + 1070 * 2⁻¹ ^ M.scalar.p ≤ tol →
      M.isNear (embQ a) (embQ b) (.fin tol) = true) ∧
    (tol + 1070 * 2⁻¹ ^ M.scalar.p < rotAngle (den .quat (direction a) * (den .quat (direction b)).transpose) →
      M.isNear (embQ a) (embQ b) (.fin tol) = false) := by
  obtain ⟨t, et, -, t1⟩ := C113_disparity h a b ha hb hd
  obtain ⟨x1, x2⟩ := abs_le.mp t1
  constructor
  · intro k
    unfold isNear
    rw [et]
    refine decide_eq_true ?_
    change t < tol ∨ t = tol
    exact lt_or_eq_of_le (by linarith)
  · intro k
    unfold isNear
    rw [et]
    refine decide_eq_false ?_
    change ¬ (t < tol ∨ t = tol)
    rintro (k' | k') <;> linarith

/-! ## Composition with an exponential -/

lemma conj_conj (b : Quat) : b.conj.conj = b := by
  ext <;> simp [Quat.conj]

lemma dir_conj (b : Quat) : sMat (direction b.conj) = (sMat (direction b)).transpose := by
  have nb : b.conj.norm = b.norm := by rw [← norm_toH, toH_conj, norm_star, norm_toH]
  rw [← sMat_conj]
  congr 1
  ext
  · change b.w / b.conj.norm = b.w / b.norm; rw [nb]
  · change -b.x / b.conj.norm = -(b.x / b.norm); rw [nb, neg_div]
  · change -b.y / b.conj.norm = -(b.y / b.norm); rw [nb, neg_div]
  · change -b.z / b.conj.norm = -(b.z / b.norm); rw [nb, neg_div]

/-- The exponential of a vector times a stored quaternion. -/
lemma boxPlus_close (h : Sound M) (P : Prec) (hE : P.eps = 2 * M.scalar.uu) {a : Quat} {d : ℝ} (ha : UnitUpTo d a) (hd : d ≤ 1 / 10000) {r : V3} (hr : r.norm ≤ 316 / 100) :
    ∃ c, M.boxPlus P (embQ a) (emb3 r) = embQ c ∧ UnitUpTo (21 / 10 * d + 74 * M.scalar.uu) c ∧
      Close (160 * M.scalar.uu) (sMat (direction c)) (dmat .rv (⟨r⟩ : RotVec) * sMat (direction a)) := by
  have hu := uu_pos h
  have hs := (Format.alf_small (alf h)).1
  have d0 : 0 ≤ d := (abs_nonneg _).trans ha
  obtain ⟨e, ee, e1, -⟩ := Format.exp_close h.scalar hE (r := r) (hr.trans (by norm_num))
  have e2 : ‖toH e - toH (Format.expQ r)‖ ≤ 296 / 10 * M.scalar.uu := by
    rw [Format.toH_expQ]
    have := mul_le_mul_of_nonneg_left hr hu.le
    linarith
  have nr : (Format.expQ r).norm = 1 := by rw [Quat.norm, Format.expQ_valid, Real.sqrt_one]
  have e3 : |e.norm - 1| ≤ 296 / 10 * M.scalar.uu := by
    have := abs_norm_sub_norm_le (toH e) (toH (Format.expQ r))
    rw [norm_toH, norm_toH, nr] at this
    exact this.trans e2
  have ep : 0 < e.norm := by have := (abs_le.mp e3).1; norm_num at hs; linarith
  have nb : a.conj.norm = a.norm := by rw [← norm_toH, toH_conj, norm_star, norm_toH]
  obtain ⟨c, ec, cp, c1, c2⟩ := quot_spec h (a := e) (b := a.conj) (d := d + 296 / 10 * M.scalar.uu) (by unfold UnitUpTo; linarith)
    (by unfold UnitUpTo at ha ⊢; rw [nb]; linarith) (by norm_num at hs; linarith)
  refine ⟨c, ?_, ?_, ?_⟩
  · have q : XArith.quatInverted (embQ a.conj) = embQ a := by
      change embQ a.conj.conj = _
      rw [conj_conj]
    rw [q] at ec
    unfold Inst.boxPlus XArith.boxPlus
    change M.scalar.arith.quatMul (M.scalar.arith.quatOfRv P (emb3 r)) (embQ a) = _
    rw [ee, ec]
  · unfold UnitUpTo at c1 ⊢; linarith
  · rw [dir_conj, M3.transpose_transpose] at c2
    have k := dir_dist ep (by rw [nr]; norm_num : 0 < (Format.expQ r).norm)
    rw [nr, div_one] at k
    have de : direction (Format.expQ r) = Format.expQ r := by ext <;> simp [direction, nr]
    rw [de] at k
    have k2 := sMat_lipschitz (dir_normSq ep) (Format.expQ_valid r) k
    rw [Format.sMat_expQ] at k2
    have sA := dir_so3 ha (by linarith)
    have k3 : Close (1184 / 10 * M.scalar.uu) (sMat (direction e) * sMat (direction a)) (dmat .rv (⟨r⟩ : RotVec) * sMat (direction a)) := fun v => by
      have := k2 ((sMat (direction a)).mulVec v)
      rw [M3.mulVec_mulVec, M3.mulVec_mulVec, SO3.mulVec_norm sA] at this
      exact this.trans (mul_le_mul_of_nonneg_right (by linarith) v.norm_nonneg)
    exact (c2.trans k3).mono (by linarith)

/-- **C113 (e).** The round trip `b.boxPlus(a.boxMinus(b))` in IEEE arithmetic gives a quaternion that rotates every vector as `a` does. -/
theorem C113_round_trip (h : Sound M) (P : Prec) (hP : 100 * 2⁻¹ ^ M.scalar.p ≤ P.dp) (hE : P.eps = 2 * 2⁻¹ ^ M.scalar.p) (a b : Quat) {d : ℝ} (ha : UnitUpTo d a)
    (hb : UnitUpTo d b) (hd : d ≤ P.dp / 16) :
    ∃ c, M.boxPlus P (embQ b) (M.boxMinus P (embQ a) (embQ b)) = embQ c ∧ UnitUpTo (21 / 10 * d + 74 * 2⁻¹ ^ M.scalar.p) c ∧
      ∀ v, (act .quat (direction c) v - act .quat (direction a) v).norm ≤ (789 * 2⁻¹ ^ M.scalar.p + 103 / 100 * P.dp) * v.norm := by
  have hdp := P.dp_le
  have hs := (Format.alf_small (alf h)).1
  have hp2 := Real.pi_lt_d2
  obtain ⟨ρ, e, r1, r2⟩ := boxMinus_close h P hP ha hb hd
  obtain ⟨c, ec, c1, c2⟩ := boxPlus_close h P hE hb (by linarith) (r := ρ) (by norm_num at hs; linarith)
  refine ⟨c, by rw [e, ec], c1, fun v => ?_⟩
  have hB := dir_so3 hb (by linarith)
  have k2 : Close (629 * M.scalar.uu + 103 / 100 * P.dp) (dmat .rv (⟨ρ⟩ : RotVec) * sMat (direction b)) (sMat (direction a)) := fun v => by
    have k := r2 ((sMat (direction b)).mulVec v)
    have e1 : (sMat (direction a) * (sMat (direction b)).transpose).mulVec ((sMat (direction b)).mulVec v) = (sMat (direction a)).mulVec v := by
      rw [M3.mulVec_mulVec, mul_assoc, SO3.tr_mul hB, mul_one]
    rw [e1, SO3.mulVec_norm hB, M3.mulVec_mulVec] at k
    exact k
  rw [act_eq_dmat, act_eq_dmat]
  have := (c2.trans k2) v
  refine this.trans (mul_le_mul_of_nonneg_right ?_ v.norm_nonneg)
  change _ ≤ 789 * M.scalar.uu + _
  linarith

/-- **C113 (f).** `a.interpolate(b, t)` in IEEE arithmetic turns `a` by the fraction `t` (clamped to `[0, 1]`) of a rotation vector `ρ`, at most a half turn long, that takes `a` to `b`. -/
theorem C113_interpolate (h : Sound M) (P : Prec) (hP : 100 * 2⁻¹ ^ M.scalar.p ≤ P.dp) (hE : P.eps = 2 * 2⁻¹ ^ M.scalar.p) (a b : Quat) {d : ℝ} (ha : UnitUpTo d a)
    (hb : UnitUpTo d b) (hd : d ≤ P.dp / 16) :
    ∃ ρ : V3, ρ.norm ≤ Real.pi + 93 * 2⁻¹ ^ M.scalar.p ∧
      (∀ v, (act .rv (⟨ρ⟩ : RotVec) (act .quat (direction a) v) - act .quat (direction b) v).norm ≤ (629 * 2⁻¹ ^ M.scalar.p + 103 / 100 * P.dp) * v.norm) ∧
      ∀ t : ℝ, ∃ c, M.interpolate P (embQ a) (embQ b) (.fin t) = embQ c ∧ UnitUpTo (21 / 10 * d + 74 * 2⁻¹ ^ M.scalar.p) c ∧
        ∀ v, (act .quat (direction c) v - act .rv (⟨(max 0 (min t 1)) • ρ⟩ : RotVec) (act .quat (direction a) v)).norm ≤ 166 * 2⁻¹ ^ M.scalar.p * v.norm := by
  have hdp := P.dp_le
  have hu := uu_pos h
  have hs := (Format.alf_small (alf h)).1
  have he := (Format.alf_small (alf h)).2
  have he0 := (Format.alf_eta (alf h)).1
  have hp2 := Real.pi_lt_d2
  have R := Format.rn (Format.alf_ok (alf h))
  obtain ⟨ρ, e, r1, r2⟩ := boxMinus_close h P hP hb ha hd
  have hA := dir_so3 ha (by linarith)
  refine ⟨ρ, r1, ?_, fun t => ?_⟩
  · obtain ⟨ρ', e', -, q⟩ := C113_boxMinus h P hP b a hb ha hd
    have : ρ' = ρ := by
      rw [e] at e'
      have := congrArg XV3.x e'; have := congrArg XV3.y e'; have := congrArg XV3.z e'
      ext <;> simp_all [emb3]
    rwa [this] at q
  · obtain ⟨s, hsd⟩ : ∃ s, s = max 0 (min t 1) := ⟨_, rfl⟩
    have s0 : 0 ≤ s := by rw [hsd]; exact le_max_left _ _
    have s1 : s ≤ 1 := by rw [hsd]; exact max_le (by norm_num) (min_le_right _ _)
    have es : (if XR.lt (.fin 1) (.fin t) then XR.fin 1 else if XR.lt (.fin t) (.fin 0) then .fin 0 else .fin t) = .fin s := by
      rw [hsd]
      by_cases h1 : 1 < t
      · rw [if_pos (show XR.lt (.fin 1) (.fin t) from h1), min_eq_right h1.le, max_eq_right (by norm_num)]
      · rw [if_neg (show ¬ XR.lt (.fin 1) (.fin t) from h1)]
        by_cases h2 : t < 0
        · rw [if_pos (show XR.lt (.fin t) (.fin 0) from h2), min_eq_left (by linarith), max_eq_left h2.le]
        · rw [if_neg (show ¬ XR.lt (.fin t) (.fin 0) from h2)]
          push Not at h1 h2; rw [min_eq_left h1, max_eq_right h2]
    have ρb : ρ.norm ≤ 315 / 100 := by have := Real.pi_lt_d4; norm_num at hs this ⊢; linarith
    have rr : M.scalar.uu * ρ.norm ≤ M.scalar.uu * (315 / 100) := mul_le_mul_of_nonneg_left ρb hu.le
    have bd : ∀ x : ℝ, |x| ≤ ρ.norm → |x * s| ≤ 315 / 100 := fun x hx => by
      rw [abs_mul, abs_of_nonneg s0]
      have := mul_le_mul hx s1 s0 (V3.norm_nonneg _)
      linarith
    have fin : ∀ x : ℝ, |x| ≤ ρ.norm → M.scalar.arith.mul (.fin x) (.fin s) = .fin (M.scalar.round (x * s)) ∧ |M.scalar.round (x * s) - x * s| ≤ 316 / 100 * M.scalar.uu := fun x hx => by
      refine ⟨(fin_le h ((bd x hx).trans (by norm_num))).1, (R.err _).trans ?_⟩
      have := mul_le_mul_of_nonneg_left (bd x hx) hu.le
      linarith
    obtain ⟨fx, gx⟩ := fin _ (comp3 ρ).1
    obtain ⟨fy, gy⟩ := fin _ (comp3 ρ).2.1
    obtain ⟨fz, gz⟩ := fin _ (comp3 ρ).2.2
    obtain ⟨r, hr⟩ : ∃ r : V3, r = ⟨M.scalar.round (ρ.x * s), M.scalar.round (ρ.y * s), M.scalar.round (ρ.z * s)⟩ := ⟨_, rfl⟩
    have rd : (r - s • ρ).norm ≤ 55 / 10 * M.scalar.uu := by
      refine (norm_of_coeff (e := 316 / 100 * M.scalar.uu) ?_ ?_ ?_).trans (by linarith)
      · rw [hr]; simp only [V3.smul_x]; rw [mul_comm s]; exact gx
      · rw [hr]; simp only [V3.smul_y]; rw [mul_comm s]; exact gy
      · rw [hr]; simp only [V3.smul_z]; rw [mul_comm s]; exact gz
    have rn : r.norm ≤ 316 / 100 := by
      have e5 : r = (r - s • ρ) + s • ρ := by ext <;> simp
      rw [e5]
      refine (V3.norm_add_le _ _).trans ?_
      rw [V3.norm_smul, abs_of_nonneg s0]
      have := mul_le_mul s1 ρb (V3.norm_nonneg _) (by norm_num)
      norm_num at hs; linarith
    obtain ⟨c, ec, c1, c2⟩ := boxPlus_close h P hE ha (by linarith) rn
    refine ⟨c, ?_, c1, fun v => ?_⟩
    · unfold Inst.interpolate
      rw [es, e]
      change M.boxPlus P (embQ a) ⟨M.scalar.arith.mul (.fin ρ.x) (.fin s), M.scalar.arith.mul (.fin ρ.y) (.fin s), M.scalar.arith.mul (.fin ρ.z) (.fin s)⟩ = _
      rw [fx, fy, fz, ← ec, hr]; rfl
    · rw [act_eq_dmat, act_eq_dmat, act_eq_dmat, ← hsd]
      have k1 := c2 v
      have k2 := ((rv_close r (s • ρ)).mono rd) ((sMat (direction a)).mulVec v)
      rw [SO3.mulVec_norm hA] at k2
      rw [← M3.mulVec_mulVec] at k1
      obtain ⟨x, hx⟩ : ∃ x, x = (sMat (direction c)).mulVec v := ⟨_, rfl⟩
      obtain ⟨y, hy⟩ : ∃ y, y = (dmat .rv (⟨r⟩ : RotVec)).mulVec ((sMat (direction a)).mulVec v) := ⟨_, rfl⟩
      obtain ⟨z, hz⟩ : ∃ z, z = (dmat .rv (⟨s • ρ⟩ : RotVec)).mulVec ((sMat (direction a)).mulVec v) := ⟨_, rfl⟩
      rw [← hx, ← hy] at k1
      rw [← hy, ← hz] at k2
      change ((sMat (direction c)).mulVec v - (dmat .rv (⟨s • ρ⟩ : RotVec)).mulVec ((sMat (direction a)).mulVec v)).norm ≤ 166 * M.scalar.uu * v.norm
      rw [← hx, ← hz]
      have e6 : x - z = (x - y) + (y - z) := by abel
      rw [e6]
      refine (V3.norm_add_le _ _).trans ?_
      have := mul_nonneg hu.le v.norm_nonneg
      have e7 : 166 * M.scalar.uu * v.norm = 166 * (M.scalar.uu * v.norm) := by ring
      rw [e7]; linarith

/-! ## `double` and `float` -/

/-- `double`: quaternions stored with a length of one up to `6e-14`. -/
theorem C113_double (a b : Quat) (ha : |a.norm - 1| ≤ 6 / 10 ^ 14) (hb : |b.norm - 1| ≤ 6 / 10 ^ 14) :
    (∃ ρ, Inst.double.boxMinus .double (embQ a) (embQ b) = emb3 ρ ∧ ρ.norm ≤ Real.pi + 1 / 10 ^ 13 ∧
      ∀ v, (act .rv (⟨ρ⟩ : RotVec) (act .quat (direction b) v) - act .quat (direction a) v).norm ≤ 12 / 10 ^ 13 * v.norm) ∧
    (∃ t, Inst.double.disparityAngle (embQ a) (embQ b) = .fin t ∧ 0 ≤ t ∧
      |t - rotAngle (den .quat (direction a) * (den .quat (direction b)).transpose)| ≤ 12 / 10 ^ 14) ∧
    ∃ c, Inst.double.boxPlus .double (embQ b) (Inst.double.boxMinus .double (embQ a) (embQ b)) = embQ c ∧ |c.norm - 1| ≤ 14 / 10 ^ 14 ∧
      ∀ v, (act .quat (direction c) v - act .quat (direction a) v).norm ≤ 12 / 10 ^ 13 * v.norm := by
  have hP : 100 * 2⁻¹ ^ Inst.double.scalar.p ≤ Prec.double.dp := by norm_num [Inst.double, Format.double, Prec.double]
  have hE : Prec.double.eps = 2 * 2⁻¹ ^ Inst.double.scalar.p := by norm_num [Prec.double, Inst.double, Format.double]
  have hd : (6 / 10 ^ 14 : ℝ) ≤ Prec.double.dp / 16 := by norm_num [Prec.double]
  refine ⟨?_, ?_, ?_⟩
  · obtain ⟨ρ, e, r1, r2⟩ := C113_boxMinus double_sound .double hP a b ha hb hd
    refine ⟨ρ, e, r1.trans ?_, fun v => (r2 v).trans (mul_le_mul_of_nonneg_right ?_ v.norm_nonneg)⟩
    · norm_num [Inst.double, Format.double]
    · norm_num [Inst.double, Format.double, Prec.double]
  · obtain ⟨t, e, t0, t1⟩ := C113_disparity double_sound a b ha hb (by norm_num)
    exact ⟨t, e, t0, t1.trans (by norm_num [Inst.double, Format.double])⟩
  · obtain ⟨c, e, c1, c2⟩ := C113_round_trip double_sound .double hP hE a b ha hb hd
    refine ⟨c, e, le_trans c1 ?_, fun v => (c2 v).trans (mul_le_mul_of_nonneg_right ?_ v.norm_nonneg)⟩
    · norm_num [Inst.double, Format.double]
    · norm_num [Inst.double, Format.double, Prec.double]

/-- `float`, whichever `floor` the compiler chooses: quaternions stored with a length of one up to `6e-7`. -/
theorem C113_float (M : Inst) (hM : M = .floatFloorF ∨ M = .floatFloorD) (a b : Quat) (ha : |a.norm - 1| ≤ 6 / 10 ^ 7) (hb : |b.norm - 1| ≤ 6 / 10 ^ 7) :
    (∃ ρ, M.boxMinus .float (embQ a) (embQ b) = emb3 ρ ∧ ρ.norm ≤ Real.pi + 1 / 10 ^ 5 ∧
      ∀ v, (act .rv (⟨ρ⟩ : RotVec) (act .quat (direction b) v) - act .quat (direction a) v).norm ≤ 5 / 10 ^ 5 * v.norm) ∧
    (∃ t, M.disparityAngle (embQ a) (embQ b) = .fin t ∧ 0 ≤ t ∧
      |t - rotAngle (den .quat (direction a) * (den .quat (direction b)).transpose)| ≤ 7 / 10 ^ 5) ∧
    ∃ c, M.boxPlus .float (embQ b) (M.boxMinus .float (embQ a) (embQ b)) = embQ c ∧ |c.norm - 1| ≤ 6 / 10 ^ 6 ∧
      ∀ v, (act .quat (direction c) v - act .quat (direction a) v).norm ≤ 6 / 10 ^ 5 * v.norm := by
  have hp : M.scalar.p = 24 := by rcases hM with rfl | rfl <;> rfl
  have hS : Sound M := by rcases hM with rfl | rfl; exacts [floatF_sound, floatD_sound]
  have hP : 100 * 2⁻¹ ^ M.scalar.p ≤ Prec.float.dp := by rw [hp]; norm_num [Prec.float]
  have hE : Prec.float.eps = 2 * 2⁻¹ ^ M.scalar.p := by rw [hp]; norm_num [Prec.float]
  have hd : (6 / 10 ^ 7 : ℝ) ≤ Prec.float.dp / 16 := by norm_num [Prec.float]
  refine ⟨?_, ?_, ?_⟩
  · obtain ⟨ρ, e, r1, r2⟩ := C113_boxMinus hS .float hP a b ha hb hd
    rw [hp] at r1 r2
    refine ⟨ρ, e, r1.trans ?_, fun v => (r2 v).trans (mul_le_mul_of_nonneg_right ?_ v.norm_nonneg)⟩
    · norm_num
    · norm_num [Prec.float]
  · obtain ⟨t, e, t0, t1⟩ := C113_disparity hS a b ha hb (by norm_num)
    rw [hp] at t1
    exact ⟨t, e, t0, t1.trans (by norm_num)⟩
  · obtain ⟨c, e, c1, c2⟩ := C113_round_trip hS .float hP hE a b ha hb hd
    rw [hp] at c1 c2
    refine ⟨c, e, le_trans c1 ?_, fun v => (c2 v).trans (mul_le_mul_of_nonneg_right ?_ v.norm_nonneg)⟩
    · norm_num
    · norm_num [Prec.float]

/-- The hypotheses are met by what the library stores: after renormalisation a `double` quaternion is within `6` rounding units of length one (C108), and two literal
quaternions 120° apart are exactly of length one. -/
theorem C113_example : UnitUpTo 0 ⟨1 / 2, 1 / 2, 1 / 2, 1 / 2⟩ ∧ UnitUpTo 0 ⟨1, 0, 0, 0⟩ ∧ (6 : ℝ) * 2⁻¹ ^ Format.double.p ≤ Prec.double.dp / 16 ∧
    (6 : ℝ) * 2⁻¹ ^ Format.float.p ≤ Prec.float.dp / 16 ∧
    ∃ t, Inst.double.disparityAngle (embQ ⟨1 / 2, 1 / 2, 1 / 2, 1 / 2⟩) (embQ ⟨1, 0, 0, 0⟩) = .fin t ∧ |t - 2 * Real.pi / 3| ≤ 12 / 10 ^ 14 := by
  have n1 : (⟨1 / 2, 1 / 2, 1 / 2, 1 / 2⟩ : Quat).norm = 1 := by rw [Quat.norm, Quat.normSq, Real.sqrt_eq_one]; norm_num
  have n2 : (⟨1, 0, 0, 0⟩ : Quat).norm = 1 := by rw [Quat.norm, Quat.normSq, Real.sqrt_eq_one]; norm_num
  refine ⟨by unfold UnitUpTo; rw [n1]; norm_num, by unfold UnitUpTo; rw [n2]; norm_num, by norm_num [Format.double, Prec.double],
    by norm_num [Format.float, Prec.float], ?_⟩
  obtain ⟨t, e, -, t1⟩ := (C113_double ⟨1 / 2, 1 / 2, 1 / 2, 1 / 2⟩ ⟨1, 0, 0, 0⟩ (by rw [n1]; norm_num) (by rw [n2]; norm_num)).2.1
  refine ⟨t, e, ?_⟩
  have k : rotAngle (den .quat (direction ⟨1 / 2, 1 / 2, 1 / 2, 1 / 2⟩) * (den .quat (direction ⟨1, 0, 0, 0⟩)).transpose) = 2 * Real.pi / 3 := by
    rw [den_eq .quat, den_eq .quat]
    change rotAngle (sMat (direction _) * (sMat (direction _)).transpose) = _
    have d1 : direction ⟨1 / 2, 1 / 2, 1 / 2, 1 / 2⟩ = ⟨1 / 2, 1 / 2, 1 / 2, 1 / 2⟩ := by ext <;> (simp only [direction, n1]; norm_num)
    have d2 : direction ⟨1, 0, 0, 0⟩ = 1 := by ext <;> (simp only [direction, n2]; simp)
    rw [d1, d2, sMat_one]
    have c : Real.cos (2 * Real.pi / 3) = (-1 / 2 : ℝ) := by
      have : 2 * Real.pi / 3 = Real.pi - Real.pi / 3 := by ring
      rw [this, Real.cos_pi_sub, Real.cos_pi_div_three]; norm_num
    have tr : (sMat ⟨1 / 2, 1 / 2, 1 / 2, 1 / 2⟩ * (1 : M3).transpose).trace = 0 := by
      have : (1 : M3).transpose = 1 := by ext <;> simp
      rw [this, mul_one]; norm_num [sMat, M3.trace]
    rw [rotAngle, tr]
    have hp := Real.pi_pos
    rw [show ((0 : ℝ) - 1) / 2 = Real.cos (2 * Real.pi / 3) by rw [c]; norm_num, Real.arccos_cos (by positivity) (by linarith)]
  rwa [k] at t1

end Inst
end Kindr
