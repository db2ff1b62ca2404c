import Verif.Props.Log2

/-!
# From quaternions to rotation vectors in IEEE arithmetic
-/

set_option autoImplicit false

open Classical

noncomputable section
namespace Kindr
open Spec
namespace Inst
variable {M : Inst}

/-- The computed guard `1 - w²`. -/
lemma guard_spec (h : Sound M) {w : ℝ} (hw : |w| ≤ 1001 / 1000) :
    ∃ g, M.scalar.arith.sub (.fin 1) (M.scalar.arith.mul (.fin w) (.fin w)) = .fin g ∧ |g - (1 - w ^ 2)| ≤ 203 / 100 * M.scalar.uu := by
  have hu := uu_pos h
  have hs := (Format.alf_small (alf h)).1
  have he := (Format.alf_small (alf h)).2
  have R := Format.rn (Format.alf_ok (alf h))
  have w2 : w * w ≤ 1003 / 1000 := by
    rw [← abs_mul_abs_self]
    have := mul_le_mul hw hw (abs_nonneg _) (by norm_num)
    linarith
  have w0 : 0 ≤ w * w := mul_self_nonneg w
  have e1 := R.err (w * w)
  rw [abs_of_nonneg w0] at e1
  have f1 := mul_le_mul_of_nonneg_left w2 hu.le
  obtain ⟨X, hX⟩ : ∃ X, X = M.scalar.round (w * w) := ⟨_, rfl⟩
  rw [← hX] at e1
  obtain ⟨a1, a2⟩ := abs_le.mp e1
  have b : |1 + -X| ≤ 1001 / 1000 := by
    norm_num at hs
    rw [abs_le]; constructor <;> linarith
  have e2 := R.err (1 + -X)
  have f2 := mul_le_mul_of_nonneg_left b hu.le
  obtain ⟨c1, c2⟩ := abs_le.mp e2
  refine ⟨M.scalar.round (1 + -X), ?_, ?_⟩
  · change M.scalar.arith.sub _ (M.scalar.arith.rnd (w * w)) = _
    rw [(fin_le h (by rw [abs_of_nonneg w0]; linarith)).1, ← hX]
    exact (fin_le h (by linarith)).1
  · have : w ^ 2 = w * w := sq w
    rw [this, abs_le]; constructor <;> linarith

lemma uu_ge (h : Sound M) : 1 / 2 ^ 53 ≤ M.scalar.uu := by
  unfold Format.uu
  calc (1 / 2 ^ 53 : ℝ) = 2⁻¹ ^ 53 := by norm_num
    _ ≤ _ := pow_le_pow_of_le_one (by norm_num) (by norm_num) h.p

/-- A scalar times a vector. -/
lemma smulV_spec (h : Sound M) {s B : ℝ} {v : V3} (hB : |s| * v.norm ≤ B) (hB1 : B ≤ 50) :
    ∃ r, M.scalar.arith.smulV (.fin s) (emb3 v) = emb3 r ∧ (r - s • v).norm ≤ 174 / 100 * (M.scalar.uu * B + M.scalar.eta) := by
  have hu := uu_pos h
  have R := Format.rn (Format.alf_ok (alf h))
  have q : ∀ c : ℝ, |c| ≤ v.norm → |s * c| ≤ B := fun c hc => by
    rw [abs_mul]; exact (mul_le_mul_of_nonneg_left hc (abs_nonneg _)).trans hB
  have k : ∀ c : ℝ, |c| ≤ v.norm → |M.scalar.round (s * c) - s * c| ≤ M.scalar.uu * B + M.scalar.eta := fun c hc => by
    have := mul_le_mul_of_nonneg_left (q c hc) hu.le
    exact (R.err _).trans (by linarith)
  refine ⟨⟨M.scalar.round (s * v.x), M.scalar.round (s * v.y), M.scalar.round (s * v.z)⟩, ?_, ?_⟩
  · change (⟨M.scalar.arith.rnd _, M.scalar.arith.rnd _, M.scalar.arith.rnd _⟩ : XV3) = _
    rw [(fin_le h ((q _ (comp3 v).1).trans (by linarith))).1, (fin_le h ((q _ (comp3 v).2.1).trans (by linarith))).1,
      (fin_le h ((q _ (comp3 v).2.2).trans (by linarith))).1]
    rfl
  · exact norm_of_coeff (k _ (comp3 v).1) (k _ (comp3 v).2.1) (k _ (comp3 v).2.2)

set_option maxHeartbeats 2000000 in
/-- `RotationVector(q)`. -/
lemma rvOfQuat_spec (h : Sound M) (P : Prec) (hP : 100 * M.scalar.uu ≤ P.dp) {u q : Quat} (hu1 : u.normSq = 1) {c d : ℝ} (hc : |c - 1| ≤ d)
    (hd : d ≤ P.dp / 4) (hq : q = ⟨c * u.w, c * u.x, c * u.y, c * u.z⟩) :
    ∃ r, M.scalar.arith.rvOfQuat P (embQ q) = emb3 r ∧ r.norm ≤ 7 ∧ Close (65 * M.scalar.uu + P.dp / 50) (dmat .rv (⟨r⟩ : RotVec)) (sMat u) := by
  have hu := uu_pos h
  have hs := (Format.alf_small (alf h)).1
  have he := (Format.alf_small (alf h)).2
  have he0 := (Format.alf_eta (alf h)).1
  have R := Format.rn (Format.alf_ok (alf h))
  have hdp := P.dp_le
  have hdp0 := P.dp_pos
  have hd0 : 0 ≤ d := (abs_nonneg _).trans hc
  obtain ⟨hc1, hc2⟩ := abs_le.mp hc
  have hcp : 0 < c := by linarith
  have hpv : q.vec = c • u.vec := by rw [hq, vec_scale]
  have hpw : q.w = c * u.w := by rw [hq]
  have hm2 := vec_norm_sq hu1
  have hw1 : u.w ^ 2 ≤ 1 := by have := sq_nonneg u.vec.norm; linarith
  have habs : |u.w| ≤ 1 := by rw [← sq_le_one_iff_abs_le_one]; exact hw1
  have hcsq := abs_le.mp (sq_sub_one_le hc (by linarith))
  have hqw : |q.w| ≤ 1001 / 1000 := by
    rw [hpw, abs_mul, abs_of_pos hcp]
    have := mul_le_mul (by linarith : c ≤ 1001 / 1000) habs (abs_nonneg _) (by norm_num)
    linarith
  obtain ⟨g, eg, g1⟩ := guard_spec h hqw
  obtain ⟨g2, g3⟩ := abs_le.mp g1
  have ew2 : q.w ^ 2 = c ^ 2 * u.w ^ 2 := by rw [hpw]; ring
  have um0 := V3.norm_nonneg u.vec
  unfold XArith.rvOfQuat
  have eg' : M.scalar.arith.sub (.fin 1) (M.scalar.arith.mul (embQ q).w (embQ q).w) = .fin g := eg
  rw [eg']
  have evec : (embQ q).vec = emb3 q.vec := rfl
  rw [evec]
  by_cases hb : g < P.dp
  · rw [if_pos (show XR.lt (.fin g) (.fin P.dp) from hb)]
    have hm : u.vec.norm ^ 2 ≤ 153 / 100 * P.dp := by
      have k1 : c ^ 2 * u.w ^ 2 ≤ u.w ^ 2 + 201 / 100 * d := by
        have := mul_le_mul_of_nonneg_right hcsq.2 (sq_nonneg u.w)
        have := mul_le_mul_of_nonneg_left hw1 hd0
        linarith
      linarith
    have hmμ : u.vec.norm ≤ 4 / 1000 := by
      refine abs_le_of_sq_le_sq' (hm.trans ?_) (by norm_num) |>.2
      norm_num at hdp ⊢; linarith
    have k := FloatLib.rv_small_branch hu1 hc (by linarith) (by norm_num) hmμ
    obtain ⟨s, hsd⟩ : ∃ s : ℝ, s = if 0 < c * u.w then 2 else -2 := ⟨_, rfl⟩
    rw [← hsd] at k
    have hs2 : |s| = 2 := by rw [hsd]; split_ifs <;> simp
    have hqn : q.vec.norm ≤ 5 / 1000 := by
      rw [hpv, V3.norm_smul, abs_of_pos hcp]
      have := mul_le_mul (by linarith : c ≤ 11 / 10) hmμ um0 (by norm_num)
      linarith
    obtain ⟨r, er, r1⟩ := smulV_spec h (s := s) (v := q.vec) (B := 1 / 100) (by rw [hs2]; linarith) (by norm_num)
    have r2 : (r - s • q.vec).norm ≤ M.scalar.uu := r1.trans (by linarith)
    refine ⟨r, ?_, ?_, ?_⟩
    · have hsw : (embQ q).w = .fin (c * u.w) := by rw [← hpw]; rfl
      rw [hsw]
      change (if (0 : ℝ) < c * u.w then _ else _) = _
      rw [← er, hsd]
      split_ifs <;> rfl
    · have e : r = (r - s • q.vec) + s • q.vec := by ext <;> simp
      rw [e]
      refine (V3.norm_add_le _ _).trans ?_
      rw [V3.norm_smul, hs2]
      norm_num at hs; linarith
    · have c1 := (rv_close r (s • q.vec)).mono r2
      rw [hpv] at c1
      refine (c1.trans k).mono ?_
      have := mul_le_mul_of_nonneg_left hm (by norm_num : (0:ℝ) ≤ 4 / 1000)
      linarith
  · rw [if_neg (show ¬ XR.lt (.fin g) (.fin P.dp) from hb)]
    push Not at hb
    obtain ⟨N, hN⟩ : ∃ N, N = q.vec.norm := ⟨_, rfl⟩
    have N2 : N ^ 2 = c ^ 2 - q.w ^ 2 := by
      rw [hN, hpv, V3.norm_smul, mul_pow, sq_abs, hm2, ew2]; ring
    have N0 : 0 ≤ N := by rw [hN]; exact V3.norm_nonneg _
    have N47 : 47 * M.scalar.uu ≤ N ^ 2 := by rw [N2]; linarith [hcsq.1]
    have Nhi : N ≤ 2 := by
      refine abs_le_of_sq_le_sq' (?_ : N ^ 2 ≤ 2 ^ 2) (by norm_num) |>.2
      have := sq_nonneg q.w
      rw [N2]; linarith [hcsq.2]
    have Nu : 23 * M.scalar.uu ≤ N := by
      have : N ^ 2 ≤ 2 * N := by rw [sq]; exact mul_le_mul_of_nonneg_right Nhi N0
      linarith
    have Np : 0 < N := by linarith
    have hv : q.vec ≠ 0 := fun e => by rw [e, V3.norm_zero] at hN; linarith
    have hreg := FloatLib.rv_regular_branch hu1 hcp hq hv
    have hun := unit_dir (v := q.vec) (by rw [← hN]; exact Np.ne')
    have hdir : q.vec = N • ((1 / q.vec.norm) • q.vec) := by
      rw [smul_smul, hN, mul_one_div_cancel (by rw [← hN]; exact Np.ne'), one_smul]
    obtain ⟨n, en, n0, n1⟩ := Format.norm_any h.scalar (v := q.vec) (by rw [← hN]; exact Nhi.trans (by norm_num))
    rw [← hN] at n1 hreg hun hdir
    have n2 : |n - N| ≤ 405 / 100 * M.scalar.uu * N := by
      have := mul_le_mul_of_nonneg_left Nu hu.le
      have e : M.scalar.uu ^ 2 = M.scalar.uu * M.scalar.uu := sq _
      rw [e] at n1
      refine n1.trans ?_
      have e2 : M.scalar.uu * (23 * M.scalar.uu) = 23 * (M.scalar.uu * M.scalar.uu) := by ring
      have e3 : 405 / 100 * M.scalar.uu * N = 405 / 100 * (M.scalar.uu * N) := by ring
      have e4 : 4 * M.scalar.uu * N = 4 * (M.scalar.uu * N) := by ring
      have e5 : 0 ≤ M.scalar.uu * N := by positivity
      rw [e2] at this
      rw [e3, e4]
      clear n1
      generalize M.scalar.uu * N = X at *
      generalize M.scalar.uu * M.scalar.uu = Y at *
      linarith
    have uN : M.scalar.uu * N ≤ 1 / 10 ^ 6 * N := mul_le_mul_of_nonneg_right hs N0
    obtain ⟨n3, n4⟩ := abs_le.mp n2
    have np : 99 / 100 * N ≤ n := by norm_num at uN; linarith
    have np0 : 0 < n := by linarith
    have b2 := FloatLib.atan2_perturb Np q.w n2 (by norm_num at hs; linarith)
    have b3 : |Kindr.atan2 N q.w| ≤ 315 / 100 := (Complex.abs_arg_le_pi _).trans (by linarith [Real.pi_lt_d2])
    have b4 : |Kindr.atan2 n q.w| ≤ 315 / 100 := (Complex.abs_arg_le_pi _).trans (by linarith [Real.pi_lt_d2])
    obtain ⟨ê, hê⟩ : ∃ ê, ê = (1 / N) • q.vec := ⟨_, rfl⟩
    rw [← hê] at hun hdir hreg
    have eat : M.scalar.arith.atan2 (.fin n) (.fin q.w) = .fin (M.scalar.round (Kindr.atan2 n q.w)) := (fin_le h (by linarith)).1
    have rA := R.err (Kindr.atan2 n q.w)
    rw [en]
    have eat' : M.scalar.arith.atan2 (.fin n) (embQ q).w = .fin (M.scalar.round (Kindr.atan2 n q.w)) := eat
    simp only [eat']
    obtain ⟨A, hA⟩ : ∃ A, A = M.scalar.round (Kindr.atan2 n q.w) := ⟨_, rfl⟩
    rw [← hA] at rA ⊢
    have rA' : |A - Kindr.atan2 n q.w| ≤ 316 / 100 * M.scalar.uu := by
      have := mul_le_mul_of_nonneg_left b4 hu.le
      linarith
    obtain ⟨B, hB⟩ : ∃ B, B = Kindr.atan2 n q.w := ⟨_, rfl⟩
    obtain ⟨C, hC⟩ : ∃ C, C = Kindr.atan2 N q.w := ⟨_, rfl⟩
    rw [← hB] at rA' b2 b4
    rw [← hC] at b2 b3 hreg
    obtain ⟨c1, c2⟩ := abs_le.mp rA'
    obtain ⟨c3, c4⟩ := abs_le.mp b2
    obtain ⟨c5, c6⟩ := abs_le.mp b3
    have bA : |2 * A| ≤ 631 / 100 := by
      norm_num at hs
      rw [abs_le]; constructor <;> linarith
    have eT : M.scalar.arith.mul (.fin 2) (.fin A) = .fin (M.scalar.round (2 * A)) := (fin_le h (by linarith)).1
    simp only [eT]
    have rT := R.err (2 * A)
    obtain ⟨T, hT⟩ : ∃ T, T = M.scalar.round (2 * A) := ⟨_, rfl⟩
    rw [← hT] at rT ⊢
    have rT' : |T - 2 * A| ≤ 632 / 100 * M.scalar.uu := by
      have := mul_le_mul_of_nonneg_left bA hu.le
      linarith
    obtain ⟨d1, d2⟩ := abs_le.mp rT'
    have hTC : |T - 2 * C| ≤ 208 / 10 * M.scalar.uu := by rw [abs_le]; constructor <;> linarith
    have hTb : |T| ≤ 632 / 100 := by
      obtain ⟨x1, x2⟩ := abs_le.mp bA
      norm_num at hs
      rw [abs_le]; constructor <;> linarith
    have hTN : |T / n| * N ≤ 64 / 10 := by
      rw [abs_div, abs_of_pos np0, div_mul_eq_mul_div, div_le_iff₀ np0]
      have := mul_le_mul_of_nonneg_right hTb N0
      linarith
    have Tfin : |T / n| ≤ 2 ^ (M.scalar.emax - 1) := by
      have u53 := uu_ge h
      have k1 : |T / n| ≤ 2 ^ 60 := by
        have k2 : |T / n| * (23 / 2 ^ 53) ≤ |T / n| * N := mul_le_mul_of_nonneg_left (by norm_num at u53 ⊢; linarith) (abs_nonneg _)
        norm_num at k2 ⊢; linarith
      refine k1.trans ?_
      have := (Format.alf_pow (alf h)).2
      calc (2 : ℝ) ^ 60 = 2 ^ (60 : ℤ) := by norm_num
        _ ≤ _ := zpow_le_zpow_right₀ (by norm_num) (by have := (alf h).emax; have := (alf h).p; omega)
    have eS : M.scalar.arith.div (.fin T) (.fin n) = .fin (M.scalar.round (T / n)) := by
      change (if n = 0 then _ else M.scalar.arith.rnd (T / n)) = _
      rw [if_neg np0.ne']; exact Format.fin_of (Format.alf_ok (alf h)) Tfin
    rw [eS]
    have rS := R.err (T / n)
    obtain ⟨S, hS⟩ : ∃ S, S = M.scalar.round (T / n) := ⟨_, rfl⟩
    rw [← hS] at rS ⊢
    have rS' : |S - T / n| * N ≤ 641 / 100 * M.scalar.uu := by
      have a1 := mul_le_mul_of_nonneg_right rS N0
      have a2 := mul_le_mul_of_nonneg_left hTN hu.le
      have a3 := mul_le_mul_of_nonneg_left Nhi he0.le
      have e : (M.scalar.uu * |T / n| + M.scalar.eta) * N = M.scalar.uu * (|T / n| * N) + M.scalar.eta * N := by ring
      rw [e] at a1
      linarith
    have hr1 : |N / n - 1| ≤ 41 / 10 * M.scalar.uu := by
      have e : N / n - 1 = (N - n) / n := by field_simp
      rw [e, abs_div, abs_of_pos np0, div_le_iff₀ np0, abs_sub_comm]
      have := mul_le_mul_of_nonneg_left np hu.le
      linarith
    have hr2 : |T / n * N - 2 * C| ≤ 468 / 10 * M.scalar.uu := by
      have e : T / n * N - 2 * C = T * (N / n - 1) + (T - 2 * C) := by field_simp; ring
      rw [e]
      refine (abs_add_le _ _).trans ?_
      rw [abs_mul]
      have := mul_le_mul hTb hr1 (abs_nonneg _) (by norm_num)
      linarith
    have hr3 : |S * N - 2 * C| ≤ 533 / 10 * M.scalar.uu := by
      have e : S * N - 2 * C = (S - T / n) * N + (T / n * N - 2 * C) := by ring
      rw [e]
      refine (abs_add_le _ _).trans ?_
      rw [abs_mul, abs_of_nonneg N0]
      linarith
    have hSN : |S| * q.vec.norm ≤ 632 / 100 := by
      have e : |S| * q.vec.norm = |S * N| := by rw [abs_mul, abs_of_nonneg N0, hN]
      rw [e]
      obtain ⟨x1, x2⟩ := abs_le.mp hr3
      norm_num at hs
      rw [abs_le]; constructor <;> linarith
    obtain ⟨r, er, r1⟩ := smulV_spec h hSN (by norm_num)
    have r2 : (r - (2 * C) • ê).norm ≤ 648 / 10 * M.scalar.uu := by
      have e : r - (2 * C) • ê = (r - S • q.vec) + (S * N - 2 * C) • ê := by
        have : S • q.vec = (S * N) • ê := by rw [hdir]; rw [smul_smul]; 
        rw [this, sub_smul]; abel
      rw [e]
      refine (V3.norm_add_le _ _).trans ?_
      rw [V3.norm_smul, V3.norm_eq_one_iff.mpr hun]
      linarith
    refine ⟨r, er, ?_, ?_⟩
    · have e : r = (r - (2 * C) • ê) + (2 * C) • ê := by ext <;> simp
      rw [e]
      refine (V3.norm_add_le _ _).trans ?_
      rw [V3.norm_smul, V3.norm_eq_one_iff.mpr hun, abs_mul, abs_two]
      norm_num at hs
      linarith
    · have k := (rv_close r ((2 * C) • ê)).mono r2
      rw [dmat_rv_smul _ hun, hreg] at k
      exact k.mono (by linarith)

end Inst
end Kindr
