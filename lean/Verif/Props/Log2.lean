import Verif.Props.Log1
import Verif.Props.FloatLog
import Verif.Props.Lipschitz

/-!
# `AngleAxis::getUnique` and `RotationVector::getUnique` in IEEE arithmetic
-/

set_option autoImplicit false

open Classical

noncomputable section
namespace Kindr
open Spec
namespace Inst
variable {M : Inst}

lemma rv_close (x y : V3) : Close (x - y).norm (dmat .rv (⟨x⟩ : RotVec)) (dmat .rv (⟨y⟩ : RotVec)) := by
  have h := C93_rotation_vector x y
  have hx : IsSO3 (den .rv (⟨x⟩ : RotVec)) := den_isSO3 trivial
  have hy : IsSO3 (den .rv (⟨y⟩ : RotVec)) := den_isSO3 trivial
  have := close_of_rotAngle hx hy h
  rw [den_eq, den_eq] at this
  exact this

lemma comp3 (v : V3) : |v.x| ≤ v.norm ∧ |v.y| ≤ v.norm ∧ |v.z| ≤ v.norm := by
  refine ⟨Real.abs_le_sqrt ?_, Real.abs_le_sqrt ?_, Real.abs_le_sqrt ?_⟩ <;> simp only [V3.normSq, V3.dot] <;>
    nlinarith [sq_nonneg v.x, sq_nonneg v.y, sq_nonneg v.z]

/-- A vector off by `e` in every coefficient. -/
lemma norm_of_coeff {x y : V3} {e : ℝ} (h1 : |x.x - y.x| ≤ e) (h2 : |x.y - y.y| ≤ e) (h3 : |x.z - y.z| ≤ e) :
    (x - y).norm ≤ 174 / 100 * e := by
  have e0 : 0 ≤ e := (abs_nonneg _).trans h1
  have q : ∀ {a : ℝ}, |a| ≤ e → a * a ≤ e * e := fun {a} ha => by
    rw [← abs_mul_abs_self a]; exact mul_le_mul ha ha (abs_nonneg _) e0
  refine V3.norm_le_of_sq (by linarith) ?_
  have a := q h1
  have b := q h2
  have c := q h3
  have : (174 / 100 * e) ^ 2 = 30276 / 10000 * (e * e) := by ring
  rw [this]
  have := mul_self_nonneg e
  simp only [V3.sub_x, V3.sub_y, V3.sub_z]
  linarith

set_option maxHeartbeats 1000000 in
/-- `AngleAxis::getUnique()`. -/
lemma aaGetUnique_spec (h : Sound M) {η δ : ℝ} {a : AngAx} {R : M3} (hr : Rounded η δ .aa a R) (ha : |a.angle| ≤ 30) :
    ∃ c, M.aaGetUnique (embA a) = embA c ∧ Rounded η (δ + 450 * M.U) .aa c R ∧ 0 ≤ c.angle ∧ c.angle ≤ Real.pi + 50 * M.U := by
  have hu := (U_pos h).le
  have h0 := hr.1
  have hp0 := Real.pi_pos
  obtain ⟨n, hn, h1, h2⟩ := hr.aa
  obtain ⟨t, et, k, k1, k2⟩ := wrap_spec h ha
  obtain ⟨t1, t2⟩ := abs_le.mp k2
  have hc : Close (δ + 435 * M.U) (rodMat t n) R := by
    have e : rodMat (a.angle - 2 * Real.pi * k) n = rodMat a.angle n := by
      rw [← rodMat_add_two_pi a.angle (-k) n]; congr 1; push_cast; ring
    have := (Matlab.rodMat_close t (a.angle - 2 * Real.pi * k) hn).mono k1
    rw [e] at this
    exact (this.trans h2).mono (by linarith)
  have hn' : (-n).normSq = 1 := by rw [← hn]; simp [V3.normSq, V3.dot]
  have hax : (-a.axis - -n).norm ≤ η := by
    have e2 : -a.axis - -n = -(a.axis - n) := by ext <;> simp <;> ring
    rw [e2, V3.norm_neg]; exact h1
  have neg : Rounded η (δ + 450 * M.U) .aa (⟨-t, -a.axis⟩ : AngAx) R :=
    rounded_aa h0 hn' hax (by rw [rodMat_neg_neg]; exact hc.mono (by linarith))
  have flip : t = -mPi → Rounded η (δ + 450 * M.U) .aa (⟨-t, a.axis⟩ : AngAx) R := by
    intro e
    refine rounded_aa h0 hn h1 ?_
    have w := mPi_err h
    have c1 := Matlab.rodMat_close (-t) Real.pi hn
    have c2 := Matlab.rodMat_close (-Real.pi) t hn
    rw [← rodMat_pi] at c2
    have e1 : |-t - Real.pi| ≤ 2 * M.U := by rw [e, neg_neg]; exact w
    have e2 : |-Real.pi - t| ≤ 2 * M.U := by
      have : -Real.pi - t = -t - Real.pi := by ring
      rw [this]; exact e1
    exact (((c1.mono e1).trans (c2.mono e2)).trans hc).mono (by linarith)
  have e : M.aaGetUnique (embA a) = if 0 < t then embA ⟨t, a.axis⟩
      else if t < 0 then
        if ¬ t = -mPi then embA ⟨-t, -a.axis⟩
        else if a.axis.x < 0 then embA ⟨-t, -a.axis⟩
        else if 0 < a.axis.x then embA ⟨-t, a.axis⟩
        else if a.axis.y < 0 then embA ⟨-t, -a.axis⟩
        else if 0 < a.axis.y then embA ⟨-t, a.axis⟩
        else if a.axis.z < 0 then embA ⟨-t, -a.axis⟩
        else embA ⟨-t, a.axis⟩
      else embA ⟨0, ⟨1, 0, 0⟩⟩ := by
    unfold aaGetUnique embA
    simp only [et, emb3, XR.lt, XR.eq, XR.neg, XV3.neg, V3.neg_x, V3.neg_y, V3.neg_z]
  rw [e]
  split_ifs with c1 c2 c3 c4 c5 c6 c7 c8
  · exact ⟨_, rfl, rounded_aa h0 hn h1 (hc.mono (by linarith)), c1.le, t2⟩
  all_goals first
    | exact ⟨_, rfl, neg, by change 0 ≤ -t; linarith, by change -t ≤ _; linarith⟩
    | exact ⟨_, rfl, flip (by assumption), by change 0 ≤ -t; linarith, by change -t ≤ _; linarith⟩
    | skip
  · have ht0 : t = 0 := le_antisymm (not_lt.mp c1) (not_lt.mp c2)
    rw [ht0, rodMat_zero] at hc
    refine ⟨_, rfl, rounded_aa (n := ⟨1, 0, 0⟩) h0 (by simp [V3.normSq, V3.dot]) (by simp [V3.norm, V3.normSq, V3.dot]; exact h0) ?_, le_rfl, by change (0:ℝ) ≤ _; positivity⟩
    change Close _ (rodMat 0 _) R
    rw [rodMat_zero]; exact hc.mono (by linarith)

/-- The angle and axis of a rotation vector. -/
lemma aaOfRv_spec (h : Sound M) (P : Prec) (hP : 100 * M.scalar.uu ≤ P.dp) {δ : ℝ} {r : V3} {R : M3} (hr : Close δ (dmat .rv (⟨r⟩ : RotVec)) R)
    (hb : r.norm ≤ 7) :
    ∃ a, M.scalar.arith.aaOfRv P (emb3 r) = embA a ∧ Rounded (11 * M.scalar.uu) (δ + 29 * M.scalar.uu + 101 / 100 * P.dp) .aa a R ∧ |a.angle| ≤ 30 := by
  have hu := uu_pos h
  have hs := (Format.alf_small (alf h)).1
  have r0 := r.norm_nonneg
  have d0 := P.dp_pos
  obtain ⟨n, en, n0, n1⟩ := Format.norm_any h.scalar (v := r) (hb.trans (by norm_num))
  have us : M.scalar.uu ^ 2 ≤ 1 / 10 ^ 6 * M.scalar.uu := by rw [sq]; exact mul_le_mul_of_nonneg_right hs hu.le
  have ur : M.scalar.uu * r.norm ≤ M.scalar.uu * 7 := mul_le_mul_of_nonneg_left hb hu.le
  have ur2 : M.scalar.uu * r.norm ≤ 1 / 10 ^ 6 * r.norm := mul_le_mul_of_nonneg_right hs r0
  obtain ⟨n2, n3⟩ := abs_le.mp n1
  unfold XArith.aaOfRv
  simp only [en, XR.lt]
  split_ifs with hc
  · refine ⟨⟨0, ⟨1, 0, 0⟩⟩, rfl, ?_, by norm_num⟩
    refine rounded_aa (n := ⟨1, 0, 0⟩) (by positivity) (by simp [V3.normSq, V3.dot]) (by simp [V3.norm, V3.normSq, V3.dot]; positivity) ?_
    change Close _ (rodMat 0 _) R
    rw [rodMat_zero]
    have c1 := rv_close 0 r
    have e0 : dmat .rv (⟨0⟩ : RotVec) = 1 := dmat_rv_zero
    rw [e0] at c1
    have e1 : ((0 : V3) - r).norm = r.norm := by rw [V3.norm_sub_comm, sub_zero]
    rw [e1] at c1
    refine (c1.trans hr).mono ?_
    norm_num at us ur2
    linarith
  · push Not at hc
    have rb : P.dp / 2 ≤ r.norm := by norm_num at us ur2; linarith
    have rp : 0 < r.norm := by linarith
    have nn : r.norm ^ 2 = r.x ^ 2 + r.y ^ 2 + r.z ^ 2 := by rw [V3.norm_sq]; unfold V3.normSq V3.dot; ring
    have hi : r.norm ^ 2 ≤ 2 ^ (M.scalar.emax - 2) := by
      calc r.norm ^ 2 ≤ (2 ^ 50) ^ 2 := pow_le_pow_left₀ r0 (hb.trans (by norm_num)) 2
        _ = (2 : ℝ) ^ (100 : ℤ) := by norm_num
        _ ≤ _ := zpow_le_zpow_right₀ (by norm_num) (by have := (alf h).emax; have := (alf h).p; omega)
    have lo : 2 ^ (M.scalar.emin + 2 * M.scalar.p + 2) ≤ r.norm ^ 2 := by
      refine (Format.std_tiny h.scalar).1.trans ?_
      have a1 : M.scalar.uu ≤ r.norm := by linarith
      have a2 : M.scalar.uu ^ 2 ≤ r.norm ^ 2 := pow_le_pow_left₀ hu.le a1 2
      have a3 : M.scalar.uu ^ 2 ≤ 1 := by norm_num at us hs; linarith
      have a4 : (M.scalar.uu ^ 2 / 2) ^ 2 = (M.scalar.uu ^ 2 * M.scalar.uu ^ 2) / 4 := by ring
      have a5 := mul_le_mul_of_nonneg_left a3 (sq_nonneg M.scalar.uu)
      have := sq_nonneg M.scalar.uu
      rw [a4]; linarith
    obtain ⟨-, w, ew, w1, w2, w3⟩ := Format.C105_accuracy (Format.alf_ok (alf h)) (v := r) ⟨nn ▸ lo, nn ▸ hi⟩
    rw [ew]
    have hun := unit_dir rp.ne'
    refine ⟨⟨n, w⟩, rfl, ?_, ?_⟩
    · refine rounded_aa (n := (1 / r.norm) • r) (by positivity) hun ?_ ?_
      · have := norm_of_coeff (x := w) (y := (1 / r.norm) • r) (e := 6 * M.scalar.uu)
          (by rw [V3.smul_x, one_div, inv_mul_eq_div]; exact w1) (by rw [V3.smul_y, one_div, inv_mul_eq_div]; exact w2)
          (by rw [V3.smul_z, one_div, inv_mul_eq_div]; exact w3)
        exact this.trans (by linarith)
      · have c1 := Matlab.rodMat_close n r.norm hun
        have e1 : rodMat r.norm ((1 / r.norm) • r) = dmat .rv (⟨r⟩ : RotVec) := by
          rw [← dmat_rv_smul _ hun, smul_smul, mul_one_div_cancel rp.ne', one_smul]
        rw [e1] at c1
        refine (c1.trans hr).mono ?_
        norm_num at us
        linarith
    · change |n| ≤ 30
      rw [abs_of_nonneg n0]
      norm_num at us hs
      linarith

/-- Angle times axis. -/
lemma rvOfAa_spec (h : Sound M) {δ : ℝ} {a : AngAx} {R : M3} (hr : Rounded (11 * M.scalar.uu) δ .aa a R) (h0 : 0 ≤ a.angle) (h1 : a.angle ≤ 4) :
    ∃ ρ, M.scalar.arith.rvOfAa (embA a) = emb3 ρ ∧ Close (δ + 13 * M.scalar.uu * a.angle + M.scalar.uu) (dmat .rv (⟨ρ⟩ : RotVec)) R ∧
      ρ.norm ≤ a.angle + 13 * M.scalar.uu * a.angle + M.scalar.uu := by
  have hu := uu_pos h
  have hs := (Format.alf_small (alf h)).1
  have he := (Format.alf_small (alf h)).2
  have ok := Format.alf_ok (alf h)
  obtain ⟨n, hn, h2, h3⟩ := hr.aa
  have hn1 : n.norm = 1 := V3.norm_eq_one_iff.mpr hn
  have axn : a.axis.norm ≤ 101 / 100 := by
    have e : a.axis = (a.axis - n) + n := by ext <;> simp
    rw [e]; refine (V3.norm_add_le _ _).trans ?_
    norm_num at hs; linarith
  obtain ⟨ρ, hρ⟩ : ∃ ρ : V3, ρ = ⟨M.scalar.round (a.angle * a.axis.x), M.scalar.round (a.angle * a.axis.y), M.scalar.round (a.angle * a.axis.z)⟩ := ⟨_, rfl⟩
  have comp : ∀ c : ℝ, |c| ≤ a.axis.norm → |a.angle * c| ≤ 100 := fun c hc => by
    rw [abs_mul, abs_of_nonneg h0]
    have := mul_le_mul h1 (hc.trans axn) (abs_nonneg _) (by norm_num)
    linarith
  have ee : M.scalar.arith.rvOfAa (embA a) = emb3 ρ := by
    rw [hρ]
    change (⟨M.scalar.arith.rnd _, M.scalar.arith.rnd _, M.scalar.arith.rnd _⟩ : XV3) = _
    rw [(fin_le h (comp _ (comp3 _).1)).1, (fin_le h (comp _ (comp3 _).2.1)).1, (fin_le h (comp _ (comp3 _).2.2)).1]
    rfl
  have r1 : (ρ - a.angle • a.axis).norm ≤ 174 / 100 * (M.scalar.uu * (a.angle * (101 / 100)) + M.scalar.eta) := by
    have q : ∀ c : ℝ, |c| ≤ a.axis.norm → |M.scalar.round (a.angle * c) - a.angle * c| ≤ M.scalar.uu * (a.angle * (101 / 100)) + M.scalar.eta := fun c hc => by
      refine ((Format.rn ok).err _).trans ?_
      rw [abs_mul, abs_of_nonneg h0]
      have := mul_le_mul_of_nonneg_left (mul_le_mul_of_nonneg_left (hc.trans axn) h0) hu.le
      linarith
    refine norm_of_coeff ?_ ?_ ?_ <;> rw [hρ]
    · exact q _ (comp3 _).1
    · exact q _ (comp3 _).2.1
    · exact q _ (comp3 _).2.2
  have r2 : (a.angle • a.axis - a.angle • n).norm ≤ a.angle * (11 * M.scalar.uu) := by
    rw [← smul_sub, V3.norm_smul, abs_of_nonneg h0]; exact mul_le_mul_of_nonneg_left h2 h0
  have r3 : (ρ - a.angle • n).norm ≤ 13 * M.scalar.uu * a.angle + M.scalar.uu := by
    have e : ρ - a.angle • n = (ρ - a.angle • a.axis) + (a.angle • a.axis - a.angle • n) := by ext <;> simp
    rw [e]
    refine (V3.norm_add_le _ _).trans ?_
    have : 0 ≤ M.scalar.uu * a.angle := by positivity
    linarith
  refine ⟨ρ, ee, ?_, ?_⟩
  · have c := (rv_close ρ (a.angle • n)).mono r3
    rw [dmat_rv_smul _ hn] at c
    exact (c.trans h3).mono (by linarith)
  · have e : ρ = (ρ - a.angle • n) + a.angle • n := by ext <;> simp
    rw [e]
    refine (V3.norm_add_le _ _).trans ?_
    rw [V3.norm_smul, abs_of_nonneg h0, hn1]
    linarith

/-- `RotationVector::getUnique()`. -/
lemma rvGetUnique_spec (h : Sound M) (P : Prec) (hP : 100 * M.scalar.uu ≤ P.dp) {δ : ℝ} {r : V3} {R : M3} (hr : Close δ (dmat .rv (⟨r⟩ : RotVec)) R)
    (hb : r.norm ≤ 7) :
    ∃ ρ, M.rvGetUnique P (emb3 r) = emb3 ρ ∧ Close (δ + 523 * M.scalar.uu + 101 / 100 * P.dp) (dmat .rv (⟨ρ⟩ : RotVec)) R ∧
      ρ.norm ≤ Real.pi + 93 * M.scalar.uu := by
  have hu := uu_pos h
  have hs := (Format.alf_small (alf h)).1
  have hp2 := Real.pi_lt_d2
  obtain ⟨a, ea, a1, a2⟩ := aaOfRv_spec h P hP hr hb
  obtain ⟨c, ec, c1, c2, c3⟩ := aaGetUnique_spec h a1 a2
  have eU : M.U = 1001 / 1000 * M.scalar.uu := rfl
  have hc4 : c.angle ≤ 4 := by rw [eU] at c3; norm_num at hs; linarith
  obtain ⟨ρ, er, r1, r2⟩ := rvOfAa_spec h c1 c2 hc4
  have uc : M.scalar.uu * c.angle ≤ M.scalar.uu * (316 / 100) := mul_le_mul_of_nonneg_left (by rw [eU] at c3; norm_num at hs; linarith) hu.le
  refine ⟨ρ, by unfold rvGetUnique; rw [ea, ec, er], r1.mono ?_, r2.trans ?_⟩
  · rw [eU]; linarith
  · rw [eU] at c3; linarith

end Inst
end Kindr
