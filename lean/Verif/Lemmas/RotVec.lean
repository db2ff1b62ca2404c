import Verif.Lemmas.Conv
import Mathlib.Analysis.SpecialFunctions.Trigonometric.Bounds
import Mathlib.Analysis.Real.Pi.Bounds

/-!
# Rotation vectors; the whole conversion table
-/

set_option autoImplicit false

open Classical

noncomputable section
namespace Kindr
open Spec

lemma e4_pos (P : Prec) : 0 < P.eps ^ (1 / 4 : ℝ) := Real.rpow_pos_of_pos P.eps_pos _
lemma e4_le_one (P : Prec) : P.eps ^ (1 / 4 : ℝ) ≤ 1 :=
  Real.rpow_le_one P.eps_pos.le (P.eps_le.trans (by norm_num)) (by norm_num)
lemma dp_le_one (P : Prec) : P.dp ≤ 1 := P.dp_le.trans (by norm_num)
lemma smallThreshold_pos (P : Prec) : 0 < smallThreshold P := lt_max_of_lt_left P.dp_pos

lemma rodMat_zero (n : V3) : rodMat 0 n = 1 := by
  ext <;> simp [rodMat, AngAx.toRotationMatrix]
lemma rodMat_neg_neg (θ : ℝ) (n : V3) : rodMat (-θ) (-n) = rodMat θ n := by
  ext <;> simp [rodMat, AngAx.toRotationMatrix]
lemma rodMat_transpose (θ : ℝ) (n : V3) : (rodMat θ n).transpose = rodMat θ (-n) := by
  ext <;> simp [rodMat, AngAx.toRotationMatrix] <;> ring
lemma rodMat_add_two_pi (θ : ℝ) (k : ℤ) (n : V3) : rodMat (θ + k * (2 * Real.pi)) n = rodMat θ n := by
  simp only [rodMat, AngAx.toRotationMatrix, Real.sin_add_int_mul_two_pi, Real.cos_add_int_mul_two_pi]

lemma trace_rodMat (θ : ℝ) {n : V3} (hn : n.normSq = 1) : (rodMat θ n).trace = 1 + 2 * Real.cos θ := by
  simp only [V3.normSq, V3.dot] at hn
  simp [rodMat, AngAx.toRotationMatrix, M3.trace]
  linear_combination (1 - Real.cos θ) * hn

lemma trace_sMat {q : Quat} (h : q.normSq = 1) : (3 - (sMat q).trace) / 4 = 1 - q.w ^ 2 := by
  simp only [Quat.normSq] at h
  simp only [sMat, M3.trace]
  linear_combination (1 : ℝ) / 4 * h

/-- A rotation vector `θ • n` with a unit `n` denotes the rotation by `θ` about `n` (any real `θ`). -/
lemma dmat_rv_smul (θ : ℝ) {n : V3} (hn : n.normSq = 1) : dmat .rv (⟨θ • n⟩ : RotVec) = rodMat θ n := by
  have hn1 : n.norm = 1 := V3.norm_eq_one_iff.mpr hn
  have hθ : (θ • n).norm = |θ| := by rw [V3.norm_smul, hn1, mul_one]
  simp only [dmat, hθ]
  split_ifs with h0
  · rw [abs_eq_zero.mp h0, rodMat_zero]
  · rcases lt_or_ge θ 0 with h1 | h1
    · rw [abs_of_neg h1]
      have : (1 / -θ) • θ • n = -n := by
        rw [smul_smul]
        have : (1 / -θ) * θ = -1 := by have := h1.ne; field_simp
        rw [this, neg_one_smul]
      rw [this, rodMat_neg_neg]
    · rw [abs_of_nonneg h1] at *
      have : (1 / θ) • θ • n = n := by
        rw [smul_smul]
        have : (1 / θ) * θ = 1 := by field_simp
        rw [this, one_smul]
      rw [this]

lemma dmat_rv_ne {v : V3} (h : v ≠ 0) : dmat .rv (⟨v⟩ : RotVec) = rodMat v.norm ((1 / v.norm) • v) := by
  have := (V3.norm_pos h).ne'
  simp [dmat, this]

@[simp] lemma dmat_rv_zero : dmat .rv (⟨0⟩ : RotVec) = 1 := by simp [dmat]

lemma sin_half_sq (θ : ℝ) : Real.sin (θ / 2) ^ 2 = (1 - Real.cos θ) / 2 := by
  have h : Real.cos θ = 2 * Real.cos (θ / 2) ^ 2 - 1 := by rw [← Real.cos_two_mul]; ring_nf
  have h1 := Real.sin_sq_add_cos_sq (θ / 2)
  rw [h]; linarith

lemma abs_sin_le_abs (x : ℝ) : |Real.sin x| ≤ |x| := Real.abs_sin_le_abs

/-- A rotation vector whose rotation is clear of the small-angle region is zero or longer than every threshold. -/
lemma clear_rv {P : Prec} {r : RotVec} (h : Clear P (dmat .rv r)) :
    r.v = 0 ∨ (P.eps ^ (1 / 4 : ℝ) ≤ r.v.norm ∧ P.dp ≤ r.v.norm) := by
  by_cases hv : r.v = 0
  · exact Or.inl hv
  right
  have hpos := V3.norm_pos hv
  have hn := unit_dir hpos.ne'
  have hr : dmat .rv r = rodMat r.v.norm ((1 / r.v.norm) • r.v) := dmat_rv_ne hv
  have htr := trace_rodMat r.v.norm hn
  have e1 := e4_le_one P
  have e0 := e4_pos P
  have d1 := dp_le_one P
  rw [hr] at h
  generalize r.v.norm = θ at *
  rcases h with h | h
  · -- the identity: θ is a multiple of 2π
    have hc : Real.cos θ = 1 := by
      rw [h, M3.trace_one] at htr; linarith
    have : (1 : ℝ) ≤ θ := by
      by_contra hlt
      push Not at hlt
      have h2 : Real.cos θ < Real.cos 0 :=
        Real.cos_lt_cos_of_nonneg_of_le_pi_div_two (le_refl 0) (by linarith [Real.pi_gt_three]) hpos
      rw [Real.cos_zero] at h2; linarith
    constructor <;> linarith
  · have h3 : smallThreshold P ≤ (θ / 2) ^ 2 := by
      have : (3 - (rodMat θ ((1 / θ) • r.v)).trace) / 4 = Real.sin (θ / 2) ^ 2 := by
        rw [htr, sin_half_sq]; ring
      rw [this] at h
      have h4 := abs_sin_le_abs (θ / 2)
      have := sq_le_sq' (by linarith [abs_nonneg (Real.sin (θ / 2)), abs_nonneg (θ / 2)]) h4
      rw [sq_abs, sq_abs] at this
      linarith
    constructor
    · have := le_trans (le_max_right _ _) h3
      have h5 : (P.eps ^ (1 / 4 : ℝ)) ^ 2 ≤ θ ^ 2 := by linarith
      exact le_of_sq_le_sq h5 hpos.le
    · have := le_trans (le_max_left _ _) h3
      have h5 : P.dp ^ 2 ≤ θ ^ 2 := by nlinarith [P.dp_pos]
      exact le_of_sq_le_sq h5 hpos.le

/-! ## Rotation vector → quaternion / angle-axis -/

lemma quatOfRv_eq {P : Prec} {r : RotVec} (h : P.eps ^ (1 / 4 : ℝ) ≤ r.v.norm) :
    quatOfRv P r = Quat.ofAngleAxis r.v.norm ((1 / r.v.norm) • r.v) := by
  have hpos := lt_of_lt_of_le (e4_pos P) h
  have : ¬ isLessThenEpsilons4thRoot P r.v.norm := not_lt.mpr h
  simp only [quatOfRv, this, if_false, Quat.ofAngleAxis]
  have e : r.v.norm * (1 / 2) = 1 / 2 * r.v.norm := by ring
  rw [e]
  ext <;> simp only [V3.smul_x, V3.smul_y, V3.smul_z] <;> field_simp

lemma quatOfRv_zero (P : Prec) : quatOfRv P ⟨0⟩ = 1 := by
  have : isLessThenEpsilons4thRoot P (0 : ℝ) := e4_pos P
  simp only [quatOfRv, V3.norm_zero, this, if_true]
  ext <;> simp

lemma quatOfRv_spec {P : Prec} {r : RotVec} (h : r.v = 0 ∨ P.eps ^ (1 / 4 : ℝ) ≤ r.v.norm) :
    (quatOfRv P r).normSq = 1 ∧ sMat (quatOfRv P r) = dmat .rv r := by
  rcases h with h0 | h1
  · obtain ⟨v⟩ := r
    simp only at h0; subst h0
    rw [quatOfRv_zero]; simp
  · have hpos := lt_of_lt_of_le (e4_pos P) h1
    have hn := unit_dir hpos.ne'
    have hv : r.v ≠ 0 := fun e => by rw [e] at hpos; simp at hpos
    rw [quatOfRv_eq h1]
    exact ⟨normSq_ofAngleAxis _ hn, by rw [sMat_ofAngleAxis _ hn]; exact (dmat_rv_ne hv).symm⟩

lemma aaOfRv_eq {P : Prec} {r : RotVec} (h : P.dp ≤ r.v.norm) :
    aaOfRv P r = ⟨r.v.norm, (1 / r.v.norm) • r.v⟩ := by
  have hpos := lt_of_lt_of_le P.dp_pos h
  have hv : r.v ≠ 0 := fun e => by rw [e] at hpos; simp at hpos
  simp [aaOfRv, not_lt.mpr h, V3.normalized_of_ne hv]

lemma aaOfRv_small {P : Prec} {r : RotVec} (h : r.v.norm < P.dp) : aaOfRv P r = AngAx.identity := by
  simp [aaOfRv, h]

lemma aa_identity_unit : AngAx.identity.axis.normSq = 1 := by
  simp [AngAx.identity, V3.unitX, V3.normSq, V3.dot]

lemma aaOfRv_unit (P : Prec) (r : RotVec) : (aaOfRv P r).axis.normSq = 1 := by
  rcases lt_or_ge r.v.norm P.dp with h | h
  · rw [aaOfRv_small h]; exact aa_identity_unit
  · rw [aaOfRv_eq h]; exact unit_dir (lt_of_lt_of_le P.dp_pos h).ne'

lemma aaOfRv_spec {P : Prec} {r : RotVec} (h : r.v = 0 ∨ P.dp ≤ r.v.norm) :
    dmat .aa (aaOfRv P r) = dmat .rv r := by
  rcases h with h0 | h1
  · obtain ⟨v⟩ := r
    simp only at h0; subst h0
    rw [aaOfRv_small (by simpa using P.dp_pos), dmat_rv_zero]
    exact rodMat_zero _
  · have hpos := lt_of_lt_of_le P.dp_pos h1
    have hv : r.v ≠ 0 := fun e => by rw [e] at hpos; simp at hpos
    rw [aaOfRv_eq h1]; exact (dmat_rv_ne hv).symm

/-! ## Quaternion → rotation vector -/

/-- Exact branch: the rotation vector of a unit quaternion is `2 atan2(|im|, re)` times its direction. -/
lemma rvOfQuat_eq {P : Prec} {q : Quat} (h : P.dp ≤ 1 - q.w * q.w) :
    rvOfQuat P q = ⟨(2 * atan2 q.vec.norm q.w) • ((1 / q.vec.norm) • q.vec)⟩ := by
  simp only [rvOfQuat, not_lt.mpr h, if_false]
  rw [smul_smul]; congr 2; ring

lemma rvOfQuat_exact {P : Prec} {q : Quat} (hq : q.normSq = 1) (h : P.dp ≤ 1 - q.w * q.w) :
    dmat .rv (rvOfQuat P q) = sMat q := by
  have hn2 := vec_norm_sq hq
  have hpos : 0 < q.vec.norm := by
    refine lt_of_le_of_ne q.vec.norm_nonneg (fun e => ?_)
    rw [← e] at hn2
    have := P.dp_pos
    nlinarith
  have hn := unit_dir hpos.ne'
  rw [rvOfQuat_eq h, dmat_rv_smul _ hn, ← sMat_ofAngleAxis _ hn]
  congr 1
  have h1 : q.w ^ 2 + q.vec.norm ^ 2 = 1 := by linarith
  have e : 1 / 2 * (2 * atan2 q.vec.norm q.w) = atan2 q.vec.norm q.w := by ring
  ext <;> simp only [Quat.ofAngleAxis, e, cos_atan2 h1, sin_atan2 h1, V3.smul_x, V3.smul_y, V3.smul_z,
    Quat.vec_x, Quat.vec_y, Quat.vec_z] <;> field_simp

lemma vec_eq_zero_of_one {q : Quat} (hq : q.normSq = 1) (h : sMat q = 1) : q.vec = 0 := by
  have h1 := trace_sMat hq
  rw [h, M3.trace_one] at h1
  have hn2 := vec_norm_sq hq
  apply V3.norm_eq_zero.mp
  have : q.vec.norm ^ 2 = 0 := by linarith
  exact pow_eq_zero_iff (two_ne_zero) |>.mp this

lemma rvOfQuat_zero {P : Prec} {q : Quat} (hq : q.normSq = 1) (h : q.vec = 0) : rvOfQuat P q = ⟨0⟩ := by
  have hn2 := vec_norm_sq hq
  rw [h, V3.norm_zero] at hn2
  have : 1 - q.w * q.w < P.dp := by nlinarith [P.dp_pos]
  simp only [rvOfQuat, this, if_true, h, smul_zero, ite_self]

lemma rvOfQuat_spec {P : Prec} {q : Quat} (hq : q.normSq = 1)
    (h : sMat q = 1 ∨ P.dp ≤ (3 - (sMat q).trace) / 4) :
    dmat .rv (rvOfQuat P q) = sMat q := by
  rcases h with h | h
  · rw [rvOfQuat_zero hq (vec_eq_zero_of_one hq h), dmat_rv_zero, h]
  · rw [trace_sMat hq] at h
    apply rvOfQuat_exact hq
    nlinarith

lemma rvOfAa_spec {a : AngAx} (h : a.axis.normSq = 1) : dmat .rv (rvOfAa a) = dmat .aa a :=
  dmat_rv_smul _ h

/-! ## Whole table -/

lemma xyzOfQuat_spec {q : Quat} (h : q.normSq = 1) : dmat .xyz (xyzOfQuat q) = sMat q := by
  have := euler012_spec (sMat_isSO3 h)
  simpa [dmat, xyzOfQuat, toRotationMatrix_eq h, EulXyz.mk3, EulXyz.x, EulXyz.y, EulXyz.z] using this
lemma zyxOfQuat_spec {q : Quat} (h : q.normSq = 1) : dmat .zyx (zyxOfQuat q) = sMat q := by
  have := euler210_spec (sMat_isSO3 h)
  simpa [dmat, zyxOfQuat, toRotationMatrix_eq h, EulZyx.mk3, EulZyx.x, EulZyx.y, EulZyx.z] using this

lemma aaOfQuat_spec {q : Quat} (h : q.normSq = 1) :
    Valid .aa (AngAx.ofQuat q) ∧ dmat .aa (AngAx.ofQuat q) = sMat q :=
  ⟨(valid_aa_iff _).mpr (ofQuat_spec h).1, rodMat_ofQuat h⟩

lemma quatOfAa_spec {a : AngAx} (h : a.axis.normSq = 1) :
    (quatOfAa a).normSq = 1 ∧ sMat (quatOfAa a) = dmat .aa a :=
  ⟨normSq_ofAngleAxis _ h, sMat_ofAngleAxis _ h⟩

lemma toMat_spec {q : Quat} {m : M3} (h : q.normSq = 1 ∧ sMat q = m) :
    Valid .mat q.toRotationMatrix ∧ dmat .mat q.toRotationMatrix = m := by
  rw [toRotationMatrix_eq h.1]
  exact ⟨sMat_isSO3 h.1, h.2⟩

/-- Every conversion of a valid value is valid and denotes the same rotation. -/
theorem conv_spec (P : Prec) (d s : Kind) (r : Rep s) (hv : Valid s r)
    (hc : ExactBranch P d s r) :
    Valid d (conv P d s r) ∧ dmat d (conv P d s r) = dmat s r := by
  have hx : ∀ {q : Quat} {m : M3}, q.normSq = 1 ∧ sMat q = m → dmat .xyz (xyzOfQuat q) = m :=
    fun h => by rw [xyzOfQuat_spec h.1, h.2]
  have hz : ∀ {q : Quat} {m : M3}, q.normSq = 1 ∧ sMat q = m → dmat .zyx (zyxOfQuat q) = m :=
    fun h => by rw [zyxOfQuat_spec h.1, h.2]
  have ha : ∀ {q : Quat} {m : M3}, q.normSq = 1 ∧ sMat q = m →
      Valid .aa (AngAx.ofQuat q) ∧ dmat .aa (AngAx.ofQuat q) = m :=
    fun h => by obtain ⟨h1, h2⟩ := aaOfQuat_spec h.1; exact ⟨h1, by rw [h2, h.2]⟩
  -- every source as a quaternion
  cases s
  case quat =>
    have hq := (valid_quat_iff r).mp hv
    have hq' : Quat.normSq r = 1 ∧ sMat r = dmat .quat r := ⟨hq, rfl⟩
    cases d
    · exact ⟨hv, rfl⟩
    · exact toMat_spec hq'
    · exact ha hq'
    · exact ⟨trivial, rvOfQuat_spec hq (by simp only [ExactBranch, den_eq] at hc; exact hc)⟩
    · exact ⟨trivial, hx hq'⟩
    · exact ⟨trivial, hz hq'⟩
  case mat =>
    have hq' := ofMatrix_spec (m := r) hv
    cases d
    · exact ⟨(valid_quat_iff _).mpr hq'.1, hq'.2⟩
    · exact ⟨hv, rfl⟩
    · exact ha hq'
    · have : sMat (Quat.ofMatrix r) = 1 ∨ P.dp ≤ (3 - (sMat (Quat.ofMatrix r)).trace) / 4 := by
        rw [hq'.2]; exact hc
      exact ⟨trivial, by rw [← show sMat (Quat.ofMatrix r) = dmat .mat r from hq'.2]; exact rvOfQuat_spec hq'.1 this⟩
    · exact ⟨trivial, hx hq'⟩
    · exact ⟨trivial, hz hq'⟩
  case aa =>
    have h1 := (valid_aa_iff r).mp hv
    have hq' := quatOfAa_spec h1
    cases d
    · exact ⟨(valid_quat_iff _).mpr hq'.1, hq'.2⟩
    · exact ⟨rodMat_isSO3 _ h1, rfl⟩
    · exact ⟨hv, rfl⟩
    · exact ⟨trivial, rvOfAa_spec h1⟩
    · exact ⟨trivial, hx hq'⟩
    · exact ⟨trivial, hz hq'⟩
  case rv =>
    have hu := aaOfRv_unit P r
    cases d
    · have hq' := quatOfRv_spec (P := P) (r := r) hc
      exact ⟨(valid_quat_iff _).mpr hq'.1, hq'.2⟩
    · exact toMat_spec (quatOfRv_spec (P := P) (r := r) hc)
    · exact ⟨(valid_aa_iff _).mpr hu, aaOfRv_spec (P := P) (r := r) hc⟩
    · exact ⟨trivial, rfl⟩
    · exact ⟨trivial, hx ⟨(quatOfAa_spec hu).1, by
        rw [(quatOfAa_spec hu).2]; exact aaOfRv_spec (P := P) (r := r) hc⟩⟩
    · exact ⟨trivial, hz (quatOfRv_spec (P := P) (r := r) hc)⟩
  case xyz =>
    have hq' : (quatOfXyz r).normSq = 1 ∧ sMat (quatOfXyz r) = dmat .xyz r :=
      ⟨quatOfXyz_unit r, sMat_quatOfXyz r⟩
    cases d
    · exact ⟨(valid_quat_iff _).mpr hq'.1, hq'.2⟩
    · exact toMat_spec hq'
    · exact ha hq'
    · exact ⟨trivial, by rw [← (ha hq').2]; exact rvOfAa_spec ((valid_aa_iff _).mp (ha hq').1)⟩
    · exact ⟨trivial, rfl⟩
    · exact ⟨trivial, hz hq'⟩
  case zyx =>
    have hq' : (quatOfZyx r).normSq = 1 ∧ sMat (quatOfZyx r) = dmat .zyx r :=
      ⟨quatOfZyx_unit r, sMat_quatOfZyx r⟩
    cases d
    · exact ⟨(valid_quat_iff _).mpr hq'.1, hq'.2⟩
    · exact toMat_spec hq'
    · exact ha hq'
    · exact ⟨trivial, by rw [← (ha hq').2]; exact rvOfAa_spec ((valid_aa_iff _).mp (ha hq').1)⟩
    · exact ⟨trivial, hx hq'⟩
    · exact ⟨trivial, rfl⟩


/-- A rotation clear of the small-angle region is converted exactly by every conversion. -/
lemma exactBranch_of_clear {P : Prec} (d s : Kind) (r : Rep s) (h : Clear P (dmat s r)) : ExactBranch P d s r := by
  have hdp : ∀ m : M3, Clear P m → m = 1 ∨ P.dp ≤ (3 - m.trace) / 4 :=
    fun m hm => hm.imp id (le_trans (le_max_left _ _))
  cases s
  case quat => cases d <;> first | exact trivial | (simp only [ExactBranch, den_eq]; exact hdp _ h)
  case mat => cases d <;> first | exact trivial | exact hdp _ h
  case rv =>
    have := clear_rv (r := r) h
    cases d <;> simp only [ExactBranch] <;> tauto
  all_goals cases d <;> exact trivial

theorem conv_clear (P : Prec) (d s : Kind) (r : Rep s) (hv : Valid s r) (hc : Clear P (dmat s r)) :
    Valid d (conv P d s r) ∧ dmat d (conv P d s r) = dmat s r :=
  conv_spec P d s r hv (exactBranch_of_clear d s r hc)

end Kindr
