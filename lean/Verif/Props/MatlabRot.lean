import Verif.Model.Matlab
import Verif.Spec.Matlab
import Verif.Lemmas.Perturb
import Verif.Lemmas.MatrixExp
import Verif.Props.ExpLog
import Verif.Props.MatlabEuler

/-!
# C64-C67: rotation matrices, quaternions and rotation vectors of the Matlab library
-/

set_option autoImplicit false

open Classical

noncomputable section
namespace Kindr
open Spec

namespace Matlab

/-! ## C64: isRotationMatrix -/

lemma isRotationMatrix_iff {norm2 : M3 → ℝ} (hn : IsSpectralNorm norm2) (C : M3) :
    isRotationMatrix norm2 C = true ↔ C.det ≤ 1 + 1 / 10 ^ 10 ∧
      ∀ u : V3, ((C * C.transpose - 1).mulVec u).norm ≤ 1 / 10 ^ 10 * u.norm := by
  obtain ⟨h0, h1, h2⟩ := hn (C * C.transpose - 1)
  unfold isRotationMatrix
  constructor
  · intro h
    simp only at h
    split_ifs at h with a b
    refine ⟨by linarith, fun u => (h1 u).trans ?_⟩
    exact mul_le_mul_of_nonneg_right (not_lt.mp a) u.norm_nonneg
  · rintro ⟨a, b⟩
    have c := h2 (1 / 10 ^ 10) (by norm_num) b
    simp only
    rw [if_neg (by linarith), if_neg (by linarith)]

/-- **C64 (a).** Every rotation matrix passes the test. -/
theorem C64_accepts_rotations (norm2 : M3 → ℝ) (hn : IsSpectralNorm norm2) (C : M3) (h : IsSO3 C) :
    isRotationMatrix norm2 C = true := by
  rw [isRotationMatrix_iff hn]
  refine ⟨by rw [h.2]; norm_num, fun u => ?_⟩
  rw [h.1, sub_self]
  have : (0 : M3).mulVec u = 0 := by ext <;> simp
  rw [this, V3.norm_zero]
  exact mul_nonneg (by norm_num) u.norm_nonneg

lemma abs_mul_le' {a b e f : ℝ} (ha : |a| ≤ e) (hb : |b| ≤ f) : |a * b| ≤ e * f := by
  rw [abs_mul]; exact mul_le_mul ha hb (abs_nonneg _) ((abs_nonneg _).trans ha)

lemma det_near_one {E : M3} {e : ℝ} (he : 0 ≤ e) (he1 : e ≤ 1 / 100) (h : ∀ u : V3, (E.mulVec u).norm ≤ e * u.norm) :
    |(E + 1).det - 1| ≤ 4 * e := by
  have hx := h ⟨1, 0, 0⟩
  have hy := h ⟨0, 1, 0⟩
  have hz := h ⟨0, 0, 1⟩
  have n1 : (⟨1, 0, 0⟩ : V3).norm = 1 := by simp [V3.norm, V3.normSq, V3.dot]
  have n2 : (⟨0, 1, 0⟩ : V3).norm = 1 := by simp [V3.norm, V3.normSq, V3.dot]
  have n3 : (⟨0, 0, 1⟩ : V3).norm = 1 := by simp [V3.norm, V3.normSq, V3.dot]
  rw [n1, mul_one] at hx
  rw [n2, mul_one] at hy
  rw [n3, mul_one] at hz
  have comp : ∀ v : V3, v.norm ≤ e → |v.x| ≤ e ∧ |v.y| ≤ e ∧ |v.z| ≤ e := by
    intro v hv
    have : v.normSq ≤ e ^ 2 := by
      rw [← V3.norm_sq]; exact pow_le_pow_left₀ v.norm_nonneg hv 2
    simp only [V3.normSq, V3.dot] at this
    refine ⟨abs_le_of_sq_le_sq ?_ he, abs_le_of_sq_le_sq ?_ he, abs_le_of_sq_le_sq ?_ he⟩
    · nlinarith [mul_self_nonneg v.y, mul_self_nonneg v.z]
    · nlinarith [mul_self_nonneg v.x, mul_self_nonneg v.z]
    · nlinarith [mul_self_nonneg v.x, mul_self_nonneg v.y]
  obtain ⟨a0, a1, a2⟩ := comp _ hx
  obtain ⟨b0, b1, b2⟩ := comp _ hy
  obtain ⟨c0, c1, c2⟩ := comp _ hz
  simp at a0 a1 a2 b0 b1 b2 c0 c1 c2
  obtain ⟨m00, m01, m02, m10, m11, m12, m20, m21, m22⟩ := E
  simp only at a0 a1 a2 b0 b1 b2 c0 c1 c2
  have ed : ((⟨m00, m01, m02, m10, m11, m12, m20, m21, m22⟩ : M3) + 1).det - 1 =
      (m00 + m11 + m22) + (m00 * m11 + m00 * m22 + m11 * m22 - m12 * m21 - m01 * m10 - m02 * m20) +
      (m00 * m11 * m22 - m00 * (m12 * m21) - m01 * m10 * m22 + m01 * (m12 * m20) + m02 * (m10 * m21) - m02 * m20 * m11) := by
    simp [M3.det]; ring
  rw [ed]
  have q1 := abs_le.mp (abs_mul_le' a0 b1)
  have q2 := abs_le.mp (abs_mul_le' a0 c2)
  have q3 := abs_le.mp (abs_mul_le' b1 c2)
  have q4 := abs_le.mp (abs_mul_le' c1 b2)
  have q5 := abs_le.mp (abs_mul_le' b0 a1)
  have q6 := abs_le.mp (abs_mul_le' c0 a2)
  have p1 := abs_le.mp (abs_mul_le' (abs_mul_le' a0 b1) c2)
  have p2 := abs_le.mp (abs_mul_le' a0 (abs_mul_le' c1 b2))
  have p3 := abs_le.mp (abs_mul_le' (abs_mul_le' b0 a1) c2)
  have p4 := abs_le.mp (abs_mul_le' b0 (abs_mul_le' c1 a2))
  have p5 := abs_le.mp (abs_mul_le' c0 (abs_mul_le' a1 b2))
  have p6 := abs_le.mp (abs_mul_le' (abs_mul_le' c0 a2) b1)
  have s2 : e * e ≤ 1 / 100 * e := mul_le_mul_of_nonneg_right he1 he
  have s3 : e * e * e ≤ 1 / 100 * (1 / 100 * e) := by nlinarith
  have s3' : e * (e * e) ≤ 1 / 100 * (1 / 100 * e) := by nlinarith
  have l1 := abs_le.mp a0
  have l2 := abs_le.mp b1
  have l3 := abs_le.mp c2
  rw [abs_le]
  constructor <;> linarith [q1.1, q1.2, q2.1, q2.2, q3.1, q3.2, q4.1, q4.2, q5.1, q5.2, q6.1, q6.2, p1.1, p1.2, p2.1, p2.2,
    p3.1, p3.2, p4.1, p4.2, p5.1, p5.2, p6.1, p6.2, l1.1, l1.2, l2.1, l2.2, l3.1, l3.2]

/-- **C64 (b).** What acceptance guarantees: `C C'` is within `1e-10` of the identity, so lengths are preserved up to `1e-10`
relative, and the determinant is within `1e-9` of 1 **or of -1**. -/
theorem C64_accepted (norm2 : M3 → ℝ) (hn : IsSpectralNorm norm2) (C : M3) (h : isRotationMatrix norm2 C = true) :
    (∀ u : V3, ((C * C.transpose - 1).mulVec u).norm ≤ 1 / 10 ^ 10 * u.norm) ∧
    (|C.det - 1| ≤ 1 / 10 ^ 9 ∨ |C.det + 1| ≤ 1 / 10 ^ 9) := by
  obtain ⟨h1, h2⟩ := (isRotationMatrix_iff hn C).mp h
  refine ⟨h2, ?_⟩
  have hd := det_near_one (by norm_num) (by norm_num) h2
  rw [sub_add_cancel, M3.det_mul, M3.det_transpose] at hd
  obtain ⟨d1, d2⟩ := abs_le.mp hd
  by_cases hp : 0 ≤ C.det
  · left; rw [abs_le]; constructor <;> nlinarith
  · right; push Not at hp; rw [abs_le]; constructor <;> nlinarith

/-- **C64 (c).** Finding: the determinant test misses an absolute value: every reflection (orthogonal, determinant -1) is
accepted as "an element of SO(3)". -/
theorem C64_accepts_reflections (norm2 : M3 → ℝ) (hn : IsSpectralNorm norm2) (C : M3) (h : C * C.transpose = 1)
    (hd : C.det = -1) : isRotationMatrix norm2 C = true := by
  rw [isRotationMatrix_iff hn]
  refine ⟨by rw [hd]; norm_num, fun u => ?_⟩
  rw [h, sub_self]
  have : (0 : M3).mulVec u = 0 := by ext <;> simp
  rw [this, V3.norm_zero]
  exact mul_nonneg (by norm_num) u.norm_nonneg

/-- A reflection: the point reflection `-I`. -/
example : ∃ C : M3, C * C.transpose = 1 ∧ C.det = -1 := by
  refine ⟨⟨-1, 0, 0, 0, -1, 0, 0, 0, -1⟩, ?_, ?_⟩
  · ext <;> simp
  · simp [M3.det]

/-! ## C65: angle and axis, quaternion of a rotation matrix -/

lemma half_trace_rod (θ : ℝ) {n : V3} (hn : n.normSq = 1) :
    1 / 2 * ((rodMat θ n).m00 + (rodMat θ n).m11 + (rodMat θ n).m22 - 1) = Real.cos θ := by
  have := trace_rodMat θ hn
  simp only [M3.trace] at this
  linarith

/-- Evaluating the extraction on the rotation by `θ ∈ (0, π)` about `n`. -/
lemma getAngleAxis_rod {θ : ℝ} {n : V3} (hn : n.normSq = 1) (h0 : 0 < θ) (h1 : θ < Real.pi) :
    getAngleAxisFromRotationMatrix (rodMat θ n) = some (θ, n) := by
  have hs := Real.sin_pos_of_pos_of_lt_pi h0 h1
  unfold getAngleAxisFromRotationMatrix
  simp only [half_trace_rod θ hn, Real.arccos_cos h0.le h1.le]
  rw [if_neg]
  · have : (1 / (2 * Real.sin θ)) • (⟨(rodMat θ n).m21 - (rodMat θ n).m12, (rodMat θ n).m02 - (rodMat θ n).m20,
        (rodMat θ n).m10 - (rodMat θ n).m01⟩ : V3) = n := by
      ext <;> simp [rodMat, AngAx.toRotationMatrix] <;> field_simp <;> ring
    rw [this]
  · push Not
    exact ⟨Real.neg_one_le_cos θ, Real.cos_le_one θ, hs.ne'⟩

/-- **C65 (a).** On every rotation matrix, the extraction divides by zero exactly for the identity and for half turns. -/
theorem C65_defined (C : M3) (h : IsSO3 C) :
    (getAngleAxisFromRotationMatrix C = none ↔ C = 1 ∨ rotAngle C = Real.pi) := by
  obtain ⟨θ, n, hn, h0, h1, rfl⟩ := exists_rodMat h
  rw [rotAngle_rodMat hn h0 h1]
  rcases h0.eq_or_lt with rfl | h0'
  · rw [rodMat_zero]
    simp [getAngleAxisFromRotationMatrix]
    norm_num
  · rcases h1.eq_or_lt with rfl | h1'
    · have := half_trace_rod Real.pi hn
      simp [getAngleAxisFromRotationMatrix] at this ⊢
      rw [this]; simp
    · rw [getAngleAxis_rod hn h0' h1']
      constructor
      · intro hc; exact absurd hc (by simp)
      · rintro (hc | hc)
        · have := (rotAngle_eq_zero h).mpr hc
          rw [rotAngle_rodMat hn h0 h1] at this; linarith
        · linarith

/-- **C65 (b).** Otherwise it returns the rotation angle in `(0, π)` and a unit axis, and rotating by that angle about that axis
(Rodrigues' formula) is the given rotation; the quaternion derived from them is a unit quaternion with positive real part whose
sandwich product is the given rotation. -/
theorem C65_correct (C : M3) (h : IsSO3 C) :
    (∀ th n, getAngleAxisFromRotationMatrix C = some (th, n) → 0 < th ∧ th < Real.pi ∧ th = rotAngle C ∧
      n.x ^ 2 + n.y ^ 2 + n.z ^ 2 = 1 ∧ ∀ v, rodrigues th n v = C.mulVec v) ∧
    (∀ q, mapRotationMatrixToQuaternion C = some q → Valid .quat q ∧ 0 < q.w ∧ ∀ v, sandwich q v = C.mulVec v) ∧
    (mapRotationMatrixToQuaternion C = none ↔ C = 1 ∨ rotAngle C = Real.pi) := by
  have hnone := C65_defined C h
  have key : ∀ th n, getAngleAxisFromRotationMatrix C = some (th, n) → 0 < th ∧ th < Real.pi ∧ th = rotAngle C ∧
      n.normSq = 1 ∧ C = rodMat th n := by
    intro th n hs
    have hne : ¬ (C = 1 ∨ rotAngle C = Real.pi) := by rw [← hnone, hs]; simp
    push Not at hne
    obtain ⟨θ, m, hm, h0, h1, rfl⟩ := exists_rodMat h
    rw [rotAngle_rodMat hm h0 h1] at *
    have h0' : 0 < θ := lt_of_le_of_ne h0 fun h' => hne.1 (by rw [← h', rodMat_zero])
    have h1' : θ < Real.pi := lt_of_le_of_ne h1 hne.2
    rw [getAngleAxis_rod hm h0' h1'] at hs
    simp only [Option.some.injEq, Prod.mk.injEq] at hs
    obtain ⟨rfl, rfl⟩ := hs
    exact ⟨h0', h1', rfl, hm, rfl⟩
  refine ⟨?_, ?_, ?_⟩
  · intro th n hs
    obtain ⟨a, b, c, d, e⟩ := key th n hs
    refine ⟨a, b, c, by simpa only [V3.normSq, V3.dot, ← sq] using d, fun v => ?_⟩
    rw [rodrigues_eq, ← e]
  · intro q hq
    simp only [mapRotationMatrixToQuaternion, Option.map_eq_some_iff] at hq
    obtain ⟨⟨th, n⟩, hs, rfl⟩ := hq
    obtain ⟨a, b, c, d, e⟩ := key th n hs
    have hq : mapAngleAxisToQuaternion th n = Quat.ofAngleAxis th n := by
      simp [mapAngleAxisToQuaternion, Quat.ofAngleAxis, div_eq_inv_mul]
    refine ⟨?_, ?_, fun v => ?_⟩
    · rw [valid_quat_iff]; simp only [hq]; exact normSq_ofAngleAxis th d
    · exact Real.cos_pos_of_mem_Ioo ⟨by simp only; linarith [Real.pi_pos], by simp only; linarith⟩
    · rw [sandwich_eq]; simp only [hq]; rw [sMat_ofAngleAxis th d, ← e]
  · rw [← hnone]; simp [mapRotationMatrixToQuaternion]

/-- The hypotheses are met by a non-trivial rotation on which the extraction succeeds. -/
example : IsSO3 (rodMat 1 ⟨1, 0, 0⟩) ∧ getAngleAxisFromRotationMatrix (rodMat 1 ⟨1, 0, 0⟩) = some (1, ⟨1, 0, 0⟩) := by
  have hn : (⟨1, 0, 0⟩ : V3).normSq = 1 := by simp [V3.normSq, V3.dot]
  exact ⟨rodMat_isSO3 1 hn, getAngleAxis_rod hn one_pos (by linarith [Real.pi_gt_three])⟩

/-- A spectral norm exists (so the hypothesis of C64 can be met). -/
theorem exists_spectralNorm : ∃ norm2 : M3 → ℝ, IsSpectralNorm norm2 := by
  refine ⟨fun A => sInf {c | 0 ≤ c ∧ ∀ u : V3, (A.mulVec u).norm ≤ c * u.norm}, fun A => ?_⟩
  set S := {c | 0 ≤ c ∧ ∀ u : V3, (A.mulVec u).norm ≤ c * u.norm}
  have hbdd : BddBelow S := ⟨0, fun c hc => hc.1⟩
  have hne : S.Nonempty := by
    set K := (⟨A.m00, A.m10, A.m20⟩ : V3).norm + (⟨A.m01, A.m11, A.m21⟩ : V3).norm + (⟨A.m02, A.m12, A.m22⟩ : V3).norm with hK
    refine ⟨K, add_nonneg (add_nonneg (V3.norm_nonneg _) (V3.norm_nonneg _)) (V3.norm_nonneg _), fun u => ?_⟩
    have e : A.mulVec u = u.x • (⟨A.m00, A.m10, A.m20⟩ : V3) + u.y • (⟨A.m01, A.m11, A.m21⟩ : V3) +
        u.z • (⟨A.m02, A.m12, A.m22⟩ : V3) := by ext <;> simp <;> ring
    have comp : |u.x| ≤ u.norm ∧ |u.y| ≤ u.norm ∧ |u.z| ≤ u.norm := by
      have hs := V3.norm_sq u
      simp only [V3.normSq, V3.dot] at hs
      refine ⟨abs_le_of_sq_le_sq ?_ u.norm_nonneg, abs_le_of_sq_le_sq ?_ u.norm_nonneg, abs_le_of_sq_le_sq ?_ u.norm_nonneg⟩
      · nlinarith [mul_self_nonneg u.y, mul_self_nonneg u.z]
      · nlinarith [mul_self_nonneg u.x, mul_self_nonneg u.z]
      · nlinarith [mul_self_nonneg u.x, mul_self_nonneg u.y]
    rw [e]
    refine (V3.norm_add_le _ _).trans ?_
    refine (add_le_add_left (V3.norm_add_le _ _) _).trans ?_
    rw [V3.norm_smul, V3.norm_smul, V3.norm_smul, hK]
    have := V3.norm_nonneg (⟨A.m00, A.m10, A.m20⟩ : V3)
    have := V3.norm_nonneg (⟨A.m01, A.m11, A.m21⟩ : V3)
    have := V3.norm_nonneg (⟨A.m02, A.m12, A.m22⟩ : V3)
    nlinarith [comp.1, comp.2.1, comp.2.2]
  refine ⟨le_csInf hne fun c hc => hc.1, fun u => ?_, fun c hc hu => csInf_le hbdd ⟨hc, hu⟩⟩
  rcases u.norm_nonneg.eq_or_lt with h0 | h0
  · obtain ⟨c, hc⟩ := hne
    have := hc.2 u
    rw [← h0] at this ⊢
    simpa using this
  · rw [← div_le_iff₀ h0]
    refine le_csInf hne fun c hc => ?_
    rw [div_le_iff₀ h0]; exact hc.2 u

/-! ## C66: quaternions and rotation vectors -/

/-- **C66 (a).** Turning a vector with the quaternion and turning it with the matrix of the quaternion agree for every quaternion,
and for unit quaternions both are the quaternion sandwich product (a rotation). -/
theorem C66_quaternion_rotation (q : Quat) (v : V3) :
    rotateVectorUsingQuaternion q v = (mapQuaternionToRotationMatrix q).mulVec v ∧
    (Valid .quat q → (mapQuaternionToRotationMatrix q).mulVec v = sandwich q v ∧ IsSO3 (mapQuaternionToRotationMatrix q)) := by
  constructor
  · ext <;> simp [rotateVectorUsingQuaternion, mapQuaternionToRotationMatrix, skew, outer, V3.dot] <;> ring
  · intro hq
    rw [valid_quat_iff] at hq
    have e : mapQuaternionToRotationMatrix q = sMat q := by
      simp only [Quat.normSq] at hq
      ext <;> simp [mapQuaternionToRotationMatrix, skew, outer, sMat] <;>
        first | ring1 | linear_combination hq | linear_combination -hq | linear_combination 2 * hq | linear_combination -2 * hq
    rw [e]
    exact ⟨(sandwich_eq q v).symm, sMat_isSO3 hq⟩

lemma rodMat_mul_transpose (α β : ℝ) {n : V3} (hn : n.normSq = 1) :
    rodMat α n * (rodMat β n).transpose = rodMat (α - β) n := by
  have h := den_rv_smul_mul α (-β) n
  simp only [den_eq, dmat_rv_smul _ hn] at h
  have h2 : (rodMat β n).transpose = rodMat (-β) n := by
    rw [rodMat_transpose, ← rodMat_neg_neg, neg_neg]
  rw [h2, h, sub_eq_add_neg]

lemma rodMat_close (α β : ℝ) {n : V3} (hn : n.normSq = 1) : Close |α - β| (rodMat α n) (rodMat β n) := by
  apply close_of_rotAngle (rodMat_isSO3 α hn) (rodMat_isSO3 β hn)
  rw [rodMat_mul_transpose α β hn]
  exact rotAngle_of_trace (trace_rodMat _ hn)

/-- **C66 (b).** The rotation vector extracted from a unit quaternion represents the same rotation: exactly if the vector part is
at least `eps` long, and within `eps²` of every vector's length otherwise; its length is at most `2π`. -/
theorem C66_quaternion_to_rotation_vector (q : Quat) (hq : Valid .quat q) :
    (eps ≤ Real.sqrt (q.x ^ 2 + q.y ^ 2 + q.z ^ 2) →
      ∀ v, act .rv (⟨mapRotationQuaternionToRotationVector q⟩ : RotVec) v = sandwich q v) ∧
    (∀ v, (act .rv (⟨mapRotationQuaternionToRotationVector q⟩ : RotVec) v - sandwich q v).norm ≤ eps ^ 2 * v.norm) ∧
    (mapRotationQuaternionToRotationVector q).norm ≤ 2 * Real.pi := by
  rw [valid_quat_iff] at hq
  set n : V3 := ⟨q.x, q.y, q.z⟩ with hnd
  have hnn : Real.sqrt (q.x ^ 2 + q.y ^ 2 + q.z ^ 2) = n.norm := by
    simp only [V3.norm, V3.normSq, V3.dot, hnd, sq]
  have hns : n.norm ^ 2 + q.w ^ 2 = 1 := by
    rw [V3.norm_sq]; simp only [V3.normSq, V3.dot, hnd]; simp only [Quat.normSq] at hq; linarith
  have hpi := Real.pi_gt_three
  have he : eps ≤ 1 / 1000 := by norm_num [eps]
  have he0 : 0 < eps := by norm_num [eps]
  rw [hnn]
  -- the exact branch
  have exact' : eps ≤ n.norm → dmat .rv (⟨mapRotationQuaternionToRotationVector q⟩ : RotVec) = sMat q ∧
      (mapRotationQuaternionToRotationVector q).norm ≤ 2 * Real.pi := by
    intro h
    have hn0 : n.norm ≠ 0 := by linarith
    have hu := unit_dir hn0
    have e : mapRotationQuaternionToRotationVector q = (2 * atan2 n.norm q.w) • ((1 / n.norm) • n) := by
      simp only [mapRotationQuaternionToRotationVector, ← hnd, if_neg (not_lt.mpr h)]
      ext <;> simp <;> ring
    have hcs : q.w ^ 2 + n.norm ^ 2 = 1 := by linarith
    constructor
    · rw [e, dmat_rv_smul _ hu, ← sMat_ofAngleAxis _ hu]
      congr 1
      have a1 := cos_atan2 hcs
      have a2 := sin_atan2 hcs
      have e2 : 1 / 2 * (2 * atan2 n.norm q.w) = atan2 n.norm q.w := by ring
      have nx : n.x = q.x := rfl
      have ny : n.y = q.y := rfl
      have nz : n.z = q.z := rfl
      clear_value n
      ext
      · simp only [Quat.ofAngleAxis, e2, a1]
      all_goals
        simp only [Quat.ofAngleAxis, e2, a2, V3.smul_x, V3.smul_y, V3.smul_z, nx, ny, nz]
        field_simp
    · rw [e, V3.norm_smul]
      have : ((1 / n.norm) • n).norm = 1 := by rw [V3.norm, hu, Real.sqrt_one]
      rw [this, mul_one, abs_of_nonneg (by have := atan2_nonneg (x := q.w) n.norm_nonneg; linarith)]
      have := atan2_le_pi n.norm q.w
      linarith
  have exact2 : eps ≤ n.norm → ∀ v, act .rv (⟨mapRotationQuaternionToRotationVector q⟩ : RotVec) v = sandwich q v :=
    fun h v => by rw [act_eq_dmat, (exact' h).1, sandwich_eq]
  refine ⟨exact2, fun v => ?_, ?_⟩
  · by_cases h : eps ≤ n.norm
    · rw [exact2 h v, sub_self, V3.norm_zero]; exact mul_nonneg (sq_nonneg _) v.norm_nonneg
    · push Not at h
      rw [act_eq_dmat, sandwich_eq]
      refine (?_ : Close (eps ^ 2) _ _) v
      by_cases h0 : n.norm = 0
      · have hz : n = 0 := V3.norm_eq_zero.mp h0
        have e : mapRotationQuaternionToRotationVector q = 0 := by
          simp only [mapRotationQuaternionToRotationVector, ← hnd, if_pos h, hz]
          split_ifs <;> ext <;> simp
        rw [e, dmat_rv_zero]
        have hx : q.x = 0 := congrArg V3.x hz
        have hy : q.y = 0 := congrArg V3.y hz
        have hzz : q.z = 0 := congrArg V3.z hz
        have : sMat q = 1 := by
          simp only [Quat.normSq, hx, hy, hzz] at hq
          have hw : q.w * q.w = 1 := by linarith
          ext <;> simp [sMat, hx, hy, hzz] <;> first | done | exact mul_self_eq_one_iff.mp hw | nlinarith
        rw [this]; exact (Close.refl _).mono (sq_nonneg _)
      · have hu := unit_dir h0
        have hn0 : 0 < n.norm := lt_of_le_of_ne n.norm_nonneg (Ne.symm h0)
        -- angle a in (0, π/2) with sin a = |n|, cos a = |w|
        set a := Real.arcsin n.norm with ha
        have hn1 : n.norm ≤ 1 := by linarith
        have hsa : Real.sin a = n.norm := Real.sin_arcsin (by linarith) hn1
        have ha0 : 0 < a := Real.arcsin_pos.mpr hn0
        have ha1 : a ≤ Real.pi / 2 := Real.arcsin_le_pi_div_two _
        have hca : Real.cos a = |q.w| := by
          rw [ha, Real.cos_arcsin, ← Real.sqrt_sq_eq_abs]; congr 1; linarith
        have hmul := Real.mul_le_sin ha0.le ha1
        rw [hsa] at hmul
        have hpi4 := Real.pi_le_four
        have ha2 : a ≤ 2 * n.norm := by
          rw [div_mul_eq_mul_div, div_le_iff₀ (by linarith)] at hmul
          nlinarith
        have hcube := Real.sin_gt_sub_cube ha0
        rw [hsa] at hcube
        have ha3 : a ^ 3 ≤ (2 * n.norm) ^ 3 := pow_le_pow_left₀ ha0.le ha2 3
        have hle : a ≥ n.norm := by rw [← hsa]; exact (Real.sin_lt ha0).le
        have hdiff : |2 * n.norm - 2 * a| ≤ eps ^ 2 := by
          rw [abs_le]
          have h3 : n.norm ^ 3 ≤ 1 / 1000 * eps ^ 2 := by
            have : n.norm ^ 2 ≤ eps ^ 2 := pow_le_pow_left₀ n.norm_nonneg h.le 2
            calc n.norm ^ 3 = n.norm * n.norm ^ 2 := by ring
              _ ≤ 1 / 1000 * eps ^ 2 := mul_le_mul (by linarith) this (sq_nonneg _) (by norm_num)
          have h4 : (2 * n.norm) ^ 3 = 8 * n.norm ^ 3 := by ring
          rw [h4] at ha3
          have h5 : 0 ≤ eps ^ 2 := sq_nonneg _
          constructor <;> linarith
        -- signed axis
        have sgn : ∃ σ : ℝ, (σ = 1 ∨ σ = -1) ∧ σ * q.w = |q.w| ∧
            mapRotationQuaternionToRotationVector q = (2 * n.norm) • ((1 / n.norm) • (σ • n)) := by
          by_cases hw : q.w > 0
          · refine ⟨1, Or.inl rfl, by rw [one_mul, abs_of_pos hw], ?_⟩
            simp only [mapRotationQuaternionToRotationVector, ← hnd, if_pos h, if_pos hw]
            ext <;> simp <;> field_simp
          · refine ⟨-1, Or.inr rfl, by rw [abs_of_nonpos (not_lt.mp hw)]; ring, ?_⟩
            simp only [mapRotationQuaternionToRotationVector, ← hnd, if_pos h, if_neg hw]
            ext <;> simp <;> field_simp
        obtain ⟨σ, hσ, hσw, e⟩ := sgn
        have hσ2 : σ * σ = 1 := by rcases hσ with rfl | rfl <;> norm_num
        have hu' : ((1 / n.norm) • (σ • n)).normSq = 1 := by
          have : ((1 / n.norm) • (σ • n)).normSq = σ * σ * ((1 / n.norm) • n).normSq := by
            simp [V3.normSq, V3.dot]; ring
          rw [this, hσ2, hu, one_mul]
        have hS : sMat q = rodMat (2 * a) ((1 / n.norm) • (σ • n)) := by
          rw [← sMat_ofAngleAxis _ hu']
          have hq2 : sMat q = sMat ⟨σ * q.w, σ * q.x, σ * q.y, σ * q.z⟩ := by
            rw [sMat_scale, sq, hσ2, one_smul]
          rw [hq2, hσw]
          congr 1
          have h2a : (1 : ℝ) / 2 * (2 * a) = a := by ring
          ext <;> simp only [Quat.ofAngleAxis, h2a, hca, hsa] <;> simp [hnd] <;> rw [← hnd] <;> field_simp
        rw [e, dmat_rv_smul _ hu', hS]
        exact (rodMat_close _ _ hu').mono hdiff
  · by_cases h : eps ≤ n.norm
    · exact (exact' h).2
    · push Not at h
      have : (mapRotationQuaternionToRotationVector q).norm = 2 * n.norm := by
        simp only [mapRotationQuaternionToRotationVector, ← hnd, if_pos h]
        split_ifs <;> rw [V3.norm_smul] <;> norm_num
      rw [this]; linarith

/-- **C66 (c).** The matrix computed from a rotation vector is the matrix exponential of its cross-product matrix, exactly if the
vector is at least `eps` long and within `eps²` of every vector's length otherwise. -/
theorem C66_rotation_vector_to_matrix (phi : V3) :
    (eps ≤ phi.norm → toMat (mapRotationVectorToRotationMatrix phi) = NormedSpace.exp (crossMatrix phi)) ∧
    (∀ v, ((mapRotationVectorToRotationMatrix phi).mulVec v - act .rv (⟨phi⟩ : RotVec) v).norm ≤ eps ^ 2 * v.norm) := by
  have he0 : 0 < eps := by norm_num [eps]
  have he1 : eps ≤ 1 / 1000 := by norm_num [eps]
  have ex : eps ≤ phi.norm → mapRotationVectorToRotationMatrix phi = dmat .rv (⟨phi⟩ : RotVec) := by
    intro h
    have hp : phi.norm ≠ 0 := by linarith
    have hu := unit_dir hp
    have hne : phi ≠ 0 := fun h0 => hp (by rw [h0, V3.norm_zero])
    rw [dmat_rv_ne hne, rodMat_eq _ hu]
    simp only [mapRotationVectorToRotationMatrix, abs_of_nonneg phi.norm_nonneg, if_neg (not_lt.mpr h)]
    ext <;> simp [skew, Kindr.skew] <;> field_simp
  refine ⟨fun h => by rw [ex h, toMat_rv], fun v => ?_⟩
  rw [act_eq_dmat]
  refine (?_ : Close (eps ^ 2) _ _) v
  by_cases h : eps ≤ phi.norm
  · rw [ex h]; exact (Close.refl _).mono (sq_nonneg _)
  · push Not at h
    have e : mapRotationVectorToRotationMatrix phi = 1 + skew phi := by
      simp only [mapRotationVectorToRotationMatrix, abs_of_nonneg phi.norm_nonneg, if_pos h]
    rw [e]
    by_cases h0 : phi = 0
    · subst h0
      have : (1 : M3) + skew 0 = 1 := by ext <;> simp [skew]
      rw [this, dmat_rv_zero]; exact (Close.refl _).mono (sq_nonneg _)
    · have hp0 : phi.norm ≠ 0 := fun h' => h0 (V3.norm_eq_zero.mp h')
      have hp : 0 < phi.norm := lt_of_le_of_ne phi.norm_nonneg (Ne.symm hp0)
      have hu := unit_dir hp0
      rw [dmat_rv_ne h0, rodMat_eq _ hu]
      intro w
      set n := (1 / phi.norm) • phi with hn
      set θ := phi.norm with hθ
      have hphi : phi = θ • n := by rw [hn]; ext <;> simp <;> field_simp
      have e2 : (1 + skew phi).mulVec w - (1 + Real.sin θ • Kindr.skew n + (1 - Real.cos θ) • (Kindr.skew n * Kindr.skew n)).mulVec w
          = (θ - Real.sin θ) • n.cross w - (1 - Real.cos θ) • n.cross (n.cross w) := by
        rw [hphi]
        ext <;> simp [skew, Kindr.skew, V3.cross] <;> ring
      rw [e2]
      refine (V3.norm_sub_le _ _).trans ?_
      rw [V3.norm_smul, V3.norm_smul]
      have hn1 : n.norm = 1 := by rw [V3.norm, hu, Real.sqrt_one]
      have c1 := V3.norm_cross_le n w
      have c2 := V3.norm_cross_le n (n.cross w)
      rw [hn1, one_mul] at c1 c2
      have s1 := Real.sin_gt_sub_cube hp
      have s2 := (Real.sin_lt hp).le
      have s3 := Real.one_sub_sq_div_two_le_cos (x := θ)
      have s4 := Real.cos_le_one θ
      rw [abs_of_nonneg (by linarith), abs_of_nonneg (by linarith)]
      have q2 : θ ^ 2 ≤ eps ^ 2 := pow_le_pow_left₀ hp.le h.le 2
      have q3 : θ ^ 3 ≤ 1 / 1000 * eps ^ 2 := by
        calc θ ^ 3 = θ * θ ^ 2 := by ring
          _ ≤ 1 / 1000 * eps ^ 2 := mul_le_mul (by linarith) q2 (sq_nonneg _) (by norm_num)
      have b1 : (θ - Real.sin θ) * (n.cross w).norm ≤ 1 / 1000 * eps ^ 2 * w.norm :=
        mul_le_mul (by nlinarith [sq_nonneg eps]) c1 (V3.norm_nonneg _) (by positivity)
      have b2 : (1 - Real.cos θ) * (n.cross (n.cross w)).norm ≤ 1 / 2 * eps ^ 2 * w.norm :=
        mul_le_mul (by linarith) (c2.trans c1) (V3.norm_nonneg _) (by positivity)
      have := mul_nonneg (sq_nonneg eps) w.norm_nonneg
      nlinarith

/-- **C66 (d).** `skew` is the cross-product matrix, `unskew` its inverse, and `skew` undoes `unskew` exactly on antisymmetric
matrices. -/
theorem C66_skew (v u : V3) (S : M3) :
    (skew v).mulVec u = v.cross u ∧ unskew (skew v) = v ∧ (skew (unskew S) = S ↔ S.transpose = -S) := by
  refine ⟨skew_mulVec v u, rfl, ?_⟩
  constructor
  · intro h; rw [← h]; ext <;> simp [skew]
  · intro h
    rw [M3.ext_iff] at h
    simp at h
    obtain ⟨a, b, c, d, e, f, g, i, j⟩ := h
    ext <;> simp [skew, unskew] <;> linarith

/-! ## C67: boxPlus and boxMinus -/

lemma expm_skew {expm : M3 → M3} (he : IsExpm expm) (v : V3) : expm (skew v) = den .rv (⟨v⟩ : RotVec) := by
  rw [den_eq]; apply toMat_injective; rw [he, toMat_rv]; rfl

lemma logm_rv {logm : M3 → M3} (hl : IsLogm logm) {v : V3} (hv : v.norm < Real.pi) :
    logm (den .rv (⟨v⟩ : RotVec)) = skew v := by
  apply toMat_injective
  rw [hl v _ hv (by rw [den_eq, toMat_rv])]
  rfl

lemma exists_rv {C : M3} (h : IsSO3 C) : ∃ v : V3, v.norm = rotAngle C ∧ C = den .rv (⟨v⟩ : RotVec) := by
  obtain ⟨θ, n, hn, h0, h1, rfl⟩ := exists_rodMat h
  refine ⟨θ • n, ?_, ?_⟩
  · rw [rotAngle_rodMat hn h0 h1, V3.norm_smul, V3.norm, hn, Real.sqrt_one, mul_one, abs_of_nonneg h0]
  · rw [den_eq, dmat_rv_smul _ hn]

/-- **C67 (a).** `boxMinus` undoes `boxPlus` for perturbations shorter than `π`, and `boxPlus` yields a rotation. -/
theorem C67_boxMinus_boxPlus (expm logm : M3 → M3) (he : IsExpm expm) (hl : IsLogm logm) (C : M3) (hC : IsSO3 C) (delta : V3) :
    IsSO3 (boxPlus expm C delta) ∧ rotAngle (boxPlus expm C delta * C.transpose) ≤ delta.norm ∧
    (delta.norm < Real.pi → boxMinus logm (boxPlus expm C delta) C = delta) := by
  have hR : IsSO3 (den .rv (⟨delta⟩ : RotVec)) := den_isSO3 (k := .rv) trivial
  have e : boxPlus expm C delta * C.transpose = den .rv (⟨delta⟩ : RotVec) := by
    rw [boxPlus, expm_skew he, mul_assoc, hC.1, mul_one]
  refine ⟨?_, ?_, fun hd => ?_⟩
  · rw [boxPlus, expm_skew he]; exact SO3.mul hR hC
  · rw [e, den_eq]
    by_cases h0 : delta = 0
    · subst h0; rw [dmat_rv_zero, (rotAngle_eq_zero SO3.one).mpr rfl]; exact V3.norm_nonneg _
    · have hp0 : delta.norm ≠ 0 := fun h' => h0 (V3.norm_eq_zero.mp h')
      rw [dmat_rv_ne h0]
      have := rotAngle_of_trace (trace_rodMat delta.norm (unit_dir hp0))
      rwa [abs_of_nonneg delta.norm_nonneg] at this
  · rw [boxMinus, e, logm_rv hl hd]; rfl

/-- **C67 (b).** `boxPlus(C2, boxMinus(C1, C2))` is `C1` for any two rotations that are not a half turn apart, and the length of
`boxMinus` is the angle between them; the rotation vector of a matrix is `boxMinus` against the identity. -/
theorem C67_boxPlus_boxMinus (expm logm : M3 → M3) (he : IsExpm expm) (hl : IsLogm logm) (C1 C2 : M3) (h1 : IsSO3 C1)
    (h2 : IsSO3 C2) (hd : rotAngle (C1 * C2.transpose) < Real.pi) :
    boxPlus expm C2 (boxMinus logm C1 C2) = C1 ∧ (boxMinus logm C1 C2).norm = rotAngle (C1 * C2.transpose) ∧
    mapRotationMatrixToRotationVector logm (C1 * C2.transpose) = boxMinus logm C1 C2 := by
  obtain ⟨v, hv, hC⟩ := exists_rv (SO3.mul h1 (SO3.transpose h2))
  have e : boxMinus logm C1 C2 = v := by
    rw [boxMinus, hC, logm_rv hl (by rw [hv]; exact hd)]; rfl
  refine ⟨?_, by rw [e, hv], rfl⟩
  rw [e, boxPlus, expm_skew he, ← hC, mul_assoc, SO3.tr_mul h2, mul_one]

/-- **C67 (c).** The Matlab and the C++ library agree: `boxPlus` and `boxMinus` compute the same rotation and the same vector, for
every C++ rotation class, outside the small-angle zone of the C++ rotation vectors and below half turns. -/
theorem C67_agrees_with_cpp (expm logm : M3 → M3) (he : IsExpm expm) (hl : IsLogm logm) (P : Prec) (k : Kind) (a b : Rep k)
    (ha : Valid k a) (hb : Valid k b) (hca : RvClear P k (den k a)) (hcb : RvClear P k (den k b)) :
    (∀ v : V3, Clear P (den .rv (⟨v⟩ : RotVec)) → RvClear P k (den .rv (⟨v⟩ : RotVec) * den k a) →
      den k (Kindr.boxPlus P k a v) = boxPlus expm (den k a) v) ∧
    (Clear P (den k a * (den k b).transpose) → rotAngle (den k a * (den k b).transpose) < Real.pi →
      Kindr.boxMinus P k k a b = boxMinus logm (den k a) (den k b)) := by
  constructor
  · intro v hc hf
    obtain ⟨ve, de⟩ := exp_spec (P := P) (k := k) hc
    obtain ⟨v3, d3⟩ := mult_spec (P := P) ve ha (fun _ => by rw [de]; exact hc) hca (by rw [de]; exact hf)
    refine d3.trans ?_
    rw [de, boxPlus, expm_skew he]
  · intro hc hr
    obtain ⟨v, hv, hC⟩ := exists_rv (SO3.mul (den_isSO3 ha) (SO3.transpose (den_isSO3 hb)))
    obtain ⟨vm, dm⟩ := relative_spec ha hb (P := P) ⟨hca, hcb, fun _ => hc⟩
    have h1 : Kindr.boxMinus P k k a b = v :=
      log_of_den vm (dm.trans hC) (by rw [← hC]; exact hc) (by rw [hv]; exact hr)
    rw [h1, boxMinus, hC, logm_rv hl (by rw [hv]; exact hr)]
    rfl

/-- The contracts of `expm` and `logm` can be met. -/
theorem exists_expm_logm : (∃ expm, IsExpm expm) ∧ ∃ logm, IsLogm logm := by
  constructor
  · refine ⟨fun A => let B := NormedSpace.exp (toMat A)
      ⟨B 0 0, B 0 1, B 0 2, B 1 0, B 1 1, B 1 2, B 2 0, B 2 1, B 2 2⟩, fun A => ?_⟩
    ext i j; fin_cases i <;> fin_cases j <;> simp [toMat]
  · refine ⟨fun C => if h : ∃ v : V3, v.norm < Real.pi ∧ toMat C = NormedSpace.exp (crossMatrix v) then skew h.choose else 0,
      fun v C hv hC => ?_⟩
    have hex : ∃ v : V3, v.norm < Real.pi ∧ toMat C = NormedSpace.exp (crossMatrix v) := ⟨v, hv, hC⟩
    beta_reduce
    rw [dif_pos hex]
    obtain ⟨h1, h2⟩ := hex.choose_spec
    suffices hex.choose = v by rw [this]; rfl
    generalize hex.choose = u at *
    have key : ∀ {x : V3}, x.norm < Real.pi → (x = 0 ∧ dmat .rv (⟨x⟩ : RotVec) = 1) ∨
        (x ≠ 0 ∧ getAngleAxisFromRotationMatrix (dmat .rv (⟨x⟩ : RotVec)) = some (x.norm, (1 / x.norm) • x)) := by
      intro x hx
      by_cases h0 : x = 0
      · subst h0; exact Or.inl ⟨rfl, dmat_rv_zero⟩
      · have hp0 : x.norm ≠ 0 := fun h' => h0 (V3.norm_eq_zero.mp h')
        refine Or.inr ⟨h0, ?_⟩
        rw [dmat_rv_ne h0]
        exact getAngleAxis_rod (unit_dir hp0) (lt_of_le_of_ne x.norm_nonneg (Ne.symm hp0)) hx
    have heq : dmat .rv (⟨u⟩ : RotVec) = dmat .rv (⟨v⟩ : RotVec) := by
      apply toMat_injective; rw [toMat_rv, toMat_rv, ← h2, hC]
    have hone : getAngleAxisFromRotationMatrix 1 = none := (C65_defined 1 SO3.one).mpr (Or.inl rfl)
    rcases key h1 with ⟨a, b⟩ | ⟨a, b⟩ <;> rcases key hv with ⟨c, d⟩ | ⟨c, d⟩
    · rw [a, c]
    · rw [← heq, b, hone] at d; exact absurd d (by simp)
    · rw [heq, d, hone] at b; exact absurd b (by simp)
    · rw [heq, d] at b
      simp only [Option.some.injEq, Prod.mk.injEq] at b
      have hu0 : u.norm ≠ 0 := fun h' => a (V3.norm_eq_zero.mp h')
      have e1 : u = u.norm • ((1 / u.norm) • u) := by ext <;> simp <;> field_simp
      have hv0 : v.norm ≠ 0 := fun h' => c (V3.norm_eq_zero.mp h')
      have e2 : v = v.norm • ((1 / v.norm) • v) := by ext <;> simp <;> field_simp
      exact e1.trans ((congrArg₂ (· • ·) b.1.symm b.2.symm).trans e2.symm)

end Matlab
end Kindr
