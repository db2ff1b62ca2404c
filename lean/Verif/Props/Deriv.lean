import Verif.Lemmas.Deriv
import Verif.Props.Group
import Verif.Props.Math

/-!
# C28, C29, C30: angular velocities, quaternion and matrix derivatives
-/

set_option autoImplicit false

noncomputable section
namespace Kindr
open Spec Filter

/-! ## C28 -/

/-- **C28 (a).** Local and global angular velocity convert into each other without loss, for every rotation class; the
global velocity is the rotated local one, with the same magnitude. -/
theorem C28_local_global (P : Prec) (k : Kind) (r : Rep k) (hv : Valid k r) (hx : ExactBranch P .mat k r)
    (w : LocalAV) (W : GlobalAV) :
    localOfGlobal P k r (globalOfLocal P k r w) = w ∧
    globalOfLocal P k r (localOfGlobal P k r W) = W ∧
    (globalOfLocal P k r w).v = act k r w.v ∧
    act k r (localOfGlobal P k r W).v = W.v ∧
    (globalOfLocal P k r w).v.norm = w.v.norm ∧ (localOfGlobal P k r W).v.norm = W.v.norm := by
  obtain ⟨-, -, -, hn, -, h1, -⟩ := C10_rotate_isometry P k r hv hx w.v w.v 1
  obtain ⟨-, -, -, -, -, -, h2⟩ := C10_rotate_isometry P k r hv hx W.v W.v 1
  obtain ⟨-, -, -, hN, -⟩ := C10_rotate_isometry P k r hv hx (localOfGlobal P k r W).v (localOfGlobal P k r W).v 1
  refine ⟨LocalAV.ext h1, GlobalAV.ext h2, C10_rotate_spec P k r hv hx w.v, ?_, hn, ?_⟩
  · rw [← C10_rotate_spec P k r hv hx]; exact h2
  · rw [← hN]; exact congrArg V3.norm h2

/-- **C28 (b).** The two describe the same motion: `w` is the body-frame velocity of a moving rotation iff its conversion is the
fixed-frame velocity, and each is unique. -/
theorem C28_same_motion (P : Prec) (k : Kind) (r : ℝ → Rep k) (t : ℝ) (hv : Valid k (r t))
    (hx : ExactBranch P .mat k (r t)) (w : LocalAV) (W : GlobalAV) :
    (IsLocalVelocity k r t w.v ↔ IsGlobalVelocity k r t (globalOfLocal P k (r t) w).v) ∧
    (IsGlobalVelocity k r t W.v ↔ IsLocalVelocity k r t (localOfGlobal P k (r t) W).v) ∧
    (∀ u, IsLocalVelocity k r t w.v → IsLocalVelocity k r t u → u = w.v) ∧
    (∀ u, IsGlobalVelocity k r t W.v → IsGlobalVelocity k r t u → u = W.v) := by
  obtain ⟨-, -, h3, h4, -⟩ := C28_local_global P k (r t) hv hx w W
  refine ⟨?_, ?_, fun u h h' => isLocalVelocity_unique hv h' h, fun u h h' => isGlobalVelocity_unique hv h' h⟩
  · rw [local_iff_global hv, h3, act_eq]
  · rw [local_iff_global hv, ← act_eq, h4]

/-! ## C29 -/

lemma hasDerivM_sMat {q : ℝ → Quat} {d : Quat} {t : ℝ} (h : HasDerivQ q d t) :
    HasDerivM (fun s => sMat (q s))
      ⟨2 * ((q t).w * d.w + (q t).x * d.x - (q t).y * d.y - (q t).z * d.z),
       2 * (d.x * (q t).y + (q t).x * d.y - (d.w * (q t).z + (q t).w * d.z)),
       2 * (d.x * (q t).z + (q t).x * d.z + (d.w * (q t).y + (q t).w * d.y)),
       2 * (d.x * (q t).y + (q t).x * d.y + (d.w * (q t).z + (q t).w * d.z)),
       2 * ((q t).w * d.w - (q t).x * d.x + (q t).y * d.y - (q t).z * d.z),
       2 * (d.y * (q t).z + (q t).y * d.z - (d.w * (q t).x + (q t).w * d.x)),
       2 * (d.x * (q t).z + (q t).x * d.z - (d.w * (q t).y + (q t).w * d.y)),
       2 * (d.y * (q t).z + (q t).y * d.z + (d.w * (q t).x + (q t).w * d.x)),
       2 * ((q t).w * d.w - (q t).x * d.x - (q t).y * d.y + (q t).z * d.z)⟩ t := by
  obtain ⟨hw, hx, hy, hz⟩ := h
  refine ⟨⟨?_, ?_, ?_⟩, ⟨?_, ?_, ?_⟩, ?_, ?_, ?_⟩
  · exact ((((hw.pow 2).add (hx.pow 2)).sub (hy.pow 2)).sub (hz.pow 2)).congr_deriv (by norm_num; ring)
  · exact ((hx.mul hy).sub (hw.mul hz)).const_mul 2
  · exact ((hx.mul hz).add (hw.mul hy)).const_mul 2
  · exact ((hx.mul hy).add (hw.mul hz)).const_mul 2
  · exact ((((hw.pow 2).sub (hx.pow 2)).add (hy.pow 2)).sub (hz.pow 2)).congr_deriv (by norm_num; ring)
  · exact ((hy.mul hz).sub (hw.mul hx)).const_mul 2
  · exact ((hx.mul hz).sub (hw.mul hy)).const_mul 2
  · exact ((hy.mul hz).add (hw.mul hx)).const_mul 2
  · exact ((((hw.pow 2).sub (hx.pow 2)).sub (hy.pow 2)).add (hz.pow 2)).congr_deriv (by norm_num; ring)

/-- The derivative of a unit-quaternion curve is orthogonal to the quaternion. -/
lemma quat_tangent {q : ℝ → Quat} {d : Quat} {t : ℝ} (hv : ∀ᶠ s in nhds t, Valid .quat (q s)) (h : HasDerivQ q d t) :
    (q t).w * d.w + (q t).x * d.x + (q t).y * d.y + (q t).z * d.z = 0 := by
  obtain ⟨hw, hx, hy, hz⟩ := h
  have h1 := (((hw.pow 2).add (hx.pow 2)).add (hy.pow 2)).add (hz.pow 2)
  have h2 : HasDerivAt (fun s => (q s).w ^ 2 + (q s).x ^ 2 + (q s).y ^ 2 + (q s).z ^ 2) 0 t :=
    (hasDerivAt_const t (1 : ℝ)).congr_of_eventuallyEq (hv.mono fun s hs => hs)
  have := h1.unique h2
  norm_num at this
  linarith

lemma mulVec_local (q : Quat) (d : QuatDiff) : (localOfQuatDiff q d).v =
    ⟨2 * (-q.x * d.q.w + q.w * d.q.x + q.z * d.q.y - q.y * d.q.z),
     2 * (-q.y * d.q.w - q.z * d.q.x + q.w * d.q.y + q.x * d.q.z),
     2 * (-q.z * d.q.w + q.y * d.q.x - q.x * d.q.y + q.w * d.q.z)⟩ := by
  ext <;> simp [localOfQuatDiff, getLocalQuaternionDiffMatrix, M34.mulVec, V4.dot, Quat.toV4] <;> ring

lemma mulVec_global (q : Quat) (d : QuatDiff) : (globalOfQuatDiff q d).v =
    ⟨2 * (-q.x * d.q.w + q.w * d.q.x - q.z * d.q.y + q.y * d.q.z),
     2 * (-q.y * d.q.w + q.z * d.q.x + q.w * d.q.y - q.x * d.q.z),
     2 * (-q.z * d.q.w - q.y * d.q.x + q.x * d.q.y + q.w * d.q.z)⟩ := by
  ext <;> simp [globalOfQuatDiff, getGlobalQuaternionDiffMatrix, M34.mulVec, V4.dot, Quat.toV4] <;> ring

lemma tMulVec_local (q : Quat) (w : LocalAV) : (quatDiffOfLocal q w).q =
    ⟨(-q.x * w.v.x - q.y * w.v.y - q.z * w.v.z) / 2, (q.w * w.v.x - q.z * w.v.y + q.y * w.v.z) / 2,
     (q.z * w.v.x + q.w * w.v.y - q.x * w.v.z) / 2, (-q.y * w.v.x + q.x * w.v.y + q.w * w.v.z) / 2⟩ := by
  ext <;> simp only [quatDiffOfLocal, getLocalQuaternionDiffMatrix, Quaternion.ofVector4, M34.tMulVec,
    HSMul.hSMul, SMul.smul] <;> ring

lemma tMulVec_global (q : Quat) (w : GlobalAV) : (quatDiffOfGlobal q w).q =
    ⟨(-q.x * w.v.x - q.y * w.v.y - q.z * w.v.z) / 2, (q.w * w.v.x + q.z * w.v.y - q.y * w.v.z) / 2,
     (-q.z * w.v.x + q.w * w.v.y + q.x * w.v.z) / 2, (q.y * w.v.x - q.x * w.v.y + q.w * w.v.z) / 2⟩ := by
  ext <;> simp only [quatDiffOfGlobal, getGlobalQuaternionDiffMatrix, Quaternion.ofVector4, M34.tMulVec,
    HSMul.hSMul, SMul.smul] <;> ring

/-- **C29 (b).** Angular velocity → quaternion derivative → angular velocity is the identity; the derivative produced is tangent
to the unit sphere. -/
theorem C29_roundtrip (q : Quat) (hv : Valid .quat q) (w : LocalAV) (W : GlobalAV) :
    localOfQuatDiff q (quatDiffOfLocal q w) = w ∧ globalOfQuatDiff q (quatDiffOfGlobal q W) = W ∧
    q.toV4.dot (quatDiffOfLocal q w).q.toV4 = 0 ∧ q.toV4.dot (quatDiffOfGlobal q W).q.toV4 = 0 := by
  have h : q.w ^ 2 + q.x ^ 2 + q.y ^ 2 + q.z ^ 2 = 1 := hv
  refine ⟨LocalAV.ext ?_, GlobalAV.ext ?_, ?_, ?_⟩
  · rw [mulVec_local, tMulVec_local]
    ext <;> dsimp only
    · linear_combination w.v.x * h
    · linear_combination w.v.y * h
    · linear_combination w.v.z * h
  · rw [mulVec_global, tMulVec_global]
    ext <;> dsimp only
    · linear_combination W.v.x * h
    · linear_combination W.v.y * h
    · linear_combination W.v.z * h
  · simp only [tMulVec_local, V4.dot, Quat.toV4]; ring
  · simp only [tMulVec_global, V4.dot, Quat.toV4]; ring

/-- **C29 (a).** For every differentiable curve of unit quaternions, the velocities computed from its derivative are its true
body-frame and fixed-frame angular velocities, and converting them back gives exactly the derivative of the curve. -/
theorem C29_quaternion_curve (q : ℝ → Quat) (d : QuatDiff) (t : ℝ) (hv : ∀ᶠ s in nhds t, Valid .quat (q s))
    (hd : HasDerivQ q d.q t) :
    IsLocalVelocity .quat q t (localOfQuatDiff (q t) d).v ∧
    IsGlobalVelocity .quat q t (globalOfQuatDiff (q t) d).v ∧
    quatDiffOfLocal (q t) (localOfQuatDiff (q t) d) = d ∧
    quatDiffOfGlobal (q t) (globalOfQuatDiff (q t) d) = d := by
  have ht := quat_tangent hv hd
  have h : (q t).w ^ 2 + (q t).x ^ 2 + (q t).y ^ 2 + (q t).z ^ 2 = 1 := hv.self_of_nhds
  have hm := hasDerivM_sMat hd
  generalize hq : q t = p at *
  obtain ⟨⟨dw, dx, dy, dz⟩⟩ := d
  dsimp only at ht hm
  refine ⟨?_, ?_, ?_, ?_⟩
  · rw [isLocalVelocity_iff]
    simp only [den_eq, dmat]
    refine hm.congr ?_
    rw [hq, mulVec_local]
    ext <;> simp only [sMat, skew, M3.mul_m00, M3.mul_m01, M3.mul_m02, M3.mul_m10, M3.mul_m11, M3.mul_m12, M3.mul_m20,
      M3.mul_m21, M3.mul_m22]
    · linear_combination (-(2 * (p.w * dw + p.x * dx - p.y * dy - p.z * dz))) * h + 2 * (p.w ^ 2 + p.x ^ 2 - p.y ^ 2 - p.z ^ 2) * ht
    · linear_combination (-(2 * (dx * p.y + p.x * dy - (dw * p.z + p.w * dz)))) * h + 2 * (2 * (p.x * p.y - p.w * p.z)) * ht
    · linear_combination (-(2 * (dx * p.z + p.x * dz + (dw * p.y + p.w * dy)))) * h + 2 * (2 * (p.x * p.z + p.w * p.y)) * ht
    · linear_combination (-(2 * (dx * p.y + p.x * dy + (dw * p.z + p.w * dz)))) * h + 2 * (2 * (p.x * p.y + p.w * p.z)) * ht
    · linear_combination (-(2 * (p.w * dw - p.x * dx + p.y * dy - p.z * dz))) * h + 2 * (p.w ^ 2 - p.x ^ 2 + p.y ^ 2 - p.z ^ 2) * ht
    · linear_combination (-(2 * (dy * p.z + p.y * dz - (dw * p.x + p.w * dx)))) * h + 2 * (2 * (p.y * p.z - p.w * p.x)) * ht
    · linear_combination (-(2 * (dx * p.z + p.x * dz - (dw * p.y + p.w * dy)))) * h + 2 * (2 * (p.x * p.z - p.w * p.y)) * ht
    · linear_combination (-(2 * (dy * p.z + p.y * dz + (dw * p.x + p.w * dx)))) * h + 2 * (2 * (p.y * p.z + p.w * p.x)) * ht
    · linear_combination (-(2 * (p.w * dw - p.x * dx - p.y * dy + p.z * dz))) * h + 2 * (p.w ^ 2 - p.x ^ 2 - p.y ^ 2 + p.z ^ 2) * ht
  · rw [isGlobalVelocity_iff]
    simp only [den_eq, dmat]
    refine hm.congr ?_
    rw [hq, mulVec_global]
    ext <;> simp only [sMat, skew, M3.mul_m00, M3.mul_m01, M3.mul_m02, M3.mul_m10, M3.mul_m11, M3.mul_m12, M3.mul_m20,
      M3.mul_m21, M3.mul_m22]
    · linear_combination (-(2 * (p.w * dw + p.x * dx - p.y * dy - p.z * dz))) * h + 2 * (p.w ^ 2 + p.x ^ 2 - p.y ^ 2 - p.z ^ 2) * ht
    · linear_combination (-(2 * (dx * p.y + p.x * dy - (dw * p.z + p.w * dz)))) * h + 2 * (2 * (p.x * p.y - p.w * p.z)) * ht
    · linear_combination (-(2 * (dx * p.z + p.x * dz + (dw * p.y + p.w * dy)))) * h + 2 * (2 * (p.x * p.z + p.w * p.y)) * ht
    · linear_combination (-(2 * (dx * p.y + p.x * dy + (dw * p.z + p.w * dz)))) * h + 2 * (2 * (p.x * p.y + p.w * p.z)) * ht
    · linear_combination (-(2 * (p.w * dw - p.x * dx + p.y * dy - p.z * dz))) * h + 2 * (p.w ^ 2 - p.x ^ 2 + p.y ^ 2 - p.z ^ 2) * ht
    · linear_combination (-(2 * (dy * p.z + p.y * dz - (dw * p.x + p.w * dx)))) * h + 2 * (2 * (p.y * p.z - p.w * p.x)) * ht
    · linear_combination (-(2 * (dx * p.z + p.x * dz - (dw * p.y + p.w * dy)))) * h + 2 * (2 * (p.x * p.z - p.w * p.y)) * ht
    · linear_combination (-(2 * (dy * p.z + p.y * dz + (dw * p.x + p.w * dx)))) * h + 2 * (2 * (p.y * p.z + p.w * p.x)) * ht
    · linear_combination (-(2 * (p.w * dw - p.x * dx - p.y * dy + p.z * dz))) * h + 2 * (p.w ^ 2 - p.x ^ 2 - p.y ^ 2 + p.z ^ 2) * ht
  · apply QuatDiff.ext
    rw [tMulVec_local, mulVec_local]
    ext <;> dsimp only
    · linear_combination dw * h - p.w * ht
    · linear_combination dx * h - p.x * ht
    · linear_combination dy * h - p.y * ht
    · linear_combination dz * h - p.z * ht
  · apply QuatDiff.ext
    rw [tMulVec_global, mulVec_global]
    ext <;> dsimp only
    · linear_combination dw * h - p.w * ht
    · linear_combination dx * h - p.x * ht
    · linear_combination dy * h - p.y * ht
    · linear_combination dz * h - p.z * ht

/-- non-vacuity of C29: rotation about the x axis with unit rate. -/
example (t : ℝ) : (∀ᶠ s in nhds t, Valid .quat (⟨Real.cos (s / 2), Real.sin (s / 2), 0, 0⟩ : Quat)) ∧
    HasDerivQ (fun s => ⟨Real.cos (s / 2), Real.sin (s / 2), 0, 0⟩)
      ⟨-Real.sin (t / 2) / 2, Real.cos (t / 2) / 2, 0, 0⟩ t ∧
    (localOfQuatDiff ⟨Real.cos (t / 2), Real.sin (t / 2), 0, 0⟩
      ⟨⟨-Real.sin (t / 2) / 2, Real.cos (t / 2) / 2, 0, 0⟩⟩).v = ⟨1, 0, 0⟩ := by
  have hs := Real.sin_sq_add_cos_sq
  refine ⟨Eventually.of_forall fun s => ?_, ⟨?_, ?_, hasDerivAt_const _ _, hasDerivAt_const _ _⟩, ?_⟩
  · simp only [Valid]; have := hs (s / 2); linarith
  · exact ((Real.hasDerivAt_cos _).comp t ((hasDerivAt_id t).div_const 2)).congr_deriv (by simp; ring)
  · exact ((Real.hasDerivAt_sin _).comp t ((hasDerivAt_id t).div_const 2)).congr_deriv (by simp; ring)
  · rw [mulVec_local]
    ext <;> dsimp only
    · linear_combination hs (t / 2)
    · ring
    · ring

/-! ## C30 -/

/-- **C30 (a).** For every differentiable curve of rotation matrices the velocities computed from its derivative are its true
body-frame and fixed-frame angular velocities, and converting them back gives exactly the derivative. -/
theorem C30_matrix_curve (m : ℝ → M3) (d : MatDiff) (t : ℝ) (hv : ∀ᶠ s in nhds t, Valid .mat (m s))
    (hd : HasDerivM m d.m t) :
    IsLocalVelocity .mat m t (localOfMatDiff (m t) d).v ∧
    IsGlobalVelocity .mat m t (globalOfMatDiff (m t) d).v ∧
    matDiffOfLocal (m t) (localOfMatDiff (m t) d) = d ∧
    matDiffOfGlobal (m t) (globalOfMatDiff (m t) d) = d := by
  have ht : IsSO3 (m t) := hv.self_of_nhds
  have const : ∀ c : M3, ∀ f : ℝ → M3, (∀ᶠ s in nhds t, f s = c) → HasDerivM f 0 t := fun c f hf =>
    ⟨⟨(hasDerivAt_const t c.m00).congr_of_eventuallyEq (hf.mono fun s hs => by simp only [hs]),
      (hasDerivAt_const t c.m01).congr_of_eventuallyEq (hf.mono fun s hs => by simp only [hs]),
      (hasDerivAt_const t c.m02).congr_of_eventuallyEq (hf.mono fun s hs => by simp only [hs])⟩,
     ⟨(hasDerivAt_const t c.m10).congr_of_eventuallyEq (hf.mono fun s hs => by simp only [hs]),
      (hasDerivAt_const t c.m11).congr_of_eventuallyEq (hf.mono fun s hs => by simp only [hs]),
      (hasDerivAt_const t c.m12).congr_of_eventuallyEq (hf.mono fun s hs => by simp only [hs])⟩,
     (hasDerivAt_const t c.m20).congr_of_eventuallyEq (hf.mono fun s hs => by simp only [hs]),
     (hasDerivAt_const t c.m21).congr_of_eventuallyEq (hf.mono fun s hs => by simp only [hs]),
     (hasDerivAt_const t c.m22).congr_of_eventuallyEq (hf.mono fun s hs => by simp only [hs])⟩
  have a1 : d.m * (m t).transpose + m t * d.m.transpose = 0 :=
    (hd.mul hd.transpose).unique (const 1 _ (hv.mono fun s hs => hs.1))
  have a2 : d.m.transpose * m t + (m t).transpose * d.m = 0 :=
    (hd.transpose.mul hd).unique (const 1 _ (hv.mono fun s hs => SO3.tr_mul hs))
  have s1 : skew (vee (d.m * (m t).transpose)) = d.m * (m t).transpose :=
    ((C04_skew 0 0 0 0 _).2.2.2.2.2.1).mpr (by
      rw [M3.transpose_mul, M3.transpose_transpose]
      exact (neg_eq_of_add_eq_zero_right a1).symm)
  have s2 : skew (vee ((m t).transpose * d.m)) = (m t).transpose * d.m :=
    ((C04_skew 0 0 0 0 _).2.2.2.2.2.1).mpr (by
      rw [M3.transpose_mul, M3.transpose_transpose]
      exact (neg_eq_of_add_eq_zero_left a2).symm)
  have e1 : m t * skew (localOfMatDiff (m t) d).v = d.m := by
    change m t * skew (vee ((m t).transpose * d.m)) = d.m
    rw [s2, ← mul_assoc, ht.1, one_mul]
  have e2 : skew (globalOfMatDiff (m t) d).v * m t = d.m := by
    change skew (vee (d.m * (m t).transpose)) * m t = d.m
    rw [s1, mul_assoc, SO3.tr_mul ht, mul_one]
  refine ⟨?_, ?_, MatDiff.ext e1, MatDiff.ext e2⟩
  · rw [isLocalVelocity_iff]
    simp only [den_eq, dmat]
    exact hd.congr e1.symm
  · rw [isGlobalVelocity_iff]
    simp only [den_eq, dmat]
    exact hd.congr e2.symm

/-- **C30 (b).** Angular velocity → matrix derivative → angular velocity is the identity. -/
theorem C30_roundtrip (m : M3) (hv : Valid .mat m) (w : LocalAV) (W : GlobalAV) :
    localOfMatDiff m (matDiffOfLocal m w) = w ∧ globalOfMatDiff m (matDiffOfGlobal m W) = W := by
  have h : IsSO3 m := hv
  constructor
  · apply LocalAV.ext
    change vee (m.transpose * (m * skew w.v)) = w.v
    rw [← mul_assoc, SO3.tr_mul h, one_mul]
    exact (C04_skew w.v 0 0 0 0).2.2.2.2.1
  · apply GlobalAV.ext
    change vee (skew W.v * m * m.transpose) = W.v
    rw [mul_assoc, h.1, mul_one]
    exact (C04_skew W.v 0 0 0 0).2.2.2.2.1

/-- non-vacuity of C30: rotation about the z axis with rate 3. -/
example (t : ℝ) : (∀ᶠ s in nhds t, Valid .mat (rZ (3 * s))) ∧
    HasDerivM (fun s => rZ (3 * s)) ⟨-3 * Real.sin (3 * t), -3 * Real.cos (3 * t), 0,
      3 * Real.cos (3 * t), -3 * Real.sin (3 * t), 0, 0, 0, 0⟩ t := by
  have h3 : HasDerivAt (fun s : ℝ => 3 * s) 3 t := by simpa using (hasDerivAt_id t).const_mul 3
  have hc := h3.cos
  have hs := h3.sin
  refine ⟨Eventually.of_forall fun s => rZ_isSO3 _, ⟨?_, ?_, hasDerivAt_const _ _⟩, ⟨?_, ?_, hasDerivAt_const _ _⟩,
    hasDerivAt_const _ _, hasDerivAt_const _ _, hasDerivAt_const _ _⟩
  · exact hc.congr_deriv (by ring)
  · exact hs.neg.congr_deriv (by ring)
  · exact hs.congr_deriv (by ring)
  · exact hc.congr_deriv (by ring)

end Kindr
