import Verif.Lemmas.LinAlg
import Verif.Spec.Rotation
import Mathlib.Tactic.LinearCombination
import Mathlib.Tactic.FieldSimp

/-!
# SO(3) algebra, denotations of the parameterizations
-/

set_option autoImplicit false

open Classical

noncomputable section
namespace Kindr
open Spec

namespace M3
/-- Adjugate. -/
def adj (a : M3) : M3 :=
  ⟨a.m11 * a.m22 - a.m12 * a.m21, a.m02 * a.m21 - a.m01 * a.m22, a.m01 * a.m12 - a.m02 * a.m11,
   a.m12 * a.m20 - a.m10 * a.m22, a.m00 * a.m22 - a.m02 * a.m20, a.m02 * a.m10 - a.m00 * a.m12,
   a.m10 * a.m21 - a.m11 * a.m20, a.m01 * a.m20 - a.m00 * a.m21, a.m00 * a.m11 - a.m01 * a.m10⟩
lemma adj_mul (a : M3) : a.adj * a = a.det • 1 := by ext <;> simp [adj, det] <;> ring
lemma mul_adj (a : M3) : a * a.adj = a.det • 1 := by ext <;> simp [adj, det] <;> ring
end M3

namespace SO3
variable {m a b : M3}

lemma one : IsSO3 1 := by constructor <;> simp

lemma adj_eq (h : IsSO3 m) : m.adj = m.transpose := by
  have : m.adj * (m * m.transpose) = m.transpose := by
    rw [← mul_assoc, M3.adj_mul, h.2, one_smul, one_mul]
  rwa [h.1, mul_one] at this

lemma tr_mul (h : IsSO3 m) : m.transpose * m = 1 := by
  rw [← adj_eq h, M3.adj_mul, h.2, one_smul]

lemma mul (ha : IsSO3 a) (hb : IsSO3 b) : IsSO3 (a * b) := by
  constructor
  · rw [M3.transpose_mul, mul_assoc, ← mul_assoc b, hb.1, one_mul, ha.1]
  · rw [M3.det_mul, ha.2, hb.2, mul_one]

lemma transpose (h : IsSO3 m) : IsSO3 m.transpose :=
  ⟨by simpa using tr_mul h, by rw [M3.det_transpose, h.2]⟩

/-- All scalar relations of a rotation matrix: rows, columns, cofactors. -/
structure Rel (m : M3) : Prop where
  r00 : m.m00 ^ 2 + m.m01 ^ 2 + m.m02 ^ 2 = 1
  r11 : m.m10 ^ 2 + m.m11 ^ 2 + m.m12 ^ 2 = 1
  r22 : m.m20 ^ 2 + m.m21 ^ 2 + m.m22 ^ 2 = 1
  r01 : m.m00 * m.m10 + m.m01 * m.m11 + m.m02 * m.m12 = 0
  r02 : m.m00 * m.m20 + m.m01 * m.m21 + m.m02 * m.m22 = 0
  r12 : m.m10 * m.m20 + m.m11 * m.m21 + m.m12 * m.m22 = 0
  c00 : m.m00 ^ 2 + m.m10 ^ 2 + m.m20 ^ 2 = 1
  c11 : m.m01 ^ 2 + m.m11 ^ 2 + m.m21 ^ 2 = 1
  c22 : m.m02 ^ 2 + m.m12 ^ 2 + m.m22 ^ 2 = 1
  c01 : m.m00 * m.m01 + m.m10 * m.m11 + m.m20 * m.m21 = 0
  c02 : m.m00 * m.m02 + m.m10 * m.m12 + m.m20 * m.m22 = 0
  c12 : m.m01 * m.m02 + m.m11 * m.m12 + m.m21 * m.m22 = 0
  k00 : m.m11 * m.m22 - m.m12 * m.m21 = m.m00
  k10 : m.m02 * m.m21 - m.m01 * m.m22 = m.m10
  k20 : m.m01 * m.m12 - m.m02 * m.m11 = m.m20
  k01 : m.m12 * m.m20 - m.m10 * m.m22 = m.m01
  k11 : m.m00 * m.m22 - m.m02 * m.m20 = m.m11
  k21 : m.m02 * m.m10 - m.m00 * m.m12 = m.m21
  k02 : m.m10 * m.m21 - m.m11 * m.m20 = m.m02
  k12 : m.m01 * m.m20 - m.m00 * m.m21 = m.m12
  k22 : m.m00 * m.m11 - m.m01 * m.m10 = m.m22

lemma rel (h : IsSO3 m) : Rel m := by
  have h1 := h.1
  have h2 := tr_mul h
  have h3 := adj_eq h
  rw [M3.ext_iff] at h1 h2 h3
  simp [M3.adj] at h1 h2 h3
  obtain ⟨a0, a1, a2, a3, a4, a5, a6, a7, a8⟩ := h1
  obtain ⟨b0, b1, b2, b3, b4, b5, b6, b7, b8⟩ := h2
  obtain ⟨c0, c1, c2, c3, c4, c5, c6, c7, c8⟩ := h3
  constructor <;> first | assumption | linarith

lemma eq_iff_tr_mul (ha : IsSO3 a) : a * b.transpose = 1 → IsSO3 b → a = b := by
  intro h hb
  calc a = a * (b.transpose * b) := by rw [tr_mul hb, mul_one]
    _ = b := by rw [← mul_assoc, h, one_mul]

lemma mulVec_dot (h : IsSO3 m) (u v : V3) : (m.mulVec u).dot (m.mulVec v) = u.dot v := by
  have r := rel h
  simp only [V3.dot, M3.mulVec_x, M3.mulVec_y, M3.mulVec_z]
  linear_combination (u.x * v.x) * r.c00 + (u.y * v.y) * r.c11 + (u.z * v.z) * r.c22 +
    (u.x * v.y + u.y * v.x) * r.c01 + (u.x * v.z + u.z * v.x) * r.c02 + (u.y * v.z + u.z * v.y) * r.c12

lemma mulVec_normSq (h : IsSO3 m) (u : V3) : (m.mulVec u).normSq = u.normSq := mulVec_dot h u u
lemma mulVec_norm (h : IsSO3 m) (u : V3) : (m.mulVec u).norm = u.norm := by
  simp [V3.norm, mulVec_normSq h]

lemma mulVec_cross (h : IsSO3 m) (u v : V3) :
    (m.mulVec u).cross (m.mulVec v) = m.mulVec (u.cross v) := by
  have r := rel h
  ext <;> simp only [V3.cross, M3.mulVec_x, M3.mulVec_y, M3.mulVec_z]
  · linear_combination (u.y * v.z - u.z * v.y) * r.k00 + (u.z * v.x - u.x * v.z) * r.k01 +
      (u.x * v.y - u.y * v.x) * r.k02
  · linear_combination (u.y * v.z - u.z * v.y) * r.k10 + (u.z * v.x - u.x * v.z) * r.k11 +
      (u.x * v.y - u.y * v.x) * r.k12
  · linear_combination (u.y * v.z - u.z * v.y) * r.k20 + (u.z * v.x - u.x * v.z) * r.k21 +
      (u.x * v.y - u.y * v.x) * r.k22
end SO3

/-! ## Denotations -/

/-- The matrix of the sandwich product (no unit assumption). -/
def sMat (q : Quat) : M3 :=
  ⟨q.w ^ 2 + q.x ^ 2 - q.y ^ 2 - q.z ^ 2, 2 * (q.x * q.y - q.w * q.z), 2 * (q.x * q.z + q.w * q.y),
   2 * (q.x * q.y + q.w * q.z), q.w ^ 2 - q.x ^ 2 + q.y ^ 2 - q.z ^ 2, 2 * (q.y * q.z - q.w * q.x),
   2 * (q.x * q.z - q.w * q.y), 2 * (q.y * q.z + q.w * q.x), q.w ^ 2 - q.x ^ 2 - q.y ^ 2 + q.z ^ 2⟩

/-- Rodrigues' matrix. -/
def rodMat (θ : ℝ) (n : V3) : M3 := AngAx.toRotationMatrix ⟨θ, n⟩

/-- Elementary rotation matrix. -/
def rX (a : ℝ) : M3 := ⟨1, 0, 0, 0, Real.cos a, -Real.sin a, 0, Real.sin a, Real.cos a⟩
/-- Elementary rotation matrix. -/
def rY (a : ℝ) : M3 := ⟨Real.cos a, 0, Real.sin a, 0, 1, 0, -Real.sin a, 0, Real.cos a⟩
/-- Elementary rotation matrix. -/
def rZ (a : ℝ) : M3 := ⟨Real.cos a, -Real.sin a, 0, Real.sin a, Real.cos a, 0, 0, 0, 1⟩

@[simp] lemma toH_re (q : Quat) : (toH q).re = q.w := rfl
@[simp] lemma toH_imI (q : Quat) : (toH q).imI = q.x := rfl
@[simp] lemma toH_imJ (q : Quat) : (toH q).imJ = q.y := rfl
@[simp] lemma toH_imK (q : Quat) : (toH q).imK = q.z := rfl
@[simp] lemma pureH_re (v : V3) : (pureH v).re = 0 := rfl
@[simp] lemma pureH_imI (v : V3) : (pureH v).imI = v.x := rfl
@[simp] lemma pureH_imJ (v : V3) : (pureH v).imJ = v.y := rfl
@[simp] lemma pureH_imK (v : V3) : (pureH v).imK = v.z := rfl

lemma sandwich_eq (q : Quat) (v : V3) : sandwich q v = (sMat q).mulVec v := by
  ext <;> simp [sandwich, sMat] <;> ring
lemma rodrigues_eq (θ : ℝ) (n v : V3) : rodrigues θ n v = (rodMat θ n).mulVec v := by
  ext <;> simp [rodrigues, rodMat, AngAx.toRotationMatrix, V3.cross, V3.dot] <;> ring
lemma rotX_eq (a : ℝ) (v : V3) : rotX a v = (rX a).mulVec v := by ext <;> simp [rotX, rX]; ring
lemma rotY_eq (a : ℝ) (v : V3) : rotY a v = (rY a).mulVec v := by ext <;> simp [rotY, rY]
lemma rotZ_eq (a : ℝ) (v : V3) : rotZ a v = (rZ a).mulVec v := by ext <;> simp [rotZ, rZ]; ring

/-- Explicit matrix of each parameterization. -/
def dmat : (k : Kind) → Rep k → M3
  | .quat => sMat
  | .mat => fun m => m
  | .aa => fun a => rodMat (AngAx.angle a) (AngAx.axis a)
  | .rv => fun r => if (RotVec.v r).norm = 0 then 1
      else rodMat (RotVec.v r).norm ((1 / (RotVec.v r).norm) • RotVec.v r)
  | .xyz => fun e => rX (EulXyz.x e) * rY (EulXyz.y e) * rZ (EulXyz.z e)
  | .zyx => fun e => rZ (EulZyx.z e) * rY (EulZyx.y e) * rX (EulZyx.x e)

lemma act_eq_dmat (k : Kind) (r : Rep k) (v : V3) : act k r v = (dmat k r).mulVec v := by
  cases k
  · exact sandwich_eq _ _
  · rfl
  · exact rodrigues_eq _ _ _
  · simp only [act, dmat]; split
    · simp
    · exact rodrigues_eq _ _ _
  · simp only [act, dmat, rotX_eq, rotY_eq, rotZ_eq, M3.mulVec_mulVec, mul_assoc]
  · simp only [act, dmat, rotX_eq, rotY_eq, rotZ_eq, M3.mulVec_mulVec, mul_assoc]

lemma den_eq (k : Kind) (r : Rep k) : den k r = dmat k r := by
  simp only [den, act_eq_dmat]
  ext <;> simp

/-- Specification action is multiplication by the specification matrix. -/
lemma act_eq (k : Kind) (r : Rep k) (v : V3) : act k r v = (den k r).mulVec v := by
  rw [act_eq_dmat, den_eq]

lemma sameRot_iff {k₁ k₂ : Kind} (a : Rep k₁) (b : Rep k₂) : SameRot a b ↔ den k₁ a = den k₂ b := by
  constructor
  · intro h; apply M3.ext_mulVec; intro v; rw [← act_eq, ← act_eq]; exact h v
  · intro h v; rw [act_eq, act_eq, h]

lemma sMat_mul (p q : Quat) : sMat (p * q) = sMat p * sMat q := by
  ext <;> simp [sMat] <;> ring
@[simp] lemma sMat_one : sMat 1 = 1 := by ext <;> simp [sMat]
@[simp] lemma sMat_neg (q : Quat) : sMat (-q) = sMat q := by ext <;> simp [sMat]
lemma sMat_conj (q : Quat) : sMat q.conj = (sMat q).transpose := by
  ext <;> simp [sMat] <;> ring

lemma valid_quat_iff (q : Quat) : Valid .quat q ↔ q.normSq = 1 := by
  simp only [Valid, Quat.normSq]; constructor <;> intro h <;> linarith

lemma toRotationMatrix_eq {q : Quat} (h : q.normSq = 1) : q.toRotationMatrix = sMat q := by
  simp only [Quat.normSq] at h
  ext <;> simp only [Quat.toRotationMatrix, sMat] <;> linarith

lemma sMat_isSO3 {q : Quat} (h : q.normSq = 1) : IsSO3 (sMat q) := by
  have h' := h
  simp only [Quat.normSq] at h
  constructor
  · rw [← sMat_conj, ← sMat_mul]
    have : q * q.conj = ⟨q.normSq, 0, 0, 0⟩ := by ext <;> simp [Quat.normSq] <;> ring
    rw [this, h']; exact sMat_one
  · have : (sMat q).det = q.normSq ^ 3 := by simp [sMat, M3.det, Quat.normSq]; ring
    rw [this, h', one_pow]

lemma rX_isSO3 (a : ℝ) : IsSO3 (rX a) := by
  have h := Real.sin_sq_add_cos_sq a
  constructor
  · ext <;> simp [rX] <;> linarith
  · simp [rX, M3.det]; linarith
lemma rY_isSO3 (a : ℝ) : IsSO3 (rY a) := by
  have h := Real.sin_sq_add_cos_sq a
  constructor
  · ext <;> simp [rY] <;> linarith
  · simp [rY, M3.det]; linarith
lemma rZ_isSO3 (a : ℝ) : IsSO3 (rZ a) := by
  have h := Real.sin_sq_add_cos_sq a
  constructor
  · ext <;> simp [rZ] <;> linarith
  · simp [rZ, M3.det]; linarith

/-- Half-angle form: Rodrigues' matrix is the sandwich matrix of the half-angle quaternion. -/
lemma sMat_ofAngleAxis (θ : ℝ) {n : V3} (hn : n.normSq = 1) :
    sMat (Quat.ofAngleAxis θ n) = rodMat θ n := by
  have hc : Real.cos θ = 2 * Real.cos (1 / 2 * θ) ^ 2 - 1 := by rw [← Real.cos_two_mul]; ring_nf
  have hs : Real.sin θ = 2 * Real.sin (1 / 2 * θ) * Real.cos (1 / 2 * θ) := by
    rw [← Real.sin_two_mul]; ring_nf
  have h1 := Real.sin_sq_add_cos_sq (1 / 2 * θ)
  simp only [V3.normSq, V3.dot] at hn
  ext <;> simp only [sMat, rodMat, Quat.ofAngleAxis, AngAx.toRotationMatrix, hc, hs, V3.smul_x, V3.smul_y,
    V3.smul_z] <;>
    generalize Real.cos (1 / 2 * θ) = c at * <;> generalize Real.sin (1 / 2 * θ) = s at *
  all_goals first
    | linear_combination (2 * n.x * n.y) * h1
    | linear_combination (2 * n.x * n.z) * h1
    | linear_combination (2 * n.y * n.z) * h1
    | linear_combination (2 * n.x * n.x - 1) * h1 - s ^ 2 * hn
    | linear_combination (2 * n.y * n.y - 1) * h1 - s ^ 2 * hn
    | linear_combination (2 * n.z * n.z - 1) * h1 - s ^ 2 * hn

lemma normSq_ofAngleAxis (θ : ℝ) {n : V3} (hn : n.normSq = 1) : (Quat.ofAngleAxis θ n).normSq = 1 := by
  have h1 := Real.sin_sq_add_cos_sq (1 / 2 * θ)
  simp only [V3.normSq, V3.dot] at hn
  simp only [Quat.normSq, Quat.ofAngleAxis]
  linear_combination h1 + Real.sin (1 / 2 * θ) ^ 2 * hn

lemma rodMat_isSO3 (θ : ℝ) {n : V3} (hn : n.normSq = 1) : IsSO3 (rodMat θ n) := by
  rw [← sMat_ofAngleAxis θ hn]; exact sMat_isSO3 (normSq_ofAngleAxis θ hn)

lemma valid_aa_iff (a : AngAx) : Valid .aa a ↔ a.axis.normSq = 1 := by
  simp only [Valid, V3.normSq, V3.dot]; constructor <;> intro h <;> linarith

lemma unit_dir {v : V3} (h : v.norm ≠ 0) : ((1 / v.norm) • v).normSq = 1 := by
  rw [V3.normSq_smul, ← V3.norm_sq]; field_simp

/-- A valid value denotes an element of SO(3). -/
lemma dmat_isSO3 (k : Kind) (r : Rep k) (h : Valid k r) : IsSO3 (dmat k r) := by
  cases k
  · exact sMat_isSO3 ((valid_quat_iff _).mp h)
  · exact h
  · exact rodMat_isSO3 _ ((valid_aa_iff _).mp h)
  · simp only [dmat]; split
    · exact SO3.one
    · rename_i h0; exact rodMat_isSO3 _ (unit_dir h0)
  · exact SO3.mul (SO3.mul (rX_isSO3 _) (rY_isSO3 _)) (rZ_isSO3 _)
  · exact SO3.mul (SO3.mul (rZ_isSO3 _) (rY_isSO3 _)) (rX_isSO3 _)

lemma den_isSO3 {k : Kind} {r : Rep k} (h : Valid k r) : IsSO3 (den k r) := by
  rw [den_eq]; exact dmat_isSO3 k r h

end Kindr
