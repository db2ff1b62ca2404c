import Verif.Model.LinAlg
import Verif.Model.Eigen

/-!
# Simplification lemmas and ring structure for the fixed-size types
-/

set_option autoImplicit false

namespace Kindr
namespace M3
@[simp] lemma zero_m00 : (0 : M3).m00 = 0 := rfl
@[simp] lemma one_m00 : (1 : M3).m00 = 1 := rfl
@[simp] lemma add_m00 (a b : M3) : (a + b).m00 = a.m00 + b.m00 := rfl
@[simp] lemma sub_m00 (a b : M3) : (a - b).m00 = a.m00 - b.m00 := rfl
@[simp] lemma neg_m00 (a : M3) : (-a).m00 = -a.m00 := rfl
@[simp] lemma smul_m00 (s : ℝ) (a : M3) : (s • a).m00 = s * a.m00 := rfl
@[simp] lemma mul_m00 (a b : M3) : (a * b).m00 = a.m00 * b.m00 + a.m01 * b.m10 + a.m02 * b.m20 := rfl
@[simp] lemma transpose_m00 (a : M3) : a.transpose.m00 = a.m00 := rfl
@[simp] lemma zero_m01 : (0 : M3).m01 = 0 := rfl
@[simp] lemma one_m01 : (1 : M3).m01 = 0 := rfl
@[simp] lemma add_m01 (a b : M3) : (a + b).m01 = a.m01 + b.m01 := rfl
@[simp] lemma sub_m01 (a b : M3) : (a - b).m01 = a.m01 - b.m01 := rfl
@[simp] lemma neg_m01 (a : M3) : (-a).m01 = -a.m01 := rfl
@[simp] lemma smul_m01 (s : ℝ) (a : M3) : (s • a).m01 = s * a.m01 := rfl
@[simp] lemma mul_m01 (a b : M3) : (a * b).m01 = a.m00 * b.m01 + a.m01 * b.m11 + a.m02 * b.m21 := rfl
@[simp] lemma transpose_m01 (a : M3) : a.transpose.m01 = a.m10 := rfl
@[simp] lemma zero_m02 : (0 : M3).m02 = 0 := rfl
@[simp] lemma one_m02 : (1 : M3).m02 = 0 := rfl
@[simp] lemma add_m02 (a b : M3) : (a + b).m02 = a.m02 + b.m02 := rfl
@[simp] lemma sub_m02 (a b : M3) : (a - b).m02 = a.m02 - b.m02 := rfl
@[simp] lemma neg_m02 (a : M3) : (-a).m02 = -a.m02 := rfl
@[simp] lemma smul_m02 (s : ℝ) (a : M3) : (s • a).m02 = s * a.m02 := rfl
@[simp] lemma mul_m02 (a b : M3) : (a * b).m02 = a.m00 * b.m02 + a.m01 * b.m12 + a.m02 * b.m22 := rfl
@[simp] lemma transpose_m02 (a : M3) : a.transpose.m02 = a.m20 := rfl
@[simp] lemma zero_m10 : (0 : M3).m10 = 0 := rfl
@[simp] lemma one_m10 : (1 : M3).m10 = 0 := rfl
@[simp] lemma add_m10 (a b : M3) : (a + b).m10 = a.m10 + b.m10 := rfl
@[simp] lemma sub_m10 (a b : M3) : (a - b).m10 = a.m10 - b.m10 := rfl
@[simp] lemma neg_m10 (a : M3) : (-a).m10 = -a.m10 := rfl
@[simp] lemma smul_m10 (s : ℝ) (a : M3) : (s • a).m10 = s * a.m10 := rfl
@[simp] lemma mul_m10 (a b : M3) : (a * b).m10 = a.m10 * b.m00 + a.m11 * b.m10 + a.m12 * b.m20 := rfl
@[simp] lemma transpose_m10 (a : M3) : a.transpose.m10 = a.m01 := rfl
@[simp] lemma zero_m11 : (0 : M3).m11 = 0 := rfl
@[simp] lemma one_m11 : (1 : M3).m11 = 1 := rfl
@[simp] lemma add_m11 (a b : M3) : (a + b).m11 = a.m11 + b.m11 := rfl
@[simp] lemma sub_m11 (a b : M3) : (a - b).m11 = a.m11 - b.m11 := rfl
@[simp] lemma neg_m11 (a : M3) : (-a).m11 = -a.m11 := rfl
@[simp] lemma smul_m11 (s : ℝ) (a : M3) : (s • a).m11 = s * a.m11 := rfl
@[simp] lemma mul_m11 (a b : M3) : (a * b).m11 = a.m10 * b.m01 + a.m11 * b.m11 + a.m12 * b.m21 := rfl
@[simp] lemma transpose_m11 (a : M3) : a.transpose.m11 = a.m11 := rfl
@[simp] lemma zero_m12 : (0 : M3).m12 = 0 := rfl
@[simp] lemma one_m12 : (1 : M3).m12 = 0 := rfl
@[simp] lemma add_m12 (a b : M3) : (a + b).m12 = a.m12 + b.m12 := rfl
@[simp] lemma sub_m12 (a b : M3) : (a - b).m12 = a.m12 - b.m12 := rfl
@[simp] lemma neg_m12 (a : M3) : (-a).m12 = -a.m12 := rfl
@[simp] lemma smul_m12 (s : ℝ) (a : M3) : (s • a).m12 = s * a.m12 := rfl
@[simp] lemma mul_m12 (a b : M3) : (a * b).m12 = a.m10 * b.m02 + a.m11 * b.m12 + a.m12 * b.m22 := rfl
@[simp] lemma transpose_m12 (a : M3) : a.transpose.m12 = a.m21 := rfl
@[simp] lemma zero_m20 : (0 : M3).m20 = 0 := rfl
@[simp] lemma one_m20 : (1 : M3).m20 = 0 := rfl
@[simp] lemma add_m20 (a b : M3) : (a + b).m20 = a.m20 + b.m20 := rfl
@[simp] lemma sub_m20 (a b : M3) : (a - b).m20 = a.m20 - b.m20 := rfl
@[simp] lemma neg_m20 (a : M3) : (-a).m20 = -a.m20 := rfl
@[simp] lemma smul_m20 (s : ℝ) (a : M3) : (s • a).m20 = s * a.m20 := rfl
@[simp] lemma mul_m20 (a b : M3) : (a * b).m20 = a.m20 * b.m00 + a.m21 * b.m10 + a.m22 * b.m20 := rfl
@[simp] lemma transpose_m20 (a : M3) : a.transpose.m20 = a.m02 := rfl
@[simp] lemma zero_m21 : (0 : M3).m21 = 0 := rfl
@[simp] lemma one_m21 : (1 : M3).m21 = 0 := rfl
@[simp] lemma add_m21 (a b : M3) : (a + b).m21 = a.m21 + b.m21 := rfl
@[simp] lemma sub_m21 (a b : M3) : (a - b).m21 = a.m21 - b.m21 := rfl
@[simp] lemma neg_m21 (a : M3) : (-a).m21 = -a.m21 := rfl
@[simp] lemma smul_m21 (s : ℝ) (a : M3) : (s • a).m21 = s * a.m21 := rfl
@[simp] lemma mul_m21 (a b : M3) : (a * b).m21 = a.m20 * b.m01 + a.m21 * b.m11 + a.m22 * b.m21 := rfl
@[simp] lemma transpose_m21 (a : M3) : a.transpose.m21 = a.m12 := rfl
@[simp] lemma zero_m22 : (0 : M3).m22 = 0 := rfl
@[simp] lemma one_m22 : (1 : M3).m22 = 1 := rfl
@[simp] lemma add_m22 (a b : M3) : (a + b).m22 = a.m22 + b.m22 := rfl
@[simp] lemma sub_m22 (a b : M3) : (a - b).m22 = a.m22 - b.m22 := rfl
@[simp] lemma neg_m22 (a : M3) : (-a).m22 = -a.m22 := rfl
@[simp] lemma smul_m22 (s : ℝ) (a : M3) : (s • a).m22 = s * a.m22 := rfl
@[simp] lemma mul_m22 (a b : M3) : (a * b).m22 = a.m20 * b.m02 + a.m21 * b.m12 + a.m22 * b.m22 := rfl
@[simp] lemma transpose_m22 (a : M3) : a.transpose.m22 = a.m22 := rfl
@[simp] lemma mulVec_x (a : M3) (v : V3) : (a.mulVec v).x = a.m00 * v.x + a.m01 * v.y + a.m02 * v.z := rfl
@[simp] lemma mulVec_y (a : M3) (v : V3) : (a.mulVec v).y = a.m10 * v.x + a.m11 * v.y + a.m12 * v.z := rfl
@[simp] lemma mulVec_z (a : M3) (v : V3) : (a.mulVec v).z = a.m20 * v.x + a.m21 * v.y + a.m22 * v.z := rfl

instance : AddCommGroup M3 where
  add_assoc a b c := by ext <;> simp [add_assoc]
  zero_add a := by ext <;> simp
  add_zero a := by ext <;> simp
  add_comm a b := by ext <;> simp [add_comm]
  neg_add_cancel a := by ext <;> simp
  sub_eq_add_neg a b := by ext <;> simp [sub_eq_add_neg]
  nsmul := nsmulRec
  zsmul := zsmulRec

instance : Ring M3 where
  mul_assoc a b c := by ext <;> simp <;> ring
  one_mul a := by ext <;> simp
  mul_one a := by ext <;> simp
  left_distrib a b c := by ext <;> simp <;> ring
  right_distrib a b c := by ext <;> simp <;> ring
  zero_mul a := by ext <;> simp
  mul_zero a := by ext <;> simp
  zsmul := zsmulRec
  neg_add_cancel a := by ext <;> simp
  sub_eq_add_neg a b := by ext <;> simp [sub_eq_add_neg]

instance : Module ℝ M3 where
  one_smul a := by ext <;> simp
  mul_smul r s a := by ext <;> simp [mul_assoc]
  smul_zero r := by ext <;> simp
  smul_add r a b := by ext <;> simp [mul_add]
  add_smul r s a := by ext <;> simp [add_mul]
  zero_smul a := by ext <;> simp

@[simp] lemma transpose_transpose (a : M3) : a.transpose.transpose = a := rfl
lemma transpose_mul (a b : M3) : (a * b).transpose = b.transpose * a.transpose := by
  ext <;> simp <;> ring
@[simp] lemma transpose_one : (1 : M3).transpose = 1 := by ext <;> simp
lemma det_mul (a b : M3) : (a * b).det = a.det * b.det := by simp [det]; ring
@[simp] lemma det_one : (1 : M3).det = 1 := by simp [det]
lemma det_transpose (a : M3) : a.transpose.det = a.det := by simp [det]; ring
lemma trace_mul_comm (a b : M3) : (a * b).trace = (b * a).trace := by simp [trace]; ring
lemma trace_transpose (a : M3) : a.transpose.trace = a.trace := by simp [trace]
@[simp] lemma trace_one : (1 : M3).trace = 3 := by simp [trace]; norm_num

lemma mulVec_mulVec (a b : M3) (v : V3) : a.mulVec (b.mulVec v) = (a * b).mulVec v := by
  ext <;> simp <;> ring
@[simp] lemma one_mulVec (v : V3) : (1 : M3).mulVec v = v := by ext <;> simp
lemma mulVec_add (a : M3) (u v : V3) : a.mulVec (u + v) = a.mulVec u + a.mulVec v := by
  ext <;> simp <;> ring
lemma mulVec_sub (a : M3) (u v : V3) : a.mulVec (u - v) = a.mulVec u - a.mulVec v := by
  ext <;> simp <;> ring
lemma mulVec_smul (a : M3) (s : ℝ) (v : V3) : a.mulVec (s • v) = s • a.mulVec v := by
  ext <;> simp <;> ring
lemma mulVec_neg (a : M3) (v : V3) : a.mulVec (-v) = -a.mulVec v := by
  ext <;> simp <;> ring
@[simp] lemma mulVec_zero (a : M3) : a.mulVec 0 = 0 := by ext <;> simp
lemma add_mulVec (a b : M3) (v : V3) : (a + b).mulVec v = a.mulVec v + b.mulVec v := by
  ext <;> simp <;> ring
lemma smul_mulVec (s : ℝ) (a : M3) (v : V3) : (s • a).mulVec v = s • a.mulVec v := by
  ext <;> simp <;> ring
lemma ext_mulVec {a b : M3} (h : ∀ v, a.mulVec v = b.mulVec v) : a = b := by
  have h1 := h ⟨1, 0, 0⟩
  have h2 := h ⟨0, 1, 0⟩
  have h3 := h ⟨0, 0, 1⟩
  simp [mulVec] at h1 h2 h3
  ext <;> tauto
end M3

namespace Quat
@[simp] lemma one_w : (1 : Quat).w = 1 := rfl
@[simp] lemma one_x : (1 : Quat).x = 0 := rfl
@[simp] lemma one_y : (1 : Quat).y = 0 := rfl
@[simp] lemma one_z : (1 : Quat).z = 0 := rfl
@[simp] lemma mul_w (a b : Quat) : (a * b).w = a.w * b.w - a.x * b.x - a.y * b.y - a.z * b.z := rfl
@[simp] lemma mul_x (a b : Quat) : (a * b).x = a.w * b.x + a.x * b.w + a.y * b.z - a.z * b.y := rfl
@[simp] lemma mul_y (a b : Quat) : (a * b).y = a.w * b.y + a.y * b.w + a.z * b.x - a.x * b.z := rfl
@[simp] lemma mul_z (a b : Quat) : (a * b).z = a.w * b.z + a.z * b.w + a.x * b.y - a.y * b.x := rfl
@[simp] lemma neg_w (a : Quat) : (-a).w = -a.w := rfl
@[simp] lemma neg_x (a : Quat) : (-a).x = -a.x := rfl
@[simp] lemma neg_y (a : Quat) : (-a).y = -a.y := rfl
@[simp] lemma neg_z (a : Quat) : (-a).z = -a.z := rfl
@[simp] lemma conj_w (a : Quat) : a.conj.w = a.w := rfl
@[simp] lemma conj_x (a : Quat) : a.conj.x = -a.x := rfl
@[simp] lemma conj_y (a : Quat) : a.conj.y = -a.y := rfl
@[simp] lemma conj_z (a : Quat) : a.conj.z = -a.z := rfl

instance : Monoid Quat where
  mul_assoc a b c := by ext <;> simp <;> ring
  one_mul a := by ext <;> simp
  mul_one a := by ext <;> simp

lemma normSq_mul (a b : Quat) : (a * b).normSq = a.normSq * b.normSq := by simp [normSq]; ring
lemma normSq_nonneg (a : Quat) : 0 ≤ a.normSq := by unfold normSq; nlinarith [sq_nonneg a.w, sq_nonneg a.x, sq_nonneg a.y, sq_nonneg a.z]
@[simp] lemma normSq_one : (1 : Quat).normSq = 1 := by simp [normSq]
@[simp] lemma normSq_conj (a : Quat) : a.conj.normSq = a.normSq := by simp [normSq]
@[simp] lemma normSq_neg (a : Quat) : (-a).normSq = a.normSq := by simp [normSq]
lemma conj_mul (a b : Quat) : (a * b).conj = b.conj * a.conj := by ext <;> simp <;> ring
end Quat

namespace V3
lemma normSq_nonneg (a : V3) : 0 ≤ a.normSq := by
  unfold normSq dot; nlinarith [sq_nonneg a.x, sq_nonneg a.y, sq_nonneg a.z]
lemma norm_nonneg (a : V3) : 0 ≤ a.norm := Real.sqrt_nonneg _
lemma norm_sq (a : V3) : a.norm ^ 2 = a.normSq := Real.sq_sqrt a.normSq_nonneg
lemma norm_mul_norm (a : V3) : a.norm * a.norm = a.normSq := Real.mul_self_sqrt a.normSq_nonneg
lemma normSq_eq_zero {a : V3} : a.normSq = 0 ↔ a = 0 := by
  constructor
  · intro h
    simp only [normSq, dot] at h
    have hx : a.x = 0 := by nlinarith [sq_nonneg a.x, sq_nonneg a.y, sq_nonneg a.z]
    have hy : a.y = 0 := by nlinarith [sq_nonneg a.x, sq_nonneg a.y, sq_nonneg a.z]
    have hz : a.z = 0 := by nlinarith [sq_nonneg a.x, sq_nonneg a.y, sq_nonneg a.z]
    ext <;> simpa
  · rintro rfl; simp [normSq, dot]
lemma norm_eq_zero {a : V3} : a.norm = 0 ↔ a = 0 := by
  rw [norm, Real.sqrt_eq_zero a.normSq_nonneg, normSq_eq_zero]
lemma norm_pos {a : V3} (h : a ≠ 0) : 0 < a.norm :=
  lt_of_le_of_ne a.norm_nonneg (fun e => h (norm_eq_zero.mp e.symm))
lemma normSq_smul (s : ℝ) (a : V3) : (s • a).normSq = s ^ 2 * a.normSq := by
  simp [normSq, dot]; ring
lemma norm_smul (s : ℝ) (a : V3) : (s • a).norm = |s| * a.norm := by
  rw [norm, normSq_smul, Real.sqrt_mul (sq_nonneg s), Real.sqrt_sq_eq_abs]; rfl
@[simp] lemma normSq_neg (a : V3) : (-a).normSq = a.normSq := by simp [normSq, dot]
@[simp] lemma norm_neg (a : V3) : (-a).norm = a.norm := by simp [norm]
@[simp] lemma norm_zero : (0 : V3).norm = 0 := norm_eq_zero.mpr rfl
@[simp] lemma normSq_zero : (0 : V3).normSq = 0 := normSq_eq_zero.mpr rfl
lemma normalized_of_ne {a : V3} (h : a ≠ 0) : a.normalized = (1 / a.norm) • a := by
  have : 0 < a.normSq := lt_of_le_of_ne a.normSq_nonneg (fun e => h (normSq_eq_zero.mp e.symm))
  simp [normalized, this]
lemma normSq_normalized {a : V3} (h : a ≠ 0) : a.normalized.normSq = 1 := by
  rw [normalized_of_ne h, normSq_smul, ← norm_sq]
  have := norm_pos h
  field_simp
lemma norm_eq_one_iff {a : V3} : a.norm = 1 ↔ a.normSq = 1 := by
  rw [norm, Real.sqrt_eq_one]
end V3
end Kindr
