import Verif.Props.Binary
import Verif.Props.FloatLog
import Verif.Props.FloatPose
import Verif.Spec.Bits

/-!
# C103: results that are exact to the last bit
-/

set_option autoImplicit false

open Classical

noncomputable section
namespace Kindr
open Spec

lemma isFloat_nat {p : ℕ} (n : ℕ) (h : n < 2 ^ p) : IsFloat p (n : ℝ) :=
  ⟨n, 0, by rw [abs_of_nonneg (by positivity)]; exact_mod_cast h, by simp⟩

lemma isFloat_half {p : ℕ} (hp : 0 < p) : IsFloat p (1 / 2) := by
  have := isFloat_two_zpow hp (-1)
  norm_num at this ⊢; exact this

lemma Spec.BitsVec.neg {p : ℕ} {v : V3} (h : BitsVec p v) : BitsVec p (-v) := ⟨h.1.neg, h.2.1.neg, h.2.2.neg⟩
lemma bitsVec_zero (p : ℕ) : BitsVec p 0 := ⟨isFloat_zero p, isFloat_zero p, isFloat_zero p⟩

namespace FloatLib
variable {p : ℕ} {F : FloatLib}

/-! ## Results are representable -/

lemma bits_quatMul (I : Ieee p F) (a b : Quat) : Bits p .quat (F.quatMul a b) :=
  ⟨I.round.range _, I.round.range _, I.round.range _, I.round.range _⟩

lemma bits_ofAngleAxis (I : Ieee p F) (θ : ℝ) (n : V3) : Bits p .quat (F.ofAngleAxis θ n) :=
  ⟨I.cos_float _, I.round.range _, I.round.range _, I.round.range _⟩

lemma bits_quatOfRv (I : Ieee p F) (P : Prec) (r : RotVec) : Bits p .quat (F.quatOfRv P r) :=
  ⟨I.cos_float _, I.round.range _, I.round.range _, I.round.range _⟩

lemma bits_ofMatrix (I : Ieee p F) (m : M3) : Bits p .quat (F.ofMatrix m) := by
  simp only [ofMatrix]
  split_ifs <;> exact ⟨I.round.range _, I.round.range _, I.round.range _, I.round.range _⟩

lemma bits_toRotationMatrix (I : Ieee p F) (q : Quat) : Bits p .mat (F.toRotationMatrix q) :=
  ⟨⟨I.round.range _, I.round.range _, I.round.range _⟩, ⟨I.round.range _, I.round.range _, I.round.range _⟩,
   ⟨I.round.range _, I.round.range _, I.round.range _⟩⟩

lemma bits_matOfAa (I : Ieee p F) (a : AngAx) : Bits p .mat (F.matOfAa a) :=
  ⟨⟨I.round.range _, I.round.range _, I.round.range _⟩, ⟨I.round.range _, I.round.range _, I.round.range _⟩,
   ⟨I.round.range _, I.round.range _, I.round.range _⟩⟩

lemma isFloat_one (hp : 2 ≤ p) : IsFloat p 1 := by
  have := isFloat_nat (p := p) 1 (Nat.one_lt_two_pow (by omega)); simpa using this

lemma bits_identity (hp : 2 ≤ p) (k : Kind) : Bits p k (identity k) := by
  have h0 := isFloat_zero p
  have h1 := isFloat_one hp
  cases k
  · exact ⟨h1, h0, h0, h0⟩
  · exact ⟨⟨h1, h0, h0⟩, ⟨h0, h1, h0⟩, ⟨h0, h0, h1⟩⟩
  · exact ⟨h0, h1, h0, h0⟩
  all_goals exact ⟨h0, h0, h0⟩

lemma bits_ofQuat (I : Ieee p F) (hp : 2 ≤ p) (q : Quat) : Bits p .aa (F.ofQuat q) := by
  simp only [ofQuat]
  split_ifs <;> first | exact ⟨I.round.range _, I.round.range _, I.round.range _, I.round.range _⟩ | exact bits_identity hp .aa

lemma bits_aaOfRv (I : Ieee p F) (hp : 2 ≤ p) (P : Prec) (r : RotVec) : Bits p .aa (F.aaOfRv P r) := by
  simp only [aaOfRv]
  split_ifs
  · exact bits_identity hp .aa
  · exact ⟨I.round.range _, I.round.range _, I.round.range _, I.round.range _⟩

lemma bits_rvOfAa (I : Ieee p F) (a : AngAx) : Bits p .rv (F.rvOfAa a) := ⟨I.round.range _, I.round.range _, I.round.range _⟩

lemma bits_rvOfQuat (I : Ieee p F) (P : Prec) (q : Quat) : Bits p .rv (F.rvOfQuat P q) := by
  simp only [rvOfQuat]
  split_ifs <;> exact ⟨I.round.range _, I.round.range _, I.round.range _⟩

lemma bits_xyzOfQuat (I : Ieee p F) (q : Quat) : Bits p .xyz (F.xyzOfQuat q) := by
  simp only [xyzOfQuat, eulerAngles012]
  split_ifs <;> exact ⟨IsFloat.neg (by first | exact I.round.range _ | exact I.atan2_float _ _), (I.atan2_float _ _).neg, (I.atan2_float _ _).neg⟩

lemma bits_zyxOfQuat (I : Ieee p F) (q : Quat) : Bits p .zyx (F.zyxOfQuat q) := by
  simp only [zyxOfQuat, eulerAngles210]
  split_ifs <;> exact ⟨by first | exact I.round.range _ | exact I.atan2_float _ _, I.atan2_float _ _, I.atan2_float _ _⟩

/-- **C103 (a).** Every conversion returns representable numbers. -/
theorem C103_bits (I : Ieee p F) (hp : 2 ≤ p) (P : Prec) (d s : Kind) (r : Rep s) (h : Bits p s r) : Bits p d (F.conv P d s r) := by
  cases d <;> cases s
  all_goals first
    | exact h
    | exact bits_quatMul I _ _
    | exact bits_ofAngleAxis I _ _
    | exact bits_quatOfRv I P _
    | exact bits_ofMatrix I _
    | exact bits_toRotationMatrix I _
    | exact bits_matOfAa I _
    | exact bits_ofQuat I hp _
    | exact bits_aaOfRv I hp P _
    | exact bits_rvOfAa I _
    | exact bits_rvOfQuat I P _
    | exact bits_xyzOfQuat I _
    | exact bits_zyxOfQuat I _

/-! ## The identity -/

section identity
variable (I : Ieee p F) (hp : 2 ≤ p)
include I

lemma fl0 : F.fl 0 = 0 := I.round.map_zero

lemma quatMul_one (q : Quat) (h : Bits p .quat q) : F.quatMul q ⟨1, 0, 0, 0⟩ = q := by
  obtain ⟨a, b, c, d⟩ := h
  simp only [FloatArith.quatMul, mul_one, mul_zero, fl0 I, I.round.fix _ a, I.round.fix _ b, I.round.fix _ c, I.round.fix _ d, sub_zero, add_zero,
    zero_add]

lemma one_quatMul (q : Quat) (h : Bits p .quat q) : F.quatMul ⟨1, 0, 0, 0⟩ q = q := by
  obtain ⟨a, b, c, d⟩ := h
  simp only [FloatArith.quatMul, one_mul, zero_mul, fl0 I, I.round.fix _ a, I.round.fix _ b, I.round.fix _ c, I.round.fix _ d, sub_zero, add_zero]

lemma mulVec_one (v : V3) (h : BitsVec p v) : F.mulVec ⟨1, 0, 0, 0, 1, 0, 0, 0, 1⟩ v = v := by
  obtain ⟨a, b, c⟩ := h
  simp only [FloatArith.mulVec, one_mul, zero_mul, fl0 I, I.round.fix _ a, I.round.fix _ b, I.round.fix _ c, add_zero, zero_add]

lemma mulVec_zero (m : M3) : F.mulVec m 0 = 0 := by
  have e : (0 : V3) = ⟨0, 0, 0⟩ := rfl
  simp only [e, FloatArith.mulVec, mul_zero, fl0 I, add_zero]

lemma mulVec_neg (m : M3) (v : V3) : F.mulVec m (-v) = -F.mulVec m v := by
  have e : -v = ⟨-v.x, -v.y, -v.z⟩ := rfl
  have h : ∀ a b c : ℝ, F.fl (F.fl (F.fl (-a) + F.fl (-b)) + F.fl (-c)) = -F.fl (F.fl (F.fl a + F.fl b) + F.fl c) := fun a b c => by
    rw [I.odd, I.odd, I.odd, ← neg_add, I.odd, ← neg_add, I.odd]
  rw [e]
  simp only [FloatArith.mulVec, mul_neg, h]
  rfl

lemma toRotationMatrix_one (h1 : F.fl 1 = 1) : F.toRotationMatrix ⟨1, 0, 0, 0⟩ = ⟨1, 0, 0, 0, 1, 0, 0, 0, 1⟩ := by
  simp only [FloatArith.toRotationMatrix, mul_zero, zero_mul, fl0 I, add_zero, sub_zero, h1]

end identity

lemma fl_nat (I : Ieee p F) (n : ℕ) (h : n < 2 ^ p) : F.fl n = n := I.round.fix _ (isFloat_nat n h)
lemma fl1 (I : Ieee p F) (hp : 2 ≤ p) : F.fl 1 = 1 := I.round.fix _ (isFloat_one hp)
lemma four_le (hp : 2 ≤ p) : 4 ≤ 2 ^ p := by
  calc 4 = 2 ^ 2 := by norm_num
    _ ≤ 2 ^ p := Nat.pow_le_pow_right (by norm_num) hp
lemma fl2 (I : Ieee p F) (hp : 2 ≤ p) : F.fl 2 = 2 := by
  have := fl_nat I 2 (by have := four_le hp; omega); exact_mod_cast this
lemma fl3 (I : Ieee p F) (hp : 2 ≤ p) : F.fl 3 = 3 := by
  have := fl_nat I 3 (by have := four_le hp; omega); exact_mod_cast this
lemma fl4 (I : Ieee p F) (hp : 2 ≤ p) : F.fl 4 = 4 := by
  have h := isFloat_two_zpow (p := p) (by omega) 2
  have := I.round.fix _ h; norm_num at this; exact this

lemma norm3_zero (I : Ieee p F) : F.norm3 ⟨0, 0, 0⟩ = 0 := by
  simp only [norm3, normSq3, mul_zero, fl0 I, add_zero, Real.sqrt_zero]

lemma ofMatrix_one (I : Ieee p F) (hp : 2 ≤ p) : F.ofMatrix ⟨1, 0, 0, 0, 1, 0, 0, 0, 1⟩ = ⟨1, 0, 0, 0⟩ := by
  have e1 : F.fl ((1 : ℝ) + F.fl (1 + 1)) = 3 := by
    rw [show (1 : ℝ) + 1 = 2 by norm_num, fl2 I hp, show (1 : ℝ) + 2 = 3 by norm_num, fl3 I hp]
  have e2 : F.fl (Real.sqrt (F.fl (3 + 1))) = 2 := by
    rw [show (3 : ℝ) + 1 = 4 by norm_num, fl4 I hp, show (4 : ℝ) = 2 ^ 2 by norm_num, Real.sqrt_sq (by norm_num), fl2 I hp]
  simp only [ofMatrix, e1, e2]
  rw [if_pos (by norm_num)]
  simp only [sub_zero, fl0 I, zero_mul]
  rw [show (1 : ℝ) / 2 * 2 = 1 by norm_num, fl1 I hp]

lemma ofQuat_w (I : Ieee p F) (w : ℝ) : F.ofQuat ⟨w, 0, 0, 0⟩ = AngAx.identity := by
  simp only [ofQuat, Quat.vec, norm3_zero I, ne_eq, not_true_eq_false, if_false]
  rfl

lemma ofAngleAxis_zero (I : Ieee p F) (n : V3) : F.ofAngleAxis 0 n = ⟨1, 0, 0, 0⟩ := by
  simp only [ofAngleAxis, mul_zero, zero_mul, fl0 I, I.sin_zero, I.cos_zero]

lemma quatOfRv_zero (I : Ieee p F) (P : Prec) : F.quatOfRv P ⟨⟨0, 0, 0⟩⟩ = ⟨1, 0, 0, 0⟩ := by
  simp only [quatOfRv, norm3_zero I, zero_mul, fl0 I, I.cos_zero]

lemma rvOfQuat_one (I : Ieee p F) (hp : 2 ≤ p) (P : Prec) : F.rvOfQuat P ⟨1, 0, 0, 0⟩ = ⟨⟨0, 0, 0⟩⟩ := by
  have h : F.rvSmall P ⟨1, 0, 0, 0⟩ := by
    simp only [rvSmall, mul_one, fl1 I hp, sub_self, fl0 I]; exact P.dp_pos
  simp only [rvOfQuat, if_pos h, zero_lt_one, gt_iff_lt, if_true, mul_zero, fl0 I]

lemma quatMul_one_one (I : Ieee p F) (hp : 2 ≤ p) : F.quatMul ⟨1, 0, 0, 0⟩ ⟨1, 0, 0, 0⟩ = ⟨1, 0, 0, 0⟩ :=
  one_quatMul I _ (bits_identity hp .quat)

lemma quatOfXyz_zero (I : Ieee p F) (hp : 2 ≤ p) : F.quatOfXyz ⟨⟨0, 0, 0⟩⟩ = ⟨1, 0, 0, 0⟩ := by
  have e : ∀ n, F.ofAngleAxis 0 n = ⟨1, 0, 0, 0⟩ := ofAngleAxis_zero I
  simp only [quatOfXyz, EulXyz.x, EulXyz.y, EulXyz.z, e, quatMul_one_one I hp]

lemma quatOfZyx_zero (I : Ieee p F) (hp : 2 ≤ p) : F.quatOfZyx ⟨⟨0, 0, 0⟩⟩ = ⟨1, 0, 0, 0⟩ := by
  have e : ∀ n, F.ofAngleAxis 0 n = ⟨1, 0, 0, 0⟩ := ofAngleAxis_zero I
  simp only [quatOfZyx, EulZyx.x, EulZyx.y, EulZyx.z, e, quatMul_one_one I hp]

lemma matOfAa_zero (I : Ieee p F) (hp : 2 ≤ p) : F.matOfAa ⟨0, ⟨1, 0, 0⟩⟩ = ⟨1, 0, 0, 0, 1, 0, 0, 0, 1⟩ := by
  simp only [matOfAa, I.sin_zero, I.cos_zero, sub_self, zero_mul, mul_zero, fl0 I, zero_add, add_zero, fl1 I hp]

lemma aaOfRv_zero (I : Ieee p F) (P : Prec) : F.aaOfRv P ⟨⟨0, 0, 0⟩⟩ = ⟨0, ⟨1, 0, 0⟩⟩ := by
  simp only [aaOfRv, norm3_zero I, P.dp_pos, if_true]
  rfl

lemma rvOfAa_zero (I : Ieee p F) : F.rvOfAa ⟨0, ⟨1, 0, 0⟩⟩ = ⟨⟨0, 0, 0⟩⟩ := by
  simp only [rvOfAa, zero_mul, fl0 I]

lemma xyzOfQuat_one (I : Ieee p F) (hp : 2 ≤ p) : F.xyzOfQuat ⟨1, 0, 0, 0⟩ = ⟨⟨0, 0, 0⟩⟩ := by
  have h1 := fl1 I hp
  have a := I.atan2_axis 1 one_pos
  simp only [xyzOfQuat, toRotationMatrix_one I h1, eulerAngles012, a, mul_zero, mul_one, fl0 I, h1, add_zero, Real.sqrt_one, lt_irrefl, if_false,
    neg_zero, I.sin_zero, I.cos_zero, sub_zero]

lemma zyxOfQuat_one (I : Ieee p F) (hp : 2 ≤ p) : F.zyxOfQuat ⟨1, 0, 0, 0⟩ = ⟨⟨0, 0, 0⟩⟩ := by
  have h1 := fl1 I hp
  have a := I.atan2_axis 1 one_pos
  simp only [zyxOfQuat, toRotationMatrix_one I h1, eulerAngles210, a, mul_zero, mul_one, fl0 I, h1, add_zero, Real.sqrt_one, lt_irrefl, if_false,
    neg_zero, I.sin_zero, I.cos_zero, sub_zero]

/-- **C103 (b).** All 36 conversions map the identity to the identity, bit for bit. -/
theorem C103_identity (I : Ieee p F) (hp : 2 ≤ p) (P : Prec) (d s : Kind) : F.conv P d s (identity s) = identity d := by
  have m := ofMatrix_one I hp
  have t := toRotationMatrix_one I (fl1 I hp)
  have a : F.ofQuat ⟨1, 0, 0, 0⟩ = ⟨0, ⟨1, 0, 0⟩⟩ := ofQuat_w I 1
  have qa : F.quatOfAa ⟨0, ⟨1, 0, 0⟩⟩ = ⟨1, 0, 0, 0⟩ := ofAngleAxis_zero I _
  have qr := quatOfRv_zero I P
  have qx := quatOfXyz_zero I hp
  have qz := quatOfZyx_zero I hp
  have rq := rvOfQuat_one I hp P
  have x := xyzOfQuat_one I hp
  have z := zyxOfQuat_one I hp
  have ar := aaOfRv_zero I P
  have ra := rvOfAa_zero I
  have ma := matOfAa_zero I hp
  cases d <;> cases s <;> simp only [conv, identity, m, t, a, qa, qr, qx, qz, rq, x, z, ar, ra, ma]

/-! ## Neutral elements -/

lemma matMul_one (I : Ieee p F) (m : M3) (h : Bits p .mat m) : F.matMul m ⟨1, 0, 0, 0, 1, 0, 0, 0, 1⟩ = m := by
  obtain ⟨⟨a, b, c⟩, ⟨d, e, f⟩, ⟨g, i, j⟩⟩ := h
  simp only [FloatArith.matMul, FloatArith.mulVec, mul_one, mul_zero, fl0 I, I.round.fix _ a, I.round.fix _ b, I.round.fix _ c, I.round.fix _ d, I.round.fix _ e,
    I.round.fix _ f, I.round.fix _ g, I.round.fix _ i, I.round.fix _ j, add_zero, zero_add]

lemma one_matMul (I : Ieee p F) (m : M3) (h : Bits p .mat m) : F.matMul ⟨1, 0, 0, 0, 1, 0, 0, 0, 1⟩ m = m := by
  obtain ⟨⟨a, b, c⟩, ⟨d, e, f⟩, ⟨g, i, j⟩⟩ := h
  simp only [FloatArith.matMul, FloatArith.mulVec, one_mul, zero_mul, fl0 I, I.round.fix _ a, I.round.fix _ b, I.round.fix _ c, I.round.fix _ d, I.round.fix _ e,
    I.round.fix _ f, I.round.fix _ g, I.round.fix _ i, I.round.fix _ j, add_zero, zero_add]

/-- **C103 (c).** The product with the identity returns the other factor unchanged, bit for bit, for quaternions and for matrices.  For all
other pairs of classes it is the conversion through a quaternion, and nothing else is rounded. -/
theorem C103_neutral (I : Ieee p F) (hp : 2 ≤ p) (P : Prec) :
    (∀ q : Rep .quat, Bits p .quat q → F.mult P .quat .quat (identity .quat) q = q ∧ F.mult P .quat .quat q (identity .quat) = q) ∧
    (∀ m : Rep .mat, Bits p .mat m → F.mult P .mat .mat (identity .mat) m = m ∧ F.mult P .mat .mat m (identity .mat) = m) ∧
    (∀ k₁ k₂, ¬ (k₁ = .mat ∧ k₂ = .mat) → ∀ (a : Rep k₁) (b : Rep k₂), Bits p k₁ a → Bits p k₂ b →
      F.mult P k₁ k₂ (identity k₁) b = F.conv P k₁ .quat (F.conv P .quat k₂ b) ∧
      F.mult P k₁ k₂ a (identity k₂) = F.conv P k₁ .quat (F.conv P .quat k₁ a)) := by
  have key : ∀ k₁ k₂, ¬ (k₁ = .mat ∧ k₂ = .mat) → ∀ (a : Rep k₁) (b : Rep k₂), Bits p k₁ a → Bits p k₂ b →
      F.mult P k₁ k₂ (identity k₁) b = F.conv P k₁ .quat (F.conv P .quat k₂ b) ∧
      F.mult P k₁ k₂ a (identity k₂) = F.conv P k₁ .quat (F.conv P .quat k₁ a) := by
    intro k₁ k₂ hk a b ha hb
    have e : ∀ (a : Rep k₁) (b : Rep k₂), F.mult P k₁ k₂ a b = F.conv P k₁ .quat (F.quatMul (F.conv P .quat k₁ a) (F.conv P .quat k₂ b)) := by
      intro a b; cases k₁ <;> cases k₂ <;> first | exact absurd ⟨rfl, rfl⟩ hk | rfl
    have h1 := C103_identity I hp P .quat k₁
    have h2 := C103_identity I hp P .quat k₂
    constructor
    · rw [e, h1]; exact congrArg _ (one_quatMul I _ (C103_bits I hp P .quat k₂ b hb))
    · rw [e, h2]; exact congrArg _ (quatMul_one I _ (C103_bits I hp P .quat k₁ a ha))
  refine ⟨fun q h => ?_, fun m h => ⟨one_matMul I m h, matMul_one I m h⟩, key⟩
  exact key .quat .quat (fun h => nomatch h.1) q q h h

/-! ## Rotating vectors -/

/-- **C103 (d).** The zero vector is rotated to exactly zero, opposite vectors to exactly opposite vectors, the identity of every class leaves every
vector unchanged bit for bit, the unit vectors go exactly to the columns of the rotation matrix, and a quaternion and its negative rotate every
vector to the same bits. -/
theorem C103_rotate (I : Ieee p F) (hp : 2 ≤ p) (P : Prec) (k : Kind) (r : Rep k) (h : Bits p k r) (v : V3) (q : Quat) :
    F.rotate P k r 0 = 0 ∧ F.rotate P k r (-v) = -F.rotate P k r v ∧
    (BitsVec p v → F.rotate P k (identity k) v = v) ∧
    F.rotate P k r ⟨1, 0, 0⟩ = ⟨(F.conv P .mat k r : M3).m00, (F.conv P .mat k r : M3).m10, (F.conv P .mat k r : M3).m20⟩ ∧
    F.rotate P k r ⟨0, 1, 0⟩ = ⟨(F.conv P .mat k r : M3).m01, (F.conv P .mat k r : M3).m11, (F.conv P .mat k r : M3).m21⟩ ∧
    F.rotate P k r ⟨0, 0, 1⟩ = ⟨(F.conv P .mat k r : M3).m02, (F.conv P .mat k r : M3).m12, (F.conv P .mat k r : M3).m22⟩ ∧
    F.rotate P .quat (⟨-q.w, -q.x, -q.y, -q.z⟩ : Quat) v = F.rotate P .quat q v := by
  have hb := C103_bits I hp P .mat k r h
  obtain ⟨m, hm⟩ : ∃ m : M3, m = F.conv P .mat k r := ⟨_, rfl⟩
  rw [← hm] at hb ⊢
  obtain ⟨⟨a, b, c⟩, ⟨d, e, f⟩, ⟨g, i, j⟩⟩ := hb
  refine ⟨mulVec_zero I _, mulVec_neg I _ _, fun hv => ?_, ?_, ?_, ?_, ?_⟩
  · have e := C103_identity I hp P .mat k
    unfold rotate
    rw [e]; exact mulVec_one I v hv
  · unfold rotate
    rw [← hm]
    simp only [FloatArith.mulVec, mul_one, mul_zero, fl0 I, add_zero, I.round.fix _ a, I.round.fix _ d, I.round.fix _ g]
  · unfold rotate
    rw [← hm]
    simp only [FloatArith.mulVec, mul_one, mul_zero, fl0 I, add_zero, zero_add, I.round.fix _ b, I.round.fix _ e, I.round.fix _ i]
  · unfold rotate
    rw [← hm]
    simp only [FloatArith.mulVec, mul_one, mul_zero, fl0 I, zero_add, I.round.fix _ c, I.round.fix _ f, I.round.fix _ j]
  · have : F.toRotationMatrix ⟨-q.w, -q.x, -q.y, -q.z⟩ = F.toRotationMatrix q := by
      simp only [FloatArith.toRotationMatrix, mul_neg, I.odd, neg_mul, neg_neg]
    exact congrArg (fun m => F.mulVec m v) this

/-! ## Inverses -/

lemma quatOfAa_inverted (I : Ieee p F) (a : AngAx) : F.quatOfAa (aaInverted a) = (F.quatOfAa a).conj := by
  simp only [quatOfAa, aaInverted, AngAx.inverse, ofAngleAxis, neg_neg, Quat.conj]
  simp only [V3.neg_x, V3.neg_y, V3.neg_z, mul_neg, I.odd]

lemma quatOfRv_inverted (I : Ieee p F) (P : Prec) (r : RotVec) : F.quatOfRv P ⟨-r.v⟩ = (F.quatOfRv P r).conj := by
  have e : F.norm3 (-r.v) = F.norm3 r.v := by
    simp only [norm3, normSq3, V3.neg_x, V3.neg_y, V3.neg_z, neg_mul_neg]
  simp only [quatOfRv, e, Quat.conj, V3.neg_x, V3.neg_y, V3.neg_z, neg_mul, I.odd]

lemma toRotationMatrix_conj (I : Ieee p F) (q : Quat) : F.toRotationMatrix q.conj = (F.toRotationMatrix q).transpose := by
  simp only [FloatArith.toRotationMatrix, Quat.conj, M3.transpose, mul_neg, neg_mul, I.odd, neg_neg, sub_neg_eq_add, ← sub_eq_add_neg]

lemma matOfAa_inverted (I : Ieee p F) (a : AngAx) : F.matOfAa (aaInverted a) = (F.matOfAa a).transpose := by
  simp only [matOfAa, aaInverted, AngAx.inverse, neg_neg, M3.transpose]
  simp only [V3.neg_x, V3.neg_y, V3.neg_z, mul_neg, neg_mul, I.odd, neg_neg, sub_neg_eq_add, ← sub_eq_add_neg]

/-- **C103 (e).** `inverted()` of quaternions, matrices, angle-axis pairs and rotation vectors is an involution, its rotation matrix is the
transpose of the rotation matrix and (but for matrices) its quaternion is the conjugate of the quaternion, all bit for bit.  The inverse of a product of
matrices is the product of the inverses in reverse order, bit for bit. -/
theorem C103_inverse (I : Ieee p F) (P : Prec) (k : Kind) (hk : k = .quat ∨ k = .mat ∨ k = .aa ∨ k = .rv) (r : Rep k) (a b : Rep .mat) :
    F.inverted k (F.inverted k r) = r ∧
    F.conv P .mat k (F.inverted k r) = M3.transpose (F.conv P .mat k r) ∧
    (k ≠ .mat → F.conv P .quat k (F.inverted k r) = Quat.conj (F.conv P .quat k r)) ∧
    F.inverted .mat (F.mult P .mat .mat a b) = F.mult P .mat .mat (F.inverted .mat b) (F.inverted .mat a) := by
  refine ⟨?_, ?_, ?_, ?_⟩
  · rcases hk with rfl | rfl | rfl | rfl
    · change Quat.conj (Quat.conj r) = r
      cases r; simp [Quat.conj]
    · rfl
    · change aaInverted (aaInverted r) = r
      obtain ⟨t, n⟩ := r
      simp [aaInverted, AngAx.inverse]
    · obtain ⟨v⟩ := r
      change (⟨- -v⟩ : RotVec) = ⟨v⟩
      rw [neg_neg]
  · rcases hk with rfl | rfl | rfl | rfl
    · exact toRotationMatrix_conj I r
    · rfl
    · exact matOfAa_inverted I r
    · exact (congrArg F.toRotationMatrix (quatOfRv_inverted I P r)).trans (toRotationMatrix_conj I _)
  · intro h
    rcases hk with rfl | rfl | rfl | rfl
    · rfl
    · exact absurd rfl h
    · exact quatOfAa_inverted I r
    · exact quatOfRv_inverted I P r
  · change M3.transpose (F.matMul a b) = F.matMul (M3.transpose b) (M3.transpose a)
    simp only [FloatArith.matMul, FloatArith.mulVec, M3.transpose, mul_comm]

/-! ## Vectors and poses -/

/-- **C103 (f).** Vector sums are commutative, adding zero changes nothing, a difference is exactly zero for equal vectors and
only for equal vectors, and it changes its sign when the two vectors are exchanged. -/
theorem C103_vectors (I : Ieee p F) (a b : V3) :
    F.addV a b = F.addV b a ∧ (BitsVec p a → F.addV a 0 = a ∧ F.subV a 0 = a) ∧ (F.subV a b = 0 ↔ a = b) ∧ F.subV a b = -F.subV b a := by
  refine ⟨by simp only [addV, add_comm], fun ⟨h1, h2, h3⟩ => ⟨?_, ?_⟩, ⟨fun h => ?_, ?_⟩, ?_⟩
  · cases a; simp only [addV, V3.zero_x, V3.zero_y, V3.zero_z, add_zero, I.round.fix _ h1, I.round.fix _ h2, I.round.fix _ h3]
  · cases a; simp only [subV, V3.zero_x, V3.zero_y, V3.zero_z, sub_zero, I.round.fix _ h1, I.round.fix _ h2, I.round.fix _ h3]
  · have key : ∀ x : ℝ, F.fl x = 0 → x = 0 := fun x hx => by
      have h := F.err x
      have hu := F.u_le
      rw [hx, zero_sub, abs_neg] at h
      have : |x| ≤ 0 := by
        have hu2 : F.u ≤ 1 / 2 := hu.trans (by norm_num)
        nlinarith [abs_nonneg x]
      exact abs_eq_zero.mp (le_antisymm this (abs_nonneg x))
    have hx := key _ (congrArg V3.x h)
    have hy := key _ (congrArg V3.y h)
    have hz := key _ (congrArg V3.z h)
    exact V3.ext (sub_eq_zero.mp hx) (sub_eq_zero.mp hy) (sub_eq_zero.mp hz)
  · rintro rfl
    simp only [subV, sub_self, fl0 I]; rfl
  · have h : ∀ x y : ℝ, F.fl (x - y) = -F.fl (y - x) := fun x y => by rw [← I.odd, neg_sub]
    simp only [subV, h a.x, h a.y, h a.z]; rfl

/-- **C103 (g).** A pose maps the origin exactly to its position and its position exactly back to the origin; the identity pose leaves every point
unchanged; the product with the identity pose on either side keeps the position, and for quaternion and matrix poses the rotation, bit for bit. -/
theorem C103_pose (I : Ieee p F) (hp : 2 ≤ p) (P : Prec) (k : Kind) (T : Pose k) (hT : BitsVec p T.position) (hR : Bits p k T.rotation) (v : V3)
    (hv : BitsVec p v) :
    F.poseTransform P k T 0 = T.position ∧ F.poseInverseTransform P k T T.position = 0 ∧
    F.poseTransform P k (Pose.Identity k) v = v ∧
    (F.poseMult P k k (Pose.Identity k) T).position = T.position ∧ (F.poseMult P k k T (Pose.Identity k)).position = T.position ∧
    (k = .quat ∨ k = .mat → F.poseMult P k k (Pose.Identity k) T = T ∧ F.poseMult P k k T (Pose.Identity k) = T) := by
  have z : ∀ w : V3, BitsVec p w → F.addV 0 w = w := fun w hw => by
    rw [(C103_vectors I 0 w).1]; exact ((C103_vectors I w 0).2.1 hw).1
  have i : ∀ w, BitsVec p w → F.rotate P k (identity k) w = w := fun w hw => (C103_rotate I hp P k (identity k) (bits_identity hp k) w 1).2.2.1 hw
  have h4 : (F.poseMult P k k (Pose.Identity k) T).position = T.position := by
    change F.addV 0 (F.rotate P k (identity k) T.position) = _
    rw [i _ hT]; exact z _ hT
  have h5 : (F.poseMult P k k T (Pose.Identity k)).position = T.position := by
    change F.addV T.position (F.rotate P k T.rotation 0) = _
    rw [(C103_rotate I hp P k T.rotation hR 0 1).1]
    exact ((C103_vectors I T.position 0).2.1 hT).1
  refine ⟨?_, ?_, ?_, h4, h5, fun hk => ?_⟩
  · change F.addV (F.rotate P k T.rotation 0) T.position = _
    rw [(C103_rotate I hp P k T.rotation hR 0 1).1]; exact z _ hT
  · unfold poseInverseTransform inverseRotate rotate
    rw [(C103_vectors I T.position T.position).2.2.1.mpr rfl]; exact mulVec_zero I _
  · change F.addV (F.rotate P k (identity k) v) 0 = v
    rw [i _ hv]; exact ((C103_vectors I v 0).2.1 hv).1
  · have h : F.mult P k k (identity k) T.rotation = T.rotation ∧ F.mult P k k T.rotation (identity k) = T.rotation := by
      rcases hk with rfl | rfl
      · exact (C103_neutral I hp P).1 _ hR
      · exact (C103_neutral I hp P).2.1 _ hR
    exact ⟨Pose.ext h4 h.1, Pose.ext h5 h.2⟩

/-! ## A rotation compared with itself -/

lemma quatMul_conj (I : Ieee p F) (q : Quat) : F.quatMul q q.conj = ⟨F.quatNormSq q, 0, 0, 0⟩ := by
  simp only [FloatArith.quatMul, FloatArith.quatNormSq, Quat.conj, mul_neg, I.odd, sub_neg_eq_add, mul_comm q.x q.w, mul_comm q.y q.w, mul_comm q.z q.w,
    neg_add_cancel, fl0 I, zero_add, mul_comm q.z q.y, mul_comm q.z q.x, mul_comm q.y q.x]
  simp only [neg_add_cancel, fl0 I, I.round.fix _ (I.round.range _)]

lemma fl_pos {x : ℝ} (h : 0 < x) : 0 < F.fl x := by
  have h1 := abs_le.mp (F.err x)
  have hu2 : F.u ≤ 1 / 2 := F.u_le.trans (by norm_num)
  rw [abs_of_pos h] at h1
  nlinarith

lemma fl_nonneg (I : Ieee p F) {x : ℝ} (h : 0 ≤ x) : 0 ≤ F.fl x := I.round.nonneg h

/-- A sum of three rounded squares is not negative, and zero only for three zeros. -/
lemma sq_sum_pos (I : Ieee p F) (a b c : ℝ) : 0 ≤ F.fl (F.fl (F.fl (a * a) + F.fl (b * b)) + F.fl (c * c)) ∧
    (¬ (a = 0 ∧ b = 0 ∧ c = 0) → 0 < F.fl (F.fl (F.fl (a * a) + F.fl (b * b)) + F.fl (c * c))) := by
  have ha := fl_nonneg I (mul_self_nonneg a)
  have hb := fl_nonneg I (mul_self_nonneg b)
  have hc := fl_nonneg I (mul_self_nonneg c)
  have hab := fl_nonneg I (add_nonneg ha hb)
  refine ⟨fl_nonneg I (add_nonneg hab hc), fun h => fl_pos ?_⟩
  by_cases h1 : a = 0
  · by_cases h2 : b = 0
    · have h3 : c ≠ 0 := fun h3 => h ⟨h1, h2, h3⟩
      have := fl_pos (F := F) (mul_self_pos.mpr h3); linarith
    · have := fl_pos (F := F) (mul_self_pos.mpr h2)
      have := fl_pos (F := F) (show 0 < F.fl (a * a) + F.fl (b * b) by linarith); linarith
  · have := fl_pos (F := F) (mul_self_pos.mpr h1)
    have := fl_pos (F := F) (show 0 < F.fl (a * a) + F.fl (b * b) by linarith); linarith

lemma ofMatrix_symm (I : Ieee p F) (m : M3) (h : m ≠ 0) : ∃ w, F.ofMatrix (F.matMul m m.transpose) = ⟨w, 0, 0, 0⟩ := by
  obtain ⟨a0, a1⟩ := sq_sum_pos I m.m00 m.m01 m.m02
  obtain ⟨b0, b1⟩ := sq_sum_pos I m.m10 m.m11 m.m12
  obtain ⟨c0, c1⟩ := sq_sum_pos I m.m20 m.m21 m.m22
  have bc := fl_nonneg I (add_nonneg b0 c0)
  have hc : ¬ (m.m20 = 0 ∧ m.m21 = 0 ∧ m.m22 = 0) ∨ ¬ (m.m10 = 0 ∧ m.m11 = 0 ∧ m.m12 = 0) ∨ ¬ (m.m00 = 0 ∧ m.m01 = 0 ∧ m.m02 = 0) := by
    by_contra hn
    push Not at hn
    obtain ⟨⟨h7, h8, h9⟩, ⟨h4, h5, h6⟩, ⟨h1, h2, h3⟩⟩ := hn
    exact h (M3.ext h1 h2 h3 h4 h5 h6 h7 h8 h9)
  have t : 0 < F.fl ((F.matMul m m.transpose).m00 + F.fl ((F.matMul m m.transpose).m11 + (F.matMul m m.transpose).m22)) := by
    simp only [FloatArith.matMul, FloatArith.mulVec, M3.transpose]
    apply fl_pos
    rcases hc with hc | hc | hc
    · have := fl_pos (F := F) (add_pos_of_nonneg_of_pos b0 (c1 hc)); linarith
    · have := fl_pos (F := F) (add_pos_of_pos_of_nonneg (b1 hc) c0); linarith
    · have := a1 hc; linarith
  have s1 : (F.matMul m m.transpose).m21 - (F.matMul m m.transpose).m12 = 0 := by
    simp only [FloatArith.matMul, FloatArith.mulVec, M3.transpose, mul_comm m.m10 m.m20, mul_comm m.m11 m.m21, mul_comm m.m12 m.m22, sub_self]
  have s2 : (F.matMul m m.transpose).m02 - (F.matMul m m.transpose).m20 = 0 := by
    simp only [FloatArith.matMul, FloatArith.mulVec, M3.transpose, mul_comm m.m20 m.m00, mul_comm m.m21 m.m01, mul_comm m.m22 m.m02, sub_self]
  have s3 : (F.matMul m m.transpose).m10 - (F.matMul m m.transpose).m01 = 0 := by
    simp only [FloatArith.matMul, FloatArith.mulVec, M3.transpose, mul_comm m.m10 m.m00, mul_comm m.m11 m.m01, mul_comm m.m12 m.m02, sub_self]
  refine ⟨(F.ofMatrix (F.matMul m m.transpose)).w, ?_⟩
  simp only [ofMatrix]
  rw [if_pos t, s1, s2, s3]
  simp only [fl0 I, zero_mul]

/-- The quaternion of the product of a rotation with its own inverse has exactly no vector part. -/
lemma self_quat (I : Ieee p F) (P : Prec) (k : Kind) (hk : k = .quat ∨ k = .aa ∨ k = .rv) (r : Rep k) :
    F.mult P k k r (F.inverted k r) = F.conv P k .quat (⟨F.quatNormSq (F.conv P .quat k r), 0, 0, 0⟩ : Quat) := by
  have c := (C103_inverse I P k (by tauto) r (identity .mat) (identity .mat)).2.2.1
  have e : F.mult P k k r (F.inverted k r) = F.conv P k .quat (F.quatMul (F.conv P .quat k r) (F.conv P .quat k (F.inverted k r))) := by
    rcases hk with rfl | rfl | rfl <;> rfl
  rw [e, c (by rcases hk with rfl | rfl | rfl <;> simp)]
  exact congrArg _ (quatMul_conj I _)

lemma rvOfQuat_w (I : Ieee p F) (P : Prec) (w : ℝ) (h : F.rvSmall P ⟨w, 0, 0, 0⟩) : F.rvOfQuat P ⟨w, 0, 0, 0⟩ = ⟨⟨0, 0, 0⟩⟩ := by
  simp only [rvOfQuat, if_pos h, mul_zero, fl0 I, ite_self]

/-- The quaternion of the product of a rotation that is stored accurately enough with its own inverse takes the small-angle branch, so that nothing is
divided by zero. -/
lemma self_small (I : Ieee p F) (P : Prec) {k : Kind} {r : Rep k} {η δ : ℝ} {R : M3} (h : Rounded η δ k r R)
    (hR : IsSO3 R) (he : quatErr P F.u η (angleSize k r) k ≤ 1 / 1000000) (hdp : 7 * quatErr P F.u η (angleSize k r) k + 30 * F.u ≤ P.dp) :
    F.rvSmall P ⟨F.quatNormSq (F.conv P .quat k r), 0, 0, 0⟩ := by
  have hu := F.u_nonneg
  have hs : F.u ≤ 1 / 10000000 := F.u_le.trans (by norm_num)
  have q := F.toQuat_rounded P h (by linarith)
  obtain ⟨e, hee⟩ : ∃ e, e = quatErr P F.u η (angleSize k r) k := ⟨_, rfl⟩
  rw [← hee] at q he hdp
  have h0 := q.1
  have qi := F.C85_inverted P q (by simp only [quatErr]; linarith)
  have m := F.C85_mult P q qi hR (by simp) rfl (by simp only [quatErr]; linarith) (fun h => nomatch h)
  have d := F.C85_rv_defined P m (by simp only [quatErr, convOff]; linarith) (by simp only [quatErr, convOff]; linarith)
  have ep : F.mult P .quat .quat (F.conv P .quat k r) (F.inverted .quat (F.conv P .quat k r)) = (⟨F.quatNormSq (F.conv P .quat k r), 0, 0, 0⟩ : Quat) :=
    quatMul_conj I _
  rw [ep] at d
  rcases d with d | d
  · exact d
  · exact absurd rfl d

/-- The same for a matrix. -/
lemma self_small_mat (I : Ieee p F) (P : Prec) {m : M3} {η δ : ℝ} {R : M3} (h : Rounded η δ .mat m R) (hm : m ≠ 0)
    (hR : IsSO3 R) (he : 5 * η + 35 * F.u ≤ 1 / 1000000) (hdp : 60 * η + 216 * F.u ≤ P.dp) :
    ∃ w, F.ofMatrix (F.matMul m m.transpose) = ⟨w, 0, 0, 0⟩ ∧ F.rvSmall P ⟨w, 0, 0, 0⟩ := by
  have hu := F.u_nonneg
  have hs : F.u ≤ 1 / 10000000 := F.u_le.trans (by norm_num)
  have h0 := h.1
  obtain ⟨w, hw⟩ := ofMatrix_symm I m hm
  refine ⟨w, hw, ?_⟩
  have hi := F.C85_inverted P h (by simp only [quatErr]; linarith)
  have mm := F.C85_mult_matrix P h hi hR (by linarith) (by linarith)
  have d := F.C85_rv_defined P mm (by simp only [quatErr]; linarith) (by simp only [quatErr]; linarith)
  change F.rvSmall P (F.ofMatrix (F.matMul m m.transpose)) ∨ (F.ofMatrix (F.matMul m m.transpose)).vec ≠ 0 at d
  rw [hw] at d
  rcases d with d | d
  · exact d
  · exact absurd rfl d

end FloatLib

namespace FloatWide
variable {p : ℕ} {F : FloatWide}
open FloatLib

/-- `wrapPosNegPI(0)` for a scalar type that is its own wide type. -/
lemma wrapWide_zero (I : Ieee p F.toFloatLib) (hp : 2 ≤ p) (hw : F.wide = F.fl) (hm : F.mid = F.fl) : F.wrapWide 0 = 0 := by
  have hc : IsFloat p (F.fl Real.pi) := I.round.range _
  have hpos : 0 < F.fl Real.pi := fl_pos Real.pi_pos
  have h2 : IsFloat p (2 * F.fl Real.pi) := by
    obtain ⟨n, e, h, h'⟩ := hc
    exact ⟨n, e + 1, h, by rw [h', zpow_add₀ (by norm_num)]; ring⟩
  simp only [wrapWide, modulo, hw, hm, zero_add, I.round.fix _ hc, I.round.fix _ h2]
  rw [C80_modulo_fixed (p := p) (pM := p) (pD := p) (pS := p) ⟨I.round, I.round, I.round, I.round⟩ (by omega) le_rfl le_rfl hc h2 hpos.le (by linarith)]
  rw [sub_self, fl0 I]

lemma self_identity (I : Ieee p F.toFloatLib) (P : Prec) {k : Kind} (hk : k = .quat ∨ k = .mat ∨ k = .aa ∨ k = .rv) {r : Rep k}
    {η δ : ℝ} {R : M3} (h : Rounded η δ k r R) (hR : IsSO3 R) (he : quatErr P F.u η (angleSize k r) k ≤ 1 / 1000000)
    (hdp : 12 * quatErr P F.u η (angleSize k r) k + 30 * F.u ≤ P.dp) :
    F.conv P .aa k (F.mult P k k r (F.inverted k r)) = identity .aa ∧ F.conv P .rv k (F.mult P k k r (F.inverted k r)) = identity .rv := by
  have hu := F.u_nonneg
  have e0 := F.quatErr_nonneg P h.1 r
  rcases hk with rfl | rfl | rfl | rfl
  · have s := self_small I P h hR he (by linarith)
    rw [self_quat I P .quat (by tauto) r]
    exact ⟨ofQuat_w I _, rvOfQuat_w I P _ s⟩
  · simp only [quatErr] at he hdp
    have hm : r ≠ (0 : M3) := by
      rintro rfl
      obtain ⟨h0, m, hv, hc, -⟩ := h
      obtain ⟨c0, c1, c2, -⟩ := hc
      have r0 : M3.m00 m * M3.m00 m + M3.m01 m * M3.m01 m + M3.m02 m * M3.m02 m = 1 := congrArg M3.m00 hv.1
      have hη : η ≤ 1 / 10 := by linarith
      have z : ∀ x : ℝ, |0 - x| ≤ η → x * x ≤ 1 / 100 := fun x hx => by
        have := abs_le.mp hx; nlinarith
      have := z _ c0; have := z _ c1; have := z _ c2
      linarith
    obtain ⟨w, hw, s⟩ := self_small_mat I P h hm hR he (by linarith)
    exact ⟨(congrArg F.ofQuat hw).trans (ofQuat_w I _), (congrArg (F.rvOfQuat P) hw).trans (rvOfQuat_w I P _ s)⟩
  · rw [self_quat I P .aa (by tauto) r]
    exact ⟨ofQuat_w I _, (congrArg F.rvOfAa (ofQuat_w I _)).trans (rvOfAa_zero I)⟩
  · have s := self_small I P h hR he (by linarith)
    rw [self_quat I P .rv (by tauto) r]
    exact ⟨(congrArg (F.aaOfRv P) (rvOfQuat_w I P _ s)).trans (aaOfRv_zero I P), rvOfQuat_w I P _ s⟩

/-- **C103 (h).** In `double` (any scalar type that is its own wide type) the difference of a rotation with itself is exactly zero: `r.boxMinus(r)` is the
zero vector, the disparity angle is zero, and `r.isNear(r, tol)` holds for every `tol ≥ 0`. -/
theorem C103_self (I : Ieee p F.toFloatLib) (hp : 2 ≤ p) (hw : F.wide = F.fl) (hm : F.mid = F.fl) (P : Prec) {k : Kind}
    (hk : k = .quat ∨ k = .mat ∨ k = .aa ∨ k = .rv) {r : Rep k} {η δ : ℝ} {R : M3} (h : Rounded η δ k r R) (hR : IsSO3 R)
    (he : quatErr P F.u η (angleSize k r) k ≤ 1 / 1000000) (hdp : 12 * quatErr P F.u η (angleSize k r) k + 30 * F.u ≤ P.dp) :
    F.boxMinus P k k r r = 0 ∧ F.disparityAngle P k k r r = 0 ∧ ∀ tol, 0 ≤ tol → F.isNear P k k r r tol = true := by
  obtain ⟨h1, h2⟩ := self_identity I P hk h hR he hdp
  have hd : F.disparityAngle P k k r r = 0 := by
    unfold disparityAngle
    rw [h1]
    change F.fl |F.wrapWide 0| = 0
    rw [wrapWide_zero I hp hw hm, abs_zero, fl0 I]
  refine ⟨?_, hd, fun tol ht => ?_⟩
  · unfold boxMinus logarithmicMap
    rw [h2]
    change (F.rvOfAa (F.aaGetUnique (F.aaOfRv P ⟨⟨0, 0, 0⟩⟩))).v = 0
    have w : F.wrapPosNegPI 0 = 0 := by unfold wrapPosNegPI; rw [wrapWide_zero I hp hw hm, fl0 I]
    rw [aaOfRv_zero I P]
    simp only [aaGetUnique, w, gt_iff_lt, lt_irrefl, if_false, rvOfAa_zero I]
    rfl
  · unfold isNear
    rw [hd]; exact decide_eq_true ht

/-- **C103 (i).** `boxPlus` of the zero vector and `interpolate` at `t ≤ 0` return a quaternion or matrix unchanged, bit for bit, whatever the other
rotation is. -/
theorem C103_boxPlus (I : Ieee p F.toFloatLib) (hp : 2 ≤ p) (P : Prec) {k k₂ : Kind} (hk : k = .quat ∨ k = .mat) (r : Rep k) (h : Bits p k r)
    (b : Rep k₂) (t : ℝ) (ht : t ≤ 0) : F.boxPlus P k r 0 = r ∧ F.interpolate P k k₂ r b t = r := by
  have e : F.boxPlus P k r 0 = r := by
    have i : F.exponentialMap P k 0 = identity k := C103_identity I hp P k .rv
    change F.mult P k k (F.exponentialMap P k 0) r = r
    rw [i]
    rcases hk with rfl | rfl
    · exact ((C103_neutral I hp P).1 r h).1
    · exact ((C103_neutral I hp P).2.1 r h).1
  refine ⟨e, ?_⟩
  have z : (if t > 1 then (1 : ℝ) else if t < 0 then 0 else t) = 0 := by
    rw [if_neg (by linarith)]
    split_ifs with h1
    · rfl
    · linarith
  simp only [interpolate, z, mul_zero, fl0 I]
  exact e

/-! ## `double` and `float` -/

lemma roundEven_err {p : ℕ} (hp : 0 < p) (x : ℝ) : |roundEven p x - x| ≤ 2⁻¹ ^ p * |x| := by
  have key : ∀ x : ℝ, 0 < x → |roundEven p x - x| ≤ 2⁻¹ ^ p * |x| := by
    intro x hx
    obtain ⟨e, n, h1, -, h3, h4, -, -⟩ := roundEven_pos hp hx
    have hg : (0 : ℝ) < 2 ^ (e - ((p : ℤ) - 1)) := by positivity
    have hn := roundTiesEven_near (x / 2 ^ (e - ((p : ℤ) - 1)))
    rw [← h4] at hn
    have e1 : roundEven p x - x = (n - x / 2 ^ (e - ((p : ℤ) - 1))) * 2 ^ (e - ((p : ℤ) - 1)) := by
      rw [h3]; field_simp
    have e2 : (2 : ℝ) ^ (e - ((p : ℤ) - 1)) = 2 * (2⁻¹ ^ p * 2 ^ e) := by
      rw [sub_sub_eq_add_sub, zpow_sub₀ (by norm_num), zpow_add₀ (by norm_num), zpow_natCast, inv_pow]
      field_simp
    rw [e1, abs_mul, abs_of_pos hg, abs_of_pos hx]
    calc _ ≤ 1 / 2 * (2 : ℝ) ^ (e - ((p : ℤ) - 1)) := mul_le_mul_of_nonneg_right hn hg.le
      _ = 2⁻¹ ^ p * 2 ^ e := by rw [e2]; ring
      _ ≤ _ := mul_le_mul_of_nonneg_left h1 (by positivity)
  rcases lt_trichotomy x 0 with h | h | h
  · have := key (-x) (by linarith)
    rw [roundEven_neg, abs_neg, neg_sub_neg, abs_sub_comm] at this
    exact this
  · rw [h, roundEven_zero]; simp
  · exact key x h

/-- IEEE arithmetic with `p ≥ 24` bits, round to nearest, ties to even. -/
def ieeeArith (p : ℕ) (hp : 24 ≤ p) : FloatArith where
  fl := roundEven p
  u := 2⁻¹ ^ p
  u_nonneg := by positivity
  u_le := pow_le_pow_of_le_one (by norm_num) (by norm_num) hp
  err := roundEven_err (by omega)

/-- `double` with a correctly rounded library. -/
def ieeeDouble : FloatWide := uniform (FloatLib.correctlyRounded (ieeeArith 53 (by norm_num)))

/-- `float` with a correctly rounded library; `floorD`: the unqualified `floor` is the C function on `double`. -/
def ieeeFloat (floorD : Bool) : FloatWide where
  toFloatLib := FloatLib.correctlyRounded (ieeeArith 24 (by norm_num))
  wide := roundEven 53
  mid := if floorD then roundEven 53 else roundEven 24
  wide_err := fun x => (roundEven_err (by norm_num) x).trans (mul_le_mul_of_nonneg_right (by
    change (2⁻¹ : ℝ) ^ 53 ≤ 2⁻¹ ^ 24
    norm_num) (abs_nonneg _))
  mid_err := fun x => by
    split_ifs
    · exact (roundEven_err (by norm_num) x).trans (mul_le_mul_of_nonneg_right (by
        change (2⁻¹ : ℝ) ^ 53 ≤ 2⁻¹ ^ 24
        norm_num) (abs_nonneg _))
    · exact roundEven_err (by norm_num) x

lemma ieee_correctlyRounded (p : ℕ) (hp : 24 ≤ p) : Ieee p (FloatLib.correctlyRounded (ieeeArith p hp)) where
  round := roundEven_spec (by omega)
  odd := roundEven_neg p
  sin_float := fun _ => (roundEven_spec (by omega)).range _
  cos_float := fun _ => (roundEven_spec (by omega)).range _
  atan2_float := fun _ _ => (roundEven_spec (by omega)).range _
  sin_zero := by
    change roundEven p (Real.sin 0) = 0
    rw [Real.sin_zero, roundEven_zero]
  cos_zero := by
    change roundEven p (Real.cos 0) = 1
    rw [Real.cos_zero]; exact (roundEven_spec (by omega)).fix _ (FloatLib.isFloat_one (by omega))
  atan2_axis := fun x hx => by
    change roundEven p (Kindr.atan2 0 x) = 0
    have : Kindr.atan2 0 x = 0 := Complex.arg_ofReal_of_nonneg hx.le
    rw [this, roundEven_zero]

/-- **C103 (j).** The arithmetics of `double` and `float` meet the assumptions. -/
theorem C103_ieee : Ieee 53 ieeeDouble.toFloatLib ∧ ∀ b, Ieee 24 (ieeeFloat b).toFloatLib :=
  ⟨ieee_correctlyRounded 53 _, fun _ => ieee_correctlyRounded 24 _⟩

/-- **C103 (k).** `double`: for every valid quaternion, matrix, angle-axis pair or rotation vector with an angle up to 7 rad. -/
theorem C103_double {k : Kind} (hk : k = .quat ∨ k = .mat ∨ k = .aa ∨ k = .rv) {r : Rep k} (h : Valid k r) (hS : angleSize k r ≤ 7) :
    ieeeDouble.boxMinus Prec.double k k r r = 0 ∧ ieeeDouble.disparityAngle Prec.double k k r r = 0 ∧
    ∀ tol, 0 ≤ tol → ieeeDouble.isNear Prec.double k k r r tol = true := by
  have hu : ieeeDouble.u = 2⁻¹ ^ 53 := rfl
  have hd : Prec.double.dp = 1 / 1000000000000 := rfl
  have hE : quatErr Prec.double ieeeDouble.u 0 (angleSize k r) k ≤ 1 / 10 ^ 14 := by
    have heps : Prec.double.eps = 2⁻¹ ^ 52 := rfl
    rcases hk with rfl | rfl | rfl | rfl <;> simp only [quatErr, hu, heps] <;> norm_num <;> linarith
  exact C103_self (p := 53) C103_ieee.1 (by norm_num) rfl rfl _ hk (rounded_of_valid h) (den_isSO3 h) (hE.trans (by norm_num))
    (by obtain ⟨e, he⟩ : ∃ e, e = quatErr Prec.double ieeeDouble.u 0 (angleSize k r) k := ⟨_, rfl⟩
        rw [← he] at hE ⊢; rw [hd, hu]; norm_num at hE ⊢; linarith)

/-- `double(π)` -/
lemma roundEven53_pi : roundEven 53 Real.pi = mPi := by
  have h1 := Real.pi_gt_d20
  have h2 := Real.pi_lt_d20
  rw [roundEven_eq (e := 1) (by norm_num; linarith [Real.pi_gt_three]) (by norm_num; linarith [Real.pi_lt_four])]
  have : roundTiesEven (Real.pi / 2 ^ ((1 : ℤ) - (((53 : ℕ) : ℤ) - 1))) = 7074237752028440 := by
    apply roundTiesEven_of_near
    norm_num [abs_lt] at h1 h2 ⊢; constructor <;> linarith
  rw [this]; unfold mPi; norm_num

lemma isFloat_piF : IsFloat 24 (13176795 / 4194304) := ⟨13176795, -22, by norm_num, by norm_num⟩
lemma isFloat_two_piF : IsFloat 24 (13176795 / 2097152) := ⟨13176795, -21, by norm_num, by norm_num⟩

/-- `float(M_PI) - M_PI` -/
def piGap : ℝ := 13176795 / 4194304 - mPi

lemma piGap_eq : piGap = 24607325 * 2⁻¹ ^ 48 := by unfold piGap mPi; norm_num

lemma isFloat_piGap : IsFloat 53 piGap := ⟨24607325, -48, by norm_num, by rw [piGap_eq]; norm_num⟩

/-- `wrapPosNegPI<float>(0)` before the conversion to `float`: the rounding error of `float(M_PI)`. -/
lemma wrapWide_zero_float (b : Bool) : (ieeeFloat b).wrapWide 0 = piGap := by
  have hc : roundEven 24 (0 + roundEven 24 (roundEven 53 Real.pi)) = 13176795 / 4194304 := by
    rw [roundEven53_pi, roundEven24_mPi, zero_add]; exact (roundEven_spec (by norm_num)).fix _ isFloat_piF
  have h2 : roundEven 24 (2 * roundEven 53 Real.pi) = 13176795 / 2097152 := by rw [roundEven53_pi, roundEven24_two_mPi]
  have R24 : BinaryRounding 24 (roundEven 24) := roundEven_spec (by norm_num)
  have R53 : BinaryRounding 53 (roundEven 53) := roundEven_spec (by norm_num)
  change roundEven 53 (fpModuloTyped ⟨roundEven 24, (ieeeFloat b).mid, roundEven 53, roundEven 53⟩ (roundEven 24 (0 + roundEven 24 (roundEven 53 Real.pi)))
    (roundEven 24 (2 * roundEven 53 Real.pi)) - roundEven 53 Real.pi) = piGap
  rw [hc, h2, roundEven53_pi]
  have e : fpModuloTyped ⟨roundEven 24, (ieeeFloat b).mid, roundEven 53, roundEven 53⟩ (13176795 / 4194304) (13176795 / 2097152) = 13176795 / 4194304 := by
    cases b
    · exact C80_modulo_fixed (p := 24) (pM := 24) (pD := 53) (pS := 53) ⟨R24, R24, R53, R53⟩ (by norm_num) le_rfl (by norm_num) isFloat_piF isFloat_two_piF
        (by norm_num) (by norm_num)
    · exact C80_modulo_fixed (p := 24) (pM := 53) (pD := 53) (pS := 53) ⟨R24, R53, R53, R53⟩ (by norm_num) (by norm_num) (by norm_num) isFloat_piF
        isFloat_two_piF (by norm_num) (by norm_num)
  rw [e]
  exact R53.fix _ isFloat_piGap

/-- **C103 (l), finding.** In `float` a rotation is not at distance zero from itself.  `wrapPosNegPI<float>` adds `float(M_PI)` and subtracts the `double`
`M_PI`, so the difference of the two constants remains: `q.boxMinus(q)` is `(d, 0, 0)` and `q.getDisparityAngle(q)` is `d` with `8.7e-8 < d < 8.8e-8`
for *every* unit quaternion, `q.isNear(q, tol)` is false for every `tol ≤ 8.7e-8`, and the same for every angle-axis pair. -/
theorem C103_float (b : Bool) : ∃ d : ℝ, 87 / 10 ^ 9 < d ∧ d < 88 / 10 ^ 9 ∧
    (∀ (q : Rep .quat) (η δ : ℝ) (R : M3), Rounded η δ .quat q R → IsSO3 R → η ≤ 6 / 10 ^ 7 →
      (ieeeFloat b).boxMinus Prec.float .quat .quat q q = ⟨d, 0, 0⟩) ∧
    (∀ a : Rep .aa, (ieeeFloat b).boxMinus Prec.float .aa .aa a a = ⟨d, 0, 0⟩) ∧
    (∀ k (r : Rep k), k = .quat ∨ k = .aa → (ieeeFloat b).disparityAngle Prec.float k k r r = d ∧
      ∀ tol, tol ≤ 87 / 10 ^ 9 → (ieeeFloat b).isNear Prec.float k k r r tol = false) := by
  have I : Ieee 24 (ieeeFloat b).toFloatLib := C103_ieee.2 b
  have R24 : BinaryRounding 24 (roundEven 24) := roundEven_spec (by norm_num)
  have hu : (ieeeFloat b).u = 2⁻¹ ^ 24 := rfl
  obtain ⟨d, hd⟩ : ∃ d, d = roundEven 24 piGap := ⟨_, rfl⟩
  have hg : piGap = 24607325 * 2⁻¹ ^ 48 := piGap_eq
  have he := abs_le.mp (roundEven_err (p := 24) (by norm_num) piGap)
  have hg0 : 0 < piGap := by rw [hg]; positivity
  rw [← hd, abs_of_pos hg0] at he
  have d1 : 87 / 10 ^ 9 < d := by norm_num at hg he ⊢; linarith
  have d2 : d < 88 / 10 ^ 9 := by norm_num at hg he ⊢; linarith
  have d0 : 0 < d := by linarith [show (0 : ℝ) < 87 / 10 ^ 9 by norm_num]
  have hw : (ieeeFloat b).wrapPosNegPI 0 = d := by
    unfold wrapPosNegPI
    rw [wrapWide_zero_float, hd]; rfl
  have hdf : IsFloat 24 d := by rw [hd]; exact R24.range _
  have log0 : ∀ {k : Kind} (r : Rep k), (ieeeFloat b).conv Prec.float .rv k r = identity .rv → (ieeeFloat b).logarithmicMap Prec.float k r = ⟨d, 0, 0⟩ := by
    intro k r h
    unfold logarithmicMap
    rw [h]
    change ((ieeeFloat b).rvOfAa ((ieeeFloat b).aaGetUnique ((ieeeFloat b).aaOfRv Prec.float ⟨⟨0, 0, 0⟩⟩))).v = _
    rw [aaOfRv_zero I]
    simp only [aaGetUnique, hw, gt_iff_lt, d0, if_true, FloatLib.rvOfAa, mul_one, mul_zero, fl0 I]
    rw [I.round.fix d hdf]
  have dis : ∀ k (r : Rep k), k = .quat ∨ k = .aa → (ieeeFloat b).disparityAngle Prec.float k k r r = d := by
    intro k r hk
    have e : (ieeeFloat b).conv Prec.float .aa k ((ieeeFloat b).mult Prec.float k k r ((ieeeFloat b).inverted k r)) = identity .aa := by
      rw [self_quat I _ k (by tauto) r]
      rcases hk with rfl | rfl
      · exact ofQuat_w I _
      · exact ofQuat_w I _
    unfold disparityAngle
    rw [e]
    change (ieeeFloat b).fl |(ieeeFloat b).wrapWide 0| = d
    rw [wrapWide_zero_float, abs_of_pos hg0, hd]; rfl
  refine ⟨d, d1, d2, ?_, ?_, ?_⟩
  · intro q η δ R h hR hη
    unfold boxMinus
    refine log0 _ (self_identity I Prec.float (by tauto) h hR (by simp only [quatErr]; norm_num at hη ⊢; linarith) ?_).2
    have hdp : Prec.float.dp = 1 / 100000 := rfl
    simp only [quatErr, hdp, hu]; norm_num at hη ⊢; linarith
  · intro a
    unfold boxMinus
    refine log0 _ ?_
    rw [self_quat I _ .aa (by tauto) a]
    exact (congrArg (ieeeFloat b).rvOfAa (ofQuat_w I _)).trans (rvOfAa_zero I)
  · intro k r hk
    refine ⟨dis k r hk, fun tol ht => ?_⟩
    unfold isNear
    rw [dis k r hk]
    exact decide_eq_false (by linarith)

/-- The quaternion `(1/2, 1/2, 1/2, 1/2)` (a third of a turn about the space diagonal) meets all hypotheses, in both precisions. -/
theorem C103_example :
    let q : Rep .quat := (⟨1 / 2, 1 / 2, 1 / 2, 1 / 2⟩ : Quat)
    Bits 24 .quat q ∧ Bits 53 .quat q ∧ Valid .quat q ∧ angleSize .quat q ≤ 7 ∧ Rounded 0 0 .quat q (den .quat q) ∧
    ieeeDouble.mult Prec.double .quat .quat (identity .quat) q = q ∧ ieeeDouble.boxMinus Prec.double .quat .quat q q = 0 ∧
    (ieeeFloat true).boxMinus Prec.float .quat .quat q q ≠ 0 := by
  intro q
  have h24 : IsFloat 24 (1 / 2) := isFloat_half (by norm_num)
  have h53 : IsFloat 53 (1 / 2) := isFloat_half (by norm_num)
  have hv : Valid .quat q := by simp only [q, Valid]; norm_num
  have b53 : Bits 53 .quat q := ⟨h53, h53, h53, h53⟩
  refine ⟨⟨h24, h24, h24, h24⟩, b53, hv, by simp [angleSize], rounded_of_valid hv, ?_, ?_, ?_⟩
  · exact ((C103_neutral C103_ieee.1 (by norm_num) _).1 q b53).1
  · exact (C103_double (Or.inl rfl) hv (by simp [angleSize])).1
  · obtain ⟨d, h1, -, h3, -⟩ := C103_float true
    rw [h3 q 0 0 _ (rounded_of_valid hv) (den_isSO3 hv) (by norm_num)]
    intro h
    have := congrArg V3.x h
    change d = 0 at this
    rw [this] at h1; norm_num at h1

end FloatWide
end Kindr
