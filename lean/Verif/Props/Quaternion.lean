import Mathlib.Analysis.Quaternion
import Verif.Lemmas.Group

/-!
# C05, C06: quaternion algebra

Specification: Mathlib's quaternions `ℍ[ℝ]`, through the coefficient map `Spec.toH`.
-/

set_option autoImplicit false

open Classical

noncomputable section
namespace Kindr
open Spec

lemma toH_injective {a b : Quat} (h : toH a = toH b) : a = b := by
  have h1 := congrArg (fun q : _root_.Quaternion ℝ => q.re) h
  have h2 := congrArg (fun q : _root_.Quaternion ℝ => q.imI) h
  have h3 := congrArg (fun q : _root_.Quaternion ℝ => q.imJ) h
  have h4 := congrArg (fun q : _root_.Quaternion ℝ => q.imK) h
  ext <;> assumption

lemma toH_mul (a b : Quat) : toH (a * b) = toH a * toH b := by
  ext <;> simp <;> ring
lemma toH_one : toH 1 = 1 := rfl
lemma toH_zero : toH ⟨0, 0, 0, 0⟩ = 0 := rfl
lemma toH_conj (a : Quat) : toH a.conj = star (toH a) := by ext <;> simp
lemma toH_neg (a : Quat) : toH (-a) = -toH a := by ext <;> simp
lemma normSq_toH (a : Quat) : _root_.Quaternion.normSq (toH a) = a.normSq := by
  rw [_root_.Quaternion.normSq_def']; simp [Quat.normSq]; ring
lemma norm_toH (a : Quat) : ‖toH a‖ = a.norm := by
  rw [Quat.norm, ← normSq_toH, _root_.Quaternion.normSq_eq_norm_mul_self, Real.sqrt_mul_self (norm_nonneg _)]

lemma toH_inverse (a : Quat) : toH a.inverse = (toH a)⁻¹ := by
  rw [_root_.Quaternion.inv_def, normSq_toH]
  by_cases h : 0 < a.normSq
  · simp only [Quat.inverse, h, if_true]
    ext <;> simp <;> field_simp
  · have h0 : a.normSq = 0 := le_antisymm (not_lt.mp h) a.normSq_nonneg
    simp [Quat.inverse, h0, toH_zero]

/-- **C05 (a).** kindr's `Quaternion` operations are those of Mathlib's quaternion algebra (which is an associative
division algebra with an anti-multiplicative conjugation and a multiplicative norm). -/
theorem C05_quaternion_algebra (a b : Quat) :
    toH (Quaternion.mul a b) = toH a * toH b ∧
    toH (Quaternion.conjugated a) = star (toH a) ∧
    toH (Quaternion.inverted a) = (toH a)⁻¹ ∧
    Quaternion.norm a = ‖toH a‖ ∧
    (Quaternion.isEqual a b = true ↔ toH a = toH b) ∧
    toH (Quaternion.setZero a) = 0 ∧ toH Quaternion.default = 0 := by
  refine ⟨toH_mul a b, toH_conj a, toH_inverse a, (norm_toH a).symm, ?_, toH_zero, toH_zero⟩
  simp only [Quaternion.isEqual, decide_eq_true_eq]
  constructor
  · rintro ⟨h1, h2, h3, h4⟩; congr 1; ext <;> assumption
  · intro h; obtain rfl := toH_injective h; simp

/-- **C05 (b).** The same laws spelled out: associativity, neutral element, conjugation, norm, two-sided inverse. -/
theorem C05_laws (a b c : Quat) :
    Quaternion.mul (Quaternion.mul a b) c = Quaternion.mul a (Quaternion.mul b c) ∧
    Quaternion.mul a ⟨1, 0, 0, 0⟩ = a ∧ Quaternion.mul ⟨1, 0, 0, 0⟩ a = a ∧
    Quaternion.conjugated (Quaternion.mul a b) = Quaternion.mul (Quaternion.conjugated b) (Quaternion.conjugated a) ∧
    Quaternion.norm (Quaternion.mul a b) = Quaternion.norm a * Quaternion.norm b ∧
    (a ≠ ⟨0, 0, 0, 0⟩ → Quaternion.mul a (Quaternion.inverted a) = ⟨1, 0, 0, 0⟩ ∧
      Quaternion.mul (Quaternion.inverted a) a = ⟨1, 0, 0, 0⟩) ∧
    Quaternion.inverted ⟨0, 0, 0, 0⟩ = ⟨0, 0, 0, 0⟩ := by
  refine ⟨mul_assoc a b c, mul_one a, one_mul a, Quat.conj_mul a b, ?_, fun h => ?_, ?_⟩
  · change (a * b).norm = a.norm * b.norm
    rw [← norm_toH, toH_mul, norm_mul, norm_toH, norm_toH]
  · have h0 : toH a ≠ 0 := fun e => h (toH_injective (e.trans toH_zero.symm))
    constructor
    · apply toH_injective
      change toH (a * a.inverse) = toH 1
      rw [toH_mul, toH_inverse, mul_inv_cancel₀ h0, toH_one]
    · apply toH_injective
      change toH (a.inverse * a) = toH 1
      rw [toH_mul, toH_inverse, inv_mul_cancel₀ h0, toH_one]
  · simp [Quaternion.inverted, Quat.inverse, Quat.normSq]

/-- **C05 (c).** `getQuaternionMatrix` is left multiplication, `getConjugateQuaternionMatrix` right multiplication:
`Q(a)·vec(b) = vec(a*b)` and `Q̄(b)·vec(a) = vec(a*b)`. -/
theorem C05_quaternion_matrices (a b : Quat) :
    (Quaternion.getQuaternionMatrix a).mulVec (Quaternion.vector b) = Quaternion.vector (Quaternion.mul a b) ∧
    (Quaternion.getConjugateQuaternionMatrix b).mulVec (Quaternion.vector a) =
      Quaternion.vector (Quaternion.mul a b) := by
  constructor
  all_goals
    ext <;> simp [Quaternion.getQuaternionMatrix, Quaternion.getConjugateQuaternionMatrix, M4.mulVec, V4.dot,
      Quaternion.vector, Quaternion.mul] <;> ring

/-- **C05 (d).** Constructors and accessors are lossless views of the four coefficients. -/
theorem C05_constructors (re : ℝ) (im : V3) (v : V4) (a : Quat) :
    Quaternion.real (Quaternion.ofRealImag re im) = re ∧ Quaternion.imaginary (Quaternion.ofRealImag re im) = im ∧
    Quaternion.vector (Quaternion.ofVector4 v) = v ∧ Quaternion.ofVector4 (Quaternion.vector a) = a ∧
    Quaternion.ofRealImag (Quaternion.real a) (Quaternion.imaginary a) = a := ⟨rfl, rfl, rfl, rfl, rfl⟩

/-- non-vacuity: a nonzero quaternion, `i * j = k`. -/
example : (⟨0, 1, 0, 0⟩ : Quat) ≠ ⟨0, 0, 0, 0⟩ ∧
    Quaternion.mul ⟨0, 1, 0, 0⟩ ⟨0, 0, 1, 0⟩ = (⟨0, 0, 0, 1⟩ : Quat) := by
  constructor
  · intro h; have := congrArg Quat.x h; norm_num at this
  · ext <;> simp [Quaternion.mul]

/-! ## C06 -/

/-- Finite expressions built from products, inversions and conjugations. -/
inductive QExpr where
  | leaf (q : Quat)
  | mul (a b : QExpr)
  | inv (a : QExpr)
  | conj (a : QExpr)

namespace QExpr
/-- Evaluation with kindr's `UnitQuaternion` operations. -/
def eval : QExpr → Quat
  | leaf q => q
  | mul a b => UnitQuaternion.mul a.eval b.eval
  | inv a => UnitQuaternion.inverted a.eval
  | conj a => UnitQuaternion.conjugated a.eval
/-- Every leaf has norm one. -/
def UnitLeaves : QExpr → Prop
  | leaf q => ‖toH q‖ = 1
  | mul a b => a.UnitLeaves ∧ b.UnitLeaves
  | inv a => a.UnitLeaves
  | conj a => a.UnitLeaves
/-- The meaning of the expression in Mathlib's quaternions. -/
def meaning : QExpr → _root_.Quaternion ℝ
  | leaf q => toH q
  | mul a b => a.meaning * b.meaning
  | inv a => a.meaning⁻¹
  | conj a => star a.meaning
end QExpr

lemma normSq_eq_one_iff_norm (q : Quat) : q.normSq = 1 ↔ ‖toH q‖ = 1 := by
  rw [norm_toH, Quat.norm, Real.sqrt_eq_one]

lemma inv_eq_star_of_unit {h : _root_.Quaternion ℝ} (hn : ‖h‖ = 1) : h⁻¹ = star h := by
  rw [_root_.Quaternion.inv_def, _root_.Quaternion.normSq_eq_norm_mul_self, hn]; simp

/-- **C06 (a).** Any finite expression of products, inversions and conjugations of unit quaternions evaluates to a unit
quaternion, namely to the value of the same expression in Mathlib's quaternions. -/
theorem C06_unit_closed (e : QExpr) (h : e.UnitLeaves) : ‖toH e.eval‖ = 1 ∧ toH e.eval = e.meaning := by
  induction e with
  | leaf q => exact ⟨h, rfl⟩
  | mul a b iha ihb =>
    obtain ⟨h1, h2⟩ := iha h.1
    obtain ⟨h3, h4⟩ := ihb h.2
    simp only [QExpr.eval, QExpr.meaning, UnitQuaternion.mul, toH_mul, norm_mul, h1, h3, ← h2, ← h4]
    simp
  | inv a ih =>
    obtain ⟨h1, h2⟩ := ih h
    simp only [QExpr.eval, QExpr.meaning, UnitQuaternion.inverted, UnitQuaternion.conjugated, toH_conj, ← h2]
    exact ⟨by rw [norm_star, h1], (inv_eq_star_of_unit h1).symm⟩
  | conj a ih =>
    obtain ⟨h1, h2⟩ := ih h
    simp only [QExpr.eval, QExpr.meaning, UnitQuaternion.conjugated, toH_conj, ← h2]
    exact ⟨by rw [norm_star, h1], trivial⟩

/-- **C06 (b).** For a unit quaternion `inverted()` equals `conjugated()`, agrees with the general quaternion inverse and is
a two-sided inverse. -/
theorem C06_inverse (q : Quat) (h : ‖toH q‖ = 1) :
    UnitQuaternion.inverted q = UnitQuaternion.conjugated q ∧
    UnitQuaternion.inverted q = Quaternion.inverted q ∧
    UnitQuaternion.mul q (UnitQuaternion.inverted q) = UnitQuaternion.Identity ∧
    UnitQuaternion.mul (UnitQuaternion.inverted q) q = UnitQuaternion.Identity := by
  have h1 : toH (UnitQuaternion.inverted q) = (toH q)⁻¹ := by
    rw [inv_eq_star_of_unit h]; exact toH_conj q
  have h0 : toH q ≠ 0 := fun e => by rw [e] at h; simp at h
  refine ⟨rfl, toH_injective (h1.trans (toH_inverse q).symm), toH_injective ?_, toH_injective ?_⟩
  · exact (toH_mul _ _).trans (by rw [h1, mul_inv_cancel₀ h0]; exact toH_one.symm)
  · exact (toH_mul _ _).trans (by rw [h1, inv_mul_cancel₀ h0]; exact toH_one.symm)

/-- **C06 (c).** `toUnitQuaternion()` / `normalized()` of a nonzero quaternion has norm one and is a positive multiple of
it; on unit quaternions it is the identity. -/
theorem C06_normalized (q : Quat) (h : q ≠ ⟨0, 0, 0, 0⟩) :
    ‖toH (Quaternion.toUnitQuaternion q)‖ = 1 ∧
    (∃ s : ℝ, 0 < s ∧ toH q = s • toH (Quaternion.toUnitQuaternion q)) ∧
    Quaternion.normalized q = Quaternion.toUnitQuaternion q ∧
    (‖toH q‖ = 1 → Quaternion.toUnitQuaternion q = q) := by
  have h0 : toH q ≠ 0 := fun e => h (toH_injective (e.trans toH_zero.symm))
  have hpos : 0 < ‖toH q‖ := norm_pos_iff.mpr h0
  have hn : 0 < q.normSq := by
    rw [norm_toH, Quat.norm] at hpos; exact Real.sqrt_pos.mp hpos
  have key : toH q = ‖toH q‖ • toH (Quaternion.toUnitQuaternion q) := by
    rw [norm_toH] at *
    ext <;> simp [Quaternion.toUnitQuaternion, Quat.normalized, hn] <;> field_simp
  have hone : ‖toH (Quaternion.toUnitQuaternion q)‖ = 1 := by
    have := congrArg norm key
    rw [norm_smul, norm_norm] at this
    field_simp at this
    linarith
  refine ⟨hone, ⟨‖toH q‖, hpos, key⟩, rfl, fun h1 => ?_⟩
  rw [h1, one_smul] at key
  exact (toH_injective key).symm

/-- **C06 (d).** Default construction and `Identity()` of `UnitQuaternion`, and default construction, `setIdentity()` and
`Identity()` of `RotationQuaternion` (all the same model value `identity .quat`) are neutral for the product. Missing, because false:
`setIdentity()` of `UnitQuaternion`, see `C06_UnitQuaternion_setIdentity_broken`. -/
theorem C06_identity_partial (q : Quat) :
    UnitQuaternion.default = UnitQuaternion.Identity ∧ identity .quat = UnitQuaternion.Identity ∧
    UnitQuaternion.mul UnitQuaternion.Identity q = q ∧ UnitQuaternion.mul q UnitQuaternion.Identity = q ∧
    toH UnitQuaternion.Identity = 1 :=
  ⟨rfl, rfl, one_mul q, mul_one q, toH_one⟩

/-- **Finding (C06).** `UnitQuaternion::setIdentity()` (include/kindr/quaternions/Quaternion.hpp:475-481) does not produce the
identity: it produces the zero quaternion, which is not a unit quaternion and annihilates every product. -/
theorem C06_UnitQuaternion_setIdentity_broken (q p : Quat) :
    UnitQuaternion.setIdentity q ≠ UnitQuaternion.Identity ∧ ‖toH (UnitQuaternion.setIdentity q)‖ = 0 ∧
    UnitQuaternion.mul (UnitQuaternion.setIdentity q) p = ⟨0, 0, 0, 0⟩ := by
  refine ⟨fun h => ?_, ?_, ?_⟩
  · have := congrArg Quat.w h; norm_num [UnitQuaternion.setIdentity, UnitQuaternion.Identity] at this
  · have : toH (UnitQuaternion.setIdentity q) = 0 := toH_zero
    rw [this, norm_zero]
  · ext <;> simp [UnitQuaternion.mul, UnitQuaternion.setIdentity]

/-- non-vacuity of C06: a unit quaternion with irrational-free coefficients and an expression over it. -/
example : QExpr.UnitLeaves (.mul (.leaf ⟨3 / 5, 4 / 5, 0, 0⟩) (.inv (.leaf ⟨0, 0, 3 / 5, -4 / 5⟩))) := by
  constructor
  · exact (normSq_eq_one_iff_norm _).mp (by norm_num [Quat.normSq])
  · exact (normSq_eq_one_iff_norm ⟨0, 0, 3 / 5, -4 / 5⟩).mp (by norm_num [Quat.normSq])

end Kindr
