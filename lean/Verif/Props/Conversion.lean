import Verif.Lemmas.Group

/-!
# C07, C09: conversions between the six parameterizations
-/

set_option autoImplicit false

open Classical

noncomputable section
namespace Kindr
open Spec

/-- **C07.** For every ordered pair of parameterizations and every valid source value, the converted value represents the
same rotation: it acts identically on every vector.  The only inputs excluded are those on which the code switches to
a small-angle approximation (`ExactBranch`; see C08 for those). -/
theorem C07_conversion (P : Prec) (d s : Kind) (r : Rep s) (hv : Valid s r) (hx : ExactBranch P d s r) (v : V3) :
    act d (conv P d s r) v = act s r v := by
  rw [act_eq, act_eq, den_eq, den_eq, (conv_spec P d s r hv hx).2]

/-- **C07, unconditional part.** If neither side is a rotation vector there is no side condition at all: gimbal lock, half
turns, angles beyond 2π are all covered. -/
theorem C07_conversion_unconditional (P : Prec) (d s : Kind) (hd : d ≠ .rv) (hs : s ≠ .rv) (r : Rep s)
    (hv : Valid s r) (v : V3) : act d (conv P d s r) v = act s r v :=
  C07_conversion P d s r hv (exact_to_nonrv hd (fun h => absurd h hs)) v

/-- **C07, roundtrips.** Converting there and back, or along any chain, gives back a representation of the same rotation. -/
theorem C07_chain (P : Prec) (s : Kind) (r : Rep s) (hv : Valid s r) (hc : Clear P (den s r))
    (d e : Kind) : SameRot (conv P e d (conv P d s r)) r ∧ Valid e (conv P e d (conv P d s r)) := by
  rw [den_eq] at hc
  obtain ⟨v1, d1⟩ := conv_clear P d s r hv hc
  obtain ⟨v2, d2⟩ := conv_clear P e d _ v1 (by rw [d1]; exact hc)
  exact ⟨(sameRot_iff _ _).mpr (by rw [den_eq, den_eq, d2, d1]), v2⟩

/-- Conversion along a list of classes. -/
def convAlong (P : Prec) : (l : List Kind) → (s : Kind) → Rep s → Σ k, Rep k
  | [], s, r => ⟨s, r⟩
  | d :: l, s, r => convAlong P l d (conv P d s r)

/-- **C07, chains of arbitrary length.** -/
theorem C07_chain_list (P : Prec) (l : List Kind) (s : Kind) (r : Rep s) (hv : Valid s r) (hc : Clear P (den s r)) :
    Valid (convAlong P l s r).1 (convAlong P l s r).2 ∧ SameRot (convAlong P l s r).2 r := by
  induction l generalizing s with
  | nil => exact ⟨hv, fun _ => rfl⟩
  | cons d l ih =>
    have hc' := hc
    rw [den_eq] at hc'
    obtain ⟨v1, d1⟩ := conv_clear P d s r hv hc'
    obtain ⟨h1, h2⟩ := ih d (conv P d s r) v1 (by rw [den_eq, d1]; exact hc')
    refine ⟨h1, fun v => (h2 v).trans ?_⟩
    rw [act_eq, act_eq, den_eq, den_eq, d1]

/-- non-vacuity of C07: a half turn as a matrix (trace -1: Shoemake's second branch) satisfies the hypotheses for every
target, and a rotation vector of length 3 (angle beyond the thresholds). -/
example : Valid .mat (⟨1, 0, 0, 0, -1, 0, 0, 0, -1⟩ : M3) ∧
    ∀ d, ExactBranch Prec.double d .mat (⟨1, 0, 0, 0, -1, 0, 0, 0, -1⟩ : M3) := by
  constructor
  · constructor
    · ext <;> norm_num
    · norm_num [M3.det]
  · intro d; cases d <;> simp only [ExactBranch]
    right; norm_num [M3.trace, Prec.double]
example : ∀ d, ExactBranch Prec.double d .rv (⟨⟨1, 2, 2⟩⟩ : RotVec) := by
  have h : (⟨1, 2, 2⟩ : V3).norm = 3 := by
    rw [V3.norm, show (⟨1, 2, 2⟩ : V3).normSq = 3 ^ 2 by norm_num [V3.normSq, V3.dot], Real.sqrt_sq (by norm_num)]
  have h1 := e4_le_one Prec.double
  intro d
  cases d <;> simp only [ExactBranch, h] <;> right <;> first | linarith | norm_num [Prec.double]

/-- **C09 (a).** Every conversion of a valid value gives a valid value of the target class: unit quaternion, proper
orthogonal matrix, unit axis. -/
theorem C09_conversion_valid (P : Prec) (d s : Kind) (r : Rep s) (hv : Valid s r) (hx : ExactBranch P d s r) :
    Valid d (conv P d s r) := (conv_spec P d s r hv hx).1

/-- **C09 (b).** Angle-axis values built from quaternions, matrices or Euler angles have their angle in `[0, π]`, and the
axis is a unit vector even for the small-angle branch of the conversion from a rotation vector. -/
theorem C09_angle_axis_range (P : Prec) :
    (∀ s : Kind, s = .quat ∨ s = .mat ∨ s = .xyz ∨ s = .zyx → ∀ r : Rep s, Valid s r →
      0 ≤ AngAx.angle (conv P .aa s r) ∧ AngAx.angle (conv P .aa s r) ≤ Real.pi) ∧
    (∀ r : RotVec, Valid .aa (conv P .aa .rv r) ∧ 0 ≤ AngAx.angle (conv P .aa .rv r)) := by
  have h : ∀ q : Quat, q.normSq = 1 → 0 ≤ (AngAx.ofQuat q).angle ∧ (AngAx.ofQuat q).angle ≤ Real.pi :=
    fun q hq => ⟨(ofQuat_spec hq).2.1, (ofQuat_spec hq).2.2.1⟩
  refine ⟨?_, fun r => ⟨(valid_aa_iff _).mpr (aaOfRv_unit P r), ?_⟩⟩
  · rintro s (rfl | rfl | rfl | rfl) r hv
    · exact h r ((valid_quat_iff r).mp hv)
    · exact h _ (ofMatrix_spec hv).1
    · exact h _ (quatOfXyz_unit r)
    · exact h _ (quatOfZyx_unit r)
  · change 0 ≤ (aaOfRv P r).angle
    rcases lt_or_ge r.v.norm P.dp with h1 | h1
    · rw [aaOfRv_small h1]; exact le_refl _
    · rw [aaOfRv_eq h1]; exact r.v.norm_nonneg

lemma compareRelative_self (a : ℝ) {t : ℝ} (ht : 0 ≤ t) : compareRelative a a t = true := by
  have h0 : |a - a| / max |a| |a| = 0 := by simp
  simp only [compareRelative, h0]
  split_ifs with h1 h2
  · rfl
  · exfalso; have : 0 ≤ t * (1 / 100) := by positivity
    linarith
  · rfl

/-- The debug-build constructor check of each class. -/
def ctorDbg : (k : Kind) → Rep k → Res (Rep k)
  | .quat => quatCtorDbg
  | .mat => matCtorDbg
  | .aa => aaCtorDbg
  | .rv => .ok
  | .xyz => .ok
  | .zyx => .ok

lemma ctorDbg_valid (k : Kind) (r : Rep k) (h : Valid k r) : ctorDbg k r = .ok r := by
  have t1 : (0 : ℝ) ≤ 1 / 100 := by norm_num
  have t2 : (0 : ℝ) ≤ 1 / 10000 := by norm_num
  cases k
  · have : Quat.norm r = 1 := by rw [Quat.norm, (valid_quat_iff r).mp h, Real.sqrt_one]
    simp only [ctorDbg, quatCtorDbg, assertScalarNearDbg, this, compareRelative_self _ t1, if_true]
  · have h1 : r * M3.transpose r = 1 := h.1
    have h2 : M3.det r = 1 := h.2
    simp only [ctorDbg, matCtorDbg, matNear, assertScalarNearDbg, h1, h2, compareRelative_self _ t2, if_true,
      Bool.and_self]
  · have : (AngAx.axis r).norm = 1 := V3.norm_eq_one_iff.mpr ((valid_aa_iff r).mp h)
    simp only [ctorDbg, aaCtorDbg, assertScalarNearDbg, this, compareRelative_self _ t2, if_true]
  all_goals rfl

/-- **C09 (c).** In a debug build the constructor assertions never fire on the result of a conversion. -/
theorem C09_conversion_never_throws (P : Prec) (d s : Kind) (r : Rep s) (hv : Valid s r) (hx : ExactBranch P d s r) :
    ctorDbg d (conv P d s r) = .ok (conv P d s r) :=
  ctorDbg_valid d _ (C09_conversion_valid P d s r hv hx)

end Kindr
