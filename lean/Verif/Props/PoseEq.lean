import Verif.Props.Pose
import Verif.Props.MixedEq

/-!
# C69: comparison of poses, for every rotation class and every pair of classes
-/

set_option autoImplicit false

open Classical

noncomputable section
namespace Kindr
open Spec

/-- Two poses move every point to the same place iff their positions agree and their rotations are the same. -/
lemma move_eq_iff {k₁ k₂ : Kind} (X : Pose k₁) (Y : Pose k₂) :
    (∀ p, move k₁ X p = move k₂ Y p) ↔ X.position = Y.position ∧ SameRot X.rotation Y.rotation := by
  have hz : ∀ (k : Kind) (r : Rep k), act k r ⟨0, 0, 0⟩ = ⟨0, 0, 0⟩ := by
    intro k r; rw [act_eq]; ext <;> simp [M3.mulVec]
  have z2 : ∀ a : V3, (⟨0, 0, 0⟩ : V3) + a = a := by intro a; ext <;> simp
  constructor
  · intro h
    have h0 : X.position = Y.position := by
      have := h ⟨0, 0, 0⟩
      simpa only [move, hz, z2] using this
    refine ⟨h0, fun v => ?_⟩
    have h1 := h v
    simp only [move, h0] at h1
    have hx := congrArg V3.x h1
    have hy := congrArg V3.y h1
    have hzz := congrArg V3.z h1
    simp only [V3.add_x, V3.add_y, V3.add_z, add_left_inj] at hx hy hzz
    exact V3.ext hx hy hzz
  · rintro ⟨h0, h1⟩ p
    simp only [move, h0, h1 p]

/-- Same class: `==` decides equality of rotations for every class except `AngleAxis`. -/
lemma eqSame_sameRot (P : Prec) : ∀ (k : Kind) (_ : k ≠ .aa) (a b : Rep k), Valid k a → Valid k b → EulerRegular k a →
    EulerRegular k b → RvClear P k (den k a) → RvClear P k (den k b) → (eqSame P k a b = true ↔ SameRot a b)
  | .quat, _, a, b, ha, hb, _, _, _, _ => (C14_quaternion_unique P a b ha hb).2.2.2.2.1.symm
  | .mat, _, a, b, _, _, _, _, _, _ => by
      rw [sameRot_iff, den_eq, den_eq]
      exact decide_eq_true_iff (p := a = b)
  | .aa, h, _, _, _, _, _, _, _, _ => absurd rfl h
  | .rv, _, a, b, _, _, _, _, ca, cb => by
      have ca' : Clear P (dmat .rv a) := by rw [← den_eq]; exact ca rfl
      have cb' : Clear P (dmat .rv b) := by rw [← den_eq]; exact cb rfl
      rw [(C16_rotation_vector_unique P a b ((clear_rv ca').imp id And.right)
        ((clear_rv cb').imp id And.right)).2.2.2]
      change decide ((rvGetUnique P a).v = (rvGetUnique P b).v) = true ↔ rvGetUnique P a = rvGetUnique P b
      rw [decide_eq_true_iff]
      exact ⟨fun h => by
        rcases hx : rvGetUnique P a with ⟨x⟩
        rcases hy : rvGetUnique P b with ⟨y⟩
        rw [hx, hy] at h
        exact congrArg RotVec.mk h, fun h => by rw [h]⟩
  | .xyz, _, a, b, _, _, ea, eb, _, _ => (C17_unique_partial P a b ea eb).2.2.2.2.2.2.symm
  | .zyx, _, a, b, _, _, ea, eb, _, _ => (C18_unique_partial P a b ea eb).2.2.2.2.2.2.symm

/-- **C69, same class.** Two poses whose rotations are stored in the same class, any class except `AngleAxis`, compare equal with
`==` iff they move every point of space to the same place (Euler angles outside their gimbal bands, rotation vectors not tiny). -/
theorem C69_pose_equality (P : Prec) (k : Kind) (hk : k ≠ .aa) (A B : Pose k) (ha : ValidPose k A) (hb : ValidPose k B)
    (ea : EulerRegular k A.rotation) (eb : EulerRegular k B.rotation)
    (ca : RvClear P k (den k A.rotation)) (cb : RvClear P k (den k B.rotation)) :
    A.eqSame P k B = true ↔ ∀ p, move k A p = move k B p := by
  rw [move_eq_iff, Pose.eqSame, Bool.and_eq_true, decide_eq_true_iff, eqSame_sameRot P k hk _ _ ha hb ea eb ca cb]

/-- **C69, different classes, left rotation matrix.** `==` decides equality of the motions. -/
theorem C69_pose_mixed_matrix (P : Prec) (k : Kind) (A : Pose .mat) (B : Pose k) (ha : ValidPose .mat A)
    (hb : ValidPose k B) (eb : EulerRegular k B.rotation) (cb : RvClear P k (den k B.rotation)) :
    A.eqMixed P .mat k B = true ↔ ∀ p, move .mat A p = move k B p := by
  rw [move_eq_iff, Pose.eqMixed, Bool.and_eq_true, decide_eq_true_iff, C46_matrix_left P k _ _ ha hb eb cb]

/-- **C69, different classes, soundness.** For every pair of rotation classes, poses that compare equal move every point to the
same place. -/
theorem C69_pose_mixed_sound (P : Prec) (k₁ k₂ : Kind) (A : Pose k₁) (B : Pose k₂) (ha : ValidPose k₁ A)
    (hb : ValidPose k₂ B) (ea : EulerRegular k₁ A.rotation) (eb : EulerRegular k₂ B.rotation)
    (ca : RvClear P k₁ (den k₁ A.rotation)) (cb : RvClear P k₂ (den k₂ B.rotation))
    (cb' : RvClear P k₁ (den k₂ B.rotation)) (h : A.eqMixed P k₁ k₂ B = true) (p : V3) :
    move k₁ A p = move k₂ B p := by
  rw [Pose.eqMixed, Bool.and_eq_true, decide_eq_true_iff] at h
  exact (move_eq_iff A B).mpr ⟨h.1, C46_sound_partial P k₁ k₂ _ _ ha hb ea eb ca cb cb' h.2⟩ p

/-- **C69, different classes, not complete and not symmetric.** For every position there are two poses that move every point to
the same place, such that the comparison with the matrix pose on the left succeeds and the one with the quaternion pose on
the left fails. -/
theorem C69_pose_mixed_counterexample (P : Prec) (t : V3) :
    ∃ (A : Pose .mat) (B : Pose .quat), A.position = t ∧ ValidPose .mat A ∧ ValidPose .quat B ∧
      (∀ p, move .mat A p = move .quat B p) ∧ A.eqMixed P .mat .quat B = true ∧ B.eqMixed P .quat .mat A = false := by
  obtain ⟨hm, h1, -, q, hq, hs, he⟩ := C46_not_symmetric_counterexample P
  refine ⟨⟨t, badMatrix⟩, ⟨t, q⟩, rfl, hm, hq, ?_, ?_, ?_⟩
  · rw [move_eq_iff]
    exact ⟨rfl, fun v => (hs v).symm⟩
  · rw [Pose.eqMixed, Bool.and_eq_true, decide_eq_true_iff]
    exact ⟨rfl, he⟩
  · have := h1 q hq
    rw [Pose.eqMixed]
    exact (congrArg _ this).trans (Bool.and_false _)

/-- Non-vacuity: a pair of different Euler triples describing the same pose. -/
example (P : Prec) (t : V3) (a b : EulXyz) (ha : a = EulXyz.mk3 1 0 0) (hb : b = EulXyz.mk3 (1 + 2 * Real.pi) 0 0) :
    (⟨t, a⟩ : Pose .xyz).eqSame P .xyz ⟨t, b⟩ = true := by
  have hr : ∀ x : ℝ, OutsideGimbalBand (EulXyz.mk3 x 0 0).y := by
    intro x
    have : EulXyz.y (EulXyz.mk3 x 0 0) = 0 := rfl
    rw [OutsideGimbalBand, this, Real.cos_zero, abs_one]
    have := Real.sin_lt (x := 1 / 1000) (by norm_num)
    linarith
  have ea : EulerRegular .xyz a := by rw [ha]; exact hr _
  have eb : EulerRegular .xyz b := by rw [hb]; exact hr _
  have hs : SameRot (k₁ := .xyz) (k₂ := .xyz) a b := by
    rw [sameRot_iff, den_eq, den_eq, ha, hb]
    simp [dmat, EulXyz.mk3, EulXyz.x, EulXyz.y, EulXyz.z, rX]
  exact (C69_pose_equality P .xyz (by simp) ⟨t, a⟩ ⟨t, b⟩ trivial trivial ea eb (fun h => by cases h)
    (fun h => by cases h)).mpr ((move_eq_iff _ _).mpr ⟨rfl, hs⟩)

end Kindr
