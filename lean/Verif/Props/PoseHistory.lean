import Verif.Props.Uniform
import Verif.Props.Pose
import Verif.Props.ExpLog

/-!
# C55 for every rotation class: chains of poses over rotation vectors too, and chains without side conditions

`Props/Pose.lean` proves the chain theorem for poses whose rotations are not stored as rotation vectors.  Here
* the exact theorem for all classes, under the small-angle side conditions of rotation vectors, and
* error bounds for *every* chain of valid poses, no side condition.
-/

set_option autoImplicit false

open Classical

noncomputable section
namespace Kindr
open Spec

namespace Spec

/-- The rotation history inside a history of poses. -/
def rotationSteps (l : List PoseStep) : List Step := l.map fun s => ⟨s.kind, s.val.rotation, false⟩

/-- The sum of the lengths of all translations: the reach of the kinematic chain. -/
def reach (l : List PoseStep) : ℝ := (l.map fun s => s.val.position.norm).sum

end Spec

/-- **C55.** The chain theorem for all six classes, rotation vectors included: side conditions only for poses stored with
rotation vectors (each factor, and each intermediate product if the accumulator is one, is the identity or not tiny). -/
theorem C55_pose_history_all_classes (P : Prec) (k : Kind) (acc : Pose k) (l : List PoseStep) (hacc : ValidPose k acc)
    (hl : ∀ s ∈ l, ValidPose s.kind s.val ∧ RvClear P s.kind (den s.kind s.val.rotation))
    (hp : PrefixesClear P k (den k acc.rotation) (rotationSteps l)) (p : V3) :
    ValidPose k (runPoses P k acc l) ∧ move k (runPoses P k acc l) p = move k acc (moveAll p l) ∧
    toMat4 ((runPoses P k acc l).getTransformationMatrix P k) =
      toMat4 (acc.getTransformationMatrix P k) *
        (l.map fun s => toMat4 (s.val.getTransformationMatrix P s.kind)).prod := by
  induction l generalizing acc with
  | nil => exact ⟨hacc, rfl, by simp [runPoses]⟩
  | cons s l ih =>
    obtain ⟨hs1, hs2⟩ := hl s (by simp)
    have c1 : RvClear P k (den k acc.rotation) := hp.1
    have hp2 : PrefixesClear P k (den k acc.rotation * den s.kind s.val.rotation) (rotationSteps l) := hp.2
    have c3 : RvClear P k (den k acc.rotation * den s.kind s.val.rotation) := by
      cases l with
      | nil => exact hp2
      | cons _ _ => exact hp2.1
    have hc := C42_compose P k s.kind acc s.val hacc hs1 c1 hs2 c3
    have hm := (C43_homomorphism P k s.kind acc s.val hacc hs1 c1 hs2 c3).1
    have hden : den k (acc.mult P k s.kind s.val).rotation = den k acc.rotation * den s.kind s.val.rotation :=
      (mult_spec hacc hs1 c1 hs2 c3).2
    obtain ⟨h1, h2, h3⟩ := ih (acc.mult P k s.kind s.val) (hc p).1 (fun u hu => hl u (by simp [hu])) (by rw [hden]; exact hp2)
    refine ⟨h1, h2.trans (hc _).2.2, h3.trans ?_⟩
    rw [hm, List.map_cons, List.prod_cons, mul_assoc]

lemma reach_nonneg (l : List PoseStep) : 0 ≤ reach l := by
  induction l with
  | nil => simp [reach]
  | cons s l ih =>
    have : reach (s :: l) = s.val.position.norm + reach l := by simp [reach]
    rw [this]; linarith [s.val.position.norm_nonneg]

/-- **C55, no side condition.** Every chain of `n` valid poses of any classes, accumulated in a pose whose rotation is stored as
`AngleAxis`, `RotationVector` or Euler angles, moves every point to within `(eps/400 + n·c)·(reach + |p|)` of the exact place,
`c = dp/100 + eps/12`, where the reach is the sum of the lengths of the translations. -/
theorem C55_pose_history_error (P : Prec) (k : Kind) (hk : k ≠ .quat) (hk' : k ≠ .mat) (acc : Pose k) (l : List PoseStep)
    (hacc : ValidPose k acc) (hl : ∀ s ∈ l, ValidPose s.kind s.val) (p : V3) :
    ValidPose k (runPoses P k acc l) ∧
    (move k (runPoses P k acc l) p - move k acc (moveAll p l)).norm ≤
      (P.eps / 400 + l.length * (P.dp / 100 + P.eps / 12)) * (reach l + p.norm) := by
  have he := P.eps_pos
  have hdp := P.dp_pos
  have key : ∀ (l : List PoseStep) (acc : Pose k) (R : M3) (t : V3) (δ ρ : ℝ), ValidPose k acc →
      Close δ (den k acc.rotation) R → (acc.position - t).norm ≤ ρ → (∀ s ∈ l, ValidPose s.kind s.val) →
      ValidPose k (runPoses P k acc l) ∧
      (move k (runPoses P k acc l) p - (R.mulVec (moveAll p l) + t)).norm ≤
        ρ + (P.eps / 400 + δ + l.length * (P.dp / 100 + P.eps / 12)) * reach l +
          (δ + l.length * (P.dp / 100 + P.eps / 12)) * p.norm := by
    intro l
    induction l with
    | nil =>
      intro acc R t δ ρ hv hc ht _
      refine ⟨hv, ?_⟩
      have e : move k (runPoses P k acc []) p - (R.mulVec (moveAll p []) + t) =
          (act k acc.rotation p - R.mulVec p) + (acc.position - t) := by
        simp only [runPoses, moveAll, move]; ext <;> simp <;> ring
      rw [e]
      have h1 := hc.act (k := k) (r := acc.rotation) p
      have h2 := V3.norm_add_le (act k acc.rotation p - R.mulVec p) (acc.position - t)
      simp only [reach, List.map_nil, List.sum_nil, List.length_nil, Nat.cast_zero, zero_mul, mul_zero, add_zero]
      linarith
    | cons s l ih =>
      intro acc R t δ ρ hv hc ht hl
      have hs := hl s (by simp)
      have h1 := mult_near_valid P hv hs
      have h2 : Valid k (mult P k s.kind acc.rotation s.val.rotation) ∧
          Close (P.dp / 100 + P.eps / 12) (den k (mult P k s.kind acc.rotation s.val.rotation))
            (den k acc.rotation * den s.kind s.val.rotation) := by
        revert h1
        generalize acc.rotation = a
        generalize s.val.rotation = b
        intro h1
        cases k
        · exact absurd rfl hk
        · exact absurd rfl hk'
        · rw [den_eq .aa (mult _ _ _ _ _)]; exact ⟨(valid_aa_iff _).mpr h1.1, h1.2⟩
        all_goals rw [den_eq _ (mult _ _ _ _ _)]; exact ⟨trivial, h1⟩
      have h3 : Close (P.dp / 100 + P.eps / 12 + δ) (den k (acc.mult P k s.kind s.val).rotation) (R * den s.kind s.val.rotation) :=
        h2.2.trans (hc.mul_right (den_isSO3 hs))
      have hb := s.val.position.norm_nonneg
      have h4 : ((acc.mult P k s.kind s.val).position - (R.mulVec s.val.position + t)).norm ≤
          ρ + (P.eps / 400 + δ) * s.val.position.norm := by
        have e : (acc.mult P k s.kind s.val).position - (R.mulVec s.val.position + t) =
            (rotate P k acc.rotation s.val.position - act k acc.rotation s.val.position) +
              ((act k acc.rotation s.val.position - R.mulVec s.val.position) + (acc.position - t)) := by
          have h1 : (acc.mult P k s.kind s.val).position = acc.position + rotate P k acc.rotation s.val.position := rfl
          rw [h1]; ext <;> simp <;> ring
        rw [e]
        have a1 := V3.norm_add_le (rotate P k acc.rotation s.val.position - act k acc.rotation s.val.position)
          ((act k acc.rotation s.val.position - R.mulVec s.val.position) + (acc.position - t))
        have a2 := V3.norm_add_le (act k acc.rotation s.val.position - R.mulVec s.val.position) (acc.position - t)
        have a3 := rotate_close P hv s.val.position
        have a4 := hc.act (k := k) (r := acc.rotation) s.val.position
        linarith
      obtain ⟨v1, c1⟩ := ih (acc.mult P k s.kind s.val) _ _ _ _ h2.1 h3 h4 (fun t ht => hl t (by simp [ht]))
      refine ⟨v1, ?_⟩
      have e : (R * den s.kind s.val.rotation).mulVec (moveAll p l) + (R.mulVec s.val.position + t) =
          R.mulVec (moveAll p (s :: l)) + t := by
        rw [moveAll, move, act_eq, M3.mulVec_add, M3.mulVec_mulVec]; ext <;> simp <;> ring
      rw [e] at c1
      refine c1.trans ?_
      have hr : reach (s :: l) = s.val.position.norm + reach l := by simp [reach]
      rw [hr]
      push_cast [List.length_cons]
      have : 0 ≤ (l.length + 1 : ℝ) * (P.dp / 100 + P.eps / 12) * s.val.position.norm := by positivity
      nlinarith
  obtain ⟨h1, h2⟩ := key l acc (den k acc.rotation) acc.position 0 0 hacc (Close.refl _) (by simp) hl
  refine ⟨h1, ?_⟩
  rw [← act_eq] at h2
  refine h2.trans ?_
  have := p.norm_nonneg
  have := mul_nonneg he.le this
  linarith

/-- **C55, no side condition, quaternion accumulator** (the class of the library's default pose type): as long as `n·eps ≤ 1`
(`n ≤ 4·10¹⁵` in double) every chain of valid poses of any classes moves every point to within `(n·eps/300)·(reach + |p|)` of
the exact place. -/
theorem C55_pose_history_error_quat (P : Prec) (acc : Pose .quat) (l : List PoseStep) (hacc : ValidPose .quat acc)
    (hl : ∀ s ∈ l, ValidPose s.kind s.val) (hn : l.length * P.eps ≤ 1) (p : V3) :
    (move .quat (runPoses P .quat acc l) p - move .quat acc (moveAll p l)).norm ≤
      l.length * P.eps / 300 * (reach l + p.norm) := by
  have he := P.eps_pos
  have key : ∀ (l : List PoseStep) (acc : Pose .quat) (R : M3) (t : V3) (η δ ρ H : ℝ), IsSO3 R →
      NearQ η δ acc.rotation R → (acc.position - t).norm ≤ ρ → (∀ s ∈ l, ValidPose s.kind s.val) →
      (1 + η) * (1 + P.eps / 3200) ^ l.length - 1 ≤ H → H ≤ 1 / 100 →
      (move .quat (runPoses P .quat acc l) p - (R.mulVec (moveAll p l) + t)).norm ≤
        ρ + (402 / 100 * H + (δ + l.length * (P.eps / 800))) * (reach l + p.norm) := by
    intro l
    induction l with
    | nil =>
      intro acc R t η δ ρ H hR hc ht _ hH hH1
      have e : move .quat (runPoses P .quat acc []) p - (R.mulVec (moveAll p []) + t) =
          (act .quat acc.rotation p - R.mulVec p) + (acc.position - t) := by
        simp only [runPoses, moveAll, move]; ext <;> simp <;> ring
      rw [e]
      have hηH : η ≤ H := by simpa using hH
      have h0 := (hc.sandwich (by linarith))
      have h1 : Close (402 / 100 * H + δ) (den .quat acc.rotation) R := by
        rw [den_eq]; exact h0.mono (by linarith [hc.nonneg.1])
      have h1 := h1.act (k := .quat) (r := acc.rotation) p
      have h2 := V3.norm_add_le (act .quat acc.rotation p - R.mulVec p) (acc.position - t)
      simp only [reach, List.map_nil, List.sum_nil, List.length_nil, Nat.cast_zero, zero_mul, add_zero, zero_add]
      linarith
    | cons s l ih =>
      intro acc R t η δ ρ H hR hc ht hl hH hH1
      have hs := hl s (by simp)
      have n1 := (near_of_valid hs).toQuat (P := P) le_rfl (by norm_num)
      have n2 := hc.mul n1 hR
      obtain ⟨hη0, hδ0⟩ := hc.nonneg
      have hpow1 : 1 ≤ (1 + P.eps / 3200) ^ l.length := one_le_pow₀ (by linarith)
      have hηH : η ≤ H := by
        have : 1 ≤ (1 + P.eps / 3200) ^ (s :: l).length := one_le_pow₀ (by linarith)
        nlinarith
      have emul : (acc.mult P .quat s.kind s.val).rotation = acc.rotation * (conv P .quat s.kind s.val.rotation : Quat) := by
        change mult P .quat s.kind acc.rotation s.val.rotation = _
        rw [mult_eq P .quat s.kind acc.rotation s.val.rotation (fun h => by cases h.1)]; rfl
      have hb := s.val.position.norm_nonneg
      have h4 : ((acc.mult P .quat s.kind s.val).position - (R.mulVec s.val.position + t)).norm ≤
          ρ + (402 / 100 * H + δ) * s.val.position.norm := by
        have e : (acc.mult P .quat s.kind s.val).position - (R.mulVec s.val.position + t) =
            (rotate P .quat acc.rotation s.val.position - R.mulVec s.val.position) + (acc.position - t) := by
          have h1 : (acc.mult P .quat s.kind s.val).position = acc.position + rotate P .quat acc.rotation s.val.position := rfl
          rw [h1]; ext <;> simp <;> ring
        rw [e]
        have a1 := V3.norm_add_le (rotate P .quat acc.rotation s.val.position - R.mulVec s.val.position) (acc.position - t)
        have a3 : (rotate P .quat acc.rotation s.val.position - R.mulVec s.val.position).norm ≤
            (402 / 100 * H + δ) * s.val.position.norm :=
          ((hc.toRotationMatrix (by linarith)).mono (by linarith)) s.val.position
        linarith
      have c1 := ih (acc.mult P .quat s.kind s.val) (R * den s.kind s.val.rotation) (R.mulVec s.val.position + t) _ _ _ H
        (SO3.mul hR (den_isSO3 hs)) (by rw [emul]; exact n2) h4 (fun t ht => hl t (by simp [ht])) (by
          refine le_trans (le_of_eq ?_) hH
          rw [List.length_cons, pow_succ]; ring) hH1
      have e : (R * den s.kind s.val.rotation).mulVec (moveAll p l) + (R.mulVec s.val.position + t) =
          R.mulVec (moveAll p (s :: l)) + t := by
        rw [moveAll, move, act_eq, M3.mulVec_add, M3.mulVec_mulVec]; ext <;> simp <;> ring
      rw [e] at c1
      refine c1.trans ?_
      have hr : reach (s :: l) = s.val.position.norm + reach l := by simp [reach]
      rw [hr]
      push_cast [List.length_cons]
      have : 0 ≤ (l.length + 1 : ℝ) * (P.eps / 800) * s.val.position.norm := by positivity
      nlinarith
  have hpow : (1 + P.eps / 3200) ^ l.length - 1 ≤ l.length * P.eps / 2500 := by
    have hx : 1 + P.eps / 3200 ≤ Real.exp (P.eps / 3200) := by linarith [Real.add_one_le_exp (P.eps / 3200)]
    have h3 : (1 + P.eps / 3200) ^ l.length ≤ Real.exp (l.length * (P.eps / 3200)) := by
      rw [Real.exp_nat_mul]; exact pow_le_pow_left₀ (by linarith) hx _
    have h4 : 0 ≤ l.length * P.eps := by positivity
    have h5 := Real.abs_exp_sub_one_sub_id_le (x := l.length * (P.eps / 3200)) (by
      rw [abs_of_nonneg (by positivity)]; linarith)
    have := (abs_le.mp h5).2
    nlinarith
  have hlen : (0 : ℝ) ≤ l.length * P.eps := by positivity
  have h1 := (valid_quat_iff _).mp hacc
  have h2 := key l acc (den .quat acc.rotation) acc.position 0 0 0 _ (den_isSO3 hacc)
    (by have := NearQ.of_unit h1; rw [den_eq]; exact this) (by simp) hl (by simpa using hpow) (by linarith)
  rw [← act_eq] at h2
  refine h2.trans ?_
  have := mul_nonneg hlen (add_nonneg (reach_nonneg l) p.norm_nonneg)
  linarith

/-- non-vacuity: a chain of three poses, one of them with a tiny rotation vector, meets the hypotheses of the error bounds. -/
example : ∀ s ∈ ([⟨.rv, ⟨⟨1, 2, 3⟩, (⟨⟨1 / 10 ^ 13, 0, 0⟩⟩ : RotVec)⟩⟩, ⟨.quat, ⟨⟨0, 1, 0⟩, (⟨3 / 5, 0, 4 / 5, 0⟩ : Quat)⟩⟩,
    ⟨.mat, ⟨⟨1, 0, 0⟩, (⟨0, -1, 0, 1, 0, 0, 0, 0, 1⟩ : M3)⟩⟩] : List PoseStep), ValidPose s.kind s.val := by
  intro s hs
  simp only [List.mem_cons, List.not_mem_nil, or_false] at hs
  rcases hs with rfl | rfl | rfl
  · exact trivial
  · norm_num [ValidPose, Valid]
  · refine ⟨?_, ?_⟩
    · ext <;> simp
    · simp [M3.det]

/-- non-vacuity of the exact theorem with a rotation-vector accumulator: three turns by one radian about the same axis, with
translations, meet every side condition for every scalar type. -/
example (P : Prec) (w : V3) (hw : w.norm = 1) :
    PrefixesClear P .rv (den .rv (⟨(1 : ℝ) • w⟩ : RotVec))
      (rotationSteps [⟨.rv, ⟨⟨1, 2, 3⟩, (⟨(1 : ℝ) • w⟩ : RotVec)⟩⟩, ⟨.rv, ⟨⟨0, 5, 0⟩, (⟨(1 : ℝ) • w⟩ : RotVec)⟩⟩]) := by
  have hc : ∀ s : ℝ, 1 ≤ s → s ≤ 3 → RvClear P .rv (den .rv (⟨s • w⟩ : RotVec)) := fun s h1 h2 _ => by
    have : (s • w).norm = s := by rw [V3.norm_smul, hw, mul_one, abs_of_nonneg (by linarith)]
    exact clear_of_norm' (by rw [this]; linarith) (by rw [this]; linarith [Real.pi_gt_three])
  refine ⟨hc 1 le_rfl (by norm_num), ?_, ?_⟩
  · change RvClear P .rv (den .rv (⟨(1 : ℝ) • w⟩ : RotVec) * den .rv (⟨(1 : ℝ) • w⟩ : RotVec))
    rw [den_rv_smul_mul]; exact hc _ (by norm_num) (by norm_num)
  · change RvClear P .rv (den .rv (⟨(1 : ℝ) • w⟩ : RotVec) * den .rv (⟨(1 : ℝ) • w⟩ : RotVec) * den .rv (⟨(1 : ℝ) • w⟩ : RotVec))
    rw [den_rv_smul_mul, den_rv_smul_mul]; exact hc _ (by norm_num) (by norm_num)

end Kindr
