import Mathlib.LinearAlgebra.Matrix.NonsingularInverse
import Verif.Spec.Pose
import Verif.Spec.Vector
import Verif.Props.Group
import Verif.Props.Unique
import Verif.Props.Vector
import Verif.Props.Deriv
import Verif.Props.Kinematics

/-!
# C40-C43, C54, C55: wrenches, twists and poses
-/

set_option autoImplicit false

open Classical

noncomputable section
namespace Kindr
open Spec

/-! ## C40: wrenches -/

/-- C40: `getVector` puts the force in components 0-2 and the torque in 3-5 (whatever the uninitialized buffer held),
and `setVector`/the constructor invert it. -/
theorem C40_vector_roundtrip (init : V6) (w w' : Wrench) (v : V6) :
    (∀ i : Fin 3, w.getVector init ⟨i, by omega⟩ = w.force.coeff i) ∧
    (∀ i : Fin 3, w.getVector init ⟨i + 3, by omega⟩ = w.torque.coeff i) ∧
    w'.setVector (w.getVector init) = w ∧ (w.setVector v).getVector init = v ∧
    Wrench.ofVector6 (w.getVector init) = w := by
  have h : Wrench.ofVector6 (w.getVector init) = w := by
    ext i <;> fin_cases i <;> rfl
  refine ⟨?_, ?_, h, ?_, h⟩
  · intro i; fin_cases i <;> rfl
  · intro i; fin_cases i <;> rfl
  · ext i; fin_cases i <;> rfl

/-- C40: the arithmetic operators act componentwise on the 6-vector, the compound assignments agree with them, `Zero`
is the zero vector and `==` holds iff the two wrenches have the same 6-vector. -/
theorem C40_vector_space (init : V6) (a b : Wrench) (s : ℝ) (i : Fin 6) :
    (a.add b).getVector init i = a.getVector init i + b.getVector init i ∧
    (a.sub b).getVector init i = a.getVector init i - b.getVector init i ∧
    (a.smul s).getVector init i = a.getVector init i * s ∧
    (a.sdiv s).getVector init i = a.getVector init i / s ∧
    a.neg.getVector init i = -a.getVector init i ∧
    Wrench.Zero.getVector init i = 0 ∧
    a.addAssign b = a.add b ∧ a.subAssign b = a.sub b ∧ a.mulAssign s = a.smul s ∧ a.divAssign s = a.sdiv s ∧
    (a.eq b = true ↔ ∀ j, a.getVector init j = b.getVector init j) ∧ (a.eq b = true ↔ a = b) := by
  have heq : a.eq b = true ↔ a = b := by
    rw [Wrench.eq, Bool.and_eq_true, (C36_constructors_eq (t₁ := .Force) a.force b.force 0 0 0 0 0).2.2.2.2.2.1,
      (C36_constructors_eq (t₁ := .Force) a.torque b.torque 0 0 0 0 0).2.2.2.2.2.1, Wrench.ext_iff]
  refine ⟨?_, ?_, ?_, ?_, ?_, ?_, rfl, rfl, rfl, rfl, ?_, heq⟩
  any_goals (fin_cases i <;> rfl)
  rw [heq]
  refine ⟨fun h => by simp [h], fun h => ?_⟩
  have := congrArg (Wrench.setVector a) (funext h)
  rwa [(C40_vector_roundtrip init a a 0).2.2.1, (C40_vector_roundtrip init b a 0).2.2.1] at this

/-- C40: `setForce` / `setTorque` change exactly their own part, after any history of such calls the parts are the last
ones set. -/
theorem C40_setters (w : Wrench) (f : Vec .Force 3) (τ : Vec .Torque 3) :
    (w.setForce f).force = f ∧ (w.setForce f).torque = w.torque ∧
    (w.setTorque τ).torque = τ ∧ (w.setTorque τ).force = w.force ∧
    (w.setForce f).setTorque τ = (w.setTorque τ).setForce f ∧
    Wrench.ofVectors f.coeff τ.coeff = (w.setForce f).setTorque τ := ⟨rfl, rfl, rfl, rfl, rfl, rfl⟩

/-! ## C41: twists -/

/-- C41: the 6-vector of a twist holds the translational velocity first and the angular velocity last, for both the
local and the global class, and `setVector`/the constructor invert `getVector`. -/
theorem C41_vector_roundtrip (a : Twist LocalAV) (b : Twist GlobalAV) (v : V6) :
    a.getVectorLocal = ![a.linear.x, a.linear.y, a.linear.z, a.rotational.v.x, a.rotational.v.y, a.rotational.v.z] ∧
    b.getVectorGlobal = ![b.linear.x, b.linear.y, b.linear.z, b.rotational.v.x, b.rotational.v.y, b.rotational.v.z] ∧
    Twist.ofVectorLocal a.getVectorLocal = a ∧ Twist.ofVectorGlobal b.getVectorGlobal = b ∧
    (Twist.ofVectorLocal v).getVectorLocal = v ∧ (Twist.ofVectorGlobal v).getVectorGlobal = v ∧
    (Twist.Zero LocalAV.zero).getVectorLocal = 0 ∧ (Twist.Zero GlobalAV.zero).getVectorGlobal = 0 := by
  refine ⟨?_, ?_, rfl, rfl, ?_, ?_, ?_, ?_⟩ <;> (ext i; fin_cases i <;> rfl)

/-- C41: `getVector(rotation)` of a twist with a global angular velocity or a quaternion derivative: the translational
velocity unchanged, followed by the angular velocity *in body coordinates*, i.e. the `getVector()` of the local
twist; rotating it back recovers the twist. -/
theorem C41_generic_vector (P : Prec) (k : Kind) (r : Rep k) (hv : Valid k r) (hx : ExactBranch P .mat k r)
    (w : Twist GlobalAV) (q : Quat) (d : Twist QuatDiff) :
    w.getVectorWithGlobal P k r = (⟨w.linear, localOfGlobal P k r w.rotational⟩ : Twist LocalAV).getVectorLocal ∧
    act k r (Twist.ofVectorLocal (w.getVectorWithGlobal P k r)).rotational.v = w.rotational.v ∧
    (Twist.ofVectorLocal (w.getVectorWithGlobal P k r)).linear = w.linear ∧
    d.getVectorWithQuatDiff q = (⟨d.linear, localOfQuatDiff q d.rotational⟩ : Twist LocalAV).getVectorLocal := by
  refine ⟨rfl, ?_, rfl, rfl⟩
  exact (C28_local_global P k r hv hx LocalAV.zero w.rotational).2.2.2.1

/-- C41: the generic `getVector(rotation)` returns, for every motion, the translational velocity followed by the *true* body-frame
angular velocity: for a global angular velocity of a moving rotation of any class, and for the derivative of a curve of unit
quaternions. -/
theorem C41_generic_vector_motion (P : Prec) (k : Kind) (r : ℝ → Rep k) (t : ℝ) (hv : Valid k (r t))
    (hx : ExactBranch P .mat k (r t)) (w : Twist GlobalAV) (hw : IsGlobalVelocity k r t w.rotational.v)
    (q : ℝ → Quat) (d : Twist QuatDiff) (hq : ∀ᶠ s in nhds t, Valid .quat (q s)) (hd : HasDerivQ q d.rotational.q t) :
    (∃ wl : V3, IsLocalVelocity k r t wl ∧
      w.getVectorWithGlobal P k (r t) = ![w.linear.x, w.linear.y, w.linear.z, wl.x, wl.y, wl.z]) ∧
    (∃ wl : V3, IsLocalVelocity .quat q t wl ∧
      d.getVectorWithQuatDiff (q t) = ![d.linear.x, d.linear.y, d.linear.z, wl.x, wl.y, wl.z]) := by
  refine ⟨⟨(localOfGlobal P k (r t) w.rotational).v, ?_, ?_⟩, (localOfQuatDiff (q t) d.rotational).v,
    (C29_quaternion_curve q d.rotational t hq hd).1, ?_⟩
  · intro u
    have h := hw u
    have e : act k (r t) ((localOfGlobal P k (r t) w.rotational).v.cross u) = w.rotational.v.cross (act k (r t) u) := by
      rw [← C10_rotate_spec P k _ hv hx, ← (C10_rotate_isometry P k (r t) hv hx _ u 1).2.2.2.2.1,
        C10_rotate_spec P k _ hv hx, C10_rotate_spec P k _ hv hx,
        (C28_local_global P k (r t) hv hx LocalAV.zero w.rotational).2.2.2.1]
    rw [e]
    exact h
  · ext i; fin_cases i <;> rfl
  · ext i; fin_cases i <;> rfl

/-- C41: changing one part of a twist does not affect the other. -/
theorem C41_setters {D : Type} (w : Twist D) (v : V3) (d : D) :
    (w.setLinear v).linear = v ∧ (w.setLinear v).rotational = w.rotational ∧
    (w.setRotational d).rotational = d ∧ (w.setRotational d).linear = w.linear := ⟨rfl, rfl, rfl, rfl⟩

/-! ## C42: poses as rigid motions -/

/-- C42: `transform` is the rigid motion "rotate, then translate". -/
theorem C42_transform_spec (P : Prec) (k : Kind) (T : Pose k) (hv : ValidPose k T)
    (hx : ExactBranch P .mat k T.rotation) (p : V3) : T.transform P k p = move k T p := by
  rw [Pose.transform, C10_rotate_spec P k _ hv hx]; rfl

/-- C42: composition of poses is composition of motions, for every pair of rotation classes. -/
theorem C42_compose (P : Prec) (k₁ k₂ : Kind) (A : Pose k₁) (B : Pose k₂) (ha : ValidPose k₁ A) (hb : ValidPose k₂ B)
    (ca : RvClear P k₁ (den k₁ A.rotation)) (cb : RvClear P k₂ (den k₂ B.rotation))
    (cab : RvClear P k₁ (den k₁ A.rotation * den k₂ B.rotation)) (p : V3) :
    ValidPose k₁ (A.mult P k₁ k₂ B) ∧
    (A.mult P k₁ k₂ B).transform P k₁ p = A.transform P k₁ (B.transform P k₂ p) ∧
    move k₁ (A.mult P k₁ k₂ B) p = move k₁ A (move k₂ B p) := by
  obtain ⟨h1, h2, h3⟩ := C11_concatenation P k₁ k₂ A.rotation B.rotation ha hb ca cb cab p
  have e1 := exact_to_nonrv (d := .mat) (by decide) ca
  have hadd := (C10_rotate_isometry P k₁ A.rotation ha e1 (rotate P k₂ B.rotation p) B.position 1).1
  have key : ∀ a b c : V3, a + (c + b) = a + b + c := by intro a b c; ext <;> simp <;> ring
  refine ⟨h1, ?_, ?_⟩
  · simp only [Pose.transform, Pose.mult]
    rw [h3, hadd, key]
  · simp only [move, Pose.mult]
    rw [h2, C10_rotate_spec P k₁ _ ha e1, act_eq k₁ A.rotation, act_eq k₁ A.rotation, act_eq k₁ A.rotation,
      M3.mulVec_add, key]

/-- C42: without rotation vectors there is no side condition (in particular for `HomTransformQuat` and
`HomTransformMatrix`). -/
theorem C42_compose_unconditional (P : Prec) (k₁ k₂ : Kind) (h₁ : k₁ ≠ .rv) (h₂ : k₂ ≠ .rv) (A : Pose k₁) (B : Pose k₂)
    (ha : ValidPose k₁ A) (hb : ValidPose k₂ B) (p : V3) :
    (A.mult P k₁ k₂ B).transform P k₁ p = A.transform P k₁ (B.transform P k₂ p) :=
  (C42_compose P k₁ k₂ A B ha hb (fun h => absurd h h₁) (fun h => absurd h h₂) (fun h => absurd h h₁) p).2.1

/-- C42: composition is associative: same position and same rotation. -/
theorem C42_associative (P : Prec) (k₁ k₂ k₃ : Kind) (A : Pose k₁) (B : Pose k₂) (C : Pose k₃)
    (ha : ValidPose k₁ A) (hb : ValidPose k₂ B) (hc : ValidPose k₃ C)
    (ca : RvClear P k₁ (den k₁ A.rotation)) (cb : RvClear P k₂ (den k₂ B.rotation))
    (cc : RvClear P k₃ (den k₃ C.rotation))
    (cab : RvClear P k₁ (den k₁ A.rotation * den k₂ B.rotation))
    (cbc : RvClear P k₂ (den k₂ B.rotation * den k₃ C.rotation))
    (cabc : RvClear P k₁ (den k₁ A.rotation * den k₂ B.rotation * den k₃ C.rotation)) :
    ((A.mult P k₁ k₂ B).mult P k₁ k₃ C).position = (A.mult P k₁ k₂ (B.mult P k₂ k₃ C)).position ∧
    SameRot ((A.mult P k₁ k₂ B).mult P k₁ k₃ C).rotation (A.mult P k₁ k₂ (B.mult P k₂ k₃ C)).rotation := by
  refine ⟨?_, C11_associative P k₁ k₂ k₃ _ _ _ ha hb hc ca cb cc cab cbc cabc⟩
  obtain ⟨-, -, h3⟩ := C11_concatenation P k₁ k₂ A.rotation B.rotation ha hb ca cb cab C.position
  have e1 := exact_to_nonrv (d := .mat) (by decide) ca
  have hadd := (C10_rotate_isometry P k₁ A.rotation ha e1 B.position (rotate P k₂ B.rotation C.position) 1).1
  simp only [Pose.mult]
  rw [h3, hadd]
  ext <;> simp [add_assoc]

/-- C42: the identity pose moves nothing and is neutral on either side. -/
theorem C42_identity (P : Prec) (k k' : Kind) (T : Pose k') (hv : ValidPose k' T) (hc : RvClear P k' (den k' T.rotation))
    (hc' : RvClear P k (den k' T.rotation)) (p : V3) :
    ValidPose k (Pose.Identity k) ∧ (Pose.Identity k).transform P k p = p ∧
    move k' (T.mult P k' k (Pose.Identity k)) p = move k' T p ∧
    move k ((Pose.Identity k).mult P k k' T) p = move k' T p := by
  obtain ⟨h1, -, h3, h4⟩ := C13_identity P k p
  have z1 : ∀ a : V3, a + (⟨0, 0, 0⟩ : V3) = a := by intro a; ext <;> simp
  have z2 : ∀ a : V3, (⟨0, 0, 0⟩ : V3) + a = a := by intro a; ext <;> simp
  have e1 := exact_to_nonrv (d := .mat) (by decide) hc
  have hz : rotate P k' T.rotation ⟨0, 0, 0⟩ = ⟨0, 0, 0⟩ := by
    rw [rotate_spec hv e1]; ext <;> simp [M3.mulVec]
  refine ⟨h1, ?_, ?_, ?_⟩
  · simp only [Pose.transform, Pose.Identity]; rw [h3, z1]
  · simp only [move, Pose.mult, Pose.Identity]; rw [(h4 k' T.rotation hv hc hc').1, hz, z1]
  · simp only [move, Pose.mult, Pose.Identity]
    rw [(h4 k' T.rotation hv hc hc').2, (C13_identity P k T.position).2.2.1, z2]

/-- C42: `inverseTransform` undoes `transform` and vice versa. -/
theorem C42_inverse (P : Prec) (k : Kind) (T : Pose k) (hv : ValidPose k T) (hx : ExactBranch P .mat k T.rotation)
    (p : V3) : T.inverseTransform P k (T.transform P k p) = p ∧ T.transform P k (T.inverseTransform P k p) = p := by
  constructor
  · simp only [Pose.inverseTransform, Pose.transform]
    have : rotate P k T.rotation p + T.position - T.position = rotate P k T.rotation p := by ext <;> simp
    rw [this]
    exact (C10_rotate_isometry P k T.rotation hv hx p p 1).2.2.2.2.2.1
  · simp only [Pose.inverseTransform, Pose.transform]
    rw [(C10_rotate_isometry P k T.rotation hv hx p (p - T.position) 1).2.2.2.2.2.2]
    ext <;> simp

/-- C42: rigid: distances between transformed points are unchanged, and so is orientation (triple products of
differences). -/
theorem C42_rigid (P : Prec) (k : Kind) (T : Pose k) (hv : ValidPose k T) (hx : ExactBranch P .mat k T.rotation)
    (p q r s : V3) :
    dist3 (T.transform P k p) (T.transform P k q) = dist3 p q ∧
    (T.transform P k p - T.transform P k s).dot
      ((T.transform P k q - T.transform P k s).cross (T.transform P k r - T.transform P k s)) =
      (p - s).dot ((q - s).cross (r - s)) := by
  have hd : ∀ a b : V3, T.transform P k a - T.transform P k b = rotate P k T.rotation (a - b) := by
    intro a b
    simp only [Pose.transform, rotate_spec hv hx]
    ext <;> simp [M3.mulVec] <;> ring
  have hn : ∀ a b : V3, dist3 a b = (a - b).norm := by
    intro a b
    simp only [dist3, V3.norm, V3.normSq, V3.dot]
    congr 1
    simp
    ring
  constructor
  · rw [hn, hd, (C10_rotate_isometry P k T.rotation hv hx (p - q) (p - q) 1).2.2.2.1, hn]
  · rw [hd, hd, hd, (C10_rotate_isometry P k T.rotation hv hx (q - s) (r - s) 1).2.2.2.2.1,
      (C10_rotate_isometry P k T.rotation hv hx _ _ 1).2.2.1]

/-- C42: constructing a pose from one with another rotation class keeps the motion. -/
theorem C42_conversion (P : Prec) (d s : Kind) (T : Pose s) (hv : ValidPose s T) (hc : RvClear P s (den s T.rotation))
    (hc' : RvClear P d (den s T.rotation)) (p : V3) :
    ValidPose d (Pose.ofPose P d s T) ∧ move d (Pose.ofPose P d s T) p = move s T p := by
  obtain ⟨h1, h2⟩ := conv_any hv hc hc'
  refine ⟨h1, ?_⟩
  simp only [move, Pose.ofPose]
  rw [act_eq, h2, ← act_eq]

/-- C42: `==` on `HomTransformQuat` and `HomTransformMatrix` decides equality of the motions. -/
theorem C42_equality (P : Prec) (A B : Pose .quat) (C D : Pose .mat) (ha : ValidPose .quat A) (hb : ValidPose .quat B) :
    (A.eqSame P .quat B = true ↔ ∀ p, move .quat A p = move .quat B p) ∧
    (C.eqSame P .mat D = true ↔ ∀ p, move .mat C p = move .mat D p) := by
  have hz : ∀ (k : Kind) (r : Rep k), act k r ⟨0, 0, 0⟩ = ⟨0, 0, 0⟩ := by
    intro k r; rw [act_eq]; ext <;> simp [M3.mulVec]
  have z2 : ∀ a : V3, (⟨0, 0, 0⟩ : V3) + a = a := by intro a; ext <;> simp
  have key : ∀ (k : Kind) (X Y : Pose k),
      (∀ p, move k X p = move k Y p) ↔ X.position = Y.position ∧ SameRot X.rotation Y.rotation := by
    intro k X Y
    constructor
    · intro h
      have h0 : X.position = Y.position := by
        have := h ⟨0, 0, 0⟩
        simpa only [move, hz, z2] using this
      refine ⟨h0, fun v => ?_⟩
      have h1 := h v
      simp only [move, h0] at h1
      have hx := congrArg V3.x h1
      have hy := congrArg V3.y h1
      have hzz := congrArg V3.z h1
      simp only [V3.add_x, V3.add_y, V3.add_z, add_left_inj] at hx hy hzz
      exact V3.ext hx hy hzz
    · rintro ⟨h0, h1⟩ p
      simp only [move, h0, h1 p]
  constructor
  · rw [key, Pose.eqSame, Bool.and_eq_true, decide_eq_true_iff,
      ← (C14_quaternion_unique P A.rotation B.rotation ha hb).2.2.2.2.1]
  · rw [key, Pose.eqSame, Bool.and_eq_true, decide_eq_true_iff, sameRot_iff, den_eq, den_eq]
    exact and_congr_right fun _ => decide_eq_true_iff (p := C.rotation = D.rotation)

/-! ## C43: the transformation matrix -/

/-- C43: the matrix has last row `(0,0,0,1)` and maps the homogeneous coordinates of `p` to those of the transformed
point. -/
theorem C43_matrix_action (P : Prec) (k : Kind) (T : Pose k) (p : V3) :
    (T.getTransformationMatrix P k).r3 = ⟨0, 0, 0, 1⟩ ∧
    (toMat4 (T.getTransformationMatrix P k)).mulVec (homogeneous p) = homogeneous (T.transform P k p) := by
  refine ⟨rfl, ?_⟩
  ext i
  fin_cases i <;>
    simp [toMat4, homogeneous, Pose.getTransformationMatrix, Matrix.mulVec, dotProduct, Fin.sum_univ_four,
      Pose.transform, rotate, M3.mulVec]

/-- C43: the matrix of a composition is the product of the matrices; the identity pose has the identity matrix; the
matrix is invertible with determinant one. -/
theorem C43_homomorphism (P : Prec) (k₁ k₂ : Kind) (A : Pose k₁) (B : Pose k₂) (ha : ValidPose k₁ A) (hb : ValidPose k₂ B)
    (ca : RvClear P k₁ (den k₁ A.rotation)) (cb : RvClear P k₂ (den k₂ B.rotation))
    (cab : RvClear P k₁ (den k₁ A.rotation * den k₂ B.rotation)) :
    toMat4 ((A.mult P k₁ k₂ B).getTransformationMatrix P k₁) =
      toMat4 (A.getTransformationMatrix P k₁) * toMat4 (B.getTransformationMatrix P k₂) ∧
    toMat4 ((Pose.Identity k₁).getTransformationMatrix P k₁) = 1 ∧
    (toMat4 (A.getTransformationMatrix P k₁)).det = 1 := by
  obtain ⟨h1, h2⟩ := mult_spec ha hb ca cb cab
  obtain ⟨i1, i2⟩ := identity_spec k₁
  have cm : ∀ {k : Kind} {r : Rep k}, Valid k r → RvClear P k (den k r) → (conv P .mat k r : M3) = den k r := by
    intro k r hv hc
    have := (conv_nonrv (P := P) (d := .mat) hv (by decide) hc).2
    rw [den_eq] at this
    exact this
  have m1 := cm ha ca
  have m2 := cm hb cb
  have m3 : (conv P .mat k₁ (mult P k₁ k₂ A.rotation B.rotation) : M3) = den k₁ A.rotation * den k₂ B.rotation := by
    rw [cm h1 (by rw [h2]; exact cab), h2]
  have m4 : (conv P .mat k₁ (identity k₁) : M3) = 1 := by
    rw [cm i1 (by rw [i2]; exact rvClear_one P k₁), i2]
  have hdet : (den k₁ A.rotation).det = 1 := (den_isSO3 ha).2
  refine ⟨?_, ?_, ?_⟩
  · simp only [Pose.getTransformationMatrix, Pose.mult, rotate, m1, m2, m3]
    ext i j
    fin_cases i <;> fin_cases j <;>
      simp [toMat4, Matrix.mul_apply, Fin.sum_univ_four, M3.mulVec] <;> ring
  · simp only [Pose.getTransformationMatrix, Pose.Identity, m4]
    ext i j
    fin_cases i <;> fin_cases j <;> simp [toMat4]
  · simp only [Pose.getTransformationMatrix, m1]
    refine Eq.trans ?_ hdet
    simp [toMat4, Matrix.det_succ_row_zero, Fin.sum_univ_succ, M3.det, Matrix.submatrix, Fin.succAbove]
    ring

/-- C43: the matrix determines position and rotation. -/
theorem C43_faithful (P : Prec) (k₁ k₂ : Kind) (A : Pose k₁) (B : Pose k₂) (ha : ValidPose k₁ A) (hb : ValidPose k₂ B)
    (ca : RvClear P k₁ (den k₁ A.rotation)) (cb : RvClear P k₂ (den k₂ B.rotation)) :
    A.getTransformationMatrix P k₁ = B.getTransformationMatrix P k₂ ↔
      A.position = B.position ∧ SameRot A.rotation B.rotation := by
  have cm : ∀ {k : Kind} {r : Rep k}, Valid k r → RvClear P k (den k r) → (conv P .mat k r : M3) = den k r := by
    intro k r hv hc
    have := (conv_nonrv (P := P) (d := .mat) hv (by decide) hc).2
    rw [den_eq] at this
    exact this
  rw [sameRot_iff]
  simp only [Pose.getTransformationMatrix, cm ha ca, cm hb cb, M4.mk.injEq, V4.mk.injEq, V3.ext_iff, M3.ext_iff]
  tauto

/-! ## C55: histories of poses -/

/-- One step of a history of compositions: a pose of any rotation class. -/
structure PoseStep where
  kind : Kind
  val : Pose kind

/-- `acc = acc * T₁ * T₂ * …` as a loop. -/
def runPoses (P : Prec) (k : Kind) (acc : Pose k) : List PoseStep → Pose k
  | [] => acc
  | s :: l => runPoses P k (acc.mult P k s.kind s.val) l

/-- Specification: apply the motions one after the other, the last pose first. -/
def moveAll (p : V3) : List PoseStep → V3
  | [] => p
  | s :: l => move s.kind s.val (moveAll p l)

/-- C55: a chain of compositions of any length (as in a kinematic tree), over poses of any rotation classes other than
rotation vectors, stays valid and moves every point as the individual poses do one after the other; its homogeneous
matrix is the ordered product of the individual matrices. -/
theorem C55_pose_history (P : Prec) (k : Kind) (hk : k ≠ .rv) (acc : Pose k) (l : List PoseStep)
    (hacc : ValidPose k acc) (hl : ∀ s ∈ l, s.kind ≠ .rv ∧ ValidPose s.kind s.val) (p : V3) :
    ValidPose k (runPoses P k acc l) ∧ move k (runPoses P k acc l) p = move k acc (moveAll p l) ∧
    toMat4 ((runPoses P k acc l).getTransformationMatrix P k) =
      toMat4 (acc.getTransformationMatrix P k) *
        (l.map fun s => toMat4 (s.val.getTransformationMatrix P s.kind)).prod := by
  induction l generalizing acc with
  | nil => exact ⟨hacc, rfl, by simp [runPoses]⟩
  | cons s l ih =>
    obtain ⟨hs1, hs2⟩ := hl s (by simp)
    have c1 : RvClear P k (den k acc.rotation) := fun h => absurd h hk
    have c2 : RvClear P s.kind (den s.kind s.val.rotation) := fun h => absurd h hs1
    have c3 : RvClear P k (den k acc.rotation * den s.kind s.val.rotation) := fun h => absurd h hk
    have hc := C42_compose P k s.kind acc s.val hacc hs2 c1 c2 c3
    have hm := (C43_homomorphism P k s.kind acc s.val hacc hs2 c1 c2 c3).1
    obtain ⟨h1, h2, h3⟩ := ih (acc.mult P k s.kind s.val) (hc p).1 (fun u hu => hl u (by simp [hu]))
    refine ⟨h1, h2.trans (hc _).2.2, h3.trans ?_⟩
    rw [hm, List.map_cons, List.prod_cons, mul_assoc]

/-! ## C54: velocity of a point carried by a moving pose -/

/-- C54: if the position of a moving pose has velocity `v` and its rotation has global angular velocity `w` (the two parts
of a global twist), a point `p` fixed in the body moves with velocity `v + w × (R p)`; expressed through the library:
`linear + rotational × (transform(p) - position)`. -/
theorem C54_point_velocity (k : Kind) (T : ℝ → Pose k) (t : ℝ) (tw : Twist GlobalAV)
    (hp : HasDerivV (fun s => (T s).position) tw.linear t)
    (hr : IsGlobalVelocity k (fun s => (T s).rotation) t tw.rotational.v) (p : V3) :
    HasDerivV (fun s => move k (T s) p)
      (tw.linear + tw.rotational.v.cross (move k (T t) p - (T t).position)) t := by
  obtain ⟨h1, h2, h3⟩ := hp
  obtain ⟨g1, g2, g3⟩ := hr p
  have e : move k (T t) p - (T t).position = act k (T t).rotation p := by
    simp only [move]; ext <;> simp
  rw [e]
  refine ⟨?_, ?_, ?_⟩
  · exact (g1.add h1).congr_deriv (by simp [add_comm])
  · exact (g2.add h2).congr_deriv (by simp [add_comm])
  · exact (g3.add h3).congr_deriv (by simp [add_comm])

/-- C54, body form: with the local twist the velocity is `v + R (w × p)`, and converting the angular velocity with
`GlobalAngularVelocity(rotation, local)` gives the same velocity through `C54_point_velocity`. -/
theorem C54_point_velocity_local (P : Prec) (k : Kind) (T : ℝ → Pose k) (t : ℝ) (tw : Twist LocalAV)
    (hv : ValidPose k (T t)) (hx : ExactBranch P .mat k (T t).rotation)
    (hp : HasDerivV (fun s => (T s).position) tw.linear t)
    (hr : IsLocalVelocity k (fun s => (T s).rotation) t tw.rotational.v) (p : V3) :
    HasDerivV (fun s => move k (T s) p) (tw.linear + act k (T t).rotation (tw.rotational.v.cross p)) t ∧
    act k (T t).rotation (tw.rotational.v.cross p) =
      (globalOfLocal P k (T t).rotation tw.rotational).v.cross (move k (T t) p - (T t).position) := by
  obtain ⟨h1, h2, h3⟩ := hp
  obtain ⟨g1, g2, g3⟩ := hr p
  have e : move k (T t) p - (T t).position = act k (T t).rotation p := by
    simp only [move]; ext <;> simp
  refine ⟨⟨?_, ?_, ?_⟩, ?_⟩
  · exact (g1.add h1).congr_deriv (by simp [add_comm])
  · exact (g2.add h2).congr_deriv (by simp [add_comm])
  · exact (g3.add h3).congr_deriv (by simp [add_comm])
  · rw [e, (C28_local_global P k (T t).rotation hv hx tw.rotational GlobalAV.zero).2.2.1,
      ← C10_rotate_spec P k _ hv hx, ← C10_rotate_spec P k _ hv hx, ← C10_rotate_spec P k _ hv hx,
      (C10_rotate_isometry P k (T t).rotation hv hx tw.rotational.v p 1).2.2.2.2.1]

/-- C54 in terms of the library's `transform`: for a moving pose that stays valid (and, if it stores a rotation vector, outside
the small-angle regime), the point `transform(p)` has velocity `linear + rotational × (transform(p) - position)`. -/
theorem C54_transform_velocity (P : Prec) (k : Kind) (T : ℝ → Pose k) (t : ℝ) (tw : Twist GlobalAV)
    (hv : ∀ᶠ s in nhds t, ValidPose k (T s) ∧ ExactBranch P .mat k (T s).rotation)
    (hp : HasDerivV (fun s => (T s).position) tw.linear t)
    (hr : IsGlobalVelocity k (fun s => (T s).rotation) t tw.rotational.v) (p : V3) :
    HasDerivV (fun s => (T s).transform P k p)
      (tw.linear + tw.rotational.v.cross ((T t).transform P k p - (T t).position)) t := by
  have e : ∀ᶠ s in nhds t, (T s).transform P k p = move k (T s) p :=
    hv.mono fun s hs => C42_transform_spec P k (T s) hs.1 hs.2 p
  obtain ⟨h1, h2, h3⟩ := C54_point_velocity k T t tw hp hr p
  rw [e.self_of_nhds]
  exact ⟨h1.congr_of_eventuallyEq (e.mono fun s hs => congrArg V3.x hs),
    h2.congr_of_eventuallyEq (e.mono fun s hs => congrArg V3.y hs),
    h3.congr_of_eventuallyEq (e.mono fun s hs => congrArg V3.z hs)⟩

/-! ## Satisfiability of the hypotheses -/

/-- A non-trivial valid pose: translation plus rotation by the quaternion (3/5, 0, 4/5, 0). -/
def samplePose : Pose .quat := ⟨⟨1, 2, 3⟩, (⟨3 / 5, 0, 4 / 5, 0⟩ : Quat)⟩

example : ValidPose .quat samplePose := by norm_num [ValidPose, Valid, samplePose]
example (P : Prec) : RvClear P .quat (den .quat samplePose.rotation) := fun h => nomatch h
example (P : Prec) : ExactBranch P .mat .quat samplePose.rotation := trivial
example (P : Prec) : samplePose.transform P .quat ⟨0, 0, 0⟩ = ⟨1, 2, 3⟩ := by
  rw [C42_transform_spec P .quat samplePose (by norm_num [ValidPose, Valid, samplePose]) trivial]
  rw [move, act_eq]
  ext <;> simp [M3.mulVec, samplePose]
example : ∀ s ∈ ([⟨.quat, samplePose⟩, ⟨.xyz, ⟨⟨0, 1, 0⟩, EulXyz.mk3 1 2 3⟩⟩] : List PoseStep),
    s.kind ≠ .rv ∧ ValidPose s.kind s.val := by
  intro s hs
  simp only [List.mem_cons, List.not_mem_nil, or_false] at hs
  rcases hs with rfl | rfl
  · exact ⟨by decide, by norm_num [ValidPose, Valid, samplePose]⟩
  · exact ⟨by decide, trivial⟩

/-- C54 hypotheses are met by a screw motion: a body moving with speed 2 along z while spinning about z. -/
example : let T : ℝ → Pose .xyz := fun s => ⟨⟨0, 0, 2 * s⟩, EulXyz.mk3 0 0 s⟩
    HasDerivV (fun s => (T s).position) ⟨0, 0, 2⟩ 0 ∧
    IsGlobalVelocity .xyz (fun s => (T s).rotation) 0 ⟨0, 0, 1⟩ := by
  have d1 : HasDerivAt (fun s : ℝ => 2 * s) 2 0 := by simpa using (hasDerivAt_id (0 : ℝ)).const_mul 2
  refine ⟨⟨hasDerivAt_const _ _, hasDerivAt_const _ _, d1⟩, fun u => ?_⟩
  have hc := Real.hasDerivAt_cos 0
  have hs := Real.hasDerivAt_sin 0
  simp only [act, rotX, rotY, rotZ, EulXyz.mk3, EulXyz.x, EulXyz.y, EulXyz.z, Real.cos_zero, Real.sin_zero, V3.cross]
  refine ⟨?_, ?_, ?_⟩
  · have := (hc.mul_const u.x).sub (hs.mul_const u.y)
    simp at this ⊢
    exact this
  · have := (hs.mul_const u.x).add (hc.mul_const u.y)
    simp at this ⊢
    exact this
  · simp
    exact hasDerivAt_const _ _

end Kindr
