import Verif.Props.EulerRates

/-!
# C34, C50, C51, C52, C53: arithmetic of rotation derivatives and composition of moving rotations
-/

set_option autoImplicit false

noncomputable section
namespace Kindr
open Spec Filter

/-! ## C34 -/

/-- **C34 (a).** Sum, difference and scaling of angular velocities act componentwise and satisfy the vector-space laws. -/
theorem C34_angular_velocity_vector_space (a b c : LocalAV) (A B C : GlobalAV) (s r : ℝ) :
    ((a.add b).v = ⟨a.v.x + b.v.x, a.v.y + b.v.y, a.v.z + b.v.z⟩ ∧
      (a.sub b).v = ⟨a.v.x - b.v.x, a.v.y - b.v.y, a.v.z - b.v.z⟩ ∧
      (a.smul s).v = ⟨s * a.v.x, s * a.v.y, s * a.v.z⟩ ∧
      a.add b = b.add a ∧ (a.add b).add c = a.add (b.add c) ∧ a.add LocalAV.zero = a ∧ a.sub a = LocalAV.zero ∧
      (a.sub b).add b = a ∧ (a.add b).smul s = (a.smul s).add (b.smul s) ∧ a.smul (s + r) = (a.smul s).add (a.smul r) ∧
      (a.smul s).smul r = a.smul (s * r) ∧ a.smul 1 = a) ∧
    ((A.add B).v = ⟨A.v.x + B.v.x, A.v.y + B.v.y, A.v.z + B.v.z⟩ ∧
      (A.sub B).v = ⟨A.v.x - B.v.x, A.v.y - B.v.y, A.v.z - B.v.z⟩ ∧
      (A.smul s).v = ⟨s * A.v.x, s * A.v.y, s * A.v.z⟩ ∧
      A.add B = B.add A ∧ (A.add B).add C = A.add (B.add C) ∧ A.add GlobalAV.zero = A ∧ A.sub A = GlobalAV.zero ∧
      (A.sub B).add B = A ∧ (A.add B).smul s = (A.smul s).add (B.smul s) ∧ A.smul (s + r) = (A.smul s).add (A.smul r) ∧
      (A.smul s).smul r = A.smul (s * r) ∧ A.smul 1 = A) := by
  refine ⟨⟨?_, ?_, ?_, ?_, ?_, ?_, ?_, ?_, ?_, ?_, ?_, ?_⟩, ?_, ?_, ?_, ?_, ?_, ?_, ?_, ?_, ?_, ?_, ?_, ?_⟩ <;>
    (ext <;> simp [LocalAV.add, LocalAV.sub, LocalAV.smul, LocalAV.zero, GlobalAV.add, GlobalAV.sub, GlobalAV.smul,
      GlobalAV.zero] <;> ring)

/-- **C34 (b).** Sum and difference of Euler rates and of rotation-matrix derivatives act componentwise: they are commutative
groups with the default-constructed value as zero. -/
theorem C34_diff_groups (a b c : XyzDiff) (A B C : ZyxDiff) (m n o : MatDiff) :
    (a.add b = XyzDiff.mk3 (a.x + b.x) (a.y + b.y) (a.z + b.z) ∧ a.sub b = XyzDiff.mk3 (a.x - b.x) (a.y - b.y) (a.z - b.z) ∧
      a.add b = b.add a ∧ (a.add b).add c = a.add (b.add c) ∧ a.add XyzDiff.zero = a ∧ (a.sub b).add b = a ∧
      a.sub a = XyzDiff.zero) ∧
    (A.add B = ZyxDiff.mk3 (A.z + B.z) (A.y + B.y) (A.x + B.x) ∧ A.sub B = ZyxDiff.mk3 (A.z - B.z) (A.y - B.y) (A.x - B.x) ∧
      A.add B = B.add A ∧ (A.add B).add C = A.add (B.add C) ∧ A.add ZyxDiff.zero = A ∧ (A.sub B).add B = A ∧
      A.sub A = ZyxDiff.zero) ∧
    ((∀ u, (m.add n).m.mulVec u = m.m.mulVec u + n.m.mulVec u) ∧ (∀ u, (m.sub n).m.mulVec u = m.m.mulVec u - n.m.mulVec u) ∧
      m.add n = n.add m ∧ (m.add n).add o = m.add (n.add o) ∧ m.add MatDiff.zero = m ∧ (m.sub n).add n = m ∧
      m.sub m = MatDiff.zero) := by
  refine ⟨⟨?_, ?_, ?_, ?_, ?_, ?_, ?_⟩, ⟨?_, ?_, ?_, ?_, ?_, ?_, ?_⟩, ?_, ?_, ?_, ?_, ?_, ?_, ?_⟩ <;> (try intro u) <;>
    (ext <;> simp [XyzDiff.add, XyzDiff.sub, XyzDiff.zero, XyzDiff.mk3, XyzDiff.x, XyzDiff.y, XyzDiff.z,
      ZyxDiff.add, ZyxDiff.sub, ZyxDiff.zero, ZyxDiff.mk3, ZyxDiff.x, ZyxDiff.y, ZyxDiff.z,
      MatDiff.add, MatDiff.sub, MatDiff.zero] <;> ring)

/-- **C34 (c).** The conversions between frames and derivative classes are linear: converting a sum (a multiple) gives the sum
(the multiple) of the conversions. -/
theorem C34_conversions_linear (P : Prec) (k : Kind) (r : Rep k) (hv : Valid k r) (hx : ExactBranch P .mat k r)
    (w w' : LocalAV) (W W' : GlobalAV) (s : ℝ) (e : EulXyz) (f : EulZyx) (d d' : XyzDiff) (z z' : ZyxDiff) :
    globalOfLocal P k r (w.add w') = (globalOfLocal P k r w).add (globalOfLocal P k r w') ∧
    globalOfLocal P k r (w.smul s) = (globalOfLocal P k r w).smul s ∧
    localOfGlobal P k r (W.add W') = (localOfGlobal P k r W).add (localOfGlobal P k r W') ∧
    localOfGlobal P k r (W.smul s) = (localOfGlobal P k r W).smul s ∧
    localOfXyzDiff e (d.add d') = (localOfXyzDiff e d).add (localOfXyzDiff e d') ∧
    globalOfXyzDiff e (d.add d') = (globalOfXyzDiff e d).add (globalOfXyzDiff e d') ∧
    localOfZyxDiff f (z.add z') = (localOfZyxDiff f z).add (localOfZyxDiff f z') := by
  have sm : ∀ (u : V3), (⟨u.x * s, u.y * s, u.z * s⟩ : V3) = s • u := fun u => by ext <;> simp [mul_comm]
  obtain ⟨hv', -⟩ := inverted_spec hv
  have hx' := exact_mat_inverted (P := P) hx
  refine ⟨GlobalAV.ext ?_, GlobalAV.ext ?_, LocalAV.ext ?_, LocalAV.ext ?_, LocalAV.ext ?_, GlobalAV.ext ?_,
    LocalAV.ext ?_⟩
  · exact (C10_rotate_isometry P k r hv hx w.v w'.v s).1
  · simp only [globalOfLocal, GlobalAV.smul, LocalAV.smul, sm]
    exact (C10_rotate_isometry P k r hv hx w.v w.v s).2.1
  · exact (C10_rotate_isometry P k _ hv' hx' W.v W'.v s).1
  · simp only [localOfGlobal, GlobalAV.smul, LocalAV.smul, sm]
    exact (C10_rotate_isometry P k _ hv' hx' W.v W.v s).2.1
  · exact M3.mulVec_add _ _ _
  · exact M3.mulVec_add _ _ _
  · exact M3.mulVec_add _ _ _

/-! ## C53: mixed-frame sums -/

/-- **C53, what the code does.** `local + global` (and `global + local`) is the sum of the two velocities expressed in the left
operand's frame exactly when the rotation leaves the right operand's coordinates unchanged.  (The operator has no access to the
rotation, so it cannot convert; the property fails in general.) -/
theorem C53_mixed_frame_sum_partial (P : Prec) (k : Kind) (r : Rep k) (hv : Valid k r) (hx : ExactBranch P .mat k r)
    (w : LocalAV) (W : GlobalAV) :
    (w.addGlobal W = w.add (localOfGlobal P k r W) ↔ act k r W.v = W.v) ∧
    (W.addLocal w = W.add (globalOfLocal P k r w) ↔ act k r w.v = w.v) := by
  obtain ⟨h1, h2, h3, h4, -⟩ := C28_local_global P k r hv hx w W
  have key : ∀ a b c : V3, a + b = a + c ↔ b = c := fun a b c => add_right_inj a
  constructor
  · have : w.addGlobal W = w.add (localOfGlobal P k r W) ↔ W.v = (localOfGlobal P k r W).v := by
      rw [← key w.v, LocalAV.ext_iff]; rfl
    rw [this]
    constructor
    · intro h; rw [h]; rw [h4]; exact h
    · intro h
      obtain ⟨-, -, -, h5, -⟩ := C28_local_global P k r hv hx ⟨W.v⟩ W
      have h6 := (C28_local_global P k r hv hx ⟨W.v⟩ W).1
      have h7 : globalOfLocal P k r ⟨W.v⟩ = W := GlobalAV.ext
        ((C28_local_global P k r hv hx ⟨W.v⟩ W).2.2.1.trans h)
      rw [h7] at h6
      rw [h6]
  · have : W.addLocal w = W.add (globalOfLocal P k r w) ↔ w.v = (globalOfLocal P k r w).v := by
      rw [← key W.v, GlobalAV.ext_iff]; rfl
    rw [this, h3]
    exact eq_comm

/-- **C53 (counterexample).** A body rotated by 90° about z whose local velocity is zero, plus a global velocity about x: the
result read as a local velocity is not the velocity of the motion. -/
theorem C53_mixed_frame_sum_counterexample (P : Prec) :
    ∃ (m : M3) (w : LocalAV) (W : GlobalAV), Valid .mat m ∧
      w.addGlobal W ≠ w.add (localOfGlobal P .mat m W) ∧ W.addLocal ⟨W.v⟩ ≠ W.add (globalOfLocal P .mat m ⟨W.v⟩) := by
  have hm : Valid .mat (⟨0, -1, 0, 1, 0, 0, 0, 0, 1⟩ : M3) := by
    refine ⟨by ext <;> simp, by simp [M3.det]⟩
  have hne : act .mat (⟨0, -1, 0, 1, 0, 0, 0, 0, 1⟩ : M3) ⟨1, 0, 0⟩ ≠ ⟨1, 0, 0⟩ := fun h => by
    have := congrArg V3.x h
    simp [act] at this
  refine ⟨_, LocalAV.zero, ⟨⟨1, 0, 0⟩⟩, hm, fun h => ?_, fun h => ?_⟩
  · exact hne (((C53_mixed_frame_sum_partial P .mat _ hm trivial _ _).1).mp h)
  · exact hne (((C53_mixed_frame_sum_partial P .mat _ hm trivial ⟨⟨1, 0, 0⟩⟩ _).2).mp h)

/-! ## C50: composition of moving rotations -/

lemma hasDerivM_congr_ev {f g : ℝ → M3} {d : M3} {t : ℝ} (h : HasDerivM f d t) (e : ∀ᶠ s in nhds t, g s = f s) :
    HasDerivM g d t := by
  obtain ⟨⟨h0, h1, h2⟩, ⟨h3, h4, h5⟩, h6, h7, h8⟩ := h
  refine ⟨⟨h0.congr_of_eventuallyEq ?_, h1.congr_of_eventuallyEq ?_, h2.congr_of_eventuallyEq ?_⟩,
    ⟨h3.congr_of_eventuallyEq ?_, h4.congr_of_eventuallyEq ?_, h5.congr_of_eventuallyEq ?_⟩,
    h6.congr_of_eventuallyEq ?_, h7.congr_of_eventuallyEq ?_, h8.congr_of_eventuallyEq ?_⟩ <;>
  exact e.mono fun s hs => by simp only [hs]

/-- **C50 (a).** The angular velocity of a concatenation of two moving rotations, of any classes: the global velocities add after
rotating the right one, the local ones after rotating the left one back. -/
theorem C50_velocity_of_product (P : Prec) (k₁ k₂ : Kind) (A : ℝ → Rep k₁) (B : ℝ → Rep k₂) (t : ℝ)
    (h : ∀ᶠ s in nhds t, Valid k₁ (A s) ∧ Valid k₂ (B s) ∧ RvClear P k₁ (den k₁ (A s)) ∧ RvClear P k₂ (den k₂ (B s)) ∧
      RvClear P k₁ (den k₁ (A s) * den k₂ (B s))) (a b : V3) :
    (IsGlobalVelocity k₁ A t a → IsGlobalVelocity k₂ B t b →
      IsGlobalVelocity k₁ (fun s => mult P k₁ k₂ (A s) (B s)) t (a + rotate P k₁ (A t) b)) ∧
    (IsLocalVelocity k₁ A t a → IsLocalVelocity k₂ B t b →
      IsLocalVelocity k₁ (fun s => mult P k₁ k₂ (A s) (B s)) t (inverseRotate P k₂ (B t) a + b)) := by
  obtain ⟨va, vb, ca, cb, cab⟩ := h.self_of_nhds
  have hA := den_isSO3 va
  have hB := den_isSO3 vb
  have e : ∀ᶠ s in nhds t, den k₁ (mult P k₁ k₂ (A s) (B s)) = den k₁ (A s) * den k₂ (B s) :=
    h.mono fun s ⟨v1, v2, c1, c2, c3⟩ => (mult_spec v1 v2 c1 c2 c3).2
  have xa : ExactBranch P .mat k₁ (A t) := exact_to_nonrv (by decide) ca
  have xb : ExactBranch P .mat k₂ (B t) := exact_to_nonrv (by decide) cb
  constructor
  · intro ha hb
    rw [isGlobalVelocity_iff] at ha hb ⊢
    have := hasDerivM_congr_ev (global_mul ha hb hA) e
    rw [rotate_spec va xa]
    rw [← e.self_of_nhds] at this
    exact this
  · intro ha hb
    rw [isLocalVelocity_iff] at ha hb ⊢
    have := hasDerivM_congr_ev (local_mul ha hb hB) e
    rw [inverseRotate, rotate_spec (inverted_spec vb).1 (exact_mat_inverted xb), (inverted_spec vb).2]
    rw [← e.self_of_nhds] at this
    exact this

/-- **C50 (b).** The angular velocity of the inverse of a moving rotation: with `R` the rotation, the body-frame velocity of
`R⁻¹` is minus the fixed-frame velocity of `R` and vice versa. -/
theorem C50_velocity_of_inverse (k : Kind) (A : ℝ → Rep k) (t : ℝ) (h : ∀ᶠ s in nhds t, Valid k (A s)) (a : V3) :
    (IsGlobalVelocity k A t a → IsLocalVelocity k (fun s => inverted k (A s)) t (-a)) ∧
    (IsLocalVelocity k A t a → IsGlobalVelocity k (fun s => inverted k (A s)) t (-a)) := by
  have e : ∀ᶠ s in nhds t, den k (inverted k (A s)) = (den k (A s)).transpose := h.mono fun s hs => (inverted_spec hs).2
  have sk : ∀ x : V3, (skew x).transpose = skew (-x) := fun x => by ext <;> simp [skew]
  constructor
  · intro ha
    rw [isGlobalVelocity_iff] at ha
    rw [isLocalVelocity_iff]
    have := hasDerivM_congr_ev ha.transpose e
    rw [M3.transpose_mul, ← e.self_of_nhds, sk] at this
    exact this
  · intro ha
    rw [isLocalVelocity_iff] at ha
    rw [isGlobalVelocity_iff]
    have := hasDerivM_congr_ev ha.transpose e
    rw [M3.transpose_mul, ← e.self_of_nhds, sk] at this
    exact this

/-! ## C51: the velocity does not depend on the parameterization -/

/-- **C51 (a).** Two moving rotations, of possibly different classes, that represent the same rotation at all times near `t` have
the same angular velocities at `t`. -/
theorem C51_velocity_representation_independent (k₁ k₂ : Kind) (A : ℝ → Rep k₁) (B : ℝ → Rep k₂) (t : ℝ)
    (h : ∀ᶠ s in nhds t, SameRot (A s) (B s)) (w : V3) :
    (IsGlobalVelocity k₁ A t w ↔ IsGlobalVelocity k₂ B t w) ∧ (IsLocalVelocity k₁ A t w ↔ IsLocalVelocity k₂ B t w) := by
  have e : ∀ᶠ s in nhds t, den k₁ (A s) = den k₂ (B s) := h.mono fun s hs => (sameRot_iff ..).mp hs
  have e' : ∀ᶠ s in nhds t, den k₂ (B s) = den k₁ (A s) := e.mono fun s hs => hs.symm
  rw [isGlobalVelocity_iff, isGlobalVelocity_iff, isLocalVelocity_iff, isLocalVelocity_iff, e.self_of_nhds]
  exact ⟨⟨fun h => hasDerivM_congr_ev h e', fun h => hasDerivM_congr_ev h e⟩,
    ⟨fun h => hasDerivM_congr_ev h e', fun h => hasDerivM_congr_ev h e⟩⟩

/-- **C51 (b).** Hence the velocities computed from the derivative classes of a quaternion curve, a matrix curve and Euler-angle
curves describing the same motion all agree. -/
theorem C51_derivative_classes_agree (q : ℝ → Quat) (m : ℝ → M3) (e : ℝ → EulXyz) (f : ℝ → EulZyx) (dq : QuatDiff)
    (dm : MatDiff) (de : XyzDiff) (df : ZyxDiff) (t : ℝ)
    (hq : ∀ᶠ s in nhds t, Valid .quat (q s)) (hm : ∀ᶠ s in nhds t, Valid .mat (m s))
    (dhq : HasDerivQ q dq.q t) (dhm : HasDerivM m dm.m t) (dhe : HasDerivV (fun s => (e s).v) de.v t)
    (dhf : HasDerivV (fun s => (f s).v) df.v t)
    (s1 : ∀ᶠ s in nhds t, SameRot (k₁ := .mat) (k₂ := .quat) (m s) (q s))
    (s2 : ∀ᶠ s in nhds t, SameRot (k₁ := .xyz) (k₂ := .quat) (e s) (q s))
    (s3 : ∀ᶠ s in nhds t, SameRot (k₁ := .zyx) (k₂ := .quat) (f s) (q s)) :
    localOfMatDiff (m t) dm = localOfQuatDiff (q t) dq ∧ localOfXyzDiff (e t) de = localOfQuatDiff (q t) dq ∧
    localOfZyxDiff (f t) df = localOfQuatDiff (q t) dq ∧
    globalOfMatDiff (m t) dm = globalOfQuatDiff (q t) dq ∧ globalOfXyzDiff (e t) de = globalOfQuatDiff (q t) dq := by
  obtain ⟨lq, gq, -⟩ := C29_quaternion_curve q dq t hq dhq
  obtain ⟨lm, gm, -⟩ := C30_matrix_curve m dm t hm dhm
  obtain ⟨le, ge⟩ := C31_xyz_rates e de t dhe
  have lf := C32_zyx_rates f df t dhf
  have vq := hq.self_of_nhds
  refine ⟨LocalAV.ext ?_, LocalAV.ext ?_, LocalAV.ext ?_, GlobalAV.ext ?_, GlobalAV.ext ?_⟩
  · exact isLocalVelocity_unique (k := .quat) vq ((C51_velocity_representation_independent .mat .quat m q t s1 _).2.mp lm) lq
  · exact isLocalVelocity_unique (k := .quat) vq ((C51_velocity_representation_independent .xyz .quat e q t s2 _).2.mp le) lq
  · exact isLocalVelocity_unique (k := .quat) vq ((C51_velocity_representation_independent .zyx .quat f q t s3 _).2.mp lf) lq
  · exact isGlobalVelocity_unique (k := .quat) vq ((C51_velocity_representation_independent .mat .quat m q t s1 _).1.mp gm) gq
  · exact isGlobalVelocity_unique (k := .quat) vq ((C51_velocity_representation_independent .xyz .quat e q t s2 _).1.mp ge) gq

/-- non-vacuity of C51 (b): rotation about z with rate 2 in all four parameterizations. -/
example (t : ℝ) : ∃ (q : ℝ → Quat) (m : ℝ → M3) (e : ℝ → EulXyz) (f : ℝ → EulZyx),
    (∀ s, Valid .quat (q s) ∧ Valid .mat (m s) ∧ SameRot (k₁ := .mat) (k₂ := .quat) (m s) (q s) ∧
      SameRot (k₁ := .xyz) (k₂ := .quat) (e s) (q s) ∧ SameRot (k₁ := .zyx) (k₂ := .quat) (f s) (q s)) ∧
    (∃ d, HasDerivQ q d t) ∧ (∃ d, HasDerivV (fun s => (e s).v) d t) ∧ (∃ d, HasDerivV (fun s => (f s).v) d t) := by
  have h2 : HasDerivAt (fun s : ℝ => 2 * s) 2 t := by simpa using (hasDerivAt_id t).const_mul 2
  refine ⟨fun s => ⟨Real.cos s, 0, 0, Real.sin s⟩, fun s => rZ (2 * s), fun s => ⟨⟨0, 0, 2 * s⟩⟩, fun s => ⟨⟨2 * s, 0, 0⟩⟩,
    fun s => ⟨?_, rZ_isSO3 _, ?_, ?_, ?_⟩,
    ⟨⟨-Real.sin t, 0, 0, Real.cos t⟩, Real.hasDerivAt_cos t, hasDerivAt_const _ _, hasDerivAt_const _ _, Real.hasDerivAt_sin t⟩,
    ⟨⟨0, 0, 2⟩, hasDerivAt_const _ _, hasDerivAt_const _ _, h2⟩, ⟨⟨2, 0, 0⟩, h2, hasDerivAt_const _ _, hasDerivAt_const _ _⟩⟩
  · change Real.cos s ^ 2 + 0 ^ 2 + 0 ^ 2 + Real.sin s ^ 2 = 1
    have := Real.sin_sq_add_cos_sq s; linarith
  all_goals
    rw [sameRot_iff, den_eq, den_eq]
    have := Real.sin_sq_add_cos_sq s
    ext <;> simp [dmat, sMat, rX, rY, rZ, EulXyz.x, EulXyz.y, EulXyz.z, EulZyx.x, EulZyx.y, EulZyx.z, Real.cos_two_mul,
      Real.sin_two_mul] <;> linarith

/-! ## C52: products of rotations and quaternion derivatives -/

/-- **C52 (a).** Multiplying the derivative of a moving unit quaternion by a fixed rotation (of any class) on the right or the left
gives the derivative of the product. -/
theorem C52_product_derivative (P : Prec) (k : Kind) (r : Rep k) (q : ℝ → Quat) (d : QuatDiff) (t : ℝ)
    (hd : HasDerivQ q d.q t) :
    HasDerivQ (fun s => (mult P .quat k (q s) r : Quat)) (quatDiffMulRot P k d r).q t ∧
    HasDerivQ (fun s => (mult P .quat .quat (conv P .quat k r) (q s) : Quat)) (rotMulQuatDiff P k r d).q t := by
  have e1 : ∀ s, (mult P .quat k (q s) r : Quat) = q s * (conv P .quat k r : Quat) := fun s => by cases k <;> rfl
  have e2 : ∀ s, (mult P .quat .quat (conv P .quat k r) (q s) : Quat) = (conv P .quat k r : Quat) * q s := fun s => rfl
  obtain ⟨hw, hx, hy, hz⟩ := hd
  simp only [e1, e2, quatDiffMulRot, rotMulQuatDiff]
  generalize (conv P .quat k r : Quat) = c
  refine ⟨⟨?_, ?_, ?_, ?_⟩, ?_, ?_, ?_, ?_⟩
  · exact (((hw.mul_const c.w).sub (hx.mul_const c.x)).sub (hy.mul_const c.y)).sub (hz.mul_const c.z)
  · exact (((hw.mul_const c.x).add (hx.mul_const c.w)).add (hy.mul_const c.z)).sub (hz.mul_const c.y)
  · exact (((hw.mul_const c.y).add (hy.mul_const c.w)).add (hz.mul_const c.x)).sub (hx.mul_const c.z)
  · exact (((hw.mul_const c.z).add (hz.mul_const c.w)).add (hx.mul_const c.y)).sub (hy.mul_const c.x)
  · exact (((hw.const_mul c.w).sub (hx.const_mul c.x)).sub (hy.const_mul c.y)).sub (hz.const_mul c.z)
  · exact (((hx.const_mul c.w).add (hw.const_mul c.x)).add (hz.const_mul c.y)).sub (hy.const_mul c.z)
  · exact (((hy.const_mul c.w).add (hw.const_mul c.y)).add (hx.const_mul c.z)).sub (hz.const_mul c.x)
  · exact (((hz.const_mul c.w).add (hw.const_mul c.z)).add (hy.const_mul c.x)).sub (hx.const_mul c.y)

/-- **C52 (b).** A fixed rotation applied on the left does not change the body-frame velocity, one applied on the right does not
change the fixed-frame velocity. -/
theorem C52_velocity_invariance (P : Prec) (k : Kind) (r : Rep k) (hv : Valid k r) (hc : RvClear P k (den k r)) (q : Quat)
    (d : QuatDiff) :
    localOfQuatDiff ((conv P .quat k r : Quat) * q) (rotMulQuatDiff P k r d) = localOfQuatDiff q d ∧
    globalOfQuatDiff (q * (conv P .quat k r : Quat)) (quatDiffMulRot P k d r) = globalOfQuatDiff q d := by
  have h := (conv_nonrv (P := P) (d := .quat) hv (by decide) hc).1
  simp only [rotMulQuatDiff, quatDiffMulRot]
  generalize (conv P .quat k r : Quat) = c at h ⊢
  have h1 : c.w ^ 2 + c.x ^ 2 + c.y ^ 2 + c.z ^ 2 = 1 := h
  constructor
  · apply LocalAV.ext
    rw [mulVec_local, mulVec_local]
    ext <;> simp only [Quat.mul_w, Quat.mul_x, Quat.mul_y, Quat.mul_z]
    · linear_combination (2 * (-q.x * d.q.w + q.w * d.q.x + q.z * d.q.y - q.y * d.q.z)) * h1
    · linear_combination (2 * (-q.y * d.q.w - q.z * d.q.x + q.w * d.q.y + q.x * d.q.z)) * h1
    · linear_combination (2 * (-q.z * d.q.w + q.y * d.q.x - q.x * d.q.y + q.w * d.q.z)) * h1
  · apply GlobalAV.ext
    rw [mulVec_global, mulVec_global]
    ext <;> simp only [Quat.mul_w, Quat.mul_x, Quat.mul_y, Quat.mul_z]
    · linear_combination (2 * (-q.x * d.q.w + q.w * d.q.x - q.z * d.q.y + q.y * d.q.z)) * h1
    · linear_combination (2 * (-q.y * d.q.w + q.z * d.q.x + q.w * d.q.y - q.x * d.q.z)) * h1
    · linear_combination (2 * (-q.z * d.q.w - q.y * d.q.x + q.x * d.q.y + q.w * d.q.z)) * h1

end Kindr
