import Verif.Props.Deriv

/-!
# C31, C32, C33: Euler-angle rates
-/

set_option autoImplicit false

noncomputable section
namespace Kindr
open Spec Filter

lemma skew_add (a b : V3) : skew (a + b) = skew a + skew b := by ext <;> simp [skew] <;> ring
lemma skew_smul (s : ℝ) (a : V3) : skew (s • a) = s • skew a := by ext <;> simp [skew]

/-- Velocities (fixed frame) of a product of moving rotation matrices. -/
lemma global_mul {A B : ℝ → M3} {t : ℝ} {a b : V3} (hA : HasDerivM A (skew a * A t) t)
    (hB : HasDerivM B (skew b * B t) t) (h : IsSO3 (A t)) :
    HasDerivM (fun s => A s * B s) (skew (a + (A t).mulVec b) * (A t * B t)) t := by
  refine (hA.mul hB).congr ?_
  rw [skew_add, add_mul, ← mul_assoc (A t), skew_conj h, mul_assoc, mul_assoc]

/-- Velocities (body frame) of a product of moving rotation matrices. -/
lemma local_mul {A B : ℝ → M3} {t : ℝ} {a b : V3} (hA : HasDerivM A (A t * skew a) t)
    (hB : HasDerivM B (B t * skew b) t) (h : IsSO3 (B t)) :
    HasDerivM (fun s => A s * B s) (A t * B t * skew ((B t).transpose.mulVec a + b)) t := by
  refine (hA.mul hB).congr ?_
  have e : B t * skew ((B t).transpose.mulVec a) = skew a * B t := by
    rw [skew_conj h, M3.mulVec_mulVec, h.1, M3.one_mulVec]
  rw [skew_add, mul_add, mul_assoc, ← e, mul_assoc, mul_assoc]

section
variable {a : ℝ → ℝ} {a' t : ℝ} (h : HasDerivAt a a' t)
include h

lemma hasDerivM_rX : HasDerivM (fun s => rX (a s)) (skew ⟨a', 0, 0⟩ * rX (a t)) t := by
  have hc := h.cos
  have hs := h.sin
  refine ⟨⟨?_, ?_, ?_⟩, ⟨?_, ?_, ?_⟩, ?_, ?_, ?_⟩
  all_goals simp only [rX, skew, M3.mul_m00, M3.mul_m01, M3.mul_m02, M3.mul_m10, M3.mul_m11, M3.mul_m12, M3.mul_m20,
      M3.mul_m21, M3.mul_m22]
  all_goals first
    | exact (hasDerivAt_const t _).congr_deriv (by ring)
    | exact hc.congr_deriv (by ring)
    | exact hs.congr_deriv (by ring)
    | exact hs.neg.congr_deriv (by ring)

lemma hasDerivM_rY : HasDerivM (fun s => rY (a s)) (skew ⟨0, a', 0⟩ * rY (a t)) t := by
  have hc := h.cos
  have hs := h.sin
  refine ⟨⟨?_, ?_, ?_⟩, ⟨?_, ?_, ?_⟩, ?_, ?_, ?_⟩
  all_goals simp only [rY, skew, M3.mul_m00, M3.mul_m01, M3.mul_m02, M3.mul_m10, M3.mul_m11, M3.mul_m12, M3.mul_m20,
      M3.mul_m21, M3.mul_m22]
  all_goals first
    | exact (hasDerivAt_const t _).congr_deriv (by ring)
    | exact hc.congr_deriv (by ring)
    | exact hs.congr_deriv (by ring)
    | exact hs.neg.congr_deriv (by ring)

lemma hasDerivM_rZ : HasDerivM (fun s => rZ (a s)) (skew ⟨0, 0, a'⟩ * rZ (a t)) t := by
  have hc := h.cos
  have hs := h.sin
  refine ⟨⟨?_, ?_, ?_⟩, ⟨?_, ?_, ?_⟩, ?_, ?_, ?_⟩
  all_goals simp only [rZ, skew, M3.mul_m00, M3.mul_m01, M3.mul_m02, M3.mul_m10, M3.mul_m11, M3.mul_m12, M3.mul_m20,
      M3.mul_m21, M3.mul_m22]
  all_goals first
    | exact (hasDerivAt_const t _).congr_deriv (by ring)
    | exact hc.congr_deriv (by ring)
    | exact hs.congr_deriv (by ring)
    | exact hs.neg.congr_deriv (by ring)

lemma hasDerivM_rX' : HasDerivM (fun s => rX (a s)) (rX (a t) * skew ⟨a', 0, 0⟩) t :=
  (hasDerivM_rX h).congr (by ext <;> simp [rX, skew] <;> ring)
lemma hasDerivM_rY' : HasDerivM (fun s => rY (a s)) (rY (a t) * skew ⟨0, a', 0⟩) t :=
  (hasDerivM_rY h).congr (by ext <;> simp [rY, skew] <;> ring)
lemma hasDerivM_rZ' : HasDerivM (fun s => rZ (a s)) (rZ (a t) * skew ⟨0, 0, a'⟩) t :=
  (hasDerivM_rZ h).congr (by ext <;> simp [rZ, skew] <;> ring)
end

/-! ## C31 -/

/-- **C31 (a).** For every differentiable triple of roll, pitch and yaw angles the velocities computed from the rates are the
true body-frame and fixed-frame angular velocities of the rotation. -/
theorem C31_xyz_rates (e : ℝ → EulXyz) (d : XyzDiff) (t : ℝ) (hd : HasDerivV (fun s => (e s).v) d.v t) :
    IsLocalVelocity .xyz e t (localOfXyzDiff (e t) d).v ∧
    IsGlobalVelocity .xyz e t (globalOfXyzDiff (e t) d).v := by
  obtain ⟨hx, hy, hz⟩ := hd
  constructor
  · rw [isLocalVelocity_iff]
    simp only [den_eq, dmat]
    have h := local_mul (local_mul (hasDerivM_rX' hx) (hasDerivM_rY' hy) (rY_isSO3 _)) (hasDerivM_rZ' hz) (rZ_isSO3 _)
    refine HasDerivM.congr h ?_
    congr 1
    congr 1
    ext <;> simp [localOfXyzDiff, xyzDiffToLocal, rY, rZ, EulXyz.y, EulXyz.z] <;> ring
  · rw [isGlobalVelocity_iff]
    simp only [den_eq, dmat]
    have h := global_mul (global_mul (hasDerivM_rX hx) (hasDerivM_rY hy) (rX_isSO3 _)) (hasDerivM_rZ hz)
      (SO3.mul (rX_isSO3 _) (rY_isSO3 _))
    refine HasDerivM.congr h ?_
    congr 1
    congr 1
    ext <;> simp [globalOfXyzDiff, xyzDiffToGlobal, rX, rY, EulXyz.x, EulXyz.y] <;> ring

/-- **C31 (b).** The velocity-to-rate mappings throw exactly at gimbal lock, `cos(pitch) = 0`, and otherwise are two-sided
inverses of the rate-to-velocity mappings. -/
theorem C31_xyz_inverse_mapping (e : EulXyz) :
    (xyzLocalToDiff e = .throws ↔ Real.cos e.y = 0) ∧ (xyzGlobalToDiff e = .throws ↔ Real.cos e.y = 0) ∧
    (∀ m, xyzLocalToDiff e = .ok m → m * xyzDiffToLocal e = 1 ∧ xyzDiffToLocal e * m = 1) ∧
    (∀ m, xyzGlobalToDiff e = .ok m → m * xyzDiffToGlobal e = 1 ∧ xyzDiffToGlobal e * m = 1) := by
  by_cases h : Real.cos e.y = 0
  · simp [xyzLocalToDiff, xyzGlobalToDiff, h]
  · have hz := Real.sin_sq_add_cos_sq e.z
    have hx := Real.sin_sq_add_cos_sq e.x
    refine ⟨by simp [xyzLocalToDiff, h], by simp [xyzGlobalToDiff, h], fun m hm => ?_, fun m hm => ?_⟩
    · simp only [xyzLocalToDiff, h, ne_eq, not_false_eq_true, if_true, Res.ok.injEq] at hm
      subst hm
      constructor
      · ext <;> simp [xyzDiffToLocal] <;> field_simp <;>
          first | done | ring1 | linear_combination hz | linear_combination Real.sin e.y * hz |
            linear_combination -Real.sin e.y * hz
      · ext <;> simp [xyzDiffToLocal] <;> field_simp <;>
          first | done | ring1 | linear_combination hz | linear_combination Real.sin e.y * hz |
            linear_combination -Real.sin e.y * hz
    · simp only [xyzGlobalToDiff, h, ne_eq, not_false_eq_true, if_true, Res.ok.injEq] at hm
      subst hm
      constructor
      · ext <;> simp [xyzDiffToGlobal] <;> field_simp <;>
          first | done | ring1 | linear_combination hx | linear_combination Real.sin e.y * hx |
            linear_combination -Real.sin e.y * hx
      · ext <;> simp [xyzDiffToGlobal] <;> field_simp <;>
          first | done | ring1 | linear_combination hx | linear_combination Real.sin e.y * hx |
            linear_combination -Real.sin e.y * hx

/-- **C31 (c).** At the level of the conversions: rates → local velocity → rates returns the rates, local velocity → rates →
local velocity returns the velocity, and the latter throws exactly at gimbal lock. -/
theorem C31_xyz_roundtrip (e : EulXyz) (d : XyzDiff) (w : LocalAV) :
    (xyzDiffOfLocal e w = .throws ↔ Real.cos e.y = 0) ∧
    (Real.cos e.y ≠ 0 → xyzDiffOfLocal e (localOfXyzDiff e d) = .ok d) ∧
    (∀ d', xyzDiffOfLocal e w = .ok d' → localOfXyzDiff e d' = w) := by
  obtain ⟨h1, -, h3, -⟩ := C31_xyz_inverse_mapping e
  cases hm : xyzLocalToDiff e with
  | throws => simp [xyzDiffOfLocal, hm, ← h1]
  | ok m =>
    obtain ⟨e1, e2⟩ := h3 m hm
    have hc : Real.cos e.y ≠ 0 := fun h => by rw [← h1, hm] at h; simp at h
    refine ⟨by simp [xyzDiffOfLocal, hm, hc], fun _ => ?_, fun d' hd => ?_⟩
    · simp only [xyzDiffOfLocal, hm, localOfXyzDiff, M3.mulVec_mulVec, e1, M3.one_mulVec]
    · simp only [xyzDiffOfLocal, hm, Res.ok.injEq] at hd
      subst hd
      simp only [localOfXyzDiff, M3.mulVec_mulVec, e2, M3.one_mulVec]

/-- non-vacuity of C31: angles and rates where all mappings are defined, and a gimbal-lock configuration. -/
example : Real.cos (EulXyz.mk3 1 0 2).y ≠ 0 ∧ xyzLocalToDiff (EulXyz.mk3 1 (Real.pi / 2) 2) = .throws := by
  refine ⟨by simp [EulXyz.mk3, EulXyz.y], ((C31_xyz_inverse_mapping _).1).mpr (by simp [EulXyz.mk3, EulXyz.y])⟩

/-! ## C32 -/

/-- **C32 (a).** For every differentiable yaw, pitch, roll the local velocity computed from the rates is the true body-frame
angular velocity of the rotation. -/
theorem C32_zyx_rates (e : ℝ → EulZyx) (d : ZyxDiff) (t : ℝ) (hd : HasDerivV (fun s => (e s).v) d.v t) :
    IsLocalVelocity .zyx e t (localOfZyxDiff (e t) d).v := by
  obtain ⟨hz, hy, hx⟩ := hd
  rw [isLocalVelocity_iff]
  simp only [den_eq, dmat]
  have h := local_mul (local_mul (hasDerivM_rZ' hz) (hasDerivM_rY' hy) (rY_isSO3 _)) (hasDerivM_rX' hx) (rX_isSO3 _)
  refine HasDerivM.congr h ?_
  congr 1
  congr 1
  ext <;> simp [localOfZyxDiff, zyxDiffToLocal, rY, rX, EulZyx.y, EulZyx.x] <;> ring

/-- **C32 (b).** The inverse mapping throws exactly at `cos(pitch) = 0` and otherwise is a two-sided inverse. -/
theorem C32_zyx_inverse_mapping (e : EulZyx) :
    (zyxLocalToDiff e = .throws ↔ Real.cos e.y = 0) ∧
    (∀ m, zyxLocalToDiff e = .ok m → m * zyxDiffToLocal e = 1 ∧ zyxDiffToLocal e * m = 1) := by
  by_cases h : Real.cos e.y = 0
  · simp [zyxLocalToDiff, h]
  · have hx := Real.sin_sq_add_cos_sq e.x
    refine ⟨by simp [zyxLocalToDiff, h], fun m hm => ?_⟩
    simp only [zyxLocalToDiff, h, ne_eq, not_false_eq_true, if_true, Res.ok.injEq] at hm
    subst hm
    constructor
    · ext <;> simp [zyxDiffToLocal] <;> field_simp <;>
          first | done | ring1 | linear_combination hx | linear_combination Real.sin e.y * hx |
            linear_combination -Real.sin e.y * hx
    · ext <;> simp [zyxDiffToLocal] <;> field_simp <;>
          first | done | ring1 | linear_combination hx | linear_combination Real.sin e.y * hx |
            linear_combination -Real.sin e.y * hx

/-- **C32 (c).** Round trips at the level of the conversions. -/
theorem C32_zyx_roundtrip (e : EulZyx) (d : ZyxDiff) (w : LocalAV) :
    (zyxDiffOfLocal e w = .throws ↔ Real.cos e.y = 0) ∧
    (Real.cos e.y ≠ 0 → zyxDiffOfLocal e (localOfZyxDiff e d) = .ok d) ∧
    (∀ d', zyxDiffOfLocal e w = .ok d' → localOfZyxDiff e d' = w) := by
  obtain ⟨h1, h3⟩ := C32_zyx_inverse_mapping e
  cases hm : zyxLocalToDiff e with
  | throws => simp [zyxDiffOfLocal, hm, ← h1]
  | ok m =>
    obtain ⟨e1, e2⟩ := h3 m hm
    have hc : Real.cos e.y ≠ 0 := fun h => by rw [← h1, hm] at h; simp at h
    refine ⟨by simp [zyxDiffOfLocal, hm, hc], fun _ => ?_, fun d' hd => ?_⟩
    · simp only [zyxDiffOfLocal, hm, localOfZyxDiff, M3.mulVec_mulVec, e1, M3.one_mulVec]
    · simp only [zyxDiffOfLocal, hm, Res.ok.injEq] at hd
      subst hd
      simp only [localOfZyxDiff, M3.mulVec_mulVec, e2, M3.one_mulVec]

/-- non-vacuity of C32. -/
example : Real.cos (EulZyx.mk3 1 0 2).y ≠ 0 ∧ zyxLocalToDiff (EulZyx.mk3 1 (Real.pi / 2) 2) = .throws := by
  refine ⟨by simp [EulZyx.mk3, EulZyx.y], ((C32_zyx_inverse_mapping _).1).mpr (by simp [EulZyx.mk3, EulZyx.y])⟩

/-! ## C33 -/

/-- **C33 (a).** Along any differentiable angle curve, the two "second diff to angular velocity" matrices are the time
derivatives of the rate-to-velocity matrices. -/
theorem C33_second_diff_to_velocity (e : ℝ → EulXyz) (d : XyzDiff) (t : ℝ) (hd : HasDerivV (fun s => (e s).v) d.v t) :
    HasDerivM (fun s => xyzDiffToLocal (e s)) (xyzSecondDiffToLocal d (e t)) t ∧
    HasDerivM (fun s => xyzDiffToGlobal (e s)) (xyzSecondDiffToGlobal d (e t)) t := by
  obtain ⟨hx, hy, hz⟩ := hd
  have cx := hx.cos
  have sx := hx.sin
  have cy := hy.cos
  have sy := hy.sin
  have cz := hz.cos
  have sz := hz.sin
  refine ⟨⟨⟨?_, ?_, ?_⟩, ⟨?_, ?_, ?_⟩, ?_, ?_, ?_⟩, ⟨?_, ?_, ?_⟩, ⟨?_, ?_, ?_⟩, ?_, ?_, ?_⟩
  all_goals simp only [xyzDiffToLocal, xyzSecondDiffToLocal, xyzDiffToGlobal, xyzSecondDiffToGlobal]
  · exact (cy.mul cz).congr_deriv (by simp only [EulXyz.y, EulXyz.z]; ring)
  · exact sz.congr_deriv (by simp only [EulXyz.z]; ring)
  · exact hasDerivAt_const _ _
  · exact (cy.neg.mul sz).congr_deriv (by simp only [EulXyz.y, EulXyz.z, Pi.neg_apply]; ring)
  · exact cz.congr_deriv (by simp only [EulXyz.z]; ring)
  · exact hasDerivAt_const _ _
  · exact sy.congr_deriv (by simp only [EulXyz.y]; ring)
  · exact hasDerivAt_const _ _
  · exact hasDerivAt_const _ _
  · exact hasDerivAt_const _ _
  · exact hasDerivAt_const _ _
  · exact sy.congr_deriv (by simp only [EulXyz.y]; ring)
  · exact hasDerivAt_const _ _
  · exact cx.congr_deriv (by simp only [EulXyz.x]; ring)
  · exact (sx.neg.mul cy).congr_deriv (by simp only [EulXyz.x, EulXyz.y, Pi.neg_apply]; ring)
  · exact hasDerivAt_const _ _
  · exact sx.congr_deriv (by simp only [EulXyz.x]; ring)
  · exact (cx.mul cy).congr_deriv (by simp only [EulXyz.x, EulXyz.y]; ring)

/-- **C33 (b).** The two "angular velocity to second diff" matrices throw exactly at gimbal lock; elsewhere they are the time
derivatives of the velocity-to-rate matrices (which do not throw near `t` either). -/
theorem C33_velocity_to_second_diff (e : ℝ → EulXyz) (d : XyzDiff) (t : ℝ) (hd : HasDerivV (fun s => (e s).v) d.v t) :
    (xyzLocalToSecondDiff d (e t) = .throws ↔ Real.cos (e t).y = 0) ∧
    (xyzGlobalToSecondDiff d (e t) = .throws ↔ Real.cos (e t).y = 0) ∧
    (Real.cos (e t).y ≠ 0 → ∃ f g M N, (∀ᶠ s in nhds t, xyzLocalToDiff (e s) = .ok (f s)) ∧
      (∀ᶠ s in nhds t, xyzGlobalToDiff (e s) = .ok (g s)) ∧
      xyzLocalToSecondDiff d (e t) = .ok M ∧ xyzGlobalToSecondDiff d (e t) = .ok N ∧
      HasDerivM f M t ∧ HasDerivM g N t) := by
  refine ⟨?_, ?_, fun hc => ?_⟩
  · by_cases h : Real.cos (e t).y = 0 <;> simp [xyzLocalToSecondDiff, h]
  · by_cases h : Real.cos (e t).y = 0 <;> simp [xyzGlobalToSecondDiff, h]
  obtain ⟨hx, hy, hz⟩ := hd
  have cx := hx.cos
  have sx := hx.sin
  have cy := hy.cos
  have sy := hy.sin
  have cz := hz.cos
  have sz := hz.sin
  have hev : ∀ᶠ s in nhds t, Real.cos (e s).y ≠ 0 := cy.continuousAt.eventually_ne hc
  have ic : HasDerivAt (fun s => 1 / Real.cos (e s).y)
      (Real.sin (e t).y * d.v.y / (Real.cos (e t).y * Real.cos (e t).y)) t := by
    have h := cy.inv hc
    simp only [one_div]
    refine h.congr_deriv ?_
    simp only [EulXyz.y]; ring
  have hc' : Real.cos (e t).v.y ≠ 0 := hc
  refine ⟨fun s => ⟨1 / Real.cos (e s).y * Real.cos (e s).z, -(1 / Real.cos (e s).y) * Real.sin (e s).z, 0,
      Real.sin (e s).z, Real.cos (e s).z, 0,
      -(1 / Real.cos (e s).y) * Real.cos (e s).z * Real.sin (e s).y,
      1 / Real.cos (e s).y * Real.sin (e s).z * Real.sin (e s).y, 1⟩,
    fun s => ⟨1, 1 / Real.cos (e s).y * Real.sin (e s).y * Real.sin (e s).x,
      -(1 / Real.cos (e s).y) * Real.sin (e s).y * Real.cos (e s).x, 0, Real.cos (e s).x, Real.sin (e s).x, 0,
      -(1 / Real.cos (e s).y) * Real.sin (e s).x, 1 / Real.cos (e s).y * Real.cos (e s).x⟩, _, _,
    hev.mono fun s hs => ?_, hev.mono fun s hs => ?_, if_pos hc, if_pos hc, ?_, ?_⟩
  · simp only [xyzLocalToDiff, ne_eq, hs, not_false_eq_true, if_true]
  · simp only [xyzGlobalToDiff, ne_eq, hs, not_false_eq_true, if_true]
  · refine ⟨⟨?_, ?_, ?_⟩, ⟨?_, ?_, ?_⟩, ?_, ?_, ?_⟩
    · exact (ic.mul cz).congr_deriv (by simp only [EulXyz.y, EulXyz.z, Pi.mul_apply]; field_simp; ring)
    · exact (ic.neg.mul sz).congr_deriv (by simp only [EulXyz.y, EulXyz.z, Pi.neg_apply, Pi.mul_apply]; field_simp; ring)
    · exact hasDerivAt_const _ _
    · exact sz.congr_deriv (by simp only [EulXyz.z]; ring)
    · exact cz.congr_deriv (by simp only [EulXyz.z]; ring)
    · exact hasDerivAt_const _ _
    · exact ((ic.neg.mul cz).mul sy).congr_deriv (by
        simp only [EulXyz.y, EulXyz.z, Pi.neg_apply, Pi.mul_apply]; field_simp; ring)
    · exact ((ic.mul sz).mul sy).congr_deriv (by simp only [EulXyz.y, EulXyz.z, Pi.mul_apply]; field_simp; ring)
    · exact hasDerivAt_const _ _
  · refine ⟨⟨?_, ?_, ?_⟩, ⟨?_, ?_, ?_⟩, ?_, ?_, ?_⟩
    · exact hasDerivAt_const _ _
    · exact ((ic.mul sy).mul sx).congr_deriv (by simp only [EulXyz.y, EulXyz.x, Pi.mul_apply]; field_simp; ring)
    · exact ((ic.neg.mul sy).mul cx).congr_deriv (by
        simp only [EulXyz.y, EulXyz.x, Pi.neg_apply, Pi.mul_apply]; field_simp; ring)
    · exact hasDerivAt_const _ _
    · exact cx.congr_deriv (by simp only [EulXyz.x]; ring)
    · exact sx.congr_deriv (by simp only [EulXyz.x]; ring)
    · exact hasDerivAt_const _ _
    · exact (ic.neg.mul sx).congr_deriv (by simp only [EulXyz.y, EulXyz.x, Pi.neg_apply, Pi.mul_apply]; field_simp; ring)
    · exact (ic.mul cx).congr_deriv (by simp only [EulXyz.y, EulXyz.x, Pi.mul_apply]; field_simp; ring)

end Kindr
