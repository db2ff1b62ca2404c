import Verif.Props.Calculus
import Verif.Props.EulerRates

/-!
# C33, continued: angular accelerations from Euler rates, and back
-/

set_option autoImplicit false

open Classical

noncomputable section
namespace Kindr
open Spec

private lemma mulVec_curve {f : ℝ → M3} {f' : M3} {g : ℝ → V3} {g' : V3} {t : ℝ} (hf : HasDerivM f f' t)
    (hg : HasDerivV g g' t) : HasDerivV (fun s => (f s).mulVec (g s)) (f'.mulVec (g t) + (f t).mulVec g') t := by
  obtain ⟨⟨a0, a1, a2⟩, ⟨a3, a4, a5⟩, a6, a7, a8⟩ := hf
  obtain ⟨g0, g1, g2⟩ := hg
  refine ⟨?_, ?_, ?_⟩
  · exact (((a0.mul g0).add (a1.mul g1)).add (a2.mul g2)).congr_deriv (by simp; ring)
  · exact (((a3.mul g0).add (a4.mul g1)).add (a5.mul g2)).congr_deriv (by simp; ring)
  · exact (((a6.mul g0).add (a7.mul g1)).add (a8.mul g2)).congr_deriv (by simp; ring)

/-- **C33 (c).** Angular acceleration.  Let the angles `e` move with rates `d` and let `w`, `W` be the true local and global angular
velocity near the time `t`.  If the rates have the derivative `dd` at `t`, then the velocities have the derivatives that the second-derivative
matrices give: `w' = B'(e, d) d + B(e) dd`. -/
theorem C33_acceleration (e : ℝ → EulXyz) (d : ℝ → XyzDiff) (dd : V3) (w W : ℝ → V3) (t : ℝ)
    (hd : ∀ᶠ s in nhds t, HasDerivV (fun s => (e s).v) (d s).v s) (hdd : HasDerivV (fun s => (d s).v) dd t)
    (hw : ∀ᶠ s in nhds t, IsLocalVelocity .xyz e s (w s)) (hW : ∀ᶠ s in nhds t, IsGlobalVelocity .xyz e s (W s)) :
    HasDerivV w ((xyzSecondDiffToLocal (d t) (e t)).mulVec (d t).v + (xyzDiffToLocal (e t)).mulVec dd) t ∧
    HasDerivV W ((xyzSecondDiffToGlobal (d t) (e t)).mulVec (d t).v + (xyzDiffToGlobal (e t)).mulVec dd) t := by
  obtain ⟨h1, h2⟩ := C33_second_diff_to_velocity e (d t) t hd.self_of_nhds
  constructor
  · refine HasDerivV.congr_ev (mulVec_curve h1 hdd) ?_
    filter_upwards [hd, hw] with s hs hws
    exact isLocalVelocity_unique (k := .xyz) trivial hws (C31_xyz_rates e (d s) s hs).1
  · refine HasDerivV.congr_ev (mulVec_curve h2 hdd) ?_
    filter_upwards [hd, hW] with s hs hws
    exact isGlobalVelocity_unique (k := .xyz) trivial hws (C31_xyz_rates e (d s) s hs).2

/-- **C33 (d).** And back: away from gimbal lock the second derivatives of the angles are what the velocity-to-rate matrix and its
derivative give from the angular velocity and its derivative: `dd = C'(e, d) w + C(e) w'`, local and global. -/
theorem C33_angle_acceleration (e : ℝ → EulXyz) (d : ℝ → XyzDiff) (w W : ℝ → V3) (w' W' : V3) (t : ℝ)
    (hc : Real.cos (e t).y ≠ 0)
    (hd : ∀ᶠ s in nhds t, HasDerivV (fun s => (e s).v) (d s).v s)
    (hw : ∀ᶠ s in nhds t, IsLocalVelocity .xyz e s (w s)) (hW : ∀ᶠ s in nhds t, IsGlobalVelocity .xyz e s (W s)) :
    ∃ M M' N N', xyzLocalToDiff (e t) = .ok M ∧ xyzLocalToSecondDiff (d t) (e t) = .ok M' ∧
      xyzGlobalToDiff (e t) = .ok N ∧ xyzGlobalToSecondDiff (d t) (e t) = .ok N' ∧
      (HasDerivV w w' t → HasDerivV (fun s => (d s).v) (M'.mulVec (w t) + M.mulVec w') t) ∧
      (HasDerivV W W' t → HasDerivV (fun s => (d s).v) (N'.mulVec (W t) + N.mulVec W') t) := by
  obtain ⟨f, g, M', N', hf, hg, e1, e2, h1, h2⟩ := (C33_velocity_to_second_diff e (d t) t hd.self_of_nhds).2.2 hc
  refine ⟨f t, M', g t, N', hf.self_of_nhds, e1, hg.self_of_nhds, e2, fun h => ?_, fun h => ?_⟩
  · refine HasDerivV.congr_ev (mulVec_curve h1 h) ?_
    filter_upwards [hd, hw, hf] with s hs hws hfs
    have : w s = (xyzDiffToLocal (e s)).mulVec (d s).v :=
      isLocalVelocity_unique (k := .xyz) trivial hws (C31_xyz_rates e (d s) s hs).1
    rw [this, M3.mulVec_mulVec, ((C31_xyz_inverse_mapping (e s)).2.2.1 _ hfs).1, M3.one_mulVec]
  · refine HasDerivV.congr_ev (mulVec_curve h2 h) ?_
    filter_upwards [hd, hW, hg] with s hs hws hfs
    have : W s = (xyzDiffToGlobal (e s)).mulVec (d s).v :=
      isGlobalVelocity_unique (k := .xyz) trivial hws (C31_xyz_rates e (d s) s hs).2
    rw [this, M3.mulVec_mulVec, ((C31_xyz_inverse_mapping (e s)).2.2.2 _ hfs).1, M3.one_mulVec]

/-- **C50 (c).** The same in one frame: the fixed-frame velocity of the inverse is `-A⁻¹ a` with `a` the fixed-frame velocity of `A`, and
its body-frame velocity is `-A a` with `a` the body-frame velocity of `A`. -/
theorem C50_inverse_same_frame (P : Prec) (k : Kind) (A : ℝ → Rep k) (t : ℝ) (h : ∀ᶠ s in nhds t, Valid k (A s))
    (hx : ExactBranch P .mat k (A t)) (a : V3) :
    (IsGlobalVelocity k A t a → IsGlobalVelocity k (fun s => inverted k (A s)) t (-inverseRotate P k (A t) a)) ∧
    (IsLocalVelocity k A t a → IsLocalVelocity k (fun s => inverted k (A s)) t (-rotate P k (A t) a)) := by
  have hm := C28_same_motion P k A t h.self_of_nhds hx ⟨a⟩ ⟨a⟩
  constructor
  · intro ha
    exact (C50_velocity_of_inverse k A t h _).2 (hm.2.1.mp ha)
  · intro ha
    exact (C50_velocity_of_inverse k A t h _).1 (hm.1.mp ha)

/-- Non-vacuity: a motion with angular acceleration, at a time when it is not at gimbal lock. -/
example : ∃ (e : ℝ → EulXyz) (d : ℝ → XyzDiff) (w W : ℝ → V3), Real.cos (e 1).y ≠ 0 ∧
    (∀ s, HasDerivV (fun s => (e s).v) (d s).v s) ∧ HasDerivV (fun s => (d s).v) ⟨2, 0, 0⟩ 1 ∧
    (∀ s, IsLocalVelocity .xyz e s (w s)) ∧ (∀ s, IsGlobalVelocity .xyz e s (W s)) := by
  have hd : ∀ s, HasDerivV (fun s => (⟨⟨s ^ 2, s, 0⟩⟩ : EulXyz).v) (⟨⟨2 * s, 1, 0⟩⟩ : XyzDiff).v s := by
    intro s
    refine ⟨?_, hasDerivAt_id s, hasDerivAt_const _ _⟩
    exact (hasDerivAt_pow 2 s).congr_deriv (by simp)
  refine ⟨fun s => ⟨⟨s ^ 2, s, 0⟩⟩, fun s => ⟨⟨2 * s, 1, 0⟩⟩, _, _, Real.cos_one_pos.ne', hd, ?_,
    fun s => (C31_xyz_rates _ _ s (hd s)).1, fun s => (C31_xyz_rates _ _ s (hd s)).2⟩
  refine ⟨?_, hasDerivAt_const _ _, hasDerivAt_const _ _⟩
  exact ((hasDerivAt_id (1 : ℝ)).const_mul 2).congr_deriv (by simp)

end Kindr
