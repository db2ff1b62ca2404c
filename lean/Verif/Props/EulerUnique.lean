import Verif.Lemmas.EulerUnique

/-!
# C17, C18: `getUnique()` of the Euler angles

The claims are *false* of the code inside the bands `|pitch ∓ π/2| ≤ 1e-3` (equivalently `|cos pitch| ≤ sin 1e-3`):
`EulerAnglesXyz` is off by up to `2e-3` rad there and leaves the documented ranges; `EulerAnglesZyx` uses the wrong sign and
is off by twice the roll angle, up to a half turn.  Both facts are theorems below.  Outside the bands the claims hold.
-/

set_option autoImplicit false

open Classical

noncomputable section
namespace Kindr
open Spec

/-- The pitch angle `p` is outside the two bands of half width `1e-3` around the gimbal-lock angles `±π/2` (mod `2π`). -/
def OutsideGimbalBand (p : ℝ) : Prop := Real.sin (1 / 1000) < |Real.cos p|

lemma xyz_trig_unique {x y z x' y' z' : ℝ} (hx : -Real.pi ≤ x ∧ x < Real.pi) (hx' : -Real.pi ≤ x' ∧ x' < Real.pi)
    (hy : -(Real.pi / 2) < y ∧ y < Real.pi / 2) (hy' : -(Real.pi / 2) < y' ∧ y' < Real.pi / 2)
    (hz : -Real.pi ≤ z ∧ z < Real.pi) (hz' : -Real.pi ≤ z' ∧ z' < Real.pi)
    (h : Real.sin y = Real.sin y') (h1 : Real.cos y * Real.cos z = Real.cos y' * Real.cos z')
    (h2 : Real.cos y * Real.sin z = Real.cos y' * Real.sin z')
    (h3 : Real.cos y * Real.cos x = Real.cos y' * Real.cos x')
    (h4 : Real.cos y * Real.sin x = Real.cos y' * Real.sin x') : x = x' ∧ y = y' ∧ z = z' := by
  have ey : y = y' := Real.injOn_sin ⟨hy.1.le, hy.2.le⟩ ⟨hy'.1.le, hy'.2.le⟩ h
  subst ey
  have hc : Real.cos y ≠ 0 := (Real.cos_pos_of_mem_Ioo ⟨hy.1, hy.2⟩).ne'
  exact ⟨angle_eq_of_cos_sin hx hx' (mul_left_cancel₀ hc h3) (mul_left_cancel₀ hc h4), rfl,
    angle_eq_of_cos_sin hz hz' (mul_left_cancel₀ hc h1) (mul_left_cancel₀ hc h2)⟩

/-! ## C17: EulerAnglesXyz -/

lemma xyzGetUnique_regular {e : EulXyz} (h : OutsideGimbalBand e.y) :
    let u := xyzGetUnique e
    dmat .xyz u = dmat .xyz e ∧ (-Real.pi ≤ u.x ∧ u.x < Real.pi) ∧
      (-(Real.pi / 2) < u.y ∧ u.y < Real.pi / 2) ∧ (-Real.pi ≤ u.z ∧ u.z < Real.pi) ∧ OutsideGimbalBand u.y := by
  intro u
  have ht := eulerTol_pos
  obtain ⟨hx, hy, hz, s, hs, c1, c2, c3, c4, c5, c6⟩ := eulerUniqueBody_regular (v := ⟨e.x, e.y, e.z⟩) h
  refine ⟨?_, hx, ⟨?_, ?_⟩, hz, ?_⟩
  · exact (xyz_sign hs c1 c2 c3 c4 c5 c6).1
  · have := hy.1; change _ < (eulerUniqueBody ⟨e.x, e.y, e.z⟩).y; linarith
  · have := hy.2; change (eulerUniqueBody ⟨e.x, e.y, e.z⟩).y < _; linarith
  · unfold OutsideGimbalBand
    have : Real.cos u.y = s * Real.cos e.y := c3
    have hs1 : |s| = 1 := by
      have := abs_mul_abs_self s
      nlinarith [abs_nonneg s]
    rw [this, abs_mul, hs1, one_mul]; exact h

/-- **C17 (outside the gimbal bands; `_partial`: the bands are excluded, see `C17_within_tolerance` and the refutations).**
`EulerAnglesXyz::getUnique()` keeps the rotation, has roll, yaw in `[-π,π)` and pitch in `(-π/2,π/2)`, is idempotent, and
`operator==` decides equality of rotations. -/
theorem C17_unique_partial (P : Prec) (e f : EulXyz) (he : OutsideGimbalBand e.y) (hf : OutsideGimbalBand f.y) :
    SameRot (k₁ := .xyz) (k₂ := .xyz) (getUnique P .xyz e) e ∧
    (-Real.pi ≤ EulXyz.x (getUnique P .xyz e) ∧ EulXyz.x (getUnique P .xyz e) < Real.pi) ∧
    (-(Real.pi / 2) < EulXyz.y (getUnique P .xyz e) ∧ EulXyz.y (getUnique P .xyz e) < Real.pi / 2) ∧
    (-Real.pi ≤ EulXyz.z (getUnique P .xyz e) ∧ EulXyz.z (getUnique P .xyz e) < Real.pi) ∧
    getUnique P .xyz (getUnique P .xyz e) = getUnique P .xyz e ∧
    (SameRot (k₁ := .xyz) (k₂ := .xyz) e f ↔ getUnique P .xyz e = getUnique P .xyz f) ∧
    (SameRot (k₁ := .xyz) (k₂ := .xyz) e f ↔ eqSame P .xyz e f = true) := by
  have uniq : ∀ e f : EulXyz, OutsideGimbalBand e.y → OutsideGimbalBand f.y →
      dmat .xyz e = dmat .xyz f → xyzGetUnique e = xyzGetUnique f := by
    intro e f he hf h
    obtain ⟨d1, x1, y1, z1, -⟩ := xyzGetUnique_regular he
    obtain ⟨d2, x2, y2, z2, -⟩ := xyzGetUnique_regular hf
    have hd := d1.trans (h.trans d2.symm)
    have m00 := congrArg M3.m00 hd
    have m01 := congrArg M3.m01 hd
    have m02 := congrArg M3.m02 hd
    have m12 := congrArg M3.m12 hd
    have m22 := congrArg M3.m22 hd
    simp [dmat, rX, rY, rZ] at m00 m01 m02 m12 m22
    obtain ⟨a, b, c⟩ := xyz_trig_unique x1 x2 y1 y2 z1 z2 m02 m00 m01 (by linarith) (by linarith)
    exact EulXyz.ext (V3.ext a b c)
  obtain ⟨d1, x1, y1, z1, b1⟩ := xyzGetUnique_regular he
  obtain ⟨d2, x2, y2, z2, b2⟩ := xyzGetUnique_regular hf
  have key : SameRot (k₁ := .xyz) (k₂ := .xyz) e f ↔ xyzGetUnique e = xyzGetUnique f := by
    rw [sameRot_iff, den_eq, den_eq]
    exact ⟨uniq e f he hf, fun h => d1.symm.trans ((congrArg (dmat .xyz) h).trans d2)⟩
  refine ⟨by rw [sameRot_iff, den_eq, den_eq]; exact d1, x1, y1, z1, uniq _ _ b1 he d1, key, key.trans ?_⟩
  refine Iff.trans ?_ (decide_eq_true_iff (p := (xyzGetUnique e).v = (xyzGetUnique f).v)).symm
  exact ⟨fun h => congrArg _ h, fun h => EulXyz.ext h⟩

/-- non-vacuity of C17: zero pitch is outside the band; so is a pitch of `π` (the flipping branch). -/
example : OutsideGimbalBand 0 ∧ OutsideGimbalBand Real.pi := by
  have : Real.sin (1 / 1000) < 1 := by
    have := Real.sin_lt (x := 1 / 1000) (by norm_num); linarith
  constructor <;> simp [OutsideGimbalBand] <;> norm_num at this ⊢ <;> exact this

lemma rX_wrap (a : ℝ) : rX (wrapPosNegPI a) = rX a := by simp [rX, cos_wrap, sin_wrap]
lemma rY_wrap (a : ℝ) : rY (wrapPosNegPI a) = rY a := by simp [rY, cos_wrap, sin_wrap]
lemma rZ_wrap (a : ℝ) : rZ (wrapPosNegPI a) = rZ a := by simp [rZ, cos_wrap, sin_wrap]

lemma xyz_band {x y z p q : ℝ} (hq : rX q * rY p = rY p * rZ z) :
    rotAngle ((rX (x + q) * rY y) * (rX x * rY y * rZ z).transpose) ≤ 2 * |y - p| := by
  have ey : rY y = rY p * rY (y - p) := by rw [← rY_add]; congr 1; ring
  have hA : IsSO3 (rX x * rY p) := SO3.mul (rX_isSO3 _) (rY_isSO3 _)
  have e : (rX (x + q) * rY y) * (rX x * rY y * rZ z).transpose =
      (rX x * rY p) * (rZ z * rY (y - p) * (rZ z).transpose * rY (-(y - p))) * (rX x * rY p).transpose := by
    rw [ey, rX_add, ← rY_transpose (y - p)]
    simp only [M3.transpose_mul, ← mul_assoc]
    congr 4
    simp only [mul_assoc]
    rw [← mul_assoc (rX q), hq]
    simp only [mul_assoc]
  rw [e, rotAngle_conj hA]
  exact rotAngle_commutator (rZ_isSO3 z) _

/-- **C17 (all inputs).** `EulerAnglesXyz::getUnique()` is never off by more than `2e-3` rad, and exact in exact gimbal
lock. -/
theorem C17_within_tolerance (P : Prec) (e : EulXyz) :
    rotAngle (den .xyz (getUnique P .xyz e) * (den .xyz e).transpose) ≤ 2 / 1000 ∧
    (Real.cos e.y = 0 → SameRot (k₁ := .xyz) (k₂ := .xyz) (getUnique P .xyz e) e) := by
  have hd : dmat .xyz e = rX (wrapPosNegPI e.x) * rY (wrapPosNegPI e.y) * rZ (wrapPosNegPI e.z) := by
    rw [rX_wrap, rY_wrap, rZ_wrap]; rfl
  have hy := wrapPosNegPI_mem e.y
  have key : rotAngle (dmat .xyz (xyzGetUnique e) * (dmat .xyz e).transpose) ≤ 2 / 1000 ∧
      (Real.cos e.y = 0 → dmat .xyz (xyzGetUnique e) = dmat .xyz e) := by
    by_cases h : OutsideGimbalBand e.y
    · have h1 := (xyzGetUnique_regular h).1
      refine ⟨?_, fun _ => h1⟩
      rw [h1, (dmat_isSO3 .xyz e trivial).1, rotAngle_one]; norm_num
    · have hcos : Real.cos (wrapPosNegPI e.y) = Real.cos e.y := cos_wrap _
      have htol : eulerTol = 1 / 1000 := rfl
      have dz : ∀ x y : ℝ, dmat .xyz (⟨⟨x, y, 0⟩⟩ : EulXyz) = rX x * rY y := by
        intro x y
        have : rZ 0 = 1 := by ext <;> simp [rZ]
        change rX x * rY y * rZ 0 = _
        rw [this, mul_one]
      have exact0 : ∀ {p q : ℝ}, wrapPosNegPI e.y = p → rX q * rY p = rY p * rZ (wrapPosNegPI e.z) →
          rX (wrapPosNegPI e.x + q) * rY (wrapPosNegPI e.y) = dmat .xyz e := by
        intro p q hp hq
        rw [hd, hp, rX_add, mul_assoc, hq, mul_assoc]
      rcases eulerUniqueBody_band (v := ⟨e.x, e.y, e.z⟩) h with ⟨h1, he⟩ | ⟨h1, he⟩
      · simp only at h1 he
        obtain ⟨h2, h3⟩ := abs_le.mp h1
        have hg : rX (-wrapPosNegPI e.z) * rY (-(Real.pi / 2)) = rY (-(Real.pi / 2)) * rZ (wrapPosNegPI e.z) :=
          gimbal_neg _
        have hu : dmat .xyz (xyzGetUnique e) = rX (wrapPosNegPI e.x + -wrapPosNegPI e.z) * rY (wrapPosNegPI e.y) := by
          have : xyzGetUnique e = ⟨⟨wrapPosNegPI e.x - wrapPosNegPI e.z, wrapPosNegPI e.y, 0⟩⟩ := by
            rw [xyzGetUnique, he]
          rw [this, dz, sub_eq_add_neg]
        constructor
        · rw [hu, hd]
          refine (xyz_band hg).trans ?_
          have : |wrapPosNegPI e.y - -(Real.pi / 2)| ≤ 1 / 1000 := by rw [← htol]; exact abs_le.mpr ⟨by linarith, by linarith⟩
          linarith
        · intro hc
          rw [hu]
          refine exact0 ?_ hg
          rw [← hcos, ← Real.sin_add_pi_div_two] at hc
          have := (Real.sin_eq_zero_iff_of_lt_of_lt (by linarith [Real.pi_pos, eulerTol_lt])
            (by linarith [Real.pi_pos, eulerTol_lt])).mp hc
          linarith
      · simp only at h1 he
        obtain ⟨h2, h3⟩ := abs_le.mp h1
        have hg : rX (wrapPosNegPI e.z) * rY (Real.pi / 2) = rY (Real.pi / 2) * rZ (wrapPosNegPI e.z) :=
          gimbal_pos _
        have hu : dmat .xyz (xyzGetUnique e) = rX (wrapPosNegPI e.x + wrapPosNegPI e.z) * rY (wrapPosNegPI e.y) := by
          have : xyzGetUnique e = ⟨⟨wrapPosNegPI e.x + wrapPosNegPI e.z, wrapPosNegPI e.y, 0⟩⟩ := by
            rw [xyzGetUnique, he]
          rw [this, dz]
        constructor
        · rw [hu, hd]
          refine (xyz_band hg).trans ?_
          have : |wrapPosNegPI e.y - Real.pi / 2| ≤ 1 / 1000 := by rw [← htol]; exact abs_le.mpr ⟨by linarith, by linarith⟩
          linarith
        · intro hc
          rw [hu]
          refine exact0 ?_ hg
          rw [← hcos, ← neg_eq_zero, ← Real.sin_sub_pi_div_two] at hc
          have := (Real.sin_eq_zero_iff_of_lt_of_lt (by linarith [Real.pi_pos, eulerTol_lt])
            (by linarith [Real.pi_pos, eulerTol_lt])).mp hc
          linarith
  constructor
  · rw [den_eq, den_eq]; exact key.1
  · intro h; rw [sameRot_iff, den_eq, den_eq]; exact key.2 h

lemma wrap_neg_pi : wrapPosNegPI (-Real.pi) = -Real.pi :=
  wrapPosNegPI_of_mem (le_refl _) (by linarith [Real.pi_pos])

lemma xyzGetUnique_pos {x y z : ℝ} (hx : -Real.pi ≤ x ∧ x < Real.pi) (hz : -Real.pi ≤ z ∧ z < Real.pi)
    (hy : |y - Real.pi / 2| ≤ 1 / 1000) : xyzGetUnique (EulXyz.mk3 x y z) = EulXyz.mk3 (x + z) y 0 := by
  obtain ⟨h1, h2⟩ := abs_le.mp hy
  have hpi := Real.pi_gt_three
  have wx : wrapPosNegPI x = x := wrapPosNegPI_of_mem hx.1 hx.2
  have wz : wrapPosNegPI z = z := wrapPosNegPI_of_mem hz.1 hz.2
  have wy : wrapPosNegPI y = y := wrapPosNegPI_of_mem (by linarith) (by linarith)
  have hb : ¬ (Real.sin eulerTol < |Real.cos y|) := by
    have := abs_sin_le_sin (δ := y - Real.pi / 2) hy
    rw [Real.sin_sub_pi_div_two, abs_neg] at this
    exact not_lt.mpr this
  rcases eulerUniqueBody_band (v := ⟨x, y, z⟩) hb with ⟨g, -⟩ | ⟨-, e⟩
  · simp only [wy] at g
    obtain ⟨g1, g2⟩ := abs_le.mp g
    exfalso
    have : eulerTol = 1 / 1000 := rfl
    linarith
  · simp only [wx, wy, wz] at e
    exact EulXyz.ext e

/-- **C17 is false as stated** (finding): inside the bands `getUnique()` does not represent the same rotation, and it leaves
the documented ranges of both pitch and roll. -/
theorem C17_counterexamples (P : Prec) :
    (∃ e : EulXyz, ¬ SameRot (k₁ := .xyz) (k₂ := .xyz) (getUnique P .xyz e) e) ∧
    (∃ e : EulXyz, Real.pi / 2 < EulXyz.y (getUnique P .xyz e)) ∧
    (∃ e : EulXyz, EulXyz.x (getUnique P .xyz e) < -Real.pi) := by
  have hpi := Real.pi_gt_three
  refine ⟨⟨EulXyz.mk3 0 (Real.pi / 2 - 1 / 1000) (-Real.pi), ?_⟩,
    ⟨EulXyz.mk3 0 (Real.pi / 2 + 1 / 1000) 0, ?_⟩, ⟨EulXyz.mk3 (-Real.pi) (Real.pi / 2) (-Real.pi), ?_⟩⟩
  · rw [sameRot_iff, den_eq, den_eq]
    change ¬ (dmat .xyz (xyzGetUnique _) = _)
    rw [xyzGetUnique_pos ⟨by linarith, by linarith⟩ ⟨by linarith, by linarith⟩ (by norm_num)]
    intro h
    have h0 := congrArg M3.m00 h
    simp [dmat, rX, rY, rZ, EulXyz.mk3, EulXyz.x, EulXyz.y, EulXyz.z, Real.cos_pi_div_two_sub] at h0
    have : 0 < Real.sin (1000⁻¹) := Real.sin_pos_of_pos_of_lt_pi (by norm_num) (by linarith)
    linarith
  · change _ < EulXyz.y (xyzGetUnique _)
    rw [xyzGetUnique_pos ⟨by linarith, by linarith⟩ ⟨by linarith, by linarith⟩ (by norm_num)]
    simp [EulXyz.mk3, EulXyz.y]
  · change EulXyz.x (xyzGetUnique _) < _
    rw [xyzGetUnique_pos ⟨by linarith, by linarith⟩ ⟨by linarith, by linarith⟩ (by norm_num)]
    simp [EulXyz.mk3, EulXyz.x]; linarith

/-! ## C18: EulerAnglesZyx -/

lemma zyxGetUnique_regular {e : EulZyx} (h : OutsideGimbalBand e.y) :
    let u := zyxGetUnique e
    dmat .zyx u = dmat .zyx e ∧ (-Real.pi ≤ u.x ∧ u.x < Real.pi) ∧
      (-(Real.pi / 2) < u.y ∧ u.y < Real.pi / 2) ∧ (-Real.pi ≤ u.z ∧ u.z < Real.pi) ∧ OutsideGimbalBand u.y := by
  intro u
  have ht := eulerTol_pos
  obtain ⟨hz, hy, hx, s, hs, c1, c2, c3, c4, c5, c6⟩ := eulerUniqueBody_regular (v := ⟨e.z, e.y, e.x⟩) h
  refine ⟨?_, hx, ⟨?_, ?_⟩, hz, ?_⟩
  · exact (xyz_sign hs c5 c6 c3 c4 c1 c2).2
  · have := hy.1; change _ < (eulerUniqueBody ⟨e.z, e.y, e.x⟩).y; linarith
  · have := hy.2; change (eulerUniqueBody ⟨e.z, e.y, e.x⟩).y < _; linarith
  · unfold OutsideGimbalBand
    have : Real.cos u.y = s * Real.cos e.y := c3
    have hs1 : |s| = 1 := by
      have := abs_mul_abs_self s
      nlinarith [abs_nonneg s]
    rw [this, abs_mul, hs1, one_mul]; exact h

/-- **C18 (outside the gimbal bands; `_partial`: the bands are excluded, there the claim is false, see
`C18_band_error`).** `EulerAnglesZyx::getUnique()` keeps the rotation, has roll, yaw in `[-π,π)` and pitch in `(-π/2,π/2)`,
is idempotent, and `operator==` decides equality of rotations. -/
theorem C18_unique_partial (P : Prec) (e f : EulZyx) (he : OutsideGimbalBand e.y) (hf : OutsideGimbalBand f.y) :
    SameRot (k₁ := .zyx) (k₂ := .zyx) (getUnique P .zyx e) e ∧
    (-Real.pi ≤ EulZyx.x (getUnique P .zyx e) ∧ EulZyx.x (getUnique P .zyx e) < Real.pi) ∧
    (-(Real.pi / 2) < EulZyx.y (getUnique P .zyx e) ∧ EulZyx.y (getUnique P .zyx e) < Real.pi / 2) ∧
    (-Real.pi ≤ EulZyx.z (getUnique P .zyx e) ∧ EulZyx.z (getUnique P .zyx e) < Real.pi) ∧
    getUnique P .zyx (getUnique P .zyx e) = getUnique P .zyx e ∧
    (SameRot (k₁ := .zyx) (k₂ := .zyx) e f ↔ getUnique P .zyx e = getUnique P .zyx f) ∧
    (SameRot (k₁ := .zyx) (k₂ := .zyx) e f ↔ eqSame P .zyx e f = true) := by
  have uniq : ∀ e f : EulZyx, OutsideGimbalBand e.y → OutsideGimbalBand f.y →
      dmat .zyx e = dmat .zyx f → zyxGetUnique e = zyxGetUnique f := by
    intro e f he hf h
    obtain ⟨d1, x1, y1, z1, -⟩ := zyxGetUnique_regular he
    obtain ⟨d2, x2, y2, z2, -⟩ := zyxGetUnique_regular hf
    have hd := d1.trans (h.trans d2.symm)
    have m00 := congrArg M3.m00 hd
    have m10 := congrArg M3.m10 hd
    have m20 := congrArg M3.m20 hd
    have m21 := congrArg M3.m21 hd
    have m22 := congrArg M3.m22 hd
    simp [dmat, rX, rY, rZ] at m00 m10 m20 m21 m22
    obtain ⟨a, b, c⟩ := xyz_trig_unique x1 x2 y1 y2 z1 z2 m20 (by linarith) (by linarith) m22 m21
    exact EulZyx.ext (V3.ext c b a)
  obtain ⟨d1, x1, y1, z1, b1⟩ := zyxGetUnique_regular he
  obtain ⟨d2, x2, y2, z2, b2⟩ := zyxGetUnique_regular hf
  have key : SameRot (k₁ := .zyx) (k₂ := .zyx) e f ↔ zyxGetUnique e = zyxGetUnique f := by
    rw [sameRot_iff, den_eq, den_eq]
    exact ⟨uniq e f he hf, fun h => d1.symm.trans ((congrArg (dmat .zyx) h).trans d2)⟩
  refine ⟨by rw [sameRot_iff, den_eq, den_eq]; exact d1, x1, y1, z1, uniq _ _ b1 he d1, key, key.trans ?_⟩
  refine Iff.trans ?_ (decide_eq_true_iff (p := (zyxGetUnique e).v = (zyxGetUnique f).v)).symm
  exact ⟨fun h => congrArg _ h, fun h => EulZyx.ext h⟩

/-- In the band the two rotations differ by (almost) twice the angle `q`. -/
lemma zyx_band {z y x p q : ℝ} (hq : rZ q * rY p = rY p * rX (-x)) :
    |rotAngle ((rZ (z + q) * rY y) * (rZ z * rY y * rX x).transpose) - rotAngle (rX (-(2 * x)))| ≤ 2 * |y - p| := by
  have ey : rY y = rY p * rY (y - p) := by rw [← rY_add]; congr 1; ring
  set δ := y - p
  have hA : IsSO3 (rZ z * rY p) := SO3.mul (rZ_isSO3 _) (rY_isSO3 _)
  have e : (rZ (z + q) * rY y) * (rZ z * rY y * rX x).transpose =
      (rZ z * rY p) * (rX (-x) * rY δ * rX (-x) * rY (-δ)) * (rZ z * rY p).transpose := by
    rw [ey, rZ_add, ← rY_transpose δ]
    simp only [M3.transpose_mul, rX_transpose, ← mul_assoc]
    congr 4
    simp only [mul_assoc]
    rw [← mul_assoc (rZ q), hq]
    simp only [mul_assoc]
  rw [e, rotAngle_conj hA]
  have hδ : rY (-δ) * rY δ = 1 := by rw [← rY_add]; ext <;> simp [rY]
  have hx : rX x * rX (-(2 * x)) = rX (-x) := by rw [← rX_add]; congr 1; ring
  have hs : rX (-x) * rY δ * rX (-x) * rY (-δ) =
      (rX (-x) * rY δ * (rX (-x)).transpose * rY (-δ)) * (rY δ * rX (-(2 * x)) * (rY δ).transpose) := by
    rw [rX_transpose, rY_transpose, neg_neg]
    have : ∀ a b c d e f g : M3, (a * b * c * d) * (e * f * g) = a * b * (c * (d * e) * f) * g := by
      intros; simp only [mul_assoc]
    rw [this, hδ, mul_one, hx]
  have hC : IsSO3 (rX (-x) * rY δ * (rX (-x)).transpose * rY (-δ)) :=
    SO3.mul (SO3.mul (SO3.mul (rX_isSO3 _) (rY_isSO3 _)) (SO3.transpose (rX_isSO3 _))) (rY_isSO3 _)
  have hD : IsSO3 (rY δ * rX (-(2 * x)) * (rY δ).transpose) :=
    SO3.mul (SO3.mul (rY_isSO3 _) (rX_isSO3 _)) (SO3.transpose (rY_isSO3 _))
  have hc := rotAngle_commutator (rX_isSO3 (-x)) δ
  rw [hs]
  set C := rX (-x) * rY δ * (rX (-x)).transpose * rY (-δ)
  have hconj : rotAngle (rY δ * rX (-(2 * x)) * (rY δ).transpose) = rotAngle (rX (-(2 * x))) :=
    rotAngle_conj (rY_isSO3 _) _
  set D := rY δ * rX (-(2 * x)) * (rY δ).transpose
  have u1 := rotAngle_mul_le hC hD
  have u2 := rotAngle_mul_le (SO3.transpose hC) (SO3.mul hC hD)
  rw [← mul_assoc, SO3.tr_mul hC, one_mul, rotAngle_transpose] at u2
  rw [abs_le]
  constructor <;> linarith

lemma rotAngle_rX_double (x : ℝ) : rotAngle (rX (-(2 * x))) = Real.arccos (Real.cos (2 * x)) := by
  rw [rotAngle, trace_rX, Real.cos_neg]; congr 1; ring

/-- **C18 is false in the gimbal bands** (finding): for *every* input there the unique form is off by twice the roll angle
(as an angle in `[0,π]`), up to `2e-3` rad.  The code adds/subtracts the roll with the wrong sign. -/
theorem C18_band_error (P : Prec) (e : EulZyx) (h : ¬ OutsideGimbalBand e.y) :
    |rotAngle (den .zyx (getUnique P .zyx e) * (den .zyx e).transpose) - Real.arccos (Real.cos (2 * e.x))|
      ≤ 2 / 1000 := by
  have hd : dmat .zyx e = rZ (wrapPosNegPI e.z) * rY (wrapPosNegPI e.y) * rX (wrapPosNegPI e.x) := by
    rw [rX_wrap, rY_wrap, rZ_wrap]; rfl
  have htol : eulerTol = 1 / 1000 := rfl
  have dz : ∀ z y : ℝ, dmat .zyx (⟨⟨z, y, 0⟩⟩ : EulZyx) = rZ z * rY y := by
    intro x y
    have : rX 0 = 1 := by ext <;> simp [rX]
    change rZ x * rY y * rX 0 = _
    rw [this, mul_one]
  have hcos : Real.arccos (Real.cos (2 * e.x)) = rotAngle (rX (-(2 * wrapPosNegPI e.x))) := by
    rw [rotAngle_rX_double, Real.cos_two_mul, Real.cos_two_mul, cos_wrap]
  rw [den_eq, den_eq, hcos]
  change |rotAngle (dmat .zyx (zyxGetUnique e) * _) - _| ≤ _
  rcases eulerUniqueBody_band (v := ⟨e.z, e.y, e.x⟩) h with ⟨h1, he⟩ | ⟨h1, he⟩
  · simp only at h1 he
    have hu : dmat .zyx (zyxGetUnique e) = rZ (wrapPosNegPI e.z + -wrapPosNegPI e.x) * rY (wrapPosNegPI e.y) := by
      have : zyxGetUnique e = ⟨⟨wrapPosNegPI e.z - wrapPosNegPI e.x, wrapPosNegPI e.y, 0⟩⟩ := by
        rw [zyxGetUnique, he]
      rw [this, dz, sub_eq_add_neg]
    rw [hu, hd]
    refine (zyx_band (p := -(Real.pi / 2)) (gimbal_neg' _)).trans ?_
    rw [sub_neg_eq_add]; linarith
  · simp only at h1 he
    have hu : dmat .zyx (zyxGetUnique e) = rZ (wrapPosNegPI e.z + wrapPosNegPI e.x) * rY (wrapPosNegPI e.y) := by
      have : zyxGetUnique e = ⟨⟨wrapPosNegPI e.z + wrapPosNegPI e.x, wrapPosNegPI e.y, 0⟩⟩ := by
        rw [zyxGetUnique, he]
      rw [this, dz]
    rw [hu, hd]
    refine (zyx_band (p := Real.pi / 2) ?_).trans ?_
    · have := gimbal_pos' (-wrapPosNegPI e.x); rwa [neg_neg] at this
    · linarith

lemma zyxGetUnique_pos {z y x : ℝ} (hx : -Real.pi ≤ x ∧ x < Real.pi) (hz : -Real.pi ≤ z ∧ z < Real.pi)
    (hy : |y - Real.pi / 2| ≤ 1 / 1000) : zyxGetUnique (EulZyx.mk3 z y x) = EulZyx.mk3 (z + x) y 0 := by
  have := congrArg EulXyz.v (xyzGetUnique_pos hz hx hy)
  exact EulZyx.ext this

/-- **C18, consequences for `operator==`** (finding): in gimbal lock two `EulerAnglesZyx` that are a half turn apart compare
equal, and two that represent the same rotation compare different; and the unique form of yaw 0, pitch `π/2`, roll `π/2` is
a half turn off. -/
theorem C18_counterexamples (P : Prec) :
    (∃ e f : EulZyx, eqSame P .zyx e f = true ∧
      rotAngle (den .zyx e * (den .zyx f).transpose) = Real.pi) ∧
    (∃ e f : EulZyx, SameRot (k₁ := .zyx) (k₂ := .zyx) e f ∧ eqSame P .zyx e f = false) ∧
    (∃ e : EulZyx, rotAngle (den .zyx (getUnique P .zyx e) * (den .zyx e).transpose) = Real.pi) := by
  have hpi := Real.pi_gt_three
  have g1 : zyxGetUnique (EulZyx.mk3 0 (Real.pi / 2) (Real.pi / 2)) = EulZyx.mk3 (Real.pi / 2) (Real.pi / 2) 0 := by
    rw [zyxGetUnique_pos ⟨by linarith, by linarith⟩ ⟨by linarith, by linarith⟩ (by norm_num), zero_add]
  have g2 : zyxGetUnique (EulZyx.mk3 (Real.pi / 2) (Real.pi / 2) 0) = EulZyx.mk3 (Real.pi / 2) (Real.pi / 2) 0 := by
    rw [zyxGetUnique_pos ⟨by linarith, by linarith⟩ ⟨by linarith, by linarith⟩ (by norm_num), add_zero]
  have g3 : zyxGetUnique (EulZyx.mk3 (-(Real.pi / 2)) (Real.pi / 2) 0) =
      EulZyx.mk3 (-(Real.pi / 2)) (Real.pi / 2) 0 := by
    rw [zyxGetUnique_pos ⟨by linarith, by linarith⟩ ⟨by linarith, by linarith⟩ (by norm_num), add_zero]
  have keq : ∀ a b : EulZyx, eqSame P .zyx a b = true ↔ (zyxGetUnique a).v = (zyxGetUnique b).v := fun a b =>
    decide_eq_true_iff (p := (zyxGetUnique a).v = (zyxGetUnique b).v)
  have ang : rotAngle (dmat .zyx (EulZyx.mk3 0 (Real.pi / 2) (Real.pi / 2)) *
      (dmat .zyx (EulZyx.mk3 (Real.pi / 2) (Real.pi / 2) 0)).transpose) = Real.pi := by
    simp [rotAngle, dmat, rX, rY, rZ, EulZyx.mk3, EulZyx.x, EulZyx.y, EulZyx.z, M3.trace]
    norm_num
  refine ⟨⟨EulZyx.mk3 0 (Real.pi / 2) (Real.pi / 2), EulZyx.mk3 (Real.pi / 2) (Real.pi / 2) 0, ?_, ?_⟩,
    ⟨EulZyx.mk3 0 (Real.pi / 2) (Real.pi / 2), EulZyx.mk3 (-(Real.pi / 2)) (Real.pi / 2) 0, ?_, ?_⟩,
    ⟨EulZyx.mk3 0 (Real.pi / 2) (Real.pi / 2), ?_⟩⟩
  · rw [keq, g1, g2]
  · rw [den_eq, den_eq]; exact ang
  · rw [sameRot_iff, den_eq, den_eq]
    ext <;> simp [dmat, rX, rY, rZ, EulZyx.mk3, EulZyx.x, EulZyx.y, EulZyx.z]
  · rw [← Bool.not_eq_true, keq, g1, g3]
    intro h
    have := congrArg V3.x h
    simp only [EulZyx.mk3] at this
    linarith
  · rw [den_eq, den_eq]
    change rotAngle (dmat .zyx (zyxGetUnique _) * _) = _
    rw [g1, ← rotAngle_transpose, M3.transpose_mul, M3.transpose_transpose]; exact ang

end Kindr
