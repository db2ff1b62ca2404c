import Verif.Props.EulerUnique
import Verif.Props.Vectors2Rot

/-!
# C17, C18, C24: exact characterizations

For the three claims that are false on part of the input space, the exact set of inputs on which they hold.
-/

set_option autoImplicit false

open Classical

noncomputable section
namespace Kindr
open Spec

lemma rXYZ_cancel {A X Y : M3} (hA : IsSO3 A) : A * X = A * Y ↔ X = Y := by
  constructor
  · intro h
    have := congrArg (A.transpose * ·) h
    simpa only [← mul_assoc, SO3.tr_mul hA, one_mul] using this
  · rintro rfl; rfl

lemma one_of_cos {c s : ℝ} (h : s ^ 2 + c ^ 2 = 1) (hc : c = 1) : s = 0 := by
  subst hc; nlinarith

/-- Inside the band: `R_X(q) R_Y(y) = R_Y(y) R_Z(z)` for `q = ±z`. -/
lemma gimbal_iff {y z q : ℝ} (hq : Real.cos q = Real.cos z)
    (hlock : Real.cos y = 0 → rX q * rY y = rY y * rZ z) (hq0 : Real.sin z = 0 → Real.sin q = 0) :
    rX q * rY y = rY y * rZ z ↔ Real.cos y = 0 ∨ Real.cos z = 1 := by
  constructor
  · intro h
    have h0 := congrArg M3.m00 h
    simp [rX, rY, rZ] at h0
    have h1 : Real.cos y * (Real.cos z - 1) = 0 := by linarith
    rcases mul_eq_zero.mp h1 with h2 | h2
    · exact Or.inl h2
    · exact Or.inr (by linarith)
  · rintro (h | h)
    · exact hlock h
    · have hs := one_of_cos (Real.sin_sq_add_cos_sq z) h
      have hs' := hq0 hs
      rw [h] at hq
      ext <;> simp [rX, rY, rZ, hs, hs', h, hq]

/-- **C17, exact.** `EulerAnglesXyz::getUnique()` keeps the rotation exactly if the pitch is outside the `1e-3` bands around
gimbal lock, or exactly in gimbal lock, or the yaw angle is a multiple of a full turn. -/
theorem C17_exact_iff (P : Prec) (e : EulXyz) :
    SameRot (k₁ := .xyz) (k₂ := .xyz) (getUnique P .xyz e) e ↔
      OutsideGimbalBand e.y ∨ Real.cos e.y = 0 ∨ Real.cos e.z = 1 := by
  by_cases h : OutsideGimbalBand e.y
  · exact ⟨fun _ => Or.inl h, fun _ => (C17_unique_partial P e e h h).1⟩
  · have hlock := (C17_within_tolerance P e).2
    rw [sameRot_iff, den_eq, den_eq] at *
    simp only [h, false_or]
    have hd : dmat .xyz e = rX (wrapPosNegPI e.x) * rY (wrapPosNegPI e.y) * rZ (wrapPosNegPI e.z) := by
      rw [rX_wrap, rY_wrap, rZ_wrap]; rfl
    have dz : ∀ x y : ℝ, dmat .xyz (⟨⟨x, y, 0⟩⟩ : EulXyz) = rX x * rY y := by
      intro x y
      have : rZ 0 = 1 := by ext <;> simp [rZ]
      change rX x * rY y * rZ 0 = _
      rw [this, mul_one]
    change dmat .xyz (xyzGetUnique e) = _ ↔ _
    change _ → dmat .xyz (xyzGetUnique e) = _ at hlock
    have fin : ∀ q : ℝ, Real.cos q = Real.cos (wrapPosNegPI e.z) → (Real.sin (wrapPosNegPI e.z) = 0 → Real.sin q = 0) →
        dmat .xyz (xyzGetUnique e) = rX (wrapPosNegPI e.x + q) * rY (wrapPosNegPI e.y) →
        (dmat .xyz (xyzGetUnique e) = dmat .xyz e ↔ Real.cos e.y = 0 ∨ Real.cos e.z = 1) := by
      intro q h1 h2 h3
      have step : dmat .xyz (xyzGetUnique e) = dmat .xyz e ↔
          rX q * rY (wrapPosNegPI e.y) = rY (wrapPosNegPI e.y) * rZ (wrapPosNegPI e.z) := by
        rw [h3, hd, rX_add, mul_assoc, mul_assoc, rXYZ_cancel (rX_isSO3 _)]
      rw [step, gimbal_iff h1 (fun hc => step.mp (hlock (by rwa [cos_wrap] at hc))) h2, cos_wrap, cos_wrap]
    rcases eulerUniqueBody_band (v := ⟨e.x, e.y, e.z⟩) h with ⟨-, he⟩ | ⟨-, he⟩
    · simp only at he
      refine fin (-wrapPosNegPI e.z) (Real.cos_neg _) (fun h => by rw [Real.sin_neg, h, neg_zero]) ?_
      have : xyzGetUnique e = ⟨⟨wrapPosNegPI e.x - wrapPosNegPI e.z, wrapPosNegPI e.y, 0⟩⟩ := by
        rw [xyzGetUnique, he]
      rw [this, dz, sub_eq_add_neg]
    · simp only at he
      refine fin (wrapPosNegPI e.z) rfl (fun h => h) ?_
      have : xyzGetUnique e = ⟨⟨wrapPosNegPI e.x + wrapPosNegPI e.z, wrapPosNegPI e.y, 0⟩⟩ := by
        rw [xyzGetUnique, he]
      rw [this, dz]

/-- Inside the band: `R_Z(q) R_Y(y) = R_Y(y) R_X(x)` for the wrong sign `q`. -/
lemma gimbal_wrong_iff {y x q s : ℝ} (hq : Real.cos q = Real.cos x) (hsq : Real.sin q = s * Real.sin x)
    (hs : s + Real.sin y ≠ 0) (hlock : Real.cos y ≤ 1) :
    rZ q * rY y = rY y * rX x ↔ Real.cos x = 1 ∨ (Real.cos y = 0 ∧ Real.sin x = 0) := by
  constructor
  · intro h
    have h0 := congrArg M3.m00 h
    have h1 := congrArg M3.m01 h
    simp [rX, rY, rZ] at h0 h1
    rw [hsq] at h1
    have hx : Real.sin x = 0 := by
      have : (s + Real.sin y) * Real.sin x = 0 := by linarith
      exact (mul_eq_zero.mp this).resolve_left hs
    rw [hq] at h0
    have h2 : Real.cos y * (Real.cos x - 1) = 0 := by linarith
    rcases mul_eq_zero.mp h2 with h2 | h2
    · exact Or.inr ⟨h2, hx⟩
    · exact Or.inl (by linarith)
  · rintro (h | ⟨h, h'⟩)
    · have h' := one_of_cos (Real.sin_sq_add_cos_sq x) h
      rw [h', mul_zero] at hsq
      rw [h] at hq
      ext <;> simp [rX, rY, rZ, h, h', hq, hsq]
    · rw [h', mul_zero] at hsq
      ext <;> simp [rX, rY, rZ, h, h', hq, hsq]
      ring

/-- **C18, exact.** `EulerAnglesZyx::getUnique()` keeps the rotation exactly if the pitch is outside the `1e-3` bands around
gimbal lock, or the roll angle is a multiple of a full turn, or the pitch is exactly in gimbal lock and the roll a multiple of a
half turn. -/
theorem C18_exact_iff (P : Prec) (e : EulZyx) :
    SameRot (k₁ := .zyx) (k₂ := .zyx) (getUnique P .zyx e) e ↔
      OutsideGimbalBand e.y ∨ Real.cos e.x = 1 ∨ (Real.cos e.y = 0 ∧ Real.sin e.x = 0) := by
  by_cases h : OutsideGimbalBand e.y
  · exact ⟨fun _ => Or.inl h, fun _ => (C18_unique_partial P e e h h).1⟩
  · rw [sameRot_iff, den_eq, den_eq]
    simp only [h, false_or]
    have hpi := Real.pi_gt_three
    have htol : eulerTol = 1 / 1000 := rfl
    have hd : dmat .zyx e = rZ (wrapPosNegPI e.z) * rY (wrapPosNegPI e.y) * rX (wrapPosNegPI e.x) := by
      rw [rX_wrap, rY_wrap, rZ_wrap]; rfl
    have dz : ∀ z y : ℝ, dmat .zyx (⟨⟨z, y, 0⟩⟩ : EulZyx) = rZ z * rY y := by
      intro x y
      have : rX 0 = 1 := by ext <;> simp [rX]
      change rZ x * rY y * rX 0 = _
      rw [this, mul_one]
    change dmat .zyx (zyxGetUnique e) = _ ↔ _
    have fin : ∀ q s : ℝ, Real.cos q = Real.cos (wrapPosNegPI e.x) → Real.sin q = s * Real.sin (wrapPosNegPI e.x) →
        s + Real.sin (wrapPosNegPI e.y) ≠ 0 →
        dmat .zyx (zyxGetUnique e) = rZ (wrapPosNegPI e.z + q) * rY (wrapPosNegPI e.y) →
        (dmat .zyx (zyxGetUnique e) = dmat .zyx e ↔ Real.cos e.x = 1 ∨ (Real.cos e.y = 0 ∧ Real.sin e.x = 0)) := by
      intro q s h1 h2 hs h3
      have step : dmat .zyx (zyxGetUnique e) = dmat .zyx e ↔
          rZ q * rY (wrapPosNegPI e.y) = rY (wrapPosNegPI e.y) * rX (wrapPosNegPI e.x) := by
        rw [h3, hd, rZ_add, mul_assoc, mul_assoc, rXYZ_cancel (rZ_isSO3 _)]
      rw [step, gimbal_wrong_iff h1 h2 hs (Real.cos_le_one _), cos_wrap, cos_wrap, sin_wrap]
    rcases eulerUniqueBody_band (v := ⟨e.z, e.y, e.x⟩) h with ⟨h1, he⟩ | ⟨h1, he⟩
    · simp only at h1 he
      obtain ⟨h2, h3⟩ := abs_le.mp h1
      have hneg : Real.sin (wrapPosNegPI e.y) < 0 :=
        Real.sin_neg_of_neg_of_neg_pi_lt (by linarith) (by linarith)
      refine fin (-wrapPosNegPI e.x) (-1) (Real.cos_neg _) (by rw [Real.sin_neg]; ring) (by linarith) ?_
      have : zyxGetUnique e = ⟨⟨wrapPosNegPI e.z - wrapPosNegPI e.x, wrapPosNegPI e.y, 0⟩⟩ := by
        rw [zyxGetUnique, he]
      rw [this, dz, sub_eq_add_neg]
    · simp only at h1 he
      obtain ⟨h2, h3⟩ := abs_le.mp h1
      have hpos : 0 < Real.sin (wrapPosNegPI e.y) :=
        Real.sin_pos_of_pos_of_lt_pi (by linarith) (by linarith)
      refine fin (wrapPosNegPI e.x) 1 rfl (by ring) (by linarith) ?_
      have : zyxGetUnique e = ⟨⟨wrapPosNegPI e.z + wrapPosNegPI e.x, wrapPosNegPI e.y, 0⟩⟩ := by
        rw [zyxGetUnique, he]
      rw [this, dz]

/-- Non-vacuity: the middle case of `C17_exact_iff` occurs (inside the band, not in lock, zero yaw), and so does failure. -/
example (P : Prec) : SameRot (k₁ := .xyz) (k₂ := .xyz) (getUnique P .xyz (EulXyz.mk3 1 (Real.pi / 2 - 1 / 1000) 0))
    (EulXyz.mk3 1 (Real.pi / 2 - 1 / 1000) 0) :=
  (C17_exact_iff P _).mpr (Or.inr (Or.inr (by simp [EulXyz.mk3, EulXyz.z])))

/-! ## setFromVectors -/

/-- The image of `a` under the quaternion of the antiparallel branch. -/
lemma twoVec_anti_iff {a b n : V3} (ha : a.normSq = 1) (hb : b.normSq = 1) (hn : n.normSq = 1) (hna : n.dot a = 0)
    (hnb : n.dot b = 0) (hc : -1 < b.dot a) (hc' : b.dot a < 1) :
    let q : Quat := ⟨Real.sqrt ((1 + b.dot a) * (1 / 2)), n.x * Real.sqrt (1 - (1 + b.dot a) * (1 / 2)),
      n.y * Real.sqrt (1 - (1 + b.dot a) * (1 / 2)), n.z * Real.sqrt (1 - (1 + b.dot a) * (1 / 2))⟩
    ((sMat q).mulVec a = b ↔ 0 < n.dot (a.cross b)) ∧
    (n.dot (a.cross b) ≤ 0 → (sMat q).mulVec a = (2 * b.dot a) • a - b) := by
  intro q
  set c := b.dot a with hcdef
  set t := Real.sqrt (1 - (1 + c) * (1 / 2)) with ht
  have ht2 : t ^ 2 = (1 - c) / 2 := by rw [ht, Real.sq_sqrt (by linarith)]; ring
  have htp : 0 < t := Real.sqrt_pos.mpr (by linarith)
  have hw2 : q.w ^ 2 = (1 + c) / 2 := by
    change Real.sqrt _ ^ 2 = _; rw [Real.sq_sqrt (by linarith)]; ring
  have hwp : 0 < q.w := Real.sqrt_pos.mpr (by linarith)
  have hu : q.vec = t • n := by ext <;> exact mul_comm _ _
  have hvec : q.vec.normSq = (1 - c) / 2 := by rw [hu, V3.normSq_smul, hn, ht2, mul_one]
  have hdot : q.vec.dot a = 0 := by
    rw [hu]; simp only [V3.dot] at hna ⊢; simp; linear_combination t * hna
  set k := 2 * q.w * t with hk
  have hkp : 0 < k := by positivity
  have hk2 : k ^ 2 = 1 - c ^ 2 := by rw [hk, mul_pow, mul_pow, hw2, ht2]; ring
  have e : (sMat q).mulVec a = c • a + k • n.cross a := by
    rw [sMat_mulVec, hw2, hvec, hdot, hu]
    ext <;> simp [V3.cross, hk] <;> ring
  -- d = n·(a×b); b - c a = d (n × a), d² = 1 - c²
  set d := n.dot (a.cross b) with hd
  have hcr : (n.cross a).normSq = 1 := by
    simp only [V3.normSq, V3.dot] at ha hn hna ⊢; simp only [V3.cross]
    linear_combination (a.x * a.x + a.y * a.y + a.z * a.z) * hn + ha - (n.x * a.x + n.y * a.y + n.z * a.z) * hna
  have hb' : b = c • a + d • n.cross a := by
    set m := n.cross a with hm
    have hma : m.dot a = 0 := by rw [hm]; simp [V3.dot, V3.cross]; ring
    have hmn : m.dot n = 0 := by rw [hm]; simp [V3.dot, V3.cross]; ring
    have hso : IsSO3 (⟨a.x, a.y, a.z, m.x, m.y, m.z, n.x, n.y, n.z⟩ : M3) := by
      simp only [V3.normSq, V3.dot] at ha hn hcr hna hma hmn
      constructor
      · ext <;> simp <;> linarith
      · simp only [M3.det, hm, V3.cross]
        linear_combination (a.x * a.x + a.y * a.y + a.z * a.z) * hn + ha - (n.x * a.x + n.y * a.y + n.z * a.z) * hna
    have hbb := congrArg (fun M : M3 => M.mulVec b) (SO3.tr_mul hso)
    simp only [M3.one_mulVec, ← M3.mulVec_mulVec] at hbb
    have hdm : d = m.dot b := by rw [hd, hm]; simp [V3.dot, V3.cross]; ring
    rw [hdm, hcdef]
    simp only [V3.dot] at hnb
    refine hbb.symm.trans ?_
    ext <;> simp [V3.dot]
    · linear_combination n.x * hnb
    · linear_combination n.y * hnb
    · linear_combination n.z * hnb
  have hma : (n.cross a).dot a = 0 := by simp [V3.dot, V3.cross]; ring
  set m := n.cross a
  have hd2 : d ^ 2 = k ^ 2 := by
    rw [hk2]
    have h1 : (c • a + d • m).normSq = 1 := by rw [← hb']; exact hb
    simp only [V3.normSq, V3.dot, V3.add_x, V3.add_y, V3.add_z, V3.smul_x, V3.smul_y, V3.smul_z] at h1 ha hcr hma
    linear_combination h1 - c ^ 2 * ha - d ^ 2 * hcr - 2 * c * d * hma
  have hdk : d = k ∨ d = -k := sq_eq_sq_iff_eq_or_eq_neg.mp hd2
  constructor
  · rw [e]
    constructor
    · intro h
      rcases hdk with h1 | h1
      · rw [h1]; exact hkp
      · exfalso
        rw [hb', h1] at h
        have h2 : m.dot (c • a + k • m) = m.dot (c • a + (-k) • m) := by rw [h]
        simp only [V3.normSq, V3.dot, V3.add_x, V3.add_y, V3.add_z, V3.smul_x, V3.smul_y, V3.smul_z] at h2 hcr
        have : 2 * k = 0 := by linear_combination h2 - 2 * k * hcr
        linarith
    · intro h
      rcases hdk with h1 | h1
      · rw [← h1]; exact hb'.symm
      · linarith
  · intro h
    rcases hdk with h1 | h1
    · linarith
    · rw [e]
      have h2 : k = -d := by linarith
      rw [h2]
      rw [show (2 * c) • a - b = (2 * c) • a - (c • a + d • m) by rw [← hb']]
      ext <;> simp <;> ring

/-- **C24, exact.** For nonzero vectors `setFromVectors` aligns the directions exactly if they are outside Eigen's band of almost
opposite vectors, or exactly opposite, or the axis picked by the singular value decomposition points to the side of
`v1 × v2`.  In the remaining case the target direction is missed: the result is the mirror image of the direction of `v2` on the
line of `v1`. -/
theorem C24_exact_iff (P : Prec) (dpE : ℝ) (h0 : 0 < dpE) (hdp : dpE < 2) (svdAxis : V3 → V3 → V3) (hs : IsSvdAxis svdAxis)
    (k : Kind) (v1 v2 : V3) (h1 : v1 ≠ 0) (h2 : v2 ≠ 0) (hk : VecClear P k v1 v2) :
    ∃ r : Rep k, setFromVectors P dpE svdAxis k v1 v2 = .ok r ∧ Valid k r ∧
      (act k r (dir v1) = dir v2 ↔ -1 + dpE ≤ (dir v2).dot (dir v1) ∨ (dir v2).dot (dir v1) = -1 ∨
        0 < (svdAxis (dir v1) (dir v2)).dot ((dir v1).cross (dir v2))) ∧
      (act k r (dir v1) ≠ dir v2 → act k r (dir v1) = (2 * (dir v2).dot (dir v1)) • dir v1 - dir v2) := by
  obtain ⟨r, e, v, d⟩ := setFromVectors_spec (P := P) (k := k) h0 hs h1 h2 hk
  refine ⟨r, e, v, ?_⟩
  rw [act_eq, d]
  have hreg := (quatFromTwoVectors_spec h0 hs h1 h2).2.2.1
  by_cases hb : -1 + dpE ≤ (dir v2).dot (dir v1)
  · exact ⟨⟨fun _ => Or.inl hb, fun _ => hreg (Or.inl hb)⟩, fun h => absurd (hreg (Or.inl hb)) h⟩
  by_cases hb' : (dir v2).dot (dir v1) = -1
  · exact ⟨⟨fun _ => Or.inr (Or.inl hb'), fun _ => hreg (Or.inr hb')⟩, fun h => absurd (hreg (Or.inr hb')) h⟩
  have ha := dir_unit h1
  have hbu := dir_unit h2
  have hc2 := dot_sq_le _ _ hbu ha
  have hc1 : -1 ≤ (dir v2).dot (dir v1) := by nlinarith
  have hlt := not_le.mp hb
  obtain ⟨n1, n2, n3⟩ := hs _ _ ha hbu
  have key := twoVec_anti_iff ha hbu n1 n2 n3 (lt_of_le_of_ne hc1 (Ne.symm hb')) (by linarith)
  simp only [quatFromTwoVectors, normalized_eq_dir h1, normalized_eq_dir h2, if_pos hlt, max_eq_left hc1]
  simp only at key
  refine ⟨?_, fun h => key.2 (not_lt.mp fun h' => h (key.1.mpr h'))⟩
  rw [key.1]
  simp only [hb, hb', false_or]

/-- Non-vacuity: vectors in the band for which the hypotheses hold (`RotationQuaternion`, `double`-like precision). -/
example (P : Prec) (svdAxis : V3 → V3 → V3) (hs : IsSvdAxis svdAxis) :
    ∃ r : Quat, setFromVectors P (1 / 10 ^ 12) svdAxis .quat ⟨1, 0, 0⟩ ⟨-1, 1 / 10 ^ 7, 0⟩ = .ok r ∧ Valid .quat r := by
  obtain ⟨r, h1, h2, -⟩ := C24_exact_iff P (1 / 10 ^ 12) (by norm_num) (by norm_num) svdAxis hs .quat ⟨1, 0, 0⟩ ⟨-1, 1 / 10 ^ 7, 0⟩
    (fun h => by simpa using congrArg V3.x h) (fun h => by simpa using congrArg V3.x h) (fun h => by cases h)
  exact ⟨r, h1, h2⟩

end Kindr
