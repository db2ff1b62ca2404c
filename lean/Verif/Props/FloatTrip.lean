import Verif.Props.FloatInst

/-!
# C85: the size of computed angles and round trips
-/

set_option autoImplicit false

open Classical

noncomputable section
namespace Kindr
open Spec

namespace FloatLib
variable (F : FloatLib)

lemma fl_bound {x M : ℝ} (h : |x| ≤ M) : |F.fl x| ≤ 1001 / 1000 * M := by
  have h1 := F.err x
  have hs := F.u_small
  have hu := F.u_nonneg
  have e : F.fl x = x + (F.fl x - x) := by ring
  rw [e]
  have h2 := abs_add_le x (F.fl x - x)
  have h3 := mul_le_mul hs h (abs_nonneg _) (by norm_num)
  have := abs_nonneg x
  linarith

lemma atan2_bound (y x : ℝ) : |F.atan2 y x| ≤ 4 := by
  have hs := F.u_small
  have hp := Real.pi_lt_d2
  have hp0 := Real.pi_pos
  have tri : ∀ {a b : ℝ}, |a - b| ≤ 8 * F.u → |b| ≤ Real.pi → |a| ≤ 4 := by
    intro a b h1 h2
    have e : a = b + (a - b) := by ring
    rw [e]
    have := abs_add_le b (a - b)
    linarith
  by_cases h : y ≠ 0 ∨ 0 < x
  · exact tri (F.atan2_err y x h) (Complex.abs_arg_le_pi _)
  · push Not at h
    obtain ⟨rfl, hx⟩ := h
    rcases hx.lt_or_eq with hx | rfl
    · rcases F.atan2_neg x hx with k | k
      · exact tri k (by rw [abs_of_pos hp0])
      · exact tri k (by rw [abs_neg, abs_of_pos hp0])
    · exact F.atan2_zero

lemma pi_bound : 3 ≤ F.fl Real.pi ∧ F.fl Real.pi ≤ 4 := by
  have h := abs_le.mp (F.err Real.pi)
  have hs := F.u_small
  have hu := F.u_nonneg
  have h1 := Real.pi_gt_d2
  have h2 := Real.pi_lt_d2
  rw [abs_of_pos Real.pi_pos] at h
  have := mul_le_mul hs h2.le Real.pi_pos.le (by norm_num)
  constructor <;> linarith [h.1, h.2]

lemma fl_vec_bound {v : V3} {k M : ℝ} (h : |k| * v.norm ≤ M) :
    (⟨F.fl (k * v.x), F.fl (k * v.y), F.fl (k * v.z)⟩ : V3).norm ≤ 1001 / 1000 * M := by
  have hs := F.u_small
  have hu := F.u_nonneg
  have hM : 0 ≤ M := (mul_nonneg (abs_nonneg _) v.norm_nonneg).trans h
  have h1 : (k • v).norm ≤ M := by rw [V3.norm_smul]; exact h
  have c : ∀ x : ℝ, |F.fl x| ≤ 1001 / 1000 * |x| := fun x => F.fl_bound le_rfl
  refine (V3.norm_le_of_sq (by linarith) ?_)
  have sq' : ∀ x : ℝ, F.fl x * F.fl x ≤ (1001 / 1000) ^ 2 * (x * x) := fun x => by
    rw [← abs_mul_abs_self (F.fl x), ← abs_mul_abs_self x]
    have := mul_le_mul (c x) (c x) (abs_nonneg _) (by positivity)
    linarith
  have h2 := V3.norm_sq (k • v)
  have h3 : (k • v).norm ^ 2 ≤ M ^ 2 := pow_le_pow_left₀ (V3.norm_nonneg _) h1 2
  rw [h2] at h3
  simp only [V3.normSq, V3.dot, V3.smul_x, V3.smul_y, V3.smul_z] at h3 ⊢
  have a := sq' (k * v.x)
  have b := sq' (k * v.y)
  have d := sq' (k * v.z)
  nlinarith

lemma fl_div_bound (v : V3) {n : ℝ} (hn : n = F.norm3 v ∨ n = -F.norm3 v) (hv : v ≠ 0) :
    (⟨F.fl (v.x / n), F.fl (v.y / n), F.fl (v.z / n)⟩ : V3).norm ≤ 102 / 100 := by
  have hs := F.u_small
  have hu := F.u_nonneg
  have h1 := abs_le.mp (F.norm3_err v)
  have hp : 0 < v.norm := V3.norm_pos hv
  have h2 : v.norm ≤ 1001 / 1000 * F.norm3 v := by nlinarith [h1.1]
  have h3 : 0 < F.norm3 v := by linarith
  have e : |n| = F.norm3 v := by rcases hn with rfl | rfl <;> simp [abs_of_pos h3]
  have k := F.fl_vec_bound (v := v) (k := n⁻¹) (M := 1001 / 1000) (by
    rw [abs_inv, e, inv_mul_le_iff₀ h3]; linarith)
  simp only [div_eq_inv_mul]
  exact k.trans (by norm_num)

lemma ofQuat_bound (q : Quat) : |(F.ofQuat q).angle| ≤ 9 ∧ (F.ofQuat q).axis.norm ≤ 102 / 100 := by
  have h0 := F.norm3_eq_zero q.vec
  by_cases hn : F.norm3 q.vec = 0
  · have e : F.ofQuat q = ⟨0, ⟨1, 0, 0⟩⟩ := by simp [ofQuat, hn]
    rw [e]
    have : (⟨1, 0, 0⟩ : V3).norm = 1 := V3.norm_eq_one_iff.mpr (by simp [V3.normSq, V3.dot])
    simp [this]; norm_num
  · have hv : q.vec ≠ 0 := fun h => hn (h0.mpr h)
    have hb := F.atan2_bound (F.norm3 q.vec) (abs q.w)
    simp only [ofQuat, if_pos hn, ne_eq, not_false_eq_true, hn]
    constructor
    · refine (F.fl_bound (M := 8) ?_).trans (by norm_num)
      rw [abs_mul, abs_two]; linarith
    · exact F.fl_div_bound q.vec (by split_ifs <;> simp) hv

lemma eul_bound (m : M3) : |(F.eulerAngles012 m).x| + |(F.eulerAngles012 m).y| + |(F.eulerAngles012 m).z| ≤ 13 ∧
    |(F.eulerAngles210 m).x| + |(F.eulerAngles210 m).y| + |(F.eulerAngles210 m).z| ≤ 13 := by
  have b := F.atan2_bound
  obtain ⟨p1, p2⟩ := F.pi_bound
  constructor
  · simp only [eulerAngles012]
    split_ifs with h
    · have h1 := (abs_le.mp (b m.m12 m.m22)).2
      have k := F.fl_bound (x := F.atan2 m.m12 m.m22 - F.fl Real.pi) (M := 4) (by rw [abs_le]; constructor <;> linarith)
      simp only [abs_neg]
      have := b (-m.m02) (-F.fl √(F.fl (F.fl (m.m00 * m.m00) + F.fl (m.m01 * m.m01))))
      refine (add_le_add (add_le_add k this) (b _ _)).trans (by norm_num)
    · simp only [abs_neg]
      exact (add_le_add (add_le_add (b _ _) (b _ _)) (b _ _)).trans (by norm_num)
  · simp only [eulerAngles210]
    split_ifs with h h'
    · exact absurd h' (not_lt.mpr h.le)
    · have h1 := (abs_le.mp (b m.m10 m.m00)).1
      have k := F.fl_bound (x := F.atan2 m.m10 m.m00 + F.fl Real.pi) (M := 4) (by rw [abs_le]; constructor <;> linarith)
      have := b (-m.m20) (-F.fl √(F.fl (F.fl (m.m22 * m.m22) + F.fl (m.m21 * m.m21))))
      refine (add_le_add (add_le_add k this) (b _ _)).trans (by norm_num)
    · exact (add_le_add (add_le_add (b _ _) (b _ _)) (b _ _)).trans (by norm_num)

lemma rvOfAa_bound (a : AngAx) {M : ℝ} (h : |a.angle| * a.axis.norm ≤ M) : (F.rvOfAa a).v.norm ≤ 1001 / 1000 * M :=
  F.fl_vec_bound h

lemma rvOfQuat_bound (P : Prec) (q : Quat) (hq : q.vec.norm ≤ 2) : (F.rvOfQuat P q).v.norm ≤ 9 := by
  have hs := F.u_small
  have hu := F.u_nonneg
  simp only [rvOfQuat]
  split_ifs with h1 h2
  · exact (F.fl_vec_bound (v := q.vec) (k := 2) (M := 4) (by rw [abs_two]; linarith)).trans (by norm_num)
  · exact (F.fl_vec_bound (v := q.vec) (k := -2) (M := 4) (by rw [abs_neg, abs_two]; linarith)).trans (by norm_num)
  · have h1 := abs_le.mp (F.norm3_err q.vec)
    have hb := F.atan2_bound (F.norm3 q.vec) q.w
    have hn0 := F.norm3_nonneg q.vec
    have n0 := q.vec.norm_nonneg
    have h2 : q.vec.norm ≤ 1001 / 1000 * F.norm3 q.vec := by nlinarith [h1.1]
    refine (F.fl_vec_bound (v := q.vec) (M := 8.1) ?_).trans (by norm_num)
    have a1 := F.fl_bound (x := 2 * F.atan2 (F.norm3 q.vec) q.w) (M := 8) (by rw [abs_mul, abs_two]; linarith)
    have a2 := F.fl_bound (x := F.fl (2 * F.atan2 (F.norm3 q.vec) q.w) / F.norm3 q.vec) le_rfl
    rw [abs_div, abs_of_nonneg hn0] at a2
    refine (mul_le_mul_of_nonneg_right a2 n0).trans ?_
    rcases hn0.eq_or_lt with hz | hz
    · rw [← hz] at h2 ⊢; simp at h2 ⊢; norm_num
    · have e : 1001 / 1000 * (|F.fl (2 * F.atan2 (F.norm3 q.vec) q.w)| / F.norm3 q.vec) * q.vec.norm =
          1001 / 1000 * |F.fl (2 * F.atan2 (F.norm3 q.vec) q.w)| * (q.vec.norm / F.norm3 q.vec) := by ring
      rw [e]
      have h3 : q.vec.norm / F.norm3 q.vec ≤ 1001 / 1000 := by rw [div_le_iff₀ hz]; linarith
      have := mul_le_mul (mul_le_mul_of_nonneg_left a1 (by norm_num : (0:ℝ) ≤ 1001 / 1000)) h3 (by positivity) (by norm_num)
      linarith

lemma vec_norm_le (q : Quat) : q.vec.norm ≤ q.norm := by
  rw [V3.norm, Quat.norm]
  apply Real.sqrt_le_sqrt
  simp only [V3.normSq, V3.dot, Quat.normSq, Quat.vec]
  nlinarith [sq_nonneg q.w]

lemma xyz_size (q : Quat) : angleSize .xyz (F.xyzOfQuat q) ≤ 13 := (F.eul_bound (F.toRotationMatrix q)).1

lemma zyx_size (q : Quat) : angleSize .zyx (F.zyxOfQuat q) ≤ 13 := by
  have := (F.eul_bound (F.toRotationMatrix q)).2
  have e : angleSize .zyx (F.zyxOfQuat q) = |(F.eulerAngles210 (F.toRotationMatrix q)).x| + |(F.eulerAngles210 (F.toRotationMatrix q)).y| + |(F.eulerAngles210 (F.toRotationMatrix q)).z| := by
    change |EulZyx.x _| + |EulZyx.y _| + |EulZyx.z _| = _
    simp only [zyxOfQuat, EulZyx.x, EulZyx.y, EulZyx.z]; ring
  rw [e]; exact this

/-- The computed angles are bounded. -/
theorem C85_angle_size (P : Prec) (d : Kind) {s : Kind} {r : Rep s} {η δ : ℝ} {R : M3} (h : Rounded η δ s r R)
    (he : quatErr P F.u η (angleSize s r) s ≤ 1 / 100000) : angleSize d (F.conv P d s r) ≤ 13 + 11 / 10 * angleSize s r := by
  have hS0 := angleSize_nonneg s r
  have hq := F.toQuat_rounded P h he
  obtain ⟨p, hp1, hp2⟩ : ∃ p, p = F.conv P .quat s r ∧ p.norm ≤ 2 := by
    refine ⟨_, rfl, ?_⟩
    obtain ⟨u, hu, h1, -⟩ := hq.quat
    have := abs_norm_sub_norm_le (toH (F.conv P .quat s r)) (toH u)
    rw [norm_toH, norm_toH, unit_norm hu] at this
    have := (abs_le.mp this).2
    linarith
  by_cases hds : d = s
  · subst hds
    have e : F.conv P d d r = r := by cases d <;> rfl
    rw [e]; linarith
  cases d
  · change (0 : ℝ) ≤ _; linarith
  · change (0 : ℝ) ≤ _; linarith
  · have g : ∀ q : Quat, |(F.ofQuat q).angle| ≤ 13 + 11 / 10 * angleSize s r := fun q => (F.ofQuat_bound q).1.trans (by linarith)
    cases s
    · exact g _
    · exact g _
    · exact absurd rfl hds
    · change |(F.aaOfRv P r).angle| ≤ 13 + 11 / 10 * (RotVec.v r).norm
      change 0 ≤ (RotVec.v r).norm at hS0
      by_cases hn : F.norm3 (RotVec.v r) < P.dp
      · simp only [aaOfRv, if_pos hn, AngAx.identity, abs_zero]; linarith
      · simp only [aaOfRv, if_neg hn]
        have := abs_le.mp (F.norm3_err (RotVec.v r))
        have hs := F.u_small
        have h0 := F.norm3_nonneg (RotVec.v r)
        change |F.norm3 (RotVec.v r)| ≤ _
        rw [abs_of_nonneg h0]
        nlinarith [this.2]
    · exact g _
    · exact g _
  · have g : ∀ q : Quat, q.norm ≤ 2 → (F.rvOfQuat P q).v.norm ≤ 13 + 11 / 10 * angleSize s r := fun q hq =>
      (F.rvOfQuat_bound P q ((vec_norm_le q).trans hq)).trans (by linarith)
    have g2 : ∀ q : Quat, (F.rvOfAa (F.ofQuat q)).v.norm ≤ 13 + 11 / 10 * angleSize s r := fun q => by
      have k := F.ofQuat_bound q
      have := mul_le_mul k.1 k.2 (V3.norm_nonneg _) (by norm_num)
      exact (F.rvOfAa_bound _ this).trans (by norm_num; linarith)
    rw [hp1] at hp2
    cases s
    · exact g _ hp2
    · exact g _ hp2
    · obtain ⟨n, hn, h1, -⟩ := h.aa
      have hn1 : n.norm = 1 := V3.norm_eq_one_iff.mpr hn
      have hη : η ≤ 1 / 100 := by simp only [quatErr] at he; have := F.u_nonneg; nlinarith
      have hax : (AngAx.axis r).norm ≤ 101 / 100 := by
        have e : AngAx.axis r = (AngAx.axis r - n) + n := by ext <;> simp
        rw [e]; exact (V3.norm_add_le _ _).trans (by linarith)
      have := mul_le_mul_of_nonneg_left hax (abs_nonneg (AngAx.angle r))
      refine (F.rvOfAa_bound r this).trans ?_
      change 0 ≤ |AngAx.angle r| at hS0
      change _ ≤ 13 + 11 / 10 * |AngAx.angle r|
      linarith
    · exact absurd rfl hds
    · exact g2 _
    · exact g2 _
  · have g : ∀ q : Quat, angleSize .xyz (F.xyzOfQuat q) ≤ 13 + 11 / 10 * angleSize s r := fun q =>
      (F.xyz_size q).trans (by linarith)
    cases s
    · exact g _
    · exact g _
    · exact g _
    · exact g _
    · exact absurd rfl hds
    · exact g _
  · have g : ∀ q : Quat, angleSize .zyx (F.zyxOfQuat q) ≤ 13 + 11 / 10 * angleSize s r := fun q =>
      (F.zyx_size q).trans (by linarith)
    cases s
    · exact g _
    · exact g _
    · exact g _
    · exact g _
    · exact g _
    · exact absurd rfl hds

/-- **C85 (k).** Any two successive conversions, in particular every round trip, in `double`: the error in every rotated vector. -/
theorem C85_round_trip (hF : F.u ≤ 2⁻¹ ^ 53) (d' d s : Kind) (r : Rep s) (h : Valid s r) (hS : angleSize s r ≤ 7) (v : V3) :
    (act d' (F.conv Prec.double d' d (F.conv Prec.double d s r)) v - act s r v).norm ≤ 2 / 10 ^ 11 * v.norm := by
  have hu := F.u_nonneg
  have hS0 := angleSize_nonneg s r
  obtain ⟨P, hP⟩ : ∃ P, P = Prec.double := ⟨_, rfl⟩
  have heps : P.eps = 2⁻¹ ^ 52 := by rw [hP]; rfl
  have hdp : P.dp = 1 / 1000000000000 := by rw [hP]; rfl
  norm_num at hF heps
  rw [← hP]
  have hr := rounded_of_valid h
  have hE0 := F.quatErr_nonneg P le_rfl r
  have hE : quatErr P F.u 0 (angleSize s r) s ≤ 53 * F.u + P.eps / 3000 := by
    have := mul_le_mul_of_nonneg_right hS hu
    cases s <;> simp only [quatErr] <;> linarith
  have hE1 : quatErr P F.u 0 (angleSize s r) s ≤ 1 / 100000 := by linarith
  have k1 := F.C85_convert P d hr hE1 (fun _ => by
    by_cases hs : s = .quat ∨ s = .mat
    · apply F.C85_rv_defined P hr hE1; linarith
    · cases s <;> first | exact trivial | (exact absurd (Or.inl rfl) hs) | (exact absurd (Or.inr rfl) hs))
  have hS1 := F.C85_angle_size P d hr hE1
  obtain ⟨E, hEE⟩ : ∃ E, E = quatErr P F.u 0 (angleSize s r) s := ⟨_, rfl⟩
  obtain ⟨q, hq⟩ : ∃ q, q = F.conv P d s r := ⟨_, rfl⟩
  have hq0 := angleSize_nonneg d q
  rw [← hEE] at k1 hE0 hE hE1
  rw [← hq] at k1 hS1 ⊢
  have hS2 : angleSize d q ≤ 21 := by linarith
  have hoff0 := convOff_nonneg hu hE0 d
  have hl0 : 0 ≤ convLoss P F.u 0 E (angleSize s r) d := by cases d <;> simp only [convLoss] <;> linarith
  have k2 : Rounded (convOff F.u E d) (6400 * F.u + 101 * (P.eps / 3000) + 101 / 100 * P.dp) d q (den s r) := by
    refine k1.mono ?_ ?_
    · split_ifs <;> first | exact hoff0 | exact le_rfl
    · have : convLoss P F.u 0 E (angleSize s r) d ≤ 6400 * F.u + 101 * (P.eps / 3000) + 101 / 100 * P.dp := by
        cases d <;> simp only [convLoss] <;> linarith
      rw [zero_add]; split_ifs <;> linarith
  obtain ⟨η, hη⟩ : ∃ η, η = convOff F.u E d := ⟨_, rfl⟩
  have hη0 : 0 ≤ η := hη ▸ hoff0
  have hη1 : η ≤ 290 * F.u + 5 * (P.eps / 3000) := by
    rw [hη]; cases d <;> simp only [convOff] <;> linarith
  have hE2 : quatErr P F.u η (angleSize d q) d ≤ 1490 * F.u + 25 * (P.eps / 3000) := by
    have := mul_le_mul_of_nonneg_right hS2 hu
    cases d <;> simp only [quatErr] <;> linarith
  rw [← hη] at k2
  have hE20 := F.quatErr_nonneg P hη0 q
  have hE21 : quatErr P F.u η (angleSize d q) d ≤ 1 / 100000 := by linarith
  have k3 := F.C85_convert P d' k2 hE21 (fun _ => F.C85_rv_defined P k2 hE21 (by linarith))
  obtain ⟨E', hE'⟩ : ∃ E', E' = quatErr P F.u η (angleSize d q) d := ⟨_, rfl⟩
  rw [← hE'] at k3 hE2 hE20 hE21
  have hηS : η * angleSize d q ≤ 6090 * F.u + 105 * (P.eps / 3000) := by
    have := mul_le_mul hη1 hS2 hq0 (by linarith); linarith
  have hηS0 : 0 ≤ η * angleSize d q := mul_nonneg hη0 hq0
  have hoff : convOff F.u E' d' ≤ 7471 * F.u + 125 * (P.eps / 3000) := by
    cases d' <;> simp only [convOff] <;> linarith
  have hloss : convLoss P F.u η E' (angleSize d q) d' + 7 * convOff F.u E' d' ≤ 152000 * F.u + 3000 * (P.eps / 3000) + 101 / 100 * P.dp := by
    cases d' <;> simp only [convLoss, convOff] <;> linarith
  have o0 := convOff_nonneg hu hE20 d'
  have l0 : 0 ≤ convLoss P F.u η E' (angleSize d q) d' := by cases d' <;> simp only [convLoss] <;> linarith
  rw [act_eq s r v]
  refine (k3.act ?_ v).trans (mul_le_mul_of_nonneg_right ?_ v.norm_nonneg)
  · split_ifs <;> linarith
  · split_ifs <;> linarith

/-- **C85 (l).** `inverseRotate()` of every class in `double` undoes the rotation, for exactly represented rotations with angles up to a
full turn. -/
theorem C85_inverseRotate_double (hF : F.u ≤ 2⁻¹ ^ 53) (k : Kind) (r : Rep k) (h : Valid k r) (hS : angleSize k r ≤ 7) (v : V3) :
    (F.inverseRotate Prec.double k r (act k r v) - v).norm ≤ 2 / 10 ^ 12 * v.norm := by
  have hu := F.u_nonneg
  have hS0 := angleSize_nonneg k r
  obtain ⟨P, hP⟩ : ∃ P, P = Prec.double := ⟨_, rfl⟩
  have heps : P.eps = 2⁻¹ ^ 52 := by rw [hP]; rfl
  have hdp : P.dp = 1 / 1000000000000 := by rw [hP]; rfl
  norm_num at hF heps
  rw [← hP]
  have hr := rounded_of_valid h
  have hE0 := F.quatErr_nonneg P le_rfl r
  have hSu := mul_le_mul_of_nonneg_right hS hu
  have hE : quatErr P F.u 0 (angleSize k r) k ≤ 53 * F.u + P.eps / 3000 := by
    cases k <;> simp only [quatErr] <;> linarith
  have hE1 : quatErr P F.u 0 (angleSize k r) k ≤ 1 / 100000 := by linarith
  have hi := F.C85_inverted P hr hE1
  have hR := den_isSO3 h
  have hv : (den k r).transpose.mulVec (act k r v) = v := by
    rw [act_eq, M3.mulVec_mulVec, SO3.tr_mul hR]
    ext <;> simp
  have hn : (act k r v).norm = v.norm := by rw [act_eq]; exact SO3.mulVec_norm hR v
  obtain ⟨w, hw⟩ : ∃ w, w = act k r v := ⟨_, rfl⟩
  rw [← hw] at hv hn ⊢
  have fin : ∀ {δ : ℝ}, Rounded 0 δ k (F.inverted k r) (den k r).transpose → angleSize k (F.inverted k r) ≤ 13 →
      (k = .xyz ∨ k = .zyx ∨ angleSize k (F.inverted k r) ≤ 7) → δ ≤ 6400 * F.u + 101 / 100 * P.dp →
      (F.inverseRotate P k r w - v).norm ≤ 2 / 10 ^ 12 * v.norm := by
    intro δ h1 h2 h3 h4
    have h0 := angleSize_nonneg k (F.inverted k r)
    have hE' : quatErr P F.u 0 (angleSize k (F.inverted k r)) k ≤ 64 * F.u + P.eps / 3000 := by
      have := mul_le_mul_of_nonneg_right h2 hu
      rcases h3 with rfl | rfl | h3
      · simp only [quatErr]; linarith
      · simp only [quatErr]; linarith
      · have := mul_le_mul_of_nonneg_right h3 hu
        cases k <;> simp only [quatErr] <;> linarith
    have k1 := F.C85_rotate P h1 (by linarith) w
    rw [hv] at k1
    rw [← hn]
    refine k1.trans (mul_le_mul_of_nonneg_right ?_ w.norm_nonneg)
    split_ifs <;> linarith
  cases k
  · exact fin hi (by change (0:ℝ) ≤ _; norm_num) (Or.inr (Or.inr (by change (0:ℝ) ≤ _; norm_num))) (by simp; positivity)
  · exact fin hi (by change (0:ℝ) ≤ _; norm_num) (Or.inr (Or.inr (by change (0:ℝ) ≤ _; norm_num))) (by simp; positivity)
  · have e : angleSize .aa (F.inverted .aa r) = angleSize .aa r := by
      change |(aaInverted r).angle| = |AngAx.angle r|
      simp [aaInverted, AngAx.inverse]
    exact fin hi (by linarith) (Or.inr (Or.inr (by linarith))) (by simp; positivity)
  · have e : angleSize .rv (F.inverted .rv r) = angleSize .rv r := V3.norm_neg _
    exact fin hi (by linarith) (Or.inr (Or.inr (by linarith))) (by simp; positivity)
  · simp only [quatErr] at hi
    refine fin hi (F.xyz_size _) (Or.inl rfl) ?_
    simp only [true_or, if_true, convLoss]; linarith
  · simp only [quatErr] at hi
    refine fin hi (F.zyx_size _) (Or.inr (Or.inl rfl)) ?_
    simp only [or_true, if_true, convLoss]; linarith

/-- A round trip of the rotation by one radian about the x axis through the Euler angles, in `double`. -/
example (v : V3) : (act .rv (double.conv Prec.double .rv .xyz (double.conv Prec.double .xyz .rv (⟨⟨1, 0, 0⟩⟩ : RotVec))) v
    - act .rv (⟨⟨1, 0, 0⟩⟩ : RotVec) v).norm ≤ 2 / 10 ^ 11 * v.norm := by
  refine C85_round_trip double le_rfl .rv .xyz .rv (⟨⟨1, 0, 0⟩⟩ : RotVec) trivial ?_ v
  have : (⟨1, 0, 0⟩ : V3).norm = 1 := V3.norm_eq_one_iff.mpr (by simp [V3.normSq, V3.dot])
  change (⟨1, 0, 0⟩ : V3).norm ≤ 7
  rw [this]; norm_num

end FloatLib
end Kindr
