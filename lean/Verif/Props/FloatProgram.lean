import Verif.Spec.FloatProgram
import Verif.Props.FloatUnique
import Verif.Props.FloatPose
import Verif.Props.FloatLoop
import Verif.Props.Program

/-!
# C91: programs in floating point (analysis with bounds)

The corollary for `double` is in `FloatCost.lean`.
-/

set_option autoImplicit false

open Classical

noncomputable section
namespace Kindr
open Spec

lemma within_nonmat {b : Bound} {k : Kind} (hk : k ≠ .mat) {r : Rep k} {R : M3} :
    Within b k r R ↔ Rounded b.off b.err k r R ∧ angleSize k r ≤ b.size := by
  unfold Within Rounded
  simp only [if_neg hk]
  exact ⟨fun ⟨h1, h2, h3⟩ => ⟨⟨h1, h3⟩, h2⟩, fun ⟨⟨h1, h3⟩, h2⟩ => ⟨h1, h2, h3⟩⟩

lemma within_mat {b : Bound} {m R : M3} :
    Within b .mat m R ↔ 0 ≤ b.off ∧ 0 ≤ b.size ∧ ∃ Q, IsSO3 Q ∧ Close b.off m Q ∧ Close b.err Q R := by
  unfold Within
  simp only [if_true]
  constructor
  · rintro ⟨h1, h2, r', h3, h4, h5⟩
    exact ⟨h1, h2, r', h3, fun v => by have := h4 v; rwa [act_eq_dmat, act_eq_dmat] at this, fun v => by have := h5 v; rwa [act_eq_dmat] at this⟩
  · rintro ⟨h1, h2, r', h3, h4, h5⟩
    exact ⟨h1, h2, r', h3, fun v => by rw [act_eq_dmat, act_eq_dmat]; exact h4 v, fun v => by rw [act_eq_dmat]; exact h5 v⟩

lemma Spec.Within.off_nonneg {b : Bound} {k : Kind} {r : Rep k} {R : M3} (h : Within b k r R) : 0 ≤ b.off := h.1
lemma Spec.Within.size_le {b : Bound} {k : Kind} {r : Rep k} {R : M3} (h : Within b k r R) : angleSize k r ≤ b.size := h.2.1
lemma Spec.Within.size_nonneg {b : Bound} {k : Kind} {r : Rep k} {R : M3} (h : Within b k r R) : 0 ≤ b.size :=
  (angleSize_nonneg k r).trans h.2.1

lemma Spec.Within.mono {b c : Bound} {k : Kind} {r : Rep k} {R : M3} (h : Within b k r R) (h1 : b.off ≤ c.off) (h2 : b.err ≤ c.err)
    (h3 : b.size ≤ c.size) : Within c k r R := by
  by_cases hk : k = .mat
  · subst hk
    obtain ⟨a1, a2, Q, a3, a4, a5⟩ := within_mat.mp h
    exact within_mat.mpr ⟨a1.trans h1, a2.trans h3, Q, a3, a4.mono h1, a5.mono h2⟩
  · obtain ⟨a1, a2⟩ := (within_nonmat hk).mp h
    exact (within_nonmat hk).mpr ⟨a1.mono h1 h2, a2.trans h3⟩

/-- A bound gives a rounded value. -/
lemma Spec.Within.rounded {b : Bound} {k : Kind} {r : Rep k} {R : M3} (h : Within b k r R) : Rounded b.off b.err k r R := by
  by_cases hk : k = .mat
  · subst hk
    obtain ⟨a1, a2, Q, a3, a4, a5⟩ := within_mat.mp h
    exact rounded_mat a1 a3 a4.entry a5
  · exact ((within_nonmat hk).mp h).1

/-- A rounded value gives a bound. -/
lemma within_of_rounded {k : Kind} {r : Rep k} {R : M3} {η δ : ℝ} {b : Bound} (h : Rounded η δ k r R) (h1 : η ≤ b.off)
    (hm : k = .mat → 3 * η ≤ b.off) (h2 : δ ≤ b.err) (h3 : angleSize k r ≤ b.size) : Within b k r R := by
  by_cases hk : k = .mat
  · subst hk
    obtain ⟨Q, a3, a4, a5⟩ := h.mat
    exact within_mat.mpr ⟨h.1.trans h1, h3, Q, a3, a4.close.mono (hm rfl), a5.mono h2⟩
  · exact (within_nonmat hk).mpr ⟨h.mono h1 h2, h3⟩

namespace FloatWide
variable (F : FloatWide)

lemma quatErr_mono (P : Prec) {η η' S S' : ℝ} (h1 : η ≤ η') (h2 : S ≤ S') (s : Kind) :
    quatErr P F.u η S s ≤ quatErr P F.u η' S' s := by
  have := mul_le_mul_of_nonneg_right h2 F.u_nonneg
  cases s <;> simp only [quatErr] <;> linarith

lemma convLoss_mono (P : Prec) {η η' e e' S S' : ℝ} (h1 : η ≤ η') (h0 : 0 ≤ η') (h2 : e ≤ e') (h3 : S ≤ S') (hS : 0 ≤ S) (d : Kind) :
    convLoss P F.u η e S d ≤ convLoss P F.u η' e' S' d := by
  have := mul_le_mul h1 h3 hS h0
  cases d <;> simp only [convLoss] <;> linarith

lemma progOff_ge {u e : ℝ} (hu : 0 ≤ u) (he : 0 ≤ e) (d : Kind) : convOff u e d ≤ progOff u e d ∧ (d = .mat → 3 * convOff u e d ≤ progOff u e d) := by
  cases d <;> simp [convOff, progOff] <;> constructor <;> linarith

/-- Angles of a converted value. -/
lemma conv_size (P : Prec) {d s : Kind} (hds : d ≠ s) {r : Rep s} {R : M3} {b : Bound} (h : Within b s r R)
    (he : quatErr P F.u b.off b.size s ≤ 1 / 100000) : angleSize d (F.conv P d s r) ≤ progSize F.u b d s := by
  have hu := F.u_nonneg
  have hus := F.u_small
  have hS := h.size_le
  have hS0 := angleSize_nonneg s r
  have hb0 := h.off_nonneg
  have hr := h.rounded
  have he' := (F.quatErr_mono P le_rfl hS s).trans he
  have hq := F.toQuat_rounded P hr he'
  have hp2 : (F.conv P .quat s r : Quat).norm ≤ 2 := by
    obtain ⟨u, hu, h1, -⟩ := hq.quat
    have := abs_norm_sub_norm_le (toH (F.conv P .quat s r)) (toH u)
    rw [norm_toH, norm_toH, unit_norm hu] at this
    have := (abs_le.mp this).2
    linarith
  cases d
  · exact le_rfl
  · exact le_rfl
  · have g : ∀ q : Quat, |(F.ofQuat q).angle| ≤ 13 := fun q => (F.ofQuat_bound q).1.trans (by norm_num)
    cases s
    · exact g _
    · exact g _
    · exact absurd rfl hds
    · change |(F.aaOfRv P r).angle| ≤ (1 + 10 * F.u) * b.size
      change (RotVec.v r).norm ≤ b.size at hS
      change 0 ≤ (RotVec.v r).norm at hS0
      have h1 := mul_le_mul_of_nonneg_left hS (by linarith : 0 ≤ 1 + 10 * F.u)
      by_cases hn : F.norm3 (RotVec.v r) < P.dp
      · simp only [FloatLib.aaOfRv, if_pos hn, AngAx.identity, abs_zero]; exact le_trans (by positivity) h1
      · simp only [FloatLib.aaOfRv, if_neg hn]
        have := abs_le.mp (F.norm3_err (RotVec.v r))
        have h0 := F.norm3_nonneg (RotVec.v r)
        change |F.norm3 (RotVec.v r)| ≤ _
        rw [abs_of_nonneg h0]
        refine le_trans ?_ h1
        have := mul_nonneg hu hS0
        linarith [(abs_le.mp (F.norm3_err (RotVec.v r))).2]
    · exact g _
    · exact g _
  · have g : ∀ q : Quat, q.norm ≤ 2 → (F.rvOfQuat P q).v.norm ≤ 13 := fun q hq =>
      (F.rvOfQuat_bound P q ((FloatLib.vec_norm_le q).trans hq)).trans (by norm_num)
    have g2 : ∀ q : Quat, (F.rvOfAa (F.ofQuat q)).v.norm ≤ 13 := fun q => by
      have k := F.ofQuat_bound q
      have := mul_le_mul k.1 k.2 (V3.norm_nonneg _) (by norm_num)
      exact (F.rvOfAa_bound _ this).trans (by norm_num)
    cases s
    · exact g _ hp2
    · exact g _ hp2
    · obtain ⟨n, hn, h1, -⟩ := hr.aa
      have hn1 : n.norm = 1 := V3.norm_eq_one_iff.mpr hn
      have hax : (AngAx.axis r).norm ≤ 1 + b.off := by
        have e : AngAx.axis r = (AngAx.axis r - n) + n := by ext <;> simp
        rw [e]; exact (V3.norm_add_le _ _).trans (by linarith)
      change |AngAx.angle r| ≤ b.size at hS
      have h2 := mul_le_mul hS hax (V3.norm_nonneg _) (h.size_nonneg)
      have h3 := (F.fl_vec_fine (AngAx.axis r) (AngAx.angle r)).trans (mul_le_mul_of_nonneg_left h2 (by linarith : 0 ≤ 1 + F.u))
      change (F.rvOfAa r).v.norm ≤ (1 + 10 * F.u) * ((1 + b.off) * b.size)
      refine h3.trans ?_
      have h4 := mul_nonneg h.size_nonneg (by linarith : 0 ≤ 1 + b.off)
      have h5 := mul_nonneg hu h4
      linarith
    · exact absurd rfl hds
    · exact g2 _
    · exact g2 _
  · have g : ∀ q : Quat, angleSize .xyz (F.xyzOfQuat q) ≤ 13 := fun q => F.xyz_size q
    cases s
    · exact g _
    · exact g _
    · exact g _
    · exact g _
    · exact absurd rfl hds
    · exact g _
  · have g : ∀ q : Quat, angleSize .zyx (F.zyxOfQuat q) ≤ 13 := fun q => F.zyx_size q
    cases s
    · exact g _
    · exact g _
    · exact g _
    · exact g _
    · exact g _
    · exact absurd rfl hds

/-- Conversion. -/
lemma conv_within (P : Prec) {d s : Kind} {r : Rep s} {R : M3} {b : Bound} (h : Within b s r R) (hf : convFits P F.u d s b) :
    Within (convBound P F.u d s b) d (F.conv P d s r) R := by
  by_cases hds : d = s
  · subst hds
    have e : F.conv P d d r = r := by cases d <;> rfl
    rw [e, convBound, if_pos rfl]; exact h
  have hu := F.u_nonneg
  obtain ⟨he, hrv⟩ := hf.resolve_left hds
  have hr := h.rounded
  have hS := h.size_le
  have hS0 := angleSize_nonneg s r
  have hb0 := h.off_nonneg
  have hm := F.quatErr_mono P (le_refl b.off) hS s
  have hE0 := F.quatErr_nonneg P hb0 r
  have hd : d = .rv → RvDefined F.toFloatLib P s r := fun hd => by
    by_cases hs : s = .quat ∨ s = .mat
    · exact F.C85_rv_defined P hr (hm.trans he) (by have := hrv hd hs; linarith)
    · cases s <;> first | exact trivial | (exact absurd (Or.inl rfl) hs) | (exact absurd (Or.inr rfl) hs)
  have k := F.C85_convert P d hr (hm.trans he) hd
  simp only [if_neg hds] at k
  rw [convBound, if_neg hds]
  have o := progOff_ge hu (hE0.trans hm) d
  have k2 := k.mono (η' := convOff F.u (quatErr P F.u b.off b.size s) d) (by cases d <;> simp only [convOff] <;> linarith) le_rfl
  refine within_of_rounded k2 o.1 o.2 ?_ (F.conv_size P hds h he)
  have := F.convLoss_mono P (le_refl b.off) hb0 hm hS hS0 d
  simp only
  linarith

/-- Product of two quaternions that are not quite normalized: no constant factor in front of either error. -/
lemma quatMul_tight {p q a b : Quat} (ha : a.normSq = 1) (hb : b.normSq = 1) {d e : ℝ} (hp : ‖toH p - toH a‖ ≤ d)
    (hq : ‖toH q - toH b‖ ≤ e) (hd : d ≤ 1 / 100) (he : e ≤ 1 / 100) :
    ‖toH (F.quatMul p q) - toH (a * b)‖ ≤ (1 + d) * (1 + e) - 1 + 9 * F.u := by
  have hu := F.u_nonneg
  have hd0 := (norm_nonneg _).trans hp
  have he0 := (norm_nonneg _).trans hq
  have nb : ‖toH b‖ = 1 := by rw [norm_toH, unit_norm hb]
  have na : ‖toH a‖ = 1 := by rw [norm_toH, unit_norm ha]
  have np : ‖toH p‖ ≤ 1 + d := by
    have := norm_add_le (toH p - toH a) (toH a)
    rw [sub_add_cancel] at this; linarith
  have nq : ‖toH q‖ ≤ 1 + e := by
    have := norm_add_le (toH q - toH b) (toH b)
    rw [sub_add_cancel] at this; linarith
  have h := quatMul_err F.toFloatArith p q
  have hm := quatMulErr_le F.toFloatArith
  have e1 : toH (F.quatMul p q) - toH (a * b) = (toH (F.quatMul p q) - toH p * toH q) +
      ((toH p - toH a) * toH b + toH p * (toH q - toH b)) := by
    rw [toH_mul]; noncomm_ring
  rw [e1]
  refine (norm_add_le _ _).trans ?_
  have k1 := norm_add_le ((toH p - toH a) * toH b) (toH p * (toH q - toH b))
  rw [norm_mul, norm_mul, nb, mul_one] at k1
  have k2 : ‖toH p‖ * ‖toH q - toH b‖ ≤ (1 + d) * e := mul_le_mul np hq (norm_nonneg _) (by linarith)
  have k3 : quatMulErr F.u * (‖toH p‖ * ‖toH q‖) ≤ 9 * F.u := by
    have a1 : ‖toH p‖ * ‖toH q‖ ≤ 101 / 100 * (101 / 100) := mul_le_mul (by linarith) (by linarith) (norm_nonneg _) (by norm_num)
    have a2 := mul_le_mul hm a1 (by positivity) (by linarith)
    norm_num at a2 ⊢; linarith
  have k4 : ‖toH (F.quatMul p q) - toH p * toH q‖ ≤ quatMulErr F.u * (‖toH p‖ * ‖toH q‖) := by
    simpa [mul_assoc] using h
  linarith

/-- Product. -/
lemma mul_within (P : Prec) {k₁ k₂ : Kind} {x : Rep k₁} {y : Rep k₂} {A B : M3} {a b : Bound} (ha : Within a k₁ x A) (hb : Within b k₂ y B)
    (hA : IsSO3 A) (hf : mulFits P F.u k₁ k₂ a b) : Within (mulBound P F.u k₁ k₂ a b) k₁ (F.mult P k₁ k₂ x y) (A * B) := by
  have hu := F.u_nonneg
  by_cases hk : k₁ = .mat ∧ k₂ = .mat
  · rw [mulBound, if_pos hk]
    rw [mulFits, if_pos hk] at hf
    obtain ⟨rfl, rfl⟩ := hk
    obtain ⟨a1, -, Q, a3, a4, a5⟩ := within_mat.mp ha
    obtain ⟨b1, -, S, b3, b4, b5⟩ := within_mat.mp hb
    have hr' : ∀ v : V3, ((y : M3).mulVec v).norm ≤ (1 + b.off) * v.norm := fun v => by
      have h1 := b4 v
      have h2 := V3.norm_add_le ((y : M3).mulVec v - S.mulVec v) (S.mulVec v)
      rw [sub_add_cancel, SO3.mulVec_norm b3] at h2
      linarith
    have h1 := F.matMul_close a3 a4.entry hf.1 (r := y) (fun v => (hr' v).trans (mul_le_mul_of_nonneg_right (by linarith [hf.2]) v.norm_nonneg))
    have h2 : Close (a.off * (1 + b.off)) ((x : M3) * y) (Q * y) := fun v => by
      rw [← M3.mulVec_mulVec, ← M3.mulVec_mulVec]
      refine (a4 _).trans ?_
      have := mul_le_mul_of_nonneg_left (hr' v) a1
      linarith
    have h3 := (h1.trans h2).trans (b4.mul_left a3)
    refine within_mat.mpr ⟨?_, le_rfl, Q * S, SO3.mul a3 b3, h3.mono (by simp only; linarith), a5.mul b5 b3 hA⟩
    simp only
    have := mul_nonneg a1 b1
    linarith
  · rw [mulBound, if_neg hk]
    rw [mulFits, if_neg hk] at hf
    obtain ⟨hE1, hrv⟩ := hf
    have e1 := F.quatErr_nonneg P ha.off_nonneg x
    have e2 := F.quatErr_nonneg P hb.off_nonneg y
    have m1 := F.quatErr_mono P (le_refl a.off) ha.size_le k₁
    have m2 := F.quatErr_mono P (le_refl b.off) hb.size_le k₂
    have m12 := mul_nonneg (e1.trans m1) (e2.trans m2)
    have g1 : quatErr P F.u a.off a.size k₁ ≤ 1 / 100000 := by rw [mulErr] at hE1; linarith
    have g2 : quatErr P F.u b.off b.size k₂ ≤ 1 / 100000 := by rw [mulErr] at hE1; linarith
    have qa := (F.toQuat_rounded P ha.rounded (m1.trans g1)).mono m1 le_rfl
    have qb := (F.toQuat_rounded P hb.rounded (m2.trans g2)).mono m2 le_rfl
    obtain ⟨p, hp, p1, p2⟩ := qa.quat
    obtain ⟨q, hq, q1, q2⟩ := qb.quat
    have hpq : (p * q).normSq = 1 := by rw [Quat.normSq_mul, hp, hq, one_mul]
    have hm := F.quatMul_tight hp hq p1 q1 (by linarith) (by linarith)
    have hc : Close (a.err + b.err) (sMat (p * q)) (A * B) := by rw [sMat_mul]; exact p2.mul q2 (sMat_isSO3 hq) hA
    have hE0 : 0 ≤ mulErr P F.u k₁ k₂ a b := by rw [mulErr]; linarith
    have hr : Rounded (mulErr P F.u k₁ k₂ a b) (a.err + b.err) .quat (F.quatMul (F.conv P .quat k₁ x) (F.conv P .quat k₂ y)) (A * B) :=
      rounded_quat hE0 hpq hm hc
    have e : F.mult P k₁ k₂ x y = F.conv P k₁ .quat (F.quatMul (F.conv P .quat k₁ x) (F.conv P .quat k₂ y)) := by
      cases k₁ <;> cases k₂ <;> first | rfl | exact absurd ⟨rfl, rfl⟩ hk
    have z := F.fromQuat_rounded P k₁ hr hE1 hrv
    rw [← e] at z
    have o := progOff_ge hu hE0 k₁
    have sz : angleSize k₁ (F.mult P k₁ k₂ x y) ≤ if k₁ = .quat ∨ k₁ = .mat then 0 else 13 := by
      rw [e]
      have w : Within ⟨mulErr P F.u k₁ k₂ a b, a.err + b.err, 0⟩ .quat (F.quatMul (F.conv P .quat k₁ x) (F.conv P .quat k₂ y)) (A * B) :=
        (within_nonmat (by decide)).mpr ⟨hr, le_rfl⟩
      cases k₁
      · exact le_rfl
      · exact le_rfl
      all_goals exact F.conv_size P (by decide) w hE1
    exact within_of_rounded z o.1 o.2 le_rfl sz

/-- Inverse. -/
lemma inv_within (P : Prec) {k : Kind} {r : Rep k} {R : M3} {b : Bound} (h : Within b k r R) (hf : invFits P F.u k b) :
    Within (invBound P F.u k b) k (F.inverted k r) R.transpose := by
  have hu := F.u_nonneg
  have m := F.quatErr_mono P (le_refl b.off) h.size_le k
  by_cases hk : k = .xyz ∨ k = .zyx
  · rw [invBound, if_pos hk]
    have z := F.C85_inverted P h.rounded (m.trans (hf hk))
    rw [if_pos hk] at z
    have sz : angleSize k (F.inverted k r) ≤ 13 := by
      rcases hk with rfl | rfl
      · exact F.xyz_size _
      · exact F.zyx_size _
    refine within_of_rounded z le_rfl (by rcases hk with rfl | rfl <;> (intro h; cases h)) ?_ sz
    have := F.convLoss_mono P (le_refl b.off) h.off_nonneg m le_rfl le_rfl k
    simp only; linarith
  · rw [invBound, if_neg hk]
    by_cases hm : k = .mat
    · subst hm
      obtain ⟨a1, a2, Q, a3, a4, a5⟩ := within_mat.mp h
      refine within_mat.mpr ⟨a1, a2, Q.transpose, SO3.transpose a3, ?_, a5.transpose⟩
      exact a4.transpose
    · obtain ⟨h1, h2⟩ := (within_nonmat hm).mp h
      refine (within_nonmat hm).mpr ?_
      cases k
      · have z : Rounded b.off b.err .quat (F.inverted .quat r) R.transpose := by
          obtain ⟨u, hu1, k1, k2⟩ := h1.quat
          refine rounded_quat h1.1 (by rw [Quat.normSq_conj]; exact hu1) ?_ (by rw [sMat_conj]; exact k2.transpose)
          have e : toH (Quat.conj r) - toH u.conj = star (toH r - toH u) := by ext <;> simp [Quat.conj] <;> ring
          change ‖toH (Quat.conj r) - _‖ ≤ _
          rw [e, norm_star]; exact k1
        exact ⟨z, h2⟩
      · exact absurd rfl hm
      · obtain ⟨n, hn, k1, k2⟩ := h1.aa
        have e : F.inverted .aa r = (⟨AngAx.angle r, -AngAx.axis r⟩ : AngAx) := by
          change aaInverted r = _
          simp [aaInverted, AngAx.inverse]
        rw [e]
        have hn' : (-n).normSq = 1 := by rw [← hn]; simp [V3.normSq, V3.dot]
        refine ⟨rounded_aa h1.1 hn' ?_ (by rw [← rodMat_transpose]; exact k2.transpose), h2⟩
        have e2 : -AngAx.axis r - -n = -(AngAx.axis r - n) := by ext <;> simp <;> ring
        rw [e2, V3.norm_neg]; exact k1
      · have e : dmat .rv (F.inverted .rv r) = (dmat .rv r).transpose := by
          have := (inverted_spec (k := .rv) (r := r) trivial).2
          rw [den_eq, den_eq] at this
          exact this
        refine ⟨rounded_rv h1.1 (by rw [e]; exact h1.rv.transpose), ?_⟩
        have e1 : angleSize .rv (F.inverted .rv r) = angleSize .rv r := V3.norm_neg _
        rw [e1]; exact h2
      · exact absurd (Or.inl rfl) hk
      · exact absurd (Or.inr rfl) hk

/-- Any two rotations differ by at most 2 on unit vectors. -/
lemma close_two {Q R : M3} (hQ : IsSO3 Q) (hR : IsSO3 R) : Close 2 Q R := fun v => by
  have := V3.norm_add_le (Q.mulVec v) (-(R.mulVec v))
  rw [V3.norm_neg, SO3.mulVec_norm hQ, SO3.mulVec_norm hR, ← sub_eq_add_neg] at this
  linarith

/-- `setUnique()`. -/
lemma unique_within (P : Prec) {k : Kind} {r : Rep k} {R : M3} {b : Bound} (h : Within b k r R) (hR : IsSO3 R) (hf : uniqueFits P F.u k b) :
    Within (uniqueBound P F.u k b) k (F.getUnique P k r) R := by
  have hu := F.u_nonneg
  have hus := F.u_small
  have hpi := Real.pi_lt_d2
  have hS := h.size_le
  obtain ⟨f1, f2⟩ := hf
  have hr := h.rounded
  have h0 := h.off_nonneg
  cases k
  · by_cases hη : b.off < 1
    · have z := (F.C90_quaternion P hr hη).1
      exact within_of_rounded z le_rfl (fun h => by cases h) le_rfl hS
    · refine (within_nonmat (by decide)).mpr ⟨?_, hS⟩
      obtain ⟨p, hp, p1, p2⟩ := hr.quat
      change Rounded b.off b.err .quat (quatGetUnique r) R
      have hneg : Rounded b.off b.err .quat (⟨-Quat.w r, -Quat.x r, -Quat.y r, -Quat.z r⟩ : Quat) R := by
        refine rounded_quat h0 (u := ⟨-p.w, -p.x, -p.y, -p.z⟩) (by rw [← hp]; simp [Quat.normSq]) ?_ ?_
        · have e : toH (⟨-Quat.w r, -Quat.x r, -Quat.y r, -Quat.z r⟩ : Quat) - toH ⟨-p.w, -p.x, -p.y, -p.z⟩ = -(toH r - toH p) := by
            ext <;> simp <;> ring
          rw [e, norm_neg]; exact p1
        · have e : sMat ⟨-p.w, -p.x, -p.y, -p.z⟩ = sMat p := by ext <;> simp [sMat]
          rw [e]; exact p2
      unfold quatGetUnique
      split_ifs <;> first | exact hr | exact hneg
  · exact h
  · obtain ⟨z1, z2, z3⟩ := F.C90_angle_axis P hr (by linarith)
    refine within_of_rounded z1 le_rfl (fun h => by cases h) le_rfl ?_
    change |AngAx.angle (F.getUnique P .aa r)| ≤ 4
    rw [abs_of_nonneg z2]; linarith
  · obtain ⟨z1, z2⟩ := F.C90_rotation_vector P hr (by linarith) ((F.quatErr_mono P (le_refl b.off) hS .rv).trans (f2 rfl))
    refine within_of_rounded z1 h0 (fun h => by cases h) le_rfl ?_
    change (RotVec.v (F.getUnique P .rv r)).norm ≤ 4
    linarith
  · obtain ⟨z1, z2, z3, z4, -⟩ := F.C90_xyz P r (by linarith)
    have hc : Close (2 / 1000 + 1350 * F.u) (dmat .xyz (F.getUnique P .xyz r)) (dmat .xyz r) := fun v => by
      have := z1 v; rwa [act_eq_dmat, act_eq_dmat] at this
    refine (within_nonmat (by decide)).mpr ⟨rounded_xyz h0 ((hc.trans hr.xyz).mono (by simp only [uniqueBound]; linarith)), ?_⟩
    change |EulXyz.x _| + |EulXyz.y _| + |EulXyz.z _| ≤ 13
    linarith
  · have hd := den_isSO3 (k := .zyx) (r := F.getUnique P .zyx r) trivial
    rw [den_eq] at hd
    refine (within_nonmat (by decide)).mpr ⟨rounded_zyx h0 (close_two hd hR), ?_⟩
    obtain ⟨s1, s2, s3⟩ := coeff_le (a := EulZyx.x r) (b := EulZyx.y r) (c := EulZyx.z r) (M := 30) (le_trans hS (by linarith))
    have k := F.body_rot (v := ⟨EulZyx.z r, EulZyx.y r, EulZyx.x r⟩) s3 s2 s1
    change |(F.eulerUniqueBody ⟨EulZyx.z r, EulZyx.y r, EulZyx.x r⟩).z| + |(F.eulerUniqueBody ⟨EulZyx.z r, EulZyx.y r, EulZyx.x r⟩).y| +
      |(F.eulerUniqueBody ⟨EulZyx.z r, EulZyx.y r, EulZyx.x r⟩).x| ≤ 13
    generalize F.eulerUniqueBody ⟨EulZyx.z r, EulZyx.y r, EulZyx.x r⟩ = t at *
    rcases k with ⟨-, -, ⟨h2, h3, h4⟩, -⟩ | ⟨-, -, ⟨h2, h3, h4⟩, -⟩
    · linarith
    · rw [h4, abs_zero]; linarith

/-- `rotate()`. -/
lemma rotate_within (P : Prec) {k : Kind} {r : Rep k} {R : M3} {b : Bound} (h : Within b k r R) (hf : rotFits P F.u k b) (v : V3) :
    (F.rotate P k r v - R.mulVec v).norm ≤ rotErr P F.u k b * v.norm := by
  by_cases hk : k = .mat
  · rw [rotErr, if_pos hk]
    rw [rotFits, if_pos hk] at hf
    subst hk
    obtain ⟨a1, a2, Q, a3, a4, a5⟩ := within_mat.mp h
    have c := F.mulVec_round a3 a4.entry hf v
    have e : F.rotate P .mat r v - R.mulVec v = (F.mulVec r v - M3.mulVec r v) + (M3.mulVec r v - R.mulVec v) := by
      change F.mulVec r v - _ = _; abel
    rw [e]
    refine (V3.norm_add_le _ _).trans ?_
    have := (a4.trans a5) v
    linarith
  · rw [rotErr, if_neg hk]
    rw [rotFits, if_neg hk] at hf
    have m := F.quatErr_mono P (le_refl b.off) h.size_le k
    have z := F.C85_rotate P h.rounded (m.trans hf) v
    rw [if_neg hk] at z
    exact z.trans (mul_le_mul_of_nonneg_right (by linarith) v.norm_nonneg)

/-- `getDisparityAngle()`. -/
lemma disparity_within (P : Prec) {k₁ k₂ : Kind} {x : Rep k₁} {y : Rep k₂} {A B : M3} {a b : Bound} (ha : Within a k₁ x A)
    (hb : Within b k₂ y B) (hA : IsSO3 A) (hB : IsSO3 B) (hf : quotFits P F.u k₁ k₂ a b) :
    |F.disparityAngle P k₁ k₂ x y - rotAngle (A * B.transpose)| ≤ 2 * (convBound P F.u .aa k₁ (quotBound P F.u k₁ k₂ a b)).err + 1000 * F.u := by
  obtain ⟨f1, f2, f3, f4⟩ := hf
  have h1 := F.inv_within P hb f1
  have h2 := F.mul_within P ha h1 hA f2
  have h3 := F.conv_within P h2 f3
  exact F.wrap_angle h3.rounded (SO3.mul hA (SO3.transpose hB)) (h3.size_le.trans f4)

end FloatWide

lemma len_toVec (v : V3) : len (toVec v) = v.norm := by
  rw [len, V3.norm, V3.normSq, V3.dot]
  congr 1
  simp [toVec]; ring

lemma len_sub (v w : V3) : len (toVec v - toVec w) = (v - w).norm := by
  rw [← len_toVec]; congr 1; ext i; fin_cases i <;> simp [toVec]

lemma angleOf_toMat (m : M3) : angleOf (toMat m) = rotAngle m := by rw [angleOf, toMat_trace]; rfl

/-- The simulation relation. -/
def Spec.Tracks (β : ℕ → Bound) (cls : ℕ → Kind) (σ : (i : ℕ) → Rep (cls i)) (S : Store) : Prop :=
  ∀ i, ∃ R, IsSO3 R ∧ S i = toMat R ∧ Within (β i) (cls i) (σ i) R

lemma Spec.Tracks.update {β : ℕ → Bound} {cls : ℕ → Kind} {σ : (i : ℕ) → Rep (cls i)} {S : Store} (h : Tracks β cls σ S) (d : ℕ)
    {b : Bound} {x : Rep (cls d)} {A : Matrix (Fin 3) (Fin 3) ℝ} (hx : ∃ R, IsSO3 R ∧ A = toMat R ∧ Within b (cls d) x R) :
    Tracks (Function.update β d b) cls (Function.update σ d x) (Function.update S d A) := by
  intro i
  by_cases hi : i = d
  · subst hi; rw [Function.update_self, Function.update_self, Function.update_self]; exact hx
  · rw [Function.update_of_ne hi, Function.update_of_ne hi, Function.update_of_ne hi]; exact h i

lemma within_identity (k : Kind) : Within ⟨0, 0, 0⟩ k (identity k) 1 := by
  have h := identity_spec k
  have hr := rounded_of_valid h.1
  rw [h.2] at hr
  refine within_of_rounded hr le_rfl (fun _ => by simp) le_rfl ?_
  cases k
  · exact le_rfl
  · exact le_rfl
  · change |(0 : ℝ)| ≤ 0; simp
  · change V3.norm ⟨0, 0, 0⟩ ≤ 0
    exact le_of_eq V3.norm_zero
  · change |(0 : ℝ)| + |0| + |0| ≤ 0; simp
  · change |(0 : ℝ)| + |0| + |0| ≤ 0; simp

namespace FloatWide
variable (F : FloatWide)

private lemma step_tracks (P : Prec) (cls : ℕ → Kind) {β : ℕ → Bound} {σ : (i : ℕ) → Rep (cls i)} {S : Store} (h : Tracks β cls σ S) (c : Cmd)
    (hf : cmdFits P F.u cls β c) : Tracks (boundStep P F.u cls β c) cls (floatStep F P cls σ c).1 (idealStep S c).1 ∧
      Allowed S (outErr P F.u cls β c) c (floatStep F P cls σ c).2 := by
  cases c with
  | assign d s =>
    refine ⟨h.update d ?_, rfl⟩
    obtain ⟨R, hR, e, w⟩ := h s
    exact ⟨R, hR, e, F.conv_within P w hf⟩
  | mul d a b =>
    refine ⟨h.update d ?_, rfl⟩
    obtain ⟨A, hA, ea, wa⟩ := h a
    obtain ⟨B, hB, eb, wb⟩ := h b
    exact ⟨A * B, SO3.mul hA hB, by rw [ea, eb, toMat_mul], F.conv_within P (F.mul_within P wa wb hA hf.1) hf.2⟩
  | inv d a =>
    refine ⟨h.update d ?_, rfl⟩
    obtain ⟨A, hA, ea, wa⟩ := h a
    exact ⟨A.transpose, SO3.transpose hA, by rw [ea, toMat_inv hA], F.conv_within P (F.inv_within P wa hf.1) hf.2⟩
  | setIdentity d => exact ⟨h.update d ⟨1, SO3.one, toMat_one.symm, within_identity _⟩, rfl⟩
  | exp d w =>
    refine ⟨h.update d ?_, rfl⟩
    have hw : Within (expArg w) .rv (⟨w⟩ : RotVec) (den .rv (⟨w⟩ : RotVec)) :=
      within_of_rounded (rounded_of_valid (k := .rv) (r := (⟨w⟩ : RotVec)) trivial) le_rfl (fun h => by cases h) le_rfl le_rfl
    exact ⟨_, den_isSO3 (k := .rv) (r := (⟨w⟩ : RotVec)) trivial, exp_den w, F.conv_within P hw hf⟩
  | boxPlus d a w =>
    refine ⟨h.update d ?_, rfl⟩
    have hw : Within (expArg w) .rv (⟨w⟩ : RotVec) (den .rv (⟨w⟩ : RotVec)) :=
      within_of_rounded (rounded_of_valid (k := .rv) (r := (⟨w⟩ : RotVec)) trivial) le_rfl (fun h => by cases h) le_rfl le_rfl
    have hW := den_isSO3 (k := .rv) (r := (⟨w⟩ : RotVec)) trivial
    obtain ⟨A, hA, ea, wa⟩ := h a
    obtain ⟨f1, f2, f3⟩ := hf
    exact ⟨_, SO3.mul hW hA, by rw [ea, exp_den, toMat_mul], F.conv_within P (F.mul_within P (F.conv_within P hw f1) wa hW f2) f3⟩
  | setUnique d =>
    refine ⟨?_, rfl⟩
    obtain ⟨A, hA, ea, wa⟩ := h d
    have := h.update d (A := S d) ⟨A, hA, ea, F.unique_within P wa hA hf⟩
    rwa [Function.update_eq_self] at this
  | rotate a v =>
    refine ⟨h, _, rfl, ?_⟩
    obtain ⟨A, hA, ea, wa⟩ := h a
    rw [ea, toMat_mulVec', len_sub, len_toVec]
    exact F.rotate_within P wa hf v
  | inverseRotate a v =>
    refine ⟨h, _, rfl, ?_⟩
    obtain ⟨A, hA, ea, wa⟩ := h a
    rw [ea, toMat_inv hA, toMat_mulVec', len_sub, len_toVec]
    exact F.rotate_within P (F.inv_within P wa hf.1) hf.2 v
  | disparity a b =>
    refine ⟨h, _, rfl, ?_⟩
    obtain ⟨A, hA, ea, wa⟩ := h a
    obtain ⟨B, hB, eb, wb⟩ := h b
    rw [ea, eb, toMat_inv hB, ← toMat_mul, angleOf_toMat]
    exact F.disparity_within P wa wb hA hB hf
  | isNear a b tol =>
    refine ⟨h, _, rfl, ?_⟩
    obtain ⟨A, hA, ea, wa⟩ := h a
    obtain ⟨B, hB, eb, wb⟩ := h b
    rw [ea, eb, toMat_inv hB, ← toMat_mul, angleOf_toMat]
    have := abs_le.mp (F.disparity_within P wa wb hA hB hf)
    simp only [isNear, decide_eq_true_eq, outErr]
    exact ⟨fun h => by linarith [this.2], fun h => by linarith [this.1]⟩

/-- **C91 (a).** Soundness of the static error analysis, for every program (any number of variables of any classes, any commands, any
length), every arithmetic and every start.  If the initial values obey the bounds `β` with respect to the ideal rotations `S`, and the
analysis accepts the program (`Fits`, a condition on the bounds and on the text of the program only), then everything the library prints
in floating point is what the ideal program on rotation matrices prints, up to the errors `outErrs` that the analysis computed, and every
variable ends within its bound `boundRun` of the ideal rotation. -/
theorem C91_program (P : Prec) (cls : ℕ → Kind) (p : List Cmd) (β : ℕ → Bound) (σ : (i : ℕ) → Rep (cls i)) (S : Store)
    (h : ∀ i, ∃ R, IsSO3 R ∧ S i = toMat R ∧ Within (β i) (cls i) (σ i) R) (hf : Fits P F.u cls β p) :
    Prints (outErrs P F.u cls β p) S p (floatRun F P cls σ p).2 ∧
    ∀ i, ∃ R, IsSO3 R ∧ (runIdeal S p).1 i = toMat R ∧ Within (boundRun P F.u cls β p i) (cls i) ((floatRun F P cls σ p).1 i) R := by
  induction p generalizing β σ S with
  | nil => exact ⟨rfl, h⟩
  | cons c p ih =>
    obtain ⟨h1, h2⟩ := F.step_tracks P cls h c hf.1
    obtain ⟨h3, h4⟩ := ih _ _ _ h1 hf.2
    exact ⟨⟨_, _, rfl, h2, h3⟩, h4⟩

/-- **C91 (b).** `logarithmicMap()` of a value that obeys a bound, in floating point: as a rotation vector the result stands for the ideal
rotation up to `logBound`, and its length is at most `π` up to rounding. -/
theorem C91_log (P : Prec) {k : Kind} {r : Rep k} {R : M3} {b : Bound} (h : Within b k r R) (hf : logFits P F.u k b) :
    (∀ v, (act .rv (⟨F.logarithmicMap P k r⟩ : RotVec) v - R.mulVec v).norm ≤ (logBound P F.u k b).err * v.norm) ∧
    (F.logarithmicMap P k r).norm ≤ Real.pi + 80 * F.u := by
  have w := F.conv_within P h hf.1
  obtain ⟨z1, z2⟩ := F.C90_rotation_vector P w.rounded (w.size_le.trans hf.2.1) ((F.quatErr_mono P w.off_nonneg w.size_le .rv).trans (hf.2.2 rfl))
  refine ⟨fun v => ?_, z2⟩
  rw [act_eq_dmat]
  exact z1.rv v

/-- **C91 (c).** `a.boxMinus(b)` of two values that obey bounds, in floating point, for every pair of classes: the result takes the ideal
rotation of `b` to the one of `a` up to `logBound`, and its length is at most `π` up to rounding. -/
theorem C91_boxMinus (P : Prec) {k₁ k₂ : Kind} {x : Rep k₁} {y : Rep k₂} {A B : M3} {a b : Bound} (ha : Within a k₁ x A)
    (hb : Within b k₂ y B) (hA : IsSO3 A) (hB : IsSO3 B) (h1 : invFits P F.u k₂ b) (h2 : mulFits P F.u k₁ k₂ a (invBound P F.u k₂ b))
    (h3 : logFits P F.u k₁ (quotBound P F.u k₁ k₂ a b)) :
    (∀ v, (act .rv (⟨F.boxMinus P k₁ k₂ x y⟩ : RotVec) (B.mulVec v) - A.mulVec v).norm ≤ (logBound P F.u k₁ (quotBound P F.u k₁ k₂ a b)).err * v.norm) ∧
    (F.boxMinus P k₁ k₂ x y).norm ≤ Real.pi + 80 * F.u := by
  have z := F.C91_log P (F.mul_within P ha (F.inv_within P hb h1) hA h2) h3
  refine ⟨fun v => ?_, z.2⟩
  have := z.1 (B.mulVec v)
  rw [SO3.mulVec_norm hB, M3.mulVec_mulVec, mul_assoc, SO3.tr_mul hB, mul_one] at this
  exact this

/-- The analysis in any arithmetic at least as accurate as `float` (with its thresholds): the box difference of two exactly represented
quaternions. -/
example (F : FloatWide) (hF : F.u ≤ 2⁻¹ ^ 24) (p q : Quat) (hp : p.normSq = 1) (hq : q.normSq = 1) (v : V3) :
    (act .rv (⟨F.boxMinus Prec.float .quat .quat p q⟩ : RotVec) (act .quat q v) - act .quat p v).norm ≤ 2 / 10 ^ 4 * v.norm := by
  have hu := F.u_nonneg
  have hp' : Valid .quat p := (valid_quat_iff p).mpr hp
  have hq' : Valid .quat q := (valid_quat_iff q).mpr hq
  have hF' : F.u ≤ 6 / 10 ^ 8 := hF.trans (by norm_num)
  have wa : Within ⟨0, 0, 0⟩ .quat p (den .quat p) := within_of_rounded (rounded_of_valid hp') le_rfl (fun h => by cases h) le_rfl le_rfl
  have wb : Within ⟨0, 0, 0⟩ .quat q (den .quat q) := within_of_rounded (rounded_of_valid hq') le_rfl (fun h => by cases h) le_rfl le_rfl
  have k0 : ¬ (Kind.quat = .xyz ∨ Kind.quat = .zyx) := by decide
  have k1 : ¬ (Kind.quat = .mat ∧ Kind.quat = .mat) := by decide
  have k2 : ¬ (Kind.rv = .quat) := by decide
  have e1 : mulErr Prec.float F.u .quat .quat ⟨0, 0, 0⟩ ⟨0, 0, 0⟩ = 9 * F.u := by simp [mulErr, quatErr]
  have e2 : quotBound Prec.float F.u .quat .quat ⟨0, 0, 0⟩ ⟨0, 0, 0⟩ = ⟨9 * F.u, 0, 0⟩ := by
    rw [quotBound, invBound, if_neg k0, mulBound, if_neg k1, e1]; simp [progOff, convLoss]
  have e3 : convBound Prec.float F.u .rv .quat ⟨9 * F.u, 0, 0⟩ = ⟨0, 335 * F.u + Prec.float.dp / 50, 13⟩ := by
    rw [convBound, if_neg k2]; simp only [quatErr, progOff, convLoss, progSize, Bound.mk.injEq, true_and, and_true]; ring
  have z := F.C91_boxMinus Prec.float wa wb (den_isSO3 hp') (den_isSO3 hq') (fun h => absurd h k0)
    (by rw [invBound, if_neg k0, mulFits, if_neg k1, e1]; exact ⟨by norm_num at hF' ⊢; linarith, fun h => absurd h (by decide)⟩)
    (by
      rw [e2, logFits, e3]
      refine ⟨Or.inr ⟨?_, fun _ _ => ?_⟩, ?_, fun _ => ?_⟩
      · simp only [quatErr]; norm_num at hF' ⊢; linarith
      · simp only [quatErr, Prec.float]; norm_num at hF' ⊢; linarith
      · norm_num
      · simp only [quatErr, Prec.float]; norm_num at hF' ⊢; linarith)
  rw [act_eq (k := .quat), act_eq (k := .quat)]
  refine (z.1 v).trans (mul_le_mul_of_nonneg_right ?_ v.norm_nonneg)
  rw [e2, logBound, e3]
  simp only [uniqueBound, Prec.float]
  norm_num at hF' ⊢
  linarith

end FloatWide
end Kindr
