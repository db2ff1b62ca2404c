import Verif.Spec.FloatConv
import Verif.Props.FloatEuler

/-!
# C85: the conversion table in floating point
-/

set_option autoImplicit false

open Classical

noncomputable section
namespace Kindr
open Spec

lemma offBy_quat {η : ℝ} (h0 : 0 ≤ η) (q q' : Quat) : OffBy η .quat q q' ↔ ‖toH q - toH q'‖ ≤ η := by
  have e : toH q - toH q' = toH ⟨q.w - q'.w, q.x - q'.x, q.y - q'.y, q.z - q'.z⟩ := by ext <;> simp
  rw [e, norm_toH, Quat.norm, Real.sqrt_le_left h0]
  simp only [OffBy, Quat.normSq]
  constructor <;> intro h <;> linarith [sq (q.w - q'.w), sq (q.x - q'.x), sq (q.y - q'.y), sq (q.z - q'.z)]

lemma rounded_quat {η δ : ℝ} (h0 : 0 ≤ η) {q u : Quat} {R : M3} (hu : u.normSq = 1) (h1 : ‖toH q - toH u‖ ≤ η) (h2 : Close δ (sMat u) R) :
    Rounded η δ .quat q R :=
  ⟨h0, u, (valid_quat_iff u).mpr hu, (offBy_quat h0 q u).mpr h1, fun v => by rw [act_eq_dmat]; exact h2 v⟩
lemma rounded_mat {η δ : ℝ} (h0 : 0 ≤ η) {m A : M3} {R : M3} (hA : IsSO3 A) (h1 : EntryClose η m A) (h2 : Close δ A R) : Rounded η δ .mat m R :=
  ⟨h0, A, hA, h1, h2⟩
lemma rounded_aa {η δ : ℝ} (h0 : 0 ≤ η) {a : AngAx} {n : V3} {R : M3} (hn : n.normSq = 1) (h1 : (a.axis - n).norm ≤ η)
    (h2 : Close δ (rodMat a.angle n) R) : Rounded η δ .aa a R :=
  ⟨h0, (⟨a.angle, n⟩ : AngAx), (valid_aa_iff _).mpr hn, ⟨rfl, h1⟩, fun v => by rw [act_eq_dmat]; exact h2 v⟩
lemma rounded_rv {η δ : ℝ} (h0 : 0 ≤ η) {r : RotVec} {R : M3} (h2 : Close δ (dmat .rv r) R) : Rounded η δ .rv r R :=
  ⟨h0, r, trivial, rfl, fun v => by rw [act_eq_dmat]; exact h2 v⟩
lemma rounded_xyz {η δ : ℝ} (h0 : 0 ≤ η) {r : EulXyz} {R : M3} (h2 : Close δ (dmat .xyz r) R) : Rounded η δ .xyz r R :=
  ⟨h0, r, trivial, rfl, fun v => by rw [act_eq_dmat]; exact h2 v⟩
lemma rounded_zyx {η δ : ℝ} (h0 : 0 ≤ η) {r : EulZyx} {R : M3} (h2 : Close δ (dmat .zyx r) R) : Rounded η δ .zyx r R :=
  ⟨h0, r, trivial, rfl, fun v => by rw [act_eq_dmat]; exact h2 v⟩

lemma Spec.Rounded.quat {η δ : ℝ} {q : Quat} {R : M3} (h : Rounded η δ .quat q R) :
    ∃ u : Quat, u.normSq = 1 ∧ ‖toH q - toH u‖ ≤ η ∧ Close δ (sMat u) R := by
  obtain ⟨h0, u, hu, h1, h2⟩ := h
  exact ⟨u, (valid_quat_iff u).mp hu, (offBy_quat h0 q u).mp h1, fun v => by have := h2 v; rwa [act_eq_dmat] at this⟩
lemma Spec.Rounded.mat {η δ : ℝ} {m : M3} {R : M3} (h : Rounded η δ .mat m R) :
    ∃ A : M3, IsSO3 A ∧ EntryClose η m A ∧ Close δ A R := by
  obtain ⟨h0, u, hu, h1, h2⟩ := h
  exact ⟨u, hu, h1, h2⟩
lemma Spec.Rounded.aa {η δ : ℝ} {a : AngAx} {R : M3} (h : Rounded η δ .aa a R) :
    ∃ n : V3, n.normSq = 1 ∧ (a.axis - n).norm ≤ η ∧ Close δ (rodMat a.angle n) R := by
  obtain ⟨h0, u, hu, ⟨h1, h3⟩, h2⟩ := h
  exact ⟨AngAx.axis u, (valid_aa_iff _).mp hu, h3, fun v => by have := h2 v; rw [act_eq_dmat] at this; rw [h1]; exact this⟩
lemma Spec.Rounded.rv {η δ : ℝ} {r : RotVec} {R : M3} (h : Rounded η δ .rv r R) : Close δ (dmat .rv r) R := by
  obtain ⟨h0, u, hu, h1, h2⟩ := h
  exact fun v => by have := h2 v; rw [act_eq_dmat, ← h1] at this; exact this
lemma Spec.Rounded.xyz {η δ : ℝ} {r : EulXyz} {R : M3} (h : Rounded η δ .xyz r R) : Close δ (dmat .xyz r) R := by
  obtain ⟨h0, u, hu, h1, h2⟩ := h
  exact fun v => by have := h2 v; rw [act_eq_dmat, ← h1] at this; exact this
lemma Spec.Rounded.zyx {η δ : ℝ} {r : EulZyx} {R : M3} (h : Rounded η δ .zyx r R) : Close δ (dmat .zyx r) R := by
  obtain ⟨h0, u, hu, h1, h2⟩ := h
  exact fun v => by have := h2 v; rw [act_eq_dmat, ← h1] at this; exact this

lemma Spec.EntryClose.mono {d e : ℝ} {A B : M3} (h : EntryClose d A B) (hd : d ≤ e) : EntryClose e A B := by
  obtain ⟨a1, a2, a3, a4, a5, a6, a7, a8, a9⟩ := h
  exact ⟨a1.trans hd, a2.trans hd, a3.trans hd, a4.trans hd, a5.trans hd, a6.trans hd, a7.trans hd, a8.trans hd, a9.trans hd⟩

lemma Spec.Rounded.mono {η δ η' δ' : ℝ} {k : Kind} {r : Rep k} {R : M3} (h : Rounded η δ k r R) (h1 : η ≤ η') (h2 : δ ≤ δ') :
    Rounded η' δ' k r R := by
  obtain ⟨h0, r', hv, ho, hc⟩ := h
  refine ⟨h0.trans h1, r', hv, ?_, fun v => (hc v).trans (mul_le_mul_of_nonneg_right h2 v.norm_nonneg)⟩
  cases k
  · exact le_trans ho (pow_le_pow_left₀ h0 h1 2)
  · exact Spec.EntryClose.mono ho h1
  · exact ⟨ho.1, ho.2.trans h1⟩
  all_goals exact ho

lemma Spec.Rounded.trans {η δ ε : ℝ} {k : Kind} {r : Rep k} {R S : M3} (h : Rounded η δ k r R) (hc : Close ε R S) :
    Rounded η (δ + ε) k r S := by
  obtain ⟨h0, r', hv, ho, hcl⟩ := h
  have : Close δ (dmat k r') R := fun v => by rw [← act_eq_dmat]; exact hcl v
  exact ⟨h0, r', hv, ho, fun v => by rw [act_eq_dmat]; exact (this.trans hc) v⟩

lemma rounded_of_valid {k : Kind} {r : Rep k} (h : Valid k r) : Rounded 0 0 k r (den k r) := by
  refine ⟨le_rfl, r, h, ?_, fun v => by rw [act_eq, sub_self, V3.norm_zero, zero_mul]⟩
  cases k
  · exact (offBy_quat le_rfl _ _).mpr (by rw [sub_self, norm_zero])
  · simp [OffBy, EntryClose]
  · exact ⟨rfl, by rw [sub_self, V3.norm_zero]⟩
  all_goals exact rfl

lemma angleSize_nonneg (k : Kind) (r : Rep k) : 0 ≤ angleSize k r := by
  cases k
  · exact le_rfl
  · exact le_rfl
  · exact abs_nonneg _
  · exact V3.norm_nonneg _
  · exact add_nonneg (add_nonneg (abs_nonneg _) (abs_nonneg _)) (abs_nonneg _)
  · exact add_nonneg (add_nonneg (abs_nonneg _) (abs_nonneg _)) (abs_nonneg _)

namespace FloatLib
variable (F : FloatLib)

lemma quatErr_small (P : Prec) {η : ℝ} {s : Kind} (r : Rep s) (h : quatErr P F.u η (angleSize s r) s ≤ 1 / 100000) :
    (6 + angleSize s r) * F.u ≤ 1 / 1000 ∨ s = .aa := by
  have hu := F.u_nonneg
  have hs := F.u_small
  have he := P.eps_pos
  have hS0 := angleSize_nonneg s r
  have hSu := mul_nonneg hS0 hu
  cases s
  · left; simp only [angleSize]; linarith
  · left; simp only [angleSize]; linarith
  · right; rfl
  all_goals left; simp only [quatErr] at h; linarith

lemma quatErr_nonneg (P : Prec) {η : ℝ} (h0 : 0 ≤ η) {s : Kind} (r : Rep s) : 0 ≤ quatErr P F.u η (angleSize s r) s := by
  have hu := F.u_nonneg
  have he := P.eps_pos
  have hS0 := angleSize_nonneg s r
  have hSu := mul_nonneg hS0 hu
  cases s <;> simp only [quatErr] <;> linarith

/-- Conversion to a quaternion. -/
lemma toQuat_rounded (P : Prec) {η δ : ℝ} {s : Kind} {r : Rep s} {R : M3} (h : Rounded η δ s r R) (he' : quatErr P F.u η (angleSize s r) s ≤ 1 / 100000) :
    Rounded (quatErr P F.u η (angleSize s r) s) δ .quat (F.conv P .quat s r) R := by
  have hu := F.u_nonneg
  have he := P.eps_pos
  have hη0 := h.1
  have hS0 := angleSize_nonneg s r
  have hSu := mul_nonneg hS0 hu
  cases s
  · exact h
  · obtain ⟨A, hA, h1, h2⟩ := h.mat
    obtain ⟨u, hu1, hsu, hd⟩ := F.ofMatrix_round hA h1 (by simp only [quatErr] at he'; linarith)
    refine (rounded_quat (by positivity) hu1 hd (by rw [hsu]; exact h2)).mono ?_ le_rfl
    simp only [quatErr]; linarith
  · obtain ⟨n, hn, h1, h2⟩ := h.aa
    have hd := F.ofAngleAxis_err (AngAx.angle r) hn h1 (by simp only [quatErr] at he'; linarith)
    refine (rounded_quat (by positivity) (normSq_ofAngleAxis _ hn) hd (by rw [sMat_ofAngleAxis _ hn]; exact h2)).mono ?_ le_rfl
    simp only [quatErr]
    change _ ≤ 2 * η + (6 + |AngAx.angle r|) * F.u
    linarith
  · obtain ⟨q, hq, hs, hd⟩ := F.quatOfRv_err P r
    refine (rounded_quat (by positivity) hq hd (by rw [hs]; exact h.rv)).mono ?_ le_rfl
    simp only [quatErr]
    change _ ≤ (11 + 6 * (RotVec.v r).norm) * F.u + _
    exact le_rfl
  · have hd := F.triple_err (x := EulXyz.x r) (y := EulXyz.y r) (z := EulXyz.z r) (a := V3.unitX) (b := V3.unitY) (c := V3.unitZ)
      (by norm_num [V3.unitX, V3.normSq, V3.dot]) (by norm_num [V3.unitY, V3.normSq, V3.dot]) (by norm_num [V3.unitZ, V3.normSq, V3.dot]) ((F.quatErr_small P r he').resolve_right (by decide))
    have hsp := conv_spec P .quat .xyz r trivial trivial
    refine (rounded_quat (by positivity) ((valid_quat_iff _).mp hsp.1) hd ((Close.of_eq hsp.2).trans h.xyz)).mono ?_ (by linarith)
    have hSu' : 0 ≤ (|EulXyz.x r| + |EulXyz.y r| + |EulXyz.z r|) * F.u := hSu
    simp only [quatErr]
    change _ ≤ (38 + 2 * (|EulXyz.x r| + |EulXyz.y r| + |EulXyz.z r|)) * F.u
    linarith
  · have hd := F.triple_err (x := EulZyx.z r) (y := EulZyx.y r) (z := EulZyx.x r) (a := V3.unitZ) (b := V3.unitY) (c := V3.unitX)
      (by norm_num [V3.unitZ, V3.normSq, V3.dot]) (by norm_num [V3.unitY, V3.normSq, V3.dot]) (by norm_num [V3.unitX, V3.normSq, V3.dot])
      (le_trans (le_of_eq (by simp only [angleSize]; ring)) ((F.quatErr_small P r he').resolve_right (by decide)))
    have hsp := conv_spec P .quat .zyx r trivial trivial
    refine (rounded_quat (by positivity) ((valid_quat_iff _).mp hsp.1) hd ((Close.of_eq hsp.2).trans h.zyx)).mono ?_ (by linarith)
    have hSu' : 0 ≤ (|EulZyx.x r| + |EulZyx.y r| + |EulZyx.z r|) * F.u := hSu
    simp only [quatErr]
    change _ ≤ (38 + 2 * (|EulZyx.x r| + |EulZyx.y r| + |EulZyx.z r|)) * F.u
    linarith

lemma Spec.Rounded.near {e δ : ℝ} {p : Quat} {R : M3} (h : Rounded e δ .quat p R) (he : e ≤ 1 / 1000) : NearQ e (4 * e + δ) p R := by
  obtain ⟨u, hu, h1, h2⟩ := h.quat
  exact (nearQ_of_dist hu h1 (by linarith)).close h2

/-- Quaternion to matrix. -/
lemma matOfQuat_rounded {e δ : ℝ} {p : Quat} {R : M3} (h : Rounded e δ .quat p R) (he : e ≤ 1 / 1000) :
    Rounded (5 * e + 21 * F.u) (4 * e + δ) .mat (F.toRotationMatrix p) R := by
  have hu0 := F.u_nonneg
  have h0 := h.1
  obtain ⟨c, u, hu, hp, hc, hcl⟩ := Spec.Rounded.near h he
  have hn : p.normSq ≤ 103 / 100 := by
    have := (abs_le.mp (sq_sub_one_le hc (by linarith))).2
    have e : p.normSq = c ^ 2 * u.normSq := by rw [hp]; simp only [Quat.normSq]; ring
    rw [e, hu]; linarith
  have h1 : NearQ e 0 p (sMat u) := ⟨c, u, hu, hp, hc, Close.refl _⟩
  have h2 := (F.toRotationMatrix_round hn).trans (h1.toRotationMatrix (by linarith))
  exact rounded_mat (by positivity) (sMat_isSO3 hu) (h2.entry.mono (by linarith)) hcl

/-- Quaternion to angle-axis. -/
lemma aaOfQuat_rounded {e δ : ℝ} {p : Quat} {R : M3} (h : Rounded e δ .quat p R) (he : e ≤ 1 / 1000) :
    Rounded (52 / 10 * F.u) (4 * e + 32 * F.u + δ) .aa (F.ofQuat p) R ∧ |(F.ofQuat p).angle| ≤ 7 := by
  have hu0 := F.u_nonneg
  obtain ⟨c, u, hu, hp, hc, hcl⟩ := Spec.Rounded.near h he
  have hc1 := (abs_le.mp hc).1
  obtain ⟨n, hn, h1, h2, h3⟩ := F.ofQuat_round hu (by linarith : 0 < c) hp
  exact ⟨rounded_aa (by positivity) hn h1 ((h2.trans hcl).mono (by linarith)), h3⟩

/-- Quaternion to rotation vector. -/
lemma rvOfQuat_rounded (P : Prec) {e δ : ℝ} {p : Quat} {R : M3} (h : Rounded e δ .quat p R) (he : e ≤ 1 / 100000)
    (hd : F.rvSmall P p ∨ p.vec ≠ 0) : Rounded 0 (P.dp / 50 + 95 * F.u + 5 * e + δ) .rv (F.rvOfQuat P p) R := by
  have h0 := h.1
  obtain ⟨c, u, hu, hp, hc, hcl⟩ := Spec.Rounded.near h (by linarith)
  exact rounded_rv le_rfl (((F.rvOfQuat_round P hu hc he hp hd).trans hcl).mono (by linarith))

/-- Angle-axis to rotation vector. -/
lemma rvOfAa_rounded {η δ : ℝ} {a : AngAx} {R : M3} (h : Rounded η δ .aa a R) (hη : η ≤ 1 / 1000) :
    Rounded 0 ((3 * |a.angle| + 10) * (η + 101 / 100 * F.u) + δ) .rv (F.rvOfAa a) R := by
  obtain ⟨n, hn, h1, h2⟩ := h.aa
  exact rounded_rv le_rfl ((F.rvOfAa_round a hn h1 hη).trans h2)

/-- **C85 (a).** Every entry of the conversion table, with every operation rounded. -/
lemma conv_rounded (P : Prec) (d : Kind) {s : Kind} {r : Rep s} {η δ : ℝ} {R : M3} (h : Rounded η δ s r R)
    (he : quatErr P F.u η (angleSize s r) s ≤ 1 / 100000) (hd : d = .rv → RvDefined F P s r) :
    Rounded (if d = s then η else convOff F.u (quatErr P F.u η (angleSize s r) s) d)
      (δ + if d = s then 0 else convLoss P F.u η (quatErr P F.u η (angleSize s r) s) (angleSize s r) d) d (F.conv P d s r) R := by
  by_cases hds : d = s
  · subst hds
    simp only [if_true, add_zero]
    have e : F.conv P d d r = r := by cases d <;> rfl
    rw [e]; exact h
  · simp only [hds, if_false]
    have hu := F.u_nonneg
    have hs := F.u_small
    have hdp := P.dp_pos
    have hep := P.eps_pos
    have hη0 := h.1
    have hS0 := angleSize_nonneg s r
    have hSu := mul_nonneg hS0 hu
    have hSη := mul_nonneg hη0 hS0
    have hq := F.toQuat_rounded P h he
    have hE0 := hq.1
    obtain ⟨E, hEe⟩ : ∃ E, E = quatErr P F.u η (angleSize s r) s := ⟨_, rfl⟩
    rw [← hEe] at hq hE0 he ⊢
    cases d
    · -- quaternion
      exact hq.mono le_rfl (by simp only [convLoss]; linarith)
    · -- matrix
      by_cases haa : s = .aa
      · subst haa
        obtain ⟨n, hn, h1, h2⟩ := h.aa
        simp only [quatErr] at hEe
        have h3 := F.matOfAa_close r hn h1 (by linarith)
        refine (rounded_mat (by positivity) (rodMat_isSO3 _ hn) h3.entry h2).mono ?_ ?_
        · simp only [convOff]
          linarith
        · simp only [convLoss]; linarith
      · have e : F.conv P .mat s r = F.toRotationMatrix (F.conv P .quat s r) := by
          cases s <;> first | rfl | exact absurd rfl hds | exact absurd rfl haa
        rw [e]
        exact (F.matOfQuat_rounded hq (by linarith)).mono (by simp only [convOff]; linarith) (by simp only [convLoss]; linarith)
    · -- angle-axis
      by_cases hrv : s = .rv
      · subst hrv
        obtain ⟨n, hn, h1, h2, h3⟩ := F.aaOfRv_round P r
        simp only [quatErr] at hEe
        refine (rounded_aa (by positivity) hn h1 (h2.trans h.rv)).mono ?_ ?_
        · simp only [convOff]; linarith
        · simp only [convLoss]
          change _ * (angleSize .rv r) ≥ 0 at hSη
          change 101 / 100 * P.dp + 401 / 100 * (F.u * angleSize .rv r) + δ ≤ _
          linarith [mul_comm F.u (angleSize .rv r)]
      · have e : F.conv P .aa s r = F.ofQuat (F.conv P .quat s r) := by
          cases s <;> first | rfl | exact absurd rfl hds | exact absurd rfl hrv
        rw [e]
        exact (F.aaOfQuat_rounded hq (by linarith)).1.mono (by simp only [convOff]; linarith) (by simp only [convLoss]; linarith)
    · -- rotation vector
      have heul : s = .xyz ∨ s = .zyx → F.conv P .rv s r = F.rvOfAa (F.ofQuat (F.conv P .quat s r)) := by
        rintro (rfl | rfl) <;> rfl
      have hqm : s = .quat ∨ s = .mat → F.conv P .rv s r = F.rvOfQuat P (F.conv P .quat s r) := by
        rintro (rfl | rfl) <;> rfl
      by_cases haa : s = .aa
      · subst haa
        simp only [quatErr] at hEe
        refine (F.rvOfAa_rounded h (by linarith)).mono le_rfl ?_
        simp only [convLoss]
        change (3 * angleSize .aa r + 10) * (η + 101 / 100 * F.u) + δ ≤ _
        nlinarith
      · by_cases hc : s = .quat ∨ s = .mat
        · have hd' : F.rvSmall P (F.conv P .quat s r) ∨ (F.conv P .quat s r : Quat).vec ≠ 0 := by
            have := hd rfl
            rcases hc with rfl | rfl <;> exact this
          rw [hqm hc]
          exact (F.rvOfQuat_rounded P hq he hd').mono le_rfl (by simp only [convLoss]; linarith)
        · have hc' : s = .xyz ∨ s = .zyx := by
            cases s <;> simp at hc haa hds ⊢
          rw [heul hc']
          obtain ⟨k1, k2⟩ := F.aaOfQuat_rounded hq (by linarith)
          refine (F.rvOfAa_rounded k1 (by linarith)).mono le_rfl ?_
          simp only [convLoss]
          have := mul_le_mul_of_nonneg_right (by linarith : 3 * |(F.ofQuat (F.conv P .quat s r)).angle| + 10 ≤ 31) (by positivity : 0 ≤ 52 / 10 * F.u + 101 / 100 * F.u)
          linarith
    · -- Euler angles xyz
      by_cases hrv : s = .rv
      · subst hrv
        obtain ⟨n, hn, h1, h2, h3⟩ := F.aaOfRv_round P r
        simp only [quatErr] at hEe
        have h4 := F.ofAngleAxis_err (F.aaOfRv P r).angle hn h1 (by linarith)
        have hsz : |(F.aaOfRv P r).angle| ≤ 101 / 100 * angleSize .rv r := h3
        have h5 : Rounded ((113 / 10 + 101 / 100 * angleSize .rv r) * F.u) (101 / 100 * P.dp + 401 / 100 * (F.u * angleSize .rv r) + δ) .quat
            (F.quatOfAa (F.aaOfRv P r)) R := by
          refine (rounded_quat (by positivity) (normSq_ofAngleAxis _ hn) h4 (by rw [sMat_ofAngleAxis _ hn]; exact h2.trans h.rv)).mono ?_ le_rfl
          have := mul_le_mul_of_nonneg_right hsz hu
          linarith
        have h6 := F.xyzOfQuat_round (Spec.Rounded.near h5 (by linarith)) (by linarith)
        refine rounded_xyz (by simp [convOff]) (Close.mono h6 ?_)
        simp only [convLoss]
        linarith [mul_comm F.u (angleSize .rv r)]
      · have e : F.conv P .xyz s r = F.xyzOfQuat (F.conv P .quat s r) := by
          cases s <;> first | rfl | exact absurd rfl hds | exact absurd rfl hrv
        rw [e]
        have h6 := F.xyzOfQuat_round (Spec.Rounded.near hq (by linarith)) (by linarith)
        exact rounded_xyz (by simp [convOff]) (Close.mono h6 (by simp only [convLoss]; linarith))
    · -- Euler angles zyx
      have e : F.conv P .zyx s r = F.zyxOfQuat (F.conv P .quat s r) := by
        cases s <;> first | rfl | exact absurd rfl hds
      rw [e]
      have h6 := F.zyxOfQuat_round (Spec.Rounded.near hq (by linarith)) (by linarith)
      exact rounded_zyx (by simp [convOff]) (Close.mono h6 (by simp only [convLoss]; linarith))

end FloatLib
end Kindr
