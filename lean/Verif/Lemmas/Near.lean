import Verif.Lemmas.Perturb

/-!
# Values of any rotation class that are close to a given rotation
-/

set_option autoImplicit false

open Classical

noncomputable section
namespace Kindr
open Spec

/-- `r` is `δ`-close to the rotation `R`; quaternions and matrices may in addition be off the unit sphere by a factor
within `η` of one. -/
def Near (η δ : ℝ) : (k : Kind) → Rep k → M3 → Prop
  | .quat => fun q R => NearQ η δ q R
  | .mat => fun m R => ∃ p : Quat, NearQ η δ p R ∧ m = p.toRotationMatrix
  | .aa => fun a R => (AngAx.axis a).normSq = 1 ∧ Close δ (dmat .aa a) R
  | .rv => fun r R => Close δ (dmat .rv r) R
  | .xyz => fun r R => Close δ (dmat .xyz r) R
  | .zyx => fun r R => Close δ (dmat .zyx r) R

lemma NearQ.nonneg {η δ : ℝ} {p : Quat} {R : M3} (h : NearQ η δ p R) : 0 ≤ η ∧ 0 ≤ δ := by
  obtain ⟨c, u, hu, e, hc, hcl⟩ := h
  exact ⟨(abs_nonneg _).trans hc, hcl.nonneg⟩

lemma Near.mono {η δ η' δ' : ℝ} {k : Kind} {r : Rep k} {R : M3} (h : Near η δ k r R) (h1 : η ≤ η') (h2 : δ ≤ δ') :
    Near η' δ' k r R := by
  cases k
  · exact NearQ.mono h h1 h2
  · obtain ⟨p, hp, e⟩ := h; exact ⟨p, hp.mono h1 h2, e⟩
  · exact ⟨h.1, h.2.mono h2⟩
  all_goals exact Close.mono h h2

lemma near_of_valid {k : Kind} {r : Rep k} (h : Valid k r) : Near 0 0 k r (den k r) := by
  rw [den_eq]
  cases k
  · exact NearQ.of_unit ((valid_quat_iff _).mp h)
  · obtain ⟨h1, h2⟩ := ofMatrix_spec (m := r) h
    have h3 := NearQ.of_unit h1
    rw [h2] at h3
    refine ⟨_, h3, ?_⟩
    rw [toRotationMatrix_eq h1, h2]
  · exact ⟨(valid_aa_iff _).mp h, Close.refl _⟩
  all_goals exact Close.refl _

lemma near_of_valid_close {k : Kind} {r : Rep k} {R : M3} {δ : ℝ} (h : Valid k r) (hc : Close δ (den k r) R) :
    Near 0 δ k r R := by
  have := near_of_valid h
  cases k
  · exact (NearQ.close this hc).mono le_rfl (by linarith)
  · obtain ⟨p, hp, e⟩ := this; exact ⟨p, (hp.close hc).mono le_rfl (by linarith), e⟩
  · exact ⟨this.1, by rw [den_eq] at hc; exact hc⟩
  all_goals · rw [den_eq] at hc; exact hc

/-- Near values act almost like the rotation. -/
lemma Near.close {η δ : ℝ} {k : Kind} {r : Rep k} {R : M3} (h : Near η δ k r R) (h0 : 0 ≤ η) (hη : η ≤ 1 / 100) :
    Close (402 / 100 * η + δ) (den k r) R := by
  rw [den_eq]
  cases k
  · exact (NearQ.sandwich h hη).mono (by linarith)
  · obtain ⟨p, hp, rfl⟩ := h; exact hp.toRotationMatrix hη
  · exact h.2.mono (by linarith)
  all_goals exact Close.mono h (by linarith)

lemma eps_small (P : Prec) : P.eps ≤ 1 / 8000000 := P.eps_le.trans (by norm_num)

/-- The quaternion of a rotation vector, in both branches. -/
lemma quatOfRv_near (P : Prec) (r : RotVec) : NearQ (P.eps / 3200) (P.eps / 800) (quatOfRv P r) (dmat .rv r) := by
  have he := P.eps_pos
  have he' := eps_small P
  by_cases h : r.v = 0 ∨ P.eps ^ (1 / 4 : ℝ) ≤ r.v.norm
  · obtain ⟨h1, h2⟩ := quatOfRv_spec h
    have := NearQ.of_unit h1
    rw [h2] at this
    exact this.mono (by positivity) (by positivity)
  · push Not at h
    obtain ⟨q₀, hv, hs, hw, hd, -⟩ := C08_rv_to_quat P r h.2
    have hu := (valid_quat_iff _).mp hv
    have hm : sMat q₀ = dmat .rv r := by
      have := (sameRot_iff _ _).mp hs
      rwa [den_eq, den_eq] at this
    have hdist : ‖toH (quatOfRv P r) - toH q₀‖ ≤ P.eps / 3200 := by
      have e : toH (quatOfRv P r) - toH q₀ = toH ⟨(quatOfRv P r).w - q₀.w, (quatOfRv P r).x - q₀.x,
          (quatOfRv P r).y - q₀.y, (quatOfRv P r).z - q₀.z⟩ := by
        ext <;> simp
      rw [e, norm_toH]
      have hw' : (quatOfRv P r).w = q₀.w := hw
      have := norm_toH_le (q := ⟨(quatOfRv P r).w - q₀.w, (quatOfRv P r).x - q₀.x,
          (quatOfRv P r).y - q₀.y, (quatOfRv P r).z - q₀.z⟩) (a := 0) (b := P.eps / 3200) (by simp [hw']) hd
      linarith
    have := nearQ_of_dist hu hdist (by linarith)
    rw [hm] at this
    exact this.mono le_rfl (by linarith)

/-- `RotationQuaternion(r)` for a near value. -/
lemma Near.toQuat {P : Prec} {η δ : ℝ} {k : Kind} {r : Rep k} {R : M3} (h : Near η δ k r R) (h0 : 0 ≤ η)
    (hη : η ≤ 1 / 1000) :
    NearQ (14 * η + P.eps / 3200) (56 * η + δ + P.eps / 800) (conv P .quat k r) R := by
  have he := P.eps_pos
  cases k
  · exact NearQ.mono h (by linarith) (by linarith)
  · obtain ⟨p, hp, rfl⟩ := h
    exact (hp.ofMatrix hη).mono (by linarith) (by linarith)
  · obtain ⟨h1, h2⟩ := quatOfAa_spec h.1
    have h3 := NearQ.of_unit h1
    rw [h2] at h3
    exact (h3.close h.2).mono (by linarith) (by linarith)
  · exact ((quatOfRv_near P r).close h).mono (by linarith) (by linarith)
  · have h3 := NearQ.of_unit (quatOfXyz_unit r)
    rw [sMat_quatOfXyz] at h3
    exact (h3.close h).mono (by linarith) (by linarith)
  · have h3 := NearQ.of_unit (quatOfZyx_unit r)
    rw [sMat_quatOfZyx] at h3
    exact (h3.close h).mono (by linarith) (by linarith)

/-- `Dest_(q)` for an almost-unit quaternion. -/
lemma NearQ.to {P : Prec} {η δ : ℝ} {p : Quat} {R : M3} (d : Kind) (h : NearQ η δ p R) (hη : η ≤ 1 / 10 ^ 6) :
    Near η (P.dp / 100 + 100 * η + δ) d (conv P d .quat p) R := by
  obtain ⟨h0, h1⟩ := h.nonneg
  have hdp := P.dp_pos
  cases d
  · exact NearQ.mono h le_rfl (by linarith)
  · exact ⟨p, h.mono le_rfl (by linarith), rfl⟩
  · obtain ⟨a, b⟩ := h.ofQuat (by linarith)
    exact ⟨a, b.mono (by linarith)⟩
  · exact (h.rvOfQuat (P := P) hη).mono (by linarith)
  · obtain ⟨c, u, hu, e, hc, hcl⟩ := h
    have h' : NearQ η 0 p (sMat u) := ⟨c, u, hu, e, hc, Close.refl _⟩
    exact ((h'.xyzOfQuat (sMat_isSO3 hu) (by linarith) (by norm_num)).trans hcl).mono (by linarith)
  · obtain ⟨c, u, hu, e, hc, hcl⟩ := h
    have h' : NearQ η 0 p (sMat u) := ⟨c, u, hu, e, hc, Close.refl _⟩
    exact ((h'.zyxOfQuat (sMat_isSO3 hu) (by linarith) (by norm_num)).trans hcl).mono (by linarith)

/-- `AngleAxis(rv)`, in both branches. -/
lemma aaOfRv_close (P : Prec) (r : RotVec) : Close P.dp (dmat .aa (aaOfRv P r)) (dmat .rv r) := by
  by_cases h : r.v.norm < P.dp
  · have h1 := C08_rv_to_aa P r h
    have h2 := close_of_rotAngle (den_isSO3 h1.1) (den_isSO3 (k := .rv) (r := r) trivial) h1.2.1.le
    rw [den_eq, den_eq] at h2
    exact h2
  · rw [aaOfRv_spec (Or.inr (not_lt.mp h))]
    exact (Close.refl _).mono P.dp_pos.le

/-- `AngleAxis(r)` for a near value. -/
lemma Near.toAa {P : Prec} {η δ : ℝ} {k : Kind} {r : Rep k} {R : M3} (h : Near η δ k r R) (h0 : 0 ≤ η)
    (hη : η ≤ 1 / 1400) :
    Near 0 (P.dp + 56 * η + δ) .aa (conv P .aa k r) R := by
  have he := P.dp_pos
  cases k
  · obtain ⟨a, b⟩ := NearQ.ofQuat h (by linarith)
    exact ⟨a, b.mono (by linarith)⟩
  · obtain ⟨p, hp, rfl⟩ := h
    obtain ⟨a, b⟩ := NearQ.ofQuat (hp.ofMatrix (by linarith)) (by linarith)
    exact ⟨a, b.mono (by linarith)⟩
  · exact ⟨h.1, h.2.mono (by linarith)⟩
  · exact ⟨aaOfRv_unit P r, ((aaOfRv_close P r).trans h).mono (by linarith)⟩
  · have h3 := NearQ.of_unit (quatOfXyz_unit r)
    rw [sMat_quatOfXyz] at h3
    obtain ⟨a, b⟩ := NearQ.ofQuat (h3.close h) (by norm_num)
    exact ⟨a, b.mono (by linarith)⟩
  · have h3 := NearQ.of_unit (quatOfZyx_unit r)
    rw [sMat_quatOfZyx] at h3
    obtain ⟨a, b⟩ := NearQ.ofQuat (h3.close h) (by norm_num)
    exact ⟨a, b.mono (by linarith)⟩

/-- `RotationVector(r)` for a near value. -/
lemma Near.toRv {P : Prec} {η δ : ℝ} {k : Kind} {r : Rep k} {R : M3} (h : Near η δ k r R) (h0 : 0 ≤ η)
    (hη : η ≤ 1 / 10 ^ 8) :
    Close (P.dp / 100 + 70 * η + δ) (dmat .rv (conv P .rv k r)) R := by
  have he := P.dp_pos
  cases k
  · exact (NearQ.rvOfQuat (P := P) h (by linarith)).mono (by linarith)
  · obtain ⟨p, hp, rfl⟩ := h
    exact (NearQ.rvOfQuat (P := P) (hp.ofMatrix (by linarith)) (by linarith)).mono (by linarith)
  · have e : dmat .rv (rvOfAa r) = dmat .aa r := rvOfAa_spec h.1
    have h2 := h.2
    rw [← e] at h2
    exact h2.mono (by linarith)
  · exact Close.mono h (by linarith)
  · have h3 := NearQ.of_unit (quatOfXyz_unit r)
    rw [sMat_quatOfXyz] at h3
    obtain ⟨a, b⟩ := NearQ.ofQuat (h3.close h) (by norm_num)
    have e : dmat .rv (rvOfAa (AngAx.ofQuat (quatOfXyz r))) = dmat .aa (AngAx.ofQuat (quatOfXyz r)) := rvOfAa_spec a
    change Close _ (dmat .rv (rvOfAa (AngAx.ofQuat (quatOfXyz r)))) R
    rw [e]
    exact b.mono (by linarith)
  · have h3 := NearQ.of_unit (quatOfZyx_unit r)
    rw [sMat_quatOfZyx] at h3
    obtain ⟨a, b⟩ := NearQ.ofQuat (h3.close h) (by norm_num)
    have e : dmat .rv (rvOfAa (AngAx.ofQuat (quatOfZyx r))) = dmat .aa (AngAx.ofQuat (quatOfZyx r)) := rvOfAa_spec a
    change Close _ (dmat .rv (rvOfAa (AngAx.ofQuat (quatOfZyx r)))) R
    rw [e]
    exact b.mono (by linarith)

/-- The concatenation of two near values (two matrices: see `mult_near_valid`). -/
lemma mult_near {P : Prec} {k₁ k₂ : Kind} {a : Rep k₁} {b : Rep k₂} {A B : M3} {η δ η' δ' : ℝ}
    (ha : Near η δ k₁ a A) (hb : Near η' δ' k₂ b B) (hA : IsSO3 A)
    (h0 : 0 ≤ η) (hη : η ≤ 1 / 10 ^ 8) (h0' : 0 ≤ η') (hη' : η' ≤ 1 / 10 ^ 8) (hm : ¬ (k₁ = .mat ∧ k₂ = .mat)) :
    Near (15 * η + 15 * η' + P.eps / 1500) (P.dp / 100 + 1600 * η + 1600 * η' + δ + δ' + P.eps / 12) k₁
      (mult P k₁ k₂ a b) (A * B) := by
  have he := P.eps_pos
  have he' := eps_small P
  have hdp := P.dp_pos
  have p1 := ha.toQuat (P := P) h0 (by linarith)
  have p2 := hb.toQuat (P := P) h0' (by linarith)
  have p3 := p1.mul p2 hA
  rw [mult_eq P k₁ k₂ a b hm]
  have hmul : (14 * η + P.eps / 3200) * (14 * η' + P.eps / 3200) ≤ 1 / 10 ^ 4 * (14 * η' + P.eps / 3200) :=
    mul_le_mul_of_nonneg_right (by linarith) (by linarith)
  have p4 := (p3.mono (η' := 15 * η + 15 * η' + P.eps / 1500) (δ' := 56 * η + 56 * η' + δ + δ' + P.eps / 400)
    (by linarith) (by linarith)).to (P := P) k₁ (by linarith)
  exact p4.mono le_rfl (by linarith)

/-- The concatenation of two valid values of any classes. -/
lemma mult_near_valid (P : Prec) {k₁ k₂ : Kind} {a : Rep k₁} {b : Rep k₂} (ha : Valid k₁ a) (hb : Valid k₂ b) :
    Near (P.eps / 1500) (P.dp / 100 + P.eps / 12) k₁ (mult P k₁ k₂ a b) (den k₁ a * den k₂ b) := by
  have he := P.eps_pos
  have hdp := P.dp_pos
  by_cases hm : k₁ = .mat ∧ k₂ = .mat
  · obtain ⟨rfl, rfl⟩ := hm
    obtain ⟨v, d⟩ := mult_spec (P := P) ha hb (fun h => by cases h) (fun h => by cases h) (fun h => by cases h)
    have := near_of_valid v
    rw [d] at this
    exact this.mono (by linarith) (by linarith)
  · have := mult_near (P := P) (near_of_valid ha) (near_of_valid hb) (den_isSO3 ha) le_rfl (by norm_num)
      le_rfl (by norm_num) hm
    exact this.mono (by linarith) (by linarith)

/-- Any conversion of a valid value. -/
lemma conv_near (P : Prec) (d s : Kind) {r : Rep s} (h : Valid s r) :
    Near (P.eps / 3200) (P.dp + P.eps / 30) d (conv P d s r) (den s r) := by
  have he := P.eps_pos
  have hdp := P.dp_pos
  by_cases hs : s = .rv
  · subst hs
    by_cases hd : d = .xyz
    · subst hd
      have h1 := (aaOfRv_close P r)
      have h2 := quatOfAa_spec (aaOfRv_unit P r)
      have e : dmat .xyz (conv P .xyz .rv r) = dmat .aa (aaOfRv P r) := (xyzOfQuat_spec h2.1).trans h2.2
      rw [den_eq]
      change Close _ (dmat .xyz (conv P .xyz .rv r)) _
      rw [e]
      exact h1.mono (by linarith)
    by_cases hd' : d = .aa
    · subst hd'
      exact ((near_of_valid h).toAa (P := P) le_rfl (by norm_num)).mono (by linarith) (by linarith)
    by_cases hd'' : d = .rv
    · subst hd''
      exact (near_of_valid h).mono (by linarith) (by linarith)
    have h1 := (quatOfRv_near P r).to (P := P) d (by linarith [eps_small P])
    rw [den_eq]
    have e : conv P d .rv r = conv P d .quat (quatOfRv P r) := by
      cases d <;> first | rfl | contradiction
    rw [e]
    exact h1.mono le_rfl (by linarith)
  · by_cases hd : d = .rv
    · subst hd
      exact ((near_of_valid h).toRv (P := P) le_rfl (by norm_num)).mono (by linarith)
    · obtain ⟨v, e⟩ := conv_nonrv (P := P) (d := d) h hd (fun h => absurd h hs)
      have := near_of_valid v
      rw [e] at this
      exact this.mono (by linarith) (by linarith)

end Kindr
