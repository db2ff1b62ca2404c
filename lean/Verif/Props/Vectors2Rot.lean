import Verif.Props.Group
import Verif.Lemmas.Metric
import Verif.Props.ExpLog

/-!
# C24: `setFromVectors`
-/

set_option autoImplicit false

open Classical

noncomputable section
namespace Kindr
open Spec

/-- What is assumed of the vector Eigen takes from the singular value decomposition of the 2x3 matrix with rows `v0`, `v1`:
it is a unit vector in the null space (orthogonal to both rows). -/
def IsSvdAxis (svdAxis : V3 → V3 → V3) : Prop :=
  ∀ v0 v1 : V3, v0.normSq = 1 → v1.normSq = 1 →
    (svdAxis v0 v1).normSq = 1 ∧ (svdAxis v0 v1).dot v0 = 0 ∧ (svdAxis v0 v1).dot v1 = 0

/-- The unit vector in direction `v`. -/
def dir (v : V3) : V3 := (1 / v.norm) • v

lemma dir_unit {v : V3} (h : v ≠ 0) : (dir v).normSq = 1 := unit_dir (V3.norm_pos h).ne'

lemma dot_sq_le (a b : V3) (ha : a.normSq = 1) (hb : b.normSq = 1) : a.dot b ^ 2 ≤ 1 := by
  have h : (a.cross b).normSq = a.normSq * b.normSq - a.dot b ^ 2 := by
    simp [V3.normSq, V3.dot, V3.cross]; ring
  rw [ha, hb] at h
  have : 0 ≤ (a.cross b).normSq := by simp only [V3.normSq, V3.dot]; nlinarith [sq_nonneg (a.cross b).x, sq_nonneg (a.cross b).y, sq_nonneg (a.cross b).z]
  linarith

lemma eq_of_dot_one {a b : V3} (ha : a.normSq = 1) (hb : b.normSq = 1) (h : a.dot b = 1) : a = b := by
  simp only [V3.normSq, V3.dot] at *
  have : (a.x - b.x) ^ 2 + (a.y - b.y) ^ 2 + (a.z - b.z) ^ 2 = 0 := by nlinarith
  have hx : a.x - b.x = 0 := by nlinarith [sq_nonneg (a.x - b.x), sq_nonneg (a.y - b.y), sq_nonneg (a.z - b.z)]
  have hy : a.y - b.y = 0 := by nlinarith [sq_nonneg (a.x - b.x), sq_nonneg (a.y - b.y), sq_nonneg (a.z - b.z)]
  have hz : a.z - b.z = 0 := by nlinarith [sq_nonneg (a.x - b.x), sq_nonneg (a.y - b.y), sq_nonneg (a.z - b.z)]
  ext <;> linarith

lemma eq_neg_of_dot {a b : V3} (ha : a.normSq = 1) (hb : b.normSq = 1) (h : a.dot b = -1) : b = -a := by
  have : (-a).dot b = 1 := by
    have : (-a).dot b = -(a.dot b) := by simp [V3.dot]; ring
    rw [this, h]; ring
  exact (eq_of_dot_one (by rw [V3.normSq_neg, ha]) hb this).symm

lemma sMat_mulVec (q : Quat) (v : V3) :
    (sMat q).mulVec v = (q.w ^ 2 - q.vec.normSq) • v + (2 * q.w) • q.vec.cross v + (2 * q.vec.dot v) • q.vec := by
  ext <;> simp [sMat, V3.cross, V3.dot, V3.normSq, Quat.vec] <;> ring

lemma normSq_eq (q : Quat) : q.normSq = q.w ^ 2 + q.vec.normSq := by
  simp [Quat.normSq, V3.normSq, V3.dot, Quat.vec]; ring

/-- The regular branch. -/
lemma twoVec_main {a b : V3} (ha : a.normSq = 1) (hb : b.normSq = 1) (hc : -1 < b.dot a) :
    let s := Real.sqrt ((1 + b.dot a) * 2)
    let q : Quat := ⟨s * (1 / 2), (a.cross b).x * (1 / s), (a.cross b).y * (1 / s), (a.cross b).z * (1 / s)⟩
    q.normSq = 1 ∧ (sMat q).mulVec a = b ∧ q.w ^ 2 = (1 + b.dot a) / 2 := by
  intro s q
  have hs2 : s ^ 2 = (1 + b.dot a) * 2 := Real.sq_sqrt (by linarith)
  have hs : 0 < s := Real.sqrt_pos.mpr (by linarith)
  have hw2 : q.w ^ 2 = (1 + b.dot a) / 2 := by
    change (s * (1 / 2)) ^ 2 = _; linear_combination (1 / 4) * hs2
  have hu : q.vec = (1 / s) • a.cross b := by
    ext <;> simp [q, Quat.vec] <;> ring
  have hcr : (a.cross b).normSq = 1 - b.dot a ^ 2 := by
    simp only [V3.normSq, V3.dot] at ha hb
    simp only [V3.normSq, V3.cross, V3.dot]
    linear_combination (b.x * b.x + b.y * b.y + b.z * b.z) * ha + hb
  have hvec : q.vec.normSq = (1 - b.dot a) / 2 := by
    rw [hu, V3.normSq_smul, hcr, div_pow, hs2]
    have : 1 + b.dot a ≠ 0 := by linarith
    field_simp; ring
  refine ⟨by rw [normSq_eq, hw2, hvec]; ring, ?_, hw2⟩
  have hdot : q.vec.dot a = 0 := by rw [hu]; simp [V3.dot, V3.cross]; ring
  have hcross : (a.cross b).cross a = b - b.dot a • a := by
    simp only [V3.normSq, V3.dot] at ha
    ext <;> simp [V3.cross, V3.dot]
    · linear_combination b.x * ha
    · linear_combination b.y * ha
    · linear_combination b.z * ha
  have h2w : (2 * q.w) • q.vec.cross a = b - b.dot a • a := by
    have e : q.vec.cross a = (1 / s) • (a.cross b).cross a := by
      rw [hu]; ext <;> simp [V3.cross] <;> ring
    have e2 : 2 * q.w * (1 / s) = 1 := by
      change 2 * (s * (1 / 2)) * (1 / s) = 1; field_simp
    rw [e, smul_smul, e2, one_smul, hcross]
  rw [sMat_mulVec, hw2, hvec, hdot, h2w]
  ext <;> simp <;> ring

/-- The branch for (almost) opposite vectors. -/
lemma twoVec_anti {a b n : V3} (ha : a.normSq = 1) (hb : b.normSq = 1) (hn : n.normSq = 1) (hna : n.dot a = 0)
    (hnb : n.dot b = 0) :
    let q : Quat := ⟨Real.sqrt ((1 + b.dot a) * (1 / 2)), n.x * Real.sqrt (1 - (1 + b.dot a) * (1 / 2)),
      n.y * Real.sqrt (1 - (1 + b.dot a) * (1 / 2)), n.z * Real.sqrt (1 - (1 + b.dot a) * (1 / 2))⟩
    q.normSq = 1 ∧ ((sMat q).mulVec a - b).normSq ≤ 4 * (1 - b.dot a ^ 2) ∧ q.w ^ 2 = (1 + b.dot a) / 2 := by
  intro q
  have hc2 := dot_sq_le b a hb ha
  have hc1 : -1 ≤ b.dot a := by nlinarith
  have hc1' : b.dot a ≤ 1 := by nlinarith
  have hw2 : q.w ^ 2 = (1 + b.dot a) / 2 := by
    change Real.sqrt _ ^ 2 = _; rw [Real.sq_sqrt (by linarith)]; ring
  set t := Real.sqrt (1 - (1 + b.dot a) * (1 / 2)) with ht
  have ht2 : t ^ 2 = (1 - b.dot a) / 2 := by rw [ht, Real.sq_sqrt (by linarith)]; ring
  have hu : q.vec = t • n := by ext <;> exact mul_comm _ _
  have hvec : q.vec.normSq = (1 - b.dot a) / 2 := by rw [hu, V3.normSq_smul, hn, ht2, mul_one]
  have hdot : q.vec.dot a = 0 := by
    rw [hu]; simp only [V3.dot] at hna ⊢; simp; linear_combination t * hna
  refine ⟨by rw [normSq_eq, hw2, hvec]; ring, ?_, hw2⟩
  have e : (sMat q).mulVec a - b = b.dot a • a - b + (2 * q.w * t) • n.cross a := by
    rw [sMat_mulVec, hw2, hvec, hdot, hu]
    ext <;> simp [V3.cross] <;> ring
  have hk2 : (2 * q.w * t) ^ 2 = 1 - b.dot a ^ 2 := by
    rw [mul_pow, mul_pow, hw2, ht2]; ring
  have h1 : (b.dot a • a - b).normSq = 1 - b.dot a ^ 2 := by
    simp only [V3.normSq, V3.dot] at ha hb ⊢; simp
    linear_combination (b.x * a.x + b.y * a.y + b.z * a.z) ^ 2 * ha + hb
  have h2 : ((2 * q.w * t) • n.cross a).normSq = 1 - b.dot a ^ 2 := by
    rw [V3.normSq_smul, hk2]
    have : (n.cross a).normSq = 1 := by
      simp only [V3.normSq, V3.dot] at ha hn hna ⊢; simp only [V3.cross]
      linear_combination (a.x * a.x + a.y * a.y + a.z * a.z) * hn + ha - (n.x * a.x + n.y * a.y + n.z * a.z) * hna
    rw [this, mul_one]
  rw [e]
  set p := b.dot a • a - b
  set r := (2 * q.w * t) • n.cross a
  have : (p + r).normSq ≤ 2 * p.normSq + 2 * r.normSq := by
    simp only [V3.normSq, V3.dot, V3.add_x, V3.add_y, V3.add_z]
    nlinarith [sq_nonneg (p.x - r.x), sq_nonneg (p.y - r.y), sq_nonneg (p.z - r.z)]
  linarith

lemma normalized_eq_dir {v : V3} (h : v ≠ 0) : v.normalized = dir v := V3.normalized_of_ne h

/-- Rotation quaternion computed from two vectors: unit; scalar part; error. -/
lemma quatFromTwoVectors_spec {dpE : ℝ} (h0 : 0 < dpE) {svdAxis : V3 → V3 → V3} (hs : IsSvdAxis svdAxis) {v1 v2 : V3}
    (h1 : v1 ≠ 0) (h2 : v2 ≠ 0) :
    let q := quatFromTwoVectors dpE svdAxis v1 v2
    let c := (dir v2).dot (dir v1)
    q.normSq = 1 ∧ q.w ^ 2 = (1 + c) / 2 ∧ ((-1 + dpE ≤ c ∨ c = -1) → (sMat q).mulVec (dir v1) = dir v2) ∧
      ((sMat q).mulVec (dir v1) - dir v2).normSq ≤ 8 * dpE := by
  intro q c
  have ha := dir_unit h1
  have hb := dir_unit h2
  have hc2 := dot_sq_le _ _ hb ha
  have hc1 : -1 ≤ c := by nlinarith
  have hq : q = quatFromTwoVectors dpE svdAxis v1 v2 := rfl
  simp only [quatFromTwoVectors, normalized_eq_dir h1, normalized_eq_dir h2] at hq
  by_cases hlt : (dir v2).dot (dir v1) < -1 + dpE
  · rw [if_pos hlt, max_eq_left hc1] at hq
    obtain ⟨n1, n2, n3⟩ := hs _ _ ha hb
    obtain ⟨g1, g2, g3⟩ := twoVec_anti ha hb n1 n2 n3
    rw [← hq] at g1 g2 g3
    refine ⟨g1, g3, fun h => ?_, g2.trans ?_⟩
    · rcases h with h | h
      · exact absurd hlt (not_lt.mpr h)
      · have hz : ((sMat q).mulVec (dir v1) - dir v2).normSq ≤ 0 := by
          refine g2.trans ?_
          have : (dir v2).dot (dir v1) = -1 := h
          rw [this]; norm_num
        have := V3.normSq_eq_zero.mp (le_antisymm hz (V3.normSq_nonneg _))
        exact sub_eq_zero.mp this
    · have hcc : c < -1 + dpE := hlt
      change 4 * (1 - c ^ 2) ≤ _
      nlinarith
  · rw [if_neg hlt] at hq
    obtain ⟨g1, g2, g3⟩ := twoVec_main ha hb (by linarith [not_lt.mp hlt])
    rw [← hq] at g1 g2 g3
    refine ⟨g1, g3, fun _ => g2, ?_⟩
    rw [g2, sub_self]; simp [V3.normSq, V3.dot]; linarith

/-- Side condition of `setFromVectors` for a `RotationVector` result: the two vectors are not almost (but not exactly)
parallel. -/
def VecClear (P : Prec) (k : Kind) (v1 v2 : V3) : Prop :=
  k = .rv → (dir v2).dot (dir v1) = 1 ∨ smallThreshold P ≤ (1 - (dir v2).dot (dir v1)) / 2

lemma setFromVectors_spec {P : Prec} {dpE : ℝ} (h0 : 0 < dpE) {svdAxis : V3 → V3 → V3} (hs : IsSvdAxis svdAxis)
    {k : Kind} {v1 v2 : V3} (h1 : v1 ≠ 0) (h2 : v2 ≠ 0) (hk : VecClear P k v1 v2) :
    ∃ r : Rep k, setFromVectors P dpE svdAxis k v1 v2 = .ok r ∧ Valid k r ∧
      den k r = sMat (quatFromTwoVectors dpE svdAxis v1 v2) := by
  obtain ⟨g1, g2, -, -⟩ := quatFromTwoVectors_spec h0 hs h1 h2
  set q := quatFromTwoVectors dpE svdAxis v1 v2
  have hne : v1.norm * v2.norm ≠ 0 := mul_ne_zero (V3.norm_pos h1).ne' (V3.norm_pos h2).ne'
  have hq : Valid .quat q := (valid_quat_iff q).mpr g1
  have hd : den .quat q = sMat q := by rw [den_eq]; rfl
  obtain ⟨v3, d3⟩ := conv_from_nonrv (P := P) (d := k) hq (by decide) (fun e => by
    rw [hd]
    rcases hk e with hk | hk
    · left
      rw [hk] at g2
      have hv : q.vec = 0 := by
        apply V3.normSq_eq_zero.mp
        have := normSq_eq q
        rw [g1, g2] at this; linarith
      have hx : q.x = 0 := congrArg V3.x hv
      have hy : q.y = 0 := congrArg V3.y hv
      have hz : q.z = 0 := congrArg V3.z hv
      have hw : q.w ^ 2 = 1 := by rw [g2]; norm_num
      ext <;> simp [sMat, hx, hy, hz, hw]
    · right
      rw [trace_sMat g1, g2]; linarith)
  refine ⟨_, ?_, v3, d3.trans hd⟩
  rw [setFromVectors, if_pos hne]

/-- **C24 (exact part; `_partial`: almost-opposite vectors, `-1 < cos < -1 + dp`, are only covered by
`C24_band_error`).** `setFromVectors` yields a valid rotation that maps the direction of `v1` to the direction of `v2`, also
for exactly opposite vectors. -/
theorem C24_aligned_partial (P : Prec) (dpE : ℝ) (h0 : 0 < dpE) (svdAxis : V3 → V3 → V3) (hs : IsSvdAxis svdAxis)
    (k : Kind) (v1 v2 : V3) (h1 : v1 ≠ 0) (h2 : v2 ≠ 0) (hk : VecClear P k v1 v2)
    (hband : -1 + dpE ≤ (dir v2).dot (dir v1) ∨ (dir v2).dot (dir v1) = -1) :
    ∃ r : Rep k, setFromVectors P dpE svdAxis k v1 v2 = .ok r ∧ Valid k r ∧ act k r (dir v1) = dir v2 := by
  obtain ⟨r, e, v, d⟩ := setFromVectors_spec (P := P) (k := k) h0 hs h1 h2 hk
  exact ⟨r, e, v, by rw [act_eq, d]; exact (quatFromTwoVectors_spec h0 hs h1 h2).2.2.1 hband⟩

/-- **C24 (all nonzero vectors).** The result is always a valid rotation and misses the target direction by at most
`√(8·dp)` (`2.9e-6` for `double`). -/
theorem C24_band_error (P : Prec) (dpE : ℝ) (h0 : 0 < dpE) (svdAxis : V3 → V3 → V3) (hs : IsSvdAxis svdAxis)
    (k : Kind) (v1 v2 : V3) (h1 : v1 ≠ 0) (h2 : v2 ≠ 0) (hk : VecClear P k v1 v2) :
    ∃ r : Rep k, setFromVectors P dpE svdAxis k v1 v2 = .ok r ∧ Valid k r ∧
      (act k r (dir v1) - dir v2).norm ≤ Real.sqrt (8 * dpE) := by
  obtain ⟨r, e, v, d⟩ := setFromVectors_spec (P := P) (k := k) h0 hs h1 h2 hk
  refine ⟨r, e, v, ?_⟩
  rw [act_eq, d]
  exact Real.sqrt_le_sqrt (quatFromTwoVectors_spec h0 hs h1 h2).2.2.2

/-- **C24, exceptions.** An exception is thrown exactly if one of the vectors is zero. -/
theorem C24_throws_iff (P : Prec) (dpE : ℝ) (svdAxis : V3 → V3 → V3) (k : Kind) (v1 v2 : V3) :
    setFromVectors P dpE svdAxis k v1 v2 = .throws ↔ v1 = 0 ∨ v2 = 0 := by
  unfold setFromVectors
  have : v1.norm * v2.norm = 0 ↔ v1 = 0 ∨ v2 = 0 := by
    rw [mul_eq_zero, V3.norm_eq_zero, V3.norm_eq_zero]
  rw [← this]
  by_cases h : v1.norm * v2.norm = 0
  · simp [h]
  · simp [h]

/-- A vector orthogonal to a nonzero vector. -/
lemma exists_perp {a : V3} (ha : a.normSq = 1) : ∃ n : V3, n ≠ 0 ∧ n.dot a = 0 := by
  by_cases h : a.x = 0 ∧ a.y = 0
  · exact ⟨⟨1, 0, 0⟩, fun e => by simpa using congrArg V3.x e, by simp [V3.dot, h.1]⟩
  · refine ⟨⟨-a.y, a.x, 0⟩, fun e => h ⟨?_, ?_⟩, by simp [V3.dot]; ring⟩
    · simpa using congrArg V3.y e
    · simpa using congrArg V3.x e

/-- The hypothesis `IsSvdAxis` of the theorems of this file can be met: every pair of unit vectors has a common unit normal. -/
theorem C24_isSvdAxis_satisfiable : ∃ f, IsSvdAxis f := by
  have key : ∀ a b : V3, a.normSq = 1 → b.normSq = 1 → ∃ n : V3, n.normSq = 1 ∧ n.dot a = 0 ∧ n.dot b = 0 := by
    intro a b ha hb
    have dz : ∀ (n v : V3), n.dot v = 0 → (dir n).dot v = 0 := by
      intro n v h
      have : (dir n).dot v = (1 / n.norm) * n.dot v := by simp [dir, V3.dot]; ring
      rw [this, h, mul_zero]
    by_cases h : a.cross b = 0
    · obtain ⟨n, hn, hna⟩ := exists_perp ha
      refine ⟨dir n, dir_unit hn, dz _ _ hna, dz _ _ ?_⟩
      -- b = (a·b) a
      have hx := congrArg V3.x h
      have hy := congrArg V3.y h
      have hz := congrArg V3.z h
      simp only [V3.cross, V3.zero_x, V3.zero_y, V3.zero_z, V3.normSq, V3.dot] at *
      have ex : b.x = (a.x * b.x + a.y * b.y + a.z * b.z) * a.x := by
        linear_combination -b.x * ha - a.y * hz + a.z * hy
      have ey : b.y = (a.x * b.x + a.y * b.y + a.z * b.z) * a.y := by
        linear_combination -b.y * ha - a.z * hx + a.x * hz
      have ez : b.z = (a.x * b.x + a.y * b.y + a.z * b.z) * a.z := by
        linear_combination -b.z * ha - a.x * hy + a.y * hx
      linear_combination n.x * ex + n.y * ey + n.z * ez + (a.x * b.x + a.y * b.y + a.z * b.z) * hna
    · exact ⟨_, dir_unit h, dz _ _ (by simp [V3.dot, V3.cross]; ring), dz _ _ (by simp [V3.dot, V3.cross]; ring)⟩
  choose! f hf using key
  exact ⟨f, hf⟩

/-- Non-vacuity: for every class, a concrete non-parallel pair meets all hypotheses of `C24_aligned_partial`
(the pair is orthogonal, of different lengths). -/
example (k : Kind) : ∃ svdAxis, IsSvdAxis svdAxis ∧ ∃ r : Rep k,
    setFromVectors Prec.double (1 / 10 ^ 12) svdAxis k ⟨1, 0, 0⟩ ⟨0, 2, 0⟩ = .ok r ∧ Valid k r ∧
      act k r (dir ⟨1, 0, 0⟩) = dir ⟨0, 2, 0⟩ := by
  obtain ⟨f, hf⟩ := C24_isSvdAxis_satisfiable
  have hd : (dir ⟨0, 2, 0⟩).dot (dir ⟨1, 0, 0⟩) = 0 := by simp [dir, V3.dot]
  refine ⟨f, hf, C24_aligned_partial _ _ (by norm_num) f hf k _ _ (fun e => by simpa using congrArg V3.x e)
    (fun e => by simpa using congrArg V3.y e) (fun _ => Or.inr ?_) (Or.inl ?_)⟩
  · rw [hd]; exact smallThreshold_double.le.trans (by norm_num)
  · rw [hd]; norm_num

/-- **C24, exact alignment fails for almost opposite vectors.** The singular value decomposition fixes the axis only up to
sign, but the algorithm needs the right sign unless the vectors are exactly opposite: for every `dp` there are an admissible
axis choice and (almost opposite) unit vectors for which the computed rotation does not map `v1` to `v2`. -/
theorem C24_band_counterexample (P : Prec) (dpE : ℝ) (h0 : 0 < dpE) : ∃ svdAxis, IsSvdAxis svdAxis ∧ ∃ v1 v2 : V3,
    v1 ≠ 0 ∧ v2 ≠ 0 ∧ ∃ q : Quat, setFromVectors P dpE svdAxis .quat v1 v2 = .ok q ∧ act .quat q (dir v1) ≠ dir v2 := by
  obtain ⟨f, hf⟩ := C24_isSvdAxis_satisfiable
  obtain ⟨u, hu0, hu1, hud⟩ : ∃ u : ℝ, 0 < u ∧ u < 1 ∧ 2 * u ^ 2 < dpE := by
    refine ⟨min (1 / 2) (dpE / 2), by positivity, lt_of_le_of_lt (min_le_left _ _) (by norm_num), ?_⟩
    have h1 := min_le_left (1 / 2) (dpE / 2)
    have h2 := min_le_right (1 / 2) (dpE / 2)
    have h3 : 0 < min (1 / 2) (dpE / 2) := by positivity
    nlinarith
  have hD : 0 < 1 + u ^ 2 := by positivity
  set a : V3 := ⟨1, 0, 0⟩ with hadef
  set b : V3 := ⟨-(1 - u ^ 2) / (1 + u ^ 2), 2 * u / (1 + u ^ 2), 0⟩ with hbdef
  have ha : a.normSq = 1 := by simp [hadef, V3.normSq, V3.dot]
  have hb : b.normSq = 1 := by simp only [hbdef, V3.normSq, V3.dot]; field_simp; ring
  have ha0 : a ≠ 0 := fun e => by simpa [hadef] using congrArg V3.x e
  have hb0 : b ≠ 0 := fun e => by rw [e] at hb; simp [V3.normSq, V3.dot] at hb
  have hda : dir a = a := by simp [dir, V3.norm, ha]
  have hdb : dir b = b := by simp [dir, V3.norm, hb]
  let g : V3 → V3 → V3 := fun v0 v1 => if v0 = a ∧ v1 = b then ⟨0, 0, -1⟩ else f v0 v1
  have hg : IsSvdAxis g := by
    intro v0 v1 h0 h1
    by_cases h : v0 = a ∧ v1 = b
    · simp only [g, if_pos h]
      rw [h.1, h.2]
      simp [V3.normSq, V3.dot, hadef, hbdef]
    · simp only [g, if_neg h]; exact hf v0 v1 h0 h1
  refine ⟨g, hg, a, b, ha0, hb0, quatFromTwoVectors dpE g a b, ?_, ?_⟩
  · rw [setFromVectors, if_pos (mul_ne_zero (V3.norm_pos ha0).ne' (V3.norm_pos hb0).ne')]
    rfl
  rw [hda, hdb]
  have hna : a.normalized = a := (normalized_eq_dir ha0).trans hda
  have hnb : b.normalized = b := (normalized_eq_dir hb0).trans hdb
  have hc : b.dot a = -(1 - u ^ 2) / (1 + u ^ 2) := by simp [V3.dot, hadef, hbdef]
  have hlt : b.dot a < -1 + dpE := by
    rw [hc, div_lt_iff₀ hD]; nlinarith [mul_pos h0 (pow_pos hu0 2)]
  have hgt : -1 < b.dot a := by rw [hc, lt_div_iff₀ hD]; nlinarith [pow_pos hu0 2]
  intro h
  rw [act_eq, den_eq] at h
  change (sMat (quatFromTwoVectors dpE g a b)).mulVec a = b at h
  rw [quatFromTwoVectors, hna, hnb] at h
  simp only [if_pos hlt, max_eq_left hgt.le, g, true_and, and_self, if_true] at h
  have hy := congrArg V3.y h
  rw [hc] at hy
  simp [sMat, hadef, hbdef] at hy
  have hpos : 0 < 2 * u / (1 + u ^ 2) := by positivity
  rw [← hy] at hpos
  have : ∀ x y z : ℝ, 0 ≤ x → 0 ≤ y → 0 ≤ z → ¬ 0 < -(2 * (x * y * z)) := by
    intro x y z hx hy hz; have := mul_nonneg (mul_nonneg hx hy) hz; linarith
  exact this _ _ _ (Real.sqrt_nonneg _) (by positivity) (Real.sqrt_nonneg _) hpos

end Kindr
