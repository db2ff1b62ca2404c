import Verif.Props.Gimbal2
import Verif.Props.EulerRates
import Verif.Spec.RatesIeee

/-!
# C122: angular velocities from Euler-angle rates and back, in IEEE arithmetic
-/

set_option autoImplicit false

open Classical

noncomputable section
namespace Kindr
open Spec
namespace Format
variable {f : Format}

/-- One component of the product of a matrix of sines and cosines and a vector. -/
lemma dot_trig (hf : AtLeastFloat f) {D k : ℝ} (g1 : Good f D) (g2 : Good f (2 * D)) (g3 : Good f (3 * D)) (k0 : 0 ≤ k) (hk : k ≤ 40) {v w : V3}
    (hv : Near3 f k D v w) {A B C : XR} {a b c : ℝ} (hA : XNear f 7 1 A a) (hB : XNear f 7 1 B b) (hC : XNear f 7 1 C c) :
    ∃ r, f.arith.dot3 ⟨A, B, C⟩ (emb3 v) = .fin r ∧ |r - (a * w.x + b * w.y + c * w.z)| ≤ (k + 14) * f.uu * (3 * D) := by
  have q1 := hA.mulG hf hv.1 g1 (m := k + 10) (by linarith) (by linarith) ⟨by norm_num, k0, by norm_num, by linarith⟩
  have q2 := hB.mulG hf hv.2.1 g1 (m := k + 10) (by linarith) (by linarith) ⟨by norm_num, k0, by norm_num, by linarith⟩
  have q3 := hC.mulG hf hv.2.2 g1 (m := k + 12) (by linarith) (by linarith) ⟨by norm_num, k0, by norm_num, by linarith⟩
  have s1 := q1.add hf q2 (by linarith) (by linarith [g2.1]) (by linarith [g2.2])
  have s2 := (s1.mono (k' := k + 12) (by linarith) (by linarith) le_rfl).add hf q3 (by linarith) (by linarith [g3.1]) (by linarith [g3.2])
  obtain ⟨r, h1, h2, -⟩ := s2
  refine ⟨r, h1, h2.trans (le_of_eq (by ring))⟩

lemma mulVec_trig (hf : AtLeastFloat f) {D k : ℝ} (g1 : Good f D) (g2 : Good f (2 * D)) (g3 : Good f (3 * D)) (k0 : 0 ≤ k) (hk : k ≤ 40) {v w : V3}
    (hv : Near3 f k D v w) {M : XM3} {m : M3}
    (h00 : XNear f 7 1 M.m00 m.m00) (h01 : XNear f 7 1 M.m01 m.m01) (h02 : XNear f 7 1 M.m02 m.m02)
    (h10 : XNear f 7 1 M.m10 m.m10) (h11 : XNear f 7 1 M.m11 m.m11) (h12 : XNear f 7 1 M.m12 m.m12)
    (h20 : XNear f 7 1 M.m20 m.m20) (h21 : XNear f 7 1 M.m21 m.m21) (h22 : XNear f 7 1 M.m22 m.m22) :
    VecWithin ((k + 14) * f.uu * (3 * D)) (f.arith.mulVec M (emb3 v)) (m.mulVec w) := by
  obtain ⟨r0, e0, b0⟩ := dot_trig hf g1 g2 g3 k0 hk hv h00 h01 h02
  obtain ⟨r1, e1, b1⟩ := dot_trig hf g1 g2 g3 k0 hk hv h10 h11 h12
  obtain ⟨r2, e2, b2⟩ := dot_trig hf g1 g2 g3 k0 hk hv h20 h21 h22
  refine ⟨⟨r0, r1, r2⟩, ?_, b0, b1, b2⟩
  unfold XArith.mulVec emb3
  change (⟨f.arith.dot3 ⟨M.m00, M.m01, M.m02⟩ (emb3 v), f.arith.dot3 ⟨M.m10, M.m11, M.m12⟩ (emb3 v), f.arith.dot3 ⟨M.m20, M.m21, M.m22⟩ (emb3 v)⟩ : XV3) = _
  rw [e0, e1, e2]

lemma good_one (hf : AtLeastFloat f) : Good f 1 := by
  obtain ⟨u0, -⟩ := alf_uu hf
  constructor
  · rw [show (1 : ℝ) = 2 ^ (0 : ℤ) by norm_num]
    exact zpow_le_zpow_right₀ (by norm_num) (by have := hf.emax; omega)
  · unfold eta uu
    have : (2 : ℝ) ^ (f.emin - 1) ≤ 2⁻¹ * 2⁻¹ ^ f.p := by
      rw [inv_pow, ← zpow_natCast, ← zpow_neg, ← zpow_neg_one, ← zpow_add₀ (by norm_num)]
      exact zpow_le_zpow_right₀ (by norm_num) (by have := hf.emin; have := hf.p; omega)
    linarith

/-- The three mappings applied to approximate rates. -/
lemma velocity_near (hf : AtLeastFloat f) {D k : ℝ} (g1 : Good f D) (g2 : Good f (2 * D)) (g3 : Good f (3 * D)) (k0 : 0 ≤ k) (hk : k ≤ 40) {v w : V3}
    (hv : Near3 f k D v w) (e : EulXyz) (g : EulZyx) :
    VecWithin ((k + 14) * f.uu * (3 * D)) (f.arith.localOfXyzDiff (emb3 e.v) (emb3 v)) (localOfXyzDiff e ⟨w⟩).v ∧
    VecWithin ((k + 14) * f.uu * (3 * D)) (f.arith.globalOfXyzDiff (emb3 e.v) (emb3 v)) (globalOfXyzDiff e ⟨w⟩).v ∧
    VecWithin ((k + 14) * f.uu * (3 * D)) (f.arith.localOfZyxDiff (emb3 g.v) (emb3 v)) (localOfZyxDiff g ⟨w⟩).v := by
  have o := good_one hf
  have wk : ∀ {X x}, XNear f 2 1 X x → XNear f 7 1 X x := fun h => h.mono (by norm_num) (by norm_num) le_rfl
  have zr : XNear f 7 1 (.fin 0) 0 := (XNear.of (f := f) 0 1 (by norm_num)).mono (by norm_num) (by norm_num) le_rfl
  have on : XNear f 7 1 (.fin 1) 1 := (XNear.of (f := f) 1 1 (by norm_num)).mono (by norm_num) (by norm_num) le_rfl
  have mu : ∀ {X Y x y}, XNear f 2 1 X x → XNear f 2 1 Y y → XNear f 7 1 (f.arith.mul X Y) (x * y) := fun a b =>
    a.mulG hf b o (by norm_num) (by norm_num) (by norm_num)
  have s := fun t => trig_near hf (Real.abs_sin_le_one t)
  have c := fun t => trig_near hf (Real.abs_cos_le_one t)
  refine ⟨?_, ?_, ?_⟩
  · exact mulVec_trig (M := f.arith.xyzDiffToLocal (emb3 e.v)) (m := xyzDiffToLocal e) hf g1 g2 g3 k0 hk hv (mu (c _) (c _)) (wk (s _)) zr (mu (c _).neg (s _)) (wk (c _)) zr (wk (s _)) zr on
  · exact mulVec_trig (M := f.arith.xyzDiffToGlobal (emb3 e.v)) (m := xyzDiffToGlobal e) hf g1 g2 g3 k0 hk hv on zr (wk (s _)) zr (wk (c _)) (mu (s _).neg (c _)) zr (wk (s _)) (mu (c _) (c _))
  · exact mulVec_trig (M := f.arith.zyxDiffToLocal (emb3 g.v)) (m := zyxDiffToLocal g) hf g1 g2 g3 k0 hk hv (wk (s _).neg) zr on (mu (c _) (s _)) (wk (c _)) zr (mu (c _) (c _)) (wk (s _).neg) zr

/-- **C122 (a).** Angular velocities from Euler-angle rates: finite, and accurate to `50` roundings of the size of the rates for all angles. -/
theorem C122_velocity (hf : AtLeastFloat f) (e : EulXyz) (g : EulZyx) (d : V3) (hd : size1 d ≤ 2 ^ (f.emax - 5)) :
    VecWithin (50 * 2⁻¹ ^ f.p * (size1 d + 2 ^ (f.emin + f.p))) (f.arith.localOfXyzDiff (emb3 e.v) (emb3 d)) (localOfXyzDiff e ⟨d⟩).v ∧
    VecWithin (50 * 2⁻¹ ^ f.p * (size1 d + 2 ^ (f.emin + f.p))) (f.arith.globalOfXyzDiff (emb3 e.v) (emb3 d)) (globalOfXyzDiff e ⟨d⟩).v ∧
    VecWithin (50 * 2⁻¹ ^ f.p * (size1 d + 2 ^ (f.emin + f.p))) (f.arith.localOfZyxDiff (emb3 g.v) (emb3 d)) (localOfZyxDiff g ⟨d⟩).v := by
  have p : (0 : ℝ) < 2 ^ (f.emin + f.p) := by positivity
  have x0 := abs_nonneg d.x; have y0 := abs_nonneg d.y; have z0 := abs_nonneg d.z
  obtain ⟨u0, -⟩ := alf_uu hf
  unfold size1 at hd ⊢
  obtain ⟨g1, g2⟩ := good_of hf (s := |d.x| + |d.y| + |d.z|) (by positivity) hd
  obtain ⟨D, hD⟩ : ∃ D, D = |d.x| + |d.y| + |d.z| + 2 ^ (f.emin + (f.p : ℤ)) := ⟨_, rfl⟩
  have e8 : (2 : ℝ) ^ (f.emax - 2) = 8 * 2 ^ (f.emax - 5) := by
    rw [show (8 : ℝ) = 2 ^ (3 : ℤ) by norm_num, ← zpow_add₀ (by norm_num)]; congr 1; ring
  have e1 : (2 : ℝ) ^ (f.emin + f.p) ≤ 2 ^ (f.emax - 5) := zpow_le_zpow_right₀ (by norm_num) (by have := hf.emin; have := hf.emax; have := hf.p; omega)
  have g3 : Good f (3 * D) := by
    have := g2.2
    rw [← hD] at this
    have n : 0 ≤ f.uu * D := mul_nonneg u0.le (by linarith)
    exact ⟨by linarith, by linarith⟩
  rw [← hD] at g1 g2 ⊢
  have uD : 0 ≤ f.uu * D := mul_nonneg u0.le (by linarith)
  have hv : Near3 f 0 D d d := ⟨XNear.of _ _ (by linarith), XNear.of _ _ (by linarith), XNear.of _ _ (by linarith)⟩
  have w : ∀ {X x}, VecWithin ((0 + 14) * f.uu * (3 * D)) X x → VecWithin (50 * 2⁻¹ ^ f.p * D) X x := by
    rintro X x ⟨r, h0, h1, h2, h3⟩
    change VecWithin (50 * f.uu * D) X x
    exact ⟨r, h0, by linarith, by linarith, by linarith⟩
  obtain ⟨a, b, c⟩ := velocity_near hf g1 g2 g3 le_rfl (by norm_num) hv e g
  exact ⟨w a, w b, w c⟩

/-- **C122 (b).** Angular velocity to rates and back: the error is at most `400` roundings of the size of the angular velocity divided by `|cos y|`. -/
theorem C122_roundtrip (hf : AtLeastFloat f) (e : EulXyz) (g : EulZyx) (w : LocalAV) :
    (2 ^ (f.emin + f.p) ≤ Real.cos e.y ^ 2 → size1 w.v + 1 ≤ 2 ^ (f.emax - 7) * Real.cos e.y ^ 2 →
      ∃ d, f.arith.xyzDiffOfLocal (emb3 e.v) (emb3 w.v) = .ok d ∧
        VecWithin (400 * 2⁻¹ ^ f.p * (size1 w.v + 2 ^ (f.emin + f.p)) / |Real.cos e.y|) (f.arith.localOfXyzDiff (emb3 e.v) d) w.v) ∧
    (2 ^ (f.emin + f.p) ≤ Real.cos g.y ^ 2 → size1 w.v + 1 ≤ 2 ^ (f.emax - 7) * Real.cos g.y ^ 2 →
      ∃ d, f.arith.zyxDiffOfLocal (emb3 g.v) (emb3 w.v) = .ok d ∧
        VecWithin (400 * 2⁻¹ ^ f.p * (size1 w.v + 2 ^ (f.emin + f.p)) / |Real.cos g.y|) (f.arith.localOfZyxDiff (emb3 g.v) d) w.v) := by
  have p : (0 : ℝ) < 2 ^ (f.emin + f.p) := by positivity
  have x0 := abs_nonneg w.v.x; have y0 := abs_nonneg w.v.y; have z0 := abs_nonneg w.v.z
  obtain ⟨u0, -⟩ := alf_uu hf
  unfold size1
  have e4 : (2 : ℝ) ^ (f.emax - 5) = 4 * 2 ^ (f.emax - 7) := by
    rw [show (4 : ℝ) = 2 ^ (2 : ℤ) by norm_num, ← zpow_add₀ (by norm_num)]; congr 1; ring
  obtain ⟨r1, r2⟩ := rates_near hf e g w
  have goods : ∀ y, 2 ^ (f.emin + f.p) ≤ Real.cos y ^ 2 → |w.v.x| + |w.v.y| + |w.v.z| + 1 ≤ 2 ^ (f.emax - 7) * Real.cos y ^ 2 →
      |w.v.x| + |w.v.y| + |w.v.z| + 1 ≤ 2 ^ (f.emax - 5) * Real.cos y ^ 2 ∧
      ∃ B, B = 3 * ((|w.v.x| + |w.v.y| + |w.v.z| + 2 ^ (f.emin + f.p)) * |1 / Real.cos y|) ∧ Good f B ∧ Good f (2 * B) ∧ Good f (3 * B) ∧
        (22 + 14) * f.uu * (3 * B) ≤ 400 * 2⁻¹ ^ f.p * (|w.v.x| + |w.v.y| + |w.v.z| + 2 ^ (f.emin + f.p)) / |Real.cos y| := by
    intro y hc h
    have h' : |w.v.x| + |w.v.y| + |w.v.z| + 1 ≤ 2 ^ (f.emax - 5) * Real.cos y ^ 2 := by rw [e4]; linarith
    have q : 3 * (|w.v.x| + |w.v.y| + |w.v.z|) + 1 ≤ 2 ^ (f.emax - 5) * Real.cos y ^ 2 := by rw [e4]; linarith
    have q4 : (3 * (|w.v.x| + |w.v.y| + |w.v.z| + 1)) + 1 ≤ 2 ^ (f.emax - 5) * Real.cos y ^ 2 := by rw [e4]; linarith
    have H := secondCtx hf (by positivity) hc h'
    have H3 := secondCtx hf (s := 3 * (|w.v.x| + |w.v.y| + |w.v.z| + 1)) (by positivity) hc q4
    refine ⟨h', _, rfl, ?_⟩
    obtain ⟨-, -, -, -, gDT, -, -, -, -, oD, oDT⟩ := H.good
    have t2 := H3.top2
    obtain ⟨-, -, -, -, -, -, -, -, -, o3, o3'⟩ := H3.good
    have c1 : Real.cos y ^ 2 ≤ 1 := Real.cos_sq_le_one y
    have D0 := H.D0; have T1 := H.T1
    have eq : 400 * 2⁻¹ ^ f.p * (|w.v.x| + |w.v.y| + |w.v.z| + 2 ^ (f.emin + (f.p : ℤ))) / |Real.cos y| =
        400 * f.uu * ((|w.v.x| + |w.v.y| + |w.v.z| + 2 ^ (f.emin + (f.p : ℤ))) * |1 / Real.cos y|) := by
      rw [one_div, abs_inv, div_eq_mul_inv]; unfold uu; ring
    rw [eq]
    have le3 : 3 * ((|w.v.x| + |w.v.y| + |w.v.z| + 2 ^ (f.emin + (f.p : ℤ))) * |1 / Real.cos y|) ≤
        (3 * (|w.v.x| + |w.v.y| + |w.v.z| + 1) + 2 ^ (f.emin + (f.p : ℤ))) * |1 / Real.cos y| := by
      rw [← mul_assoc]
      exact mul_le_mul_of_nonneg_right (by linarith) (abs_nonneg _)
    have e2 := gDT.2
    have n : 0 ≤ f.uu * ((|w.v.x| + |w.v.y| + |w.v.z| + 2 ^ (f.emin + (f.p : ℤ))) * |1 / Real.cos y|) := mul_nonneg u0.le (by linarith)
    refine ⟨⟨by linarith, by linarith⟩, ⟨by linarith, by linarith⟩, ⟨by linarith, by linarith⟩, by linarith⟩
  have fin : ∀ {E E' : ℝ} {X x}, E ≤ E' → VecWithin E X x → VecWithin E' X x := by
    rintro E E' X x h ⟨r, h0, h1, h2, h3⟩
    exact ⟨r, h0, h1.trans h, h2.trans h, h3.trans h⟩
  refine ⟨fun hc h => ?_, fun hc h => ?_⟩
  · obtain ⟨h', B, hB, g1, g2, g3, le⟩ := goods _ hc h
    obtain ⟨r, x, a1, a2, a3⟩ := r1 hc h'
    rw [← hB] at a3
    refine ⟨_, a1, fin le ?_⟩
    have := (velocity_near hf g1 g2 g3 (by norm_num) (by norm_num) a3 e g).1
    rwa [(C31_xyz_roundtrip e x w).2.2 x a2] at this
  · obtain ⟨h', B, hB, g1, g2, g3, le⟩ := goods _ hc h
    obtain ⟨r, x, a1, a2, a3⟩ := r2 hc h'
    rw [← hB] at a3
    refine ⟨_, a1, fin le ?_⟩
    have := (velocity_near hf g1 g2 g3 (by norm_num) (by norm_num) a3 e g).2.2
    rwa [(C32_zyx_roundtrip g x w).2.2 x a2] at this

lemma rnd_int {n : ℤ} (h : |(n : ℝ)| ≤ 2) : double.arith.rnd (n : ℝ) = .fin n := by
  have ok : double.Ok := alf_ok double_alf
  have e : double.round (n : ℝ) = n := round_onGrid (k := 0) (by norm_num [double]) ⟨n, by simp⟩ (by
    refine lt_of_le_of_lt h ?_; norm_num [double])
  have b : (2 : ℝ) ≤ 2 ^ (double.emax - 1) := le_trans (b := (2 : ℝ) ^ (1 : ℤ)) (by norm_num) (zpow_le_zpow_right₀ (by norm_num) (by norm_num [double]))
  rw [fin_of ok (h.trans b), e]

set_option maxHeartbeats 1000000 in
/-- **C122 (finding).** At the `double` nearest to `π / 2` the angular velocity `(1, 0, 1)`, converted to rates of `EulerAnglesXyz` and back, has the third
component `0` or `2` instead of `1`. -/
theorem C122_component_lost :
    ∃ d, double.arith.xyzDiffOfLocal (emb3 ⟨0, halfPiDouble, 0⟩) (emb3 ⟨1, 0, 1⟩) = .ok d ∧
      ∃ r : V3, double.arith.localOfXyzDiff (emb3 ⟨0, halfPiDouble, 0⟩) d = emb3 r ∧ (r.z = 0 ∨ r.z = 2) := by
  have ok : double.Ok := alf_ok double_alf
  have R := rn ok
  obtain ⟨st, y4, hd, -⟩ := C120_example
  have p1 := Real.pi_gt_d20; have p2 := Real.pi_lt_d20
  have d0 : 0 < Real.pi / 2 - halfPiDouble ∧ Real.pi / 2 - halfPiDouble ≤ 613 / 10 ^ 19 := by
    unfold halfPiDouble; norm_num at p1 p2 ⊢; constructor <;> linarith
  obtain ⟨c, hc⟩ : ∃ c, c = Real.cos halfPiDouble := ⟨_, rfl⟩
  obtain ⟨s, hs⟩ : ∃ s, s = Real.sin halfPiDouble := ⟨_, rfl⟩
  have cs : c = Real.sin (Real.pi / 2 - halfPiDouble) := by rw [hc]; exact (Real.sin_pi_div_two_sub _).symm
  have ss : s = Real.cos (Real.pi / 2 - halfPiDouble) := by rw [hs]; exact (Real.cos_pi_div_two_sub _).symm
  have c0 : 0 < c := by rw [cs]; exact Real.sin_pos_of_pos_of_lt_pi d0.1 (by linarith [d0.2])
  have c1 : c ≤ 613 / 10 ^ 19 := by rw [cs]; exact (Real.sin_le d0.1.le).trans d0.2
  have c2 : 6 / 10 ^ 17 ≤ c := by have := (C120_cosine halfPiDouble).2.1 st y4; rwa [← hc, abs_of_pos c0] at this
  have sq : s ^ 2 + c ^ 2 = 1 := by rw [hs, hc]; exact Real.sin_sq_add_cos_sq _
  have s1 : 1 - 1 / 10 ^ 30 ≤ s := by
    have := Real.one_sub_sq_div_two_le_cos (x := Real.pi / 2 - halfPiDouble)
    rw [← ss] at this
    have h2 := pow_le_pow_left₀ d0.1.le d0.2 2
    norm_num at h2 ⊢; linarith
  have s2 : s < 1 := by
    by_contra h
    push Not at h
    have := mul_self_nonneg (s - 1)
    have := mul_pos c0 c0
    nlinarith
  -- the rounded sine is one
  have rs : double.round s = 1 := by
    have q : double.qexp s = -53 := by
      rw [qexp_of (e := -1) (by norm_num at s1 ⊢; linarith) (by norm_num; exact s2) (by norm_num [double])]; norm_num [double]
    rw [round_def, q, roundTiesEven_of_near (n := 2 ^ 53)]
    · norm_num
    · rw [abs_sub_lt_iff]; norm_num at s1 ⊢; constructor <;> linarith
  -- the rounded cosine and its reciprocal
  obtain ⟨t, ht⟩ : ∃ t, t = double.round c := ⟨_, rfl⟩
  have te := R.err c
  rw [← ht, abs_of_pos c0] at te
  have hu : double.uu = 1 / 2 ^ 53 := by unfold uu; norm_num [double]
  have he : double.eta ≤ 1 / 10 ^ 40 := by
    unfold eta
    refine le_trans (zpow_le_zpow_right₀ (by norm_num) (show double.emin - 1 ≤ (-200 : ℤ) by norm_num [double])) ?_
    norm_num
  have t1 : 599 / 10 ^ 19 ≤ t ∧ t ≤ 614 / 10 ^ 19 := by
    have := abs_le.mp te
    rw [hu] at this
    norm_num at this he c1 c2 ⊢
    constructor <;> linarith [this.1, this.2]
  have t0 : 0 < t := by norm_num at t1; linarith [t1.1]
  have i1 : 162 * 10 ^ 14 ≤ 1 / t ∧ 1 / t ≤ 167 * 10 ^ 14 := by
    rw [le_div_iff₀ t0, div_le_iff₀ t0]
    norm_num at t1 ⊢; constructor <;> linarith [t1.1, t1.2]
  obtain ⟨a, ha⟩ : ∃ a, a = double.round (1 / t) := ⟨_, rfl⟩
  have ae := R.err (1 / t)
  rw [← ha, abs_of_pos (show 0 < 1 / t by positivity), hu] at ae
  have a1 : 161 * 10 ^ 14 ≤ a ∧ a ≤ 168 * 10 ^ 14 := by
    have := abs_le.mp ae
    norm_num at this he i1 ⊢
    constructor <;> linarith [this.1, this.2]
  have grid : ∀ {x : ℝ}, 160 * 10 ^ 14 ≤ x → x ≤ 170 * 10 ^ 14 → ∃ k : ℤ, double.round x = 2 * k := by
    intro x h1 h2
    have q : double.qexp x = 1 := by
      rw [qexp_of (e := 53) (by norm_num at h1 ⊢; linarith) (by norm_num at h2 ⊢; linarith) (by norm_num [double])]; norm_num [double]
    exact ⟨roundTiesEven (x / 2 ^ double.qexp x), by rw [round_def, q]; norm_num; ring⟩
  obtain ⟨k, hk⟩ := grid (x := 1 / t) (by linarith [i1.1]) (by linarith [i1.2])
  rw [← ha] at hk
  have big : (10 : ℝ) ^ 20 ≤ 2 ^ (double.emax - 1) := le_trans (b := (2 : ℝ) ^ (100 : ℤ)) (by norm_num) (zpow_le_zpow_right₀ (by norm_num) (by norm_num [double]))
  have fin : ∀ {x : ℝ}, |x| ≤ 10 ^ 20 → double.arith.rnd x = .fin (double.round x) := fun h => fin_of ok (h.trans big)
  have ra : double.round a = a := by rw [ha]; exact round_idem ok _
  have fa : double.arith.rnd a = .fin a := by rw [fin (by rw [abs_of_pos (by linarith [a1.1])]; linarith [a1.2]), ra]
  have fna : double.arith.rnd (-a) = .fin (-a) := by rw [fin (by rw [abs_neg, abs_of_pos (by linarith [a1.1])]; linarith [a1.2]), round_neg, ra]
  have f0 : double.arith.rnd 0 = .fin 0 := by simpa using rnd_int (n := 0) (by norm_num)
  have f1 : double.arith.rnd 1 = .fin 1 := by simpa using rnd_int (n := 1) (by norm_num)
  -- the third rate
  obtain ⟨j, hj⟩ := grid (x := a - 1) (by linarith [a1.1]) (by linarith [a1.2])
  have ze := R.err (a - 1)
  rw [hj, abs_of_pos (show 0 < a - 1 by linarith [a1.1]), hu] at ze
  have fz : double.arith.rnd (-a + 1) = .fin (-(2 * j)) := by
    rw [fin, show -a + 1 = -(a - 1) by ring, round_neg, hj]
    rw [abs_le]; constructor <;> linarith [a1.1, a1.2]
  have kj : k - j = 0 ∨ k - j = 1 := by
    have := abs_le.mp ze
    rw [hk] at this a1
    have b1 : ((k - j : ℤ) : ℝ) < 2 := by push_cast; norm_num at this a1 he; linarith [this.1, a1.2]
    have b2 : (-1 : ℝ) < ((k - j : ℤ) : ℝ) := by push_cast; norm_num at this a1 he; linarith [this.2, a1.2]
    have b1' : k - j < 2 := by exact_mod_cast b1
    have b2' : -1 < k - j := by exact_mod_cast b2
    omega
  have fl : double.arith.rnd (a + -(2 * j)) = .fin (a + -(2 * j)) := by
    have e : a + -(2 * (j : ℝ)) = ((2 * (k - j) : ℤ) : ℝ) := by rw [hk]; push_cast; ring
    rw [e]; refine rnd_int ?_
    rcases kj with h | h <;> rw [h] <;> norm_num
  -- the calls
  have cy : double.arith.cos (.fin halfPiDouble) = .fin t := by
    change double.arith.rnd (Real.cos halfPiDouble) = _
    rw [← hc, fin (by rw [abs_of_pos c0]; norm_num at c1 ⊢; linarith), ht]
  have sy : double.arith.sin (.fin halfPiDouble) = .fin 1 := by
    change double.arith.rnd (Real.sin halfPiDouble) = _
    rw [← hs, fin (by rw [abs_of_pos (by norm_num at s1; linarith)]; linarith), rs]
  have cz : double.arith.cos (.fin 0) = .fin 1 := by change double.arith.rnd (Real.cos 0) = _; rw [Real.cos_zero, f1]
  have sz : double.arith.sin (.fin 0) = .fin 0 := by change double.arith.rnd (Real.sin 0) = _; rw [Real.sin_zero, f0]
  have iv : double.arith.div (.fin 1) (.fin t) = .fin a := by
    simp only [XArith.div, if_neg t0.ne']
    rw [fin (by rw [abs_of_pos (by positivity)]; linarith [i1.2]), ha]
  have mul : ∀ x y : ℝ, double.arith.mul (.fin x) (.fin y) = double.arith.rnd (x * y) := fun _ _ => rfl
  have add : ∀ x y : ℝ, double.arith.add (.fin x) (.fin y) = double.arith.rnd (x + y) := fun _ _ => rfl
  have neg : ∀ x : ℝ, (XR.fin x).neg = .fin (-x) := fun _ => rfl
  have ne : ¬ (XR.fin t).eq (.fin 0) := t0.ne'
  refine ⟨⟨.fin a, .fin 0, .fin (-(2 * j))⟩, ?_, ⟨double.round (t * a), 0, a + -(2 * j)⟩, ?_, ?_⟩
  · simp only [XArith.xyzDiffOfLocal, XArith.xyzLocalToDiff, emb3, cy, sy, cz, sz, iv, XArith.mulVec, XArith.dot3, XArith.row, mul, add, neg, mul_one,
      mul_zero, zero_mul, one_mul, add_zero, zero_add, fa, fna, f0, f1, fz, neg_zero]
    rw [if_pos ne]
    simp only [mul, add, mul_one, mul_zero, zero_mul, one_mul, add_zero, zero_add, fa, fna, f0, f1, fz]
  · have ta : double.arith.rnd (t * a) = .fin (double.round (t * a)) := fin (by
      rw [abs_of_pos (mul_pos t0 (by linarith [a1.1]))]
      have := mul_le_mul t1.2 a1.2 (by linarith [a1.1]) (by norm_num)
      norm_num at this ⊢; linarith)
    have ft : double.arith.rnd t = .fin t := by
      rw [fin (by rw [abs_of_pos t0]; norm_num at t1 ⊢; linarith [t1.2]), ht, round_idem ok]
    have fra : double.arith.rnd (double.round (t * a)) = .fin (double.round (t * a)) := by
      have := R.err (t * a)
      have h1 : t * a ≤ 2 := by
        have := mul_le_mul t1.2 a1.2 (by linarith [a1.1]) (by norm_num)
        norm_num at this ⊢; linarith
      have h0 : 0 < t * a := mul_pos t0 (by linarith [a1.1])
      rw [abs_of_pos h0, hu] at this
      rw [fin, round_idem ok]
      have b := abs_le.mp this
      rw [abs_le]; norm_num at b he ⊢; constructor <;> linarith [b.1, b.2]
    have fj : double.arith.rnd (-(2 * (j : ℝ))) = .fin (-(2 * j)) := by
      rw [fin, round_neg, ← hj, round_idem ok]
      rw [abs_neg]
      have b := abs_le.mp ze
      rw [abs_le]; norm_num at b he a1 ⊢; constructor <;> linarith [b.1, b.2, a1.1, a1.2]
    simp only [XArith.localOfXyzDiff, XArith.xyzDiffToLocal, emb3, cy, sy, cz, sz, XArith.mulVec, XArith.dot3, XArith.row, mul, add, neg, mul_one,
      mul_zero, zero_mul, one_mul, add_zero, zero_add, fa, f0, f1, ft, ta, fl, fra, fj, neg_zero]
  · change a + -(2 * (j : ℝ)) = 0 ∨ a + -(2 * (j : ℝ)) = 2
    have e : a + -(2 * (j : ℝ)) = 2 * ((k - j : ℤ) : ℝ) := by rw [hk]; push_cast; ring
    rw [e]
    rcases kj with h | h <;> rw [h] <;> norm_num

/-- The hypotheses of `C122_velocity` and `C122_roundtrip` for a second angle of one radian and an angular velocity `(100, 100, 100)`, in `float`. -/
example : size1 ⟨100, 100, 100⟩ ≤ 2 ^ (float.emax - 5) ∧ 2 ^ (float.emin + float.p) ≤ Real.cos 1 ^ 2 ∧
    size1 ⟨100, 100, 100⟩ + 1 ≤ 2 ^ (float.emax - 7) * Real.cos 1 ^ 2 := by
  have c := Real.one_sub_sq_div_two_le_cos (x := 1)
  have c2 : (1 / 4 : ℝ) ≤ Real.cos 1 ^ 2 := by
    have := pow_le_pow_left₀ (by norm_num) c 2; norm_num at this ⊢; linarith
  have e : size1 ⟨100, 100, 100⟩ = 300 := by unfold size1; norm_num
  have b1 : (2 : ℝ) ^ (20 : ℤ) ≤ 2 ^ (float.emax - 5) := zpow_le_zpow_right₀ (by norm_num) (by norm_num [float])
  have b2 : (2 : ℝ) ^ (20 : ℤ) ≤ 2 ^ (float.emax - 7) := zpow_le_zpow_right₀ (by norm_num) (by norm_num [float])
  have b3 : (2 : ℝ) ^ (float.emin + float.p) ≤ 2 ^ (-2 : ℤ) := zpow_le_zpow_right₀ (by norm_num) (by norm_num [float])
  rw [e]
  refine ⟨?_, ?_, ?_⟩
  · refine le_trans ?_ b1; norm_num
  · refine b3.trans ?_; norm_num at c2 ⊢; linarith
  · have := mul_le_mul b2 c2 (by norm_num) (by positivity)
    refine le_trans ?_ this; norm_num

end Format
end Kindr
