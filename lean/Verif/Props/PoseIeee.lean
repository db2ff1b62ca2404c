import Verif.Props.Log5
import Verif.Props.Exp4
import Verif.Spec.PoseIeee

/-!
# Poses in IEEE arithmetic: inverse transform, round trip, chains (C114)
-/

set_option autoImplicit false

open Classical

noncomputable section
namespace Kindr
open Spec
namespace Format
variable {f : Format}

lemma near_dir {q : Quat} {d : ℝ} (h : UnitUpTo d q) (hd : d ≤ 1 / 2) : (direction q).normSq = 1 ∧ ‖toH q - toH (direction q)‖ ≤ d := by
  have n0 : 0 < q.norm := by have := (abs_le.mp h).1; linarith
  refine ⟨Inst.dir_normSq n0, ?_⟩
  have e : toH q - toH (direction q) = (1 - (q.norm)⁻¹) • toH q := by rw [Inst.toH_dir, sub_smul, one_smul]
  rw [e, norm_smul, norm_toH, Real.norm_eq_abs, ← abs_of_pos n0, ← abs_mul, abs_of_pos n0, sub_mul, one_mul, inv_mul_cancel₀ n0.ne']
  exact h

lemma conj_unit {q : Quat} {d : ℝ} (h : UnitUpTo d q) : UnitUpTo d q.conj := by
  have nb : q.conj.norm = q.norm := by rw [← norm_toH, toH_conj, norm_star, norm_toH]
  unfold UnitUpTo at h ⊢; rw [nb]; exact h

lemma act_dir (q : Quat) (v : V3) : act .quat (direction q) v = (sMat (direction q)).mulVec v := by rw [act_eq_dmat]; rfl

lemma act_conj (q : Quat) (v : V3) : act .quat (direction q.conj) v = (den .quat (direction q)).transpose.mulVec v := by
  rw [act_dir, Inst.dir_conj, den_eq .quat]; rfl

/-- The difference of two vectors. -/
lemma subV_range (hf : AtLeastFloat f) {a b : V3} (ha : a.norm ≤ 2 * 2 ^ (f.emax - 3)) (hb : b.norm ≤ 2 * 2 ^ (f.emax - 3)) :
    ∃ w, f.arith.subV (emb3 a) (emb3 b) = emb3 w ∧ (w - (a - b)).norm ≤ f.uu * (a - b).norm + 18 / 10 * f.eta := by
  have hu := alf_uu hf
  have he := alf_eta hf
  have hr := rn (alf_ok hf)
  have F : ∀ {x y : ℝ}, |x| ≤ a.norm → |y| ≤ b.norm → f.arith.rnd (x + -y) = .fin (f.round (x + -y)) := fun {x y} hx hy => fin_of (alf_ok hf) (by
    rw [pow_emax]
    have := abs_add_le x (-y)
    rw [abs_neg] at this
    linarith)
  obtain ⟨a1, a2, a3⟩ := abs_comp_le a
  obtain ⟨b1, b2, b3⟩ := abs_comp_le b
  refine ⟨⟨f.round (a.x + -b.x), f.round (a.y + -b.y), f.round (a.z + -b.z)⟩, ?_, ?_⟩
  · unfold XArith.subV
    ext
    · exact F a1 b1
    · exact F a2 b2
    · exact F a3 b3
  · have h := V3.norm_le_of_abs (v := (⟨f.round (a.x + -b.x), f.round (a.y + -b.y), f.round (a.z + -b.z)⟩ : V3) - (a - b))
      (b := f.uu • (⟨|(a - b).x|, |(a - b).y|, |(a - b).z|⟩ : V3) + ⟨f.eta, f.eta, f.eta⟩)
      (by simpa [sub_eq_add_neg] using hr.err (a.x + -b.x)) (by simpa [sub_eq_add_neg] using hr.err (a.y + -b.y)) (by simpa [sub_eq_add_neg] using hr.err (a.z + -b.z))
    have h2 := V3.norm_add_le (f.uu • (⟨|(a - b).x|, |(a - b).y|, |(a - b).z|⟩ : V3)) ⟨f.eta, f.eta, f.eta⟩
    have h3 : (⟨|(a - b).x|, |(a - b).y|, |(a - b).z|⟩ : V3).norm = (a - b).norm := by
      simp [V3.norm, V3.normSq, V3.dot]
    rw [V3.norm_smul_nonneg hu.1.le, h3] at h2
    have h4 := norm_three (w := ⟨f.eta, f.eta, f.eta⟩) he.1.le (abs_of_pos he.1).le (abs_of_pos he.1).le (abs_of_pos he.1).le
    linarith [he.1]

lemma emax_five : (2 : ℝ) ^ (f.emax - 3) = 4 * 2 ^ (f.emax - 5) := by
  rw [show (4 : ℝ) = 2 ^ (2 : ℤ) by norm_num, ← zpow_add₀ (by norm_num)]; congr 1; ring

/-- **C114 (a).** `inverseTransform()` in IEEE arithmetic: the error is relative to the distance of the point from the origin of the pose. -/
theorem C114_inverseTransform (hf : AtLeastFloat f) (P : Prec) (T : Frame) {δ : ℝ} (hT : UnitUpTo δ T.2) (hδ : δ ≤ 1 / 300) (x : V3)
    (ht : T.1.norm ≤ 2 ^ (f.emax - 5)) (hx : x.norm ≤ 2 ^ (f.emax - 5)) :
    ∃ w, f.arith.inverseTransform P .quat (emb3 T.1) (embQ T.2) (emb3 x) = emb3 w ∧
      (w - T.unmap x).norm ≤ (26 * 2⁻¹ ^ f.p + 82 / 10 * δ) * (x - T.1).norm + 13 * 2 ^ (f.emin - 1) := by
  have hu := alf_uu hf
  have he := alf_eta hf
  have hs := alf_small hf
  have d0 : 0 ≤ δ := (abs_nonneg _).trans hT
  have big := one_le_emax (alf_ok hf)
  have e5 := emax_five (f := f)
  have b0 : (0 : ℝ) < 2 ^ (f.emax - 5) := by positivity
  obtain ⟨y, ey, y1⟩ := subV_range hf (a := x) (b := T.1) (by linarith) (by linarith)
  obtain ⟨D, hD⟩ : ∃ D, D = (x - T.1).norm := ⟨_, rfl⟩
  have D0 : 0 ≤ D := by rw [hD]; exact V3.norm_nonneg _
  have Db : D ≤ 2 * 2 ^ (f.emax - 5) := by
    have := V3.norm_add_le x (-T.1)
    rw [V3.norm_neg, ← sub_eq_add_neg] at this
    rw [hD]; linarith
  rw [← hD] at y1 ⊢
  have uD : f.uu * D ≤ 1 / 10 ^ 6 * D := mul_le_mul_of_nonneg_right hs.1 D0
  have uD0 := mul_nonneg hu.1.le D0
  have yn : y.norm ≤ D + (f.uu * D + 18 / 10 * f.eta) := by
    have := V3.norm_add_le (y - (x - T.1)) (x - T.1)
    rw [sub_add_cancel, ← hD] at this
    linarith
  obtain ⟨n1, n2⟩ := near_dir (conj_unit hT) (by linarith)
  obtain ⟨w, ew, w1⟩ := C108_rotate hf P T.2.conj (direction T.2.conj) ((valid_quat_iff _).mpr n1) δ hδ n2 y (by
    norm_num at uD hs; linarith)
  change _ ≤ (24 * f.uu + 81 / 10 * δ) * y.norm + 11 * f.eta at w1
  refine ⟨w, ?_, ?_⟩
  · unfold XArith.inverseTransform
    rw [ey]; exact ew
  · have e : T.unmap x = act .quat (direction T.2.conj) (x - T.1) := by rw [act_conj]; rfl
    have hR : IsSO3 (sMat (direction T.2.conj)) := sMat_isSO3 n1
    have k : (act .quat (direction T.2.conj) y - act .quat (direction T.2.conj) (x - T.1)).norm ≤ f.uu * D + 18 / 10 * f.eta := by
      rw [act_dir, act_dir, ← M3.mulVec_sub, SO3.mulVec_norm hR]; exact y1
    rw [e]
    have t := V3.norm_add_le (w - act .quat (direction T.2.conj) y) (act .quat (direction T.2.conj) y - act .quat (direction T.2.conj) (x - T.1))
    rw [sub_add_sub_cancel] at t
    change _ ≤ (26 * f.uu + 82 / 10 * δ) * D + 13 * f.eta
    have q1 : (24 * f.uu + 81 / 10 * δ) * y.norm ≤ (24 * f.uu + 81 / 10 * δ) * (D + (f.uu * D + 18 / 10 * f.eta)) := mul_le_mul_of_nonneg_left yn (by linarith [hu.1])
    have q2 : (24 * f.uu + 81 / 10 * δ) * (f.uu * D + 18 / 10 * f.eta) ≤ 1 / 10 * (f.uu * D + 18 / 10 * f.eta) :=
      mul_le_mul_of_nonneg_right (by norm_num at hs; linarith) (by linarith [he.1])
    have dD := mul_nonneg d0 D0
    linarith [he.1]

/-- **C114 (b).** Going to the frame of a pose and back. -/
theorem C114_round_trip (hf : AtLeastFloat f) (P : Prec) (T : Frame) {δ : ℝ} (hT : UnitUpTo δ T.2) (hδ : δ ≤ 1 / 300) (x : V3)
    (ht : T.1.norm ≤ 2 ^ (f.emax - 7)) (hx : x.norm ≤ 2 ^ (f.emax - 7)) :
    ∃ w, f.arith.inverseTransform P .quat (emb3 T.1) (embQ T.2) (f.arith.transform P .quat (emb3 T.1) (embQ T.2) (emb3 x)) = emb3 w ∧
      (w - x).norm ≤ (54 * 2⁻¹ ^ f.p + 17 * δ) * x.norm + 3 * 2⁻¹ ^ f.p * T.1.norm + 28 * 2 ^ (f.emin - 1) := by
  have hu := alf_uu hf
  have he := alf_eta hf
  have hs := alf_small hf
  have d0 : 0 ≤ δ := (abs_nonneg _).trans hT
  have big := one_le_emax (alf_ok hf)
  have e5 := emax_five (f := f)
  have e7 : (2 : ℝ) ^ (f.emax - 5) = 4 * 2 ^ (f.emax - 7) := by
    rw [show (4 : ℝ) = 2 ^ (2 : ℤ) by norm_num, ← zpow_add₀ (by norm_num)]; congr 1; ring
  have b0 : (0 : ℝ) < 2 ^ (f.emax - 7) := by positivity
  obtain ⟨n1, n2⟩ := near_dir hT (by linarith)
  have hR : IsSO3 (sMat (direction T.2)) := sMat_isSO3 n1
  have x0 := x.norm_nonneg
  have t0 := T.1.norm_nonneg
  have ux := mul_nonneg hu.1.le x0
  have ut := mul_nonneg hu.1.le t0
  have dx := mul_nonneg d0 x0
  obtain ⟨y, -, ey, -, y1, -⟩ := C108_transform hf P T.2 (direction T.2) ((valid_quat_iff _).mpr n1) δ hδ n2 T.1 x (by linarith) (by linarith)
  change _ ≤ (26 * f.uu + 82 / 10 * δ) * x.norm + 2 * f.uu * T.1.norm + 13 * f.eta at y1
  obtain ⟨E, hE⟩ : ∃ E, E = (26 * f.uu + 82 / 10 * δ) * x.norm + 2 * f.uu * T.1.norm + 13 * f.eta := ⟨_, rfl⟩
  rw [← hE] at y1
  have Eb : E ≤ x.norm / 30 + 2 * f.uu * T.1.norm + 13 * f.eta := by
    have : (26 * f.uu + 82 / 10 * δ) * x.norm ≤ 1 / 30 * x.norm := mul_le_mul_of_nonneg_right (by norm_num at hs; linarith) x0
    linarith
  have ut' : f.uu * T.1.norm ≤ 1 / 10 ^ 6 * T.1.norm := mul_le_mul_of_nonneg_right hs.1 t0
  have an : (act .quat (direction T.2) x).norm = x.norm := by rw [act_dir, SO3.mulVec_norm hR]
  have yt : (y - T.1).norm ≤ x.norm + E := by
    have := V3.norm_add_le (y - (act .quat (direction T.2) x + T.1)) (act .quat (direction T.2) x)
    rw [an, show y - (act .quat (direction T.2) x + T.1) + act .quat (direction T.2) x = y - T.1 by abel] at this
    linarith
  have eta1 : f.eta ≤ 1 := by norm_num at hs; linarith
  have yb : y.norm ≤ 2 ^ (f.emax - 5) := by
    have := V3.norm_add_le (y - T.1) T.1
    rw [sub_add_cancel] at this
    norm_num at ut'
    linarith
  obtain ⟨w, ew, w1⟩ := C114_inverseTransform hf P T hT hδ y (by linarith) yb
  change _ ≤ (26 * f.uu + 82 / 10 * δ) * (y - T.1).norm + 13 * f.eta at w1
  refine ⟨w, by rw [ey]; exact ew, ?_⟩
  have k : (T.unmap y - x).norm ≤ E := by
    have : T.unmap y - x = (sMat (direction T.2)).transpose.mulVec (y - (act .quat (direction T.2) x + T.1)) := by
      have e1 : (sMat (direction T.2)).transpose.mulVec ((sMat (direction T.2)).mulVec x) = x := by
        rw [M3.mulVec_mulVec, SO3.tr_mul hR, M3.one_mulVec]
      rw [act_dir, show y - ((sMat (direction T.2)).mulVec x + T.1) = (y - T.1) - (sMat (direction T.2)).mulVec x by abel, M3.mulVec_sub, e1]
      unfold Frame.unmap
      rw [den_eq .quat]; rfl
    rw [this, SO3.mulVec_norm (SO3.transpose hR)]
    exact y1
  have t := V3.norm_add_le (w - T.unmap y) (T.unmap y - x)
  rw [sub_add_sub_cancel] at t
  change _ ≤ (54 * f.uu + 17 * δ) * x.norm + 3 * f.uu * T.1.norm + 28 * f.eta
  have q1 : (26 * f.uu + 82 / 10 * δ) * (y - T.1).norm ≤ (26 * f.uu + 82 / 10 * δ) * (x.norm + E) := mul_le_mul_of_nonneg_left yt (by linarith [hu.1])
  have q2 : (26 * f.uu + 82 / 10 * δ) * E ≤ 1 / 36 * E := mul_le_mul_of_nonneg_right (by norm_num at hs; linarith) ((V3.norm_nonneg _).trans y1)
  rw [mul_add] at q1
  have : E = 26 * (f.uu * x.norm) + 82 / 10 * (δ * x.norm) + 2 * (f.uu * T.1.norm) + 13 * f.eta := by rw [hE]; ring
  have e8 : (54 * f.uu + 17 * δ) * x.norm = 54 * (f.uu * x.norm) + 17 * (δ * x.norm) := by ring
  have e9 : (26 * f.uu + 82 / 10 * δ) * x.norm = 26 * (f.uu * x.norm) + 82 / 10 * (δ * x.norm) := by ring
  rw [e8]
  linarith [he.1]

/-! ## Chains -/

lemma act_dir_mul {r d : Quat} (v : V3) : act .quat (r * d) v = act .quat r (act .quat d v) := by
  rw [act_eq_dmat, act_eq_dmat, act_eq_dmat]
  change (sMat (r * d)).mulVec v = (sMat r).mulVec ((sMat d).mulVec v)
  rw [M3.mulVec_mulVec, sMat_mul]

lemma act_add' (r : Quat) (v w : V3) : act .quat r (v + w) = act .quat r v + act .quat r w := by
  rw [act_eq_dmat, act_eq_dmat, act_eq_dmat, M3.mulVec_add]

lemma act_norm {r : Quat} (h : r.normSq = 1) (v : V3) : (act .quat r v).norm = v.norm := by
  rw [act_eq_dmat]; exact SO3.mulVec_norm (sMat_isSO3 h) v

lemma mul_unit {a b : Quat} (ha : a.normSq = 1) (hb : b.normSq = 1) : (a * b).normSq = 1 := by
  have h : (a * b).norm = 1 := by rw [← norm_toH, toH_mul, norm_mul, norm_toH, norm_toH, Quat.norm, Quat.norm, ha, hb]; simp
  have := Real.sqrt_eq_one.mp h
  exact this

set_option maxHeartbeats 1000000 in
lemma chain_main (hf : AtLeastFloat f) (P : Prec) {δ E L K : ℝ} (hL0 : 0 ≤ L) (hL : L ≤ 2 ^ (f.emax - 5)) (hE : E ≤ 1 / 300) (hδ0 : 0 ≤ δ) (hK : f.uu * K ≤ 1 / 1000)
    (l : List Frame) :
    ∀ (t s : V3) (c r : Quat) (ε e j S : ℝ), r.normSq = 1 → ‖toH c - toH r‖ ≤ ε → (t - s).norm ≤ e → 0 ≤ j → (∀ T ∈ l, UnitUpTo δ T.2) →
      ε + l.length * (101 / 100 * δ + 11 * f.uu) ≤ E → s.norm ≤ S → S + shifts l ≤ L → j + l.length ≤ K →
      e ≤ (26 * f.uu + 82 / 10 * E) * S + j * (3 * f.uu * L + 14 * f.eta) →
      ∃ t' s' c' r', poseLoop f.arith P (emb3 t, embQ c) (l.map embF) = (emb3 t', embQ c') ∧ r'.normSq = 1 ∧ ‖toH c' - toH r'‖ ≤ ε + l.length * (101 / 100 * δ + 11 * f.uu) ∧
        (t' - s').norm ≤ (26 * f.uu + 82 / 10 * E) * L + (j + l.length) * (3 * f.uu * L + 14 * f.eta) ∧
        s'.norm ≤ L ∧ ∀ x, act .quat r (chainMap l x) + s = act .quat r' x + s' := by
  have hu := alf_uu hf
  have he := alf_eta hf
  have hs := alf_small hf
  have big := one_le_emax (alf_ok hf)
  have e5 := emax_five (f := f)
  have b0 : (0 : ℝ) < 2 ^ (f.emax - 5) := by positivity
  have eta1 : f.eta ≤ 1 := by norm_num at hs; linarith
  induction l with
  | nil =>
    intro t s c r ε e j S hr hc ht hj _ h1 h0 h2 h3 h4
    simp only [List.length_nil, Nat.cast_zero, zero_mul, add_zero] at *
    have h2' : S ≤ L := by simpa [shifts] using h2
    have ε0 := (norm_nonneg _).trans hc
    have := mul_le_mul_of_nonneg_left h2' (by linarith [hu.1] : 0 ≤ 26 * f.uu + 82 / 10 * E)
    exact ⟨t, s, c, r, rfl, hr, hc, by linarith, by linarith, fun x => rfl⟩
  | cons T l ih =>
    intro t s c r ε e j S hr hc ht hj hl h1 h0 h2 h3 h4
    have hT := hl T (by simp)
    have rn1 : r.norm = 1 := by rw [Quat.norm, hr, Real.sqrt_one]
    have sh : shifts (T :: l) = T.1.norm + shifts l := by simp [shifts]
    have sh0 : 0 ≤ shifts l := List.sum_nonneg (by simp only [List.mem_map]; rintro _ ⟨T, -, rfl⟩; exact V3.norm_nonneg _)
    rw [sh] at h2
    push_cast [List.length_cons] at h1 h3
    have n0 : (0 : ℝ) ≤ l.length := Nat.cast_nonneg _
    have s0 := s.norm_nonneg
    have T0 := T.1.norm_nonneg
    have ε0 := (norm_nonneg _).trans hc
    have step0 : 0 ≤ 101 / 100 * δ + 11 * f.uu := by linarith [hu.1]
    have nst := mul_nonneg n0 step0
    have εE : ε + (101 / 100 * δ + 11 * f.uu) ≤ E := by linarith
    have δs : δ ≤ 1 / 300 := by linarith [hu.1]
    -- the rotation
    obtain ⟨d1, d2⟩ := near_dir hT (by linarith)
    have cn : c.norm ≤ 1 + ε := by
      have := norm_sub_norm_le (toH c) (toH r)
      rw [norm_toH, norm_toH, rn1] at this
      linarith
    have Tn : T.2.norm ≤ 1 + δ := by have := (abs_le.mp hT).2; linarith
    have c0 : 0 ≤ c.norm := by rw [← norm_toH]; exact norm_nonneg _
    have Tn0 : 0 ≤ T.2.norm := by rw [← norm_toH]; exact norm_nonneg _
    have cT : c.norm * T.2.norm ≤ 102 / 100 := by
      have := mul_le_mul cn Tn Tn0 (by linarith)
      have := mul_le_mul (by linarith : 1 + ε ≤ 301 / 300) (by linarith : 1 + δ ≤ 301 / 300) (by linarith) (by norm_num)
      norm_num at this; linarith
    obtain ⟨c', ec, c1⟩ := C108_product hf P c T.2 (by linarith)
    change _ ≤ 10 * f.uu * (c.norm * T.2.norm) + 16 * f.eta at c1
    have c2 : ‖toH c' - toH c * toH T.2‖ ≤ 11 * f.uu := by
      have := mul_le_mul_of_nonneg_left cT (by linarith [hu.1] : 0 ≤ 10 * f.uu)
      linarith
    have c3 : ‖toH c * toH T.2 - toH (r * direction T.2)‖ ≤ ε + 101 / 100 * δ := by
      have e1 : toH c * toH T.2 - toH (r * direction T.2) = (toH c - toH r) * toH T.2 + toH r * (toH T.2 - toH (direction T.2)) := by
        rw [toH_mul]; noncomm_ring
      rw [e1]
      refine (norm_add_le _ _).trans ?_
      rw [norm_mul, norm_mul, norm_toH, norm_toH, rn1, one_mul]
      have q1 := mul_le_mul hc Tn Tn0 ε0
      have q2 := mul_le_mul_of_nonneg_right (by linarith : ε ≤ 1 / 300) hδ0
      linarith
    have c4 : ‖toH c' - toH (r * direction T.2)‖ ≤ ε + (101 / 100 * δ + 11 * f.uu) := by
      have := norm_sub_le_norm_sub_add_norm_sub (toH c') (toH c * toH T.2) (toH (r * direction T.2))
      linarith
    -- the position
    have g0 : 0 ≤ 26 * f.uu + 82 / 10 * E := by linarith [hu.1]
    have gs : 26 * f.uu + 82 / 10 * E ≤ 1 / 30 := by norm_num at hs; linarith
    have uj : f.uu * j ≤ 1 / 1000 := (mul_le_mul_of_nonneg_left (by linarith) hu.1.le).trans hK
    have eb : e ≤ L / 20 + 14 * (j * f.eta) := by
      have q1 := mul_le_mul gs (by linarith : S ≤ L) (by linarith) (by norm_num)
      have q2 := mul_le_mul_of_nonneg_right uj hL0
      have e1 : j * (3 * f.uu * L + 14 * f.eta) = 3 * (f.uu * j * L) + 14 * (j * f.eta) := by ring
      rw [e1] at h4
      linarith
    have ueb : 2 * f.uu * e ≤ f.uu * L + f.eta := by
      have q1 := mul_le_mul_of_nonneg_left eb hu.1.le
      have q2 := mul_le_mul_of_nonneg_right uj he.1.le
      have e1 : f.uu * (L / 20 + 14 * (j * f.eta)) = f.uu * L / 20 + 14 * (f.uu * j * f.eta) := by ring
      have := mul_nonneg hu.1.le hL0
      rw [e1] at q1
      linarith [he.1]
    have jη : j * f.eta ≤ 1 := by
      have q1 : f.eta ≤ f.uu / 1000 := hs.2
      have q2 := mul_le_mul_of_nonneg_left q1 hj
      linarith
    have tn : t.norm ≤ s.norm + e := by
      have := V3.norm_add_le (t - s) s
      rw [sub_add_cancel] at this
      linarith
    obtain ⟨-, t', -, et, -, t1⟩ := C108_transform hf P c r ((valid_quat_iff _).mpr hr) ε (by linarith) hc t T.1 (by linarith) (by linarith)
    change _ ≤ (26 * f.uu + 82 / 10 * ε) * T.1.norm + 2 * f.uu * t.norm + 13 * f.eta at t1
    have un := mul_le_mul_of_nonneg_left tn (by linarith [hu.1] : 0 ≤ 2 * f.uu)
    have us := mul_le_mul_of_nonneg_left (by linarith : s.norm ≤ L) (by linarith [hu.1] : 0 ≤ 2 * f.uu)
    have gT := mul_le_mul_of_nonneg_right (by linarith : 26 * f.uu + 82 / 10 * ε ≤ 26 * f.uu + 82 / 10 * E) T0
    have t2 : (t' - (act .quat r T.1 + s)).norm ≤ e + (26 * f.uu + 82 / 10 * E) * T.1.norm + (3 * f.uu * L + 14 * f.eta) := by
      have := V3.norm_add_le (t' - (t + act .quat r T.1)) (t - s)
      rw [show t' - (t + act .quat r T.1) + (t - s) = t' - (act .quat r T.1 + s) by abel] at this
      linarith
    have an := act_norm hr T.1
    have r' := mul_unit hr d1
    obtain ⟨t'', s'', c'', r'', f1, f2, f3, f4, f5, f6⟩ := ih t' (act .quat r T.1 + s) c' (r * direction T.2) (ε + (101 / 100 * δ + 11 * f.uu))
      (e + (26 * f.uu + 82 / 10 * E) * T.1.norm + (3 * f.uu * L + 14 * f.eta)) (j + 1) (S + T.1.norm) r' c4 t2 (by linarith) (fun T' h => hl T' (by simp [h]))
      (by linarith) (by have := V3.norm_add_le (act .quat r T.1) s; linarith) (by linarith) (by linarith) (by linarith)
    refine ⟨t'', s'', c'', r'', ?_, f2, ?_, ?_, f5, fun x => ?_⟩
    · rw [← f1]
      change poseLoop f.arith P (f.arith.posePosition P .quat (emb3 t) (embQ c) (emb3 T.1), f.arith.mult P .quat .quat (embQ c) (embQ T.2)) (l.map embF) = _
      rw [et, ec]
    · push_cast [List.length_cons]; linarith
    · push_cast [List.length_cons]; linarith
    · rw [← f6 x]
      change act .quat r (act .quat (direction T.2) (chainMap l x) + T.1) + s = _
      rw [act_add', act_dir_mul]; abel

/-- **C114 (c).** A chain of pose products in IEEE arithmetic.  `n` products of stored poses, quaternions of length one up to `δ`, positions whose lengths add up to `L`: the
pose that results is finite, and it maps every point as the exact composition does. -/
theorem C114_chain (hf : AtLeastFloat f) (P : Prec) (T : Frame) (l : List Frame) {δ L : ℝ} (hT : UnitUpTo δ T.2) (hl : ∀ S ∈ l, UnitUpTo δ S.2)
    (hn : (l.length + 1) * (2 * δ + 11 * 2⁻¹ ^ f.p) ≤ 1 / 300) (hL : shifts (T :: l) ≤ L) (hL2 : L ≤ 2 ^ (f.emax - 5)) :
    ∃ U : Frame, poseLoop f.arith P (embF T) (l.map embF) = embF U ∧ UnitUpTo ((l.length + 1) * (101 / 100 * δ + 11 * 2⁻¹ ^ f.p)) U.2 ∧
      ∀ x, (U.map x - chainMap (T :: l) x).norm ≤ (l.length + 1) * ((44 * 2⁻¹ ^ f.p + 41 / 10 * δ) * x.norm + (120 * 2⁻¹ ^ f.p + 83 / 10 * δ) * L + 14 * 2 ^ (f.emin - 1)) := by
  have hu := alf_uu hf
  have he := alf_eta hf
  have δ0 : 0 ≤ δ := (abs_nonneg _).trans hT
  have n0 : (0 : ℝ) ≤ l.length := Nat.cast_nonneg _
  change (l.length + 1) * (2 * δ + 11 * f.uu) ≤ 1 / 300 at hn
  obtain ⟨E, hE⟩ : ∃ E, E = (l.length + 1) * (101 / 100 * δ + 11 * f.uu) := ⟨_, rfl⟩
  have nδ := mul_nonneg n0 δ0
  have nu := mul_nonneg n0 hu.1.le
  have hE2 : E ≤ 1 / 300 := by rw [hE]; linarith [hu.1]
  have δE : δ ≤ E := by rw [hE]; linarith [hu.1]
  have δs : δ ≤ 1 / 300 := by linarith
  obtain ⟨d1, d2⟩ := near_dir hT (by linarith)
  have sh : shifts (T :: l) = T.1.norm + shifts l := by simp [shifts]
  have sh0 : 0 ≤ shifts l := List.sum_nonneg (by simp only [List.mem_map]; rintro _ ⟨T, -, rfl⟩; exact V3.norm_nonneg _)
  have T0 := T.1.norm_nonneg
  have L0 : 0 ≤ L := by linarith
  have uL := mul_nonneg hu.1.le L0
  obtain ⟨t', s', c', r', f1, f2, f3, f4, f5, f6⟩ := chain_main hf P (E := E) (L := L) (K := l.length) L0 hL2 hE2 δ0 (by linarith [hu.1]) l T.1 T.1 T.2 (direction T.2) δ 0 0 T.1.norm
    d1 d2 (by rw [sub_self, V3.norm_zero]) le_rfl hl (by rw [hE]; linarith [hu.1]) le_rfl (by linarith) (by linarith)
    (by have := mul_nonneg (by linarith [hu.1] : 0 ≤ 26 * f.uu + 82 / 10 * E) T0; linarith)
  have rn1 : r'.norm = 1 := by rw [Quat.norm, f2, Real.sqrt_one]
  have f3' : ‖toH c' - toH r'‖ ≤ E := f3.trans (by rw [hE]; linarith [hu.1])
  have cU : UnitUpTo E c' := by
    have := abs_norm_sub_norm_le (toH c') (toH r')
    rw [norm_toH, norm_toH, rn1] at this
    exact this.trans f3'
  have cp : 0 < c'.norm := by have := (abs_le.mp cU).1; linarith
  refine ⟨(t', c'), f1, by rw [hE] at cU; exact cU, fun x => ?_⟩
  have k := Inst.dir_dist cp (by rw [rn1]; norm_num : 0 < r'.norm)
  have de : direction r' = r' := by ext <;> simp [direction, rn1]
  rw [de, rn1, div_one] at k
  have k2 := sMat_lipschitz (Inst.dir_normSq cp) f2 (k.trans (mul_le_mul_of_nonneg_left f3' (by norm_num)))
  have k3 := k2 x
  have e1 : chainMap (T :: l) x = act .quat r' x + s' := f6 x
  rw [e1]
  have e2 : Frame.map (t', c') x - (act .quat r' x + s') = ((sMat (direction c')).mulVec x - (sMat r').mulVec x) + (t' - s') := by
    change act .quat (direction c') x + t' - _ = _
    rw [act_dir, act_eq_dmat]
    change (sMat (direction c')).mulVec x + t' - ((sMat r').mulVec x + s') = _
    abel
  rw [e2]
  refine (V3.norm_add_le _ _).trans ?_
  change _ ≤ (l.length + 1) * ((44 * f.uu + 41 / 10 * δ) * x.norm + (120 * f.uu + 83 / 10 * δ) * L + 14 * f.eta)
  have x0 := x.norm_nonneg
  have a1 : 2 * (2 * E) * x.norm ≤ (l.length + 1) * ((44 * f.uu + 41 / 10 * δ) * x.norm) := by
    rw [hE, ← mul_assoc (_ + 1 : ℝ) (44 * f.uu + 41 / 10 * δ)]
    refine mul_le_mul_of_nonneg_right ?_ x0
    linarith
  have a2 : (26 * f.uu + 82 / 10 * E) * L + (0 + l.length) * (3 * f.uu * L + 14 * f.eta) ≤ (l.length + 1) * ((120 * f.uu + 83 / 10 * δ) * L + 14 * f.eta) := by
    have : (26 * f.uu + 82 / 10 * E + 3 * (l.length * f.uu)) * L ≤ ((l.length + 1) * (120 * f.uu + 83 / 10 * δ)) * L := mul_le_mul_of_nonneg_right (by rw [hE]; linarith [hu.1]) L0
    have e3 : 0 ≤ l.length * f.eta := mul_nonneg n0 he.1.le
    linarith [he.1]
  linarith

lemma chain_zero {δ : ℝ} (hδ : δ ≤ 1 / 2) (l : List Frame) : (∀ S ∈ l, UnitUpTo δ S.2) → (chainMap l 0).norm ≤ shifts l := by
  induction l with
  | nil => intro _; simp [chainMap, shifts, V3.norm_zero]
  | cons T l ih =>
    intro h
    have i := ih (fun S hS => h S (by simp [hS]))
    have n := act_norm (near_dir (h T (by simp)) hδ).1 (chainMap l 0)
    have t := V3.norm_add_le (act .quat (direction T.2) (chainMap l 0)) T.1
    have sh : shifts (T :: l) = T.1.norm + shifts l := by simp [shifts]
    change (act .quat (direction T.2) (chainMap l 0) + T.1).norm ≤ _
    linarith

/-- A chain of poses applied to a point. -/
theorem C114_chain_transform (hf : AtLeastFloat f) (P : Prec) (T : Frame) (l : List Frame) {δ L : ℝ} (hT : UnitUpTo δ T.2) (hl : ∀ S ∈ l, UnitUpTo δ S.2)
    (hn : (l.length + 1) * (2 * δ + 11 * 2⁻¹ ^ f.p) ≤ 1 / 300) (hL : shifts (T :: l) ≤ L) (hL2 : L ≤ 2 ^ (f.emax - 5)) (x : V3) (hx : x.norm ≤ 2 ^ (f.emax - 5)) :
    ∃ U : XV3 × XQuat, poseLoop f.arith P (embF T) (l.map embF) = U ∧ ∃ w, f.arith.transform P .quat U.1 U.2 (emb3 x) = emb3 w ∧
      (w - chainMap (T :: l) x).norm ≤ (l.length + 1) * ((161 * 2⁻¹ ^ f.p + 125 / 10 * δ) * x.norm + (123 * 2⁻¹ ^ f.p + 83 / 10 * δ) * L + 28 * 2 ^ (f.emin - 1)) := by
  have hu := alf_uu hf
  have he := alf_eta hf
  have hs := alf_small hf
  have big := one_le_emax (alf_ok hf)
  have e5 := emax_five (f := f)
  have b0 : (0 : ℝ) < 2 ^ (f.emax - 5) := by positivity
  have δ0 : 0 ≤ δ := (abs_nonneg _).trans hT
  have n0 : (0 : ℝ) ≤ l.length := Nat.cast_nonneg _
  obtain ⟨U, e, u1, u2⟩ := C114_chain hf P T l hT hl hn hL hL2
  change (l.length + 1) * (2 * δ + 11 * f.uu) ≤ 1 / 300 at hn
  change UnitUpTo ((l.length + 1) * (101 / 100 * δ + 11 * f.uu)) U.2 at u1
  have u3 := u2 0
  have u4 := u2 x
  change _ ≤ (l.length + 1) * ((44 * f.uu + 41 / 10 * δ) * (0 : V3).norm + (120 * f.uu + 83 / 10 * δ) * L + 14 * f.eta) at u3
  change _ ≤ (l.length + 1) * ((44 * f.uu + 41 / 10 * δ) * x.norm + (120 * f.uu + 83 / 10 * δ) * L + 14 * f.eta) at u4
  have nδ := mul_nonneg n0 δ0
  have nu := mul_nonneg n0 hu.1.le
  have nη := mul_nonneg n0 he.1.le
  have δs : δ ≤ 1 / 300 := by linarith [hu.1]
  have cz := (chain_zero (δ := δ) (by linarith) (T :: l) (fun S h => by rcases List.mem_cons.mp h with rfl | h; exacts [hT, hl S h])).trans hL
  have L0 : 0 ≤ L := (V3.norm_nonneg _).trans cz
  have x0 := x.norm_nonneg
  obtain ⟨E, hE⟩ : ∃ E, E = (l.length + 1) * (101 / 100 * δ + 11 * f.uu) := ⟨_, rfl⟩
  rw [← hE] at u1
  have hE2 : E ≤ 1 / 300 := by rw [hE]; linarith [hu.1]
  obtain ⟨d1, d2⟩ := near_dir u1 (by linarith)
  have Ue : U.map 0 = U.1 := by
    change act .quat (direction U.2) 0 + U.1 = U.1
    rw [act_dir, M3.mulVec_zero, zero_add]
  rw [Ue, V3.norm_zero, mul_zero, zero_add] at u3
  have lu : l.length * f.uu ≤ 1 / 3300 := by linarith [hu.1]
  have lη : l.length * f.eta ≤ 1 := by
    have := mul_le_mul_of_nonneg_left hs.2 n0
    linarith
  have Un : U.1.norm ≤ 104 / 100 * L + 14 * (l.length + 1) * f.eta := by
    have := V3.norm_add_le (U.1 - chainMap (T :: l) 0) (chainMap (T :: l) 0)
    rw [sub_add_cancel] at this
    have q : ((l.length + 1) * (120 * f.uu + 83 / 10 * δ)) * L ≤ 4 / 100 * L := mul_le_mul_of_nonneg_right (by linarith [hu.1]) L0
    linarith
  have eta1 : f.eta ≤ 1 := by norm_num at hs; linarith
  obtain ⟨w, -, ew, -, w1, -⟩ := C108_transform hf P U.2 (direction U.2) ((valid_quat_iff _).mpr d1) E hE2 d2 U.1 x (by linarith) (by linarith)
  change _ ≤ (26 * f.uu + 82 / 10 * E) * x.norm + 2 * f.uu * U.1.norm + 13 * f.eta at w1
  refine ⟨_, e, w, ew, ?_⟩
  have t := V3.norm_add_le (w - (act .quat (direction U.2) x + U.1)) (U.map x - chainMap (T :: l) x)
  rw [show w - (act .quat (direction U.2) x + U.1) + (U.map x - chainMap (T :: l) x) = w - chainMap (T :: l) x by unfold Frame.map; abel] at t
  change _ ≤ (l.length + 1) * ((161 * f.uu + 125 / 10 * δ) * x.norm + (123 * f.uu + 83 / 10 * δ) * L + 28 * f.eta)
  have a1 : (26 * f.uu + 82 / 10 * E) * x.norm ≤ (l.length + 1) * ((117 * f.uu + 84 / 10 * δ) * x.norm) := by
    rw [hE, ← mul_assoc (_ + 1 : ℝ) (117 * f.uu + 84 / 10 * δ)]
    refine mul_le_mul_of_nonneg_right ?_ x0
    linarith [hu.1]
  have uL := mul_nonneg hu.1.le L0
  have nuL := mul_nonneg nu L0
  have a2 : 2 * f.uu * U.1.norm ≤ 3 * (f.uu * L) + f.eta := by
    have q1 := mul_le_mul_of_nonneg_left Un (by linarith [hu.1] : 0 ≤ 2 * f.uu)
    have q2 := mul_le_mul_of_nonneg_right lu he.1.le
    have q3 := mul_le_mul_of_nonneg_right hs.1 he.1.le
    have e6 : 2 * f.uu * (104 / 100 * L + 14 * (l.length + 1) * f.eta) = 208 / 100 * (f.uu * L) + 28 * (l.length * f.uu * f.eta) + 28 * (f.uu * f.eta) := by ring
    rw [e6] at q1
    norm_num at q3
    linarith
  have e7 : (l.length + 1) * ((161 * f.uu + 125 / 10 * δ) * x.norm + (123 * f.uu + 83 / 10 * δ) * L + 28 * f.eta) =
      (l.length + 1) * ((44 * f.uu + 41 / 10 * δ) * x.norm + (120 * f.uu + 83 / 10 * δ) * L + 14 * f.eta) +
      (l.length + 1) * ((117 * f.uu + 84 / 10 * δ) * x.norm) + 3 * (f.uu * L) + 3 * (l.length * f.uu * L) + 14 * f.eta + 14 * (l.length * f.eta) := by ring
  rw [e7]; linarith [he.1]

/-- **C114 (d).** Far from the origin points are lost: with the identity as rotation and a shift by `2^(p+2)`, a point one unit from the origin goes to the origin of the
frame and comes back as the zero vector. -/
theorem C114_far (hf : AtLeastFloat f) (P : Prec) :
    f.arith.transform P .quat (emb3 ⟨2 ^ (f.p + 2), 0, 0⟩) (embQ ⟨1, 0, 0, 0⟩) (emb3 ⟨1, 0, 0⟩) = emb3 ⟨2 ^ (f.p + 2), 0, 0⟩ ∧
    f.arith.inverseTransform P .quat (emb3 ⟨2 ^ (f.p + 2), 0, 0⟩) (embQ ⟨1, 0, 0, 0⟩)
      (f.arith.transform P .quat (emb3 ⟨2 ^ (f.p + 2), 0, 0⟩) (embQ ⟨1, 0, 0, 0⟩) (emb3 ⟨1, 0, 0⟩)) = emb3 0 := by
  have hu := alf_uu hf
  have z0 : f.arith.rnd 0 = .fin 0 := f.arith.rnd_zero
  have z1 : f.arith.rnd 1 = .fin 1 := rnd_one hf (by rw [sub_self, abs_zero]; linarith [hu.1])
  have k0 := hf.emin
  have k1 := hf.emax
  have k2 := hf.p
  have ok := alf_ok hf
  have e2 : (2 : ℝ) ^ (f.p + 2) = 2 ^ ((f.p : ℤ) + 2) := by rw [← zpow_natCast]; push_cast; rfl
  have eu : (2 : ℝ) ^ (f.p + 2) * f.uu = 4 := by
    unfold uu; rw [pow_add, mul_right_comm, ← mul_pow]; norm_num
  have r2 : f.round (1 + 2 ^ (f.p + 2)) = 2 ^ (f.p + 2) := by
    have := round_near_pow ok (j := (f.p : ℤ) + 2) (x := 1 + 2 ^ (f.p + 2)) (by omega) (by rw [← e2, eu]; norm_num)
    rw [this, e2]
  have z2 : f.arith.rnd (1 + 2 ^ (f.p + 2)) = .fin (2 ^ (f.p + 2)) := by
    rw [rnd_fin ok (j := (f.p : ℤ) + 3) (by omega) (by omega), r2]
    rw [abs_of_pos (by positivity)]
    have : (2 : ℝ) ^ ((f.p : ℤ) + 3) = 2 * 2 ^ (f.p + 2) := by
      rw [e2, show (f.p : ℤ) + 3 = 1 + ((f.p : ℤ) + 2) by ring, zpow_add₀ (by norm_num)]; norm_num
    rw [this]
    have : (1 : ℝ) ≤ 2 ^ (f.p + 2) := one_le_pow₀ (by norm_num)
    linarith
  have I : f.arith.conv P .mat .quat (embQ ⟨1, 0, 0, 0⟩) = embM 1 := by
    change f.arith.matOfQuat (embQ ⟨1, 0, 0, 0⟩) = embM 1
    simp [XArith.matOfQuat, embQ, XArith.mul, XArith.add, XArith.sub, XR.neg, z0, z1, embM]
  have I' : f.arith.conv P .mat .quat (f.arith.inverted .quat (embQ ⟨1, 0, 0, 0⟩)) = embM 1 := by
    have : f.arith.inverted .quat (embQ ⟨1, 0, 0, 0⟩) = embQ ⟨1, 0, 0, 0⟩ := by
      change XArith.quatInverted _ = _
      simp [XArith.quatInverted, embQ, XR.neg]
    rw [this, I]
  have t1 : f.arith.transform P .quat (emb3 ⟨2 ^ (f.p + 2), 0, 0⟩) (embQ ⟨1, 0, 0, 0⟩) (emb3 ⟨1, 0, 0⟩) = emb3 ⟨2 ^ (f.p + 2), 0, 0⟩ := by
    unfold XArith.transform XArith.rotate
    rw [I]
    simp [XArith.mulVec, XArith.dot3, XArith.row, XArith.addV, emb3, embM, XArith.mul, XArith.add, z0, z1, z2]
  refine ⟨t1, ?_⟩
  rw [t1]
  unfold XArith.inverseTransform XArith.inverseRotate XArith.rotate
  rw [I']
  simp [XArith.mulVec, XArith.dot3, XArith.row, XArith.subV, emb3, embM, XArith.mul, XArith.add, XArith.sub, XR.neg, z0]

/-! ## `double` and `float` -/

set_option exponentiation.threshold 3000 in
/-- `double`: up to a million products of poses (renormalised quaternions, positions adding up to at most `L`). -/
theorem C114_double (P : Prec) (T : Frame) (l : List Frame) {L : ℝ} (hT : UnitUpTo (6 * 2⁻¹ ^ 53) T.2) (hl : ∀ S ∈ l, UnitUpTo (6 * 2⁻¹ ^ 53) S.2)
    (hn : l.length + 1 ≤ 10 ^ 6) (hL : shifts (T :: l) ≤ L) (hL2 : L ≤ 10 ^ 306) (x : V3) (hx : x.norm ≤ 10 ^ 306) :
    ∃ U : XV3 × XQuat, poseLoop Format.double.arith P (embF T) (l.map embF) = U ∧ ∃ w, Format.double.arith.transform P .quat U.1 U.2 (emb3 x) = emb3 w ∧
      (w - chainMap (T :: l) x).norm ≤ (l.length + 1) * (3 / 10 ^ 14 * x.norm + 2 / 10 ^ 14 * L + 1 / 10 ^ 320) := by
  have hn' : (l.length : ℝ) + 1 ≤ 10 ^ 6 := by exact_mod_cast hn
  have n0 : (0 : ℝ) ≤ l.length := Nat.cast_nonneg _
  have L0 : 0 ≤ L := ((V3.norm_nonneg _).trans (chain_zero (δ := 6 * 2⁻¹ ^ 53) (by norm_num) (T :: l)
    (fun S h => by rcases List.mem_cons.mp h with rfl | h; exacts [hT, hl S h]))).trans hL
  obtain ⟨U, e, w, ew, w1⟩ := C114_chain_transform double_alf P T l hT hl (by
      have : (2 * (6 * 2⁻¹ ^ 53) + 11 * 2⁻¹ ^ Format.double.p : ℝ) ≤ 1 / (300 * 10 ^ 6) := by norm_num [Format.double]
      have := mul_le_mul hn' this (by positivity) (by norm_num)
      refine this.trans (by norm_num)) hL (hL2.trans (by norm_num [Format.double])) x (hx.trans (by norm_num [Format.double]))
  refine ⟨U, e, w, ew, w1.trans (mul_le_mul_of_nonneg_left ?_ (by linarith))⟩
  have a1 : (161 * 2⁻¹ ^ Format.double.p + 125 / 10 * (6 * 2⁻¹ ^ 53) : ℝ) ≤ 3 / 10 ^ 14 := by norm_num [Format.double]
  have a2 : (123 * 2⁻¹ ^ Format.double.p + 83 / 10 * (6 * 2⁻¹ ^ 53) : ℝ) ≤ 2 / 10 ^ 14 := by norm_num [Format.double]
  have a3 : (28 * 2 ^ (Format.double.emin - 1) : ℝ) ≤ 1 / 10 ^ 320 := by norm_num [Format.double]
  have b1 := mul_le_mul_of_nonneg_right a1 x.norm_nonneg
  have b2 := mul_le_mul_of_nonneg_right a2 L0
  linarith

set_option exponentiation.threshold 3000 in
/-- `float`: up to five hundred products of poses (renormalised quaternions, positions adding up to at most `L`). -/
theorem C114_float (P : Prec) (T : Frame) (l : List Frame) {L : ℝ} (hT : UnitUpTo (6 * 2⁻¹ ^ 24) T.2) (hl : ∀ S ∈ l, UnitUpTo (6 * 2⁻¹ ^ 24) S.2)
    (hn : l.length + 1 ≤ 500) (hL : shifts (T :: l) ≤ L) (hL2 : L ≤ 10 ^ 36) (x : V3) (hx : x.norm ≤ 10 ^ 36) :
    ∃ U : XV3 × XQuat, poseLoop Format.float.arith P (embF T) (l.map embF) = U ∧ ∃ w, Format.float.arith.transform P .quat U.1 U.2 (emb3 x) = emb3 w ∧
      (w - chainMap (T :: l) x).norm ≤ (l.length + 1) * (2 / 10 ^ 5 * x.norm + 2 / 10 ^ 5 * L + 1 / 10 ^ 42) := by
  have hn' : (l.length : ℝ) + 1 ≤ 500 := by exact_mod_cast hn
  have n0 : (0 : ℝ) ≤ l.length := Nat.cast_nonneg _
  have L0 : 0 ≤ L := ((V3.norm_nonneg _).trans (chain_zero (δ := 6 * 2⁻¹ ^ 24) (by norm_num) (T :: l)
    (fun S h => by rcases List.mem_cons.mp h with rfl | h; exacts [hT, hl S h]))).trans hL
  obtain ⟨U, e, w, ew, w1⟩ := C114_chain_transform float_alf P T l hT hl (by
      have : (2 * (6 * 2⁻¹ ^ 24) + 11 * 2⁻¹ ^ Format.float.p : ℝ) ≤ 1 / (300 * 500) := by norm_num [Format.float]
      have := mul_le_mul hn' this (by positivity) (by norm_num)
      refine this.trans (by norm_num)) hL (hL2.trans (by norm_num [Format.float])) x (hx.trans (by norm_num [Format.float]))
  refine ⟨U, e, w, ew, w1.trans (mul_le_mul_of_nonneg_left ?_ (by linarith))⟩
  have a1 : (161 * 2⁻¹ ^ Format.float.p + 125 / 10 * (6 * 2⁻¹ ^ 24) : ℝ) ≤ 2 / 10 ^ 5 := by norm_num [Format.float]
  have a2 : (123 * 2⁻¹ ^ Format.float.p + 83 / 10 * (6 * 2⁻¹ ^ 24) : ℝ) ≤ 2 / 10 ^ 5 := by norm_num [Format.float]
  have a3 : (28 * 2 ^ (Format.float.emin - 1) : ℝ) ≤ 1 / 10 ^ 42 := by norm_num [Format.float]
  have b1 := mul_le_mul_of_nonneg_right a1 x.norm_nonneg
  have b2 := mul_le_mul_of_nonneg_right a2 L0
  linarith

/-- The hypotheses are met by a pose turned by 120° and shifted, after C108/C113 with the length error of a renormalised quaternion. -/
theorem C114_example : UnitUpTo (6 * 2⁻¹ ^ 53) (⟨1 / 2, 1 / 2, 1 / 2, 1 / 2⟩ : Quat) ∧ shifts [(⟨1, 0, 0⟩, ⟨1 / 2, 1 / 2, 1 / 2, 1 / 2⟩), (⟨0, 2, 0⟩, ⟨1, 0, 0, 0⟩)] = 3 ∧
    chainMap [(⟨1, 0, 0⟩, ⟨1 / 2, 1 / 2, 1 / 2, 1 / 2⟩), (⟨0, 2, 0⟩, ⟨1, 0, 0, 0⟩)] ⟨0, 0, 5⟩ = ⟨6, 0, 2⟩ := by
  have n1 : (⟨1 / 2, 1 / 2, 1 / 2, 1 / 2⟩ : Quat).norm = 1 := by rw [Quat.norm, Quat.normSq, Real.sqrt_eq_one]; norm_num
  have n2 : (⟨1, 0, 0, 0⟩ : Quat).norm = 1 := by rw [Quat.norm, Quat.normSq, Real.sqrt_eq_one]; norm_num
  have d1 : direction ⟨1 / 2, 1 / 2, 1 / 2, 1 / 2⟩ = ⟨1 / 2, 1 / 2, 1 / 2, 1 / 2⟩ := by ext <;> (simp only [direction, n1]; norm_num)
  have d2 : direction ⟨1, 0, 0, 0⟩ = ⟨1, 0, 0, 0⟩ := by ext <;> (simp only [direction, n2]; norm_num)
  refine ⟨by unfold UnitUpTo; rw [n1]; norm_num, ?_, ?_⟩
  · have h1 : (⟨1, 0, 0⟩ : V3).norm = 1 := by rw [V3.norm, V3.normSq, V3.dot, Real.sqrt_eq_one]; norm_num
    have h2 : (⟨0, 2, 0⟩ : V3).norm = 2 := by
      rw [V3.norm, V3.normSq, V3.dot, Real.sqrt_eq_iff_mul_self_eq (by norm_num) (by norm_num)]; norm_num
    simp only [shifts, List.map_cons, List.map_nil, h1, h2, List.sum_cons, List.sum_nil]; norm_num
  · simp only [chainMap, Frame.map, d1, d2, act_eq_dmat]
    change (sMat _).mulVec ((sMat _).mulVec _ + _) + _ = _
    ext <;> norm_num [sMat, M3.mulVec]

end Format
end Kindr
