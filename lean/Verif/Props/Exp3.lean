import Verif.Props.Exp2

/-!
# C109: the exponential map and boxPlus integration in IEEE arithmetic
-/

set_option autoImplicit false

open Classical

noncomputable section
namespace Kindr
open Spec
namespace Format
variable {f : Format}

/-- The exact unit quaternion as a stored value. -/
def expQ (r : V3) : Quat :=
  ⟨Real.cos (r.norm / 2), Real.sin (r.norm / 2) / r.norm * r.x, Real.sin (r.norm / 2) / r.norm * r.y, Real.sin (r.norm / 2) / r.norm * r.z⟩

lemma toH_expQ (r : V3) : toH (expQ r) = expH r := rfl

lemma expQ_valid (r : V3) : (expQ r).normSq = 1 := by
  have h := Real.sin_sq_add_cos_sq (r.norm / 2)
  have h2 : r.norm ^ 2 = r.x ^ 2 + r.y ^ 2 + r.z ^ 2 := by rw [V3.norm_sq]; simp only [V3.normSq, V3.dot]; ring
  simp only [expQ, Quat.normSq]
  by_cases h0 : r.norm = 0
  · rw [h0] at h ⊢; simp
  · obtain ⟨k, hk⟩ : ∃ k, k = Real.sin (r.norm / 2) / r.norm := ⟨_, rfl⟩
    have : k * r.norm = Real.sin (r.norm / 2) := by rw [hk]; field_simp
    rw [← hk]
    rw [← this] at h
    linear_combination h - k ^ 2 * h2

lemma expH_norm (r : V3) : ‖expH r‖ = 1 := by
  rw [← toH_expQ, norm_toH, Quat.norm, expQ_valid, Real.sqrt_one]

lemma sMat_expQ (r : V3) : sMat (expQ r) = dmat .rv (⟨r⟩ : RotVec) := by
  simp only [dmat]
  by_cases h0 : r.norm = 0
  · rw [if_pos h0]
    have : expQ r = 1 := by ext <;> simp [expQ, h0]
    rw [this, sMat_one]
  · rw [if_neg h0, ← sMat_ofAngleAxis]
    · congr 1
      have e : r.norm / 2 = 1 / 2 * r.norm := by ring
      ext <;> simp [expQ, Quat.ofAngleAxis, e] <;> field_simp
    · have h2 := V3.norm_sq r
      simp only [V3.normSq, V3.dot] at h2
      simp only [V3.normSq, V3.dot, V3.smul_x, V3.smul_y, V3.smul_z]
      have : (r.norm⁻¹) ^ 2 * r.norm ^ 2 = 1 := by field_simp
      rw [one_div]
      linear_combination this - r.norm⁻¹ ^ 2 * h2

/-- The reference quaternion is the unit quaternion of the rotation by the angle `|r|` about the axis `r`. -/
theorem C109_reference (r : V3) : ∃ q : Rep .quat, toH q = expH r ∧ Valid .quat q ∧ ∀ v, act .quat q v = act .rv (⟨r⟩ : RotVec) v :=
  ⟨expQ r, rfl, (valid_quat_iff _).mpr (expQ_valid r), fun v => by
    rw [act_eq_dmat, act_eq_dmat, ← sMat_expQ]; rfl⟩

lemma norm_le_parts {p : Quaternion ℝ} {w : ℝ} {v : V3} (hw : |p.re| ≤ w) (hv : (⟨p.imI, p.imJ, p.imK⟩ : V3).norm ≤ v.norm) : ‖p‖ ≤ w + v.norm := by
  have w0 := (abs_nonneg _).trans hw
  have v0 := v.norm_nonneg
  have h1 : ‖p‖ ^ 2 = p.re ^ 2 + (⟨p.imI, p.imJ, p.imK⟩ : V3).norm ^ 2 := by
    rw [sq, ← Quaternion.normSq_eq_norm_mul_self, Quaternion.normSq_def', V3.norm_sq]; simp only [V3.normSq, V3.dot]; ring
  refine abs_le_of_sq_le_sq' ?_ (by linarith) |>.2
  rw [h1, ← sq_abs p.re]
  have := pow_le_pow_left₀ (abs_nonneg _) hw 2
  have := pow_le_pow_left₀ (V3.norm_nonneg _) hv 2
  nlinarith [mul_nonneg w0 v0]

lemma exp_close (h : Standard f) {P : Prec} (hP : P.eps = 2 * f.uu) {r : V3} (hr : r.norm ≤ 2 ^ 20) :
    ∃ q, f.arith.quatOfRv P (emb3 r) = embQ q ∧ ‖toH q - expH r‖ ≤ (11 / 10 + 9 * r.norm) * f.uu ∧
      |q.x - (expH r).imI| ≤ 7 * f.uu * |r.x| + f.eta ∧ |q.y - (expH r).imJ| ≤ 7 * f.uu * |r.y| + f.eta ∧ |q.z - (expH r).imK| ≤ 7 * f.uu * |r.z| + f.eta := by
  have hf := h.toAtLeastFloat
  have hu := alf_uu hf
  have he := alf_eta hf
  obtain ⟨q, e, ew, ex, ey, ez⟩ := quatOfRv_range h hP hr
  have kx := mul_nonneg hu.1.le (abs_nonneg r.x)
  have ky := mul_nonneg hu.1.le (abs_nonneg r.y)
  have kz := mul_nonneg hu.1.le (abs_nonneg r.z)
  refine ⟨q, e, ?_, ex.trans (by linarith), ey.trans (by linarith), ez.trans (by linarith)⟩
  have N0 := r.norm_nonneg
  have uN := mul_nonneg hu.1.le N0
  have hη : f.eta ≤ f.uu / 1000 := he.2.trans (by have := hu.1; rw [div_le_div_iff₀ (by positivity) (by norm_num)]; nlinarith)
  have vp : (⟨q.x - (expH r).imI, q.y - (expH r).imJ, q.z - (expH r).imK⟩ : V3).norm ≤ 62 / 10 * (f.uu * r.norm) + 2 * f.eta := by
    refine abs_le_of_sq_le_sq' ?_ (by linarith [he.1]) |>.2
    rw [V3.norm_sq]
    simp only [V3.normSq, V3.dot]
    have sx := mul_self_le_mul_self (abs_nonneg _) ex
    have sy := mul_self_le_mul_self (abs_nonneg _) ey
    have sz := mul_self_le_mul_self (abs_nonneg _) ez
    simp only [abs_mul_abs_self] at sx sy sz
    have hn : r.norm ^ 2 = |r.x| ^ 2 + |r.y| ^ 2 + |r.z| ^ 2 := by rw [V3.norm_sq]; simp only [sq_abs, V3.normSq, V3.dot]; ring
    obtain ⟨N, hN⟩ : ∃ N, N = r.norm := ⟨_, rfl⟩
    have hs : |r.x| + |r.y| + |r.z| ≤ 2 * r.norm := by
      refine abs_le_of_sq_le_sq' ?_ (by linarith) |>.2
      nlinarith [sq_nonneg (|r.x| - |r.y|), sq_nonneg (|r.x| - |r.z|), sq_nonneg (|r.y| - |r.z|)]
    have k1 : (62 / 10 * (f.uu * |r.x|) + f.eta) * (62 / 10 * (f.uu * |r.x|) + f.eta) + (62 / 10 * (f.uu * |r.y|) + f.eta) * (62 / 10 * (f.uu * |r.y|) + f.eta)
        + (62 / 10 * (f.uu * |r.z|) + f.eta) * (62 / 10 * (f.uu * |r.z|) + f.eta) =
        (62 / 10 * f.uu) ^ 2 * r.norm ^ 2 + 2 * (62 / 10) * f.uu * f.eta * (|r.x| + |r.y| + |r.z|) + 3 * f.eta ^ 2 := by rw [hn]; ring
    have k2 : 2 * (62 / 10) * f.uu * f.eta * (|r.x| + |r.y| + |r.z|) ≤ 2 * (62 / 10) * f.uu * f.eta * (2 * r.norm) :=
      mul_le_mul_of_nonneg_left hs (by have := mul_pos hu.1 he.1; nlinarith)
    have k3 := sq_nonneg f.eta
    have e1 : (expH r).imI = Real.sin (r.norm / 2) / r.norm * r.x := rfl
    have e2 : (expH r).imJ = Real.sin (r.norm / 2) / r.norm * r.y := rfl
    have e3 : (expH r).imK = Real.sin (r.norm / 2) / r.norm * r.z := rfl
    rw [e1, e2, e3]
    have k4 : (62 / 10 * (f.uu * r.norm) + 2 * f.eta) ^ 2 =
        (62 / 10 * f.uu) ^ 2 * r.norm ^ 2 + 2 * (62 / 10) * f.uu * f.eta * (2 * r.norm) + 4 * f.eta ^ 2 := by ring
    rw [k4]
    linarith
  obtain ⟨m, hm⟩ : ∃ m, m = 62 / 10 * (f.uu * r.norm) + 2 * f.eta := ⟨_, rfl⟩
  rw [← hm] at vp
  have m0 := (V3.norm_nonneg _).trans vp
  have nm : (⟨m, 0, 0⟩ : V3).norm = m := by
    rw [V3.norm, V3.normSq, V3.dot]; simp [Real.sqrt_mul_self m0]
  have := norm_le_parts (p := toH q - expH r) (v := ⟨m, 0, 0⟩) ew (by rw [nm]; exact vp)
  rw [nm, hm] at this
  linarith

/-- **C109 (a).** The exponential map in IEEE arithmetic, for every rotation vector up to a million radians, with underflow: the quaternion is finite,
within a few roundings of the exact unit quaternion, and every coefficient of its vector part is accurate relative to the corresponding coefficient of
the rotation vector, up to the smallest number. -/
theorem C109_exp (h : Standard f) (P : Prec) (hP : P.eps = 2 * 2⁻¹ ^ f.p) (r : V3) (hr : r.norm ≤ 2 ^ 20) :
    ∃ q, f.arith.exponentialMap P .quat (emb3 r) = embQ q ∧ ‖toH q - expH r‖ ≤ (11 / 10 + 9 * r.norm) * 2⁻¹ ^ f.p ∧
      |q.x - (expH r).imI| ≤ 7 * 2⁻¹ ^ f.p * |r.x| + 2 ^ (f.emin - 1) ∧ |q.y - (expH r).imJ| ≤ 7 * 2⁻¹ ^ f.p * |r.y| + 2 ^ (f.emin - 1) ∧
      |q.z - (expH r).imK| ≤ 7 * 2⁻¹ ^ f.p * |r.z| + 2 ^ (f.emin - 1) := exp_close h hP hr

/-! ## Integration -/

lemma exactIntegral_cons (q : Quaternion ℝ) (w : V3) (l : List V3) : exactIntegral q (w :: l) = exactIntegral (expH w * q) l := rfl

lemma exactIntegral_sub (l : List V3) : ∀ a b : Quaternion ℝ, ‖exactIntegral a l - exactIntegral b l‖ = ‖a - b‖ := by
  induction l with
  | nil => intro a b; rfl
  | cons w l ih => intro a b; rw [exactIntegral_cons, exactIntegral_cons, ih, ← mul_sub, norm_mul, expH_norm, one_mul]

/-- The computed exponential has moderate length, and its direction is near the exact quaternion. -/
lemma exp_moderate (h : Standard f) {q : Quat} {r : V3} (hr : r.norm ≤ 2 ^ 20) (hq : ‖toH q - expH r‖ ≤ (11 / 10 + 9 * r.norm) * f.uu) :
    Moderate q ∧ ‖dirH q - expH r‖ ≤ (22 / 10 + 18 * r.norm) * f.uu := by
  have hf := h.toAtLeastFloat
  have hu := alf_uu hf
  have N0 := r.norm_nonneg
  have small : (11 / 10 + 9 * r.norm) * f.uu ≤ 3 / 4 := by
    calc (11 / 10 + 9 * r.norm) * f.uu ≤ (11 / 10 + 9 * 2 ^ 20) * (1 / 2 ^ 24) := mul_le_mul (by linarith) hu.2 hu.1.le (by norm_num)
      _ ≤ _ := by norm_num
  have k := (abs_norm_sub_norm_le (toH q) (expH r)).trans hq
  rw [expH_norm, norm_toH] at k
  obtain ⟨k1, k2⟩ := abs_le.mp k
  refine ⟨⟨by norm_num; linarith, by norm_num; linarith⟩, ?_⟩
  have hne : expH r ≠ 0 := by rw [← norm_ne_zero_iff, expH_norm]; norm_num
  have := dir_diff (toH q) (expH r) hne
  rw [expH_norm, inv_one, one_smul, div_one] at this
  unfold dirH
  linarith

lemma integrate_main (h : Standard f) {P : Prec} (hP : P.eps = 2 * f.uu) : ∀ (l : List V3) (a : Quat), Moderate a → (∀ w ∈ l, w.norm ≤ 2 ^ 20) →
    ∃ c, boxPlusFixLoop f.arith P (embQ a) (l.map emb3) = embQ c ∧ Moderate c ∧ (|a.norm - 1| ≤ 6 * f.uu ∨ l ≠ [] → |c.norm - 1| ≤ 6 * f.uu) ∧
      ‖dirH c - exactIntegral (dirH a) l‖ ≤ (36 * l.length + 18 * totalAngle l) * f.uu := by
  have hf := h.toAtLeastFloat
  have hu := alf_uu hf
  intro l
  induction l with
  | nil => intro a ha _; exact ⟨a, rfl, ha, by simp, by simp [exactIntegral, totalAngle]⟩
  | cons w l ih =>
    intro a ha hl
    have hw := hl w (by simp)
    obtain ⟨e, e1, e2, -⟩ := exp_close h hP hw
    obtain ⟨me, de⟩ := exp_moderate h hw e2
    obtain ⟨b, s1, s2, s3, s4⟩ := fixed_step hf P me ha
    obtain ⟨c, i1, i2, i3, i4⟩ := ih b s3 (fun q hq => hl q (by simp [hq]))
    refine ⟨c, ?_, i2, fun _ => i3 (Or.inl s2), ?_⟩
    · rw [List.map_cons, ← i1, ← s1, ← e1]; rfl
    · have e3 := exactIntegral_sub l (dirH b) (expH w * dirH a)
      have t1 : ‖dirH b - dirH e * dirH a‖ ≤ 33 * f.uu := by
        have h1 := norm_sub_le_norm_sub_add_norm_sub (dirH b) (toH b) (dirH e * dirH a)
        rw [norm_sub_rev (dirH b) (toH b), dir_self s3] at h1
        linarith
      have t2 : ‖dirH e * dirH a - expH w * dirH a‖ ≤ (22 / 10 + 18 * w.norm) * f.uu := by
        rw [← sub_mul, norm_mul, dirH_norm (moderate_ne ha), mul_one]; exact de
      have t3 := norm_sub_le_norm_sub_add_norm_sub (dirH b) (dirH e * dirH a) (expH w * dirH a)
      have t4 := norm_sub_le_norm_sub_add_norm_sub (dirH c) (exactIntegral (dirH b) l) (exactIntegral (dirH a) (w :: l))
      rw [exactIntegral_cons, e3] at t4
      have tt : totalAngle (w :: l) = w.norm + totalAngle l := by simp [totalAngle]
      rw [tt, exactIntegral_cons]
      push_cast [List.length_cons]
      linarith

lemma dbg_near_one (hf : AtLeastFloat f) {c : Quat} (h5 : |c.norm - 1| ≤ 6 * f.uu) : f.arith.quatCtorDbg (embQ c) = .ok (embQ c) := by
  have hu := alf_uu hf
  have u1 : f.uu ≤ 1 / 10 ^ 7 := by have := hu.2; norm_num at this ⊢; linarith
  obtain ⟨a1, a2⟩ := abs_le.mp h5
  obtain ⟨N, k1, k2⟩ := quatNorm_err (alf_ok hf) hf.p (q := c) (n := c.norm) (Real.sqrt_nonneg _) (quat_norm_eq c) (by linarith) (by linarith)
  obtain ⟨b1, b2⟩ := abs_le.mp k2
  exact (dbg_check (alf_ok hf) hf.p k1 (by linarith) (by linarith)).1 (by rw [abs_le]; constructor <;> linarith)

/-- **C109 (b).** The integration loop `q = q.boxPlus(wᵢ); q.fix();` in IEEE arithmetic, with underflow, for a start value of any moderate length and any
number of increments up to a million radians each, however small: all coefficients stay finite, the length stays within six roundings of one, the debug
build accepts the value, and the distance to the exact composition is at most `36 n + 18 A + 6` roundings, where `A` is the total angle. -/
theorem C109_integrate (h : Standard f) (P : Prec) (hP : P.eps = 2 * 2⁻¹ ^ f.p) (q : Quat) (l : List V3) (hq : Moderate q)
    (hl : ∀ w ∈ l, w.norm ≤ 2 ^ 20) (hne : l ≠ []) :
    ∃ c, boxPlusFixLoop f.arith P (embQ q) (l.map emb3) = embQ c ∧ |c.norm - 1| ≤ 6 * 2⁻¹ ^ f.p ∧ f.arith.quatCtorDbg (embQ c) = .ok (embQ c) ∧
      ‖toH c - exactIntegral (dirH q) l‖ ≤ (36 * l.length + 18 * totalAngle l + 6) * 2⁻¹ ^ f.p := by
  obtain ⟨c, h1, h2, h3, h4⟩ := integrate_main h hP l q hq hl
  have h5 := h3 (Or.inr hne)
  refine ⟨c, h1, h5, dbg_near_one h.toAtLeastFloat h5, ?_⟩
  have h6 := norm_sub_le_norm_sub_add_norm_sub (toH c) (dirH c) (exactIntegral (dirH q) l)
  rw [dir_self h2] at h6
  change _ ≤ _ * f.uu
  linarith

/-- The exact composition as a stored value: it is a unit quaternion and acts by rotating successively. -/
lemma integral_quat (l : List V3) : ∀ q : Quat, Valid .quat q →
    ∃ r : Quat, toH r = exactIntegral (toH q) l ∧ Valid .quat r ∧ ∀ v, act .quat r v = l.foldl (fun x w => act .rv (⟨w⟩ : RotVec) x) (act .quat q v) := by
  induction l with
  | nil => intro q hq; exact ⟨q, rfl, hq, fun v => rfl⟩
  | cons w l ih =>
    intro q hq
    have hv : Valid .quat (expQ w * q : Quat) := by
      have h1 := (valid_quat_iff q).mp hq
      refine (valid_quat_iff _).mpr ?_
      have : (expQ w * q).normSq = (expQ w).normSq * q.normSq := by simp [Quat.normSq]; ring
      rw [this, expQ_valid, h1, one_mul]
    obtain ⟨r, r1, r2, r3⟩ := ih (expQ w * q) hv
    refine ⟨r, by rw [r1, exactIntegral_cons, toH_mul]; rfl, r2, fun v => ?_⟩
    rw [r3 v, List.foldl_cons]
    congr 1
    rw [act_eq_dmat, act_eq_dmat, act_eq_dmat, ← sMat_expQ, M3.mulVec_mulVec]
    congr 1
    exact sMat_mul _ _

/-- **C109 (c).** What the integrated orientation does to vectors: rotating a vector by the result of the loop gives, up to the stated number of
roundings relative to the length of the vector, the vector rotated by the start orientation and then by every increment in turn. -/
theorem C109_rotate (h : Standard f) (P : Prec) (hP : P.eps = 2 * 2⁻¹ ^ f.p) (q : Rep .quat) (l : List V3) (hq : Valid .quat q)
    (hl : ∀ w ∈ l, w.norm ≤ 2 ^ 20) (hne : l ≠ []) (hbud : (36 * l.length + 18 * totalAngle l + 6) * 2⁻¹ ^ f.p ≤ 1 / 300)
    (v : V3) (hn : 2 ^ (f.emin + f.p - 1) ≤ v.norm) (hv : v.norm ≤ 2 ^ (f.emax - 3)) :
    ∃ w, f.arith.rotate P .quat (boxPlusFixLoop f.arith P (embQ q) (l.map emb3)) (emb3 v) = emb3 w ∧
      (w - l.foldl (fun x r => act .rv (⟨r⟩ : RotVec) x) (act .quat q v)).norm ≤ (300 * l.length + 150 * totalAngle l + 84) * 2⁻¹ ^ f.p * v.norm ∧
      |w.norm - v.norm| ≤ 84 * 2⁻¹ ^ f.p * v.norm := by
  have hf := h.toAtLeastFloat
  have hs := alf_small hf
  have hu := alf_uu hf
  have q1 := (valid_quat_iff q).mp hq
  have qn : Quat.norm q = 1 := by rw [Quat.norm, q1, Real.sqrt_one]
  have dq : dirH q = toH q := by rw [dirH, norm_toH, qn, inv_one, one_smul]
  have mq : Moderate q := by rw [Moderate, qn]; norm_num
  obtain ⟨c, h1, h2, -, h4⟩ := C109_integrate h P hP q l mq hl hne
  rw [dq] at h4
  obtain ⟨r, r1, r2, r3⟩ := integral_quat l q hq
  rw [← r1] at h4
  have v0 := v.norm_nonneg
  change _ ≤ 6 * f.uu at h2
  change _ ≤ _ * f.uu at h4
  change _ * f.uu ≤ _ at hbud
  obtain ⟨w, w1, w2, -⟩ := C108_rotate_normal hf P c r r2 _ hbud h4 v hn hv
  obtain ⟨s, s1, s2, -⟩ := near_unit h2 (by linarith)
  obtain ⟨w', w1', -, w3'⟩ := C108_rotate_normal hf P c s s1 (6 * f.uu) (by linarith) s2 v hn hv
  have ww : w' = w := by
    have := w1'.symm.trans w1
    simp only [emb3, XV3.mk.injEq, XR.fin.injEq] at this
    ext
    · exact this.1
    · exact this.2.1
    · exact this.2.2
  subst ww
  have t0 : 0 ≤ totalAngle l := List.sum_nonneg (by simp only [List.mem_map, forall_exists_index, and_imp, forall_apply_eq_imp_iff₂]; exact fun a _ => a.norm_nonneg)
  have n0 : (0 : ℝ) ≤ l.length := Nat.cast_nonneg _
  have tu := mul_nonneg (mul_nonneg t0 hu.1.le) v0
  have nu := mul_nonneg (mul_nonneg n0 hu.1.le) v0
  have uv := mul_nonneg hu.1.le v0
  refine ⟨w', by rw [h1]; exact w1, ?_, ?_⟩
  · rw [← r3 v]
    change _ ≤ _ * f.uu * _
    change _ ≤ (35 * f.uu + _) * _ at w2
    linarith
  · change _ ≤ 84 * f.uu * _
    change _ ≤ (35 * f.uu + _) * _ at w3'
    linarith

end Format
end Kindr
