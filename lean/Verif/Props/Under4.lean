import Verif.Props.Under3
import Verif.Props.FloatMat

/-!
# Rotating vectors with gradual underflow and overflow
-/

set_option autoImplicit false

open Classical

noncomputable section
namespace Kindr
open Spec

/-- A doubled product. -/
lemma Rn.twice {R : ℝ → ℝ} {u η : ℝ} (h : Rn R u η) {a b : ℝ} (hb : |b| ≤ 102 / 100) :
    |R (R (2 * a) * b) - 2 * a * b| ≤ 401 / 100 * (u * (|a| * |b|)) + 21 / 10 * η ∧ |R (2 * a) * b| ≤ 3 * (|a| * |b|) + 2 * η := by
  have u0 := h.u0; have u1 := h.u1; have e0 := h.e0
  have p0 : 0 ≤ |a| * |b| := by positivity
  have up : u * (|a| * |b|) ≤ 1 / 256 * (|a| * |b|) := mul_le_mul_of_nonneg_right u1 p0
  have up0 : 0 ≤ u * (|a| * |b|) := by positivity
  have uup : u * (u * (|a| * |b|)) ≤ 1 / 256 * (u * (|a| * |b|)) := mul_le_mul_of_nonneg_right u1 (by positivity)
  have uη : u * η ≤ 1 / 256 * η := mul_le_mul_of_nonneg_right u1 e0
  have h1 := h.err (2 * a)
  have h2 : |R (2 * a) * b - 2 * a * b| ≤ 2 * (u * (|a| * |b|)) + 102 / 100 * η := by
    rw [← sub_mul, abs_mul]
    refine (mul_le_mul_of_nonneg_right h1 (abs_nonneg b)).trans ?_
    rw [abs_mul, abs_two]
    have := mul_le_mul_of_nonneg_left hb e0
    linarith
  have h3 : |2 * a * b| ≤ 2 * (|a| * |b|) := by rw [abs_mul, abs_mul, abs_two, mul_assoc]
  refine ⟨(h.step h2 h3).trans ?_, (h.le_of h2 h3).trans (by linarith)⟩
  have : u * (2 * (|a| * |b|) + (2 * (u * (|a| * |b|)) + 102 / 100 * η)) = 2 * (u * (|a| * |b|)) + 2 * (u * (u * (|a| * |b|))) + 102 / 100 * (u * η) := by ring
  rw [this]; linarith

namespace Format
variable {f : Format}

/-- `2 a b` in the format. -/
def tt (f : Format) (a b : ℝ) : ℝ := f.round (f.round (2 * a) * b)

lemma small_fin (hf : AtLeastFloat f) {x : ℝ} (h : |x| ≤ 100) : f.arith.rnd x = .fin (f.round x) :=
  fin_of (alf_ok hf) (h.trans (by
    rw [pow_emax]
    have := (alf_pow hf).2
    have h8 : (100 : ℝ) ≤ 2 ^ 120 := by norm_num
    linarith))

lemma alf_small (hf : AtLeastFloat f) : f.uu ≤ 1 / 10 ^ 6 ∧ f.eta ≤ f.uu / 1000 := by
  have hu := alf_uu hf
  have he := alf_eta hf
  constructor
  · have := hu.2; norm_num at this ⊢; linarith
  · refine he.2.trans ?_
    rw [div_eq_mul_inv, div_eq_mul_inv]
    exact mul_le_mul_of_nonneg_left (by norm_num) hu.1.le

lemma tt_fin (hf : AtLeastFloat f) {a b : ℝ} (ha : |a| ≤ 102 / 100) (hb : |b| ≤ 102 / 100) :
    f.arith.mul (f.arith.mul (.fin 2) (.fin a)) (.fin b) = .fin (f.tt a b) ∧
    |f.tt a b - 2 * a * b| ≤ 402 / 100 * (f.uu * (|a| * |b|)) + 3 * f.eta := by
  obtain ⟨h1, h2⟩ := (rn (alf_ok hf)).twice (a := a) hb
  have hs := alf_small hf
  have p1 : |a| * |b| ≤ 102 / 100 * (102 / 100) := mul_le_mul ha hb (abs_nonneg _) (by norm_num)
  constructor
  · change f.arith.mul (f.arith.rnd (2 * a)) _ = _
    rw [small_fin hf (by rw [abs_mul, abs_two]; linarith)]
    change f.arith.rnd _ = _
    rw [small_fin hf (by linarith)]; rfl
  · have : 0 ≤ f.uu * (|a| * |b|) := mul_nonneg (alf_uu hf).1.le (by positivity)
    have := (alf_eta hf).1
    change |f.tt a b - 2 * a * b| ≤ _ at h1
    linarith

lemma half_prod (a b c d : ℝ) (h : a * a + b * b + c * c + d * d ≤ 103 / 100) : |a| * |b| + |c| * |d| ≤ 515 / 1000 := by
  have := two_abs_mul_le a b; have := two_abs_mul_le c d; linarith

lemma comp_bound {a : ℝ} (h : a * a ≤ 103 / 100) : |a| ≤ 102 / 100 := by
  apply abs_le_of_sq_le_sq _ (by norm_num); nlinarith

lemma off_entry (hf : AtLeastFloat f) (a b c d : ℝ) (h : a * a + b * b + c * c + d * d ≤ 103 / 100) :
    (∃ e, f.arith.add (f.arith.mul (f.arith.mul (.fin 2) (.fin a)) (.fin b)) (f.arith.mul (f.arith.mul (.fin 2) (.fin c)) (.fin d)) = .fin e ∧
      |e - (2 * a * b + 2 * c * d)| ≤ 32 / 10 * f.uu) ∧
    (∃ e, f.arith.sub (f.arith.mul (f.arith.mul (.fin 2) (.fin a)) (.fin b)) (f.arith.mul (f.arith.mul (.fin 2) (.fin c)) (.fin d)) = .fin e ∧
      |e - (2 * a * b - 2 * c * d)| ≤ 32 / 10 * f.uu) := by
  have nn := mul_self_nonneg (R := ℝ)
  have ba := comp_bound (a := a) (by linarith [nn b, nn c, nn d])
  have bb := comp_bound (a := b) (by linarith [nn a, nn c, nn d])
  have bc := comp_bound (a := c) (by linarith [nn b, nn a, nn d])
  have bd := comp_bound (a := d) (by linarith [nn b, nn c, nn a])
  obtain ⟨e1, e2⟩ := tt_fin hf ba bb
  obtain ⟨e3, e4⟩ := tt_fin hf bc bd
  have hs := alf_small hf
  have hu := alf_uu hf
  have he := alf_eta hf
  have hr := rn (alf_ok hf)
  have hp := half_prod a b c d h
  have hup := mul_le_mul_of_nonneg_left hp hu.1.le
  have B : ∀ s : ℝ, |s| = 1 → |2 * a * b + s * (2 * c * d)| ≤ 103 / 100 := fun s hs => by
    refine (abs_add_le _ _).trans ?_
    rw [abs_mul s, hs, one_mul, abs_mul, abs_mul, abs_two, abs_mul (2 * c), abs_mul 2 c, abs_two]; linarith
  have key : ∀ s : ℝ, |s| = 1 → f.arith.rnd (f.tt a b + s * f.tt c d) = .fin (f.round (f.tt a b + s * f.tt c d)) ∧
      |f.round (f.tt a b + s * f.tt c d) - (2 * a * b + s * (2 * c * d))| ≤ 32 / 10 * f.uu := fun s hs1 => by
    have k1 : |f.tt a b + s * f.tt c d - (2 * a * b + s * (2 * c * d))| ≤ 21 / 10 * f.uu := by
      have := abs_add_le (f.tt a b - 2 * a * b) (s * (f.tt c d - 2 * c * d))
      rw [abs_mul s, hs1, one_mul] at this
      rw [show f.tt a b + s * f.tt c d - (2 * a * b + s * (2 * c * d)) = f.tt a b - 2 * a * b + s * (f.tt c d - 2 * c * d) by ring]
      linarith
    refine ⟨small_fin hf ((hr.le_of k1 (B s hs1)).trans (by linarith)), (hr.step k1 (B s hs1)).trans ?_⟩
    have : f.uu * (103 / 100 + 21 / 10 * f.uu) ≤ f.uu * (104 / 100) := mul_le_mul_of_nonneg_left (by linarith) hu.1.le
    linarith
  rw [e1, e3]
  constructor
  · obtain ⟨k1, k2⟩ := key 1 (by norm_num)
    rw [one_mul, one_mul] at *
    exact ⟨_, k1, k2⟩
  · obtain ⟨k1, k2⟩ := key (-1) (by norm_num)
    rw [neg_one_mul, neg_one_mul] at *
    exact ⟨_, k1, k2⟩

lemma diag_entry (hf : AtLeastFloat f) (a b : ℝ) (h : a * a + b * b ≤ 103 / 100) :
    ∃ e, f.arith.sub (.fin 1) (f.arith.add (f.arith.mul (f.arith.mul (.fin 2) (.fin a)) (.fin a)) (f.arith.mul (f.arith.mul (.fin 2) (.fin b)) (.fin b))) = .fin e ∧
      |e - (1 - (2 * a * a + 2 * b * b))| ≤ 3 * (32 / 10 * f.uu) := by
  have nn := mul_self_nonneg (R := ℝ)
  have ba := comp_bound (a := a) (by linarith [nn b])
  have bb := comp_bound (a := b) (by linarith [nn a])
  obtain ⟨e1, e2⟩ := tt_fin hf ba ba
  obtain ⟨e3, e4⟩ := tt_fin hf bb bb
  have hs := alf_small hf
  have hu := alf_uu hf
  have he := alf_eta hf
  have hr := rn (alf_ok hf)
  rw [abs_mul_abs_self] at e2 e4
  have hup := mul_le_mul_of_nonneg_left h hu.1.le
  have k1 : |f.tt a a + f.tt b b - (2 * a * a + 2 * b * b)| ≤ 42 / 10 * f.uu := by
    have := abs_add_le (f.tt a a - 2 * a * a) (f.tt b b - 2 * b * b)
    rw [show f.tt a a + f.tt b b - (2 * a * a + 2 * b * b) = f.tt a a - 2 * a * a + (f.tt b b - 2 * b * b) by ring]
    linarith
  have B : |2 * a * a + 2 * b * b| ≤ 206 / 100 := by rw [abs_of_nonneg (by nlinarith [nn a, nn b])]; linarith
  have k2 := hr.step k1 B
  have k3 : |1 - f.round (f.tt a a + f.tt b b) - (1 - (2 * a * a + 2 * b * b))| ≤ 63 / 10 * f.uu := by
    rw [show 1 - f.round (f.tt a a + f.tt b b) - (1 - (2 * a * a + 2 * b * b)) = -(f.round (f.tt a a + f.tt b b) - (2 * a * a + 2 * b * b)) by ring, abs_neg]
    refine k2.trans ?_
    have : f.uu * (206 / 100 + 42 / 10 * f.uu) ≤ f.uu * (207 / 100) := mul_le_mul_of_nonneg_left (by linarith) hu.1.le
    linarith
  have B2 : |1 - (2 * a * a + 2 * b * b)| ≤ 107 / 100 := by rw [abs_le]; constructor <;> nlinarith [nn a, nn b]
  rw [e1, e3]
  change ∃ e, f.arith.sub (.fin 1) (f.arith.rnd (f.tt a a + f.tt b b)) = _ ∧ _
  rw [small_fin hf ((hr.le_of k1 B).trans (by linarith))]
  change ∃ e, f.arith.rnd (1 + -f.round (f.tt a a + f.tt b b)) = _ ∧ _
  rw [← sub_eq_add_neg, small_fin hf ((hr.le_of k3 B2).trans (by linarith))]
  refine ⟨_, rfl, (hr.step k3 B2).trans ?_⟩
  have : f.uu * (107 / 100 + 63 / 10 * f.uu) ≤ f.uu * (108 / 100) := mul_le_mul_of_nonneg_left (by linarith) hu.1.le
  linarith

/-- **The matrix of a quaternion.** -/
lemma matOfQuat_range (hf : AtLeastFloat f) {q : Quat} (hq : q.normSq ≤ 103 / 100) :
    ∃ m, f.arith.matOfQuat (embQ q) = embM m ∧ Close (16 * f.uu) m q.toRotationMatrix := by
  have hn : q.w * q.w + q.x * q.x + q.y * q.y + q.z * q.z ≤ 103 / 100 := hq
  have nn := mul_self_nonneg (R := ℝ)
  obtain ⟨a00, e00, b00⟩ := diag_entry hf q.y q.z (by linarith [nn q.w, nn q.x])
  obtain ⟨a11, e11, b11⟩ := diag_entry hf q.x q.z (by linarith [nn q.w, nn q.y])
  obtain ⟨a22, e22, b22⟩ := diag_entry hf q.x q.y (by linarith [nn q.w, nn q.z])
  obtain ⟨⟨a10, e10, b10⟩, a01, e01, b01⟩ := off_entry hf q.y q.x q.z q.w (by linarith)
  obtain ⟨⟨a02, e02, b02⟩, a20, e20, b20⟩ := off_entry hf q.z q.x q.y q.w (by linarith)
  obtain ⟨⟨a21, e21, b21⟩, a12, e12, b12⟩ := off_entry hf q.z q.y q.x q.w (by linarith)
  refine ⟨⟨a00, a01, a02, a10, a11, a12, a20, a21, a22⟩, ?_, ?_⟩
  · unfold XArith.matOfQuat embM
    ext
    · exact e00
    · exact e01
    · exact e02
    · exact e10
    · exact e11
    · exact e12
    · exact e20
    · exact e21
    · exact e22
  · intro v
    have hu := alf_uu hf
    have key : ∀ {A B C a b c x y z : ℝ}, |A - a| ≤ x → |B - b| ≤ y → |C - c| ≤ z →
        |A * v.x + B * v.y + C * v.z - (a * v.x + b * v.y + c * v.z)| ≤ x * |v.x| + y * |v.y| + z * |v.z| := by
      intro A B C a b c x y z h1 h2 h3
      have e : A * v.x + B * v.y + C * v.z - (a * v.x + b * v.y + c * v.z) = (A - a) * v.x + (B - b) * v.y + (C - c) * v.z := by ring
      rw [e]
      refine (abs_add_le _ _).trans (add_le_add ((abs_add_le _ _).trans (add_le_add ?_ ?_)) ?_) <;>
        rw [abs_mul] <;> apply mul_le_mul_of_nonneg_right _ (abs_nonneg _) <;> assumption
    have h := V3.norm_le_of_abs (v := (⟨a00, a01, a02, a10, a11, a12, a20, a21, a22⟩ : M3).mulVec v - q.toRotationMatrix.mulVec v)
      (b := (32 / 10 * f.uu) • ⟨3 * |v.x| + |v.y| + |v.z|, |v.x| + 3 * |v.y| + |v.z|, |v.x| + |v.y| + 3 * |v.z|⟩)
      ((key b00 b01 b02).trans (by simp only [V3.smul_x]; linarith))
      ((key b10 b11 b12).trans (by simp only [V3.smul_y]; linarith))
      ((key b20 b21 b22).trans (by simp only [V3.smul_z]; linarith))
    refine h.trans ?_
    rw [V3.norm_smul_nonneg (by linarith)]
    have := mul_le_mul_of_nonneg_left (norm_5 v) (by linarith : 0 ≤ 32 / 10 * f.uu)
    linarith

lemma dot_bound (r v : V3) : |r.x * v.x| + |r.y * v.y| + |r.z * v.z| ≤ r.norm * v.norm := by
  have h := cs4 0 r.x r.y r.z 0 v.x v.y v.z
  simp only [abs_mul]
  simp only [abs_zero, zero_mul, zero_add] at h
  refine h.trans (le_of_eq ?_)
  simp [V3.norm, V3.normSq, V3.dot]

/-- One coefficient of a product of a matrix and a vector. -/
lemma dot3_range (hf : AtLeastFloat f) {r v : V3} (hr : r.norm ≤ 103 / 100) (hv : v.norm ≤ 2 ^ (f.emax - 3)) :
    ∃ e, f.arith.dot3 (emb3 r) (emb3 v) = .fin e ∧ |e - r.dot v| ≤ 412 / 100 * (f.uu * v.norm) + 6 * f.eta := by
  have hs := alf_small hf
  have hu := alf_uu hf
  have he := alf_eta hf
  have v0 := v.norm_nonneg
  have S : |r.x * v.x| + |r.y * v.y| + |r.z * v.z| ≤ 103 / 100 * v.norm := (dot_bound r v).trans (mul_le_mul_of_nonneg_right hr v0)
  obtain ⟨h1, h2, h3, h4, h5, h6⟩ := (rn (alf_ok hf)).sum3 S
  have F : ∀ {x : ℝ}, |x| ≤ 2 * (103 / 100 * v.norm) + 8 * f.eta → f.arith.rnd x = .fin (f.round x) := fun hx => fin_of (alf_ok hf) (hx.trans (by
    rw [pow_emax]
    have := one_le_emax (alf_ok hf)
    linarith))
  refine ⟨_, ?_, h1.trans (by linarith)⟩
  change f.arith.add (f.arith.add (f.arith.rnd _) (f.arith.rnd _)) (f.arith.rnd _) = _
  rw [F h2, F h3, F h4]
  change f.arith.add (f.arith.rnd _) _ = _
  rw [F h5]
  change f.arith.rnd _ = _
  rw [F h6]

lemma norm_three {w : V3} {e : ℝ} (h0 : 0 ≤ e) (h1 : |w.x| ≤ e) (h2 : |w.y| ≤ e) (h3 : |w.z| ≤ e) : w.norm ≤ 1733 / 1000 * e := by
  apply V3.norm_le_of_sq (by linarith)
  have k : ∀ {x : ℝ}, |x| ≤ e → x * x ≤ e * e := fun {x} h => by
    rw [← abs_mul_abs_self x]; exact mul_le_mul h h (abs_nonneg _) h0
  have := k h1; have := k h2; have := k h3
  nlinarith [mul_nonneg h0 h0]

/-- **Matrix times vector.** -/
lemma mulVec_range (hf : AtLeastFloat f) {m R : M3} {ε : ℝ} (hR : IsSO3 R) (h : Close ε m R) (hε : ε ≤ 3 / 100) {v : V3} (hv : v.norm ≤ 2 ^ (f.emax - 3)) :
    ∃ w, f.arith.mulVec (embM m) (emb3 v) = emb3 w ∧ (w - R.mulVec v).norm ≤ (72 / 10 * f.uu + ε) * v.norm + 105 / 10 * f.eta := by
  have hu := alf_uu hf
  have he := alf_eta hf
  have v0 := v.norm_nonneg
  have row : ∀ e : V3, e.norm = 1 → (m.transpose.mulVec e).norm ≤ 103 / 100 := fun e he => by
    have h1 := h.transpose e
    have h2 := SO3.mulVec_norm (SO3.transpose hR) e
    have h3 := V3.norm_add_le (m.transpose.mulVec e - R.transpose.mulVec e) (R.transpose.mulVec e)
    rw [sub_add_cancel, h2, he] at h3
    rw [he] at h1
    linarith
  have r0 : (⟨m.m00, m.m01, m.m02⟩ : V3).norm ≤ 103 / 100 := by
    have := row ⟨1, 0, 0⟩ (by simp [V3.norm, V3.normSq, V3.dot])
    simpa [M3.mulVec, M3.transpose] using this
  have r1 : (⟨m.m10, m.m11, m.m12⟩ : V3).norm ≤ 103 / 100 := by
    have := row ⟨0, 1, 0⟩ (by simp [V3.norm, V3.normSq, V3.dot])
    simpa [M3.mulVec, M3.transpose] using this
  have r2 : (⟨m.m20, m.m21, m.m22⟩ : V3).norm ≤ 103 / 100 := by
    have := row ⟨0, 0, 1⟩ (by simp [V3.norm, V3.normSq, V3.dot])
    simpa [M3.mulVec, M3.transpose] using this
  obtain ⟨x, ex, bx⟩ := dot3_range hf r0 hv
  obtain ⟨y, ey, bY⟩ := dot3_range hf r1 hv
  obtain ⟨z, ez, bz⟩ := dot3_range hf r2 hv
  refine ⟨⟨x, y, z⟩, ?_, ?_⟩
  · unfold XArith.mulVec
    ext
    · exact ex
    · exact ey
    · exact ez
  · have h1 : ((⟨x, y, z⟩ : V3) - m.mulVec v).norm ≤ 1733 / 1000 * (412 / 100 * (f.uu * v.norm) + 6 * f.eta) :=
      norm_three (le_trans (abs_nonneg _) bx) (by simpa [M3.mulVec, V3.dot] using bx) (by simpa [M3.mulVec, V3.dot] using bY) (by simpa [M3.mulVec, V3.dot] using bz)
    have h2 := h v
    have h3 := V3.norm_add_le ((⟨x, y, z⟩ : V3) - m.mulVec v) (m.mulVec v - R.mulVec v)
    rw [sub_add_sub_cancel] at h3
    have := mul_nonneg hu.1.le v0
    linarith [he.1]

/-- **C108 (e).** `rotate()` with a quaternion in IEEE arithmetic.  If the stored quaternion is within `δ` of a unit quaternion `r`, then for every
vector shorter than an eighth of the overflow threshold, however small, the result is finite and within `(24 · 2⁻ᵖ + 8.1 δ) |v|` plus eleven times
half the smallest number of the exact image. -/
theorem C108_rotate (hf : AtLeastFloat f) (P : Prec) (q : Quat) (r : Rep .quat) (hr : Valid .quat r) (δ : ℝ) (hδ : δ ≤ 1 / 300)
    (hq : ‖toH q - toH r‖ ≤ δ) (v : V3) (hv : v.norm ≤ 2 ^ (f.emax - 3)) :
    ∃ w, f.arith.rotate P .quat (embQ q) (emb3 v) = emb3 w ∧
      (w - act .quat r v).norm ≤ (24 * 2⁻¹ ^ f.p + 81 / 10 * δ) * v.norm + 11 * 2 ^ (f.emin - 1) := by
  have hu := alf_uu hf
  have he := alf_eta hf
  have hs := alf_small hf
  have v0 := v.norm_nonneg
  have hr1 := (valid_quat_iff r).mp hr
  have d0 : 0 ≤ δ := (norm_nonneg _).trans hq
  have qn : q.norm ≤ 1 + δ := by
    have := norm_add_le (toH q - toH r) (toH r)
    rw [sub_add_cancel, norm_toH, norm_toH, unit_norm hr1] at this
    linarith
  have qn2 : q.normSq ≤ 103 / 100 := by
    have : q.norm * q.norm = q.normSq := Real.mul_self_sqrt q.normSq_nonneg
    rw [← this]
    have q0 : 0 ≤ q.norm := Real.sqrt_nonneg _
    calc q.norm * q.norm ≤ (1 + δ) * (1 + δ) := mul_le_mul qn qn q0 (by linarith)
      _ ≤ (1 + 1 / 300) * (1 + 1 / 300) := mul_le_mul (by linarith) (by linarith) (by linarith) (by norm_num)
      _ ≤ _ := by norm_num
  obtain ⟨m, e1, e2⟩ := matOfQuat_range hf qn2
  have c2 := (nearQ_of_dist hr1 hq (by linarith)).toRotationMatrix (by linarith)
  have c3 := e2.trans c2
  obtain ⟨w, e3, e4⟩ := mulVec_range hf (sMat_isSO3 hr1) c3 (by linarith) hv
  refine ⟨w, ?_, ?_⟩
  · change f.arith.mulVec (f.arith.matOfQuat (embQ q)) _ = _
    rw [e1, e3]
  · rw [act_eq_dmat]
    change (w - (sMat r).mulVec v).norm ≤ (24 * f.uu + 81 / 10 * δ) * v.norm + 11 * f.eta
    refine e4.trans ?_
    have := mul_nonneg hu.1.le v0
    have := mul_nonneg d0 v0
    linarith [he.1]

/-- **C108 (f).** `rotate()` with a rotation matrix whose entries are within `d` of those of an exact rotation. -/
theorem C108_rotate_matrix (hf : AtLeastFloat f) (P : Prec) (m : M3) (r : Rep .mat) (hr : Valid .mat r) (d : ℝ) (hd : d ≤ 1 / 100)
    (hm : EntryClose d m r) (v : V3) (hv : v.norm ≤ 2 ^ (f.emax - 3)) :
    ∃ w, f.arith.rotate P .mat (embM m) (emb3 v) = emb3 w ∧
      (w - act .mat r v).norm ≤ (8 * 2⁻¹ ^ f.p + 3 * d) * v.norm + 11 * 2 ^ (f.emin - 1) := by
  have hu := alf_uu hf
  have he := alf_eta hf
  have v0 := v.norm_nonneg
  have hR : IsSO3 r := dmat_isSO3 .mat r hr
  obtain ⟨w, e3, e4⟩ := mulVec_range hf hR hm.close (by linarith) hv
  refine ⟨w, e3, ?_⟩
  change (w - M3.mulVec r v).norm ≤ (8 * f.uu + 3 * d) * v.norm + 11 * f.eta
  refine e4.trans ?_
  have := mul_nonneg hu.1.le v0
  linarith [he.1]

lemma addV_range (hf : AtLeastFloat f) {a b : V3} (ha : a.norm ≤ 2 * 2 ^ (f.emax - 3)) (hb : b.norm ≤ 2 * 2 ^ (f.emax - 3)) :
    ∃ w, f.arith.addV (emb3 a) (emb3 b) = emb3 w ∧ (w - (a + b)).norm ≤ f.uu * (a.norm + b.norm) + 18 / 10 * f.eta := by
  have hu := alf_uu hf
  have he := alf_eta hf
  have hr := rn (alf_ok hf)
  have F : ∀ {x y : ℝ}, |x| ≤ a.norm → |y| ≤ b.norm → f.arith.rnd (x + y) = .fin (f.round (x + y)) := fun {x y} hx hy => fin_of (alf_ok hf) (by
    rw [pow_emax]
    have := abs_add_le x y
    linarith)
  obtain ⟨a1, a2, a3⟩ := abs_comp_le a
  obtain ⟨b1, b2, b3⟩ := abs_comp_le b
  refine ⟨⟨f.round (a.x + b.x), f.round (a.y + b.y), f.round (a.z + b.z)⟩, ?_, ?_⟩
  · unfold XArith.addV
    ext
    · exact F a1 b1
    · exact F a2 b2
    · exact F a3 b3
  · have h := V3.norm_le_of_abs (v := (⟨f.round (a.x + b.x), f.round (a.y + b.y), f.round (a.z + b.z)⟩ : V3) - (a + b))
      (b := f.uu • (⟨|(a + b).x|, |(a + b).y|, |(a + b).z|⟩ : V3) + ⟨f.eta, f.eta, f.eta⟩)
      (by simpa using hr.err (a.x + b.x)) (by simpa using hr.err (a.y + b.y)) (by simpa using hr.err (a.z + b.z))
    have h2 := V3.norm_add_le (f.uu • (⟨|(a + b).x|, |(a + b).y|, |(a + b).z|⟩ : V3)) ⟨f.eta, f.eta, f.eta⟩
    have h3 : (⟨|(a + b).x|, |(a + b).y|, |(a + b).z|⟩ : V3).norm = (a + b).norm := by
      simp [V3.norm, V3.normSq, V3.dot]
    rw [V3.norm_smul_nonneg hu.1.le, h3] at h2
    have h4 := norm_three (w := ⟨f.eta, f.eta, f.eta⟩) he.1.le (abs_of_pos he.1).le (abs_of_pos he.1).le (abs_of_pos he.1).le
    have h5 := mul_le_mul_of_nonneg_left (V3.norm_add_le a b) hu.1.le
    linarith [he.1]

/-- **C108 (g).** `transform()` and the position of the product of two poses in IEEE arithmetic. -/
theorem C108_transform (hf : AtLeastFloat f) (P : Prec) (q : Quat) (r : Rep .quat) (hr : Valid .quat r) (δ : ℝ) (hδ : δ ≤ 1 / 300)
    (hq : ‖toH q - toH r‖ ≤ δ) (t v : V3) (ht : t.norm ≤ 2 ^ (f.emax - 3)) (hv : v.norm ≤ 2 ^ (f.emax - 3)) :
    ∃ w w', f.arith.transform P .quat (emb3 t) (embQ q) (emb3 v) = emb3 w ∧ f.arith.posePosition P .quat (emb3 t) (embQ q) (emb3 v) = emb3 w' ∧
      (w - (act .quat r v + t)).norm ≤ (26 * 2⁻¹ ^ f.p + 82 / 10 * δ) * v.norm + 2 * 2⁻¹ ^ f.p * t.norm + 13 * 2 ^ (f.emin - 1) ∧
      (w' - (t + act .quat r v)).norm ≤ (26 * 2⁻¹ ^ f.p + 82 / 10 * δ) * v.norm + 2 * 2⁻¹ ^ f.p * t.norm + 13 * 2 ^ (f.emin - 1) := by
  have hu := alf_uu hf
  have he := alf_eta hf
  have hs := alf_small hf
  have v0 := v.norm_nonneg
  have t0 := t.norm_nonneg
  have d0 : 0 ≤ δ := (norm_nonneg _).trans hq
  have uv := mul_nonneg hu.1.le v0
  have dv := mul_nonneg d0 v0
  have ut := mul_nonneg hu.1.le t0
  have big := one_le_emax (alf_ok hf)
  obtain ⟨y, e1, e2⟩ := C108_rotate hf P q r hr δ hδ hq v hv
  change (y - act .quat r v).norm ≤ (24 * f.uu + 81 / 10 * δ) * v.norm + 11 * f.eta at e2
  have hn : (act .quat r v).norm = v.norm := by rw [act_eq_dmat, SO3.mulVec_norm (dmat_isSO3 .quat r hr)]
  have yn : y.norm ≤ v.norm + ((24 * f.uu + 81 / 10 * δ) * v.norm + 11 * f.eta) := by
    have := V3.norm_add_le (y - act .quat r v) (act .quat r v)
    rw [sub_add_cancel, hn] at this
    linarith
  have k : (24 * f.uu + 81 / 10 * δ) * v.norm ≤ 1 / 10 * v.norm := mul_le_mul_of_nonneg_right (by linarith) v0
  have yn2 : y.norm ≤ 2 * 2 ^ (f.emax - 3) := by linarith
  obtain ⟨w, e3, e4⟩ := addV_range hf yn2 (b := t) (by linarith)
  obtain ⟨w', e5, e6⟩ := addV_range hf (a := t) (by linarith) yn2
  have uy : f.uu * y.norm ≤ 12 / 10 * (f.uu * v.norm) + f.eta / 10 := by
    have : f.uu * y.norm ≤ f.uu * (11 / 10 * v.norm + 11 * f.eta) := mul_le_mul_of_nonneg_left (by linarith) hu.1.le
    have h2 : f.uu * f.eta ≤ 1 / 10 ^ 6 * f.eta := mul_le_mul_of_nonneg_right hs.1 he.1.le
    linarith [he.1]
  refine ⟨w, w', ?_, ?_, ?_, ?_⟩
  · unfold XArith.transform; rw [e1, e3]
  · unfold XArith.posePosition; rw [e1, e5]
  · change _ ≤ (26 * f.uu + 82 / 10 * δ) * v.norm + 2 * f.uu * t.norm + 13 * f.eta
    have := V3.norm_add_le (w - (y + t)) (y - act .quat r v)
    rw [show w - (y + t) + (y - act .quat r v) = w - (act .quat r v + t) by abel] at this
    linarith [he.1]
  · change _ ≤ (26 * f.uu + 82 / 10 * δ) * v.norm + 2 * f.uu * t.norm + 13 * f.eta
    have := V3.norm_add_le (w' - (t + y)) (y - act .quat r v)
    rw [show w' - (t + y) + (y - act .quat r v) = w' - (t + act .quat r v) by abel] at this
    linarith [he.1]

end Format
end Kindr
