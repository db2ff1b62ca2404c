import Verif.Props.Align2
import Verif.Props.Vectors2Rot

set_option autoImplicit false

open Classical

noncomputable section
namespace Kindr
open Spec

/-- The quaternion of the rotation of smallest angle that takes the unit vector `a` to the unit vector `b`. -/
def Spec.Aligns (q : Quat) (a b : V3) : Prop :=
  q.normSq = 1 ∧ (sMat q).mulVec a = b ∧ 0 ≤ q.w ∧ q.vec.dot a = 0 ∧ q.vec.dot b = 0

namespace Format
variable {f : Format}

lemma rd (hf : f.Ok) (hp : 24 ≤ f.p) : Align.Rd f.round f.uu := by
  have u0 := uu_pos (f := f)
  have u1 : f.uu ≤ 1 / 2 ^ 24 := by
    unfold uu
    calc (2⁻¹ : ℝ) ^ f.p ≤ 2⁻¹ ^ 24 := pow_le_pow_of_le_one (by norm_num) (by norm_num) hp
      _ = _ := by norm_num
  refine ⟨u0, u1, fun x => (err hf x).trans ?_⟩
  have := eta_le (f := f) (S := 1) (zpow_le_one_of_nonpos₀ (by norm_num) (by have := hf.emin; omega))
  have : f.uu ^ 2 ≤ f.uu * (1 / 2 ^ 24) := by rw [sq]; exact mul_le_mul_of_nonneg_left u1 u0.le
  norm_num at this ⊢
  linarith

lemma rnd_small (hf : f.Ok) {x : ℝ} (h : |x| ≤ 5) : f.arith.rnd x = .fin (f.round x) := by
  refine fin_of_le hf (h.trans ?_)
  calc (5 : ℝ) ≤ 2 ^ (3 : ℤ) := by norm_num
    _ ≤ _ := zpow_le_zpow_right₀ (by norm_num) (by have := hf.p; have := hf.emax; omega)

lemma not_tiny (hf : f.Ok) {v : V3} (h : InRange f v) : ¬ Tiny f v := by
  rintro ⟨h1, h2, h3⟩
  have h4 := h.1
  have : (2 : ℝ) ^ (f.emin + 2 * f.p + 2) ≥ 4 * 2 ^ (f.emin - 1) := by
    rw [show (4 : ℝ) = 2 ^ (2 : ℤ) by norm_num, ← zpow_add₀ (by norm_num)]
    exact zpow_le_zpow_right₀ (by norm_num) (by have := hf.p; omega)
  have hp : (0 : ℝ) < 2 ^ (f.emin - 1) := by positivity
  linarith

lemma cross_sq {a b : V3} {d : ℝ} (ha : a.x ^ 2 + a.y ^ 2 + a.z ^ 2 = 1) (hb : b.x ^ 2 + b.y ^ 2 + b.z ^ 2 = 1) (hd : d = 1 + b.dot a) :
    (a.cross b).x ^ 2 + (a.cross b).y ^ 2 + (a.cross b).z ^ 2 ≤ 2 * d := by
  have e : (a.cross b).x ^ 2 + (a.cross b).y ^ 2 + (a.cross b).z ^ 2 = (a.x ^ 2 + a.y ^ 2 + a.z ^ 2) * (b.x ^ 2 + b.y ^ 2 + b.z ^ 2) - (b.dot a) ^ 2 := by
    simp only [V3.cross, V3.dot]; ring
  rw [e, ha, hb, show b.dot a = d - 1 by rw [hd]; ring]; nlinarith [sq_nonneg d]

/-- The two vectors already normalized. -/
lemma two_vectors_err (hf : f.Ok) (hp : 24 ≤ f.p) {dp : ℝ} (svd : XV3 → XV3 → XV3) {A B : XV3} {a b a' b' : V3} {d S : ℝ}
    (ha' : f.arith.normalized A = emb3 a') (hb' : f.arith.normalized B = emb3 b')
    (ha : a.x ^ 2 + a.y ^ 2 + a.z ^ 2 = 1) (hb : b.x ^ 2 + b.y ^ 2 + b.z ^ 2 = 1)
    (a1 : |a'.x - a.x| ≤ 6 * f.uu) (a2 : |a'.y - a.y| ≤ 6 * f.uu) (a3 : |a'.z - a.z| ≤ 6 * f.uu)
    (b1 : |b'.x - b.x| ≤ 6 * f.uu) (b2 : |b'.y - b.y| ≤ 6 * f.uu) (b3 : |b'.z - b.z| ≤ 6 * f.uu)
    (hd : d = 1 + b.dot a) (d2 : d ≤ 2) (hS : S ^ 2 = 2 * d) (S0 : 0 ≤ S) (hdp : dp + 25 * f.uu ≤ d) (h140 : 140 * f.uu ≤ d) :
    ∃ q : Quat, f.arith.quatFromTwoVectors dp svd A B = embQ q ∧ |q.w - S / 2| ≤ 50 * f.uu / d ∧ |q.x - (a.cross b).x / S| ≤ 50 * f.uu / d ∧
      |q.y - (a.cross b).y / S| ≤ 50 * f.uu / d ∧ |q.z - (a.cross b).z / S| ≤ 50 * f.uu / d := by
  have h := rd hf hp
  have u0 := h.pos
  have dpos : 0 < d := by linarith
  obtain ⟨c1, c2, c3, c4, c5, c6, c7⟩ := Align.dot_err h hb ha b1 b2 b3 a1 a2 a3
  obtain ⟨x1, x2, x3, x4⟩ := Align.cross_err h (ay := a.y) (az := a.z) (bY := b.y) (bz := b.z) (by linarith [sq_nonneg a.x]) (by linarith [sq_nonneg b.x]) a2 a3 b2 b3
  obtain ⟨y1, y2, y3, y4⟩ := Align.cross_err h (ay := a.z) (az := a.x) (bY := b.z) (bz := b.x) (by linarith [sq_nonneg a.y]) (by linarith [sq_nonneg b.y]) a3 a1 b3 b1
  obtain ⟨z1, z2, z3, z4⟩ := Align.cross_err h (ay := a.x) (az := a.y) (bY := b.x) (bz := b.y) (by linarith [sq_nonneg a.z]) (by linarith [sq_nonneg b.z]) a1 a2 b1 b2
  have pr : ∀ {x y ex ey : ℝ}, |x| ≤ 1 → |y| ≤ 1 → |ex - x| ≤ 6 * f.uu → |ey - y| ≤ 6 * f.uu → |ex * ey| ≤ 5 := by
    intro x y ex ey hx hy h1 h2
    have u1 := h.le
    have k1 : |ex| ≤ 2 := by have := abs_sub_abs_le_abs_sub ex x; norm_num at u1; linarith
    have k2 : |ey| ≤ 2 := by have := abs_sub_abs_le_abs_sub ey y; norm_num at u1; linarith
    rw [abs_mul]
    have := mul_le_mul k1 k2 (abs_nonneg _) (by norm_num)
    linarith
  obtain ⟨na1, na2, na3⟩ := Align.coord_le ha
  obtain ⟨nb1, nb2, nb3⟩ := Align.coord_le hb
  have hcs := cross_sq ha hb hd
  rw [← hS] at hcs
  rw [show b.x * a.x + b.y * a.y + b.z * a.z = d - 1 by rw [hd]; unfold V3.dot; ring] at c1
  obtain ⟨D, r, s, w', i, eD, er, es, ew, ei, Sp, S280, S2, f1, f2, r0, f3, sp, sl, f4, werr, ierr⟩ := Align.scalar_err h h140 d2 hS S0 c1
  have X1 : |(a.cross b).x| ≤ S := abs_le_of_sq_le_sq (by linarith [sq_nonneg (a.cross b).y, sq_nonneg (a.cross b).z]) S0
  have Y1 : |(a.cross b).y| ≤ S := abs_le_of_sq_le_sq (by linarith [sq_nonneg (a.cross b).x, sq_nonneg (a.cross b).z]) S0
  have Z1 : |(a.cross b).z| ≤ S := abs_le_of_sq_le_sq (by linarith [sq_nonneg (a.cross b).y, sq_nonneg (a.cross b).x]) S0
  obtain ⟨gx, gx'⟩ := Align.vec_err h d2 hS Sp S280 S2 x1 X1 ierr
  obtain ⟨gy, gy'⟩ := Align.vec_err h d2 hS Sp S280 S2 y1 Y1 ierr
  obtain ⟨gz, gz'⟩ := Align.vec_err h d2 hS Sp S280 S2 z1 Z1 ierr
  refine ⟨⟨w', _, _, _⟩, ?_, ?_, gx, gy, gz⟩
  · have F : ∀ {x : ℝ}, |x| ≤ 5 → f.arith.rnd x = .fin (f.round x) := fun hx => rnd_small hf hx
    have M : ∀ {x y : ℝ}, |x * y| ≤ 5 → f.arith.mul (.fin x) (.fin y) = .fin (f.round (x * y)) := fun hx => F hx
    have AD : ∀ {x y : ℝ}, |x + y| ≤ 5 → f.arith.add (.fin x) (.fin y) = .fin (f.round (x + y)) := fun hx => F hx
    have SB : ∀ {x y : ℝ}, |x + -y| ≤ 5 → f.arith.sub (.fin x) (.fin y) = .fin (f.round (x + -y)) := fun hx => F hx
    have hc : f.arith.dot3 (emb3 b') (emb3 a') =
        .fin (f.round (f.round (f.round (b'.x * a'.x) + f.round (b'.y * a'.y)) + f.round (b'.z * a'.z))) := by
      simp only [XArith.dot3, emb3]
      rw [M (pr nb1 na1 b1 a1), M (pr nb2 na2 b2 a2), M (pr nb3 na3 b3 a3), AD (by linarith), AD (by linarith)]
    have hx : f.arith.crossV (emb3 a') (emb3 b') = emb3 ⟨f.round (f.round (a'.y * b'.z) + -f.round (a'.z * b'.y)),
        f.round (f.round (a'.z * b'.x) + -f.round (a'.x * b'.z)), f.round (f.round (a'.x * b'.y) + -f.round (a'.y * b'.x))⟩ := by
      simp only [XArith.crossV, emb3]
      rw [M (pr na2 nb3 a2 b3), M (pr na3 nb2 a3 b2), M (pr na3 nb1 a3 b1), M (pr na1 nb3 a1 b3), M (pr na1 nb2 a1 b2), M (pr na2 nb1 a2 b1),
        SB (by linarith), SB (by linarith), SB (by linarith)]
    generalize f.round (f.round (f.round (b'.x * a'.x) + f.round (b'.y * a'.y)) + f.round (b'.z * a'.z)) = c' at *
    unfold XArith.quatFromTwoVectors
    simp only [ha', hb', hc, hx]
    rw [if_neg (show ¬ (XR.fin c').lt (.fin (-1 + dp)) by
      change ¬ (c' < -1 + dp)
      have := (abs_le.mp c1).1
      linarith)]
    have k1 : f.arith.add (.fin 1) (.fin c') = .fin D := by rw [AD (by linarith), eD]
    have k2 : f.arith.mul (.fin D) (.fin 2) = .fin r := by rw [M (by linarith), er]
    have k3 : f.arith.sqrt (.fin r) = .fin s := by
      simp only [XArith.sqrt, if_neg (not_lt.mpr r0.le)]; rw [F (by linarith), es]
    have k4 : f.arith.mul (.fin s) (.fin (1 / 2)) = .fin w' := by rw [M (by linarith), ew]
    have k5 : f.arith.div (.fin 1) (.fin s) = .fin i := by
      simp only [XArith.div, if_neg sp.ne']
      rw [ei]
      refine fin_of_le hf ?_
      rw [abs_of_pos (by positivity)]
      have k6 : f.uu ≤ s := by
        have : S ^ 2 ≤ S * 2 := by rw [sq]; exact mul_le_mul_of_nonneg_left S2 Sp.le
        linarith
      calc 1 / s ≤ 1 / f.uu := one_div_le_one_div_of_le u0 k6
        _ = 2 ^ (f.p : ℤ) := by unfold uu; rw [zpow_natCast, inv_pow, one_div, inv_inv]
        _ ≤ _ := zpow_le_zpow_right₀ (by norm_num) (by have := hf.emax; omega)
    rw [k1, k2, k3, k4, k5]
    simp only [emb3]
    rw [M (by linarith), M (by linarith), M (by linarith)]
    rfl
  · rw [le_div_iff₀ dpos]
    have : |w' - S / 2| * S ^ 2 ≤ 21 * f.uu * 2 := by
      rw [sq, ← mul_assoc]; exact mul_le_mul werr S2 Sp.le (by positivity)
    rw [hS] at this
    linarith

/-- **C106 (a).** Outside the antiparallel band the computed quaternion is as close to the exact one as `50 u / (1 + cos)`. -/
theorem C106_accuracy (hf : f.Ok) (hp : 24 ≤ f.p) (P : Prec) {dp : ℝ} (svd : XV3 → XV3 → XV3) {v w : V3} (hv : InRange f v) (hw : InRange f w)
    (hdp : dp + 25 * 2⁻¹ ^ f.p ≤ 1 + (dir w).dot (dir v)) (h140 : 140 * 2⁻¹ ^ f.p ≤ 1 + (dir w).dot (dir v)) :
    ∃ q q₀ : Quat, f.arith.setFromVectors P dp svd .quat (emb3 v) (emb3 w) = .ok (embQ q) ∧ Aligns q₀ (dir v) (dir w) ∧
      |q.w - q₀.w| ≤ 50 * 2⁻¹ ^ f.p / (1 + (dir w).dot (dir v)) ∧ |q.x - q₀.x| ≤ 50 * 2⁻¹ ^ f.p / (1 + (dir w).dot (dir v)) ∧
      |q.y - q₀.y| ≤ 50 * 2⁻¹ ^ f.p / (1 + (dir w).dot (dir v)) ∧ |q.z - q₀.z| ≤ 50 * 2⁻¹ ^ f.p / (1 + (dir w).dot (dir v)) := by
  have h := rd hf hp
  change dp + 25 * f.uu ≤ _ at hdp
  change 140 * f.uu ≤ _ at h140
  have nv := (inRange_norm hv).2
  have nw := (inRange_norm hw).2
  have v0 : v ≠ 0 := by rintro rfl; rw [V3.norm_zero] at nv; exact lt_irrefl _ nv
  have w0 : w ≠ 0 := by rintro rfl; rw [V3.norm_zero] at nw; exact lt_irrefl _ nw
  obtain ⟨a', ha', a1, a2, a3⟩ := (C105_accuracy hf hv).2
  obtain ⟨b', hb', b1, b2, b3⟩ := (C105_accuracy hf hw).2
  have ua := dir_unit v0
  have ub := dir_unit w0
  have dx : (dir v).x = v.x / v.norm ∧ (dir v).y = v.y / v.norm ∧ (dir v).z = v.z / v.norm := by
    unfold dir; refine ⟨?_, ?_, ?_⟩ <;> simp <;> ring
  have dy : (dir w).x = w.x / w.norm ∧ (dir w).y = w.y / w.norm ∧ (dir w).z = w.z / w.norm := by
    unfold dir; refine ⟨?_, ?_, ?_⟩ <;> simp <;> ring
  rw [← dx.1] at a1; rw [← dx.2.1] at a2; rw [← dx.2.2] at a3
  rw [← dy.1] at b1; rw [← dy.2.1] at b2; rw [← dy.2.2] at b3
  change _ ≤ 6 * f.uu at a1 a2 a3 b1 b2 b3
  change ∃ q q₀ : Quat, _ ∧ _ ∧ |q.w - q₀.w| ≤ 50 * f.uu / _ ∧ |q.x - q₀.x| ≤ 50 * f.uu / _ ∧ |q.y - q₀.y| ≤ 50 * f.uu / _ ∧
    |q.z - q₀.z| ≤ 50 * f.uu / _
  obtain ⟨a, hA⟩ : ∃ a, a = dir v := ⟨_, rfl⟩
  obtain ⟨b, hB⟩ : ∃ b, b = dir w := ⟨_, rfl⟩
  rw [← hA] at ua a1 a2 a3 hdp h140 ⊢
  rw [← hB] at ub b1 b2 b3 hdp h140 ⊢
  have ha : a.x ^ 2 + a.y ^ 2 + a.z ^ 2 = 1 := by rw [← ua]; unfold V3.normSq V3.dot; ring
  have hb : b.x ^ 2 + b.y ^ 2 + b.z ^ 2 = 1 := by rw [← ub]; unfold V3.normSq V3.dot; ring
  have u0 := h.pos
  obtain ⟨d, hd⟩ : ∃ d, d = 1 + b.dot a := ⟨_, rfl⟩
  rw [← hd] at hdp h140 ⊢
  have d2 : d ≤ 2 := by
    rw [hd]; have := dot_sq_le b a ub ua; nlinarith
  have dpos : 0 < d := by linarith
  have S0 := Real.sqrt_nonneg ((1 + b.dot a) * 2)
  have hS := Real.sq_sqrt (show 0 ≤ (1 + b.dot a) * 2 by rw [← hd]; linarith)
  obtain ⟨t1, t2, -⟩ := twoVec_main ua ub (by linarith)
  obtain ⟨S, hSd⟩ : ∃ S, S = Real.sqrt ((1 + b.dot a) * 2) := ⟨_, rfl⟩
  rw [← hSd] at S0 hS t1 t2
  rw [← hd, mul_comm] at hS
  obtain ⟨q, hq, q1, q2, q3, q4⟩ := two_vectors_err hf hp svd ha' hb' ha hb a1 a2 a3 b1 b2 b3 hd d2 hS S0 hdp h140
  refine ⟨q, _, ?_, ⟨t1, t2, ?_, ?_, ?_⟩, by simp only [mul_one_div]; exact q1, by simp only [mul_one_div]; exact q2, by simp only [mul_one_div]; exact q3, by simp only [mul_one_div]; exact q4⟩
  · have ht : f.arith.setFromVectors P dp svd .quat (emb3 v) (emb3 w) ≠ .throws := by
      rw [ne_eq, C105_throws hf]
      rintro (h | h)
      · exact not_tiny hf hv h.1
      · exact not_tiny hf hw h.1
    unfold XArith.setFromVectors at ht ⊢
    rw [hq] at ht ⊢
    split_ifs at ht ⊢ with h1
    · exact absurd rfl ht
    · rfl
  · change 0 ≤ S * (1 / 2); linarith
  · simp only [Quat.vec, V3.dot, V3.cross]; ring
  · simp only [Quat.vec, V3.dot, V3.cross]; ring

end Format
end Kindr
