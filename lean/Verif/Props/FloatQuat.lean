import Verif.Props.FloatBasic

/-!
# Quaternions computed in floating point
-/

set_option autoImplicit false

open Classical

noncomputable section
namespace Kindr
open Spec

namespace FloatLib
variable (F : FloatLib)

lemma toH_sub_le {p q : Quat} {a b : ℝ} (h1 : |p.w - q.w| ≤ a) (h2 : (p.vec - q.vec).norm ≤ b) : ‖toH p - toH q‖ ≤ a + b := by
  have e : toH p - toH q = toH ⟨p.w - q.w, p.x - q.x, p.y - q.y, p.z - q.z⟩ := by ext <;> simp
  rw [e, norm_toH]
  exact norm_toH_le (q := ⟨p.w - q.w, p.x - q.x, p.y - q.y, p.z - q.z⟩) h1 h2

lemma vec_eq_cast (q : Quat) (v : V3) (h : q = ⟨q.w, F.fl v.x, F.fl v.y, F.fl v.z⟩) : q.vec = castV3 F.fl v := by
  rw [h]; rfl

/-- Sine and cosine of a slightly wrong argument. -/
lemma sincos_arg {x y e : ℝ} (h : |x - y| ≤ e) : |F.sin x - Real.sin y| ≤ 2 * F.u + e ∧ |F.cos x - Real.cos y| ≤ 2 * F.u + e := by
  constructor
  · have e1 : F.sin x - Real.sin y = (F.sin x - Real.sin x) + (Real.sin x - Real.sin y) := by ring
    rw [e1]; exact (abs_add_le _ _).trans (add_le_add (F.sin_err x) ((abs_sin_sub_le x y).trans h))
  · have e1 : F.cos x - Real.cos y = (F.cos x - Real.cos x) + (Real.cos x - Real.cos y) := by ring
    rw [e1]; exact (abs_add_le _ _).trans (add_le_add (F.cos_err x) ((abs_cos_sub_le x y).trans h))

lemma abs_sin_le (x : ℝ) : |F.sin x| ≤ 1001 / 1000 := by
  have h := F.sin_err x
  have h1 := Real.abs_sin_le_one x
  have h2 := F.u_small
  have e : F.sin x = (F.sin x - Real.sin x) + Real.sin x := by ring
  rw [e]; exact (abs_add_le _ _).trans (by linarith)

lemma abs_cos_le (x : ℝ) : |F.cos x| ≤ 1001 / 1000 := by
  have h := F.cos_err x
  have h1 := Real.abs_cos_le_one x
  have h2 := F.u_small
  have e : F.cos x = (F.cos x - Real.cos x) + Real.cos x := by ring
  rw [e]; exact (abs_add_le _ _).trans (by linarith)

/-- The quaternion of an angle and an axis. -/
lemma ofAngleAxis_err (θ : ℝ) {a n : V3} (hn : n.normSq = 1) {η : ℝ} (ha : (a - n).norm ≤ η) (hη : η ≤ 1 / 100) :
    ‖toH (F.ofAngleAxis θ a) - toH (Quat.ofAngleAxis θ n)‖ ≤ 1001 / 1000 * η + (6 + |θ|) * F.u := by
  have hu := F.u_nonneg
  have hs := F.u_small
  have hη0 : 0 ≤ η := (V3.norm_nonneg _).trans ha
  have hh : |F.fl (1 / 2 * θ) - 1 / 2 * θ| ≤ F.u * (|θ| / 2) := by
    have := F.err (1 / 2 * θ)
    rw [abs_mul, abs_of_pos (by norm_num : (0 : ℝ) < 1 / 2)] at this
    linarith
  obtain ⟨h1, h2⟩ := F.sincos_arg hh
  have hn1 := V3.norm_eq_one_iff.mpr hn
  have han : a.norm ≤ 101 / 100 := by
    have := V3.norm_add_le (a - n) n
    rw [sub_add_cancel, hn1] at this; linarith
  refine (toH_sub_le (a := 2 * F.u + F.u * (|θ| / 2)) (b := (1001 / 1000 * η + (2 * F.u + F.u * (|θ| / 2))) + 2 * F.u) h2 ?_).trans (by linarith)
  have hS := F.abs_sin_le (F.fl (1 / 2 * θ))
  have ev : (F.ofAngleAxis θ a).vec = castV3 F.fl (F.sin (F.fl (1 / 2 * θ)) • a) := rfl
  have ev2 : (Quat.ofAngleAxis θ n).vec = Real.sin (1 / 2 * θ) • n := rfl
  rw [ev, ev2]
  generalize F.sin (F.fl (1 / 2 * θ)) = S at *
  generalize Real.sin (1 / 2 * θ) = s at *
  have e : castV3 F.fl (S • a) - s • n = (castV3 F.fl (S • a) - S • a) + (S • (a - n) + (S - s) • n) := by
    ext <;> simp <;> ring
  rw [e]
  refine (V3.norm_add_le _ _).trans ?_
  have k1 := castV3_err F.toFloatArith (S • a)
  rw [V3.norm_smul] at k1
  have k2 : F.u * (|S| * a.norm) ≤ 2 * F.u := by
    have : |S| * a.norm ≤ 1001 / 1000 * (101 / 100) := mul_le_mul hS han a.norm_nonneg (by norm_num)
    nlinarith
  have k3 := V3.norm_add_le (S • (a - n)) ((S - s) • n)
  rw [V3.norm_smul, V3.norm_smul, hn1, mul_one] at k3
  have k4 := mul_le_mul hS ha (V3.norm_nonneg _) (by norm_num)
  linarith

/-- Rounded product of quaternions that are close to unit quaternions. -/
lemma quatMul_dist {p q a b : Quat} (ha : a.normSq = 1) (hb : b.normSq = 1) {d e : ℝ} (hp : ‖toH p - toH a‖ ≤ d)
    (hq : ‖toH q - toH b‖ ≤ e) (hd : d ≤ 1 / 100) (he : e ≤ 1 / 100) :
    ‖toH (F.quatMul p q) - toH (a * b)‖ ≤ 101 / 100 * d + e + 9 * F.u := by
  have hu := F.u_nonneg
  have hd0 := (norm_nonneg _).trans hp
  have he0 := (norm_nonneg _).trans hq
  have na : ‖toH a‖ = 1 := by rw [norm_toH, unit_norm ha]
  have nb : ‖toH b‖ = 1 := by rw [norm_toH, unit_norm hb]
  have np : ‖toH p‖ ≤ 101 / 100 := by
    have := norm_add_le (toH p - toH a) (toH a)
    rw [sub_add_cancel] at this; linarith
  have nq : ‖toH q‖ ≤ 101 / 100 := by
    have := norm_add_le (toH q - toH b) (toH b)
    rw [sub_add_cancel] at this; linarith
  have h := quatMul_err F.toFloatArith p q
  have hm := quatMulErr_le F.toFloatArith
  have e1 : toH (F.quatMul p q) - toH (a * b) = (toH (F.quatMul p q) - toH p * toH q) +
      ((toH p - toH a) * toH q + toH a * (toH q - toH b)) := by
    rw [toH_mul]; noncomm_ring
  rw [e1]
  refine (norm_add_le _ _).trans ?_
  have k1 := norm_add_le ((toH p - toH a) * toH q) (toH a * (toH q - toH b))
  rw [norm_mul, norm_mul, na, one_mul] at k1
  have k2 : ‖toH p - toH a‖ * ‖toH q‖ ≤ d * (101 / 100) := mul_le_mul hp nq (norm_nonneg _) hd0
  have k3 : quatMulErr F.u * (‖toH p‖ * ‖toH q‖) ≤ 9 * F.u := by
    have a1 : ‖toH p‖ * ‖toH q‖ ≤ 101 / 100 * (101 / 100) := mul_le_mul np nq (norm_nonneg _) (by norm_num)
    have a2 := mul_le_mul hm a1 (by positivity) (by linarith)
    norm_num at a2 ⊢; linarith
  have k4 : ‖toH (F.quatMul p q) - toH p * toH q‖ ≤ quatMulErr F.u * (‖toH p‖ * ‖toH q‖) := by
    simpa [mul_assoc] using h
  linarith

/-- The product of three elementary rotations. -/
lemma triple_err {x y z : ℝ} {a b c : V3} (ha : a.normSq = 1) (hb : b.normSq = 1) (hc : c.normSq = 1)
    (hS : (6 + (|x| + |y| + |z|)) * F.u ≤ 1 / 1000) :
    ‖toH (F.quatMul (F.quatMul (F.ofAngleAxis x a) (F.ofAngleAxis y b)) (F.ofAngleAxis z c)) -
      toH (Quat.ofAngleAxis x a * Quat.ofAngleAxis y b * Quat.ofAngleAxis z c)‖ ≤ (38 + 11 / 10 * (|x| + |y| + |z|)) * F.u := by
  have hu := F.u_nonneg
  have hs := F.u_small
  have z0 : ∀ n : V3, (n - n).norm ≤ 0 := fun n => by rw [sub_self, V3.norm_zero]
  have h1 := F.ofAngleAxis_err x ha (z0 a) (by norm_num)
  have h2 := F.ofAngleAxis_err y hb (z0 b) (by norm_num)
  have h3 := F.ofAngleAxis_err z hc (z0 c) (by norm_num)
  have px := mul_nonneg (abs_nonneg x) hu
  have py := mul_nonneg (abs_nonneg y) hu
  have pz := mul_nonneg (abs_nonneg z) hu
  have u1 := normSq_ofAngleAxis x ha
  have u2 := normSq_ofAngleAxis y hb
  have u3 := normSq_ofAngleAxis z hc
  have k := F.quatMul_dist u1 u2 h1 h2 (by linarith) (by linarith)
  have k2 := F.quatMul_dist (by rw [Quat.normSq_mul, u1, u2, one_mul]) u3 k h3 (by linarith) (by linarith)
  refine k2.trans ?_
  linarith

/-! ### Shoemake's algorithm -/

lemma pivot_round {T t d : ℝ} (hT : 99 / 100 ≤ T) (hT4 : T ≤ 41 / 10) (h : |T - 4 * t ^ 2| ≤ 3 * (d + 4 * F.u)) (hd : d ≤ 1 / 2000) :
    ∃ σ : ℝ, (σ = 1 ∨ σ = -1) ∧ |F.fl (1 / 2 * F.fl (Real.sqrt T)) - σ * t| ≤ d + 7 * F.u ∧
      ∀ a x : ℝ, |a - 4 * (t * x)| ≤ 2 * d → |x| ≤ 1 → |a| ≤ 201 / 100 →
        |F.fl (F.fl a * F.fl (1 / 2 / F.fl (Real.sqrt T))) - σ * x| ≤ 27 / 10 * (d + 7 * F.u) := by
  have hu := F.u_nonneg
  have hs := F.u_small
  obtain ⟨σ, hσ, h1, h2⟩ := pivot_stable (d := d + 4 * F.u) (by linarith) h (by linarith)
  have hS1 : 99 / 100 ≤ Real.sqrt T := by apply Real.le_sqrt_of_sq_le; norm_num; linarith
  have hS2 : Real.sqrt T ≤ 205 / 100 := by
    rw [Real.sqrt_le_iff]; constructor <;> norm_num; linarith
  have hS0 : |Real.sqrt T| ≤ 205 / 100 := by rw [abs_of_nonneg (by linarith)]; exact hS2
  set S := Real.sqrt T with hSd
  have hs' : |F.fl S - S| ≤ 205 / 100 * F.u := F.fl_exact hS0
  set s := F.fl S with hsd
  obtain ⟨hs1, hs2⟩ := abs_le.mp hs'
  refine ⟨σ, hσ, ?_, ?_⟩
  · have k : |F.fl (1 / 2 * s) - S / 2| ≤ 205 / 100 * F.u + 1 / 10 * F.u := by
      have h0 : |1 / 2 * s - S / 2| ≤ 1025 / 1000 * F.u := by rw [abs_le]; constructor <;> linarith
      refine (F.fl_le h0 (M := 1026 / 1000) ?_ (by norm_num) (k' := 215 / 100) (by norm_num)).trans (by linarith)
      rw [abs_of_nonneg (by linarith)]; linarith
    have e : F.fl (1 / 2 * s) - σ * t = (F.fl (1 / 2 * s) - S / 2) + (S / 2 - σ * t) := by ring
    rw [e]; refine (abs_add_le _ _).trans ?_
    linarith
  · intro a x ha hx ha2
    have hsp : 98 / 100 ≤ s := by linarith
    have k1 : |1 / 2 / s - 1 / 2 / S| ≤ 11 / 10 * F.u := by
      have e : 1 / 2 / s - 1 / 2 / S = (S - s) / (2 * s * S) := by field_simp
      rw [e, abs_div, abs_of_pos (by positivity : 0 < 2 * s * S), div_le_iff₀ (by positivity), abs_sub_comm]
      have hsS : 97 / 100 ≤ s * S := by
        have := mul_le_mul hsp hS1 (by norm_num) (by linarith); linarith
      have := mul_le_mul_of_nonneg_left hsS hu
      linarith
    have b1 : |1 / 2 / S| ≤ 506 / 1000 := by
      rw [abs_of_pos (by positivity), div_le_iff₀ (by linarith)]; linarith
    have k2 := F.fl_le k1 b1 (by norm_num) (k' := 17 / 10) (by norm_num)
    have k3 : |F.fl a - a| ≤ 201 / 100 * F.u := F.fl_exact ha2
    have b2 : |F.fl (1 / 2 / s)| ≤ 51 / 100 := by
      have e : F.fl (1 / 2 / s) = (F.fl (1 / 2 / s) - 1 / 2 / S) + 1 / 2 / S := by ring
      rw [e]; exact (abs_add_le _ _).trans (by linarith)
    have k4 := abs_mul_sub_le k3 k2 ha2 b2
    have b3 : |a * (1 / 2 / S)| ≤ 1018 / 1000 := by
      rw [abs_mul]
      have := mul_le_mul ha2 b1 (abs_nonneg _) (by norm_num)
      linarith
    have k5 : |F.fl (F.fl a * F.fl (1 / 2 / s)) - a * (1 / 2 / S)| ≤ 6 * F.u :=
      F.fl_le (k := 45 / 10) (by linarith) b3 (by norm_num) (by norm_num)
    have k6 := h2 a x (by linarith) hx
    have e : F.fl (F.fl a * F.fl (1 / 2 / s)) - σ * x = (F.fl (F.fl a * F.fl (1 / 2 / s)) - a * (1 / 2 / S)) + (a * (1 / 2 / S) - σ * x) := by ring
    rw [e]; refine (abs_add_le _ _).trans ?_
    linarith

set_option maxHeartbeats 1000000 in
/-- Rounded Shoemake algorithm on a matrix within `d` of a rotation. -/
lemma ofMatrix_round {A R : M3} (hR : IsSO3 R) {d : ℝ} (h : EntryClose d A R) (hd : d ≤ 1 / 2000) :
    ∃ u : Quat, u.normSq = 1 ∧ sMat u = R ∧ ‖toH (F.ofMatrix A) - toH u‖ ≤ 5 * (d + 7 * F.u) := by
  have hF0 := F.u_nonneg
  have hFs := F.u_small
  have so := so3_entry_le hR
  obtain ⟨hu, hs⟩ := ofMatrix_spec hR
  generalize Quat.ofMatrix R = u at *
  subst hs
  obtain ⟨a00, a01, a02, a10, a11, a12, a20, a21, a22⟩ := h
  have hd0 : 0 ≤ d := (abs_nonneg _).trans a00
  obtain ⟨l00, g00⟩ := abs_le.mp a00
  obtain ⟨l01, g01⟩ := abs_le.mp a01
  obtain ⟨l02, g02⟩ := abs_le.mp a02
  obtain ⟨l10, g10⟩ := abs_le.mp a10
  obtain ⟨l11, g11⟩ := abs_le.mp a11
  obtain ⟨l12, g12⟩ := abs_le.mp a12
  obtain ⟨l20, g20⟩ := abs_le.mp a20
  obtain ⟨l21, g21⟩ := abs_le.mp a21
  obtain ⟨l22, g22⟩ := abs_le.mp a22
  clear a00 a01 a02 a10 a11 a12 a20 a21 a22
  have hu2 : u.w ^ 2 + u.x ^ 2 + u.y ^ 2 + u.z ^ 2 = 1 := by rw [← hu, Quat.normSq]; ring
  have o1 : (sMat u).m21 - (sMat u).m12 = 4 * (u.w * u.x) := by simp only [sMat]; ring
  have o2 : (sMat u).m02 - (sMat u).m20 = 4 * (u.w * u.y) := by simp only [sMat]; ring
  have o3 : (sMat u).m10 - (sMat u).m01 = 4 * (u.w * u.z) := by simp only [sMat]; ring
  have s1 : (sMat u).m21 + (sMat u).m12 = 4 * (u.y * u.z) := by simp only [sMat]; ring
  have s2 : (sMat u).m02 + (sMat u).m20 = 4 * (u.x * u.z) := by simp only [sMat]; ring
  have s3 : (sMat u).m10 + (sMat u).m01 = 4 * (u.x * u.y) := by simp only [sMat]; ring
  have d0 : (sMat u).m00 = 2 * u.w ^ 2 + 2 * u.x ^ 2 - 1 := by rw [← hu2]; simp only [sMat]; ring
  have d1 : (sMat u).m11 = 2 * u.w ^ 2 + 2 * u.y ^ 2 - 1 := by rw [← hu2]; simp only [sMat]; ring
  have d2 : (sMat u).m22 = 2 * u.w ^ 2 + 2 * u.z ^ 2 - 1 := by rw [← hu2]; simp only [sMat]; ring
  have comp : ∀ {t r : ℝ}, t ^ 2 + r = 1 → 0 ≤ r → |t| ≤ 1 := fun {t r} h1 h2 =>
    abs_le_of_sq_le_sq (by linarith) zero_le_one
  have cw : |u.w| ≤ 1 := comp (r := u.x ^ 2 + u.y ^ 2 + u.z ^ 2) (by linarith) (by positivity)
  have cx : |u.x| ≤ 1 := comp (r := u.w ^ 2 + u.y ^ 2 + u.z ^ 2) (by linarith) (by positivity)
  have cy : |u.y| ≤ 1 := comp (r := u.w ^ 2 + u.x ^ 2 + u.z ^ 2) (by linarith) (by positivity)
  have cz : |u.z| ≤ 1 := comp (r := u.w ^ 2 + u.x ^ 2 + u.y ^ 2) (by linarith) (by positivity)
  obtain ⟨D, hD⟩ : ∃ D, D = d + 7 * F.u := ⟨_, rfl⟩
  have hfin : D ^ 2 + (27 / 10 * D) ^ 2 + (27 / 10 * D) ^ 2 + (27 / 10 * D) ^ 2 ≤ (5 * D) ^ 2 := by ring_nf; linarith [sq_nonneg D]
  have h5 : 0 ≤ 5 * D := by rw [hD]; linarith
  have mk : ∀ {σ : ℝ} {p : Quat} {a b c e : ℝ}, (σ = 1 ∨ σ = -1) → |p.w - σ * u.w| ≤ a → |p.x - σ * u.x| ≤ b →
      |p.y - σ * u.y| ≤ c → |p.z - σ * u.z| ≤ e → a ^ 2 + b ^ 2 + c ^ 2 + e ^ 2 ≤ (5 * D) ^ 2 →
      ∃ v : Quat, v.normSq = 1 ∧ sMat v = sMat u ∧ ‖toH p - toH v‖ ≤ 5 * D := fun {σ p a b c e} hσ k0 k1 k2 k3 k => by
    refine ⟨⟨σ * u.w, σ * u.x, σ * u.y, σ * u.z⟩, ?_, sMat_sign hσ, dist_le_of_comp h5 k0 k1 k2 k3 k⟩
    have : σ * σ = 1 := by rcases hσ with rfl | rfl <;> norm_num
    simp only [Quat.normSq]; linear_combination (u.w ^ 2 + u.x ^ 2 + u.y ^ 2 + u.z ^ 2) * this + hu2
  have cw2 : u.w ^ 2 ≤ 1 := by nlinarith [sq_nonneg u.x, sq_nonneg u.y, sq_nonneg u.z]
  have w2 := sq_nonneg u.w
  have x2 := sq_nonneg u.x
  have y2 := sq_nonneg u.y
  have z2 := sq_nonneg u.z
  generalize sMat u = S at *
  -- the rounded squared pivots
  have tr : ∀ {a b c : ℝ}, |a| ≤ 1001 / 1000 → |b| ≤ 1001 / 1000 → |c| ≤ 1001 / 1000 →
      |F.fl (F.fl (F.fl (a - b) - c) + 1) - (a - b - c + 1)| ≤ 10 * F.u ∧
      |F.fl (a + F.fl (b + c)) - (a + (b + c))| ≤ 6 * F.u ∧
      |F.fl (F.fl (a + F.fl (b + c)) + 1) - (a + b + c + 1)| ≤ 11 * F.u := fun {a b c} ha hb hc => by
    obtain ⟨p1, p2⟩ := abs_le.mp ha
    obtain ⟨p3, p4⟩ := abs_le.mp hb
    obtain ⟨p5, p6⟩ := abs_le.mp hc
    have q1 : |F.fl (a - b) - (a - b)| ≤ 2002 / 1000 * F.u := F.fl_exact (by rw [abs_le]; constructor <;> linarith)
    have q2 : |F.fl (F.fl (a - b) - c) - (a - b - c)| ≤ 51 / 10 * F.u :=
      F.fl_le (k := 2002 / 1000) (M := 3003 / 1000) (by have e : F.fl (a - b) - c - (a - b - c) = F.fl (a - b) - (a - b) := by ring
                                                        rw [e]; exact q1)
        (by rw [abs_le]; constructor <;> linarith) (by norm_num) (by norm_num)
    have q3 : |F.fl (F.fl (F.fl (a - b) - c) + 1) - (a - b - c + 1)| ≤ 10 * F.u :=
      F.fl_le (k := 51 / 10) (M := 4003 / 1000) (by have e : F.fl (F.fl (a - b) - c) + 1 - (a - b - c + 1) = F.fl (F.fl (a - b) - c) - (a - b - c) := by ring
                                                    rw [e]; exact q2)
        (by rw [abs_le]; constructor <;> linarith) (by norm_num) (by norm_num)
    have r1 : |F.fl (b + c) - (b + c)| ≤ 2002 / 1000 * F.u := F.fl_exact (by rw [abs_le]; constructor <;> linarith)
    have r2 : |F.fl (a + F.fl (b + c)) - (a + (b + c))| ≤ 6 * F.u :=
      F.fl_le (k := 2002 / 1000) (M := 3003 / 1000) (by have e : a + F.fl (b + c) - (a + (b + c)) = F.fl (b + c) - (b + c) := by ring
                                                        rw [e]; exact r1)
        (by rw [abs_le]; constructor <;> linarith) (by norm_num) (by norm_num)
    refine ⟨q3, r2, F.fl_le (k := 6) (M := 4003 / 1000) ?_ (by rw [abs_le]; constructor <;> linarith) (by norm_num) (by norm_num)⟩
    have e : F.fl (a + F.fl (b + c)) + 1 - (a + b + c + 1) = F.fl (a + F.fl (b + c)) - (a + (b + c)) := by ring
    rw [e]; exact r2
  obtain ⟨b00, b01, b02, b10, b11, b12, b20, b21, b22⟩ := so
  simp only [sub_zero] at b00 b01 b02 b10 b11 b12 b20 b21 b22
  obtain ⟨m00, n00⟩ := abs_le.mp b00
  obtain ⟨m01, n01⟩ := abs_le.mp b01
  obtain ⟨m02, n02⟩ := abs_le.mp b02
  obtain ⟨m10, n10⟩ := abs_le.mp b10
  obtain ⟨m11, n11⟩ := abs_le.mp b11
  obtain ⟨m12, n12⟩ := abs_le.mp b12
  obtain ⟨m20, n20⟩ := abs_le.mp b20
  obtain ⟨m21, n21⟩ := abs_le.mp b21
  obtain ⟨m22, n22⟩ := abs_le.mp b22
  clear b00 b01 b02 b10 b11 b12 b20 b21 b22
  have e00 : |A.m00| ≤ 1001 / 1000 := by rw [abs_le]; constructor <;> linarith
  have e11 : |A.m11| ≤ 1001 / 1000 := by rw [abs_le]; constructor <;> linarith
  have e22 : |A.m22| ≤ 1001 / 1000 := by rw [abs_le]; constructor <;> linarith
  simp only [FloatLib.ofMatrix]
  rw [← hD]
  obtain ⟨t3, t4⟩ := abs_le.mp (tr e00 e11 e22).2.1
  split_ifs with c0 c1 c2 c2
  · obtain ⟨t1, t2⟩ := abs_le.mp (tr e00 e11 e22).2.2
    have t5 := (abs_le.mp (F.err (F.fl (A.m00 + F.fl (A.m11 + A.m22)) + 1))).1
    rw [abs_of_pos (by linarith)] at t5
    have t6 : 99 / 100 ≤ F.fl (F.fl (A.m00 + F.fl (A.m11 + A.m22)) + 1) := by nlinarith
    clear t5
    generalize F.fl (F.fl (A.m00 + F.fl (A.m11 + A.m22)) + 1) = T at *
    obtain ⟨σ, hσ, p0, pp⟩ := F.pivot_round (T := T) (t := u.w) (d := d) (by linarith) (by linarith)
      (by rw [abs_le]; constructor <;> linarith) hd
    rw [← hD] at p0 pp
    refine mk hσ p0 (pp _ _ ?_ cx ?_) (pp _ _ ?_ cy ?_) (pp _ _ ?_ cz ?_) (by linarith)
    all_goals rw [abs_le]; constructor <;> linarith
  · obtain ⟨t1, t2⟩ := abs_le.mp (tr e22 e00 e11).1
    generalize F.fl (F.fl (F.fl (A.m22 - A.m00) - A.m11) + 1) = T at *
    obtain ⟨σ, hσ, p0, pp⟩ := F.pivot_round (T := T) (t := u.z) (d := d) (by linarith) (by linarith)
      (by rw [abs_le]; constructor <;> linarith) hd
    rw [← hD] at p0 pp
    refine mk hσ (pp _ _ ?_ cw ?_) (pp _ _ ?_ cx ?_) (pp _ _ ?_ cy ?_) p0 (by linarith)
    all_goals rw [abs_le]; constructor <;> linarith
  · obtain ⟨t1, t2⟩ := abs_le.mp (tr e11 e22 e00).1
    generalize F.fl (F.fl (F.fl (A.m11 - A.m22) - A.m00) + 1) = T at *
    obtain ⟨σ, hσ, p0, pp⟩ := F.pivot_round (T := T) (t := u.y) (d := d) (by linarith) (by linarith)
      (by rw [abs_le]; constructor <;> linarith) hd
    rw [← hD] at p0 pp
    refine mk hσ (pp _ _ ?_ cw ?_) (pp _ _ ?_ cx ?_) p0 (pp _ _ ?_ cz ?_) (by linarith)
    all_goals rw [abs_le]; constructor <;> linarith
  · obtain ⟨t1, t2⟩ := abs_le.mp (tr e22 e00 e11).1
    generalize F.fl (F.fl (F.fl (A.m22 - A.m00) - A.m11) + 1) = T at *
    obtain ⟨σ, hσ, p0, pp⟩ := F.pivot_round (T := T) (t := u.z) (d := d) (by linarith) (by linarith)
      (by rw [abs_le]; constructor <;> linarith) hd
    rw [← hD] at p0 pp
    refine mk hσ (pp _ _ ?_ cw ?_) (pp _ _ ?_ cx ?_) (pp _ _ ?_ cy ?_) p0 (by linarith)
    all_goals rw [abs_le]; constructor <;> linarith
  · obtain ⟨t1, t2⟩ := abs_le.mp (tr e00 e11 e22).1
    generalize F.fl (F.fl (F.fl (A.m00 - A.m11) - A.m22) + 1) = T at *
    obtain ⟨σ, hσ, p0, pp⟩ := F.pivot_round (T := T) (t := u.x) (d := d) (by linarith) (by linarith)
      (by rw [abs_le]; constructor <;> linarith) hd
    rw [← hD] at p0 pp
    refine mk hσ (pp _ _ ?_ cw ?_) p0 (pp _ _ ?_ cy ?_) (pp _ _ ?_ cz ?_) (by linarith)
    all_goals rw [abs_le]; constructor <;> linarith

end FloatLib
end Kindr
