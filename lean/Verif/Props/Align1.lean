import Verif.Props.Range5

set_option autoImplicit false

open Classical

noncomputable section
namespace Kindr
open Spec
namespace Align

/-- A rounding with relative error `u`, up to a negligible absolute error. -/
structure Rd (R : ℝ → ℝ) (u : ℝ) : Prop where
  pos : 0 < u
  le : u ≤ 1 / 2 ^ 24
  err : ∀ x, |R x - x| ≤ u * |x| + u / 10 ^ 6

variable {R : ℝ → ℝ} {u : ℝ}

/-- A rounded number of magnitude at most `B`. -/
lemma Rd.abs (h : Rd R u) {x B : ℝ} (hx : |x| ≤ B) : |R x - x| ≤ u * B + u / 10 ^ 6 :=
  (h.err x).trans (by have := mul_le_mul_of_nonneg_left hx h.pos.le; linarith)

lemma abs_mul_sub {a b a' b' e : ℝ} (ha : |a' - a| ≤ e) (hb : |b' - b| ≤ e) : |a' * b' - a * b| ≤ e * (|a| + |b|) + e ^ 2 := by
  have e0 : 0 ≤ e := le_trans (abs_nonneg _) ha
  have : a' * b' - a * b = (a' - a) * b + a * (b' - b) + (a' - a) * (b' - b) := by ring
  rw [this]
  refine (abs_add_three _ _ _).trans ?_
  rw [abs_mul, abs_mul, abs_mul]
  have h1 := mul_le_mul_of_nonneg_right ha (abs_nonneg b)
  have h2 := mul_le_mul_of_nonneg_left hb (abs_nonneg a)
  have h3 := mul_le_mul ha hb (abs_nonneg _) e0
  nlinarith

lemma prod_err (h : Rd R u) {a b a' b' : ℝ} (a1 : |a| ≤ 1) (b1 : |b| ≤ 1) (ha : |a' - a| ≤ 6 * u) (hb : |b' - b| ≤ 6 * u) :
    |R (a' * b') - a * b| ≤ 6 * u * (|a| + |b|) + u * |a * b| + u / 10 ^ 5 := by
  have u0 := h.pos; have u1 := h.le
  have e1 := abs_mul_sub ha hb
  have uu : u * u ≤ u / 2 ^ 24 := by nlinarith
  have e2 : |a' * b'| ≤ |a * b| + 13 * u := by
    have : |a' * b'| ≤ |a' * b' - a * b| + |a * b| := by
      have := abs_sub_abs_le_abs_sub (a' * b') (a * b); linarith
    nlinarith [abs_nonneg a, abs_nonneg b]
  have e3 := h.abs e2
  have := abs_sub_le (R (a' * b')) (a' * b') (a * b)
  nlinarith

lemma sum3_le {x y z : ℝ} (h : x ^ 2 + y ^ 2 + z ^ 2 = 1) : |x| + |y| + |z| ≤ 7 / 4 := by
  rw [← sq_abs x, ← sq_abs y, ← sq_abs z] at h
  nlinarith [sq_nonneg (|x| - |y|), sq_nonneg (|y| - |z|), sq_nonneg (|x| - |z|), abs_nonneg x, abs_nonneg y, abs_nonneg z]

lemma sum2_le {x y : ℝ} (h : x ^ 2 + y ^ 2 ≤ 1) : |x| + |y| ≤ 17 / 12 := by
  rw [← sq_abs x, ← sq_abs y] at h
  nlinarith [sq_nonneg (|x| - |y|), abs_nonneg x, abs_nonneg y]

lemma abs_mul_le_half (x y : ℝ) : |x * y| ≤ (x ^ 2 + y ^ 2) / 2 := by
  rw [abs_le]; constructor <;> nlinarith [sq_nonneg (x - y), sq_nonneg (x + y)]

lemma coord_le {x y z : ℝ} (h : x ^ 2 + y ^ 2 + z ^ 2 = 1) : |x| ≤ 1 ∧ |y| ≤ 1 ∧ |z| ≤ 1 :=
  ⟨abs_le_of_sq_le_sq (by nlinarith [sq_nonneg y, sq_nonneg z]) one_pos.le, abs_le_of_sq_le_sq (by nlinarith [sq_nonneg x, sq_nonneg z]) one_pos.le,
    abs_le_of_sq_le_sq (by nlinarith [sq_nonneg x, sq_nonneg y]) one_pos.le⟩

lemma dot_err (h : Rd R u) {ax ay az bx bY bz ax' ay' az' bx' bY' bz' : ℝ} (ha : ax ^ 2 + ay ^ 2 + az ^ 2 = 1) (hb : bx ^ 2 + bY ^ 2 + bz ^ 2 = 1)
    (a1 : |ax' - ax| ≤ 6 * u) (a2 : |ay' - ay| ≤ 6 * u) (a3 : |az' - az| ≤ 6 * u)
    (b1 : |bx' - bx| ≤ 6 * u) (b2 : |bY' - bY| ≤ 6 * u) (b3 : |bz' - bz| ≤ 6 * u) :
    |R (R (R (ax' * bx') + R (ay' * bY')) + R (az' * bz')) - (ax * bx + ay * bY + az * bz)| ≤ 25 * u ∧
    |R (ax' * bx')| ≤ 2 ∧ |R (ay' * bY')| ≤ 2 ∧ |R (az' * bz')| ≤ 2 ∧ |R (R (ax' * bx') + R (ay' * bY'))| ≤ 2 ∧
    |R (ax' * bx') + R (ay' * bY')| ≤ 2 ∧ |R (R (ax' * bx') + R (ay' * bY')) + R (az' * bz')| ≤ 2 := by
  have u0 := h.pos; have u1 := h.le
  have u2 : u ≤ 1 / 10 ^ 7 := by norm_num at u1 ⊢; linarith
  obtain ⟨ca1, ca2, ca3⟩ := coord_le ha
  obtain ⟨cb1, cb2, cb3⟩ := coord_le hb
  have p1 := prod_err h ca1 cb1 a1 b1
  have p2 := prod_err h ca2 cb2 a2 b2
  have p3 := prod_err h ca3 cb3 a3 b3
  have sa := sum3_le ha; have sb := sum3_le hb
  have m1 := abs_mul_le_half ax bx; have m2 := abs_mul_le_half ay bY; have m3 := abs_mul_le_half az bz
  obtain ⟨P1, e1⟩ : ∃ P, P = R (ax' * bx') := ⟨_, rfl⟩
  obtain ⟨P2, e2⟩ : ∃ P, P = R (ay' * bY') := ⟨_, rfl⟩
  obtain ⟨P3, e3⟩ : ∃ P, P = R (az' * bz') := ⟨_, rfl⟩
  rw [← e1] at p1; rw [← e2] at p2; rw [← e3] at p3
  rw [← e1, ← e2, ← e3]
  have M : |ax * bx| + |ay * bY| + |az * bz| ≤ 1 := by linarith
  have uM := mul_le_mul_of_nonneg_left M u0.le
  have uS : u * (|ax| + |ay| + |az| + (|bx| + |bY| + |bz|)) ≤ u * (7 / 2) := mul_le_mul_of_nonneg_left (by linarith) u0.le
  have ua : ∀ x : ℝ, 0 ≤ u * |x| := fun x => by positivity
  have hP12 : |P1 + P2 - (ax * bx + ay * bY)| + |P3 - az * bz| ≤ 2201 / 100 * u := by
    have := abs_add_le (P1 - ax * bx) (P2 - ay * bY)
    rw [show P1 - ax * bx + (P2 - ay * bY) = P1 + P2 - (ax * bx + ay * bY) by ring] at this
    linarith
  have i1 : |P1| ≤ 2 := by
    have := abs_sub_abs_le_abs_sub P1 (ax * bx)
    linarith [abs_nonneg (ay * bY), abs_nonneg (az * bz), ua ay, ua az, ua bY, ua bz, ua (ay * bY), ua (az * bz)]
  have i2 : |P2| ≤ 2 := by
    have := abs_sub_abs_le_abs_sub P2 (ay * bY)
    linarith [abs_nonneg (ax * bx), abs_nonneg (az * bz), ua ax, ua az, ua bx, ua bz, ua (ax * bx), ua (az * bz)]
  have i3 : |P3| ≤ 2 := by
    have := abs_sub_abs_le_abs_sub P3 (az * bz)
    linarith [abs_nonneg (ax * bx), abs_nonneg (ay * bY), ua ax, ua ay, ua bx, ua bY, ua (ax * bx), ua (ay * bY)]
  have h3 := abs_nonneg (P3 - az * bz)
  have i4 : |P1 + P2| ≤ 101 / 100 := by
    have t1 := abs_sub_abs_le_abs_sub (P1 + P2) (ax * bx + ay * bY)
    have t2 := abs_add_le (ax * bx) (ay * bY)
    linarith [abs_nonneg (az * bz)]
  have q1 := h.abs i4
  obtain ⟨Q, hQ⟩ : ∃ Q, Q = R (P1 + P2) := ⟨_, rfl⟩
  rw [← hQ] at q1 ⊢
  have q2 : |Q + P3 - (ax * bx + ay * bY + az * bz)| ≤ 2303 / 100 * u := by
    have t := abs_add_three (Q - (P1 + P2)) (P1 + P2 - (ax * bx + ay * bY)) (P3 - az * bz)
    rw [show Q - (P1 + P2) + (P1 + P2 - (ax * bx + ay * bY)) + (P3 - az * bz) = Q + P3 - (ax * bx + ay * bY + az * bz) by ring] at t
    linarith
  have i5 : |Q + P3| ≤ 101 / 100 := by
    have t1 := abs_sub_abs_le_abs_sub (Q + P3) (ax * bx + ay * bY + az * bz)
    have t2 := abs_add_three (ax * bx) (ay * bY) (az * bz)
    linarith
  have q3 := h.abs i5
  refine ⟨?_, i1, i2, i3, ?_, by linarith, by linarith⟩
  · have := abs_sub_le (R (Q + P3)) (Q + P3) (ax * bx + ay * bY + az * bz)
    linarith
  · have := abs_sub_abs_le_abs_sub Q (P1 + P2)
    linarith

lemma cross_err (h : Rd R u) {ay az bY bz ay' az' bY' bz' : ℝ} (ha : ay ^ 2 + az ^ 2 ≤ 1) (hb : bY ^ 2 + bz ^ 2 ≤ 1)
    (a2 : |ay' - ay| ≤ 6 * u) (a3 : |az' - az| ≤ 6 * u) (b2 : |bY' - bY| ≤ 6 * u) (b3 : |bz' - bz| ≤ 6 * u) :
    |R (R (ay' * bz') + -R (az' * bY')) - (ay * bz - az * bY)| ≤ 20 * u ∧ |R (ay' * bz')| ≤ 2 ∧ |R (az' * bY')| ≤ 2 ∧
    |R (ay' * bz') + -R (az' * bY')| ≤ 2 := by
  have u0 := h.pos; have u1 := h.le
  have u2 : u ≤ 1 / 10 ^ 7 := by norm_num at u1 ⊢; linarith
  have c : ∀ x y : ℝ, x ^ 2 + y ^ 2 ≤ 1 → |x| ≤ 1 ∧ |y| ≤ 1 := fun x y h =>
    ⟨abs_le_of_sq_le_sq (by nlinarith [sq_nonneg y]) one_pos.le, abs_le_of_sq_le_sq (by nlinarith [sq_nonneg x]) one_pos.le⟩
  have p1 := prod_err h (c _ _ ha).1 (c _ _ hb).2 a2 b3
  have p2 := prod_err h (c _ _ ha).2 (c _ _ hb).1 a3 b2
  have sa := sum2_le ha; have sb := sum2_le hb
  have m1 := abs_mul_le_half ay bz; have m2 := abs_mul_le_half az bY
  obtain ⟨P1, e1⟩ : ∃ P, P = R (ay' * bz') := ⟨_, rfl⟩
  obtain ⟨P2, e2⟩ : ∃ P, P = R (az' * bY') := ⟨_, rfl⟩
  rw [← e1] at p1; rw [← e2] at p2
  rw [← e1, ← e2]
  have M : |ay * bz| + |az * bY| ≤ 1 := by linarith
  have uM := mul_le_mul_of_nonneg_left M u0.le
  have uS : u * (|ay| + |az| + (|bY| + |bz|)) ≤ u * (17 / 6) := mul_le_mul_of_nonneg_left (by linarith) u0.le
  have hP : |P1 + -P2 - (ay * bz - az * bY)| ≤ 1801 / 100 * u := by
    have := abs_sub (P1 - ay * bz) (P2 - az * bY)
    rw [show P1 - ay * bz - (P2 - az * bY) = P1 + -P2 - (ay * bz - az * bY) by ring] at this
    linarith
  have ua : ∀ x : ℝ, 0 ≤ u * |x| := fun x => by positivity
  have k1 := ua ay; have k2 := ua az; have k3 := ua bY; have k4 := ua bz; have k5 := ua (ay * bz); have k6 := ua (az * bY)
  have i1 : |P1| ≤ 2 := by
    have := abs_sub_abs_le_abs_sub P1 (ay * bz)
    linarith [abs_nonneg (az * bY)]
  have i2 : |P2| ≤ 2 := by
    have := abs_sub_abs_le_abs_sub P2 (az * bY)
    linarith [abs_nonneg (ay * bz)]
  have i4 : |P1 + -P2| ≤ 101 / 100 := by
    have t1 := abs_sub_abs_le_abs_sub (P1 + -P2) (ay * bz - az * bY)
    have t2 := abs_sub (ay * bz) (az * bY)
    linarith
  have q1 := h.abs i4
  refine ⟨?_, i1, i2, by linarith⟩
  have := abs_sub_le (R (P1 + -P2)) (P1 + -P2) (ay * bz - az * bY)
  linarith

end Align
end Kindr
