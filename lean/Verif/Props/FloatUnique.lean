import Verif.Model.FloatUnique
import Verif.Props.FloatLog
import Verif.Props.EulerUnique
import Verif.Props.Cast

/-!
# C90: `getUnique()` in floating point
-/

set_option autoImplicit false

open Classical

noncomputable section
namespace Kindr
open Spec

namespace FloatWide
variable (F : FloatWide)

/-- The same library with every rounding replaced by the one of `double`. -/
private def allWide : FloatWide where
  toFloatLib := { F.toFloatLib with fl := F.wide, err := F.wide_err }
  wide := F.wide
  mid := F.wide
  wide_err := F.wide_err
  mid_err := F.wide_err

/-- The angle wrapped by the Euler `getUnique()`. -/
lemma eulerWrap_spec {a : ℝ} (ha : |a| ≤ 30) :
    ∃ k : ℤ, |F.eulerWrap a - (a - 2 * Real.pi * k)| ≤ 435 * F.u ∧ |F.eulerWrap a| ≤ Real.pi + 50 * F.u := by
  have hu := F.u_nonneg
  have hus := F.u_small
  have hp1 := Real.pi_gt_d2
  have hp2 := Real.pi_lt_d2
  obtain ⟨w1, w2⟩ := abs_le.mp F.wide_pi
  obtain ⟨w, hw⟩ : ∃ w, w = F.wide Real.pi := ⟨_, rfl⟩
  rw [← hw] at w1 w2
  have b2 : |2 * w| ≤ 632 / 100 := by rw [abs_mul, abs_two, abs_of_pos (by linarith)]; linarith
  obtain ⟨y1, y2⟩ := abs_le.mp (F.err_le b2).2.1
  obtain ⟨y, hy⟩ : ∃ y, y = F.wide (2 * w) := ⟨_, rfl⟩
  rw [← hy] at y1 y2
  obtain ⟨a1, a2⟩ := abs_le.mp ha
  have b3 : |a + w| ≤ 335 / 10 := by rw [abs_le]; constructor <;> linarith
  obtain ⟨x1, x2⟩ := abs_le.mp (F.err_le b3).2.1
  obtain ⟨x, hx⟩ : ∃ x, x = F.wide (a + w) := ⟨_, rfl⟩
  rw [← hx] at x1 x2
  have e : F.eulerWrap a = F.fl (F.wide (F.moduloWide x y - w)) := by rw [eulerWrap, ← hw, ← hx, ← hy]
  rw [e]
  obtain ⟨k, k1, k2, k3, k4⟩ := F.allWide.modulo_spec (x := x) (y := y) (by rw [abs_le]; constructor <;> linarith) (by linarith)
    (by linarith)
  have eu : F.allWide.u = F.u := rfl
  have em : F.allWide.modulo x y = F.moduloWide x y := rfl
  rw [eu, em] at k2 k3 k4
  obtain ⟨m, hm⟩ : ∃ m, m = F.moduloWide x y := ⟨_, rfl⟩
  rw [← hm] at k2 k3 k4 ⊢
  have b4 : |m - w| ≤ 32 / 10 := by rw [abs_le]; constructor <;> linarith
  obtain ⟨f1, f2⟩ := abs_le.mp (F.err_le b4).2.1
  obtain ⟨g1, g2⟩ := abs_le.mp k2
  have hkr : |(k : ℝ)| ≤ 9 := by exact_mod_cast k1
  have hyk : |(y - 2 * Real.pi) * k| ≤ 13 * F.u * 9 := by
    rw [abs_mul]
    exact mul_le_mul (by rw [abs_le]; constructor <;> linarith) hkr (abs_nonneg _) (by linarith)
  obtain ⟨z1, z2⟩ := abs_le.mp hyk
  have b5 : |F.wide (m - w)| ≤ 33 / 10 := by rw [abs_le]; constructor <;> linarith
  obtain ⟨h1, h2⟩ := abs_le.mp (F.err_le b5).1
  refine ⟨k, ?_, ?_⟩
  · rw [abs_le]; constructor <;> linarith
  · rw [abs_le]; constructor <;> linarith

lemma bandEdge_spec {s t : ℝ} (hs : s = 1 ∨ s = -1) (ht : t = 1 ∨ t = -1) :
    |F.bandEdge s t - (s * (Real.pi / 2) + t * (1 / 1000))| ≤ 6 * F.u := by
  have hu := F.u_nonneg
  have hus := F.u_small
  have hp1 := Real.pi_gt_d2
  have hp2 := Real.pi_lt_d2
  obtain ⟨w1, w2⟩ := abs_le.mp F.wide_pi
  obtain ⟨w, hw⟩ : ∃ w, w = F.wide Real.pi := ⟨_, rfl⟩
  have ht1 : |eulerTol| ≤ 1 / 1000 := by rw [eulerTol]; norm_num
  have he := (F.err_le ht1).2.1
  obtain ⟨l, hl⟩ : ∃ l, l = F.wide eulerTol := ⟨_, rfl⟩
  rw [← hl, eulerTol] at he
  obtain ⟨l1, l2⟩ := abs_le.mp he
  rw [bandEdge, ← hl]
  rw [← hw] at w1 w2 ⊢
  have b1 : |s * w / 2| ≤ 16 / 10 := by rcases hs with rfl | rfl <;> (rw [abs_le]; constructor <;> linarith)
  obtain ⟨c1, c2⟩ := abs_le.mp (F.err_le b1).2.1
  obtain ⟨c, hc⟩ : ∃ c, c = F.wide (s * w / 2) := ⟨_, rfl⟩
  rw [← hc] at c1 c2 ⊢
  have b2 : |c + t * l| ≤ 17 / 10 := by
    rcases hs with rfl | rfl <;> rcases ht with rfl | rfl <;> (rw [abs_le]; constructor <;> linarith)
  obtain ⟨d1, d2⟩ := abs_le.mp (F.err_le b2).2.1
  rcases hs with rfl | rfl <;> rcases ht with rfl | rfl <;> (rw [abs_le]; constructor <;> linarith)

lemma halfTurn_spec {x : ℝ} (hx : |x| ≤ Real.pi + 50 * F.u) :
    ∃ s : ℝ, (s = 1 ∨ s = -1) ∧ |F.halfTurn x - (x + s * Real.pi)| ≤ 13 * F.u ∧ |F.halfTurn x| ≤ Real.pi + 70 * F.u := by
  have hu := F.u_nonneg
  have hus := F.u_small
  have hp1 := Real.pi_gt_d2
  have hp2 := Real.pi_lt_d2
  obtain ⟨w1, w2⟩ := abs_le.mp F.wide_pi
  obtain ⟨w, hw⟩ : ∃ w, w = F.wide Real.pi := ⟨_, rfl⟩
  rw [halfTurn]
  rw [← hw] at w1 w2 ⊢
  obtain ⟨x1, x2⟩ := abs_le.mp hx
  split_ifs with h
  · have b1 : |x + w| ≤ 32 / 10 := by rw [abs_le]; constructor <;> linarith
    obtain ⟨c1, c2⟩ := abs_le.mp (F.err_le b1).2.1
    have b2 : |F.wide (x + w)| ≤ 33 / 10 := by rw [abs_le]; constructor <;> linarith
    obtain ⟨d1, d2⟩ := abs_le.mp (F.err_le b2).1
    refine ⟨1, Or.inl rfl, ?_, ?_⟩ <;> (rw [abs_le]; constructor <;> linarith)
  · have b1 : |x - w| ≤ 32 / 10 := by rw [abs_le]; constructor <;> linarith
    obtain ⟨c1, c2⟩ := abs_le.mp (F.err_le b1).2.1
    have b2 : |F.wide (x - w)| ≤ 33 / 10 := by rw [abs_le]; constructor <;> linarith
    obtain ⟨d1, d2⟩ := abs_le.mp (F.err_le b2).1
    refine ⟨-1, Or.inr rfl, ?_, ?_⟩ <;> (rw [abs_le]; constructor <;> linarith)

/-- What the shared body does to the wrapped angles. -/
lemma eulerBody_spec {v : V3} (hx : |v.x| ≤ 30) (hy : |v.y| ≤ 30) (hz : |v.z| ≤ 30) :
    ∃ x y z : ℝ, (∃ k : ℤ, |x - (v.x - 2 * Real.pi * k)| ≤ 435 * F.u) ∧ (∃ k : ℤ, |y - (v.y - 2 * Real.pi * k)| ≤ 435 * F.u) ∧
      (∃ k : ℤ, |z - (v.z - 2 * Real.pi * k)| ≤ 435 * F.u) ∧
      (((∃ sx sy sz : ℝ, (sx = 1 ∨ sx = -1) ∧ (sy = 1 ∨ sy = -1) ∧ (sz = 1 ∨ sz = -1) ∧
          |(F.eulerUniqueBody v).x - (x + sx * Real.pi)| ≤ 13 * F.u ∧ |(F.eulerUniqueBody v).y - (sy * Real.pi - y)| ≤ 13 * F.u ∧
          |(F.eulerUniqueBody v).z - (z + sz * Real.pi)| ≤ 13 * F.u) ∨ F.eulerUniqueBody v = ⟨x, y, z⟩) ∧
        |(F.eulerUniqueBody v).x| ≤ Real.pi + 70 * F.u ∧ |(F.eulerUniqueBody v).y| ≤ Real.pi / 2 - 1 / 1000 + 70 * F.u ∧
        |(F.eulerUniqueBody v).z| ≤ Real.pi + 70 * F.u ∨
       ∃ s : ℝ, (s = 1 ∨ s = -1) ∧ |y - s * (Real.pi / 2)| ≤ 1 / 1000 + 6 * F.u ∧ |(F.eulerUniqueBody v).x - (x + s * z)| ≤ 7 * F.u ∧
        |(F.eulerUniqueBody v).x| ≤ 2 * Real.pi + 110 * F.u ∧ (F.eulerUniqueBody v).y = y ∧ (F.eulerUniqueBody v).z = 0) := by
  have hu := F.u_nonneg
  have hus := F.u_small
  have hp1 := Real.pi_gt_d2
  have hp2 := Real.pi_lt_d2
  obtain ⟨kx, x1, x2⟩ := F.eulerWrap_spec hx
  obtain ⟨ky, y1, y2⟩ := F.eulerWrap_spec hy
  obtain ⟨kz, z1, z2⟩ := F.eulerWrap_spec hz
  refine ⟨F.eulerWrap v.x, F.eulerWrap v.y, F.eulerWrap v.z, ⟨kx, x1⟩, ⟨ky, y1⟩, ⟨kz, z1⟩, ?_⟩
  simp only [eulerUniqueBody]
  clear x1 y1 z1
  generalize F.eulerWrap v.x = x at *
  generalize F.eulerWrap v.y = y at *
  generalize F.eulerWrap v.z = z at *
  obtain ⟨a1, a2⟩ := abs_le.mp (F.bandEdge_spec (s := -1) (t := -1) (Or.inr rfl) (Or.inr rfl))
  obtain ⟨b1, b2⟩ := abs_le.mp (F.bandEdge_spec (s := -1) (t := 1) (Or.inr rfl) (Or.inl rfl))
  obtain ⟨c1, c2⟩ := abs_le.mp (F.bandEdge_spec (s := 1) (t := -1) (Or.inl rfl) (Or.inr rfl))
  obtain ⟨d1, d2⟩ := abs_le.mp (F.bandEdge_spec (s := 1) (t := 1) (Or.inl rfl) (Or.inl rfl))
  generalize F.bandEdge (-1) (-1) = A at *
  generalize F.bandEdge (-1) 1 = B at *
  generalize F.bandEdge 1 (-1) = C at *
  generalize F.bandEdge 1 1 = D at *
  obtain ⟨y3, y4⟩ := abs_le.mp y2
  obtain ⟨x3, x4⟩ := abs_le.mp x2
  obtain ⟨z3, z4⟩ := abs_le.mp z2
  obtain ⟨w1, w2⟩ := abs_le.mp F.wide_pi
  obtain ⟨w, hw⟩ : ∃ w, w = F.wide Real.pi := ⟨_, rfl⟩
  rw [← hw] at w1 w2 ⊢
  obtain ⟨sx, hsx, p1, p2⟩ := F.halfTurn_spec x2
  obtain ⟨sz, hsz, q1, q2⟩ := F.halfTurn_spec z2
  split_ifs with h1 h2 h3 h4
  · have e1 : |y + w| ≤ 16 / 10 := by rw [abs_le]; constructor <;> linarith
    obtain ⟨f1, f2⟩ := abs_le.mp (F.err_le e1).2.1
    have e2 : |-F.wide (y + w)| ≤ 17 / 10 := by rw [abs_le]; constructor <;> linarith
    obtain ⟨g1, g2⟩ := abs_le.mp (F.err_le e2).1
    refine Or.inl ⟨Or.inl ⟨sx, -1, sz, hsx, Or.inr rfl, hsz, p1, ?_, q1⟩, p2, ?_, q2⟩
    · simp only; rw [abs_le]; constructor <;> linarith
    · simp only; rw [abs_le]; constructor <;> linarith
  · have e1 : |x - z| ≤ 64 / 10 := by rw [abs_le]; constructor <;> linarith
    obtain ⟨f1, f2⟩ := abs_le.mp (F.err_le e1).1
    refine Or.inr ⟨-1, Or.inr rfl, ?_, ?_, ?_, rfl, rfl⟩
    · rw [abs_le]; constructor <;> linarith [h2.1, h2.2]
    · simp only; rw [abs_le]; constructor <;> linarith
    · simp only; rw [abs_le]; constructor <;> linarith
  · refine Or.inl ⟨Or.inr rfl, x2.trans (by linarith), ?_, z2.trans (by linarith)⟩
    simp only; rw [abs_le]; constructor <;> linarith [h3.1, h3.2]
  · have e1 : |x + z| ≤ 64 / 10 := by rw [abs_le]; constructor <;> linarith
    obtain ⟨f1, f2⟩ := abs_le.mp (F.err_le e1).1
    refine Or.inr ⟨1, Or.inl rfl, ?_, ?_, ?_, rfl, rfl⟩
    · rw [abs_le]; constructor <;> linarith [h4.1, h4.2]
    · simp only; rw [abs_le]; constructor <;> linarith
    · simp only; rw [abs_le]; constructor <;> linarith
  · have hy : D < y := by
      by_contra hn
      push Not at hn h1
      by_cases k1 : y ≤ B
      · exact h2 ⟨h1, k1⟩
      · by_cases k2 : y < C
        · exact h3 ⟨lt_of_not_ge k1, k2⟩
        · exact h4 ⟨le_of_not_gt k2, hn⟩
    have e1 : |y - w| ≤ 16 / 10 := by rw [abs_le]; constructor <;> linarith
    obtain ⟨f1, f2⟩ := abs_le.mp (F.err_le e1).2.1
    have e2 : |-F.wide (y - w)| ≤ 17 / 10 := by rw [abs_le]; constructor <;> linarith
    obtain ⟨g1, g2⟩ := abs_le.mp (F.err_le e2).1
    refine Or.inl ⟨Or.inl ⟨sx, 1, sz, hsx, Or.inl rfl, hsz, p1, ?_, q1⟩, p2, ?_, q2⟩
    · simp only; rw [abs_le]; constructor <;> linarith
    · simp only; rw [abs_le]; constructor <;> linarith


lemma rXYZ_turn (a : ℝ) (k : ℤ) : rX (a - 2 * Real.pi * k) = rX a ∧ rY (a - 2 * Real.pi * k) = rY a ∧ rZ (a - 2 * Real.pi * k) = rZ a := by
  have e : a - 2 * Real.pi * k = a - k * (2 * Real.pi) := by ring
  rw [e]
  refine ⟨?_, ?_, ?_⟩ <;> simp [rX, rY, rZ, Real.cos_sub_int_mul_two_pi, Real.sin_sub_int_mul_two_pi]

/-- Three elementary rotations about two orders of axes with nearby angles. -/
lemma euler_close {a b c a' b' c' p q r : ℝ} (h1 : |a - a'| ≤ p) (h2 : |b - b'| ≤ q) (h3 : |c - c'| ≤ r) :
    Close (p + q + r) (rX a * rY b * rZ c) (rX a' * rY b' * rZ c') ∧
    Close (p + q + r) (rZ a * rY b * rX c) (rZ a' * rY b' * rX c') := by
  obtain ⟨x1, -, z1⟩ := rXYZ_close a a'
  obtain ⟨-, y1, -⟩ := rXYZ_close b b'
  obtain ⟨x2, -, z2⟩ := rXYZ_close c c'
  obtain ⟨sx, -, sz⟩ := rXYZ_isSO3 a'
  obtain ⟨sx', -, sz'⟩ := rXYZ_isSO3 c
  exact ⟨((x1.mono h1).mul (y1.mono h2) (rY_isSO3 _) sx).mul (z2.mono h3) sz' (SO3.mul sx (rY_isSO3 _)),
    ((z1.mono h1).mul (y1.mono h2) (rY_isSO3 _) sz).mul (x2.mono h3) sx' (SO3.mul sz (rY_isSO3 _))⟩

/-- Flipping all three angles is the same rotation. -/
lemma euler_flip {x y z a b c : ℝ} (ha : a = 1 ∨ a = -1) (hb : b = 1 ∨ b = -1) (hc : c = 1 ∨ c = -1) :
    rX (x + a * Real.pi) * rY (b * Real.pi - y) * rZ (z + c * Real.pi) = rX x * rY y * rZ z ∧
    rZ (z + c * Real.pi) * rY (b * Real.pi - y) * rX (x + a * Real.pi) = rZ z * rY y * rX x := by
  refine xyz_sign (s := -1) (by norm_num) ?_ ?_ ?_ ?_ ?_ ?_
  · rcases ha with rfl | rfl <;> simp [Real.cos_add]
  · rcases ha with rfl | rfl <;> simp [Real.sin_add]
  · rcases hb with rfl | rfl <;> simp [Real.cos_sub]
  · rcases hb with rfl | rfl <;> simp [Real.sin_sub]
  · rcases hc with rfl | rfl <;> simp [Real.cos_add]
  · rcases hc with rfl | rfl <;> simp [Real.sin_add]

/-- Moving the third angle into the first near gimbal lock; in the order zyx the sign is the other one. -/
lemma euler_lock {x y z s t : ℝ} (hs : s = 1 ∨ s = -1) (hy : |y - s * (Real.pi / 2)| ≤ t) :
    Close (2 * t) (rX (x + s * z) * rY y * rZ 0) (rX x * rY y * rZ z) ∧
    Close (2 * t) (rZ (x - s * z) * rY y * rX 0) (rZ x * rY y * rX z) := by
  have h0 : ∀ a : ℝ, |a - a| ≤ 0 := fun a => by simp
  have hy' : |s * (Real.pi / 2) - y| ≤ t := by rw [abs_sub_comm]; exact hy
  have z0 : rZ 0 = 1 := by ext <;> simp [rZ]
  have x0 : rX 0 = 1 := by ext <;> simp [rX]
  have a1 := (euler_close (h0 (x + s * z)) hy (h0 0)).1
  have a2 := (euler_close (h0 x) hy' (h0 z)).1
  have b1 := (euler_close (h0 (x - s * z)) hy (h0 0)).2
  have b2 := (euler_close (h0 x) hy' (h0 z)).2
  have e1 : rX (x + s * z) * rY (s * (Real.pi / 2)) * rZ 0 = rX x * rY (s * (Real.pi / 2)) * rZ z := by
    rw [z0, mul_one, rX_add, mul_assoc, mul_assoc]
    congr 1
    rcases hs with rfl | rfl
    · rw [one_mul, one_mul]; exact gimbal_pos z
    · rw [neg_one_mul, neg_one_mul]; exact gimbal_neg z
  have e2 : rZ (x - s * z) * rY (s * (Real.pi / 2)) * rX 0 = rZ x * rY (s * (Real.pi / 2)) * rX z := by
    rw [x0, mul_one, sub_eq_add_neg, rZ_add, mul_assoc, mul_assoc]
    congr 1
    rcases hs with rfl | rfl
    · rw [one_mul, one_mul]; exact gimbal_pos' z
    · rw [neg_one_mul, neg_one_mul, neg_neg]; exact gimbal_neg' z
  rw [e1] at a1
  rw [e2] at b1
  exact ⟨(a1.trans a2).mono (by linarith), (b1.trans b2).mono (by linarith)⟩

/-- The three wrapped angles. -/
lemma euler_wrapped {x y z a b c : ℝ} {p : ℝ} (hx : ∃ k : ℤ, |x - (a - 2 * Real.pi * k)| ≤ p)
    (hy : ∃ k : ℤ, |y - (b - 2 * Real.pi * k)| ≤ p) (hz : ∃ k : ℤ, |z - (c - 2 * Real.pi * k)| ≤ p) :
    Close (3 * p) (rX x * rY y * rZ z) (rX a * rY b * rZ c) ∧ Close (3 * p) (rZ x * rY y * rX z) (rZ a * rY b * rX c) := by
  obtain ⟨i, hi⟩ := hx
  obtain ⟨j, hj⟩ := hy
  obtain ⟨k, hk⟩ := hz
  have h := euler_close hi hj hk
  rw [(rXYZ_turn a i).1, (rXYZ_turn a i).2.2, (rXYZ_turn b j).2.1, (rXYZ_turn c k).1, (rXYZ_turn c k).2.2] at h
  exact ⟨h.1.mono (by linarith), h.2.mono (by linarith)⟩

/-- In the band the cosine is small. -/
private lemma cos_band {b y s t p : ℝ} (hs : s = 1 ∨ s = -1) (hy : ∃ k : ℤ, |y - (b - 2 * Real.pi * k)| ≤ p)
    (h : |y - s * (Real.pi / 2)| ≤ t) (htp : t + p ≤ 1) : |Real.cos b| ≤ Real.sin (t + p) := by
  obtain ⟨k, hk⟩ := hy
  have hpi := Real.pi_gt_three
  have e : Real.cos b = Real.cos (b - k * (2 * Real.pi)) := (Real.cos_sub_int_mul_two_pi b k).symm
  obtain ⟨d, hd⟩ : ∃ d, d = b - k * (2 * Real.pi) - s * (Real.pi / 2) := ⟨_, rfl⟩
  have hd1 : |d| ≤ t + p := by
    have h1 := abs_le.mp hk
    have h2 := abs_le.mp h
    rw [hd, abs_le]; constructor <;> linarith [h1.1, h1.2, h2.1, h2.2]
  have e2 : |Real.cos b| = |Real.sin d| := by
    have : b - k * (2 * Real.pi) = d + s * (Real.pi / 2) := by rw [hd]; ring
    rw [e, this]
    rcases hs with rfl | rfl
    · rw [one_mul, Real.cos_add_pi_div_two, abs_neg]
    · rw [neg_one_mul, ← sub_eq_add_neg, Real.cos_sub_pi_div_two]
  rw [e2]
  obtain ⟨d1, d2⟩ := abs_le.mp hd1
  rw [abs_le]
  constructor
  · rw [← Real.sin_neg]
    exact Real.sin_le_sin_of_le_of_le_pi_div_two (by linarith) (by linarith) d1
  · exact Real.sin_le_sin_of_le_of_le_pi_div_two (by linarith) (by linarith) d2

/-- Outside the band the cosine is not small. -/
private lemma cos_outside {b y t p : ℝ} (hy : ∃ k : ℤ, |y - (b - 2 * Real.pi * k)| ≤ p)
    (h : |y| ≤ Real.pi / 2 - t ∨ ∃ s : ℝ, (s = 1 ∨ s = -1) ∧ |s * Real.pi - y| ≤ Real.pi / 2 - t) (ht : p ≤ t) :
    Real.sin (t - p) ≤ |Real.cos b| := by
  obtain ⟨k, hk⟩ := hy
  have hpi := Real.pi_gt_three
  have e : Real.cos b = Real.cos (b - k * (2 * Real.pi)) := (Real.cos_sub_int_mul_two_pi b k).symm
  have h1 := abs_le.mp hk
  have main : ∀ d : ℝ, |d| ≤ Real.pi / 2 - (t - p) → Real.sin (t - p) ≤ Real.cos d := by
    intro d hd
    rw [← Real.cos_pi_div_two_sub, ← Real.cos_abs d]
    exact Real.cos_le_cos_of_nonneg_of_le_pi (abs_nonneg _) (by linarith) hd
  rcases h with h | ⟨s, hs, h⟩
  · have h2 := abs_le.mp h
    have := main (b - k * (2 * Real.pi)) (by rw [abs_le]; constructor <;> linarith [h1.1, h1.2, h2.1, h2.2])
    rw [e]; exact this.trans (le_abs_self _)
  · have h2 := abs_le.mp h
    have := main (s * Real.pi - (b - k * (2 * Real.pi))) (by rw [abs_le]; constructor <;> linarith [h1.1, h1.2, h2.1, h2.2])
    have e2 : Real.cos (s * Real.pi - (b - k * (2 * Real.pi))) = -Real.cos b := by
      rw [e]
      rcases hs with rfl | rfl
      · rw [one_mul, Real.cos_pi_sub]
      · rw [neg_one_mul, ← Real.cos_neg, neg_sub, sub_neg_eq_add, Real.cos_add_pi]
    rw [e2] at this
    exact this.trans (neg_le_abs _)

/-- Both Euler classes at once: `v` are the stored coefficients. -/
lemma body_rot {v : V3} (hx : |v.x| ≤ 30) (hy : |v.y| ≤ 30) (hz : |v.z| ≤ 30) :
    (Close (1350 * F.u) (rX (F.eulerUniqueBody v).x * rY (F.eulerUniqueBody v).y * rZ (F.eulerUniqueBody v).z) (rX v.x * rY v.y * rZ v.z) ∧
      Close (1350 * F.u) (rZ (F.eulerUniqueBody v).x * rY (F.eulerUniqueBody v).y * rX (F.eulerUniqueBody v).z) (rZ v.x * rY v.y * rX v.z) ∧
      (|(F.eulerUniqueBody v).x| ≤ Real.pi + 70 * F.u ∧ |(F.eulerUniqueBody v).y| ≤ Real.pi / 2 - 1 / 1000 + 70 * F.u ∧
        |(F.eulerUniqueBody v).z| ≤ Real.pi + 70 * F.u) ∧ Real.sin (1 / 1000 - 520 * F.u) ≤ |Real.cos v.y|) ∨
    (Close (2 / 1000 + 1350 * F.u) (rX (F.eulerUniqueBody v).x * rY (F.eulerUniqueBody v).y * rZ (F.eulerUniqueBody v).z)
        (rX v.x * rY v.y * rZ v.z) ∧
      (∃ s : ℝ, (s = 1 ∨ s = -1) ∧ Close (2 / 1000 + 2300 * F.u)
        (rZ (F.eulerUniqueBody v).x * rY (F.eulerUniqueBody v).y * rX (F.eulerUniqueBody v).z) (rZ (2 * s * v.z) * (rZ v.x * rY v.y * rX v.z))) ∧
      (|(F.eulerUniqueBody v).x| ≤ 2 * Real.pi + 110 * F.u ∧ |(F.eulerUniqueBody v).y| ≤ Real.pi / 2 + 1 / 1000 + 6 * F.u ∧
        (F.eulerUniqueBody v).z = 0) ∧ |Real.cos v.y| ≤ Real.sin (1 / 1000 + 450 * F.u)) := by
  have hu := F.u_nonneg
  have hus := F.u_small
  have hpi := Real.pi_gt_three
  obtain ⟨x, y, z, kx, ky, kz, h⟩ := F.eulerBody_spec hx hy hz
  obtain ⟨w1, w2⟩ := euler_wrapped kx ky kz
  generalize F.eulerUniqueBody v = r at *
  rcases h with ⟨h, r1, r2, r3⟩ | ⟨s, hs, h1, h2, h3, h4, h5⟩
  · left
    refine ⟨?_, ?_, ⟨r1, r2, r3⟩, ?_⟩
    · rcases h with ⟨a, b, c, ha, hb, hc, g1, g2, g3⟩ | rfl
      · have k := (euler_close g1 g2 g3).1
        rw [(euler_flip ha hb hc).1] at k
        exact (k.trans w1).mono (by linarith)
      · exact w1.mono (by linarith)
    · rcases h with ⟨a, b, c, ha, hb, hc, g1, g2, g3⟩ | rfl
      · have k := (euler_close g1 g2 g3).2
        rw [(euler_flip hc hb ha).2] at k
        exact (k.trans w2).mono (by linarith)
      · exact w2.mono (by linarith)
    · have := cos_outside (b := v.y) (t := 1 / 1000 - 85 * F.u) ky (by
        rcases h with ⟨a, b, c, ha, hb, hc, g1, g2, g3⟩ | rfl
        · right
          refine ⟨b, hb, ?_⟩
          have q1 := abs_le.mp g2
          have q2 := abs_le.mp r2
          rw [abs_le]; constructor <;> linarith [q1.1, q1.2, q2.1, q2.2]
        · left; exact r2.trans (by linarith)) (by linarith)
      rw [show (1 / 1000 - 85 * F.u - 435 * F.u : ℝ) = 1 / 1000 - 520 * F.u by ring] at this
      exact this
  · right
    have h0 : ∀ a : ℝ, |a - a| ≤ 0 := fun a => by simp
    have ey : |y| ≤ Real.pi / 2 + 1 / 1000 + 6 * F.u := by
      have q := abs_le.mp h1
      rw [abs_le]
      rcases hs with rfl | rfl <;> constructor <;> linarith [q.1, q.2]
    refine ⟨?_, ⟨s, hs, ?_⟩, ⟨h3, by rw [h4]; exact ey, h5⟩, ?_⟩
    · rw [h4, h5]
      have k := (euler_close h2 (h0 y) (h0 0)).1
      have l := (euler_lock (x := x) (z := z) hs h1).1
      exact ((k.trans l).trans w1).mono (by linarith)
    · rw [h4, h5]
      have k := (euler_close h2 (h0 y) (h0 0)).2
      have l := (euler_lock (x := x) (z := z) hs h1).2
      have e : rZ (x + s * z) * rY y * rX 0 = rZ (2 * s * z) * (rZ (x - s * z) * rY y * rX 0) := by
        rw [← mul_assoc, ← mul_assoc, ← rZ_add]
        congr 3; ring
      rw [e] at k
      have m : Close (2 * (435 * F.u)) (rZ (2 * s * z)) (rZ (2 * s * v.z)) := by
        obtain ⟨j, hj⟩ := kz
        have hs2 : |2 * s * z - 2 * s * (v.z - 2 * Real.pi * j)| ≤ 2 * (435 * F.u) := by
          have : 2 * s * z - 2 * s * (v.z - 2 * Real.pi * j) = 2 * s * (z - (v.z - 2 * Real.pi * j)) := by ring
          rw [this, abs_mul]
          have h2s : |2 * s| = 2 := by rcases hs with rfl | rfl <;> norm_num
          rw [h2s]; linarith
        have q := (rXYZ_close (2 * s * z) (2 * s * (v.z - 2 * Real.pi * j))).2.2.mono hs2
        have e3 : rZ (2 * s * (v.z - 2 * Real.pi * j)) = rZ (2 * s * v.z) := by
          rcases hs with rfl | rfl
          · have := (rXYZ_turn (2 * 1 * v.z) (2 * j)).2.2
            rw [← this]; congr 1; push_cast; ring
          · have := (rXYZ_turn (2 * -1 * v.z) (-(2 * j))).2.2
            rw [← this]; congr 1; push_cast; ring
        rwa [e3] at q
      have n := m.mul (l.trans w2) (SO3.mul (SO3.mul (rZ_isSO3 _) (rY_isSO3 _)) (rX_isSO3 _)) (rZ_isSO3 _)
      exact (k.trans n).mono (by linarith)
    · have := cos_band (b := v.y) hs ky h1 (by linarith)
      refine this.trans (Real.sin_le_sin_of_le_of_le_pi_div_two (by linarith) (by linarith) (by linarith))

lemma coeff_le {a b c M : ℝ} (h : |a| + |b| + |c| ≤ M) : |a| ≤ M ∧ |b| ≤ M ∧ |c| ≤ M :=
  ⟨by linarith [abs_nonneg b, abs_nonneg c], by linarith [abs_nonneg a, abs_nonneg c], by linarith [abs_nonneg a, abs_nonneg b]⟩

/-! ## The theorems -/

/-- **C90 (a).** `RotationQuaternion::getUnique()` involves no rounding: the stored numbers stand for the
same rotation exactly as well as before, and the first nonzero coefficient of the quaternion is positive. -/
theorem C90_quaternion (P : Prec) {q : Quat} {η δ : ℝ} {R : M3} (h : Rounded η δ .quat q R) (hη : η < 1) :
    Rounded η δ .quat (F.getUnique P .quat q) R ∧
    (0 < Quat.w (F.getUnique P .quat q) ∨ Quat.w (F.getUnique P .quat q) = 0 ∧
      (0 < Quat.x (F.getUnique P .quat q) ∨ Quat.x (F.getUnique P .quat q) = 0 ∧
        (0 < Quat.y (F.getUnique P .quat q) ∨ Quat.y (F.getUnique P .quat q) = 0 ∧ 0 < Quat.z (F.getUnique P .quat q)))) := by
  have hneg : Rounded η δ .quat (⟨-q.w, -q.x, -q.y, -q.z⟩ : Quat) R := by
    obtain ⟨h0, q', hv, h1, h2⟩ := h
    obtain ⟨q', rfl⟩ : ∃ p : Quat, p = q' := ⟨_, rfl⟩
    refine ⟨h0, (⟨-q'.w, -q'.x, -q'.y, -q'.z⟩ : Quat), ?_, ?_, ?_⟩
    · rw [valid_quat_iff] at hv ⊢
      rw [← hv]; simp [Quat.normSq]
    · simp only [OffBy] at h1 ⊢
      refine le_trans (le_of_eq ?_) h1
      ring
    · intro v
      have : act .quat (⟨-q'.w, -q'.x, -q'.y, -q'.z⟩ : Quat) v = act .quat q' v := by
        rw [act_eq_dmat, act_eq_dmat]
        congr 1
        change sMat _ = sMat _
        ext <;> simp [sMat]
      rw [this]; exact h2 v
  have hne : q ≠ ⟨0, 0, 0, 0⟩ := by
    rintro rfl
    obtain ⟨p, hp, h1, -⟩ := h.quat
    have e0 : toH (⟨0, 0, 0, 0⟩ : Quat) = 0 := by ext <;> rfl
    rw [e0, zero_sub, norm_neg, norm_toH, unit_norm hp] at h1
    linarith
  change Rounded η δ .quat (quatGetUnique q) R ∧ (0 < (quatGetUnique q).w ∨ (quatGetUnique q).w = 0 ∧ (0 < (quatGetUnique q).x ∨
    (quatGetUnique q).x = 0 ∧ (0 < (quatGetUnique q).y ∨ (quatGetUnique q).y = 0 ∧ 0 < (quatGetUnique q).z)))
  unfold quatGetUnique
  split_ifs with h1 h2 h3 h4 h5 h6 h7
  · exact ⟨h, Or.inl h1⟩
  · exact ⟨hneg, Or.inl (by simpa using h2)⟩
  · exact ⟨h, Or.inr ⟨by linarith, Or.inl h3⟩⟩
  · exact ⟨hneg, Or.inr ⟨by simp only; linarith, Or.inl (by simpa using h4)⟩⟩
  · exact ⟨h, Or.inr ⟨by linarith, Or.inr ⟨by linarith, Or.inl h5⟩⟩⟩
  · exact ⟨hneg, Or.inr ⟨by simp only; linarith, Or.inr ⟨by simp only; linarith, Or.inl (by simpa using h6)⟩⟩⟩
  · exact ⟨h, Or.inr ⟨by linarith, Or.inr ⟨by linarith, Or.inr ⟨by linarith, h7⟩⟩⟩⟩
  · refine ⟨hneg, Or.inr ⟨by simp only; linarith, Or.inr ⟨by simp only; linarith, Or.inr ⟨by simp only; linarith, ?_⟩⟩⟩⟩
    have hz : q.z ≠ 0 := fun hz => hne (by ext <;> simp only <;> linarith)
    have : q.z < 0 := lt_of_le_of_ne (not_lt.mp h7) hz
    simpa using this

/-- **C90 (a').** The same for the matrix: the nine stored numbers are unchanged. -/
theorem C90_matrix (P : Prec) (m : M3) : F.getUnique P .mat m = m := rfl

/-- **C90 (b).** `AngleAxis::getUnique()` in rounded arithmetic: the same rotation up to `450 u`, with an angle in `[0, π]` up to
rounding. -/
theorem C90_angle_axis (P : Prec) {η δ : ℝ} {a : AngAx} {R : M3} (h : Rounded η δ .aa a R) (hS : angleSize .aa a ≤ 30) :
    Rounded η (δ + 450 * F.u) .aa (F.getUnique P .aa a) R ∧
    0 ≤ AngAx.angle (F.getUnique P .aa a) ∧ AngAx.angle (F.getUnique P .aa a) ≤ Real.pi + 50 * F.u :=
  F.aaGetUnique_rounded h hS

/-- **C90 (c).** `RotationVector::getUnique()` in rounded arithmetic: the same rotation, with a length of at most `π`, up to rounding and
the thresholds of the code. -/
theorem C90_rotation_vector (P : Prec) {η δ : ℝ} {r : RotVec} {R : M3} (h : Rounded η δ .rv r R) (hS : angleSize .rv r ≤ 29)
    (hP : (11 + 6 * angleSize .rv r) * F.u + P.eps / 3000 ≤ 1 / 100000) :
    Rounded 0 (δ + 1500 * F.u + P.eps / 700 + 102 / 100 * P.dp) .rv (F.getUnique P .rv r) R ∧
    (RotVec.v (F.getUnique P .rv r)).norm ≤ Real.pi + 80 * F.u :=
  F.rvGetUnique_rounded P h hS hP

/-- **C90 (d).** `EulerAnglesXyz::getUnique()` in rounded arithmetic.  Whatever the angles, the rotation changes by at most `2e-3` (the
band around gimbal lock, C17) plus rounding; if the pitch angle is outside the band, by rounding only, and then the angles are in the
documented ranges up to rounding; inside the band the third angle is exactly zero. -/
theorem C90_xyz (P : Prec) (e : EulXyz) (hS : angleSize .xyz e ≤ 30) :
    (∀ v, (act .xyz (F.getUnique P .xyz e) v - act .xyz e v).norm ≤ (2 / 1000 + 1350 * F.u) * v.norm) ∧
    |EulXyz.x (F.getUnique P .xyz e)| ≤ 2 * Real.pi + 110 * F.u ∧
    |EulXyz.y (F.getUnique P .xyz e)| ≤ Real.pi / 2 + 1 / 1000 + 6 * F.u ∧
    |EulXyz.z (F.getUnique P .xyz e)| ≤ Real.pi + 70 * F.u ∧
    (Real.sin (1 / 1000 + 450 * F.u) < |Real.cos e.y| →
      (∀ v, (act .xyz (F.getUnique P .xyz e) v - act .xyz e v).norm ≤ 1350 * F.u * v.norm) ∧
      |EulXyz.x (F.getUnique P .xyz e)| ≤ Real.pi + 70 * F.u ∧
      |EulXyz.y (F.getUnique P .xyz e)| ≤ Real.pi / 2 - 1 / 1000 + 70 * F.u) ∧
    (|Real.cos e.y| < Real.sin (1 / 1000 - 520 * F.u) → EulXyz.z (F.getUnique P .xyz e) = 0) := by
  have hu := F.u_nonneg
  have hus := F.u_small
  have hpi := Real.pi_gt_three
  obtain ⟨s1, s2, s3⟩ := coeff_le (a := e.x) (b := e.y) (c := e.z) hS
  obtain ⟨b, hb⟩ : ∃ b, b = F.eulerUniqueBody ⟨e.x, e.y, e.z⟩ := ⟨_, rfl⟩
  have hr : F.getUnique P .xyz e = (⟨b⟩ : EulXyz) := by rw [hb]; rfl
  have h := F.body_rot (v := ⟨e.x, e.y, e.z⟩) s1 s2 s3
  rw [← hb] at h
  rw [hr]
  have ea : ∀ v, act .xyz (⟨b⟩ : EulXyz) v - act .xyz e v = (rX b.x * rY b.y * rZ b.z).mulVec v - (rX e.x * rY e.y * rZ e.z).mulVec v :=
    fun v => by rw [act_eq_dmat, act_eq_dmat]; rfl
  have ex : EulXyz.x (⟨b⟩ : EulXyz) = b.x := rfl
  have ey : EulXyz.y (⟨b⟩ : EulXyz) = b.y := rfl
  have ez : EulXyz.z (⟨b⟩ : EulXyz) = b.z := rfl
  rcases h with ⟨h1, -, ⟨h2, h3, h4⟩, h6⟩ | ⟨h1, -, ⟨h2, h3, h4⟩, h5⟩
  · refine ⟨fun v => ?_, h2.trans (by linarith), h3.trans (by linarith), h4, fun _ => ⟨fun v => ?_, h2, h3⟩, fun h => absurd h (not_lt.mpr h6)⟩
    · rw [ea]; exact (h1.mono (by linarith)) v
    · rw [ea]; exact h1 v
  · refine ⟨fun v => ?_, h2, h3, ?_, fun h => absurd h (not_lt.mpr h5), fun _ => h4⟩
    · rw [ea]; exact h1 v
    · rw [ez, h4, abs_zero]; linarith

/-- **C90 (e).** `EulerAnglesZyx::getUnique()` in rounded arithmetic, outside the band around gimbal lock: the rotation changes by
rounding only and the angles are in the documented ranges up to rounding. -/
theorem C90_zyx (P : Prec) (e : EulZyx) (hS : angleSize .zyx e ≤ 30) (h : Real.sin (1 / 1000 + 450 * F.u) < |Real.cos e.y|) :
    (∀ v, (act .zyx (F.getUnique P .zyx e) v - act .zyx e v).norm ≤ 1350 * F.u * v.norm) ∧
    |EulZyx.z (F.getUnique P .zyx e)| ≤ Real.pi + 70 * F.u ∧
    |EulZyx.y (F.getUnique P .zyx e)| ≤ Real.pi / 2 - 1 / 1000 + 70 * F.u ∧
    |EulZyx.x (F.getUnique P .zyx e)| ≤ Real.pi + 70 * F.u := by
  obtain ⟨s1, s2, s3⟩ := coeff_le (a := e.x) (b := e.y) (c := e.z) hS
  obtain ⟨b, hb⟩ : ∃ b, b = F.eulerUniqueBody ⟨e.z, e.y, e.x⟩ := ⟨_, rfl⟩
  have hr : F.getUnique P .zyx e = (⟨b⟩ : EulZyx) := by rw [hb]; rfl
  have h' := F.body_rot (v := ⟨e.z, e.y, e.x⟩) s3 s2 s1
  rw [← hb] at h'
  rw [hr]
  have ea : ∀ v, act .zyx (⟨b⟩ : EulZyx) v - act .zyx e v = (rZ b.x * rY b.y * rX b.z).mulVec v - (rZ e.z * rY e.y * rX e.x).mulVec v :=
    fun v => by rw [act_eq_dmat, act_eq_dmat]; rfl
  rcases h' with ⟨-, h1, ⟨h2, h3, h4⟩, -⟩ | ⟨-, -, -, h5⟩
  · exact ⟨fun v => by rw [ea]; exact h1 v, h2, h3, h4⟩
  · exact absurd h (not_lt.mpr h5)

/-- **C90 (f), finding.** Inside the band `EulerAnglesZyx::getUnique()` in rounded arithmetic changes the rotation by twice the roll
angle, up to `4e-3` (and stores the roll angle zero): the error of the code (C18) is not an artefact of exact arithmetic. -/
theorem C90_zyx_band (P : Prec) (e : EulZyx) (hS : angleSize .zyx e ≤ 30) (h : |Real.cos e.y| < Real.sin (1 / 1000 - 520 * F.u)) :
    |rotAngle (den .zyx (F.getUnique P .zyx e) * (den .zyx e).transpose) - Real.arccos (Real.cos (2 * e.x))| ≤ 4 / 1000 + 4600 * F.u ∧
    EulZyx.x (F.getUnique P .zyx e) = 0 := by
  obtain ⟨s1, s2, s3⟩ := coeff_le (a := e.x) (b := e.y) (c := e.z) hS
  obtain ⟨b, hb⟩ : ∃ b, b = F.eulerUniqueBody ⟨e.z, e.y, e.x⟩ := ⟨_, rfl⟩
  have hr : F.getUnique P .zyx e = (⟨b⟩ : EulZyx) := by rw [hb]; rfl
  have h' := F.body_rot (v := ⟨e.z, e.y, e.x⟩) s3 s2 s1
  rw [← hb] at h'
  rw [hr, den_eq, den_eq]
  rcases h' with ⟨-, -, -, h5⟩ | ⟨-, ⟨s, hs, h1⟩, ⟨-, -, hz⟩, -⟩
  · exact absurd h (not_lt.mpr h5)
  · refine ⟨?_, hz⟩
    change |rotAngle ((rZ b.x * rY b.y * rX b.z) * (rZ e.z * rY e.y * rX e.x).transpose) - _| ≤ _
    have hE : IsSO3 (rZ e.z * rY e.y * rX e.x) := SO3.mul (SO3.mul (rZ_isSO3 _) (rY_isSO3 _)) (rX_isSO3 _)
    have hB : IsSO3 (rZ b.x * rY b.y * rX b.z) := SO3.mul (SO3.mul (rZ_isSO3 _) (rY_isSO3 _)) (rX_isSO3 _)
    have k := h1.mul_right (SO3.transpose hE)
    rw [mul_assoc (rZ (2 * s * e.x)), hE.1, mul_one] at k
    have := rotAngle_close (SO3.mul hB (SO3.transpose hE)) (rZ_isSO3 _) k
    have er : rotAngle (rZ (2 * s * e.x)) = Real.arccos (Real.cos (2 * e.x)) := by
      have hc : Real.cos (2 * s * e.x) = Real.cos (2 * e.x) := by
        rcases hs with rfl | rfl
        · rw [mul_one]
        · rw [← Real.cos_neg]; congr 1; ring
      have ht : (rZ (2 * s * e.x)).trace = 1 + 2 * Real.cos (2 * e.x) := by
        rw [← hc]; simp [M3.trace, rZ]; ring
      rw [rotAngle, ht]; congr 1; ring
    rw [er] at this
    exact this.trans (by linarith)

/-- **C90 (g).** With exact operations these are the functions of C14–C18. -/
theorem C90_exact_operations (P : Prec) (k : Kind) (r : Rep k) : exact.getUnique P k r = Kindr.getUnique P k r := by
  have hw : ∀ x, exact.eulerWrap x = Kindr.floatingPointModulo (x + Real.pi) (2 * Real.pi) - Real.pi := fun x =>
    congrArg (fun m => m - Real.pi) (exact_modulo _)
  have b1 : exact.bandEdge (-1) (-1) = -Real.pi / 2 - eulerTol := by
    change -1 * Real.pi / 2 + -1 * eulerTol = _; ring
  have b2 : exact.bandEdge (-1) 1 = -Real.pi / 2 + eulerTol := by
    change -1 * Real.pi / 2 + 1 * eulerTol = _; ring
  have b3 : exact.bandEdge 1 (-1) = Real.pi / 2 - eulerTol := by
    change 1 * Real.pi / 2 + -1 * eulerTol = _; ring
  have b4 : exact.bandEdge 1 1 = Real.pi / 2 + eulerTol := by
    change 1 * Real.pi / 2 + 1 * eulerTol = _; ring
  have hb : ∀ v, exact.eulerUniqueBody v = Kindr.eulerUniqueBody v := fun v => by
    simp only [eulerUniqueBody, Kindr.eulerUniqueBody, hw, b1, b2, b3, b4]
    rfl
  cases k
  · rfl
  · rfl
  · have hw' : ∀ x, exact.wrapPosNegPI x = Kindr.wrapPosNegPI x := fun x => congrArg (fun m => m - Real.pi) (exact_modulo _)
    change exact.aaGetUnique r = Kindr.aaGetUnique r
    simp only [aaGetUnique, Kindr.aaGetUnique, hw']
    rfl
  · have h := (C87_exact_operations P .rv .rv r r 0).1
    exact congrArg RotVec.mk h
  · change (⟨exact.eulerUniqueBody _⟩ : EulXyz) = _
    rw [hb]; rfl
  · change (⟨exact.eulerUniqueBody _⟩ : EulZyx) = _
    rw [hb]; rfl

/-- non-vacuity: yaw 1, pitch 1/2, roll 20 (more than three turns) in `double`. -/
example (v : V3) : (act .zyx (double.getUnique Prec.double .zyx (EulZyx.mk3 1 (1 / 2) 20)) v - act .zyx (EulZyx.mk3 1 (1 / 2) 20) v).norm ≤
    1350 * 2⁻¹ ^ 53 * v.norm := by
  refine (C90_zyx double Prec.double _ ?_ ?_).1 v
  · change |(20 : ℝ)| + |1 / 2| + |1| ≤ 30
    norm_num
  · change _ < |Real.cos (1 / 2)|
    have hpi := Real.pi_gt_d4
    have hpi2 := Real.pi_lt_d4
    have hu : double.u = 2⁻¹ ^ 53 := rfl
    rw [hu, ← Real.sin_pi_div_two_sub (1 / 2), abs_of_nonneg (Real.sin_nonneg_of_nonneg_of_le_pi (by linarith) (by linarith))]
    exact Real.sin_lt_sin_of_lt_of_le_pi_div_two (by norm_num; linarith) (by linarith) (by norm_num; linarith)

/-- The finding for concrete angles in `double`: yaw 0, pitch 1.5707, roll 1.5 becomes a rotation more than 2.9 rad away. -/
theorem C90_zyx_band_example :
    29 / 10 ≤ rotAngle (den .zyx (double.getUnique Prec.double .zyx (EulZyx.mk3 0 (15707 / 10000) (3 / 2))) *
      (den .zyx (EulZyx.mk3 0 (15707 / 10000) (3 / 2))).transpose) := by
  have hpi := Real.pi_gt_d4
  have hpi2 := Real.pi_lt_d4
  have hu : double.u = 2⁻¹ ^ 53 := rfl
  have h := C90_zyx_band double Prec.double (EulZyx.mk3 0 (15707 / 10000) (3 / 2)) (by
    change |(3 / 2 : ℝ)| + |15707 / 10000| + |0| ≤ 30
    norm_num) (by
    change |Real.cos (15707 / 10000)| < _
    rw [hu, ← Real.sin_pi_div_two_sub, abs_of_nonneg (Real.sin_nonneg_of_nonneg_of_le_pi (by linarith) (by linarith))]
    exact Real.sin_lt_sin_of_lt_of_le_pi_div_two (by linarith) (by norm_num; linarith) (by norm_num; linarith))
  have e : Real.arccos (Real.cos (2 * EulZyx.x (EulZyx.mk3 0 (15707 / 10000) (3 / 2)))) = 3 := by
    change Real.arccos (Real.cos (2 * (3 / 2))) = 3
    rw [Real.arccos_cos (by norm_num) (by linarith)]; norm_num
  rw [e, hu] at h
  have := (abs_le.mp h.1).1
  norm_num at this ⊢
  linarith

end FloatWide
end Kindr
