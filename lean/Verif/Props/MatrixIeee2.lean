import Verif.Props.MatrixIeee1
import Verif.Props.VecIeee3

/-!
# Rotation matrices in IEEE arithmetic: the debug-build constructor (C118)
-/

set_option autoImplicit false

open Classical

noncomputable section
namespace Kindr
open Spec
namespace Format
variable {f : Format}

/-- The relative comparison with 1 to `1e-4` percent. -/
lemma cmp_one (hf : AtLeastFloat f) {N : ℝ} (n1 : 1 / 4 ≤ N) (n2 : N ≤ 2) :
    (|N - 1| ≤ 99 / 10 ^ 8 → f.arith.compareRelative (.fin N) (.fin 1) (.fin (1 / 10000)) = true) ∧
    (102 / 10 ^ 8 ≤ N - 1 → f.arith.compareRelative (.fin N) (.fin 1) (.fin (1 / 10000)) = false) := by
  have ok := alf_ok hf
  have h := rn ok
  have hu := alf_uu hf
  have hs := alf_small hf
  have he := alf_eta hf
  have u1 : f.uu ≤ 1 / 10 ^ 7 := by have := hu.2; norm_num at this ⊢; linarith
  have e9 : f.eta ≤ 1 / 10 ^ 12 := by
    have := he.2.trans (div_le_div_of_nonneg_right hs.1 (by positivity : (0 : ℝ) ≤ 2 ^ 100))
    norm_num at this ⊢; linarith
  have g1 : |N + -1| ≤ 1 := by rw [abs_le]; constructor <;> linarith
  have e1 := h.err (N + -1)
  have A1 : f.arith.sub (.fin N) (.fin 1) = .fin (f.round (N + -1)) := rnd_small ok (by linarith)
  have et := h.err ((1 : ℝ) / 10000 * (1 / 100))
  have At : f.arith.mul (.fin (1 / 10000)) (.fin (1 / 100)) = .fin (f.round (1 / 10000 * (1 / 100))) := rnd_small ok (by norm_num)
  obtain ⟨D, hD⟩ : ∃ D, D = f.round (N + -1) := ⟨_, rfl⟩
  obtain ⟨t, ht⟩ : ∃ t, t = f.round (1 / 10000 * (1 / 100)) := ⟨_, rfl⟩
  rw [← hD] at e1 A1; rw [← ht] at et At
  have m : ((XR.fin N).abs).max ((XR.fin 1).abs) = .fin (max N 1) := by
    have e : ((XR.fin N).abs) = .fin N := by change XR.fin |N| = _; rw [abs_of_nonneg (by linarith)]
    have e' : ((XR.fin 1).abs) = .fin 1 := by change XR.fin |1| = _; rw [abs_one]
    rw [e, e']
    unfold XR.max
    by_cases hh : (XR.fin N).lt (.fin 1)
    · rw [if_pos hh, max_eq_right (le_of_lt hh)]
    · rw [if_neg hh, max_eq_left (not_lt.mp hh)]
  have mp : 1 ≤ max N 1 := le_max_right _ _
  have uu1 : f.uu * |N + -1| ≤ 1 / 10 ^ 7 * |N + -1| := mul_le_mul_of_nonneg_right u1 (abs_nonneg _)
  have Db := abs_sub_abs_le_abs_sub D (N + -1)
  have Dm : |D| / max N 1 ≤ |D| := div_le_self (abs_nonneg _) mp
  have D0 : 0 ≤ |D| / max N 1 := by positivity
  have Ad : f.arith.div (.fin |D|) (.fin (max N 1)) = .fin (f.round (|D| / max N 1)) := by
    simp only [XArith.div, if_neg (show max N 1 ≠ 0 by linarith)]
    exact rnd_small ok (by rw [abs_of_nonneg D0]; norm_num at *; linarith)
  have ed := h.err (|D| / max N 1)
  rw [abs_of_nonneg D0] at ed
  have ud : f.uu * (|D| / max N 1) ≤ 1 / 10 ^ 7 * (|D| / max N 1) := mul_le_mul_of_nonneg_right u1 D0
  obtain ⟨E, hE⟩ : ∃ E, E = f.round (|D| / max N 1) := ⟨_, rfl⟩
  rw [← hE] at Ad ed
  rw [abs_of_pos (by norm_num : (0 : ℝ) < 1 / 10000 * (1 / 100))] at et
  obtain ⟨et1, et2⟩ := abs_le.mp et
  obtain ⟨ed1, ed2⟩ := abs_le.mp ed
  have key : f.arith.compareRelative (.fin N) (.fin 1) (.fin (1 / 10000)) = if t < E then false else true := by
    unfold XArith.compareRelative
    have no : ¬ (((XR.fin N).abs.lt (.fin (1 / 10 ^ 15)) ∧ (XR.fin 1).abs.lt (.fin (1 / 10 ^ 15))) ∨
        ((XR.fin N).abs.eq (.fin 0) ∧ (XR.fin 1).abs.lt (.fin (1 / 10 ^ 6))) ∨ ((XR.fin 1).abs.eq (.fin 0) ∧ (XR.fin N).abs.lt (.fin (1 / 10 ^ 6)))) := by
      simp only [XR.abs, XR.lt, XR.eq, abs_one]
      rintro (h | h | h)
      · have := h.2; norm_num at this
      · have := h.2; norm_num at this
      · have := h.1; norm_num at this
    simp only [if_neg no, A1, m, At]
    have : (XR.fin D).abs = .fin |D| := rfl
    rw [this, Ad]
    by_cases hh : t < E
    · rw [if_pos hh, if_pos (show (XR.fin t).lt (.fin E) from hh)]
    · rw [if_neg hh, if_neg (show ¬ (XR.fin t).lt (.fin E) from hh)]
  rw [key]
  constructor
  · intro hh
    have hh' : |N + -1| ≤ 99 / 10 ^ 8 := hh
    rw [if_neg]
    norm_num at *
    linarith
  · intro hh
    have hh2 : |N + -1| = N - 1 := by rw [abs_of_nonneg (by norm_num at hh; linarith)]; ring
    have := abs_sub_abs_le_abs_sub (N + -1) D
    rw [abs_sub_comm] at this
    have mN : max N 1 = N := max_eq_left (by norm_num at hh; linarith)
    have N0 : 0 < N := by linarith
    have Dm2 : 1015 / 10 ^ 9 ≤ |D| / max N 1 := by
      rw [mN, le_div_iff₀ N0]
      rw [hh2] at uu1 e1 this
      norm_num at *
      nlinarith
    rw [if_pos]
    norm_num at *
    linarith

lemma cmp_zero (A : XArith) {x : ℝ} (t : XR) (h : |x| < 1 / 10 ^ 6) : A.compareRelative (.fin x) (.fin 0) t = true := by
  unfold XArith.compareRelative
  simp only
  rw [if_pos]
  refine Or.inr (Or.inr ⟨?_, ?_⟩)
  · change |(0 : ℝ)| = 0; exact abs_zero
  · exact h

/-- One term of the determinant. -/
lemma minor_range (hf : AtLeastFloat f) {a b c d e : ℝ} (ha : |a| ≤ 101 / 100) (h : |b * c| + |d * e| ≤ 101 / 100) :
    ∃ H, f.arith.mul (.fin a) (f.arith.sub (f.arith.mul (.fin b) (.fin c)) (f.arith.mul (.fin d) (.fin e))) = .fin H ∧
      |H - a * (b * c - d * e)| ≤ 31 / 10 * (f.uu * |a|) + 4 * f.eta ∧ |H| ≤ 102 / 100 * |a| + 4 * f.eta := by
  have ok := alf_ok hf
  have r := rn ok
  have hu := alf_uu hf
  have hs := alf_small hf
  have he := alf_eta hf
  have u1 : f.uu ≤ 1 / 10 ^ 6 := hs.1
  have e6 : f.eta ≤ 1 / 10 ^ 9 := by norm_num at hs ⊢; linarith
  have p1 := abs_nonneg (b * c); have p2 := abs_nonneg (d * e); have a0 := abs_nonneg a
  have e1 := r.err (b * c)
  have e2 := r.err (d * e)
  have k1 : f.uu * |b * c| ≤ 1 / 10 ^ 6 * |b * c| := mul_le_mul_of_nonneg_right u1 p1
  have k2 : f.uu * |d * e| ≤ 1 / 10 ^ 6 * |d * e| := mul_le_mul_of_nonneg_right u1 p2
  have m1 : f.arith.mul (.fin b) (.fin c) = .fin (f.round (b * c)) := rnd_small ok (by linarith)
  have m2 : f.arith.mul (.fin d) (.fin e) = .fin (f.round (d * e)) := rnd_small ok (by linarith)
  obtain ⟨X, hX⟩ : ∃ X, X = f.round (b * c) := ⟨_, rfl⟩
  obtain ⟨Y, hY⟩ : ∃ Y, Y = f.round (d * e) := ⟨_, rfl⟩
  rw [← hX] at e1 m1; rw [← hY] at e2 m2
  have x1 := abs_sub_abs_le_abs_sub X (b * c)
  have y1 := abs_sub_abs_le_abs_sub Y (d * e)
  have xy : |X + -Y| ≤ |X| + |Y| := by have := abs_add_le X (-Y); rwa [abs_neg] at this
  have xyb : |X + -Y| ≤ 1011 / 1000 := by norm_num at *; linarith
  have m3 : f.arith.sub (.fin X) (.fin Y) = .fin (f.round (X + -Y)) := rnd_small ok (by linarith)
  have e3 := r.err (X + -Y)
  have k3 : f.uu * |X + -Y| ≤ f.uu * (1011 / 1000) := mul_le_mul_of_nonneg_left xyb hu.1.le
  obtain ⟨Z, hZ⟩ : ∃ Z, Z = f.round (X + -Y) := ⟨_, rfl⟩
  rw [← hZ] at e3 m3
  have k4 : f.uu * (|b * c| + |d * e|) ≤ f.uu * (101 / 100) := mul_le_mul_of_nonneg_left h hu.1.le
  have z1 : |Z - (b * c - d * e)| ≤ 2022 / 1000 * f.uu + 3 * f.eta := by
    have t1 := abs_add_le (Z - (X + -Y)) ((X - b * c) + (d * e - Y))
    have t2 := abs_add_le (X - b * c) (d * e - Y)
    rw [abs_sub_comm (d * e) Y] at t2
    rw [show Z - (X + -Y) + ((X - b * c) + (d * e - Y)) = Z - (b * c - d * e) by ring] at t1
    linarith
  have zb : |Z| ≤ 1012 / 1000 := by
    have := abs_sub_abs_le_abs_sub Z (X + -Y)
    norm_num at *; linarith
  have e4 := r.err (a * Z)
  have az : |a * Z| ≤ |a| * (1012 / 1000) := by rw [abs_mul]; exact mul_le_mul_of_nonneg_left zb a0
  have m4 : f.arith.mul (.fin a) (.fin Z) = .fin (f.round (a * Z)) := rnd_small ok (by linarith)
  have k5 : f.uu * |a * Z| ≤ f.uu * (|a| * (1012 / 1000)) := mul_le_mul_of_nonneg_left az hu.1.le
  refine ⟨_, by rw [m1, m2, m3, m4], ?_, ?_⟩
  · have t1 := abs_add_le (f.round (a * Z) - a * Z) (a * (Z - (b * c - d * e)))
    rw [show f.round (a * Z) - a * Z + a * (Z - (b * c - d * e)) = f.round (a * Z) - a * (b * c - d * e) by ring, abs_mul] at t1
    have t2 := mul_le_mul_of_nonneg_left z1 a0
    have t3 : |a| * f.eta ≤ 101 / 100 * f.eta := mul_le_mul_of_nonneg_right ha he.1.le
    have ua := mul_nonneg hu.1.le a0
    nlinarith
  · have := abs_sub_abs_le_abs_sub (f.round (a * Z)) (a * Z)
    have t3 : f.uu * |a| ≤ 1 / 10 ^ 6 * |a| := mul_le_mul_of_nonneg_right u1 a0
    norm_num at t3
    nlinarith [he.1]

lemma sum_abs_three {v : V3} : |v.x| + |v.y| + |v.z| ≤ 1733 / 1000 * v.norm := by
  have h := dot_bound ⟨1, 1, 1⟩ v
  have n : (⟨1, 1, 1⟩ : V3).norm ≤ 1733 / 1000 := by
    have := norm_three (w := ⟨1, 1, 1⟩) (e := 1) (by norm_num) (by simp) (by simp) (by simp)
    linarith
  simp only [one_mul] at h
  exact h.trans (mul_le_mul_of_nonneg_right n v.norm_nonneg)

/-- The determinant of a matrix with rows of length almost 1. -/
lemma det_range (hf : AtLeastFloat f) {m : M3} (h0 : m.row0.norm ≤ 1001 / 1000) (h1 : m.row1.norm ≤ 1001 / 1000) (h2 : m.row2.norm ≤ 1001 / 1000) :
    ∃ D, f.arith.det (embM m) = .fin D ∧ |D - m.det| ≤ 91 / 10 * f.uu := by
  have ok := alf_ok hf
  have r := rn ok
  have hu := alf_uu hf
  have hs := alf_small hf
  have he := alf_eta hf
  have e6 : f.eta ≤ 1 / 10 ^ 9 := by norm_num at hs ⊢; linarith
  obtain ⟨a0, a1, a2⟩ := abs_comp_le m.row0
  have pr : m.row1.norm * m.row2.norm ≤ 101 / 100 := by
    have := mul_le_mul h1 h2 (V3.norm_nonneg _) (by norm_num)
    norm_num at this ⊢; linarith
  have cs : ∀ {x y z w : ℝ}, x ^ 2 + y ^ 2 ≤ m.row1.norm ^ 2 → z ^ 2 + w ^ 2 ≤ m.row2.norm ^ 2 → |x * z| + |y * w| ≤ 101 / 100 := fun {x y z w} hx hz => by
    have k := dot_bound ⟨x, y, 0⟩ ⟨z, w, 0⟩
    have n1 : (⟨x, y, 0⟩ : V3).norm ≤ m.row1.norm := V3.norm_le_of_sq (V3.norm_nonneg _) (by simp only; nlinarith)
    have n2 : (⟨z, w, 0⟩ : V3).norm ≤ m.row2.norm := V3.norm_le_of_sq (V3.norm_nonneg _) (by simp only; nlinarith)
    have := mul_le_mul n1 n2 (V3.norm_nonneg _) (V3.norm_nonneg _)
    simp only [mul_zero, abs_zero, add_zero] at k
    linarith
  have q1 : m.row1.norm ^ 2 = m.m10 ^ 2 + m.m11 ^ 2 + m.m12 ^ 2 := by rw [V3.norm_sq]; simp only [V3.normSq, V3.dot, M3.row1]; ring
  have q2 : m.row2.norm ^ 2 = m.m20 ^ 2 + m.m21 ^ 2 + m.m22 ^ 2 := by rw [V3.norm_sq]; simp only [V3.normSq, V3.dot, M3.row2]; ring
  simp only [M3.row0] at a0 a1 a2
  have S := sum_abs_three (v := m.row0)
  simp only [M3.row0] at S
  have nb : (⟨m.m00, m.m01, m.m02⟩ : V3).norm ≤ 1001 / 1000 := h0
  obtain ⟨H0, p0, b0, g0⟩ := minor_range hf (a := m.m00) (b := m.m11) (c := m.m22) (d := m.m12) (e := m.m21) (by linarith)
    (cs (by rw [q1]; nlinarith) (by rw [q2]; nlinarith))
  obtain ⟨H1, p1, b1, g1⟩ := minor_range hf (a := m.m01) (b := m.m10) (c := m.m22) (d := m.m12) (e := m.m20) (by linarith)
    (cs (by rw [q1]; nlinarith) (by rw [q2]; nlinarith))
  obtain ⟨H2, p2, b2, g2⟩ := minor_range hf (a := m.m02) (b := m.m10) (c := m.m21) (d := m.m11) (e := m.m20) (by linarith)
    (cs (by rw [q1]; nlinarith) (by rw [q2]; nlinarith))
  have s1 : |m.m00| + |m.m01| + |m.m02| ≤ 174 / 100 := by linarith
  have t1 : |H0 + -H1| ≤ |H0| + |H1| := by have := abs_add_le H0 (-H1); rwa [abs_neg] at this
  have n0 := abs_nonneg m.m00; have n1 := abs_nonneg m.m01; have n2 := abs_nonneg m.m02
  have e1 := r.err (H0 + -H1)
  have u1 : f.uu ≤ 1 / 10 ^ 6 := hs.1
  have m1 : f.arith.sub (.fin H0) (.fin H1) = .fin (f.round (H0 + -H1)) := rnd_small ok (by norm_num at e6; linarith)
  obtain ⟨T, hT⟩ : ∃ T, T = f.round (H0 + -H1) := ⟨_, rfl⟩
  rw [← hT] at e1 m1
  have t2 := abs_sub_abs_le_abs_sub T (H0 + -H1)
  have k1 : f.uu * |H0 + -H1| ≤ f.uu * (102 / 100 * (|m.m00| + |m.m01|) + 8 * f.eta) := mul_le_mul_of_nonneg_left (by linarith) hu.1.le
  have k1' : f.uu * |H0 + -H1| ≤ 1 / 10 ^ 6 * |H0 + -H1| := mul_le_mul_of_nonneg_right u1 (abs_nonneg _)
  have t3 := abs_add_le T H2
  have Tb : |T| ≤ 103 / 100 * (|m.m00| + |m.m01|) + 10 * f.eta := by norm_num at k1'; linarith [he.1]
  have m2 : f.arith.add (.fin T) (.fin H2) = .fin (f.round (T + H2)) := rnd_small ok (by norm_num at e6; linarith)
  have e2 := r.err (T + H2)
  have k2 : f.uu * |T + H2| ≤ f.uu * (103 / 100 * (|m.m00| + |m.m01| + |m.m02|) + 14 * f.eta) := mul_le_mul_of_nonneg_left (by linarith) hu.1.le
  have k3 : f.uu * (|m.m00| + |m.m01| + |m.m02|) ≤ f.uu * (174 / 100) := mul_le_mul_of_nonneg_left s1 hu.1.le
  have k4 : f.uu * f.eta ≤ 1 / 10 ^ 6 * f.eta := mul_le_mul_of_nonneg_right u1 he.1.le
  have k5 : 0 ≤ f.uu * |m.m02| := mul_nonneg hu.1.le n2
  refine ⟨f.round (T + H2), ?_, ?_⟩
  · change f.arith.add (f.arith.sub _ _) _ = _
    simp only [embM]
    rw [p0, p1, p2, m1, m2]
  · have d : m.det = m.m00 * (m.m11 * m.m22 - m.m12 * m.m21) - m.m01 * (m.m10 * m.m22 - m.m12 * m.m20) + m.m02 * (m.m10 * m.m21 - m.m11 * m.m20) := by
      simp [M3.det]
    rw [d]
    obtain ⟨x1, x2⟩ := abs_le.mp b0
    obtain ⟨x3, x4⟩ := abs_le.mp b1
    obtain ⟨x5, x6⟩ := abs_le.mp b2
    obtain ⟨x7, x8⟩ := abs_le.mp e1
    obtain ⟨x9, x10⟩ := abs_le.mp e2
    norm_num at k4
    rw [abs_le]
    constructor <;> linarith [hs.2, hu.1, he.1]

lemma rows_close {m R : M3} {d : ℝ} (h : EntryClose d m R) :
    (m.row0 - R.row0).norm ≤ 1733 / 1000 * d ∧ (m.row1 - R.row1).norm ≤ 1733 / 1000 * d ∧ (m.row2 - R.row2).norm ≤ 1733 / 1000 * d := by
  have d0 : 0 ≤ d := (abs_nonneg _).trans h.1
  obtain ⟨h1, h2, h3, h4, h5, h6, h7, h8, h9⟩ := h
  exact ⟨norm_three d0 h1 h2 h3, norm_three d0 h4 h5 h6, norm_three d0 h7 h8 h9⟩

/-- The two checks of the debug-build constructor. -/
lemma matCtor_of {A : XArith} {m : M3}
    (h1 : ∀ r ∈ [m.row0, m.row1, m.row2], A.compareRelative (A.dot3 (emb3 r) (emb3 r)) (.fin 1) (.fin (1 / 10000)) = true)
    (h0 : ∀ p ∈ [(m.row0, m.row1), (m.row0, m.row2), (m.row1, m.row0), (m.row1, m.row2), (m.row2, m.row0), (m.row2, m.row1)],
      A.compareRelative (A.dot3 (emb3 p.1) (emb3 p.2)) (.fin 0) (.fin (1 / 10000)) = true)
    (hd : A.compareRelative (A.det (embM m)) (.fin 1) (.fin (1 / 10000)) = true) : A.matCtorDbg (embM m) = .ok (embM m) := by
  unfold XArith.matCtorDbg XArith.assertScalarNearDbg
  rw [if_pos, if_pos hd]
  intro i j
  by_cases hij : i = j
  · subst hij
    rw [if_pos rfl]
    fin_cases i
    · exact h1 m.row0 (by simp)
    · exact h1 m.row1 (by simp)
    · exact h1 m.row2 (by simp)
  · rw [if_neg hij]
    fin_cases i <;> fin_cases j
    · exact absurd rfl hij
    · exact h0 (m.row0, m.row1) (by simp)
    · exact h0 (m.row0, m.row2) (by simp)
    · exact h0 (m.row1, m.row0) (by simp)
    · exact absurd rfl hij
    · exact h0 (m.row1, m.row2) (by simp)
    · exact h0 (m.row2, m.row0) (by simp)
    · exact h0 (m.row2, m.row1) (by simp)
    · exact absurd rfl hij

set_option maxHeartbeats 1000000 in
/-- **C118 (d).** Rewrapping: the debug-build constructor, evaluated in the same arithmetic, accepts every matrix whose entries are within `6e-8` of a
rotation matrix. -/
theorem C118_rewrap (hf : AtLeastFloat f) (m R : M3) (hR : Valid .mat R) (h : EntryClose (6 / 10 ^ 8) m R) :
    f.arith.matCtorDbg (embM m) = .ok (embM m) := by
  have hS : IsSO3 R := dmat_isSO3 .mat R hR
  have hu := alf_uu hf
  have u1 : f.uu ≤ 5961 / 10 ^ 11 := by have := hu.2; norm_num at this ⊢; linarith
  obtain ⟨k0, k1, k2⟩ := rows_close h
  obtain ⟨d, hd⟩ : ∃ d : ℝ, d = 1733 / 1000 * (6 / 10 ^ 8) := ⟨_, rfl⟩
  rw [← hd] at k0 k1 k2
  have d0 : 0 ≤ d := by rw [hd]; norm_num
  have d1 : d ≤ 104 / 10 ^ 9 := by rw [hd]; norm_num
  have r00 := congrArg M3.m00 hS.1; have r11 := congrArg M3.m11 hS.1; have r22 := congrArg M3.m22 hS.1
  have r01 := congrArg M3.m01 hS.1; have r02 := congrArg M3.m02 hS.1; have r12 := congrArg M3.m12 hS.1
  have n0 : R.row0.norm = 1 := by rw [V3.norm_eq_one_iff]; exact r00
  have n1 : R.row1.norm = 1 := by rw [V3.norm_eq_one_iff]; exact r11
  have n2 : R.row2.norm = 1 := by rw [V3.norm_eq_one_iff]; exact r22
  have e00 : R.row0.dot R.row0 = 1 := r00
  have e11 : R.row1.dot R.row1 = 1 := r11
  have e22 : R.row2.dot R.row2 = 1 := r22
  have e01 : R.row0.dot R.row1 = 0 := r01
  have e02 : R.row0.dot R.row2 = 0 := r02
  have e12 : R.row1.dot R.row2 = 0 := r12
  have dd : d ^ 2 ≤ 1 / 10 ^ 12 := by rw [hd]; norm_num
  have len : ∀ {a b : V3}, (a - b).norm ≤ d → b.norm = 1 → a.norm ≤ 1001 / 1000 := fun {a b} h1 h2 => by
    have := V3.norm_add_le (a - b) b
    rw [sub_add_cancel, h2] at this
    norm_num at d1; linarith
  have l0 := len k0 n0
  have l1 := len k1 n1
  have l2 := len k2 n2
  -- the coefficients of the product with the transpose
  have one : ∀ {a b : V3}, (a - b).norm ≤ d → b.norm = 1 → b.dot b = 1 →
      f.arith.compareRelative (f.arith.dot3 (emb3 a) (emb3 a)) (.fin 1) (.fin (1 / 10000)) = true := fun {a b} h1 h2 h3 => by
    have la := len h1 h2
    obtain ⟨e, p, q⟩ := dot3_unit hf (r := a) (v := a) (by linarith) (by linarith)
    have g := dot_diff d0 h1 h1 h2 h2
    rw [h3] at g
    obtain ⟨g1, g2⟩ := abs_le.mp g
    obtain ⟨q1, q2⟩ := abs_le.mp q
    rw [p]
    have hb : |e - 1| ≤ 99 / 10 ^ 8 := by
      rw [abs_le]; norm_num at d1 dd u1 ⊢; constructor <;> linarith
    obtain ⟨b1, b2⟩ := abs_le.mp hb
    norm_num at b1 b2
    exact (cmp_one hf (by linarith) (by linarith)).1 hb
  have zero : ∀ {a a' b b' : V3}, (a - b).norm ≤ d → (a' - b').norm ≤ d → b.norm = 1 → b'.norm = 1 → b.dot b' = 0 →
      f.arith.compareRelative (f.arith.dot3 (emb3 a) (emb3 a')) (.fin 0) (.fin (1 / 10000)) = true := fun {a a' b b'} h1 h1' h2 h2' h3 => by
    have la := len h1 h2
    have la' := len h1' h2'
    obtain ⟨e, p, q⟩ := dot3_unit hf (r := a) (v := a') (by linarith) (by linarith)
    have g := dot_diff d0 h1 h1' h2 h2'
    rw [h3] at g
    obtain ⟨g1, g2⟩ := abs_le.mp g
    obtain ⟨q1, q2⟩ := abs_le.mp q
    rw [p]
    refine cmp_zero _ _ ?_
    rw [abs_lt]; norm_num at d1 dd u1 ⊢; constructor <;> linarith
  have dc : ∀ a b : V3, a.dot b = b.dot a := fun a b => by simp only [V3.dot]; ring
  refine matCtor_of (fun r hr => ?_) (fun p hp => ?_) ?_
  · simp only [List.mem_cons, List.not_mem_nil, or_false] at hr
    rcases hr with rfl | rfl | rfl
    · exact one k0 n0 e00
    · exact one k1 n1 e11
    · exact one k2 n2 e22
  · simp only [List.mem_cons, List.not_mem_nil, or_false] at hp
    rcases hp with rfl | rfl | rfl | rfl | rfl | rfl
    · exact zero k0 k1 n0 n1 e01
    · exact zero k0 k2 n0 n2 e02
    · exact zero k1 k0 n1 n0 (by rw [dc]; exact e01)
    · exact zero k1 k2 n1 n2 e12
    · exact zero k2 k0 n2 n0 (by rw [dc]; exact e02)
    · exact zero k2 k1 n2 n1 (by rw [dc]; exact e12)
  · obtain ⟨D, p, q⟩ := det_range hf l0 l1 l2
    have hdet : R.det = 1 := hS.2
    rw [det_rows] at hdet
    have c := cross_diff d0 k1 k2 n1 n2
    obtain ⟨X, hX⟩ : ∃ X, X = R.row1.cross R.row2 := ⟨_, rfl⟩
    obtain ⟨X', hX'⟩ : ∃ X', X' = m.row1.cross m.row2 := ⟨_, rfl⟩
    have em : m.det = m.row0.dot X' := by rw [hX', ← det_rows]
    rw [← hX, ← hX'] at c
    rw [← hX] at hdet
    have nX : X.norm ≤ 1 := by
      have := V3.norm_cross_le R.row1 R.row2; rwa [n1, n2, mul_one, ← hX] at this
    have e : m.row0.dot X' - 1 = (m.row0 - R.row0).dot X + R.row0.dot (X' - X) + (m.row0 - R.row0).dot (X' - X) := by
      rw [← hdet]; simp [V3.dot]; ring
    have j1 := V3.dot_abs_le (m.row0 - R.row0) X
    have j2 := V3.dot_abs_le R.row0 (X' - X)
    have j3 := V3.dot_abs_le (m.row0 - R.row0) (X' - X)
    have j4 : (m.row0 - R.row0).norm * X.norm ≤ d * 1 := mul_le_mul k0 nX (V3.norm_nonneg' _) d0
    have cb : (X' - X).norm ≤ 21 / 10 ^ 8 := by norm_num at d1 dd ⊢; linarith
    have j5 : (m.row0 - R.row0).norm * (X' - X).norm ≤ 104 / 10 ^ 9 * (21 / 10 ^ 8) := mul_le_mul (k0.trans d1) cb (V3.norm_nonneg' _) (by norm_num)
    rw [n0, one_mul] at j2
    have t1 := abs_add_le ((m.row0 - R.row0).dot X + R.row0.dot (X' - X)) ((m.row0 - R.row0).dot (X' - X))
    have t2 := abs_add_le ((m.row0 - R.row0).dot X) (R.row0.dot (X' - X))
    rw [← e, ← em] at t1
    obtain ⟨q1, q2⟩ := abs_le.mp q
    have db : |m.det - 1| ≤ 32 / 10 ^ 8 := by norm_num at d1 cb j5 ⊢; linarith
    obtain ⟨b1, b2⟩ := abs_le.mp db
    rw [p]
    have hb : |D - 1| ≤ 99 / 10 ^ 8 := by
      rw [abs_le]; norm_num at b1 b2 u1 ⊢; constructor <;> linarith
    obtain ⟨w1, w2⟩ := abs_le.mp hb
    norm_num at w1 w2
    exact (cmp_one hf (by linarith) (by linarith)).1 hb

lemma entry_le_one {R : M3} (h : IsSO3 R) : EntryClose 1 R 0 := by
  obtain ⟨a, b, c⟩ := row_norms h (Close.refl R)
  obtain ⟨a1, a2, a3⟩ := abs_comp_le ⟨R.m00, R.m01, R.m02⟩
  obtain ⟨b1, b2, b3⟩ := abs_comp_le ⟨R.m10, R.m11, R.m12⟩
  obtain ⟨c1, c2, c3⟩ := abs_comp_le ⟨R.m20, R.m21, R.m22⟩
  have z : (0 : M3) = ⟨0, 0, 0, 0, 0, 0, 0, 0, 0⟩ := rfl
  rw [z]
  unfold EntryClose
  simp only [sub_zero] at *
  refine ⟨?_, ?_, ?_, ?_, ?_, ?_, ?_, ?_, ?_⟩ <;> linarith

/-- A rotation matrix stored in the format. -/
lemma stored_close (hf : AtLeastFloat f) {R : M3} (h : IsSO3 R) : EntryClose (1001 / 1000 * f.uu) (storedMatrix f R) R := by
  have r := rn (alf_ok hf)
  have hs := alf_small hf
  have hu := alf_uu hf
  obtain ⟨h1, h2, h3, h4, h5, h6, h7, h8, h9⟩ := entry_le_one h
  have k : ∀ {x : ℝ}, |x - 0| ≤ 1 → |f.round x - x| ≤ 1001 / 1000 * f.uu := fun {x} hx => by
    rw [sub_zero] at hx
    have := mul_le_mul_of_nonneg_left hx hu.1.le
    linarith [r.err x, hs.2]
  exact ⟨k h1, k h2, k h3, k h4, k h5, k h6, k h7, k h8, k h9⟩

lemma EntryClose_mono {d e : ℝ} {m R : M3} (h : EntryClose d m R) (hd : d ≤ e) : EntryClose e m R := by
  obtain ⟨h1, h2, h3, h4, h5, h6, h7, h8, h9⟩ := h
  exact ⟨h1.trans hd, h2.trans hd, h3.trans hd, h4.trans hd, h5.trans hd, h6.trans hd, h7.trans hd, h8.trans hd, h9.trans hd⟩

/-- **C118 (e).** Every rotation matrix, stored in the format, passes the debug-build constructor. -/
theorem C118_stored (hf : AtLeastFloat f) (R : M3) (hR : Valid .mat R) :
    EntryClose (1001 / 1000 * 2⁻¹ ^ f.p) (storedMatrix f R) R ∧
    f.arith.matCtorDbg (embM (storedMatrix f R)) = .ok (embM (storedMatrix f R)) := by
  have h := stored_close hf (dmat_isSO3 .mat R hR)
  refine ⟨h, C118_rewrap hf _ R hR (EntryClose_mono h ?_)⟩
  have := (alf_uu hf).2
  norm_num at this ⊢; linarith

/-- **C118 (f).** The result of a loop of products of stored rotation matrices and their inverses passes the debug-build constructor. -/
theorem C118_loop_rewrap (hf : AtLeastFloat f) (P : Prec) (R : M3) (hR : Valid .mat R) (l : List MatrixFactor)
    (hl : ∀ s ∈ l, Valid .mat s.exact ∧ s.stored = storedMatrix f s.exact) (hn : (164 / 10 * (l.length : ℝ) + 32 / 10) * 2⁻¹ ^ f.p ≤ 6 / 10 ^ 8) :
    ∃ c, matrixLoop f.arith P (embM (storedMatrix f R)) l = embM c ∧ f.arith.matCtorDbg (embM c) = .ok (embM c) ∧
      EntryClose ((164 / 10 * l.length + 32 / 10) * 2⁻¹ ^ f.p) c (matrixProduct R l) := by
  have hu := alf_uu hf
  have n0 : (0 : ℝ) ≤ l.length := Nat.cast_nonneg _
  have nu := mul_nonneg n0 hu.1.le
  change (164 / 10 * l.length + 32 / 10) * f.uu ≤ 6 / 10 ^ 8 at hn
  obtain ⟨c, h1, h2, h3⟩ := C118_loop hf P (storedMatrix f R) R hR (1001 / 1000 * f.uu) (stored_close hf (dmat_isSO3 .mat R hR)) l
    (fun s hs => ⟨(hl s hs).1, by rw [(hl s hs).2]; exact stored_close hf (dmat_isSO3 .mat _ (hl s hs).1)⟩) (by
      change (l.length + 1) * (3 * (1001 / 1000 * f.uu) + 13 * f.uu) ≤ _
      norm_num at hn ⊢; nlinarith [hu.1])
  have h4 : EntryClose ((164 / 10 * l.length + 32 / 10) * 2⁻¹ ^ f.p) c (matrixProduct R l) := EntryClose_mono h3 (by
    change 31 / 10 * (l.length + 1) * (1001 / 1000 * f.uu) + 132 / 10 * l.length * f.uu ≤ (164 / 10 * l.length + 32 / 10) * f.uu
    nlinarith [hu.1])
  exact ⟨c, h1, C118_rewrap hf c _ h2 (EntryClose_mono h4 hn), h4⟩

/-- `double`: up to thirty million products. -/
theorem C118_double (P : Prec) (R : M3) (hR : Valid .mat R) (l : List MatrixFactor)
    (hl : ∀ s ∈ l, Valid .mat s.exact ∧ s.stored = storedMatrix double s.exact) (hn : l.length ≤ 3 * 10 ^ 7) :
    ∃ c, matrixLoop double.arith P (embM (storedMatrix double R)) l = embM c ∧ double.arith.matCtorDbg (embM c) = .ok (embM c) ∧
      EntryClose ((l.length + 1) * (19 / 10 ^ 16)) c (matrixProduct R l) := by
  have hn' : (l.length : ℝ) ≤ 3 * 10 ^ 7 := by exact_mod_cast hn
  have n0 : (0 : ℝ) ≤ l.length := Nat.cast_nonneg _
  obtain ⟨c, h1, h2, h3⟩ := C118_loop_rewrap double_alf P R hR l hl (by norm_num [Format.double]; linarith)
  exact ⟨c, h1, h2, EntryClose_mono h3 (by norm_num [Format.double]; linarith)⟩

/-! ## A finding -/

lemma stretched_accepted (hf : AtLeastFloat f) : f.arith.matCtorDbg (embM (stretched (3 / 2 ^ 23))) = .ok (embM (stretched (3 / 2 ^ 23))) := by
  have hu := alf_uu hf
  have u1 : f.uu ≤ 5961 / 10 ^ 11 := by have := hu.2; norm_num at this ⊢; linarith
  obtain ⟨a, ha⟩ : ∃ a : ℝ, a = 3 / 2 ^ 23 := ⟨_, rfl⟩
  rw [← ha]
  have a0 : 0 < a := by rw [ha]; norm_num
  have a1 : a ≤ 358 / 10 ^ 9 := by rw [ha]; norm_num
  have aa : a * a ≤ 1 / 10 ^ 12 := by rw [ha]; norm_num
  have n0 : (stretched a).row0.norm ≤ 1001 / 1000 := V3.norm_le_of_sq (by norm_num) (by simp only [stretched, M3.row0]; norm_num at a1 ⊢; nlinarith)
  have n1 : (stretched a).row1.norm ≤ 1001 / 1000 := V3.norm_le_of_sq (by norm_num) (by simp only [stretched, M3.row1]; norm_num at a1 ⊢; nlinarith)
  have n2 : (stretched a).row2.norm ≤ 1001 / 1000 := V3.norm_le_of_sq (by norm_num) (by simp only [stretched, M3.row2]; norm_num)
  have one : ∀ r : V3, r.norm ≤ 1001 / 1000 → |r.dot r - 1| ≤ 73 / 10 ^ 8 →
      f.arith.compareRelative (f.arith.dot3 (emb3 r) (emb3 r)) (.fin 1) (.fin (1 / 10000)) = true := fun r h1 h2 => by
    obtain ⟨e, p, q⟩ := dot3_unit hf (r := r) (v := r) (by linarith) (by linarith)
    obtain ⟨g1, g2⟩ := abs_le.mp h2
    obtain ⟨q1, q2⟩ := abs_le.mp q
    rw [p]
    have hb : |e - 1| ≤ 99 / 10 ^ 8 := by
      rw [abs_le]; norm_num at g1 g2 u1 ⊢; constructor <;> linarith
    obtain ⟨b1, b2⟩ := abs_le.mp hb
    norm_num at b1 b2
    exact (cmp_one hf (by linarith) (by linarith)).1 hb
  have zero : ∀ r v : V3, r.norm ≤ 1001 / 1000 → v.norm ≤ 1001 / 1000 → r.dot v = 0 →
      f.arith.compareRelative (f.arith.dot3 (emb3 r) (emb3 v)) (.fin 0) (.fin (1 / 10000)) = true := fun r v h1 h2 h3 => by
    obtain ⟨e, p, q⟩ := dot3_unit hf (r := r) (v := v) (by linarith) (by linarith)
    rw [h3, sub_zero] at q
    rw [p]
    refine cmp_zero _ _ (lt_of_le_of_lt q ?_)
    norm_num at u1 ⊢; linarith
  refine matCtor_of (fun r hr => ?_) (fun p hp => ?_) ?_
  · simp only [List.mem_cons, List.not_mem_nil, or_false] at hr
    rcases hr with rfl | rfl | rfl
    · refine one _ n0 ?_
      rw [show (stretched a).row0.dot (stretched a).row0 - 1 = 2 * a + a * a by simp only [stretched, M3.row0, V3.dot]; ring, abs_of_pos (by positivity)]
      norm_num at a1 aa ⊢; linarith
    · refine one _ n1 ?_
      rw [show (stretched a).row1.dot (stretched a).row1 - 1 = -(2 * a - a * a) by simp only [stretched, M3.row1, V3.dot]; ring, abs_neg, abs_le]
      norm_num at a1 aa ⊢; constructor <;> nlinarith
    · refine one _ n2 ?_
      norm_num [stretched, M3.row2, V3.dot]
  · simp only [List.mem_cons, List.not_mem_nil, or_false] at hp
    rcases hp with rfl | rfl | rfl | rfl | rfl | rfl
    · exact zero _ _ n0 n1 (by simp [stretched, M3.row0, M3.row1, V3.dot])
    · exact zero _ _ n0 n2 (by simp [stretched, M3.row0, M3.row2, V3.dot])
    · exact zero _ _ n1 n0 (by simp [stretched, M3.row0, M3.row1, V3.dot])
    · exact zero _ _ n1 n2 (by simp [stretched, M3.row1, M3.row2, V3.dot])
    · exact zero _ _ n2 n0 (by simp [stretched, M3.row0, M3.row2, V3.dot])
    · exact zero _ _ n2 n1 (by simp [stretched, M3.row1, M3.row2, V3.dot])
  · obtain ⟨D, p, q⟩ := det_range hf n0 n1 n2
    have d : (stretched a).det = 1 - a * a := by simp [stretched, M3.det]; ring
    rw [d] at q
    obtain ⟨q1, q2⟩ := abs_le.mp q
    have aa0 : 0 ≤ a * a := by positivity
    rw [p]
    have hb : |D - 1| ≤ 99 / 10 ^ 8 := by
      rw [abs_le]; norm_num at aa u1 ⊢; constructor <;> linarith
    obtain ⟨w1, w2⟩ := abs_le.mp hb
    norm_num at w1 w2
    exact (cmp_one hf (by linarith) (by linarith)).1 hb

lemma dot3_first (hf : AtLeastFloat f) {x y : ℝ} (h : |x * y| ≤ 4) : f.arith.dot3 (emb3 ⟨x, 0, 0⟩) (emb3 ⟨y, 0, 0⟩) = .fin (f.round (x * y)) := by
  have ok := alf_ok hf
  have r := (rn ok).err (x * y)
  have hs := alf_small hf
  have k : f.uu * |x * y| ≤ 1 / 10 ^ 6 * |x * y| := mul_le_mul_of_nonneg_right hs.1 (abs_nonneg _)
  have b := abs_sub_abs_le_abs_sub (f.round (x * y)) (x * y)
  have z : f.arith.rnd ((0 : ℝ) * 0) = .fin 0 := by rw [mul_zero]; exact f.arith.rnd_zero
  have i : f.arith.rnd (f.round (x * y)) = .fin (f.round (x * y)) := by
    rw [rnd_small ok (by have h1 := hs.1; have h2 := hs.2; norm_num at h1; linarith), round_idem ok]
  change f.arith.add (f.arith.add (f.arith.rnd _) (f.arith.rnd _)) (f.arith.rnd _) = _
  rw [rnd_small ok (by linarith), z]
  change f.arith.add (f.arith.rnd (_ + 0)) _ = _
  rw [add_zero, i]
  change f.arith.rnd (_ + 0) = _
  rw [add_zero, i]

lemma dot3_none (A : XArith) (x y : ℝ) : A.dot3 (emb3 ⟨x, 0, 0⟩) (emb3 ⟨0, y, 0⟩) = .fin 0 ∧ A.dot3 (emb3 ⟨x, 0, 0⟩) (emb3 ⟨0, 0, y⟩) = .fin 0 := by
  have z := A.rnd_zero
  constructor
  all_goals
    change A.add (A.add (A.rnd _) (A.rnd _)) (A.rnd _) = _
    simp only [mul_zero, zero_mul, z]
    change A.add (A.rnd _) _ = _
    simp only [add_zero, z]
    change A.rnd _ = _
    simp only [add_zero, z]

/-- **C118 (finding).** The checks are not stable under products: the matrix `diag(1 + 3 * 2 ^ -23, 1 - 3 * 2 ^ -23, 1)`, stored without error in every
format, passes the debug-build constructor, its product with itself does not, in any format from `float` on. -/
theorem C118_accepted_product_throws (hf : AtLeastFloat f) (P : Prec) :
    Storable f (1 + 3 / 2 ^ 23) ∧ Storable f (1 - 3 / 2 ^ 23) ∧
    f.arith.matCtorDbg (embM (stretched (3 / 2 ^ 23))) = .ok (embM (stretched (3 / 2 ^ 23))) ∧
    f.arith.matCtorDbg (f.arith.mult P .mat .mat (embM (stretched (3 / 2 ^ 23))) (embM (stretched (3 / 2 ^ 23)))) = .throws := by
  have ok := alf_ok hf
  have hu := alf_uu hf
  have hs := alf_small hf
  have he := alf_eta hf
  have u1 : f.uu ≤ 5961 / 10 ^ 11 := by have := hu.2; norm_num at this ⊢; linarith
  have st : ∀ n : ℤ, |(n : ℝ)| < 2 ^ 24 → Storable f (n / 2 ^ 23) := fun n hn => by
    have e : (n / 2 ^ 23 : ℝ) = n * 2 ^ (-23 : ℤ) := by rw [zpow_neg]; norm_num [div_eq_mul_inv]
    have h1 : |(n / 2 ^ 23 : ℝ)| < 2 := by rw [abs_div, abs_of_pos (by norm_num : (0 : ℝ) < 2 ^ 23), div_lt_iff₀ (by norm_num)]; norm_num at hn ⊢; linarith
    refine stored_iff.mpr ⟨round_onGrid (k := -23) (by have := hf.emin; omega) ⟨n, e⟩ (lt_of_lt_of_le h1 ?_), lt_of_lt_of_le h1 ?_⟩
    · calc (2 : ℝ) = 2 ^ (1 : ℤ) := by norm_num
        _ ≤ _ := zpow_le_zpow_right₀ (by norm_num) (by have := hf.p; omega)
    · calc (2 : ℝ) = 2 ^ (1 : ℤ) := by norm_num
        _ ≤ _ := zpow_le_zpow_right₀ (by norm_num) (by have := hf.emax; omega)
  refine ⟨?_, ?_, stretched_accepted hf, ?_⟩
  · have := st (2 ^ 23 + 3) (by norm_num)
    rw [show ((2 ^ 23 + 3 : ℤ) / 2 ^ 23 : ℝ) = 1 + 3 / 2 ^ 23 by norm_num] at this
    exact this
  · have := st (2 ^ 23 - 3) (by norm_num [abs_lt])
    rw [show ((2 ^ 23 - 3 : ℤ) / 2 ^ 23 : ℝ) = 1 - 3 / 2 ^ 23 by norm_num] at this
    exact this
  obtain ⟨a, ha⟩ : ∃ a : ℝ, a = 3 / 2 ^ 23 := ⟨_, rfl⟩
  rw [← ha]
  have a0 : 357 / 10 ^ 9 < a := by rw [ha]; norm_num
  have a1 : a ≤ 358 / 10 ^ 9 := by rw [ha]; norm_num
  obtain ⟨x, hx⟩ : ∃ x, x = f.round ((1 + a) * (1 + a)) := ⟨_, rfl⟩
  have xr : XArith.row (f.arith.matMul (embM (stretched a)) (embM (stretched a))) 0 = emb3 ⟨x, 0, 0⟩ := by
    change (⟨f.arith.dot3 (emb3 ⟨1 + a, 0, 0⟩) (emb3 ⟨1 + a, 0, 0⟩), f.arith.dot3 (emb3 ⟨1 + a, 0, 0⟩) (emb3 ⟨0, 1 - a, 0⟩),
      f.arith.dot3 (emb3 ⟨1 + a, 0, 0⟩) (emb3 ⟨0, 0, 1⟩)⟩ : XV3) = _
    rw [dot3_first hf (by norm_num at a0 a1; rw [abs_le]; constructor <;> nlinarith), (dot3_none _ _ _).1, (dot3_none _ _ _).2, ← hx]
    rfl
  have x1 := (rn ok).err ((1 + a) * (1 + a))
  rw [← hx, abs_of_pos (by positivity : 0 < (1 + a) * (1 + a))] at x1
  have sq : (1 + a) * (1 + a) ≤ 1 + 72 / 10 ^ 8 := by norm_num at a0 a1 ⊢; nlinarith
  have sq' : 1 + 714 / 10 ^ 9 ≤ (1 + a) * (1 + a) := by norm_num at a0 a1 ⊢; nlinarith
  have k1 : f.uu * ((1 + a) * (1 + a)) ≤ f.uu * (1 + 72 / 10 ^ 8) := mul_le_mul_of_nonneg_left sq hu.1.le
  obtain ⟨x2, x3⟩ := abs_le.mp x1
  have xl : 1 + 65 / 10 ^ 8 ≤ x := by norm_num at k1 sq' u1 ⊢; linarith
  have xh : x ≤ 1 + 8 / 10 ^ 7 := by norm_num at k1 sq u1 ⊢; linarith
  have y1 := (rn ok).err (x * x)
  have x0 : 0 < x := by norm_num at xl; linarith
  rw [abs_of_pos (by positivity : 0 < x * x)] at y1
  have xq : 1 + 13 / 10 ^ 7 ≤ x * x := by norm_num at xl ⊢; nlinarith
  have xq' : x * x ≤ 1 + 17 / 10 ^ 7 := by norm_num at xh ⊢; nlinarith
  have k2 : f.uu * (x * x) ≤ f.uu * (1 + 17 / 10 ^ 7) := mul_le_mul_of_nonneg_left xq' hu.1.le
  obtain ⟨y2, y3⟩ := abs_le.mp y1
  have bad : f.arith.compareRelative (f.arith.dot3 (emb3 ⟨x, 0, 0⟩) (emb3 ⟨x, 0, 0⟩)) (.fin 1) (.fin (1 / 10000)) = false := by
    rw [dot3_first hf (by norm_num at xq'; rw [abs_le]; constructor <;> nlinarith)]
    norm_num at k2 xq xq' u1
    exact (cmp_one hf (by linarith) (by linarith)).2 (by norm_num; linarith)
  change f.arith.matCtorDbg (f.arith.matMul _ _) = _
  unfold XArith.matCtorDbg
  rw [if_neg]
  intro h
  have h0 := h 0 0
  rw [if_pos rfl, xr, bad] at h0
  exact Bool.false_ne_true h0

/-- The hypotheses are met: a rotation by a right angle and one with entries 3/5 and 4/5, one of them inverted. -/
theorem C118_example :
    Valid .mat (⟨0, -1, 0, 1, 0, 0, 0, 0, 1⟩ : M3) ∧ Valid .mat (⟨3 / 5, -4 / 5, 0, 4 / 5, 3 / 5, 0, 0, 0, 1⟩ : M3) ∧
    EntryClose (1 / 1000) ⟨0.6, -0.8, 0, 0.8, 0.6005, 0, 0.0009, 0, 1⟩ (⟨3 / 5, -4 / 5, 0, 4 / 5, 3 / 5, 0, 0, 0, 1⟩ : M3) ∧
    matrixProduct ⟨0, -1, 0, 1, 0, 0, 0, 0, 1⟩ [⟨⟨0.6, -0.8, 0, 0.8, 0.6005, 0, 0.0009, 0, 1⟩, ⟨3 / 5, -4 / 5, 0, 4 / 5, 3 / 5, 0, 0, 0, 1⟩, true⟩] =
      ⟨4 / 5, -3 / 5, 0, 3 / 5, 4 / 5, 0, 0, 0, 1⟩ ∧ ((1 : ℕ) + 1 : ℝ) * (3 * (1 / 1000) + 13 * 2⁻¹ ^ Format.float.p) ≤ 1 / 100 := by
  have so : ∀ m : M3, m * m.transpose = 1 → m.det = 1 → Valid .mat m := fun m h1 h2 => ⟨h1, h2⟩
  refine ⟨so _ ?_ ?_, so _ ?_ ?_, ?_, ?_, ?_⟩
  · ext <;> simp
  · simp [M3.det]
  · ext <;> simp <;> norm_num
  · simp [M3.det]; norm_num
  · unfold EntryClose; norm_num [abs_le]
  · unfold matrixProduct
    ext <;> simp <;> norm_num
  · norm_num [Format.float]

end Format
end Kindr
