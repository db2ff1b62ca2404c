import Verif.Props.PoseIeee
import Verif.Spec.MatrixIeee

/-!
# Rotation matrices in IEEE arithmetic: long products (C118)
-/

set_option autoImplicit false

open Classical

noncomputable section
namespace Kindr
open Spec
namespace Format
variable {f : Format}

lemma unit_vec : (⟨1, 0, 0⟩ : V3).norm = 1 ∧ (⟨0, 1, 0⟩ : V3).norm = 1 ∧ (⟨0, 0, 1⟩ : V3).norm = 1 := by
  refine ⟨?_, ?_, ?_⟩ <;> simp [V3.norm, V3.normSq, V3.dot]

/-- The columns of a matrix close to a rotation are at most slightly longer than 1. -/
lemma col_norms {m R : M3} {ε : ℝ} (hR : IsSO3 R) (h : Close ε m R) :
    (⟨m.m00, m.m10, m.m20⟩ : V3).norm ≤ 1 + ε ∧ (⟨m.m01, m.m11, m.m21⟩ : V3).norm ≤ 1 + ε ∧ (⟨m.m02, m.m12, m.m22⟩ : V3).norm ≤ 1 + ε := by
  have col : ∀ e : V3, e.norm = 1 → (m.mulVec e).norm ≤ 1 + ε := fun e he => by
    have h1 := h e
    have h2 := SO3.mulVec_norm hR e
    have h3 := V3.norm_add_le (m.mulVec e - R.mulVec e) (R.mulVec e)
    rw [sub_add_cancel, h2, he] at h3
    rw [he] at h1
    linarith
  obtain ⟨u1, u2, u3⟩ := unit_vec
  refine ⟨?_, ?_, ?_⟩
  · simpa [M3.mulVec] using col ⟨1, 0, 0⟩ u1
  · simpa [M3.mulVec] using col ⟨0, 1, 0⟩ u2
  · simpa [M3.mulVec] using col ⟨0, 0, 1⟩ u3

lemma row_norms {m R : M3} {ε : ℝ} (hR : IsSO3 R) (h : Close ε m R) :
    (⟨m.m00, m.m01, m.m02⟩ : V3).norm ≤ 1 + ε ∧ (⟨m.m10, m.m11, m.m12⟩ : V3).norm ≤ 1 + ε ∧ (⟨m.m20, m.m21, m.m22⟩ : V3).norm ≤ 1 + ε :=
  col_norms (SO3.transpose hR) h.transpose

/-- One coefficient of a product of two matrices. -/
lemma dot3_unit (hf : AtLeastFloat f) {r v : V3} (hr : r.norm ≤ 103 / 100) (hv : v.norm ≤ 103 / 100) :
    ∃ e, f.arith.dot3 (emb3 r) (emb3 v) = .fin e ∧ |e - r.dot v| ≤ 43 / 10 * f.uu := by
  have big := one_le_emax (alf_ok hf)
  have hs := alf_small hf
  obtain ⟨e, h1, h2⟩ := dot3_range hf hr (v := v) (by linarith)
  refine ⟨e, h1, h2.trans ?_⟩
  have := mul_le_mul_of_nonneg_left hv (uu_pos (f := f)).le
  linarith [hs.2, uu_pos (f := f)]

/-- The product of two matrices close to rotations. -/
lemma matMul_range (hf : AtLeastFloat f) {a b R S : M3} {D e : ℝ} (hR : IsSO3 R) (hS : IsSO3 S) (ha : Close D a R) (hb : Close e b S)
    (hD : D ≤ 3 / 100) (he : e ≤ 3 / 100) : ∃ c, f.arith.matMul (embM a) (embM b) = embM c ∧ EntryClose (43 / 10 * f.uu) c (a * b) := by
  obtain ⟨r0, r1, r2⟩ := row_norms hR ha
  obtain ⟨c0, c1, c2⟩ := col_norms hS hb
  have D1 : 1 + D ≤ 103 / 100 := by linarith
  have e1 : 1 + e ≤ 103 / 100 := by linarith
  obtain ⟨x0, p0, q0⟩ := dot3_unit hf (r0.trans D1) (c0.trans e1)
  obtain ⟨x1, p1, q1⟩ := dot3_unit hf (r0.trans D1) (c1.trans e1)
  obtain ⟨x2, p2, q2⟩ := dot3_unit hf (r0.trans D1) (c2.trans e1)
  obtain ⟨x3, p3, q3⟩ := dot3_unit hf (r1.trans D1) (c0.trans e1)
  obtain ⟨x4, p4, q4⟩ := dot3_unit hf (r1.trans D1) (c1.trans e1)
  obtain ⟨x5, p5, q5⟩ := dot3_unit hf (r1.trans D1) (c2.trans e1)
  obtain ⟨x6, p6, q6⟩ := dot3_unit hf (r2.trans D1) (c0.trans e1)
  obtain ⟨x7, p7, q7⟩ := dot3_unit hf (r2.trans D1) (c1.trans e1)
  obtain ⟨x8, p8, q8⟩ := dot3_unit hf (r2.trans D1) (c2.trans e1)
  refine ⟨⟨x0, x1, x2, x3, x4, x5, x6, x7, x8⟩, ?_, q0, q1, q2, q3, q4, q5, q6, q7, q8⟩
  unfold XArith.matMul
  ext
  · exact p0
  · exact p1
  · exact p2
  · exact p3
  · exact p4
  · exact p5
  · exact p6
  · exact p7
  · exact p8

/-- Products of matrices close to rotations. -/
lemma close_mul {a b R S : M3} {D e : ℝ} (hR : IsSO3 R) (hS : IsSO3 S) (ha : Close D a R) (hb : Close e b S) :
    Close (D * (1 + e) + e) (a * b) (R * S) := fun v => by
  have e1 : (a * b).mulVec v - (R * S).mulVec v =
      (a.mulVec (b.mulVec v) - R.mulVec (b.mulVec v)) + R.mulVec (b.mulVec v - S.mulVec v) := by
    rw [M3.mulVec_sub, M3.mulVec_mulVec, M3.mulVec_mulVec, M3.mulVec_mulVec]; abel
  have k1 := ha (b.mulVec v)
  have k2 := hb v
  have k3 := V3.norm_add_le (b.mulVec v - S.mulVec v) (S.mulVec v)
  rw [sub_add_cancel, SO3.mulVec_norm hS] at k3
  have k4 := mul_le_mul_of_nonneg_left k3 ha.nonneg
  have k5 := mul_le_mul_of_nonneg_left k2 ha.nonneg
  rw [e1]
  refine (V3.norm_add_le _ _).trans ?_
  rw [SO3.mulVec_norm hR]
  linarith

lemma entry_transpose {d : ℝ} {m R : M3} (h : EntryClose d m R) : EntryClose d m.transpose R.transpose := by
  obtain ⟨h1, h2, h3, h4, h5, h6, h7, h8, h9⟩ := h
  exact ⟨h1, h4, h7, h2, h5, h8, h3, h6, h9⟩

lemma matrixLoop_snoc (A : XArith) (P : Prec) (R : XM3) (l : List MatrixFactor) (s : MatrixFactor) :
    matrixLoop A P R (l ++ [s]) = A.matMul (matrixLoop A P R l) (if s.inverse then (embM s.stored).transpose else embM s.stored) := by
  unfold matrixLoop; rw [List.foldl_append]; rfl

lemma matrixProduct_snoc (R : M3) (l : List MatrixFactor) (s : MatrixFactor) :
    matrixProduct R (l ++ [s]) = matrixProduct R l * (if s.inverse then s.exact.transpose else s.exact) := by
  unfold matrixProduct; rw [List.foldl_append]; rfl

lemma loop_close (hf : AtLeastFloat f) (P : Prec) {m R : M3} (hR : IsSO3 R) {d : ℝ} (hm : EntryClose d m R) (l : List MatrixFactor) :
    (∀ s ∈ l, IsSO3 s.exact ∧ EntryClose d s.stored s.exact) → (l.length + 1) * (3 * d + 13 * f.uu) ≤ 1 / 100 →
    ∃ c, matrixLoop f.arith P (embM m) l = embM c ∧ IsSO3 (matrixProduct R l) ∧
      Close (102 / 100 * ((l.length + 1) * (3 * d) + l.length * (129 / 10 * f.uu))) c (matrixProduct R l) := by
  have hu := alf_uu hf
  have d0 : 0 ≤ d := (abs_nonneg _).trans hm.1
  induction l using List.reverseRecOn with
  | nil =>
    intro _ _
    refine ⟨m, rfl, hR, hm.close.mono ?_⟩
    simp only [List.length_nil, Nat.cast_zero]; linarith
  | append_singleton l s ih =>
    intro h1 h2
    simp only [List.length_append, List.length_singleton] at h2 ⊢
    push_cast at h2 ⊢
    have n0 : (0 : ℝ) ≤ l.length := Nat.cast_nonneg _
    have c0 : 0 ≤ 3 * d + 13 * f.uu := by linarith [hu.1]
    have nc := mul_nonneg n0 c0
    obtain ⟨c, i1, i2, i3⟩ := ih (fun r hr => h1 r (by simp [hr])) (by linarith)
    obtain ⟨s1, s2⟩ := h1 s (by simp)
    obtain ⟨B, hB⟩ : ∃ B, B = 102 / 100 * ((l.length + 1) * (3 * d) + l.length * (129 / 10 * f.uu)) := ⟨_, rfl⟩
    rw [← hB] at i3
    have Bb : B ≤ 102 / 10000 := by
      have := mul_nonneg n0 hu.1.le
      rw [hB]; linarith [hu.1]
    obtain ⟨S, hS⟩ : ∃ S, S = (if s.inverse then s.exact.transpose else s.exact) := ⟨_, rfl⟩
    obtain ⟨b, hb⟩ : ∃ b, b = (if s.inverse then s.stored.transpose else s.stored) := ⟨_, rfl⟩
    have eb : (if s.inverse then (embM s.stored).transpose else embM s.stored) = embM b := by rw [hb]; split_ifs <;> rfl
    have S3 : IsSO3 S := by rw [hS]; split_ifs; exacts [SO3.transpose s1, s1]
    have Sb : Close (3 * d) b S := by
      rw [hS, hb]; split_ifs
      · exact (entry_transpose s2).close
      · exact s2.close
    obtain ⟨r, e1, e2⟩ := matMul_range hf i2 S3 i3 Sb (by linarith) (by linarith [hu.1])
    refine ⟨r, by rw [matrixLoop_snoc, i1, eb, e1], by rw [matrixProduct_snoc, ← hS]; exact SO3.mul i2 S3, ?_⟩
    rw [matrixProduct_snoc, ← hS]
    refine (e2.close.trans (close_mul i2 S3 i3 Sb)).mono ?_
    have k1 : B * (3 * d) ≤ 102 / 10000 * (3 * d) := mul_le_mul_of_nonneg_right Bb (by linarith)
    have e3 : 102 / 100 * (((l.length : ℝ) + 1 + 1) * (3 * d) + (l.length + 1) * (129 / 10 * f.uu)) = B + 102 / 100 * (3 * d + 129 / 10 * f.uu) := by
      rw [hB]; ring
    rw [e3]
    linarith [hu.1]

/-- **C118 (a).** A loop of products of rotation matrices and their inverses: if each stored matrix is within `d` of an exact rotation, entry
by entry, no infinity or NaN arises and the result is within `3.1 (n+1) d + 13.2 n u` of the exact product. -/
theorem C118_loop (hf : AtLeastFloat f) (P : Prec) (m R : M3) (hR : Valid .mat R) (d : ℝ) (hm : EntryClose d m R) (l : List MatrixFactor)
    (hl : ∀ s ∈ l, Valid .mat s.exact ∧ EntryClose d s.stored s.exact) (hn : (l.length + 1) * (3 * d + 13 * 2⁻¹ ^ f.p) ≤ 1 / 100) :
    ∃ c, matrixLoop f.arith P (embM m) l = embM c ∧ Valid .mat (matrixProduct R l) ∧
      EntryClose (31 / 10 * (l.length + 1) * d + 132 / 10 * l.length * 2⁻¹ ^ f.p) c (matrixProduct R l) := by
  obtain ⟨c, h1, h2, h3⟩ := loop_close hf P (dmat_isSO3 .mat R hR) hm l (fun s hs => ⟨dmat_isSO3 .mat _ (hl s hs).1, (hl s hs).2⟩) hn
  have hu := alf_uu hf
  have d0 : 0 ≤ d := (abs_nonneg _).trans hm.1
  have n0 : (0 : ℝ) ≤ l.length := Nat.cast_nonneg _
  have nd := mul_nonneg n0 d0
  have nu := mul_nonneg n0 hu.1.le
  refine ⟨c, h1, h2, (h3.mono ?_).entry⟩
  change _ ≤ 31 / 10 * (l.length + 1) * d + 132 / 10 * l.length * f.uu
  linarith

/-- **C118 (b).** Rotating a vector with the result of such a loop. -/
theorem C118_loop_rotate (hf : AtLeastFloat f) (P : Prec) (m R : M3) (hR : Valid .mat R) (d : ℝ) (hm : EntryClose d m R) (l : List MatrixFactor)
    (hl : ∀ s ∈ l, Valid .mat s.exact ∧ EntryClose d s.stored s.exact) (hn : (l.length + 1) * (3 * d + 13 * 2⁻¹ ^ f.p) ≤ 1 / 100)
    (v : V3) (hv : v.norm ≤ 2 ^ (f.emax - 3)) :
    ∃ w, f.arith.rotate P .mat (matrixLoop f.arith P (embM m) l) (emb3 v) = emb3 w ∧
      (w - act .mat (matrixProduct R l) v).norm ≤
        (31 / 10 * (l.length + 1) * d + (132 / 10 * l.length + 8) * 2⁻¹ ^ f.p) * v.norm + 11 * 2 ^ (f.emin - 1) := by
  obtain ⟨c, h1, h2, h3⟩ := loop_close hf P (dmat_isSO3 .mat R hR) hm l (fun s hs => ⟨dmat_isSO3 .mat _ (hl s hs).1, (hl s hs).2⟩) hn
  have hu := alf_uu hf
  have he := alf_eta hf
  have d0 : 0 ≤ d := (abs_nonneg _).trans hm.1
  have n0 : (0 : ℝ) ≤ l.length := Nat.cast_nonneg _
  have nd := mul_nonneg n0 d0
  have nu := mul_nonneg n0 hu.1.le
  change (l.length + 1) * (3 * d + 13 * f.uu) ≤ 1 / 100 at hn
  obtain ⟨w, w1, w2⟩ := mulVec_range hf h2 h3 (by linarith) hv
  refine ⟨w, by rw [h1]; exact w1, w2.trans ?_⟩
  change _ ≤ (31 / 10 * (l.length + 1) * d + (132 / 10 * l.length + 8) * f.uu) * v.norm + 11 * f.eta
  have : 72 / 10 * f.uu + 102 / 100 * ((l.length + 1) * (3 * d) + l.length * (129 / 10 * f.uu)) ≤
      31 / 10 * (l.length + 1) * d + (132 / 10 * l.length + 8) * f.uu := by linarith
  have := mul_le_mul_of_nonneg_right this v.norm_nonneg
  linarith [he.1]

lemma mul_comm_x (A : XArith) (a b : XR) : A.mul a b = A.mul b a := by
  cases a <;> cases b <;> simp [XArith.mul, mul_comm, Bool.xor_comm]

/-- **C118 (c).** The inverse of a product is the product of the inverses in reverse order, `R * R.inverted()` is symmetric, and inverting twice
changes nothing, to the last bit and even with infinities and NaN, in every format. -/
theorem C118_inverse (A : XArith) (P : Prec) (a b : XM3) :
    A.inverted .mat (A.mult P .mat .mat a b) = A.mult P .mat .mat (A.inverted .mat b) (A.inverted .mat a) ∧
    A.inverted .mat (A.mult P .mat .mat a (A.inverted .mat a)) = A.mult P .mat .mat a (A.inverted .mat a) ∧
    A.inverted .mat (A.inverted .mat a) = a := by
  have c := mul_comm_x A
  have dc : ∀ x y : XV3, A.dot3 x y = A.dot3 y x := fun x y => by simp only [XArith.dot3, c x.x, c x.y, c x.z]
  have key : ∀ a b : XM3, (A.matMul a b).transpose = A.matMul b.transpose a.transpose := fun a b => by
    unfold XArith.matMul
    ext
    all_goals exact dc _ _
  refine ⟨key a b, ?_, rfl⟩
  exact key a a.transpose

end Format
end Kindr
