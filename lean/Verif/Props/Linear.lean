import Verif.Props.Uniform
import Verif.Props.Kinematics

/-!
# C10 and C34 without side conditions

`rotate`, `inverseRotate` and the conversions between rotation derivatives are linear for *every* value, tiny rotation vectors
included, and `rotate` is an isometry up to `eps/400` for every valid value.
-/

set_option autoImplicit false

open Classical

noncomputable section
namespace Kindr
open Spec

private lemma smul4_c0 (s : ℝ) (a : V4) : (s • a).c0 = s * a.c0 := rfl
private lemma smul4_c1 (s : ℝ) (a : V4) : (s • a).c1 = s * a.c1 := rfl
private lemma smul4_c2 (s : ℝ) (a : V4) : (s • a).c2 = s * a.c2 := rfl
private lemma smul4_c3 (s : ℝ) (a : V4) : (s • a).c3 = s * a.c3 := rfl

/-- **C10, linearity.** For every class and every value (valid or not, tiny or not) `rotate` and `inverseRotate` are linear. -/
theorem C10_rotate_linear (P : Prec) (k : Kind) (r : Rep k) (u v : V3) (s : ℝ) :
    rotate P k r (u + v) = rotate P k r u + rotate P k r v ∧ rotate P k r (s • v) = s • rotate P k r v ∧
    inverseRotate P k r (u + v) = inverseRotate P k r u + inverseRotate P k r v ∧
    inverseRotate P k r (s • v) = s • inverseRotate P k r v := by
  simp only [inverseRotate, rotate, M3.mulVec_add, M3.mulVec_smul, and_self]

/-- **C10, every valid value.** Without any side condition, `rotate` and `inverseRotate` preserve lengths up to `eps/400`, dot
products up to `eps/100` and undo each other up to `eps/100`. -/
theorem C10_rotate_all (P : Prec) (k : Kind) (r : Rep k) (hv : Valid k r) (u v : V3) :
    |(rotate P k r v).norm - v.norm| ≤ P.eps / 400 * v.norm ∧
    |(rotate P k r u).dot (rotate P k r v) - u.dot v| ≤ P.eps / 100 * (u.norm * v.norm) ∧
    (inverseRotate P k r (rotate P k r v) - v).norm ≤ P.eps / 100 * v.norm ∧
    (rotate P k r (inverseRotate P k r v) - v).norm ≤ P.eps / 100 * v.norm := by
  have he := P.eps_pos
  have he1 := eps_small P
  have hiso : ∀ {k : Kind} {r : Rep k}, Valid k r → ∀ v, (act k r v).norm = v.norm := fun h v => by
    rw [act_eq, SO3.mulVec_norm (den_isSO3 h)]
  have hdot : ∀ a b, (act k r a).dot (act k r b) = a.dot b := fun a b => by
    rw [act_eq, act_eq, SO3.mulVec_dot (den_isSO3 hv)]
  have hn : ∀ {k : Kind} {r : Rep k}, Valid k r → ∀ v, |(rotate P k r v).norm - v.norm| ≤ P.eps / 400 * v.norm := by
    intro k r h v
    have h1 := rotate_close P h v
    have h2 := V3.norm_add_le (rotate P k r v - act k r v) (act k r v)
    have h3 := V3.norm_sub_le (rotate P k r v) (rotate P k r v - act k r v)
    have e1 : rotate P k r v - act k r v + act k r v = rotate P k r v := by ext <;> simp
    have e2 : rotate P k r v - (rotate P k r v - act k r v) = act k r v := by ext <;> simp
    rw [e1, hiso h v] at h2
    rw [e2, hiso h v] at h3
    rw [abs_le]; constructor <;> linarith
  have hv' := (inverted_spec hv).1
  have hcancel : ∀ v, act k (inverted k r) (act k r v) = v ∧ act k r (act k (inverted k r) v) = v := fun v =>
    ⟨(C12_inverted k r hv v).2.1, (C12_inverted k r hv v).2.2.1⟩
  refine ⟨hn hv v, ?_, ?_, ?_⟩
  · have a1 := rotate_close P hv u
    have a2 := rotate_close P hv v
    have e : (rotate P k r u).dot (rotate P k r v) - u.dot v =
        (rotate P k r u - act k r u).dot (rotate P k r v) + (act k r u).dot (rotate P k r v - act k r v) := by
      rw [← hdot u v]; simp only [V3.dot, V3.sub_x, V3.sub_y, V3.sub_z]; ring
    rw [e]
    have b1 := V3.dot_abs_le (rotate P k r u - act k r u) (rotate P k r v)
    have b2 := V3.dot_abs_le (act k r u) (rotate P k r v - act k r v)
    rw [hiso hv u] at b2
    have b3 := (abs_le.mp (hn hv v)).2
    have hu0 := u.norm_nonneg
    have hv0 := v.norm_nonneg
    have b4 : (rotate P k r v).norm ≤ 2 * v.norm := by nlinarith
    have c1 : (rotate P k r u - act k r u).norm * (rotate P k r v).norm ≤ P.eps / 400 * u.norm * (2 * v.norm) :=
      mul_le_mul a1 b4 (V3.norm_nonneg _) (by positivity)
    have c2 : u.norm * (rotate P k r v - act k r v).norm ≤ u.norm * (P.eps / 400 * v.norm) :=
      mul_le_mul_of_nonneg_left a2 hu0
    have huv := mul_nonneg he.le (mul_nonneg hu0 hv0)
    refine (abs_add_le _ _).trans ?_
    linarith
  · have a1 := rotate_close P hv v
    have a2 := rotate_close P hv' (rotate P k r v)
    have e : inverseRotate P k r (rotate P k r v) - v =
        (rotate P k (inverted k r) (rotate P k r v) - act k (inverted k r) (rotate P k r v)) +
          act k (inverted k r) (rotate P k r v - act k r v) := by
      have : act k (inverted k r) (rotate P k r v - act k r v) = act k (inverted k r) (rotate P k r v) - v := by
        rw [act_eq, M3.mulVec_sub, ← act_eq, ← act_eq, (hcancel v).1]
      rw [this, inverseRotate]; ext <;> simp
    rw [e]
    refine (V3.norm_add_le _ _).trans ?_
    rw [hiso hv']
    have b3 := (abs_le.mp (hn hv v)).2
    have hv0 := v.norm_nonneg
    have b4 : (rotate P k r v).norm ≤ 2 * v.norm := by nlinarith
    have := mul_le_mul_of_nonneg_left b4 he.le
    have := mul_nonneg he.le hv0
    linarith
  · have a1 := rotate_close P hv' v
    have a2 := rotate_close P hv (inverseRotate P k r v)
    have e : rotate P k r (inverseRotate P k r v) - v =
        (rotate P k r (inverseRotate P k r v) - act k r (inverseRotate P k r v)) +
          act k r (rotate P k (inverted k r) v - act k (inverted k r) v) := by
      have : act k r (rotate P k (inverted k r) v - act k (inverted k r) v) = act k r (inverseRotate P k r v) - v := by
        rw [act_eq, M3.mulVec_sub, ← act_eq, ← act_eq, (hcancel v).2]; rfl
      rw [this]; ext <;> simp
    rw [e]
    refine (V3.norm_add_le _ _).trans ?_
    rw [hiso hv]
    have b3 := (abs_le.mp (hn hv' v)).2
    have hv0 := v.norm_nonneg
    have b4 : (inverseRotate P k r v).norm ≤ 2 * v.norm := by
      have : (rotate P k (inverted k r) v).norm ≤ 2 * v.norm := by nlinarith
      exact this
    have := mul_le_mul_of_nonneg_left b4 he.le
    have := mul_nonneg he.le hv0
    linarith

/-- non-vacuity: a rotation vector inside the small-angle branch is a valid input. -/
example : Valid .rv (⟨⟨1 / 10 ^ 13, 0, 0⟩⟩ : RotVec) ∧ ¬ ExactBranch Prec.double .aa .rv (⟨⟨1 / 10 ^ 13, 0, 0⟩⟩ : RotVec) := by
  refine ⟨trivial, ?_⟩
  have h0 : (⟨1 / 10 ^ 13, 0, 0⟩ : V3).norm = 1 / 10 ^ 13 := by
    rw [V3.norm, Real.sqrt_eq_iff_mul_self_eq (by simp [V3.normSq, V3.dot]) (by positivity)]
    norm_num [V3.normSq, V3.dot]
  rintro (h | h)
  · have := congrArg V3.x h; norm_num at this
  · change Prec.double.dp ≤ V3.norm _ at h
    rw [h0] at h
    norm_num [Prec.double] at h

/-- **C34, conversions.** Every conversion between a rotation derivative and an angular velocity, at every rotation of every
class (no side condition), commutes with sums, differences and — where the class has the operator — scalings.  The quaternion
derivative has no `+` in the library: there linearity is stated on the coefficients. -/
theorem C34_conversions_linear_all (P : Prec) (k : Kind) (r : Rep k) (q : Quat) (m : M3) (e : EulXyz) (f : EulZyx)
    (w w' : LocalAV) (W W' : GlobalAV) (s : ℝ) (d d' : XyzDiff) (z z' : ZyxDiff) (n n' : MatDiff) (p p' : QuatDiff) :
    (globalOfLocal P k r (w.add w') = (globalOfLocal P k r w).add (globalOfLocal P k r w') ∧
      globalOfLocal P k r (w.sub w') = (globalOfLocal P k r w).sub (globalOfLocal P k r w') ∧
      globalOfLocal P k r (w.smul s) = (globalOfLocal P k r w).smul s) ∧
    (localOfGlobal P k r (W.add W') = (localOfGlobal P k r W).add (localOfGlobal P k r W') ∧
      localOfGlobal P k r (W.sub W') = (localOfGlobal P k r W).sub (localOfGlobal P k r W') ∧
      localOfGlobal P k r (W.smul s) = (localOfGlobal P k r W).smul s) ∧
    (localOfXyzDiff e (d.add d') = (localOfXyzDiff e d).add (localOfXyzDiff e d') ∧
      localOfXyzDiff e (d.sub d') = (localOfXyzDiff e d).sub (localOfXyzDiff e d') ∧
      globalOfXyzDiff e (d.add d') = (globalOfXyzDiff e d).add (globalOfXyzDiff e d') ∧
      globalOfXyzDiff e (d.sub d') = (globalOfXyzDiff e d).sub (globalOfXyzDiff e d')) ∧
    (localOfZyxDiff f (z.add z') = (localOfZyxDiff f z).add (localOfZyxDiff f z') ∧
      localOfZyxDiff f (z.sub z') = (localOfZyxDiff f z).sub (localOfZyxDiff f z')) ∧
    (localOfMatDiff m (n.add n') = (localOfMatDiff m n).add (localOfMatDiff m n') ∧
      localOfMatDiff m (n.sub n') = (localOfMatDiff m n).sub (localOfMatDiff m n') ∧
      globalOfMatDiff m (n.add n') = (globalOfMatDiff m n).add (globalOfMatDiff m n') ∧
      globalOfMatDiff m (n.sub n') = (globalOfMatDiff m n).sub (globalOfMatDiff m n') ∧
      matDiffOfLocal m (w.add w') = (matDiffOfLocal m w).add (matDiffOfLocal m w') ∧
      matDiffOfLocal m (w.sub w') = (matDiffOfLocal m w).sub (matDiffOfLocal m w') ∧
      (matDiffOfLocal m (w.smul s)).m = s • (matDiffOfLocal m w).m ∧
      matDiffOfGlobal m (W.add W') = (matDiffOfGlobal m W).add (matDiffOfGlobal m W') ∧
      matDiffOfGlobal m (W.sub W') = (matDiffOfGlobal m W).sub (matDiffOfGlobal m W') ∧
      (matDiffOfGlobal m (W.smul s)).m = s • (matDiffOfGlobal m W).m) ∧
    (toH (quatDiffOfLocal q (w.add w')).q = toH (quatDiffOfLocal q w).q + toH (quatDiffOfLocal q w').q ∧
      toH (quatDiffOfLocal q (w.smul s)).q = s • toH (quatDiffOfLocal q w).q ∧
      toH (quatDiffOfGlobal q (W.add W')).q = toH (quatDiffOfGlobal q W).q + toH (quatDiffOfGlobal q W').q ∧
      toH (quatDiffOfGlobal q (W.smul s)).q = s • toH (quatDiffOfGlobal q W).q ∧
      (∀ p'' : QuatDiff, toH p''.q = toH p.q + s • toH p'.q →
        localOfQuatDiff q p'' = (localOfQuatDiff q p).add ((localOfQuatDiff q p').smul s) ∧
        globalOfQuatDiff q p'' = (globalOfQuatDiff q p).add ((globalOfQuatDiff q p').smul s))) := by
  have hadd : ∀ (M : M3) (a b : V3), M.mulVec (a + b) = M.mulVec a + M.mulVec b := M3.mulVec_add
  refine ⟨⟨?_, ?_, ?_⟩, ⟨?_, ?_, ?_⟩, ⟨?_, ?_, ?_, ?_⟩, ⟨?_, ?_⟩, ⟨?_, ?_, ?_, ?_, ?_, ?_, ?_, ?_, ?_, ?_⟩, ⟨?_, ?_, ?_, ?_, ?_⟩⟩
  · simp only [globalOfLocal, LocalAV.add, GlobalAV.add, rotate, M3.mulVec_add]
  · simp only [globalOfLocal, LocalAV.sub, GlobalAV.sub, rotate, M3.mulVec_sub]
  · simp only [globalOfLocal, LocalAV.smul, GlobalAV.smul, rotate]; congr 1; ext <;> simp [M3.mulVec] <;> ring
  · simp only [localOfGlobal, LocalAV.add, GlobalAV.add, inverseRotate, rotate, M3.mulVec_add]
  · simp only [localOfGlobal, LocalAV.sub, GlobalAV.sub, inverseRotate, rotate, M3.mulVec_sub]
  · simp only [localOfGlobal, LocalAV.smul, GlobalAV.smul, inverseRotate, rotate]; congr 1; ext <;> simp [M3.mulVec] <;> ring
  · simp only [localOfXyzDiff, XyzDiff.add, LocalAV.add, M3.mulVec_add]
  · simp only [localOfXyzDiff, XyzDiff.sub, LocalAV.sub, M3.mulVec_sub]
  · simp only [globalOfXyzDiff, XyzDiff.add, GlobalAV.add, M3.mulVec_add]
  · simp only [globalOfXyzDiff, XyzDiff.sub, GlobalAV.sub, M3.mulVec_sub]
  · simp only [localOfZyxDiff, ZyxDiff.add, LocalAV.add, M3.mulVec_add]
  · simp only [localOfZyxDiff, ZyxDiff.sub, LocalAV.sub, M3.mulVec_sub]
  · simp only [localOfMatDiff, MatDiff.add, LocalAV.add]; congr 1; ext <;> simp [vee] <;> ring
  · simp only [localOfMatDiff, MatDiff.sub, LocalAV.sub]; congr 1; ext <;> simp [vee] <;> ring
  · simp only [globalOfMatDiff, MatDiff.add, GlobalAV.add]; congr 1; ext <;> simp [vee] <;> ring
  · simp only [globalOfMatDiff, MatDiff.sub, GlobalAV.sub]; congr 1; ext <;> simp [vee] <;> ring
  · simp only [matDiffOfLocal, MatDiff.add, LocalAV.add]; congr 1; ext <;> simp [skew] <;> ring
  · simp only [matDiffOfLocal, MatDiff.sub, LocalAV.sub]; congr 1; ext <;> simp [skew] <;> ring
  · simp only [matDiffOfLocal, LocalAV.smul]; ext <;> simp [skew] <;> ring
  · simp only [matDiffOfGlobal, MatDiff.add, GlobalAV.add]; congr 1; ext <;> simp [skew] <;> ring
  · simp only [matDiffOfGlobal, MatDiff.sub, GlobalAV.sub]; congr 1; ext <;> simp [skew] <;> ring
  · simp only [matDiffOfGlobal, GlobalAV.smul]; ext <;> simp [skew] <;> ring
  · simp only [quatDiffOfLocal, LocalAV.add]; ext <;> simp [Quaternion.ofVector4, M34.tMulVec, smul4_c0, smul4_c1, smul4_c2, smul4_c3, getLocalQuaternionDiffMatrix] <;> ring
  · simp only [quatDiffOfLocal, LocalAV.smul]; ext <;> simp [Quaternion.ofVector4, M34.tMulVec, smul4_c0, smul4_c1, smul4_c2, smul4_c3, getLocalQuaternionDiffMatrix] <;> ring
  · simp only [quatDiffOfGlobal, GlobalAV.add]; ext <;> simp [Quaternion.ofVector4, M34.tMulVec, smul4_c0, smul4_c1, smul4_c2, smul4_c3, getGlobalQuaternionDiffMatrix] <;> ring
  · simp only [quatDiffOfGlobal, GlobalAV.smul]; ext <;> simp [Quaternion.ofVector4, M34.tMulVec, smul4_c0, smul4_c1, smul4_c2, smul4_c3, getGlobalQuaternionDiffMatrix] <;> ring
  · intro p'' h
    have h1 := congrArg (fun x : Quaternion ℝ => x.re) h
    have h2 := congrArg (fun x : Quaternion ℝ => x.imI) h
    have h3 := congrArg (fun x : Quaternion ℝ => x.imJ) h
    have h4 := congrArg (fun x : Quaternion ℝ => x.imK) h
    simp only [toH_re, toH_imI, toH_imJ, toH_imK, Quaternion.re_add, Quaternion.imI_add, Quaternion.imJ_add, Quaternion.imK_add,
      Quaternion.re_smul, Quaternion.imI_smul, Quaternion.imJ_smul, Quaternion.imK_smul, smul_eq_mul] at h1 h2 h3 h4
    constructor
    · simp only [localOfQuatDiff, LocalAV.add, LocalAV.smul]; congr 1
      ext <;> simp [M34.mulVec, getLocalQuaternionDiffMatrix, Quat.toV4, V4.dot, h1, h2, h3, h4] <;> ring
    · simp only [globalOfQuatDiff, GlobalAV.add, GlobalAV.smul]; congr 1
      ext <;> simp [M34.mulVec, getGlobalQuaternionDiffMatrix, Quat.toV4, V4.dot, h1, h2, h3, h4] <;> ring

end Kindr
