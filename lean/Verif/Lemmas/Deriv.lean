import Mathlib.Analysis.SpecialFunctions.Trigonometric.Deriv
import Mathlib.Analysis.Calculus.Deriv.Inv
import Verif.Spec.Deriv
import Verif.Model.Deriv
import Verif.Lemmas.Group

/-!
# Derivatives of matrix curves and angular velocity
-/

set_option autoImplicit false

noncomputable section
namespace Kindr
open Spec

namespace Spec

lemma HasDerivM.congr {f : ℝ → M3} {a b : M3} {t : ℝ} (h : HasDerivM f a t) (e : a = b) : HasDerivM f b t := e ▸ h
lemma HasDerivV.congr {f : ℝ → V3} {a b : V3} {t : ℝ} (h : HasDerivV f a t) (e : a = b) : HasDerivV f b t := e ▸ h

lemma HasDerivM.unique {f : ℝ → M3} {a b : M3} {t : ℝ} (h : HasDerivM f a t) (g : HasDerivM f b t) : a = b := by
  obtain ⟨⟨h0, h1, h2⟩, ⟨h3, h4, h5⟩, h6, h7, h8⟩ := h
  obtain ⟨⟨g0, g1, g2⟩, ⟨g3, g4, g5⟩, g6, g7, g8⟩ := g
  ext
  exacts [h0.unique g0, h1.unique g1, h2.unique g2, h3.unique g3, h4.unique g4, h5.unique g5, h6.unique g6,
    h7.unique g7, h8.unique g8]

lemma HasDerivV.unique {f : ℝ → V3} {a b : V3} {t : ℝ} (h : HasDerivV f a t) (g : HasDerivV f b t) : a = b := by
  obtain ⟨h0, h1, h2⟩ := h
  obtain ⟨g0, g1, g2⟩ := g
  ext
  exacts [h0.unique g0, h1.unique g1, h2.unique g2]

/-- Product rule. -/
lemma HasDerivM.mul {f g : ℝ → M3} {a b : M3} {t : ℝ} (hf : HasDerivM f a t) (hg : HasDerivM g b t) :
    HasDerivM (fun s => f s * g s) (a * g t + f t * b) t := by
  obtain ⟨⟨h0, h1, h2⟩, ⟨h3, h4, h5⟩, h6, h7, h8⟩ := hf
  obtain ⟨⟨g0, g1, g2⟩, ⟨g3, g4, g5⟩, g6, g7, g8⟩ := hg
  have key : ∀ {p q r p' q' r' : ℝ → ℝ} {dp dq dr dp' dq' dr' : ℝ}, HasDerivAt p dp t → HasDerivAt q dq t →
      HasDerivAt r dr t → HasDerivAt p' dp' t → HasDerivAt q' dq' t → HasDerivAt r' dr' t →
      HasDerivAt (fun s => p s * p' s + q s * q' s + r s * r' s)
        (dp * p' t + dq * q' t + dr * r' t + (p t * dp' + q t * dq' + r t * dr')) t := by
    intro p q r p' q' r' dp dq dr dp' dq' dr' h1 h2 h3 h4 h5 h6
    refine (((h1.mul h4).add (h2.mul h5)).add (h3.mul h6)).congr_deriv ?_
    ring
  refine ⟨⟨?_, ?_, ?_⟩, ⟨?_, ?_, ?_⟩, ?_, ?_, ?_⟩
  exacts [key h0 h1 h2 g0 g3 g6, key h0 h1 h2 g1 g4 g7, key h0 h1 h2 g2 g5 g8,
    key h3 h4 h5 g0 g3 g6, key h3 h4 h5 g1 g4 g7, key h3 h4 h5 g2 g5 g8,
    key h6 h7 h8 g0 g3 g6, key h6 h7 h8 g1 g4 g7, key h6 h7 h8 g2 g5 g8]

lemma hasDerivM_const (c : M3) (t : ℝ) : HasDerivM (fun _ => c) 0 t :=
  ⟨⟨hasDerivAt_const .., hasDerivAt_const .., hasDerivAt_const ..⟩,
   ⟨hasDerivAt_const .., hasDerivAt_const .., hasDerivAt_const ..⟩,
   hasDerivAt_const .., hasDerivAt_const .., hasDerivAt_const ..⟩

lemma HasDerivM.transpose {f : ℝ → M3} {a : M3} {t : ℝ} (hf : HasDerivM f a t) :
    HasDerivM (fun s => (f s).transpose) a.transpose t := by
  obtain ⟨⟨h0, h1, h2⟩, ⟨h3, h4, h5⟩, h6, h7, h8⟩ := hf
  exact ⟨⟨h0, h3, h6⟩, ⟨h1, h4, h7⟩, h2, h5, h8⟩

lemma HasDerivM.mulVec {f : ℝ → M3} {a : M3} {t : ℝ} (hf : HasDerivM f a t) (u : V3) :
    HasDerivV (fun s => (f s).mulVec u) (a.mulVec u) t := by
  obtain ⟨⟨h0, h1, h2⟩, ⟨h3, h4, h5⟩, h6, h7, h8⟩ := hf
  exact ⟨((h0.mul_const u.x).add (h1.mul_const u.y)).add (h2.mul_const u.z),
    ((h3.mul_const u.x).add (h4.mul_const u.y)).add (h5.mul_const u.z),
    ((h6.mul_const u.x).add (h7.mul_const u.y)).add (h8.mul_const u.z)⟩

lemma HasDerivM.of_mulVec {f : ℝ → M3} {a : M3} {t : ℝ} (h : ∀ u, HasDerivV (fun s => (f s).mulVec u) (a.mulVec u) t) :
    HasDerivM f a t := by
  have hx := h ⟨1, 0, 0⟩
  have hy := h ⟨0, 1, 0⟩
  have hz := h ⟨0, 0, 1⟩
  simp only [HasDerivV, M3.mulVec, mul_one, mul_zero, add_zero, zero_add] at hx hy hz
  exact ⟨⟨hx.1, hy.1, hz.1⟩, ⟨hx.2.1, hy.2.1, hz.2.1⟩, hx.2.2, hy.2.2, hz.2.2⟩

end Spec

lemma skew_mulVec (w u : V3) : (skew w).mulVec u = w.cross u := by
  ext <;> simp [skew, V3.cross] <;> ring

/-- The global velocity in matrix form: `R' = skew(w) R`. -/
lemma isGlobalVelocity_iff {k : Kind} {r : ℝ → Rep k} {t : ℝ} {w : V3} :
    IsGlobalVelocity k r t w ↔ HasDerivM (fun s => den k (r s)) (skew w * den k (r t)) t := by
  have e : ∀ u, (skew w * den k (r t)).mulVec u = w.cross (act k (r t) u) := fun u => by
    rw [← M3.mulVec_mulVec, skew_mulVec, act_eq]
  constructor
  · intro h
    refine HasDerivM.of_mulVec fun u => ?_
    rw [e]
    have := h u
    simp only [act_eq] at this ⊢
    exact this
  · intro h u
    have := h.mulVec u
    rw [e] at this
    simp only [act_eq] at this ⊢
    exact this

/-- The local velocity in matrix form: `R' = R skew(w)`. -/
lemma isLocalVelocity_iff {k : Kind} {r : ℝ → Rep k} {t : ℝ} {w : V3} :
    IsLocalVelocity k r t w ↔ HasDerivM (fun s => den k (r s)) (den k (r t) * skew w) t := by
  have e : ∀ u, (den k (r t) * skew w).mulVec u = act k (r t) (w.cross u) := fun u => by
    rw [← M3.mulVec_mulVec, skew_mulVec, act_eq]
  constructor
  · intro h
    refine HasDerivM.of_mulVec fun u => ?_
    rw [e]
    have := h u
    simp only [act_eq] at this ⊢
    exact this
  · intro h u
    have := h.mulVec u
    rw [e] at this
    simp only [act_eq] at this ⊢
    exact this

lemma skew_injective {a b : V3} (h : skew a = skew b) : a = b := by
  have h1 := congrArg M3.m21 h
  have h2 := congrArg M3.m02 h
  have h3 := congrArg M3.m10 h
  ext
  exacts [h1, h2, h3]

/-- `R skew(w) Rᵀ = skew(R w)`. -/
lemma skew_conj {m : M3} (h : IsSO3 m) (w : V3) : m * skew w = skew (m.mulVec w) * m := by
  apply M3.ext_mulVec
  intro u
  rw [← M3.mulVec_mulVec, ← M3.mulVec_mulVec, skew_mulVec, skew_mulVec, SO3.mulVec_cross h]

/-- `R' = R skew(w_local)` iff `R' = skew(R w_local) R`. -/
lemma local_iff_global {k : Kind} {r : ℝ → Rep k} {t : ℝ} (hv : Valid k (r t)) {w : V3} :
    IsLocalVelocity k r t w ↔ IsGlobalVelocity k r t ((den k (r t)).mulVec w) := by
  rw [isLocalVelocity_iff, isGlobalVelocity_iff, skew_conj (den_isSO3 hv)]

lemma isGlobalVelocity_unique {k : Kind} {r : ℝ → Rep k} {t : ℝ} (hv : Valid k (r t)) {w w' : V3}
    (h : IsGlobalVelocity k r t w) (h' : IsGlobalVelocity k r t w') : w = w' := by
  have e := (isGlobalVelocity_iff.mp h).unique (isGlobalVelocity_iff.mp h')
  apply skew_injective
  have := congrArg (· * (den k (r t)).transpose) e
  simpa only [mul_assoc, (den_isSO3 hv).1, mul_one] using this

lemma isLocalVelocity_unique {k : Kind} {r : ℝ → Rep k} {t : ℝ} (hv : Valid k (r t)) {w w' : V3}
    (h : IsLocalVelocity k r t w) (h' : IsLocalVelocity k r t w') : w = w' := by
  have e := (isLocalVelocity_iff.mp h).unique (isLocalVelocity_iff.mp h')
  apply skew_injective
  have := congrArg ((den k (r t)).transpose * ·) e
  simpa only [← mul_assoc, SO3.tr_mul (den_isSO3 hv), one_mul] using this

end Kindr
