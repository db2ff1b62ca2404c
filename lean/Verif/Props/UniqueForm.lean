import Verif.Props.MixedEq
import Verif.Spec.UniqueForm

/-!
# C116: which values `getUnique()` returns, and when a second call changes them

For every class the exact set of results, the values that are their own unique form, and a comparison with the ranges given in
the manual (doc/doxygen/page_rotation.dox:148, 185, 232, 315, 354).
-/

set_option autoImplicit false

open Classical

noncomputable section
namespace Kindr
open Spec

/-! ## Quaternions -/

lemma quatGetUnique_pos {q : Quat} (h : q.normSq = 1) :
    FirstPositive [(quatGetUnique q).w, (quatGetUnique q).x, (quatGetUnique q).y, (quatGetUnique q).z] := by
  unfold quatGetUnique
  split_ifs with h1 h2 h3 h4 h5 h6 h7 <;> simp only [FirstPositive, gt_iff_lt, not_lt] at *
  · exact Or.inl h1
  · exact Or.inl (by linarith)
  all_goals have hw : q.w = 0 := le_antisymm h1 h2
  · exact Or.inr ⟨hw, Or.inl h3⟩
  · exact Or.inr ⟨by linarith, Or.inl (by linarith)⟩
  all_goals have hx : q.x = 0 := le_antisymm h3 h4
  · exact Or.inr ⟨hw, Or.inr ⟨hx, Or.inl h5⟩⟩
  · exact Or.inr ⟨by linarith, Or.inr ⟨by linarith, Or.inl (by linarith)⟩⟩
  all_goals have hy : q.y = 0 := le_antisymm h5 h6
  · exact Or.inr ⟨hw, Or.inr ⟨hx, Or.inr ⟨hy, Or.inl h7⟩⟩⟩
  · have hz : q.z < 0 := by
      refine lt_of_le_of_ne h7 (fun e => ?_)
      simp [Quat.normSq, hw, hx, hy, e] at h
    exact Or.inr ⟨by linarith, Or.inr ⟨by linarith, Or.inr ⟨by linarith, Or.inl (by linarith)⟩⟩⟩

lemma quatGetUnique_fix {q : Quat} (h : FirstPositive [q.w, q.x, q.y, q.z]) : quatGetUnique q = q := by
  simp only [FirstPositive, and_false, or_false] at h
  unfold quatGetUnique
  rcases h with h | ⟨e1, h | ⟨e2, h | ⟨e3, h⟩⟩⟩
  · simp [h]
  · simp [e1, h]
  · simp [e1, e2, h]
  · simp [e1, e2, e3, h]

/-- **C116, quaternions.** The results of `getUnique()` on unit quaternions are exactly the unit quaternions whose first
coefficient that is not zero (in the order w, x, y, z) is positive; exactly these are left unchanged. In particular `w ≥ 0`, as
the manual says. -/
theorem C116_quaternion (P : Prec) (q : Quat) (hq : Valid .quat q) :
    ((∃ p : Quat, Valid .quat p ∧ getUnique P .quat p = q) ↔ FirstPositive [q.w, q.x, q.y, q.z]) ∧
    (getUnique P .quat q = q ↔ FirstPositive [q.w, q.x, q.y, q.z]) ∧
    0 ≤ Quat.w (getUnique P .quat q) := by
  have fix : getUnique P .quat q = q ↔ FirstPositive [q.w, q.x, q.y, q.z] := by
    constructor
    · intro h
      have := quatGetUnique_pos ((valid_quat_iff q).mp hq)
      have e : quatGetUnique q = q := h
      rwa [e] at this
    · exact fun h => quatGetUnique_fix h
  refine ⟨⟨?_, fun h => ⟨q, hq, fix.mpr h⟩⟩, fix, ?_⟩
  · rintro ⟨p, hp, rfl⟩
    exact quatGetUnique_pos ((valid_quat_iff p).mp hp)
  · rcases quatGetUnique_pos ((valid_quat_iff q).mp hq) with h | h
    · exact h.le
    · exact h.1.ge

/-! ## Angle-axis -/

lemma firstPositive_three (v : V3) : FirstPositive [v.x, v.y, v.z] ↔
    (0 < v.x ∨ (v.x = 0 ∧ 0 < v.y) ∨ (v.x = 0 ∧ v.y = 0 ∧ 0 < v.z)) := by
  simp only [FirstPositive, and_false, or_false, and_or_left]

/-- **C116, angle-axis.** The results of `getUnique()` on angle-axis values with unit axis are exactly those with angle 0 and axis
`(1,0,0)`, with angle in `(0, π)` and any unit axis, and with angle `π` and a unit axis whose first coefficient that is not zero
is positive; exactly these are left unchanged. -/
theorem C116_angle_axis (P : Prec) (a : AngAx) (ha : Valid .aa a) :
    ((∃ b : AngAx, Valid .aa b ∧ getUnique P .aa b = a) ↔ ((a.angle = 0 ∧ a.axis = ⟨1, 0, 0⟩) ∨
      (0 < a.angle ∧ a.angle < Real.pi) ∨ (a.angle = Real.pi ∧ FirstPositive [a.axis.x, a.axis.y, a.axis.z]))) ∧
    (getUnique P .aa a = a ↔ ((a.angle = 0 ∧ a.axis = ⟨1, 0, 0⟩) ∨
      (0 < a.angle ∧ a.angle < Real.pi) ∨ (a.angle = Real.pi ∧ FirstPositive [a.axis.x, a.axis.y, a.axis.z]))) := by
  have hpi := Real.pi_pos
  have ha1 := (valid_aa_iff a).mp ha
  have canon : CanonicalAA a ↔ ((a.angle = 0 ∧ a.axis = ⟨1, 0, 0⟩) ∨
      (0 < a.angle ∧ a.angle < Real.pi) ∨ (a.angle = Real.pi ∧ FirstPositive [a.axis.x, a.axis.y, a.axis.z])) := by
    rw [firstPositive_three]
    constructor
    · rintro ⟨_, h2, h3, h4, h5⟩
      rcases eq_or_lt_of_le h2 with h | h
      · exact Or.inl ⟨h.symm, h4 h.symm⟩
      · rcases eq_or_lt_of_le h3 with h' | h'
        · exact Or.inr (Or.inr ⟨h', h5 h'⟩)
        · exact Or.inr (Or.inl ⟨h, h'⟩)
    · rintro (⟨h, h'⟩ | ⟨h, h'⟩ | ⟨h, h'⟩)
      · exact ⟨ha1, h.ge, by rw [h]; exact hpi.le, fun _ => h', fun e => absurd (h.symm.trans e) hpi.ne⟩
      · exact ⟨ha1, h.le, h'.le, fun e => absurd e h.ne', fun e => absurd e h'.ne⟩
      · exact ⟨ha1, by rw [h]; exact hpi.le, h.le, fun e => absurd (e.symm.trans h) hpi.ne, fun _ => h'⟩
  refine ⟨⟨?_, fun h => ⟨a, ha, canonicalAA_fix (canon.mpr h)⟩⟩, ⟨fun h => ?_, fun h => canonicalAA_fix (canon.mpr h)⟩⟩
  · rintro ⟨b, hb, e⟩
    have := (aaGetUnique_spec ((valid_aa_iff b).mp hb)).1
    exact canon.mp (e ▸ this)
  · have := (aaGetUnique_spec ha1).1
    have e : aaGetUnique a = a := h
    exact canon.mp (e ▸ this)

/-- **C116, the manual's range for angles.** The manual gives `[0, π)` for the angle of a unique angle-axis value and the length of
a unique rotation vector; a half turn about any axis has the angle `π`, which is outside. -/
theorem C116_half_turn (P : Prec) (a : AngAx) (ha : Valid .aa a) :
    AngAx.angle (getUnique P .aa a) < Real.pi ↔ Real.cos a.angle ≠ -1 := by
  obtain ⟨c, r⟩ := aaGetUnique_spec ((valid_aa_iff a).mp ha)
  have hcos : Real.cos (aaGetUnique a).angle = Real.cos a.angle := by
    have h1 := trace_rodMat (aaGetUnique a).angle c.1
    rw [r, trace_rodMat a.angle ((valid_aa_iff a).mp ha)] at h1; linarith
  change (aaGetUnique a).angle < Real.pi ↔ _
  rw [← hcos]
  constructor
  · intro h e
    rw [← Real.cos_pi] at e
    exact h.ne (Real.injOn_cos ⟨c.2.1, c.2.2.1⟩ ⟨Real.pi_pos.le, le_refl _⟩ e)
  · intro h
    refine lt_of_le_of_ne c.2.2.1 (fun e => h ?_)
    rw [e, Real.cos_pi]

/-! ## Rotation vectors -/

lemma firstPositive_smul {c : ℝ} (hc : 0 < c) (v : V3) :
    FirstPositive [(c • v).x, (c • v).y, (c • v).z] ↔ FirstPositive [v.x, v.y, v.z] := by
  simp only [FirstPositive, V3.smul_x, V3.smul_y, V3.smul_z, mul_pos_iff_of_pos_left hc, mul_eq_zero, hc.ne', false_or]

/-- A rotation vector that is at least `dp` long and in the range of unique vectors is its own unique form. -/
lemma rvGetUnique_long {P : Prec} {r : RotVec} (h0 : P.dp ≤ r.v.norm)
    (h : r.v.norm < Real.pi ∨ (r.v.norm = Real.pi ∧ FirstPositive [r.v.x, r.v.y, r.v.z])) : rvGetUnique P r = r := by
  have hpos := lt_of_lt_of_le P.dp_pos h0
  have hc : CanonicalAA ⟨r.v.norm, (1 / r.v.norm) • r.v⟩ := by
    refine ⟨unit_dir hpos.ne', hpos.le, ?_, fun e => absurd e hpos.ne', fun e => ?_⟩
    · rcases h with h | h
      · exact h.le
      · exact h.1.le
    · rcases h with h | h
      · exact absurd e h.ne
      · have := (firstPositive_smul (c := 1 / r.v.norm) (by positivity) r.v).mpr h.2
        exact (firstPositive_three _).mp this
  rw [rvGetUnique, aaOfRv_eq h0, canonicalAA_fix hc]
  obtain ⟨v⟩ := r
  simp only [rvOfAa, RotVec.mk.injEq]
  simp only at hpos
  ext <;> simp <;> field_simp

lemma rvGetUnique_mem (P : Prec) (r : RotVec) :
    (rvGetUnique P r).v.norm < Real.pi ∨ ((rvGetUnique P r).v.norm = Real.pi ∧
      FirstPositive [(rvGetUnique P r).v.x, (rvGetUnique P r).v.y, (rvGetUnique P r).v.z]) := by
  obtain ⟨c, -⟩ := aaGetUnique_spec (aaOfRv_unit P r)
  have hn : (rvGetUnique P r).v.norm = (aaGetUnique (aaOfRv P r)).angle := by
    simp only [rvGetUnique, rvOfAa]
    rw [V3.norm_smul, V3.norm_eq_one_iff.mpr c.1, mul_one, abs_of_nonneg c.2.1]
  rcases lt_or_eq_of_le c.2.2.1 with h | h
  · exact Or.inl (hn.trans_lt h)
  · refine Or.inr ⟨hn.trans h, ?_⟩
    have := c.2.2.2.2 h
    refine (firstPositive_smul (c := (aaGetUnique (aaOfRv P r)).angle) (by rw [h]; exact Real.pi_pos) _).mpr ?_
    exact (firstPositive_three _).mpr this

/-- **C116, rotation vectors.** The results of `getUnique()` on rotation vectors are exactly the vectors shorter than `π` and those
of length `π` whose first coefficient that is not zero is positive. A result is left unchanged by a second call exactly if it is
zero or at least `dp` long (`1e-12` for double, `1e-5` for float): a shorter result becomes zero. -/
theorem C116_rotation_vector (P : Prec) (u : RotVec) :
    ((∃ r : RotVec, getUnique P .rv r = u) ↔
      u.v.norm < Real.pi ∨ (u.v.norm = Real.pi ∧ FirstPositive [u.v.x, u.v.y, u.v.z])) ∧
    (∀ r : RotVec, getUnique P .rv r = u →
      (getUnique P .rv u = u ↔ u.v = 0 ∨ P.dp ≤ u.v.norm) ∧
      (u.v.norm < P.dp → getUnique P .rv u = (⟨0⟩ : RotVec))) := by
  have hpi := Real.pi_gt_three
  have hdp := P.dp_le
  have small : u.v = 0 → rvGetUnique P u = u := by
    intro h
    have : rvGetUnique P u = ⟨0⟩ := rvGetUnique_small (by rw [h, V3.norm_zero]; exact P.dp_pos)
    rw [this]; exact RotVec.ext h.symm
  constructor
  · constructor
    · rintro ⟨r, rfl⟩
      exact rvGetUnique_mem P r
    · intro h
      by_cases h0 : P.dp ≤ u.v.norm
      · exact ⟨u, rvGetUnique_long h0 h⟩
      · by_cases hv : u.v = 0
        · exact ⟨u, small hv⟩
        · have hn := V3.norm_pos hv
          have hlt := not_le.mp h0
          refine ⟨⟨((2 * Real.pi + u.v.norm) / u.v.norm) • u.v⟩, ?_⟩
          have en : (((2 * Real.pi + u.v.norm) / u.v.norm) • u.v).norm = 2 * Real.pi + u.v.norm := by
            rw [V3.norm_smul, abs_of_pos (by positivity)]; field_simp
          change rvGetUnique P _ = u
          rw [rvGetUnique, aaOfRv_eq (by simp only [en]; linarith)]
          simp only [en]
          have hw : wrapPosNegPI (2 * Real.pi + u.v.norm) = u.v.norm := by
            refine (angle_eq_of_cos_sin ⟨by linarith, by linarith⟩ (wrapPosNegPI_mem _) ?_ ?_).symm
            · rw [cos_wrap, add_comm, Real.cos_add_two_pi]
            · rw [sin_wrap, add_comm, Real.sin_add_two_pi]
          simp only [aaGetUnique, hw, gt_iff_lt, hn, if_true, rvOfAa]
          obtain ⟨v⟩ := u
          simp only [RotVec.mk.injEq]
          simp only at hn
          ext <;> simp <;> field_simp
  · rintro r rfl
    have mem := rvGetUnique_mem P r
    refine ⟨⟨fun h => ?_, fun h => ?_⟩, fun h => rvGetUnique_small h⟩
    · by_contra hc
      push Not at hc
      have e : rvGetUnique P (getUnique P .rv r) = ⟨0⟩ := rvGetUnique_small hc.2
      have h' : rvGetUnique P (getUnique P .rv r) = getUnique P .rv r := h
      rw [e] at h'
      exact hc.1 (congrArg RotVec.v h').symm
    · rcases h with h | h
      · exact small h
      · exact rvGetUnique_long h mem

/-- **C116, tiny results.** There is a rotation vector whose unique form is not the unique form of itself: a full turn and half the
cut-off about the x axis gives `dp / 2`, and a second call gives zero. -/
theorem C116_rotation_vector_twice (P : Prec) :
    getUnique P .rv (⟨⟨2 * Real.pi + P.dp / 2, 0, 0⟩⟩ : RotVec) = (⟨⟨P.dp / 2, 0, 0⟩⟩ : RotVec) ∧
    getUnique P .rv (⟨⟨P.dp / 2, 0, 0⟩⟩ : RotVec) = (⟨0⟩ : RotVec) := by
  have hpi := Real.pi_gt_three
  have hd := P.dp_pos
  have hdp := P.dp_le
  have nx : ∀ c : ℝ, 0 ≤ c → V3.norm ⟨c, 0, 0⟩ = c := fun c hc => by
    rw [show (⟨c, 0, 0⟩ : V3) = c • ⟨1, 0, 0⟩ by ext <;> simp, V3.norm_smul, abs_of_nonneg hc,
      V3.norm_eq_one_iff.mpr (by norm_num [V3.normSq, V3.dot]), mul_one]
  constructor
  · change rvGetUnique P _ = _
    have e := nx (2 * Real.pi + P.dp / 2) (by positivity)
    rw [rvGetUnique, aaOfRv_eq (by simp only [e]; linarith)]
    simp only [e]
    have hw : wrapPosNegPI (2 * Real.pi + P.dp / 2) = P.dp / 2 := by
      refine (angle_eq_of_cos_sin ⟨by linarith, by linarith⟩ (wrapPosNegPI_mem _) ?_ ?_).symm
      · rw [cos_wrap, add_comm, Real.cos_add_two_pi]
      · rw [sin_wrap, add_comm, Real.sin_add_two_pi]
    simp only [aaGetUnique, hw, gt_iff_lt, half_pos hd, if_true, rvOfAa, RotVec.mk.injEq]
    ext <;> simp
    field_simp
  · exact rvGetUnique_small (by simp only [nx (P.dp / 2) (half_pos hd).le]; linarith)

/-! ## Euler angles -/

/-- The results of the common body. -/
lemma eulerUniqueBody_mem (v : V3) :
    RegularAngles (eulerUniqueBody v).x (eulerUniqueBody v).y (eulerUniqueBody v).z ∨
    LockedAngles (eulerUniqueBody v).x (eulerUniqueBody v).y (eulerUniqueBody v).z := by
  obtain ⟨x1, x2⟩ := wrapPosNegPI_mem v.x
  obtain ⟨y1, y2⟩ := wrapPosNegPI_mem v.y
  obtain ⟨z1, z2⟩ := wrapPosNegPI_mem v.z
  have ht : eulerTol = 1 / 1000 := rfl
  rcases eulerUniqueBody_cases v with ⟨h1, h2, e⟩ | ⟨h1, e⟩ | ⟨h1, e⟩ | ⟨h1, h2, e⟩ | ⟨h1, h2, e⟩ <;> rw [e]
  · exact Or.inl ⟨⟨x1, x2⟩, ⟨by simp only; linarith, by simp only; linarith⟩, ⟨z1, z2⟩⟩
  · exact Or.inl ⟨flipPi_mem ⟨x1, x2⟩, ⟨by simp only; linarith, by simp only; linarith⟩, flipPi_mem ⟨z1, z2⟩⟩
  · exact Or.inl ⟨flipPi_mem ⟨x1, x2⟩, ⟨by simp only; linarith, by simp only; linarith⟩, flipPi_mem ⟨z1, z2⟩⟩
  · refine Or.inr ⟨rfl, Or.inl ⟨abs_le.mpr ⟨?_, ?_⟩, ?_, ?_⟩⟩ <;> simp only <;> linarith
  · refine Or.inr ⟨rfl, Or.inr ⟨abs_le.mpr ⟨?_, ?_⟩, ?_, ?_⟩⟩ <;> simp only <;> linarith

lemma eulerUniqueBody_fix {v : V3} (h : RegularAngles v.x v.y v.z) : eulerUniqueBody v = v := by
  obtain ⟨⟨x1, x2⟩, ⟨y1, y2⟩, ⟨z1, z2⟩⟩ := h
  have ht : eulerTol = 1 / 1000 := rfl
  have hpi := Real.pi_gt_three
  have ex := wrapPosNegPI_of_mem x1 x2
  have ey := wrapPosNegPI_of_mem (a := v.y) (by linarith) (by linarith)
  have ez := wrapPosNegPI_of_mem z1 z2
  rcases eulerUniqueBody_cases v with ⟨h1, h2, e⟩ | ⟨h1, e⟩ | ⟨h1, e⟩ | ⟨h1, h2, e⟩ | ⟨h1, h2, e⟩
  · rw [e, ex, ey, ez]
  all_goals exfalso; rw [ey] at *; linarith

/-- A locked result, mapped once more: the first angle is wrapped. -/
lemma eulerUniqueBody_locked {v : V3} (h : LockedAngles v.x v.y v.z) : eulerUniqueBody v = ⟨wrapPosNegPI v.x, v.y, 0⟩ := by
  obtain ⟨hz, h⟩ := h
  have ht : eulerTol = 1 / 1000 := rfl
  have hpi := Real.pi_gt_three
  have ez : wrapPosNegPI v.z = 0 := by rw [hz]; exact wrapPosNegPI_of_mem (by linarith) (by linarith)
  rcases h with ⟨hb, -, -⟩ | ⟨hb, -, -⟩ <;> obtain ⟨b1, b2⟩ := abs_le.mp hb <;>
    have ey := wrapPosNegPI_of_mem (a := v.y) (by linarith) (by linarith) <;>
    rcases eulerUniqueBody_cases v with ⟨h1, h2, e⟩ | ⟨h1, e⟩ | ⟨h1, e⟩ | ⟨h1, h2, e⟩ | ⟨h1, h2, e⟩ <;>
    first
    | (rw [e, ey, ez]; simp; done)
    | (exfalso; rw [ey] at *; linarith)

lemma eulerUniqueBody_reach {a b c : ℝ} (h : RegularAngles a b c ∨ LockedAngles a b c) :
    ∃ v : V3, eulerUniqueBody v = ⟨a, b, c⟩ := by
  rcases h with h | ⟨hz, h⟩
  · exact ⟨⟨a, b, c⟩, eulerUniqueBody_fix h⟩
  have ht : eulerTol = 1 / 1000 := rfl
  have hpi := Real.pi_gt_three
  subst hz
  rcases h with ⟨hb, a1, a2⟩ | ⟨hb, a1, a2⟩ <;> obtain ⟨b1, b2⟩ := abs_le.mp hb <;>
    have ey := wrapPosNegPI_of_mem (a := b) (by linarith) (by linarith) <;>
    have ex := wrapPosNegPI_of_mem (a := a / 2) (by linarith) (by linarith)
  · refine ⟨⟨a / 2, b, -(a / 2)⟩, ?_⟩
    have ez := wrapPosNegPI_of_mem (a := -(a / 2)) (by linarith) (by linarith)
    rcases eulerUniqueBody_cases ⟨a / 2, b, -(a / 2)⟩ with ⟨h1, h2, e⟩ | ⟨h1, e⟩ | ⟨h1, e⟩ | ⟨h1, h2, e⟩ | ⟨h1, h2, e⟩
    · exfalso; simp only [ey] at *; linarith
    · exfalso; simp only [ey] at *; linarith
    · exfalso; simp only [ey] at *; linarith
    · rw [e]; simp only [ex, ey, ez]; congr 1; ring
    · exfalso; simp only [ey] at *; linarith
  · refine ⟨⟨a / 2, b, a / 2⟩, ?_⟩
    rcases eulerUniqueBody_cases ⟨a / 2, b, a / 2⟩ with ⟨h1, h2, e⟩ | ⟨h1, e⟩ | ⟨h1, e⟩ | ⟨h1, h2, e⟩ | ⟨h1, h2, e⟩
    · exfalso; simp only [ey] at *; linarith
    · exfalso; simp only [ey] at *; linarith
    · exfalso; simp only [ey] at *; linarith
    · exfalso; simp only [ey] at *; linarith
    · rw [e]; simp only [ex, ey]; congr 1; ring

lemma eulerUniqueBody_twice (v : V3) :
    (eulerUniqueBody (eulerUniqueBody v) = eulerUniqueBody v ↔ InTurn (eulerUniqueBody v).x) ∧
    eulerUniqueBody (eulerUniqueBody (eulerUniqueBody v)) = eulerUniqueBody (eulerUniqueBody v) := by
  rcases eulerUniqueBody_mem v with h | h
  · have e := eulerUniqueBody_fix h
    exact ⟨⟨fun _ => h.1, fun _ => e⟩, by rw [e, e]⟩
  · have e := eulerUniqueBody_locked h
    have hm := wrapPosNegPI_mem (eulerUniqueBody v).x
    constructor
    · rw [e]
      constructor
      · intro h'
        have := congrArg V3.x h'
        simp only at this
        rw [← this]; exact hm
      · intro h'
        rw [wrapPosNegPI_of_mem h'.1 h'.2]
        ext <;> simp [h.1]
    · have h2 : LockedAngles (wrapPosNegPI (eulerUniqueBody v).x) (eulerUniqueBody v).y 0 := by
        obtain ⟨-, h⟩ := h
        have hpi := Real.pi_pos
        refine ⟨rfl, ?_⟩
        rcases h with h | h
        · exact Or.inl ⟨h.1, by linarith [hm.1], by linarith [hm.2]⟩
        · exact Or.inr ⟨h.1, by linarith [hm.1], by linarith [hm.2]⟩
      rw [e, eulerUniqueBody_locked (v := ⟨wrapPosNegPI (eulerUniqueBody v).x, (eulerUniqueBody v).y, 0⟩) h2,
        wrapPosNegPI_of_mem hm.1 hm.2]

/-- **C116, Euler angles x-y-z.** The results of `getUnique()` are exactly the triples (roll, pitch, yaw) with roll and yaw in
`[-π, π)` and the pitch strictly inside `±(π/2 - 1e-3)`, and the triples with yaw 0, the pitch within `1e-3` of `±π/2` on either
side, and the roll anywhere in two turns. A second call changes a result exactly if its roll is outside `[-π, π)`; a third call
never changes anything. The result satisfies the ranges of the manual exactly if roll is in `[-π, π)` and pitch in
`[-π/2, π/2)`. -/
theorem C116_xyz (P : Prec) (u : EulXyz) :
    ((∃ e : EulXyz, getUnique P .xyz e = u) ↔ RegularAngles u.x u.y u.z ∨ LockedAngles u.x u.y u.z) ∧
    (∀ e : EulXyz, getUnique P .xyz e = u →
      (getUnique P .xyz u = u ↔ InTurn u.x) ∧ getUnique P .xyz (getUnique P .xyz u) = getUnique P .xyz u ∧
      (ManualAngles u.x u.y u.z ↔ InTurn u.x ∧ -Real.pi / 2 ≤ u.y ∧ u.y < Real.pi / 2)) := by
  have hz0 : InTurn 0 := ⟨by linarith [Real.pi_pos], Real.pi_pos⟩
  constructor
  · constructor
    · rintro ⟨e, rfl⟩
      exact eulerUniqueBody_mem ⟨e.x, e.y, e.z⟩
    · intro h
      obtain ⟨v, hv⟩ := eulerUniqueBody_reach h
      exact ⟨⟨v⟩, EulXyz.ext hv⟩
  · rintro e rfl
    obtain ⟨h1, h2⟩ := eulerUniqueBody_twice ⟨e.x, e.y, e.z⟩
    refine ⟨?_, congrArg EulXyz.mk h2, ?_⟩
    · refine Iff.trans ?_ h1
      exact ⟨fun h => congrArg EulXyz.v h, fun h => congrArg EulXyz.mk h⟩
    · refine ⟨fun h => ⟨h.1, h.2.1⟩, fun h => ⟨h.1, h.2, ?_⟩⟩
      rcases eulerUniqueBody_mem ⟨e.x, e.y, e.z⟩ with h' | h'
      · exact h'.2.2
      · change InTurn (eulerUniqueBody ⟨e.x, e.y, e.z⟩).z
        rw [h'.1]; exact hz0

/-- **C116, Euler angles z-y-x.** The same for the triples (yaw, pitch, roll): near the gimbal lock the roll is 0 and the yaw ranges
over two turns. -/
theorem C116_zyx (P : Prec) (u : EulZyx) :
    ((∃ e : EulZyx, getUnique P .zyx e = u) ↔ RegularAngles u.z u.y u.x ∨ LockedAngles u.z u.y u.x) ∧
    (∀ e : EulZyx, getUnique P .zyx e = u →
      (getUnique P .zyx u = u ↔ InTurn u.z) ∧ getUnique P .zyx (getUnique P .zyx u) = getUnique P .zyx u ∧
      (ManualAngles u.z u.y u.x ↔ InTurn u.z ∧ -Real.pi / 2 ≤ u.y ∧ u.y < Real.pi / 2)) := by
  have hz0 : InTurn 0 := ⟨by linarith [Real.pi_pos], Real.pi_pos⟩
  constructor
  · constructor
    · rintro ⟨e, rfl⟩
      exact eulerUniqueBody_mem ⟨e.z, e.y, e.x⟩
    · intro h
      obtain ⟨v, hv⟩ := eulerUniqueBody_reach h
      exact ⟨⟨v⟩, EulZyx.ext hv⟩
  · rintro e rfl
    obtain ⟨h1, h2⟩ := eulerUniqueBody_twice ⟨e.z, e.y, e.x⟩
    refine ⟨?_, congrArg EulZyx.mk h2, ?_⟩
    · refine Iff.trans ?_ h1
      exact ⟨fun h => congrArg EulZyx.v h, fun h => congrArg EulZyx.mk h⟩
    · refine ⟨fun h => ⟨h.1, h.2.1⟩, fun h => ⟨h.1, h.2, ?_⟩⟩
      rcases eulerUniqueBody_mem ⟨e.z, e.y, e.x⟩ with h' | h'
      · exact h'.2.2
      · change InTurn (eulerUniqueBody ⟨e.z, e.y, e.x⟩).z
        rw [h'.1]; exact hz0

/-- **C116, examples against the manual.** Unique Euler angles with a pitch above `π/2` (in the manual: below), and with a first
angle of three quarters of a turn (in the manual: below half a turn), which a second call changes. -/
theorem C116_manual_false (P : Prec) :
    (∃ e : EulXyz, EulXyz.y (getUnique P .xyz e) = Real.pi / 2 + 1 / 1000) ∧
    (∃ e : EulZyx, EulZyx.y (getUnique P .zyx e) = Real.pi / 2 + 1 / 1000) ∧
    (∃ e : EulXyz, EulXyz.x (getUnique P .xyz e) = 3 / 2 * Real.pi ∧
      getUnique P .xyz (getUnique P .xyz e) ≠ getUnique P .xyz e) ∧
    (∃ e : EulZyx, EulZyx.z (getUnique P .zyx e) = 3 / 2 * Real.pi ∧
      getUnique P .zyx (getUnique P .zyx e) ≠ getUnique P .zyx e) := by
  have hpi := Real.pi_pos
  have l1 : LockedAngles 0 (Real.pi / 2 + 1 / 1000) 0 :=
    ⟨rfl, Or.inr ⟨by rw [add_sub_cancel_left]; norm_num [abs_of_pos], by linarith, by linarith⟩⟩
  have l2 : LockedAngles (3 / 2 * Real.pi) (Real.pi / 2) 0 :=
    ⟨rfl, Or.inr ⟨by rw [sub_self]; norm_num, by linarith, by linarith⟩⟩
  refine ⟨?_, ?_, ?_, ?_⟩
  · obtain ⟨e, he⟩ := (C116_xyz P ⟨⟨0, Real.pi / 2 + 1 / 1000, 0⟩⟩).1.mpr (Or.inr l1)
    exact ⟨e, by rw [he]; rfl⟩
  · obtain ⟨e, he⟩ := (C116_zyx P ⟨⟨0, Real.pi / 2 + 1 / 1000, 0⟩⟩).1.mpr (Or.inr l1)
    exact ⟨e, by rw [he]; rfl⟩
  · obtain ⟨e, he⟩ := (C116_xyz P ⟨⟨3 / 2 * Real.pi, Real.pi / 2, 0⟩⟩).1.mpr (Or.inr l2)
    refine ⟨e, by rw [he]; rfl, fun h => ?_⟩
    rw [he] at h
    have := (((C116_xyz P _).2 e he).1.mp h).2
    change 3 / 2 * Real.pi < Real.pi at this
    linarith
  · obtain ⟨e, he⟩ := (C116_zyx P ⟨⟨3 / 2 * Real.pi, Real.pi / 2, 0⟩⟩).1.mpr (Or.inr l2)
    refine ⟨e, by rw [he]; rfl, fun h => ?_⟩
    rw [he] at h
    have := (((C116_zyx P _).2 e he).1.mp h).2
    change 3 / 2 * Real.pi < Real.pi at this
    linarith

/-- The hypotheses hold for ordinary values: a unit quaternion that is a unique form, one that is not, and a half turn. -/
theorem C116_example (P : Prec) :
    Valid .quat (⟨0, 0, 3 / 5, -4 / 5⟩ : Quat) ∧ FirstPositive [0, 0, 3 / 5, -4 / 5] ∧
    ¬ FirstPositive [0, 0, -3 / 5, 4 / 5] ∧
    Valid .aa (⟨-Real.pi, ⟨-1, 0, 0⟩⟩ : AngAx) ∧
    getUnique P .aa (⟨-Real.pi, ⟨-1, 0, 0⟩⟩ : AngAx) = (⟨Real.pi, ⟨1, 0, 0⟩⟩ : AngAx) := by
  refine ⟨by norm_num [Valid], by norm_num [FirstPositive], by norm_num [FirstPositive], by norm_num [Valid], ?_⟩
  have hw : wrapPosNegPI (-Real.pi) = -Real.pi := wrapPosNegPI_of_mem (le_refl _) (by linarith [Real.pi_pos])
  have hpi := Real.pi_pos
  change aaGetUnique _ = _
  simp [aaGetUnique, hw, hpi, not_lt.mpr hpi.le]
  ext <;> simp

end Kindr
