import Verif.Lemmas.Group
import Verif.Props.Scalar

/-!
# C14, C15, C16: unique forms of quaternions, angle-axis values, rotation vectors
-/

set_option autoImplicit false

open Classical

noncomputable section
namespace Kindr
open Spec

/-! ## C14 -/

lemma quatGetUnique_or (q : Quat) : quatGetUnique q = q ∨ quatGetUnique q = -q := by
  unfold quatGetUnique
  split_ifs <;> first | exact Or.inl rfl | exact Or.inr rfl

lemma quatGetUnique_neg {q : Quat} (h : q.normSq = 1) : quatGetUnique (-q) = quatGetUnique q := by
  have e : ∀ p : Quat, (⟨-(-p).w, -(-p).x, -(-p).y, -(-p).z⟩ : Quat) = p := fun p => by
    ext <;> simp
  have e2 : ∀ p : Quat, (⟨-p.w, -p.x, -p.y, -p.z⟩ : Quat) = -p := fun p => rfl
  unfold quatGetUnique
  simp only [e, e2, Quat.neg_w, Quat.neg_x, Quat.neg_y, Quat.neg_z]
  rcases lt_trichotomy q.w 0 with hw | hw | hw
  · simp [hw, not_lt.mpr hw.le]
  · rcases lt_trichotomy q.x 0 with hx | hx | hx
    · simp [hw, hx, not_lt.mpr hx.le]
    · rcases lt_trichotomy q.y 0 with hy | hy | hy
      · simp [hw, hx, hy, not_lt.mpr hy.le]
      · rcases lt_trichotomy q.z 0 with hz | hz | hz
        · simp [hw, hx, hy, hz, not_lt.mpr hz.le]
        · simp [Quat.normSq, hw, hx, hy, hz] at h
        · simp [hw, hx, hy, hz, not_lt.mpr hz.le]; ext <;> simp [hw, hx, hy]
      · simp [hw, hx, hy, not_lt.mpr hy.le]; ext <;> simp [hw, hx]
    · simp [hw, hx, not_lt.mpr hx.le]; ext <;> simp [hw]
  · simp [hw, not_lt.mpr hw.le]

/-- **C14.** `RotationQuaternion::getUnique()` is a canonical form and `operator==` decides equality of rotations. -/
theorem C14_quaternion_unique (P : Prec) (p q : Quat) (hp : Valid .quat p) (hq : Valid .quat q) :
    Valid .quat (getUnique P .quat p) ∧ SameRot (k₁ := .quat) (k₂ := .quat) (getUnique P .quat p) p ∧
    getUnique P .quat (getUnique P .quat p) = getUnique P .quat p ∧
    (SameRot (k₁ := .quat) (k₂ := .quat) p q ↔ getUnique P .quat p = getUnique P .quat q) ∧
    (SameRot (k₁ := .quat) (k₂ := .quat) p q ↔ eqSame P .quat p q = true) ∧
    eqSame P .quat p (-p) = true := by
  have hp1 := (valid_quat_iff p).mp hp
  have hq1 := (valid_quat_iff q).mp hq
  have key : SameRot (k₁ := .quat) (k₂ := .quat) p q ↔ quatGetUnique p = quatGetUnique q := by
    rw [sameRot_iff, den_eq, den_eq]
    constructor
    · intro h
      rcases double_cover hp1 hq1 h with rfl | rfl
      · rfl
      · exact quatGetUnique_neg hq1
    · intro h
      change sMat p = sMat q
      have e1 : sMat (quatGetUnique p) = sMat p := by
        rcases quatGetUnique_or p with h | h <;> rw [h]; simp
      have e2 : sMat (quatGetUnique q) = sMat q := by
        rcases quatGetUnique_or q with h | h <;> rw [h]; simp
      rw [← e1, ← e2, h]
  have keq : ∀ a b : Quat, eqSame P .quat a b = true ↔ quatGetUnique a = quatGetUnique b := by
    intro a b
    refine (decide_eq_true_iff (p := (quatGetUnique a).w = (quatGetUnique b).w ∧
      (quatGetUnique a).x = (quatGetUnique b).x ∧ (quatGetUnique a).y = (quatGetUnique b).y ∧
      (quatGetUnique a).z = (quatGetUnique b).z)).trans ?_
    constructor
    · rintro ⟨h1, h2, h3, h4⟩; ext <;> assumption
    · intro h; rw [h]; simp
  refine ⟨?_, ?_, ?_, key, ?_, ?_⟩
  · change Valid .quat (quatGetUnique p)
    rw [valid_quat_iff]
    rcases quatGetUnique_or p with h | h <;> rw [h]
    · exact hp1
    · rw [Quat.normSq_neg, hp1]
  · rw [sameRot_iff, den_eq, den_eq]
    change sMat (quatGetUnique p) = sMat p
    rcases quatGetUnique_or p with h | h <;> rw [h]; simp
  · change quatGetUnique (quatGetUnique p) = quatGetUnique p
    rcases quatGetUnique_or p with h | h
    · rw [h, h]
    · rw [h, quatGetUnique_neg hp1, h]
  · rw [key, keq]
  · rw [keq, quatGetUnique_neg hp1]

/-- non-vacuity of C14: a pure-imaginary quaternion whose unique form is its negative. -/
example : Valid .quat (⟨0, 0, -3 / 5, 4 / 5⟩ : Quat) ∧
    quatGetUnique ⟨0, 0, -3 / 5, 4 / 5⟩ = ⟨0, 0, 3 / 5, -4 / 5⟩ := by
  constructor
  · norm_num [Valid]
  · simp only [quatGetUnique]; norm_num

/-! ## C15 -/

/-- The set of canonical angle-axis values: angle in `[0,π]`, unit axis; axis `(1,0,0)` for angle 0; first nonzero axis
component positive for angle `π`. -/
def CanonicalAA (a : AngAx) : Prop :=
  a.axis.normSq = 1 ∧ 0 ≤ a.angle ∧ a.angle ≤ Real.pi ∧
  (a.angle = 0 → a.axis = ⟨1, 0, 0⟩) ∧
  (a.angle = Real.pi → 0 < a.axis.x ∨ (a.axis.x = 0 ∧ 0 < a.axis.y) ∨
    (a.axis.x = 0 ∧ a.axis.y = 0 ∧ 0 < a.axis.z))

lemma canonicalAA_unique {a b : AngAx} (ha : CanonicalAA a) (hb : CanonicalAA b)
    (h : rodMat a.angle a.axis = rodMat b.angle b.axis) : a = b := by
  obtain ⟨a1, a2, a3, a4, a5⟩ := ha
  obtain ⟨b1, b2, b3, b4, b5⟩ := hb
  have hcos : Real.cos a.angle = Real.cos b.angle := by
    have h1 := trace_rodMat a.angle a1
    rw [h, trace_rodMat b.angle b1] at h1; linarith
  have hang : a.angle = b.angle := Real.injOn_cos ⟨a2, a3⟩ ⟨b2, b3⟩ hcos
  obtain ⟨θ, n⟩ := a
  obtain ⟨θ', n'⟩ := b
  simp only at *
  subst hang
  congr 1
  rcases eq_or_lt_of_le a2 with h0 | h0
  · rw [a4 h0.symm, b4 h0.symm]
  have hs : 0 < Real.sin (1 / 2 * θ) := Real.sin_pos_of_pos_of_lt_pi (by linarith) (by linarith [Real.pi_pos])
  rw [← sMat_ofAngleAxis θ a1, ← sMat_ofAngleAxis θ b1] at h
  have hdc := double_cover (normSq_ofAngleAxis θ a1) (normSq_ofAngleAxis θ b1) h
  have hpos : Quat.ofAngleAxis θ n = Quat.ofAngleAxis θ n' → n = n' := by
    intro e
    have ex := congrArg Quat.x e
    have ey := congrArg Quat.y e
    have ez := congrArg Quat.z e
    simp only [Quat.ofAngleAxis] at ex ey ez
    ext
    · exact mul_left_cancel₀ hs.ne' ex
    · exact mul_left_cancel₀ hs.ne' ey
    · exact mul_left_cancel₀ hs.ne' ez
  rcases hdc with hdc | hdc
  · exact hpos hdc
  · -- opposite sign: only possible for θ = π
    have ew := congrArg Quat.w hdc
    have ex := congrArg Quat.x hdc
    have ey := congrArg Quat.y hdc
    have ez := congrArg Quat.z hdc
    simp only [Quat.ofAngleAxis, Quat.neg_w, Quat.neg_x, Quat.neg_y, Quat.neg_z] at ew ex ey ez
    have hc0 : Real.cos (1 / 2 * θ) = 0 := by linarith
    have hπ : θ = Real.pi := by
      rcases eq_or_lt_of_le a3 with h1 | h1
      · exact h1
      · exfalso
        have := Real.cos_pos_of_mem_Ioo (x := 1 / 2 * θ) ⟨by linarith [Real.pi_pos], by linarith⟩
        linarith
    have ex' : n.x = -n'.x := mul_left_cancel₀ hs.ne' (by linarith)
    have ey' : n.y = -n'.y := mul_left_cancel₀ hs.ne' (by linarith)
    have ez' : n.z = -n'.z := mul_left_cancel₀ hs.ne' (by linarith)
    have pa := a5 hπ
    have pb := b5 hπ
    exfalso
    rcases pa with pa | ⟨pa1, pa⟩ | ⟨pa1, pa2, pa⟩ <;> rcases pb with pb | ⟨pb1, pb⟩ | ⟨pb1, pb2, pb⟩ <;> linarith

lemma rodMat_wrap (θ : ℝ) (n : V3) : rodMat (wrapPosNegPI θ) n = rodMat θ n := by
  obtain ⟨k, hk⟩ := wrapPosNegPI_congr θ
  rw [hk, rodMat_add_two_pi]

lemma rodMat_pi (n : V3) : rodMat Real.pi n = rodMat (-Real.pi) n := by
  have := rodMat_add_two_pi (-Real.pi) 1 n
  rw [← this]; congr 1; push_cast; ring

lemma aaGetUnique_spec {a : AngAx} (h : a.axis.normSq = 1) :
    CanonicalAA (aaGetUnique a) ∧ rodMat (aaGetUnique a).angle (aaGetUnique a).axis = rodMat a.angle a.axis := by
  obtain ⟨w1, w2⟩ := wrapPosNegPI_mem a.angle
  have hr := rodMat_wrap a.angle a.axis
  have hpi := Real.pi_pos
  have hn1 : (-a.axis).normSq = 1 := by rw [V3.normSq_neg, h]
  by_cases h00 : wrapPosNegPI a.angle = 0
  · have e : aaGetUnique a = ⟨0, ⟨1, 0, 0⟩⟩ := by simp [aaGetUnique, h00]
    rw [e]
    refine ⟨⟨by norm_num [V3.normSq, V3.dot], le_refl _, hpi.le, fun _ => rfl, fun h => absurd h hpi.ne⟩, ?_⟩
    rw [rodMat_zero, ← hr, h00, rodMat_zero]
  simp only [aaGetUnique]
  generalize wrapPosNegPI a.angle = w at *
  have hneg : rodMat (-w) (-a.axis) = rodMat a.angle a.axis := by rw [rodMat_neg_neg, hr]
  split_ifs with h1 h2 h3 h4 h5 h6 h7 h8
  rotate_right 1
  · exact absurd (le_antisymm (not_lt.mp h1) (not_lt.mp h2)) h00
  all_goals simp only [CanonicalAA]
  · exact ⟨⟨h, h1.le, w2.le, fun e => absurd e h1.ne', fun e => absurd e w2.ne⟩, hr⟩
  · refine ⟨⟨hn1, by linarith, by linarith, fun e => ?_, fun e => ?_⟩, hneg⟩
    · exfalso; linarith
    · exact absurd (by linarith) h3
  all_goals
    have hw : w = -Real.pi := not_not.mp h3
    have hsame : rodMat (-w) a.axis = rodMat a.angle a.axis := by
      rw [← hr, hw, neg_neg, rodMat_pi]
  · exact ⟨⟨hn1, by linarith, by linarith, fun e => by exfalso; linarith, fun _ => Or.inl (by
      rw [V3.neg_x]; linarith)⟩, hneg⟩
  · exact ⟨⟨h, by linarith, by linarith, fun e => by exfalso; linarith, fun _ => Or.inl h5⟩, hsame⟩
  · have hx : a.axis.x = 0 := by linarith
    exact ⟨⟨hn1, by linarith, by linarith, fun e => by exfalso; linarith, fun _ => Or.inr (Or.inl (by
      rw [V3.neg_x, V3.neg_y]; constructor <;> linarith))⟩, hneg⟩
  · have hx : a.axis.x = 0 := by linarith
    exact ⟨⟨h, by linarith, by linarith, fun e => by exfalso; linarith, fun _ => Or.inr (Or.inl ⟨hx, h7⟩)⟩, hsame⟩
  · have hx : a.axis.x = 0 := by linarith
    have hy : a.axis.y = 0 := by linarith
    exact ⟨⟨hn1, by linarith, by linarith, fun e => by exfalso; linarith, fun _ => Or.inr (Or.inr (by
      rw [V3.neg_x, V3.neg_y, V3.neg_z]; refine ⟨?_, ?_, ?_⟩ <;> linarith))⟩, hneg⟩
  · have hx : a.axis.x = 0 := by linarith
    have hy : a.axis.y = 0 := by linarith
    have hz : 0 < a.axis.z := by
      refine lt_of_le_of_ne (not_lt.mp h8) (fun e => ?_)
      simp [V3.normSq, V3.dot, hx, hy, ← e] at h
    exact ⟨⟨h, by linarith, by linarith, fun e => by exfalso; linarith, fun _ => Or.inr (Or.inr ⟨hx, hy, hz⟩)⟩, hsame⟩

/-- **C15.** `AngleAxis::getUnique()` keeps the rotation, is in canonical form (angle in `[0,π]`, fixed axis for the identity
and for half turns), is idempotent, and two angle-axis values represent the same rotation iff their unique forms are
identical. -/
theorem C15_angle_axis_unique (P : Prec) (a b : AngAx) (ha : Valid .aa a) (hb : Valid .aa b) :
    Valid .aa (getUnique P .aa a) ∧ SameRot (k₁ := .aa) (k₂ := .aa) (getUnique P .aa a) a ∧
    CanonicalAA (getUnique P .aa a) ∧
    getUnique P .aa (getUnique P .aa a) = getUnique P .aa a ∧
    (SameRot (k₁ := .aa) (k₂ := .aa) a b ↔ getUnique P .aa a = getUnique P .aa b) := by
  have ha1 := (valid_aa_iff a).mp ha
  have hb1 := (valid_aa_iff b).mp hb
  obtain ⟨c1, r1⟩ := aaGetUnique_spec ha1
  obtain ⟨c2, r2⟩ := aaGetUnique_spec hb1
  obtain ⟨c3, r3⟩ := aaGetUnique_spec c1.1
  refine ⟨(valid_aa_iff _).mpr c1.1, ?_, c1, canonicalAA_unique c3 c1 r3, ?_⟩
  · rw [sameRot_iff, den_eq, den_eq]; exact r1
  · rw [sameRot_iff, den_eq, den_eq]
    constructor
    · intro h
      have h' : rodMat a.angle a.axis = rodMat b.angle b.axis := h
      exact canonicalAA_unique c1 c2 (r1.trans (h'.trans r2.symm))
    · intro h
      have h' : aaGetUnique a = aaGetUnique b := h
      change rodMat a.angle a.axis = rodMat b.angle b.axis
      rw [← r1, ← r2, h']

/-- non-vacuity of C15: a half turn with a flipped axis. -/
example : Valid .aa (⟨3 * Real.pi, ⟨0, -3 / 5, 4 / 5⟩⟩ : AngAx) := by norm_num [Valid]

/-- **C15, equality.** Equal rotations always compare equal with `operator==` (the converse only holds up to the comparison
tolerance, see `C49`). -/
theorem C15_eq_of_same (P : Prec) (a b : AngAx) (ha : Valid .aa a) (hb : Valid .aa b)
    (h : SameRot (k₁ := .aa) (k₂ := .aa) a b) : eqSame P .aa a b = true := by
  have e := ((C15_angle_axis_unique P a b ha hb).2.2.2.2).mp h
  have hc : ∀ x : ℝ, compareRelative x x (1 / 100) = true := fun x =>
    (C27_compareRelative x x (1 / 100) 0).1 (by norm_num)
  unfold eqSame
  rw [e]
  simp only [isEqualSame, hc, Bool.and_self]

/-! ## C16 -/

lemma rotAngle_rodMat {θ : ℝ} {n : V3} (hn : n.normSq = 1) (h0 : 0 ≤ θ) (h1 : θ ≤ Real.pi) :
    rotAngle (rodMat θ n) = θ := by
  rw [rotAngle, trace_rodMat θ hn]
  have : (1 + 2 * Real.cos θ - 1) / 2 = Real.cos θ := by ring
  rw [this, Real.arccos_cos h0 h1]

lemma rotAngle_rodMat_le {θ : ℝ} {n : V3} (hn : n.normSq = 1) (h0 : 0 ≤ θ) : rotAngle (rodMat θ n) ≤ θ := by
  rcases le_total θ Real.pi with h | h
  · rw [rotAngle_rodMat hn h0 h]
  · exact (Real.arccos_le_pi _).trans h

lemma rotAngle_one : rotAngle 1 = 0 := by
  rw [rotAngle, M3.trace_one]; norm_num

lemma rotAngle_rv_le (r : RotVec) : rotAngle (dmat .rv r) ≤ r.v.norm := by
  by_cases hv : r.v = 0
  · obtain ⟨v⟩ := r
    simp only at hv; subst hv
    rw [dmat_rv_zero, rotAngle_one, V3.norm_zero]
  · have : dmat .rv r = rodMat r.v.norm ((1 / r.v.norm) • r.v) := dmat_rv_ne hv
    rw [this]
    exact rotAngle_rodMat_le (unit_dir (V3.norm_pos hv).ne') r.v.norm_nonneg

lemma rvGetUnique_spec {P : Prec} {r : RotVec} (h : r.v = 0 ∨ P.dp ≤ r.v.norm) :
    dmat .rv (rvGetUnique P r) = dmat .rv r ∧ (rvGetUnique P r).v.norm = rotAngle (dmat .rv r) := by
  have hu := aaOfRv_unit P r
  obtain ⟨c, e⟩ := aaGetUnique_spec hu
  have h1 : dmat .rv (rvGetUnique P r) = dmat .rv r := by
    rw [rvGetUnique, rvOfAa_spec c.1, ← aaOfRv_spec h]; exact e
  refine ⟨h1, ?_⟩
  rw [← aaOfRv_spec h]
  have e2 : dmat .aa (aaOfRv P r) = rodMat (aaGetUnique (aaOfRv P r)).angle (aaGetUnique (aaOfRv P r)).axis := e.symm
  rw [e2, rotAngle_rodMat c.1 c.2.1 c.2.2.1]
  simp only [rvGetUnique, rvOfAa]
  rw [V3.norm_smul, V3.norm_eq_one_iff.mpr c.1, mul_one, abs_of_nonneg c.2.1]

/-- Below the cut-off `dp` the unique rotation vector is exactly zero. -/
lemma rvGetUnique_small {P : Prec} {r : RotVec} (h : r.v.norm < P.dp) : rvGetUnique P r = ⟨0⟩ := by
  have hw : wrapPosNegPI 0 = 0 := wrapPosNegPI_of_mem (by linarith [Real.pi_pos]) Real.pi_pos
  have : aaGetUnique AngAx.identity = ⟨0, ⟨1, 0, 0⟩⟩ := by
    simp [aaGetUnique, AngAx.identity, hw]
  rw [rvGetUnique, aaOfRv_small h, this, rvOfAa]
  simp

/-- **C16.** `RotationVector::getUnique()`: same rotation, norm at most `π`, and no rotation vector of the same rotation is
shorter; equal rotations get identical unique vectors; below the cut-off `dp` the result is the zero vector. -/
theorem C16_rotation_vector_unique (P : Prec) (a b : RotVec)
    (ha : a.v = 0 ∨ P.dp ≤ a.v.norm) (hb : b.v = 0 ∨ P.dp ≤ b.v.norm) :
    SameRot (k₁ := .rv) (k₂ := .rv) (getUnique P .rv a) a ∧
    (RotVec.v (getUnique P .rv a)).norm ≤ Real.pi ∧
    (∀ c : RotVec, SameRot (k₁ := .rv) (k₂ := .rv) c a → (RotVec.v (getUnique P .rv a)).norm ≤ c.v.norm) ∧
    (SameRot (k₁ := .rv) (k₂ := .rv) a b ↔ getUnique P .rv a = getUnique P .rv b) := by
  obtain ⟨s1, n1⟩ := rvGetUnique_spec ha
  obtain ⟨s2, n2⟩ := rvGetUnique_spec hb
  refine ⟨?_, ?_, fun c hc => ?_, ?_⟩
  · rw [sameRot_iff, den_eq, den_eq]; exact s1
  · exact n1.trans_le (Real.arccos_le_pi _)
  · rw [sameRot_iff, den_eq, den_eq] at hc
    exact n1.trans_le (by rw [← hc]; exact rotAngle_rv_le c)
  · rw [sameRot_iff, den_eq, den_eq]
    constructor
    · intro h
      have e1 := aaOfRv_spec ha
      have e2 := aaOfRv_spec hb
      obtain ⟨c1, r1⟩ := aaGetUnique_spec (aaOfRv_unit P a)
      obtain ⟨c2, r2⟩ := aaGetUnique_spec (aaOfRv_unit P b)
      have : rodMat (aaOfRv P a).angle (aaOfRv P a).axis = rodMat (aaOfRv P b).angle (aaOfRv P b).axis := by
        change dmat .aa (aaOfRv P a) = dmat .aa (aaOfRv P b); rw [e1, e2, h]
      have h3 : aaGetUnique (aaOfRv P a) = aaGetUnique (aaOfRv P b) := canonicalAA_unique c1 c2 (by rw [r1, r2, this])
      change rvGetUnique P a = rvGetUnique P b
      rw [rvGetUnique, h3, rvGetUnique]
    · intro h
      have h' : rvGetUnique P a = rvGetUnique P b := h
      rw [← s1, ← s2, h']

/-- **C16, cut-off.** Rotation vectors shorter than `dp` are replaced by the zero vector. -/
theorem C16_cutoff (P : Prec) (a : RotVec) (h : a.v.norm < P.dp) : getUnique P .rv a = (⟨0⟩ : RotVec) :=
  rvGetUnique_small h

/-- non-vacuity of C16: a rotation vector longer than `π`. -/
example : Prec.double.dp ≤ (⟨⟨0, 5, 0⟩⟩ : RotVec).v.norm ∧ Real.pi < (⟨⟨0, 5, 0⟩⟩ : RotVec).v.norm := by
  have : (⟨0, 5, 0⟩ : V3).norm = 5 := by
    rw [V3.norm, show (⟨0, 5, 0⟩ : V3).normSq = 5 ^ 2 by norm_num [V3.normSq, V3.dot], Real.sqrt_sq (by norm_num)]
  have h4 := Real.pi_lt_four
  simp only [this]
  exact ⟨by norm_num [Prec.double], by linarith⟩

end Kindr
