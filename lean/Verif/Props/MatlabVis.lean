import Verif.Model.MatlabVis
import Verif.Spec.MatlabVis
import Verif.Props.MatlabEuler
import Verif.Props.MatlabRot
import Verif.Props.MatlabDiff
import Verif.Props.Integrate

/-!
# C99: what the Matlab visualizations show
-/

set_option autoImplicit false

open Classical

noncomputable section
namespace Kindr.Matlab
open Spec

/-! ## Steady rotations -/

lemma worldVelocity_mat {R : ℝ → M3} {t : ℝ} {w : V3} : WorldVelocity R t w ↔ IsGlobalVelocity .mat R t w := Iff.rfl

lemma steady_unique {w : V3} {R : ℝ → M3} (h : SteadyRotation w R) {t : ℝ} (ht : 0 ≤ t) : R t = den .rv (⟨t • w⟩ : RotVec) := by
  have e : ∀ v : M3, den .mat v = v := fun v => by rw [den_eq]; rfl
  have := exp_step_error (k := .mat) (r := R) (w := fun _ => w) (t := 0) (h := t) (L := 0) ht (fun s _ => h.rotation s)
    (fun s _ => h.velocity s) (fun s _ => by simp)
  simp only [zero_add] at this
  rw [e (R 0), e (R t), h.start, mul_one] at this
  symm
  apply M3.ext_mulVec
  intro v
  have := this v
  rw [zero_mul, zero_div, zero_mul] at this
  exact sub_eq_zero.mp (V3.norm_eq_zero.mp (le_antisymm this (V3.norm_nonneg _)))

lemma steady_rv (w : V3) : SteadyRotation w (fun t => den .rv (⟨t • w⟩ : RotVec)) where
  start := by rw [zero_smul, den_eq, dmat_rv_zero]
  rotation t := den_isSO3 (k := .rv) (r := ⟨t • w⟩) trivial
  velocity t := by
    have := exp_velocity_line w 0 t
    simp only [sub_zero] at this
    intro u
    have := this u
    simp only [act_eq] at this
    exact this

/-- A steady rotation exists for every angular velocity, and is unique from time 0 on. -/
theorem C99_steady (w : V3) : (∃ R, SteadyRotation w R) ∧
    ∀ R R', SteadyRotation w R → SteadyRotation w R' → ∀ t, 0 ≤ t → R t = R' t :=
  ⟨⟨_, steady_rv w⟩, fun _ _ h h' t ht => by rw [steady_unique h ht, steady_unique h' ht]⟩

/-- **C99, exponential map.** `animateAngularVelocityUsingExpMap` shows the steady rotation: frame `k` is its orientation at the time
`k / updateFrequency`, at `rate` times the given angular velocity. -/
theorem C99_exp_map (expm : M3 → M3) (he : IsExpm expm) (w : V3) (rate f : ℝ) (hf : 0 < f) (R : ℝ → M3)
    (hR : SteadyRotation (rate • w) R) (k : ℕ) : animateExpMapFrame expm w rate f k = R (k / f) := by
  rw [steady_unique hR (by positivity), animateExpMapFrame, expm_skew he]

lemma solve_unique {solve : M3 → V3 → V3} (hs : IsSolve solve) {E : M3} {b x : V3} (hE : E.det ≠ 0) (h : E.mulVec x = b) :
    solve E b = x := by
  have h1 := hs E b hE
  rw [← h] at h1 ⊢
  have h2 : ∀ y : V3, E.mulVec y = 0 → y = 0 := by
    intro y hy
    have k : (E.adj * E).mulVec y = E.det • y := by
      rw [M3.adj_mul]; ext <;> simp
    rw [← M3.mulVec_mulVec, hy] at k
    have z : E.adj.mulVec 0 = 0 := by ext <;> simp
    rw [z] at k
    have := V3.ext_iff.mp k.symm
    ext
    · simpa [hE] using this.1
    · simpa [hE] using this.2.1
    · simpa [hE] using this.2.2
  have := h2 (solve E (E.mulVec x) - x) (by
    have e : E.mulVec (solve E (E.mulVec x) - x) = E.mulVec (solve E (E.mulVec x)) - E.mulVec x := by
      ext <;> simp [M3.mulVec] <;> ring
    rw [e, h1, sub_self])
  exact sub_eq_zero.mp this

lemma eulerMat_z (z : ℝ) (c : ℝ) : (getMapEulAngZYXDiffToAngVelInWorldFrame ⟨z, 0, 0⟩).mulVec ⟨c, 0, 0⟩ = ⟨0, 0, c⟩ ∧
    (getMapEulAngZYXDiffToAngVelInWorldFrame ⟨z, 0, 0⟩).det ≠ 0 := by
  constructor
  · ext <;> simp [getMapEulAngZYXDiffToAngVelInWorldFrame]
  · have : (getMapEulAngZYXDiffToAngVelInWorldFrame ⟨z, 0, 0⟩).det = -(Real.sin z ^ 2 + Real.cos z ^ 2) := by
      simp only [getMapEulAngZYXDiffToAngVelInWorldFrame, M3.det, Real.cos_zero, Real.sin_zero]; ring
    rw [this, Real.sin_sq_add_cos_sq]; norm_num

lemma eulerMat_x (x : ℝ) (c : ℝ) : (getMapEulAngZYXDiffToAngVelInWorldFrame ⟨0, 0, x⟩).mulVec ⟨0, 0, c⟩ = ⟨c, 0, 0⟩ ∧
    (getMapEulAngZYXDiffToAngVelInWorldFrame ⟨0, 0, x⟩).det ≠ 0 := by
  constructor
  · ext <;> simp [getMapEulAngZYXDiffToAngVelInWorldFrame]
  · have : (getMapEulAngZYXDiffToAngVelInWorldFrame ⟨0, 0, x⟩).det = -1 := by
      simp [getMapEulAngZYXDiffToAngVelInWorldFrame, M3.det]
    rw [this]; norm_num

lemma eulerMat_y (y : ℝ) (c : ℝ) : (getMapEulAngZYXDiffToAngVelInWorldFrame ⟨0, y, 0⟩).mulVec ⟨0, c, 0⟩ = ⟨0, c, 0⟩ ∧
    (Real.cos y ≠ 0 → (getMapEulAngZYXDiffToAngVelInWorldFrame ⟨0, y, 0⟩).det ≠ 0) := by
  constructor
  · ext <;> simp [getMapEulAngZYXDiffToAngVelInWorldFrame]
  · intro h
    have : (getMapEulAngZYXDiffToAngVelInWorldFrame ⟨0, y, 0⟩).det = -Real.cos y := by
      simp [getMapEulAngZYXDiffToAngVelInWorldFrame, M3.det]
    rw [this]; simpa using h

lemma eulerAngles_z {solve : M3 → V3 → V3} (hs : IsSolve solve) (c rate f : ℝ) (k : ℕ) :
    animateEulerAngles solve ⟨0, 0, c⟩ rate f k = ⟨k / f * (rate * c), 0, 0⟩ := by
  have e : rate • (⟨0, 0, c⟩ : V3) = ⟨0, 0, rate * c⟩ := by ext <;> simp
  induction k with
  | zero => ext <;> simp [animateEulerAngles]
  | succ k ih =>
    rw [animateEulerAngles, ih, animateEulerStep]
    obtain ⟨h1, h2⟩ := eulerMat_z (k / f * (rate * c)) (rate * c)
    simp only [e]
    rw [solve_unique hs h2 h1]
    ext <;> simp

lemma eulerAngles_x {solve : M3 → V3 → V3} (hs : IsSolve solve) (c rate f : ℝ) (k : ℕ) :
    animateEulerAngles solve ⟨c, 0, 0⟩ rate f k = ⟨0, 0, k / f * (rate * c)⟩ := by
  have e : rate • (⟨c, 0, 0⟩ : V3) = ⟨rate * c, 0, 0⟩ := by ext <;> simp
  induction k with
  | zero => ext <;> simp [animateEulerAngles]
  | succ k ih =>
    rw [animateEulerAngles, ih, animateEulerStep]
    obtain ⟨h1, h2⟩ := eulerMat_x (k / f * (rate * c)) (rate * c)
    simp only [e]
    rw [solve_unique hs h2 h1]
    ext <;> simp

lemma eulerAngles_y {solve : M3 → V3 → V3} (hs : IsSolve solve) (c rate f : ℝ) (k : ℕ)
    (hk : ∀ j : ℕ, j < k → Real.cos (j / f * (rate * c)) ≠ 0) :
    animateEulerAngles solve ⟨0, c, 0⟩ rate f k = ⟨0, k / f * (rate * c), 0⟩ := by
  have e : rate • (⟨0, c, 0⟩ : V3) = ⟨0, rate * c, 0⟩ := by ext <;> simp
  induction k with
  | zero => ext <;> simp [animateEulerAngles]
  | succ k ih =>
    rw [animateEulerAngles, ih (fun j hj => hk j (by omega)), animateEulerStep]
    obtain ⟨h1, h2⟩ := eulerMat_y (k / f * (rate * c)) (rate * c)
    simp only [e]
    rw [solve_unique hs (h2 (hk k (by omega))) h1]
    ext <;> simp

lemma rv_x (a : ℝ) : den .rv (⟨⟨a, 0, 0⟩⟩ : RotVec) = rX a := by
  have e : (⟨a, 0, 0⟩ : V3) = a • ⟨1, 0, 0⟩ := by ext <;> simp
  rw [e, den_eq, dmat_rv_smul a (by simp [V3.normSq, V3.dot])]
  ext <;> simp [rodMat, AngAx.toRotationMatrix, rX]
lemma rv_y (a : ℝ) : den .rv (⟨⟨0, a, 0⟩⟩ : RotVec) = rY a := by
  have e : (⟨0, a, 0⟩ : V3) = a • ⟨0, 1, 0⟩ := by ext <;> simp
  rw [e, den_eq, dmat_rv_smul a (by simp [V3.normSq, V3.dot])]
  ext <;> simp [rodMat, AngAx.toRotationMatrix, rY]
lemma rv_z (a : ℝ) : den .rv (⟨⟨0, 0, a⟩⟩ : RotVec) = rZ a := by
  have e : (⟨0, 0, a⟩ : V3) = a • ⟨0, 0, 1⟩ := by ext <;> simp
  rw [e, den_eq, dmat_rv_smul a (by simp [V3.normSq, V3.dot])]
  ext <;> simp [rodMat, AngAx.toRotationMatrix, rZ]

lemma mapZYX_close (a v : V3) : ((mapEulerAnglesZYXToRotationMatrix false a).mulVec v - (rZ a.x * rY a.y * rX a.z).mulVec v).norm ≤
    7 * eps * v.norm := by
  have := (C61_euler_maps false a v).2.1
  simp only [rotX_eq, rotY_eq, rotZ_eq, M3.mulVec_mulVec, ← mul_assoc] at this
  simpa using this

/-- **C99, Euler angles.** `animateAngularVelocityUsingEulerZYX` shows the steady rotation, up to the rounding of sines and cosines to
integers, when the angular velocity is along the x or the z axis; along the y axis as long as no earlier frame was exactly in gimbal lock. -/
theorem C99_euler_axes (solve : M3 → V3 → V3) (hs : IsSolve solve) (c rate f : ℝ) (hf : 0 < f) (k : ℕ) (v : V3) :
    (∀ R, SteadyRotation (rate • ⟨c, 0, 0⟩) R →
      ((animateEulerFrame solve ⟨c, 0, 0⟩ rate f k).mulVec v - (R (k / f)).mulVec v).norm ≤ 7 * eps * v.norm) ∧
    (∀ R, SteadyRotation (rate • ⟨0, 0, c⟩) R →
      ((animateEulerFrame solve ⟨0, 0, c⟩ rate f k).mulVec v - (R (k / f)).mulVec v).norm ≤ 7 * eps * v.norm) ∧
    ((∀ j : ℕ, j < k → Real.cos (j / f * (rate * c)) ≠ 0) → ∀ R, SteadyRotation (rate • ⟨0, c, 0⟩) R →
      ((animateEulerFrame solve ⟨0, c, 0⟩ rate f k).mulVec v - (R (k / f)).mulVec v).norm ≤ 7 * eps * v.norm) := by
  have ht : (0 : ℝ) ≤ k / f := by positivity
  have z0 : rZ 0 = 1 := by ext <;> simp [rZ]
  have y0 : rY 0 = 1 := by ext <;> simp [rY]
  have x0 : rX 0 = 1 := by ext <;> simp [rX]
  refine ⟨fun R hR => ?_, fun R hR => ?_, fun hk R hR => ?_⟩
  · rw [steady_unique hR ht, animateEulerFrame, eulerAngles_x hs]
    have e : ((k : ℝ) / f) • rate • (⟨c, 0, 0⟩ : V3) = ⟨k / f * (rate * c), 0, 0⟩ := by ext <;> simp
    rw [e, rv_x]
    simpa only [z0, y0, one_mul] using mapZYX_close ⟨0, 0, k / f * (rate * c)⟩ v
  · rw [steady_unique hR ht, animateEulerFrame, eulerAngles_z hs]
    have e : ((k : ℝ) / f) • rate • (⟨0, 0, c⟩ : V3) = ⟨0, 0, k / f * (rate * c)⟩ := by ext <;> simp
    rw [e, rv_z]
    simpa only [x0, y0, mul_one] using mapZYX_close ⟨k / f * (rate * c), 0, 0⟩ v
  · rw [steady_unique hR ht, animateEulerFrame, eulerAngles_y hs _ _ _ _ hk]
    have e : ((k : ℝ) / f) • rate • (⟨0, c, 0⟩ : V3) = ⟨0, k / f * (rate * c), 0⟩ := by ext <;> simp
    rw [e, rv_y]
    simpa only [z0, x0, one_mul, mul_one] using mapZYX_close ⟨0, k / f * (rate * c), 0⟩ v

lemma snap_zero : snap false 0 = 0 := by simpa using C61_snap_hits 0 0 (by norm_num [eps])
lemma snap_one : snap false 1 = 1 := by simpa using C61_snap_hits 1 1 (by norm_num [eps])
lemma snap_ne {c : ℝ} (h : eps ≤ |c|) : snap false c ≠ 0 := by
  intro e
  rcases C61_snap c with h1 | ⟨n, h1, h2⟩
  · rw [← h1, e, abs_zero] at h; norm_num [eps] at h
  · have : (n : ℝ) = 0 := by rw [← h1, e]
    rw [this, sub_zero] at h2; linarith

lemma rv_symm_z {v : V3} (h : v.z = 0) : (den .rv (⟨v⟩ : RotVec)).m10 = (den .rv (⟨v⟩ : RotVec)).m01 := by
  rw [den_eq]
  by_cases h0 : v = 0
  · rw [h0, dmat_rv_zero]; simp
  · rw [dmat_rv_ne h0]; simp [rodMat, AngAx.toRotationMatrix, h]; try ring

/-- **C99, finding: Euler angles.** With an angular velocity in the x-y plane that is along neither axis, already the first frame of
`animateAngularVelocityUsingEulerZYX` is not an orientation of the steady rotation. -/
theorem C99_euler_wrong (solve : M3 → V3 → V3) (hs : IsSolve solve) (a b rate f : ℝ)
    (ha : eps ≤ |Real.sin (rate * a / f)|) (hb : eps ≤ |Real.sin (rate * b / f)|) (R : ℝ → M3)
    (hR : SteadyRotation (rate • ⟨a, b, 0⟩) R) : ∀ t, 0 ≤ t → animateEulerFrame solve ⟨a, b, 0⟩ rate f 1 ≠ R t := by
  intro t ht h
  have e1 : animateEulerAngles solve ⟨a, b, 0⟩ rate f 1 = ⟨0, rate * b / f, rate * a / f⟩ := by
    have m : (getMapEulAngZYXDiffToAngVelInWorldFrame 0).mulVec ⟨0, rate * b, rate * a⟩ = rate • (⟨a, b, 0⟩ : V3) := by
      ext <;> simp [getMapEulAngZYXDiffToAngVelInWorldFrame]
    have d : (getMapEulAngZYXDiffToAngVelInWorldFrame 0).det ≠ 0 := by
      simp [getMapEulAngZYXDiffToAngVelInWorldFrame, M3.det]
    rw [animateEulerAngles, animateEulerAngles, animateEulerStep]
    rw [solve_unique hs d m]
    ext <;> simp <;> ring
  rw [animateEulerFrame, e1, steady_unique hR ht] at h
  have := rv_symm_z (v := t • rate • (⟨a, b, 0⟩ : V3)) (by simp)
  rw [← h] at this
  simp [mapEulerAnglesZYXToRotationMatrix, getRotationMatrixX, getRotationMatrixY, getRotationMatrixZ, snap_zero, snap_one] at this
  rcases this with h | h
  · exact snap_ne hb h
  · exact snap_ne ha h

/-! ## Coordinate frames and labels -/

lemma label_dist {rand vec p : V3} (h : addLabelToVector rand vec = some p) : (p - vec).norm = 1 / 10 := by
  unfold addLabelToVector at h
  simp only at h
  split_ifs at h with h0
  obtain rfl := Option.some.inj h
  generalize (2 : ℝ) • rand - ⟨1, 1, 1⟩ = d at *
  have hd : 0 < d.norm := lt_of_le_of_ne d.norm_nonneg (Ne.symm h0)
  have e : vec + (1 / d.norm) • (1 / 10 : ℝ) • d - vec = (1 / d.norm * (1 / 10)) • d := by ext <;> simp <;> ring
  rw [e, V3.norm_smul, abs_of_pos (by positivity)]
  field_simp

lemma label_defined {rand vec : V3} : addLabelToVector rand vec = none ↔ rand = ⟨1 / 2, 1 / 2, 1 / 2⟩ := by
  unfold addLabelToVector
  simp only
  split_ifs with h
  · rw [V3.norm_eq_zero, V3.ext_iff] at h
    simp at h
    simp only [true_iff]
    obtain ⟨a, b, c⟩ := h
    ext <;> simp <;> linarith
  · simp only [false_iff]
    rintro rfl
    apply h
    rw [V3.norm_eq_zero]
    ext <;> norm_num

/-- **C99, frames.** `visualizeCoordinateSystem` accepts every rotation matrix; the three arrows it draws start at the origin, are the
images of the unit vectors under the rotation, and form a right-handed orthonormal triple; every label is at distance 0.1 of the tip of
its arrow. -/
theorem C99_frame (norm2 : M3 → ℝ) (hn : IsSpectralNorm norm2) (C : M3) (hC : IsSO3 C) (useName : Bool) (rnd : Fin 3 → V3) :
    ∃ d, visualizeCoordinateSystem norm2 C useName rnd = some d ∧
      (∀ i, (d.arrows i).foot = 0 ∧ (d.arrows i).dir = C.mulVec (unitVector i)) ∧
      (∀ i j, (d.arrows i).dir.dot (d.arrows j).dir = if i = j then 1 else 0) ∧
      (d.arrows 0).dir.cross (d.arrows 1).dir = (d.arrows 2).dir ∧
      d.labels.length = (if useName then 3 else 0) ∧
      ∀ i : Fin 3, ∀ p, d.labels[i]? = some (some p) → (p - (d.arrows i).tip).norm = 1 / 10 := by
  unfold visualizeCoordinateSystem
  rw [if_pos (C64_accepts_rotations norm2 hn C hC)]
  refine ⟨_, rfl, ?_, ?_, ?_, ?_, ?_⟩
  · intro i; fin_cases i <;> exact ⟨rfl, rfl⟩
  · have R := SO3.rel hC
    intro i j
    fin_cases i <;> fin_cases j <;> simp [unitVector, V3.dot] <;> nlinarith [R.c00, R.c01, R.c02, R.c11, R.c12, R.c22]
  · have := SO3.mulVec_cross hC (unitVector 0) (unitVector 1)
    have e : (unitVector 0).cross (unitVector 1) = unitVector 2 := by ext <;> simp [unitVector, V3.cross]
    rw [e] at this
    exact this
  · cases useName <;> rfl
  · cases useName
    · simp
    · intro i p hp
      have z : ∀ v : V3, (0 : V3) + v = v := fun v => zero_add v
      fin_cases i <;> simp at hp <;> simp only [Arrow.tip, z] <;> exact label_dist hp

/-- **C99, transforms.** `visualizeHomogeneousTransform` draws the axes of the frame, 0.05 long, at the position of the frame. -/
theorem C99_transform (norm2 : M3 → ℝ) (hn : IsSpectralNorm norm2) (C : M3) (hC : IsSO3 C) (r : V3) (useName : Bool) (rnd : Fin 3 → V3) :
    ∃ d, visualizeHomogeneousTransform norm2 C r useName rnd = some d ∧
      (∀ i, (d.arrows i).foot = r ∧ (d.arrows i).tip = r + C.mulVec ((1 / 20 : ℝ) • unitVector i) ∧ (d.arrows i).dir.norm = 1 / 20) ∧
      d.labels.length = (if useName then 3 else 0) ∧
      ∀ i : Fin 3, ∀ p, d.labels[i]? = some (some p) →
        (p - (d.arrows i).dir).norm = 1 / 10 ∧ |(p - (d.arrows i).tip).norm - r.norm| ≤ 1 / 10 := by
  unfold visualizeHomogeneousTransform
  rw [if_pos (C64_accepts_rotations norm2 hn C hC)]
  have u : ∀ i, (unitVector i).norm = 1 := by
    intro i; fin_cases i <;> simp [unitVector, V3.norm, V3.normSq, V3.dot]
  have e : (5 / 100 : ℝ) = 1 / 20 := by norm_num
  refine ⟨_, rfl, ?_, ?_, ?_⟩
  · intro i
    have n : (C.mulVec ((1 / 20 : ℝ) • unitVector i)).norm = 1 / 20 := by
      rw [SO3.mulVec_norm hC, V3.norm_smul, u, abs_of_pos (by norm_num), mul_one]
    rw [← e] at n ⊢
    fin_cases i <;> exact ⟨rfl, rfl, n⟩
  · cases useName <;> rfl
  · cases useName
    · simp
    · have key : ∀ {rand v p : V3}, addLabelToVector rand v = some p → (p - v).norm = 1 / 10 ∧
          |(p - (r + v)).norm - r.norm| ≤ 1 / 10 := by
        intro rand v p h
        have h1 := label_dist h
        refine ⟨h1, ?_⟩
        have t1 := V3.norm_add_le (p - v) (-r)
        have t2 := V3.norm_add_le (p - (r + v)) (-(p - v))
        have e1 : p - v + -r = p - (r + v) := by ext <;> simp <;> ring
        have e2 : p - (r + v) + -(p - v) = -r := by ext <;> simp
        rw [e1] at t1; rw [e2] at t2
        rw [V3.norm_neg] at t1 t2
        rw [V3.norm_neg] at t2
        rw [abs_le]; constructor <;> linarith
      intro i p hp
      fin_cases i <;> simp at hp <;> exact key hp

/-- A label is drawn unless the random vector is exactly the centre of the unit cube. -/
theorem C99_label (rand vec : V3) : (addLabelToVector rand vec = none ↔ rand = ⟨1 / 2, 1 / 2, 1 / 2⟩) ∧
    ∀ p, addLabelToVector rand vec = some p → (p - vec).norm = 1 / 10 :=
  ⟨label_defined, fun _ h => label_dist h⟩

lemma map_accepted {norm2 : M3 → ℝ} (hn : IsSpectralNorm norm2) (phi : V3) :
    isRotationMatrix norm2 (mapRotationVectorToRotationMatrix phi) = true := by
  by_cases h : eps ≤ phi.norm
  · apply C64_accepts_rotations _ hn
    have := (C66_rotation_vector_to_matrix phi).1 h
    have e : mapRotationVectorToRotationMatrix phi = den .rv (⟨phi⟩ : RotVec) := by
      apply toMat_injective; rw [this, den_eq, toMat_rv]
    rw [e]; exact den_isSO3 (k := .rv) (r := ⟨phi⟩) trivial
  · have h0 := phi.norm_nonneg
    have h1 : phi.norm < eps := not_le.mp h
    have h2 : phi.normSq ≤ 1 / 10 ^ 10 := by
      rw [← V3.norm_sq]
      have : phi.norm ^ 2 ≤ eps ^ 2 := pow_le_pow_left₀ h0 h1.le 2
      refine this.trans (by norm_num [eps])
    rw [isRotationMatrix_iff hn, mapRotationVectorToRotationMatrix, abs_of_nonneg h0, if_pos h1]
    constructor
    · have : (1 + skew phi).det = 1 + phi.normSq := by simp [skew, M3.det, V3.normSq, V3.dot]; ring
      rw [this]; linarith
    · intro u
      have e : ((1 + skew phi) * (1 + skew phi).transpose - 1).mulVec u = -(phi.cross (phi.cross u)) := by
        ext <;> simp [skew, V3.cross] <;> ring
      rw [e, V3.norm_neg]
      have c : ∀ a b : V3, (a.cross b).norm ≤ a.norm * b.norm := V3.norm_cross_le
      calc _ ≤ phi.norm * (phi.norm * u.norm) := (c _ _).trans (mul_le_mul_of_nonneg_left (c _ _) h0)
        _ = phi.normSq * u.norm := by rw [← V3.norm_sq]; ring
        _ ≤ _ := mul_le_mul_of_nonneg_right h2 u.norm_nonneg

/-- **C99, rotation vector.** `visualizeRotationFromRotationVector` never reports an invalid matrix; the axes it draws for frame B are the
images of the unit vectors under the rotation by the vector, exactly from a length of `eps` on and within `eps²` always, and the arrow for
the vector itself is the vector. -/
theorem C99_rotation_vector (norm2 : M3 → ℝ) (hn : IsSpectralNorm norm2) (phi : V3) (rnd : Fin 3 → V3) (rndPhi : V3) :
    ∃ d l, visualizeRotationFromRotationVector norm2 phi rnd rndPhi = some (d, ⟨0, phi⟩, l) ∧
      (∀ i, (d.arrows i).foot = 0 ∧ ((d.arrows i).dir - act .rv (⟨phi⟩ : RotVec) (unitVector i)).norm ≤ eps ^ 2) ∧
      (eps ≤ phi.norm → ∀ i, (d.arrows i).dir = act .rv (⟨phi⟩ : RotVec) (unitVector i)) ∧
      ∀ p, l = some p → (p - phi).norm = 1 / 10 := by
  have u : ∀ i, (unitVector i).norm = 1 := by
    intro i; fin_cases i <;> simp [unitVector, V3.norm, V3.normSq, V3.dot]
  unfold visualizeRotationFromRotationVector visualizeCoordinateSystem
  simp only
  rw [if_pos (map_accepted hn phi)]
  refine ⟨_, _, rfl, ?_, ?_, fun p hp => label_dist hp⟩
  · intro i
    have := (C66_rotation_vector_to_matrix phi).2 (unitVector i)
    rw [u, mul_one] at this
    fin_cases i <;> exact ⟨rfl, this⟩
  · intro h i
    have := (C66_rotation_vector_to_matrix phi).1 h
    have e : mapRotationVectorToRotationMatrix phi = den .rv (⟨phi⟩ : RotVec) := by
      apply toMat_injective; rw [this, den_eq, toMat_rv]
    rw [act_eq, ← e]
    fin_cases i <;> rfl

/-- **C99, angle and axis.** `visualizeRotationFromAngleAxis` draws the frame rotated by the angle about the unit axis (within `eps²`). -/
theorem C99_angle_axis (norm2 : M3 → ℝ) (hn : IsSpectralNorm norm2) (k : V3) (hk : k.norm = 1) (theta : ℝ) (rnd : Fin 3 → V3) (rndPhi : V3) :
    ∃ d l, visualizeRotationFromAngleAxis norm2 k theta rnd rndPhi = some (d, ⟨0, theta • k⟩, l) ∧
      ∀ i, (d.arrows i).foot = 0 ∧ ((d.arrows i).dir - rodrigues theta k (unitVector i)).norm ≤ eps ^ 2 := by
  obtain ⟨d, l, h1, h2, -, -⟩ := C99_rotation_vector norm2 hn (theta • k) rnd rndPhi
  refine ⟨d, l, h1, fun i => ?_⟩
  have := h2 i
  rw [act_eq, den_eq, dmat_rv_smul theta (V3.norm_eq_one_iff.mp hk), ← rodrigues_eq] at this
  exact this

/-! ## Linear velocity -/

/-- **C99, linear velocity.** The two formulas of `animateLinearVelocity` are the time derivatives of the inertial position of the point P
and of its body coordinates, for every motion of the frame B and of the point in it. -/
theorem C99_point_velocity (C : ℝ → M3) (w : V3) (t : ℝ) (hC : IsSO3 (C t)) (hw : WorldVelocity C t w) :
    (∀ (p b : ℝ → V3) (v d : V3), HasDerivV p v t → HasDerivV b d t →
      HasDerivV (fun s => p s + (C s).mulVec (b s)) (pointVelocityInertial v w (C t) (b t) d) t) ∧
    (∀ (r : ℝ → V3) (v : V3), HasDerivV r v t →
      HasDerivV (fun s => (C s).transpose.mulVec (r s)) (pointVelocityBody v w (C t) ((C t).transpose.mulVec (r t))) t) := by
  have hd := worldVelocity_iff.mp hw
  constructor
  · intro p b v d hp hb
    have h := HasDerivM.mulVec_fun hd hb
    rw [← M3.mulVec_mulVec, skew_mulVec] at h
    obtain ⟨a1, a2, a3⟩ := hp
    obtain ⟨b1, b2, b3⟩ := h
    refine ⟨(a1.add b1).congr_deriv ?_, (a2.add b2).congr_deriv ?_, (a3.add b3).congr_deriv ?_⟩ <;>
      simp [pointVelocityInertial] <;> ring
  · intro r v hr
    have h := HasDerivM.mulVec_fun hd.transpose hr
    have e : pointVelocityBody v w (C t) ((C t).transpose.mulVec (r t)) =
        (C t).transpose.mulVec v + (Kindr.skew w * C t).transpose.mulVec (r t) := by
      have c := SO3.mulVec_cross (SO3.transpose hC) w (r t)
      have s : (Kindr.skew w).transpose.mulVec (r t) = -(w.cross (r t)) := by ext <;> simp [Kindr.skew, V3.cross] <;> ring
      have n : ∀ a b : V3, (-a).cross b = -(a.cross b) := fun a b => by ext <;> simp [V3.cross] <;> ring
      have m : ∀ a : V3, (C t).transpose.mulVec (-a) = -((C t).transpose.mulVec a) := fun a => by ext <;> simp [M3.mulVec] <;> ring
      rw [pointVelocityBody, M3.transpose_mul, ← M3.mulVec_mulVec, s, m, ← c, n]
    rw [e]; exact h

lemma linear_ph (r : V3) (p : ℝ) (k : ℕ) : (linearState r p k).ph_IB = ⟨0, 0, p + k / 100⟩ := by
  induction k with
  | zero => simp [linearState, linearInit]
  | succ k ih => rw [linearState, linearStep]; simp only [ih]; ext <;> simp; ring

/-- **C99, animated frame.** Frame `k` of `animateLinearVelocity` shows B rotated about the z axis by the initial angle plus `k/100`
(50 Hz, 0.5 rad/s), and the origin of B and the point in B are advanced by the velocity of a point that moves on a circle of radius 0.4
once in 10 seconds. -/
theorem C99_linear_frames (r : V3) (p : ℝ) (k : ℕ) :
    (∀ v, ((linearFrame r p k).mulVec v - rotZ (p + k / 100) v).norm ≤ eps ^ 2 * v.norm) ∧
    ∃ V, HasDerivV (fun s => (2 / 5 : ℝ) • (⟨Real.cos (2 * Real.pi * s / 10), Real.sin (2 * Real.pi * s / 10), 0⟩ : V3)) V ((k + 1) / 50) ∧
      (linearState r p (k + 1)).I_r_IB = (linearState r p k).I_r_IB + (1 / 50 : ℝ) • V ∧
      (linearState r p (k + 1)).B_r_BP = (linearState r p k).B_r_BP + (1 / 50 : ℝ) • V := by
  constructor
  · intro v
    have := (C66_rotation_vector_to_matrix ⟨0, 0, p + k / 100⟩).2 v
    rw [act_eq, rv_z, ← rotZ_eq] at this
    rw [linearFrame, linear_ph]
    exact this
  · refine ⟨_, ⟨?_, ?_, ?_⟩, rfl, rfl⟩
    · have h := (((hasDerivAt_id ((k + 1 : ℝ) / 50)).const_mul (2 * Real.pi)).div_const 10).cos.const_mul (2 / 5)
      refine h.congr_deriv ?_
      simp
      have : 2 * Real.pi * ((k + 1 : ℝ) / 50) / 10 = 2 * Real.pi * 10⁻¹ * (k + 1) * 50⁻¹ := by ring
      rw [this]; ring
    · have h := (((hasDerivAt_id ((k + 1 : ℝ) / 50)).const_mul (2 * Real.pi)).div_const 10).sin.const_mul (2 / 5)
      refine h.congr_deriv ?_
      simp
      have : 2 * Real.pi * ((k + 1 : ℝ) / 50) / 10 = 2 * Real.pi * 10⁻¹ * (k + 1) * 50⁻¹ := by ring
      rw [this]; ring
    · simpa using hasDerivAt_const _ _

/-! ## Linearizations -/

/-- **C99, linearization.** The line (plane) drawn by `visualizeLinearization` passes through the base point, the arrow drawn there is
perpendicular to it, and it coincides with the curve if the function is affine. -/
theorem C99_linearization (f1 : ℝ → (Fin 1 → ℝ) → Fin 1 → ℝ) (f2 : ℝ → (Fin 2 → ℝ) → Fin 1 → ℝ) (t0 : ℝ) (x1 : Fin 1 → ℝ) (x2 : Fin 2 → ℝ) :
    linearizationLine f1 t0 x1 (x1 0) = linearizationCurve f1 t0 (x1 0) ∧
    (∀ x, (linearizationArrow f1 t0 x1).1 * (x - x1 0) +
      (linearizationArrow f1 t0 x1).2 * (linearizationLine f1 t0 x1 x - linearizationLine f1 t0 x1 (x1 0)) = 0) ∧
    (∀ a b, (∀ x, f1 t0 x 0 = a + b * x 0) → ∀ x, linearizationLine f1 t0 x1 x = linearizationCurve f1 t0 x) ∧
    linearizationPlane f2 t0 x2 (x2 0) (x2 1) = f2 t0 x2 0 ∧
    (∀ x y, (linearizationArrow2 f2 t0 x2).dot ⟨x - x2 0, y - x2 1, linearizationPlane f2 t0 x2 x y - f2 t0 x2 0⟩ = 0) ∧
    (∀ a b c, (∀ x, f2 t0 x 0 = a + b * x 0 + c * x 1) → ∀ x y, linearizationPlane f2 t0 x2 x y = f2 t0 ![x, y] 0) ∧
    0 < (linearizationArrow f1 t0 x1).2 ∧ 0 < (linearizationArrow2 f2 t0 x2).z := by
  have hd : defaultDelta ≠ 0 := by norm_num [defaultDelta]
  refine ⟨?_, fun x => ?_, fun a b h x => ?_, ?_, fun x y => ?_, fun a b c h x y => ?_, ?_, ?_⟩
  · simp only [linearizationLine, linearizationCurve, sub_self, mul_zero, add_zero]
    congr 1; congr 1; ext i; fin_cases i; rfl
  · simp only [linearizationLine, linearizationArrow]; ring
  · simp only [linearizationLine, linearizationCurve, C68_central_differences, h]
    simp; field_simp; ring
  · simp [linearizationPlane]
  · simp only [linearizationPlane, linearizationArrow2, V3.dot]; ring
  · simp only [linearizationPlane, C68_central_differences, h]
    simp; field_simp; ring
  · simp [linearizationArrow]; norm_num
  · simp [linearizationArrow2]; norm_num

/-- **C99, finding: linearization.** For a function of two variables that depends on time, the surface is drawn for time 0 and the plane for
time `t0`: the plane meets the surface at the base point only if the function has the same value there at both times. -/
theorem C99_linearization_time (f : ℝ → (Fin 2 → ℝ) → Fin 1 → ℝ) (t0 : ℝ) (x0 : Fin 2 → ℝ) :
    linearizationPlane f t0 x0 (x0 0) (x0 1) - linearizationSurface f t0 (x0 0) (x0 1) = f t0 x0 0 - f 0 x0 0 := by
  have : ![x0 0, x0 1] = x0 := by ext i; fin_cases i <;> rfl
  simp [linearizationPlane, linearizationSurface, this]

/-- The contracts can be met. -/
theorem exists_solve : ∃ solve, IsSolve solve := by
  refine ⟨fun E b => (1 / E.det) • E.adj.mulVec b, fun E b h => ?_⟩
  have e : E.mulVec ((1 / E.det) • E.adj.mulVec b) = (1 / E.det) • (E * E.adj).mulVec b := by
    rw [M3.mulVec_smul, M3.mulVec_mulVec]
  have e2 : E * E.adj = E.det • 1 := by ext <;> simp [M3.adj, M3.det] <;> ring
  rw [e, e2]
  ext <;> simp <;> field_simp

/-- **C99, examples.** With the default rate and update frequency, an angular velocity of 1 rad/s about each of x and y is shown wrongly; for
`f(t, x, y) = t` at `t0 = 1` the plane is drawn one unit away from the surface; a label of a frame at distance 1 is at least 0.9 away. -/
theorem C99_examples :
    (∃ solve R, IsSolve solve ∧ SteadyRotation ((1 : ℝ) • (⟨1, 1, 0⟩ : V3)) R ∧ animateEulerFrame solve ⟨1, 1, 0⟩ 1 25 1 ≠ R (1 / 25)) ∧
    linearizationPlane (fun t _ _ => t) 1 0 0 0 - linearizationSurface (fun t _ _ => t) 1 0 0 = 1 ∧
    (∃ norm2 d p, IsSpectralNorm norm2 ∧ visualizeHomogeneousTransform norm2 1 ⟨1, 0, 0⟩ true (fun _ => 0) = some d ∧
      d.labels[0]? = some (some p) ∧ 9 / 10 ≤ (p - (d.arrows 0).tip).norm) := by
  refine ⟨?_, ?_, ?_⟩
  · obtain ⟨solve, hs⟩ := exists_solve
    have h : eps ≤ |Real.sin (1 * 1 / 25)| := by
      have h1 := Real.sin_gt_sub_cube (x := 1 * 1 / 25) (by norm_num)
      have h2 : eps ≤ 1 / 100 := by norm_num [eps]
      rw [abs_of_pos (by norm_num at h1 ⊢; linarith)]
      norm_num at h1 h2 ⊢; linarith
    exact ⟨solve, _, hs, steady_rv _, C99_euler_wrong solve hs 1 1 1 25 h h _ (steady_rv _) _ (by norm_num)⟩
  · have := C99_linearization_time (fun t _ _ => t) 1 0
    simpa using this
  · obtain ⟨norm2, hn⟩ := exists_spectralNorm
    obtain ⟨d, h1, h2, h3, h4⟩ := C99_transform norm2 hn 1 SO3.one ⟨1, 0, 0⟩ true (fun _ => 0)
    have hl : ∃ p, d.labels[0]? = some (some p) := by
      unfold visualizeHomogeneousTransform at h1
      rw [if_pos (C64_accepts_rotations norm2 hn 1 SO3.one)] at h1
      obtain rfl := Option.some.inj h1
      simp only [if_true, List.getElem?_cons_zero, Option.some.injEq]
      rw [← Option.ne_none_iff_exists']
      rw [Ne, label_defined]
      intro h
      have := (V3.ext_iff.mp h).1
      norm_num at this
    obtain ⟨p, hp⟩ := hl
    refine ⟨norm2, d, p, hn, h1, hp, ?_⟩
    have := (h4 0 p hp).2
    have n : (⟨1, 0, 0⟩ : V3).norm = 1 := by simp [V3.norm, V3.normSq, V3.dot]
    rw [n, abs_le] at this
    linarith [this.1]

end Kindr.Matlab
