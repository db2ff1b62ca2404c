import Verif.Spec.Range
import Verif.Props.Range1

set_option autoImplicit false

open Classical

noncomputable section
namespace Kindr
open Spec
namespace Format
variable {f : Format}

/-- A nonnegative number on the grid of the format, or `+inf`. -/
def GN (f : Format) (a : XR) : Prop := a = .inf false ∨ ∃ r, 0 ≤ r ∧ OnGrid f.emin r ∧ a = .fin r

lemma gn_rnd {x : ℝ} (h : 0 ≤ x) : f.GN (f.arith.rnd x) := by
  rcases rnd_cases (f := f) h with e | e
  · exact .inl e
  · exact .inr ⟨_, round_nonneg h, round_grid x, e⟩

lemma gn_sq (x : ℝ) : f.GN (f.arith.mul (.fin x) (.fin x)) := gn_rnd (mul_self_nonneg x)

lemma gn_add {a b : XR} (ha : f.GN a) (hb : f.GN b) : f.GN (f.arith.add a b) := by
  rcases ha with rfl | ⟨r, h1, h2, rfl⟩ <;> rcases hb with rfl | ⟨s, h3, h4, rfl⟩
  · exact .inl (by simp [XArith.add])
  · exact .inl rfl
  · exact .inl rfl
  · exact gn_rnd (add_nonneg h1 h3)

lemma fin_ne_inf {x : ℝ} {b : Bool} : XR.fin x ≠ .inf b := by intro h; cases h

lemma grid_small {x : ℝ} {k : ℤ} (h : OnGrid k x) (h0 : 0 ≤ x) (h1 : x < 2 ^ k) : x = 0 := by
  obtain ⟨n, rfl⟩ := h
  have hk : (0 : ℝ) < 2 ^ k := by positivity
  have n0 : 0 ≤ n := by
    by_contra hc
    push Not at hc
    have : (n : ℝ) ≤ -1 := by exact_mod_cast Int.le_sub_one_of_lt hc
    nlinarith
  have n1 : n < 1 := by
    have : (n : ℝ) < 1 := by nlinarith
    exact_mod_cast this
  have : n = 0 := by omega
  simp [this]

lemma half_lt : (2 : ℝ) ^ (f.emin - 1) < 2 ^ f.emin := zpow_lt_zpow_right₀ (by norm_num) (by omega)

lemma rnd_eq_zero (hf : f.Ok) {x : ℝ} : f.arith.rnd x = .fin 0 ↔ |x| ≤ 2 ^ (f.emin - 1) := by
  rw [← round_eq_zero hf]
  constructor
  · intro h
    change (if _ then _ else _) = _ at h
    split_ifs at h
    injection h
  · intro h
    change (if _ then _ else _) = _
    rw [h, abs_zero, if_neg (not_le.mpr (by positivity))]

lemma add_eq_zero (hf : f.Ok) {a b : XR} (ha : f.GN a) (hb : f.GN b) : f.arith.add a b = .fin 0 ↔ a = .fin 0 ∧ b = .fin 0 := by
  constructor
  · intro h
    rcases ha with rfl | ⟨r, h1, h2, rfl⟩ <;> rcases hb with rfl | ⟨s, h3, h4, rfl⟩
    · simp [XArith.add] at h
    · simp [XArith.add] at h
    · simp [XArith.add] at h
    · have h' := (rnd_eq_zero hf).mp h
      rw [abs_of_nonneg (by linarith)] at h'
      have := half_lt (f := f)
      rw [grid_small h2 h1 (by linarith), grid_small h4 h3 (by linarith)]
      exact ⟨rfl, rfl⟩
  · rintro ⟨rfl, rfl⟩
    exact (rnd_eq_zero hf).mpr (by simp; positivity)

lemma pow_le_one (hf : f.Ok) : (2 : ℝ) ^ f.emin ≤ 1 :=
  zpow_le_one_of_nonpos₀ (by norm_num) (by have := hf.emin; omega)

lemma sqrt_gn {a : XR} (ha : f.GN a) : f.GN (f.arith.sqrt a) := by
  rcases ha with rfl | ⟨r, h1, h2, rfl⟩
  · exact .inl (by simp [XArith.sqrt])
  · simp only [XArith.sqrt, if_neg (not_lt.mpr h1)]
    exact gn_rnd (Real.sqrt_nonneg _)

lemma gn_pos {r : ℝ} (h1 : 0 ≤ r) (h2 : OnGrid f.emin r) (h : r ≠ 0) : (2 : ℝ) ^ f.emin ≤ r := by
  by_contra hc
  exact h (grid_small h2 h1 (not_le.mp hc))

lemma sqrt_eq_zero (hf : f.Ok) {a : XR} (ha : f.GN a) : f.arith.sqrt a = .fin 0 ↔ a = .fin 0 := by
  constructor
  · intro h
    rcases ha with rfl | ⟨r, h1, h2, rfl⟩
    · simp [XArith.sqrt] at h
    · simp only [XArith.sqrt, if_neg (not_lt.mpr h1)] at h
      have h' := (rnd_eq_zero hf).mp h
      rw [abs_of_nonneg (Real.sqrt_nonneg _)] at h'
      by_contra hc
      have h3 := gn_pos h1 h2 (fun e => hc (by rw [e]))
      have h4 := half_lt (f := f)
      have h5 := pow_le_one hf
      have h6 : (2 : ℝ) ^ f.emin ≤ Real.sqrt r := Real.le_sqrt_of_sq_le (by nlinarith [show (0 : ℝ) < 2 ^ f.emin by positivity])
      linarith
  · rintro rfl
    simp only [XArith.sqrt, if_neg (lt_irrefl _), Real.sqrt_zero]
    exact f.arith.rnd_zero

lemma gn_normSq (v : V3) : f.GN (f.arith.normSq3 (emb3 v)) := gn_add (gn_sq _) (gn_add (gn_sq _) (gn_sq _))
lemma gn_norm (v : V3) : f.GN (f.arith.norm3 (emb3 v)) := sqrt_gn (gn_normSq v)

lemma normSq_zero (hf : f.Ok) (v : V3) : f.arith.normSq3 (emb3 v) = .fin 0 ↔ Tiny f v := by
  have e : ∀ x : ℝ, f.arith.mul (.fin x) (.fin x) = .fin 0 ↔ x ^ 2 ≤ 2 ^ (f.emin - 1) := fun x => by
    change f.arith.rnd (x * x) = _ ↔ _
    rw [rnd_eq_zero hf, abs_mul_self, sq]
  simp only [XArith.normSq3, emb3]
  rw [add_eq_zero hf (gn_sq _) (gn_add (gn_sq _) (gn_sq _)), add_eq_zero hf (gn_sq _) (gn_sq _)]
  simp only [e]
  rfl

/-- **C105 (a).** `v.norm()` is zero exactly if all coefficients are tiny. -/
theorem C105_norm_zero (hf : f.Ok) (v : V3) : f.arith.norm3 (emb3 v) = .fin 0 ↔ Tiny f v := by
  unfold XArith.norm3
  rw [sqrt_eq_zero hf (gn_normSq v), normSq_zero hf]

lemma rnd_fin_lt {x r : ℝ} (h : f.arith.rnd x = .fin r) : |r| < 2 ^ f.emax ∧ r = f.round x := by
  change (if _ then _ else _) = _ at h
  split_ifs at h with hc
  injection h with h
  rw [← h]; exact ⟨not_le.mp hc, rfl⟩

lemma sqrt_le_pow (hf : f.Ok) {r : ℝ} (h : r ≤ 2 ^ f.emax) : |Real.sqrt r| ≤ 2 ^ (f.emax - 1) := by
  rw [abs_of_nonneg (Real.sqrt_nonneg _)]
  refine Real.sqrt_le_iff.mpr ⟨by positivity, h.trans ?_⟩
  rw [← zpow_natCast, ← zpow_mul]
  refine zpow_le_zpow_right₀ (by norm_num) ?_
  have := hf.p; have := hf.emax
  push_cast; omega

lemma sqrt_inf (hf : f.Ok) {a : XR} (ha : f.GN a) (hlt : ∀ r, a = .fin r → r ≤ 2 ^ f.emax) : f.arith.sqrt a = .inf false ↔ a = .inf false := by
  constructor
  · intro h
    rcases ha with rfl | ⟨r, h1, h2, rfl⟩
    · rfl
    · simp only [XArith.sqrt, if_neg (not_lt.mpr h1)] at h
      have e1 := hf.p; have e2 := hf.emin; have e3 := hf.emax
      rw [rnd_fin hf (j := f.emax - 1) (by omega) (by omega) (sqrt_le_pow hf (hlt r rfl))] at h
      exact absurd h fin_ne_inf
  · rintro rfl; simp [XArith.sqrt]

lemma normSq_lt {v : V3} {r : ℝ} (h : f.arith.normSq3 (emb3 v) = .fin r) : r < 2 ^ f.emax := by
  unfold XArith.normSq3 at h
  have h1 := gn_sq (f := f) v.x
  have h2 := gn_add (gn_sq (f := f) v.y) (gn_sq (f := f) v.z)
  change f.arith.add (f.arith.mul (.fin v.x) (.fin v.x)) (f.arith.add (f.arith.mul (.fin v.y) (.fin v.y)) (f.arith.mul (.fin v.z) (.fin v.z))) = _ at h
  rcases h1 with h1 | ⟨a, -, -, h1⟩ <;> rcases h2 with h2 | ⟨b, -, -, h2⟩ <;> rw [h1, h2] at h
  · simp [XArith.add] at h
  · simp [XArith.add] at h
  · simp [XArith.add] at h
  · exact lt_of_le_of_lt (le_abs_self r) (rnd_fin_lt (x := a + b) h).1

lemma norm_inf (hf : f.Ok) (v : V3) : f.arith.norm3 (emb3 v) = .inf false ↔ f.arith.normSq3 (emb3 v) = .inf false :=
  sqrt_inf hf (gn_normSq v) (fun _ h => (normSq_lt h).le)

lemma add_inf_left {a b : XR} (h : a = .inf false) (hb : f.GN b) : f.arith.add a b = .inf false := by
  rcases hb with rfl | ⟨r, -, -, rfl⟩ <;> subst h <;> simp [XArith.add]
lemma add_inf_right {a b : XR} (h : b = .inf false) (ha : f.GN a) : f.arith.add a b = .inf false := by
  rcases ha with rfl | ⟨r, -, -, rfl⟩ <;> subst h <;> simp [XArith.add]

lemma sq_inf (hf : f.Ok) {x : ℝ} (h : 2 ^ f.emax ≤ x ^ 2) : f.arith.mul (.fin x) (.fin x) = .inf false := by
  change f.arith.rnd (x * x) = _
  rw [rnd_inf hf (by rw [abs_mul_self, ← sq]; exact h)]
  simp [not_lt.mpr (mul_self_nonneg x)]

/-- **C105 (b).** If the square of a coefficient overflows, `v.norm()` is infinite; and whenever it is infinite `v.normalized()` is the zero vector
(finding). -/
theorem C105_overflow (hf : f.Ok) (v : V3) :
    (Huge f v → f.arith.norm3 (emb3 v) = .inf false) ∧
    (f.arith.norm3 (emb3 v) = .inf false → f.arith.normalized (emb3 v) = emb3 0) := by
  constructor
  · intro h
    rw [norm_inf hf]
    unfold XArith.normSq3
    rcases h with h | h | h
    · exact add_inf_left (sq_inf hf h) (gn_add (gn_sq _) (gn_sq _))
    · exact add_inf_right (add_inf_left (sq_inf hf h) (gn_sq _)) (gn_sq _)
    · exact add_inf_right (add_inf_right (sq_inf hf h) (gn_sq _)) (gn_sq _)
  · intro h
    have h' := (norm_inf hf v).mp h
    unfold XArith.normalized
    rw [h', if_pos (by simp [XR.lt]), h]
    rfl

/-! ## Accuracy within the range -/

lemma fin_of_le (hf : f.Ok) {x : ℝ} (h : |x| ≤ 2 ^ (f.emax - 1)) : f.arith.rnd x = .fin (f.round x) := by
  have e1 := hf.p; have e2 := hf.emin; have e3 := hf.emax
  exact rnd_fin hf (j := f.emax - 1) (by omega) (by omega) h

/-- The unit roundoff of the format. -/
def uu (f : Format) : ℝ := 2⁻¹ ^ f.p
/-- Half the smallest positive number. -/
def eta (f : Format) : ℝ := 2 ^ (f.emin - 1)

lemma uu_pos : 0 < f.uu := by unfold uu; positivity
lemma eta_pos : 0 < f.eta := by unfold eta; positivity
lemma uu_le (hf : f.Ok) : f.uu ≤ 1 / 256 := by
  unfold uu
  calc (2⁻¹ : ℝ) ^ f.p ≤ 2⁻¹ ^ 8 := pow_le_pow_of_le_one (by norm_num) (by norm_num) hf.p
    _ = _ := by norm_num

lemma err (hf : f.Ok) (x : ℝ) : |f.round x - x| ≤ f.uu * |x| + f.eta := round_err hf x

lemma eta_le {S : ℝ} (h : 2 ^ (f.emin + 2 * f.p + 2) ≤ S) : f.eta ≤ f.uu ^ 2 * S / 8 := by
  have e : f.uu ^ 2 * 2 ^ (f.emin + 2 * f.p + 2) = 8 * f.eta := by
    unfold uu eta
    rw [inv_pow, ← inv_pow, ← pow_mul, inv_pow, ← zpow_natCast, ← zpow_neg, ← zpow_add₀ (by norm_num),
      show (8 : ℝ) = 2 ^ (3 : ℤ) by norm_num, ← zpow_add₀ (by norm_num)]
    congr 1
    push_cast; ring
  have := mul_le_mul_of_nonneg_left h (by positivity : 0 ≤ f.uu ^ 2)
  linarith

/-- The squared norm of a vector in range. -/
lemma normSq_acc (hf : f.Ok) {v : V3} (h : InRange f v) : ∃ R, f.arith.normSq3 (emb3 v) = .fin R ∧
    |R - (v.x ^ 2 + v.y ^ 2 + v.z ^ 2)| ≤ 4 * f.uu * (v.x ^ 2 + v.y ^ 2 + v.z ^ 2) := by
  obtain ⟨h1, h2⟩ := h
  have hE := eta_le h1
  obtain ⟨u, hu⟩ : ∃ u, u = f.uu := ⟨_, rfl⟩
  obtain ⟨η, hη⟩ : ∃ η, η = f.eta := ⟨_, rfl⟩
  have u0 : 0 < u := hu ▸ uu_pos
  have u1 : u ≤ 1 / 256 := hu ▸ uu_le hf
  have η0 : 0 < η := hη ▸ eta_pos
  have ER : ∀ x, |f.round x - x| ≤ u * |x| + η := fun x => by rw [hu, hη]; exact err hf x
  have eM : (2 : ℝ) ^ (f.emax - 1) = 2 * 2 ^ (f.emax - 2) := by
    rw [← zpow_one_add₀ (by norm_num)]; congr 1; ring
  rw [← hu, ← hη] at hE
  rw [← hu]
  obtain ⟨a, ha⟩ : ∃ a, a = v.x ^ 2 := ⟨_, rfl⟩
  obtain ⟨b, hb⟩ : ∃ b, b = v.y ^ 2 := ⟨_, rfl⟩
  obtain ⟨c, hc⟩ : ∃ c, c = v.z ^ 2 := ⟨_, rfl⟩
  have a0 : 0 ≤ a := ha ▸ sq_nonneg _
  have b0 : 0 ≤ b := hb ▸ sq_nonneg _
  have c0 : 0 ≤ c := hc ▸ sq_nonneg _
  rw [← ha, ← hb, ← hc] at h2 hE ⊢
  obtain ⟨M, hM⟩ : ∃ M : ℝ, M = 2 ^ (f.emax - 2) := ⟨_, rfl⟩
  rw [← hM] at h2 eM
  obtain ⟨S, hS⟩ : ∃ S, S = a + b + c := ⟨_, rfl⟩
  rw [← hS] at h2 hE ⊢
  have S0 : 0 ≤ S := by linarith
  have uS : u * S ≤ S / 256 := by nlinarith
  have u2S : u ^ 2 * S ≤ u * S / 256 := by nlinarith [mul_nonneg u0.le S0]
  have F : ∀ x, |x| ≤ 2 * M → f.arith.rnd x = .fin (f.round x) := fun x hx => fin_of_le hf (by rw [eM]; exact hx)
  have ea := ER a; have eb := ER b; have ec := ER c
  rw [abs_of_nonneg a0] at ea; rw [abs_of_nonneg b0] at eb; rw [abs_of_nonneg c0] at ec
  have Fa := F a (by rw [abs_of_nonneg a0]; linarith)
  have Fb := F b (by rw [abs_of_nonneg b0]; linarith)
  have Fc := F c (by rw [abs_of_nonneg c0]; linarith)
  have nb := round_nonneg (f := f) b0; have nc := round_nonneg (f := f) c0; have na := round_nonneg (f := f) a0
  obtain ⟨A, hA⟩ : ∃ A, A = f.round a := ⟨_, rfl⟩
  obtain ⟨B, hB⟩ : ∃ B, B = f.round b := ⟨_, rfl⟩
  obtain ⟨C, hC⟩ : ∃ C, C = f.round c := ⟨_, rfl⟩
  rw [← hA] at ea Fa na; rw [← hB] at eb Fb nb; rw [← hC] at ec Fc nc
  obtain ⟨ea1, ea2⟩ := abs_le.mp ea
  obtain ⟨eb1, eb2⟩ := abs_le.mp eb
  obtain ⟨ec1, ec2⟩ := abs_le.mp ec
  have ub : u * b + u * c + u * a = u * S := by rw [hS]; ring
  have ub0 : 0 ≤ u * b := by positivity
  have uc0 : 0 ≤ u * c := by positivity
  have ua0 : 0 ≤ u * a := by positivity
  have BC : B + C ≤ 2 * M := by linarith
  have FT := F (B + C) (by rw [abs_of_nonneg (by linarith)]; exact BC)
  have eT := ER (B + C)
  rw [abs_of_nonneg (show 0 ≤ B + C by linarith)] at eT
  have nT := round_nonneg (f := f) (x := B + C) (by linarith)
  obtain ⟨T, hT⟩ : ∃ T, T = f.round (B + C) := ⟨_, rfl⟩
  rw [← hT] at FT eT nT
  obtain ⟨eT1, eT2⟩ := abs_le.mp eT
  have uBC : u * (B + C) ≤ u * (b + c) + (u * (u * (b + c)) + 2 * (u * η)) := by
    have h : B + C ≤ b + c + (u * (b + c) + 2 * η) := by linarith
    have := mul_le_mul_of_nonneg_left h u0.le
    linarith
  have u2bc : u * (u * (b + c)) ≤ u ^ 2 * S := by
    have := mul_nonneg (mul_nonneg u0.le u0.le) a0
    rw [hS]; linarith
  have uη : u * η ≤ η / 256 := by
    have := mul_le_mul_of_nonneg_right u1 η0.le
    linarith
  have AT : A + T ≤ 2 * M := by linarith
  have FR := F (A + T) (by rw [abs_of_nonneg (by linarith)]; exact AT)
  have eR := ER (A + T)
  rw [abs_of_nonneg (show 0 ≤ A + T by linarith)] at eR
  have uAT : u * (A + T) ≤ u * S + u * (4 * (u * S)) := by
    have h : A + T ≤ S + 4 * (u * S) := by linarith
    have := mul_le_mul_of_nonneg_left h u0.le
    linarith
  refine ⟨f.round (A + T), ?_, ?_⟩
  · simp only [XArith.normSq3, emb3, XArith.mul, ← sq, ← ha, ← hb, ← hc, Fa, Fb, Fc, XArith.add, FT, FR]
  · obtain ⟨eR1, eR2⟩ := abs_le.mp eR
    rw [abs_le]
    constructor <;> linarith


lemma inRange_norm {v : V3} (h : InRange f v) : v.norm ^ 2 = v.x ^ 2 + v.y ^ 2 + v.z ^ 2 ∧ 0 < v.norm := by
  have e : v.norm ^ 2 = v.x ^ 2 + v.y ^ 2 + v.z ^ 2 := by rw [V3.norm_sq]; unfold V3.normSq V3.dot; ring
  refine ⟨e, ?_⟩
  have h1 : 0 < v.norm ^ 2 := by rw [e]; exact lt_of_lt_of_le (by positivity) h.1
  have h2 : 0 ≤ v.norm := Real.sqrt_nonneg _
  exact lt_of_le_of_ne h2 (fun h => by rw [← h] at h1; simp at h1)

lemma eta_small (hf : f.Ok) {N : ℝ} (h0 : 0 < N) (h : 2 ^ (f.emin + 2 * f.p + 2) ≤ N ^ 2) : f.eta ≤ f.uu * N / 64 := by
  have h1 := eta_le h
  have h2 : f.eta ≤ 1 / 2 ^ 12 := by
    unfold eta
    calc (2 : ℝ) ^ (f.emin - 1) ≤ 2 ^ (-12 : ℤ) := zpow_le_zpow_right₀ (by norm_num) (by have := hf.emin; have := hf.p; omega)
      _ = _ := by norm_num
  have h3 := eta_pos (f := f)
  have h4 := uu_pos (f := f)
  refine le_trans (le_abs_self _) (abs_le_of_sq_le_sq ?_ (by positivity))
  calc f.eta ^ 2 = f.eta * f.eta := sq _
    _ ≤ 1 / 2 ^ 12 * (f.uu ^ 2 * N ^ 2 / 8) := mul_le_mul h2 h1 h3.le (by positivity)
    _ ≤ _ := by have : 0 ≤ f.uu ^ 2 * N ^ 2 := by positivity
                nlinarith

set_option maxHeartbeats 1000000 in
/-- **C105 (c).** Within the range of the format `v.norm()` and `v.normalized()` are accurate to the last bits. -/
theorem C105_accuracy (hf : f.Ok) {v : V3} (h : InRange f v) :
    (∃ n, f.arith.norm3 (emb3 v) = .fin n ∧ |n - v.norm| ≤ 4 * 2⁻¹ ^ f.p * v.norm) ∧
    ∃ w, f.arith.normalized (emb3 v) = emb3 w ∧ |w.x - v.x / v.norm| ≤ 6 * 2⁻¹ ^ f.p ∧ |w.y - v.y / v.norm| ≤ 6 * 2⁻¹ ^ f.p ∧
      |w.z - v.z / v.norm| ≤ 6 * 2⁻¹ ^ f.p := by
  obtain ⟨R, e1, e2⟩ := normSq_acc hf h
  obtain ⟨n1, n2⟩ := inRange_norm h
  have hη := eta_small hf n2 (by rw [n1]; exact h.1)
  rw [← n1] at e2
  have hle : v.norm ^ 2 ≤ 2 ^ (f.emax - 2) := by rw [n1]; exact h.2
  change (∃ n, _ ∧ |n - v.norm| ≤ 4 * f.uu * v.norm) ∧ ∃ w : V3, _ ∧ |w.x - v.x / v.norm| ≤ 6 * f.uu ∧ |w.y - v.y / v.norm| ≤ 6 * f.uu ∧
      |w.z - v.z / v.norm| ≤ 6 * f.uu
  obtain ⟨N, hN⟩ : ∃ N, N = v.norm := ⟨_, rfl⟩
  obtain ⟨u, hu⟩ : ∃ u, u = f.uu := ⟨_, rfl⟩
  obtain ⟨η, hh⟩ : ∃ η, η = f.eta := ⟨_, rfl⟩
  have u0 : 0 < u := hu ▸ uu_pos
  have u1 : u ≤ 1 / 256 := hu ▸ uu_le hf
  have η0 : 0 < η := hh ▸ eta_pos
  have ER : ∀ x, |f.round x - x| ≤ u * |x| + η := fun x => by rw [hu, hh]; exact err hf x
  have ηs : η ≤ u / 64 := by
    have := eta_small hf (N := 1) one_pos (by
      rw [one_pow]; exact zpow_le_one_of_nonpos₀ (by norm_num) (by have := hf.emin; omega))
    rw [hh, hu]; linarith
  rw [← hN] at n2 hη e2 hle
  rw [← hu] at hη e2
  rw [← hh] at hη
  rw [← hN, ← hu]
  obtain ⟨e3, e4⟩ := abs_le.mp e2
  have N2 : 0 < N ^ 2 := by positivity
  have uN2 : u * N ^ 2 ≤ N ^ 2 / 256 := by nlinarith
  have uN : u * N ≤ N / 256 := by nlinarith
  have R0 : 0 < R := by linarith
  have s0 := Real.sqrt_nonneg R
  have s2 := Real.sq_sqrt R0.le
  have lo : 99 / 100 * N ≤ Real.sqrt R := Real.le_sqrt_of_sq_le (by nlinarith)
  have hi : Real.sqrt R ≤ 101 / 100 * N := Real.sqrt_le_iff.mpr ⟨by positivity, by nlinarith⟩
  have hR := (normSq_lt e1).le
  have en : f.arith.norm3 (emb3 v) = .fin (f.round (Real.sqrt R)) := by
    simp only [XArith.norm3, e1, XArith.sqrt, if_neg (not_lt.mpr R0.le)]
    exact fin_of_le hf (sqrt_le_pow hf hR)
  have en2 := ER (Real.sqrt R)
  rw [abs_of_nonneg s0] at en2
  have esq : |Real.sqrt R - N| ≤ 21 / 10 * (u * N) := by
    rw [abs_le]
    constructor <;> nlinarith
  obtain ⟨q1, q2⟩ := abs_le.mp esq
  obtain ⟨m1, m2⟩ := abs_le.mp en2
  have us : u * Real.sqrt R ≤ 101 / 100 * (u * N) := by nlinarith
  obtain ⟨n, hn⟩ : ∃ n, n = f.round (Real.sqrt R) := ⟨_, rfl⟩
  rw [← hn] at en m1 m2
  have nn : |n - N| ≤ 4 * (u * N) := by rw [abs_le]; constructor <;> linarith
  have n0 : 98 / 100 * N ≤ n := by linarith
  refine ⟨⟨n, en, by rw [mul_assoc]; exact nn⟩, ?_⟩
  have npos : 0 < n := by nlinarith
  have q : ∀ x : ℝ, |x| ≤ N → f.arith.div (.fin x) (.fin n) = .fin (f.round (x / n)) ∧ |f.round (x / n) - x / N| ≤ 6 * u := by
    intro x hx
    have hq : |x / n| ≤ 102 / 100 + 1 / 1000 := by
      rw [abs_div, abs_of_pos npos, div_le_iff₀ npos]; nlinarith
    refine ⟨?_, ?_⟩
    · simp only [XArith.div, if_neg npos.ne']
      refine fin_of_le hf (hq.trans (le_trans (by norm_num : _ ≤ (2 : ℝ) ^ (1 : ℤ)) (zpow_le_zpow_right₀ (by norm_num) ?_)))
      have := hf.p; have := hf.emax; omega
    · have d : |x / n - x / N| ≤ 41 / 10 * u := by
        have : x / n - x / N = x / N * ((N - n) / n) := by field_simp
        rw [this, abs_mul, abs_div, abs_of_pos n2, abs_div, abs_of_pos npos, abs_sub_comm]
        calc |x| / N * (|n - N| / n) ≤ 1 * (|n - N| / n) := mul_le_mul_of_nonneg_right (by rw [div_le_one n2]; exact hx) (by positivity)
          _ ≤ _ := by rw [one_mul, div_le_iff₀ npos]; nlinarith
      have r := ER (x / n)
      have ux : u * |x / n| ≤ u * (102 / 100 + 1 / 1000) := mul_le_mul_of_nonneg_left hq u0.le
      calc _ ≤ |f.round (x / n) - x / n| + |x / n - x / N| := abs_sub_le _ _ _
        _ ≤ _ := by linarith
  have cN : v.x ^ 2 ≤ N ^ 2 ∧ v.y ^ 2 ≤ N ^ 2 ∧ v.z ^ 2 ≤ N ^ 2 := by
    rw [hN, n1]
    refine ⟨?_, ?_, ?_⟩ <;> nlinarith [sq_nonneg v.x, sq_nonneg v.y, sq_nonneg v.z]
  have qx := q v.x (abs_le_of_sq_le_sq cN.1 n2.le)
  have qy := q v.y (abs_le_of_sq_le_sq cN.2.1 n2.le)
  have qz := q v.z (abs_le_of_sq_le_sq cN.2.2 n2.le)
  refine ⟨⟨f.round (v.x / n), f.round (v.y / n), f.round (v.z / n)⟩, ?_, qx.2, qy.2, qz.2⟩
  unfold XArith.normalized
  rw [e1, if_pos (by exact R0), en]
  simp only [XArith.divV, emb3, qx.1, qy.1, qz.1]

end Format
end Kindr
