import Verif.Props.VecIeee2

/-!
# C115: integration of positions, where it stops, differences of nearby vectors, cross products, wrenches
-/

set_option autoImplicit false

open Classical

noncomputable section
namespace Kindr
open Spec

namespace Format
variable {f : Format} {n : ℕ}

lemma move_apply (A : XArith) (p : XVec n) (l : List (XVec n × XR)) (i : Fin n) :
    moveLoop A p l i = l.foldl (fun a s => A.add a (A.mul (s.1 i) s.2)) (p i) := by
  unfold moveLoop
  induction l generalizing p with
  | nil => rfl
  | cons v l ih => exact ih _

/-- **C115 (integrating a velocity).** `p += v * dt` in a loop. -/
theorem C115_move (hf : AtLeastFloat f) (p : Fin n → ℝ) (l : List ((Fin n → ℝ) × ℝ)) (hp : ∀ i, Storable f (p i))
    (hn : (l.length + 1 : ℝ) * 2⁻¹ ^ f.p ≤ 1 / 100) (hb : ∀ i, |p i| + (l.map fun s => |s.1 i * s.2|).sum ≤ 2 ^ (f.emax - 2)) :
    ∃ q : Fin n → ℝ, moveLoop f.arith (embV p) (l.map fun s => (embV s.1, .fin s.2)) = embV q ∧ ∀ i, Storable f (q i) ∧
      |q i - (p i + (l.map fun s => s.1 i * s.2).sum)| ≤
        102 / 100 * ((l.length + 1) * 2⁻¹ ^ f.p * (|p i| + (l.map fun s => |s.1 i * s.2|).sum) + l.length * 2 ^ (f.emin - 1)) := by
  have ok := alf_ok hf
  have P : (0 : ℝ) < 2 ^ (f.emax - 2) := by positivity
  have u0 := uu_pos (f := f)
  have e0 := eta_pos (f := f)
  have u1 := uu_le ok
  change (l.length + 1 : ℝ) * f.uu ≤ _ at hn
  have m0 : (0 : ℝ) ≤ l.length := Nat.cast_nonneg _
  have mu : l.length * f.uu ≤ 1 / 100 := by linarith
  have ne := len_eta ok m0 mu
  have key : ∀ i, ∃ r, moveLoop f.arith (embV p) (l.map fun s => (embV s.1, .fin s.2)) i = .fin r ∧ Storable f r ∧
      |r - (p i + (l.map fun s => s.1 i * s.2).sum)| ≤
        102 / 100 * ((l.length + 1) * f.uu * (|p i| + (l.map fun s => |s.1 i * s.2|).sum) + l.length * f.eta) := by
    intro i
    have hb' := hb i
    obtain ⟨c1, c2, c3⟩ := rounded_list ok (fun s : (Fin n → ℝ) × ℝ => s.1 i * s.2) l le_rfl (by rw [big_pow]; linarith [abs_nonneg (p i)])
    have e : (l.map fun s => |f.round (s.1 i * s.2)|) = (l.map fun s => f.round (s.1 i * s.2)).map fun x => |x| := by simp
    obtain ⟨D, hD⟩ : ∃ D, D = (l.map fun s => |s.1 i * s.2|).sum := ⟨_, rfl⟩
    have D0 : 0 ≤ D := by rw [hD]; exact sum_abs_nonneg (fun s : (Fin n → ℝ) × ℝ => s.1 i * s.2) l
    rw [← hD] at hb' c2 c3 ⊢
    have uD : f.uu * D ≤ 1 / 256 * D := mul_le_mul_of_nonneg_right u1 D0
    have p0 := abs_nonneg (p i)
    obtain ⟨r, e1, e2, e3⟩ := scalar_loop ok (p i) (l.map fun s => f.round (s.1 i * s.2)) (hp i)
      (by intro x hx; obtain ⟨v, hv, rfl⟩ := List.mem_map.mp hx; exact (c1 v hv).2) (by rw [List.length_map]; exact hn) (by rw [← e]; linarith)
    refine ⟨r, ?_, e2, ?_⟩
    · rw [move_apply, ← e1, List.foldl_map, List.foldl_map]
      change l.foldl (fun a s => f.arith.add a (f.arith.rnd (s.1 i * s.2))) (.fin (p i)) = _
      refine List.foldl_ext _ _ _ fun a s hs => ?_
      rw [(c1 s hs).1]
    · rw [List.length_map, ← e] at e3
      obtain ⟨X, hX⟩ : ∃ X, X = (l.map fun s => f.round (s.1 i * s.2)).sum := ⟨_, rfl⟩
      obtain ⟨Y, hY⟩ : ∃ Y, Y = (l.map fun s => s.1 i * s.2).sum := ⟨_, rfl⟩
      obtain ⟨Z, hZ⟩ : ∃ Z, Z = (l.map fun s => |f.round (s.1 i * s.2)|).sum := ⟨_, rfl⟩
      rw [← hX, ← hZ] at e3
      rw [← hX, ← hY] at c3
      rw [← hZ] at c2
      rw [← hY]
      have := abs_add_le (r - (p i + X)) (X - Y)
      rw [show r - (p i + X) + (X - Y) = r - (p i + Y) by ring] at this
      obtain ⟨m, hm⟩ : ∃ m : ℝ, m = l.length := ⟨_, rfl⟩
      rw [← hm] at m0 mu ne c2 c3 e3 ⊢
      have k1 : 101 / 100 * m * f.uu * (|p i| + Z) ≤ 101 / 100 * m * f.uu * (|p i| + ((1 + f.uu) * D + m * f.eta)) :=
        mul_le_mul_of_nonneg_left (by linarith) (by positivity)
      have k2 : m * f.uu * (m * f.eta) ≤ 1 / 100 * (m * f.eta) := mul_le_mul_of_nonneg_right mu (by positivity)
      have k3 : m * f.uu * (f.uu * D) ≤ m * f.uu * (1 / 256 * D) := mul_le_mul_of_nonneg_left uD (by positivity)
      have k4 : 0 ≤ m * f.uu * D := by positivity
      have k5 : 0 ≤ f.uu * D := by positivity
      have k6 : 0 ≤ m * f.eta := by positivity
      have k7 : 0 ≤ m * f.uu * |p i| := by positivity
      have k8 : 0 ≤ f.uu * |p i| := by positivity
      rw [show (102 / 100 * ((m + 1) * f.uu * (|p i| + D) + m * f.eta)) =
        102 / 100 * (m * f.uu * D) + 102 / 100 * (f.uu * D) + 102 / 100 * (m * f.uu * |p i|) + 102 / 100 * (f.uu * |p i|) + 102 / 100 * (m * f.eta) by ring]
      rw [show 101 / 100 * m * f.uu * (|p i| + ((1 + f.uu) * D + m * f.eta)) =
        101 / 100 * (m * f.uu * |p i|) + 101 / 100 * (m * f.uu * D) + 101 / 100 * (m * f.uu * (f.uu * D)) + 101 / 100 * (m * f.uu * (m * f.eta)) by ring] at k1
      rw [show m * f.uu * (1 / 256 * D) = 1 / 256 * (m * f.uu * D) by ring] at k3
      linarith
  choose S h1 h2 h3 using key
  exact ⟨S, funext h1, fun i => ⟨h2 i, h3 i⟩⟩

/-- A step of at most half the distance of the numbers above `2 ^ k` does not lead beyond `2 ^ k`. -/
lemma no_step (hf : f.Ok) {k : ℤ} (hk : f.emin + f.p ≤ k) {x d : ℝ} (hx : |x| ≤ 2 ^ k) (hd : |d| ≤ 2 ^ (k - f.p)) : |f.round (x + d)| ≤ 2 ^ k := by
  have hp := hf.p
  rw [abs_round]
  obtain ⟨y, hy⟩ : ∃ y, y = |x + d| := ⟨_, rfl⟩
  have y1 : y ≤ 2 ^ k + 2 ^ (k - f.p) := by rw [hy]; exact (abs_add_le _ _).trans (by linarith)
  have y0 : 0 ≤ y := by rw [hy]; exact abs_nonneg _
  rw [← hy]
  have P : (0 : ℝ) < 2 ^ k := by positivity
  have e1 : (2 : ℝ) ^ k = 2 ^ ((f.p : ℤ) - 1) * 2 ^ (k - f.p + 1) := by rw [← zpow_add₀ (by norm_num)]; congr 1; ring
  have e2 : (2 : ℝ) ^ (k - f.p) = 1 / 2 * 2 ^ (k - f.p + 1) := by rw [zpow_add₀ (by norm_num) _ 1, zpow_one]; ring
  rcases le_or_gt y (2 ^ k) with h | h
  · exact (le_abs_self _).trans (round_le_pow hf (j := k) (by omega) (by rw [abs_of_nonneg y0]; exact h))
  · have Q : (0 : ℝ) < 2 ^ (k - f.p + 1) := by positivity
    have small : (2 : ℝ) ^ (k - f.p) < 2 ^ k := zpow_lt_zpow_right₀ (by norm_num) (by omega)
    have q : f.qexp y = k - f.p + 1 := by
      have l1 := le_log h.le
      have l2 := log_le (x := y) (j := k) (by linarith) (by rw [zpow_add₀ (by norm_num), zpow_one]; linarith)
      unfold qexp
      rw [le_antisymm l2 l1, max_eq_left (by omega)]; ring
    rw [round_def, q]
    have z : y / 2 ^ (k - f.p + 1) ≤ ((2 ^ (f.p - 1) : ℤ) : ℝ) + 1 / 2 := by
      rw [div_le_iff₀ Q]
      refine y1.trans_eq ?_
      rw [e1, e2]; push_cast
      rw [← zpow_natCast, Nat.cast_sub (by omega)]; push_cast; ring
    have ev : Even ((2 : ℤ) ^ (f.p - 1)) := (even_two).pow_of_ne_zero (by omega)
    have r := roundTiesEven_mono z
    rw [roundTiesEven_tie ev] at r
    have r' : (roundTiesEven (y / 2 ^ (k - f.p + 1)) : ℝ) ≤ 2 ^ ((f.p : ℤ) - 1) := by
      have : (roundTiesEven (y / 2 ^ (k - f.p + 1)) : ℝ) ≤ ((2 ^ (f.p - 1) : ℤ) : ℝ) := by exact_mod_cast r
      refine this.trans_eq ?_
      push_cast
      rw [← zpow_natCast, Nat.cast_sub (by omega)]; push_cast; rfl
    rw [e1]
    exact mul_le_mul_of_nonneg_right r' Q.le

/-- **C115 (finding: integration stops).** If every step `v * dt` is at most `2 ^ (k - p)`, a position starting within `2 ^ k` never gets
beyond `2 ^ k`, whatever the number of steps. -/
theorem C115_stall (hf : AtLeastFloat f) {k : ℤ} (hk : f.emin + f.p ≤ k) (hk' : k + 1 < f.emax) (p : Fin n → ℝ) (hp : ∀ i, |p i| ≤ 2 ^ k)
    (l : List ((Fin n → ℝ) × ℝ)) (hl : ∀ s ∈ l, ∀ i, |s.1 i * s.2| ≤ 2 ^ (k - f.p)) :
    ∃ q : Fin n → ℝ, moveLoop f.arith (embV p) (l.map fun s => (embV s.1, .fin s.2)) = embV q ∧ ∀ i, |q i| ≤ 2 ^ k := by
  have ok := alf_ok hf
  induction l generalizing p with
  | nil => exact ⟨p, rfl, hp⟩
  | cons s l ih =>
    have hs := hl s (by simp)
    have small : (2 : ℝ) ^ (k - f.p) ≤ 2 ^ k := zpow_le_zpow_right₀ (by norm_num) (by omega)
    have dd : (2 : ℝ) ^ (k + 1) = 2 * 2 ^ k := by rw [zpow_add₀ (by norm_num), zpow_one]; ring
    have d1 : ∀ i, f.arith.rnd (s.1 i * s.2) = .fin (f.round (s.1 i * s.2)) := fun i =>
      rnd_fin ok (j := k - f.p) (by omega) (by omega) (hs i)
    have d2 : ∀ i, |f.round (s.1 i * s.2)| ≤ 2 ^ (k - f.p) := fun i => round_le_pow ok (by omega) (hs i)
    obtain ⟨q, e, h⟩ := ih (fun i => f.round (p i + f.round (s.1 i * s.2))) (fun i => no_step ok hk (hp i) (d2 i))
      (fun s' h' => hl s' (List.mem_cons_of_mem _ h'))
    refine ⟨q, ?_, h⟩
    rw [← e]
    change moveLoop f.arith (f.arith.vAdd (embV p) (f.arith.vMul (embV s.1) (.fin s.2))) _ = _
    congr 1
    funext i
    change f.arith.add (.fin (p i)) (f.arith.rnd (s.1 i * s.2)) = _
    rw [d1]
    exact rnd_fin ok (j := k + 1) (by omega) hk' ((abs_add_le _ _).trans (by rw [dd]; linarith [hp i, d2 i]))

lemma qexp_mono {x y : ℝ} (h0 : x ≠ 0) (h : |x| ≤ |y|) : f.qexp x ≤ f.qexp y := by
  unfold qexp
  have := Int.log_mono_right (b := 2) (abs_pos.mpr h0) h
  exact max_le_max (by omega) le_rfl

lemma stored_qgrid {x : ℝ} (h : Storable f x) : OnGrid (f.qexp x) x := by
  have := round_def f x
  rw [stored_round h] at this
  exact ⟨_, this⟩

lemma abs_lt_qexp (x : ℝ) : |x| < 2 ^ (f.qexp x + f.p) := by
  refine (Int.lt_zpow_succ_log_self (b := 2) (by norm_num) |x|).trans_le ?_
  push_cast
  refine zpow_le_zpow_right₀ (by norm_num) ?_
  have : Int.log 2 |x| - ((f.p : ℤ) - 1) ≤ f.qexp x := le_max_left _ _
  omega

lemma sterbenz {x y : ℝ} (hx : Storable f x) (hy : Storable f y) (h1 : |x - y| ≤ |x|) (h2 : |x - y| ≤ |y|) : Storable f (x - y) := by
  have main : ∀ {x y : ℝ}, Storable f x → Storable f y → |x - y| ≤ |y| → |y| ≤ |x| → Storable f (x - y) := by
    intro x y hx hy h2 h
    rcases eq_or_ne y 0 with rfl | y0
    · rw [sub_zero]; exact hx
    have gx : OnGrid (f.qexp y) x := by
      obtain ⟨z, hz⟩ := stored_qgrid hx
      have := onGrid_of_le (qexp_mono (f := f) y0 h) z
      rwa [← hz] at this
    refine stored_iff.mpr ⟨round_onGrid (emin_le_qexp y) (gx.sub (stored_qgrid hy)) (h2.trans_lt (abs_lt_qexp y)), h2.trans_lt (stored_iff.mp hy).2⟩
  rcases le_total (|y|) (|x|) with h | h
  · exact main hx hy h2 h
  · have := main hy hx (by rw [abs_sub_comm]; exact h1) h
    obtain ⟨a, b⟩ := stored_iff.mp this
    rw [show x - y = -(y - x) by ring]
    exact stored_iff.mpr ⟨by rw [round_neg, a], by rw [abs_neg]; exact b⟩

/-- **C115 (nearby vectors).** If corresponding coefficients are within a factor of two of each other, their difference is exact, and adding it
back gives exactly the first vector. -/
theorem C115_nearby (a b : Fin n → ℝ) (ha : ∀ i, Storable f (a i)) (hb : ∀ i, Storable f (b i))
    (h : ∀ i, |a i - b i| ≤ |a i| ∧ |a i - b i| ≤ |b i|) :
    f.arith.vSub (embV a) (embV b) = embV (a - b) ∧ f.arith.vAdd (embV b) (f.arith.vSub (embV a) (embV b)) = embV a := by
  have e : f.arith.vSub (embV a) (embV b) = embV (a - b) := by
    funext i
    change f.arith.rnd (a i + -b i) = .fin (a i - b i)
    rw [← sub_eq_add_neg]
    exact sterbenz (ha i) (hb i) (h i).1 (h i).2
  refine ⟨e, ?_⟩
  rw [e]
  funext i
  change f.arith.rnd (b i + (a i - b i)) = .fin (a i)
  rw [add_sub_cancel]; exact ha i

lemma rnd_neg (x : ℝ) : f.arith.rnd (-x) = (f.arith.rnd x).neg := by
  change (if 2 ^ f.emax ≤ |f.round (-x)| then XR.inf (decide (-x < 0)) else .fin (f.round (-x))) =
    (if 2 ^ f.emax ≤ |f.round x| then XR.inf (decide (x < 0)) else .fin (f.round x)).neg
  rw [round_neg, abs_neg]
  split_ifs with h
  · have x0 : x ≠ 0 := by
      rintro rfl
      rw [round_zero, abs_zero] at h
      exact absurd h (not_le.mpr (by positivity))
    change XR.inf _ = XR.inf _
    congr 1
    rcases lt_or_gt_of_ne x0 with h | h
    · simp [h, h.le]
    · simp [h, h.le]
  · rfl

lemma add_comm_neg (a b : XR) (ha : a ≠ .nan) (hb : b ≠ .nan) : f.arith.sub a b = (f.arith.sub b a).neg := by
  cases a with
  | nan => exact absurd rfl ha
  | fin x => cases b with
    | nan => exact absurd rfl hb
    | fin y =>
      change f.arith.rnd (x + -y) = (f.arith.rnd (y + -x)).neg
      rw [← rnd_neg]; congr 1; ring
    | inf c => cases c <;> rfl
  | inf c => cases b with
    | nan => exact absurd rfl hb
    | fin y => cases c <;> rfl
    | inf d => cases c <;> cases d <;> rfl

lemma mul_comm_fin (x y : ℝ) : f.arith.mul (.fin x) (.fin y) = f.arith.mul (.fin y) (.fin x) := by
  change f.arith.rnd _ = f.arith.rnd _; rw [mul_comm]

lemma mul_ne_nan (x y : ℝ) : f.arith.mul (.fin x) (.fin y) ≠ .nan := f.arith.rnd_ne_nan _

/-- **C115 (cross product: exact antisymmetry).** Also if it overflows. -/
theorem C115_cross_antisymmetric (a b : V3) : f.arith.crossV (emb3 a) (emb3 b) = (f.arith.crossV (emb3 b) (emb3 a)).neg := by
  have : ∀ p q r s : ℝ, f.arith.sub (f.arith.mul (.fin p) (.fin q)) (f.arith.mul (.fin r) (.fin s)) =
      (f.arith.sub (f.arith.mul (.fin s) (.fin r)) (f.arith.mul (.fin q) (.fin p))).neg := fun p q r s => by
    rw [add_comm_neg _ _ (mul_ne_nan _ _) (mul_ne_nan _ _), mul_comm_fin p, mul_comm_fin r]
  unfold XArith.crossV XV3.neg
  rw [XV3.mk.injEq]
  exact ⟨this _ _ _ _, this _ _ _ _, this _ _ _ _⟩

lemma diff_step (hf : f.Ok) {p q r s B : ℝ} (hB : |p * q| + |r * s| ≤ B) (hB2 : B ≤ 2 ^ (f.emax - 3)) :
    ∃ w, f.arith.sub (f.arith.mul (.fin p) (.fin q)) (f.arith.mul (.fin r) (.fin s)) = .fin w ∧
      |w - (p * q - r * s)| ≤ 201 / 100 * (f.uu * B + f.eta) := by
  have u0 := uu_pos (f := f)
  have u1 := uu_le hf
  have e0 := eta_pos (f := f)
  have e1 : f.eta ≤ 1 / 2 := by
    have := eta_le_sq hf
    have : f.uu ^ 2 ≤ 1 := pow_le_one₀ u0.le (by linarith)
    linarith
  have P : (1 : ℝ) ≤ 2 ^ (f.emax - 3) := one_le_zpow₀ (by norm_num) (by have := hf.emax; omega)
  have big : (2 : ℝ) ^ (f.emax - 1) = 4 * 2 ^ (f.emax - 3) := by
    rw [show f.emax - 1 = 2 + (f.emax - 3) by ring, zpow_add₀ (by norm_num)]; norm_num
  have x0 := abs_nonneg (p * q)
  have y0 := abs_nonneg (r * s)
  have f1 := fin_of hf (x := p * q) (by linarith)
  have f2 := fin_of hf (x := r * s) (by linarith)
  have r1 := err hf (p * q)
  have r2 := err hf (r * s)
  have B0 : 0 ≤ B := by linarith
  have uB : f.uu * B ≤ 1 / 256 * B := mul_le_mul_of_nonneg_right u1 B0
  have uS : f.uu * |p * q| + f.uu * |r * s| ≤ f.uu * B := by rw [← mul_add]; exact mul_le_mul_of_nonneg_left hB u0.le
  have d1 : |f.round (p * q) + -f.round (r * s) - (p * q - r * s)| ≤ f.uu * B + 2 * f.eta := by
    have := abs_sub (f.round (p * q) - p * q) (f.round (r * s) - r * s)
    rw [show f.round (p * q) - p * q - (f.round (r * s) - r * s) = f.round (p * q) + -f.round (r * s) - (p * q - r * s) by ring] at this
    linarith
  have d2 : |p * q - r * s| ≤ B := (abs_sub _ _).trans hB
  have d3 : |f.round (p * q) + -f.round (r * s)| ≤ B + (f.uu * B + 2 * f.eta) := by
    have := abs_add_le (f.round (p * q) + -f.round (r * s) - (p * q - r * s)) (p * q - r * s)
    rw [sub_add_cancel] at this; linarith
  have g : OnGrid f.emin (f.round (p * q) + -f.round (r * s)) := (round_grid _).add (round_grid _).neg
  have d4 := round_err_grid hf g
  refine ⟨f.round (f.round (p * q) + -f.round (r * s)), ?_, ?_⟩
  · change f.arith.add (f.arith.rnd (p * q)) (f.arith.rnd (r * s)).neg = _
    rw [f1, f2]
    exact fin_of hf (by linarith)
  · have := abs_add_le (f.round (f.round (p * q) + -f.round (r * s)) - (f.round (p * q) + -f.round (r * s))) (f.round (p * q) + -f.round (r * s) - (p * q - r * s))
    rw [sub_add_sub_cancel] at this
    have k := mul_le_mul_of_nonneg_left d3 u0.le
    have k1 : f.uu * (f.uu * B) ≤ 1 / 256 * (f.uu * B) := mul_le_mul_of_nonneg_right u1 (by positivity)
    have k2 : f.uu * f.eta ≤ 1 / 256 * f.eta := mul_le_mul_of_nonneg_right u1 e0.le
    have k3 : 0 ≤ f.uu * B := by positivity
    linarith

lemma two_products (a b c d : ℝ) {A B : ℝ} (hA : 0 ≤ A) (hB : 0 ≤ B) (h1 : a ^ 2 + c ^ 2 ≤ A ^ 2) (h2 : b ^ 2 + d ^ 2 ≤ B ^ 2) :
    |a * b| + |c * d| ≤ A * B := by
  refine abs_le_of_sq_le_sq' ?_ (by positivity) |>.2
  rw [abs_mul, abs_mul]
  have h3 : (|a| * |b| + |c| * |d|) ^ 2 ≤ (|a| ^ 2 + |c| ^ 2) * (|b| ^ 2 + |d| ^ 2) := by
    nlinarith [sq_nonneg (|a| * |d| - |c| * |b|)]
  rw [sq_abs, sq_abs, sq_abs, sq_abs] at h3
  refine h3.trans ?_
  rw [mul_pow]
  exact mul_le_mul h1 h2 (by positivity) (by positivity)

/-- **C115 (cross product: accuracy).** -/
theorem C115_cross (hf : AtLeastFloat f) (a b : V3) (h : a.norm * b.norm ≤ 2 ^ (f.emax - 3)) :
    ∃ w : V3, f.arith.crossV (emb3 a) (emb3 b) = emb3 w ∧
      |w.x - (a.cross b).x| ≤ 201 / 100 * (2⁻¹ ^ f.p * (a.norm * b.norm) + 2 ^ (f.emin - 1)) ∧
      |w.y - (a.cross b).y| ≤ 201 / 100 * (2⁻¹ ^ f.p * (a.norm * b.norm) + 2 ^ (f.emin - 1)) ∧
      |w.z - (a.cross b).z| ≤ 201 / 100 * (2⁻¹ ^ f.p * (a.norm * b.norm) + 2 ^ (f.emin - 1)) := by
  have ok := alf_ok hf
  have na : a.norm ^ 2 = a.x ^ 2 + a.y ^ 2 + a.z ^ 2 := by rw [V3.norm_sq, V3.normSq, V3.dot]; ring
  have nb : b.norm ^ 2 = b.x ^ 2 + b.y ^ 2 + b.z ^ 2 := by rw [V3.norm_sq, V3.normSq, V3.dot]; ring
  have a0 := V3.norm_nonneg a
  have b0 := V3.norm_nonneg b
  obtain ⟨x, ex, hx⟩ := diff_step ok (two_products a.y b.z a.z b.y a0 b0 (by nlinarith [sq_nonneg a.x]) (by nlinarith [sq_nonneg b.x])) h
  obtain ⟨y, ey, hy⟩ := diff_step ok (two_products a.z b.x a.x b.z a0 b0 (by nlinarith [sq_nonneg a.y]) (by nlinarith [sq_nonneg b.y])) h
  obtain ⟨z, ez, hz⟩ := diff_step ok (two_products a.x b.y a.y b.x a0 b0 (by nlinarith [sq_nonneg a.z]) (by nlinarith [sq_nonneg b.z])) h
  refine ⟨⟨x, y, z⟩, ?_, hx, hy, hz⟩
  unfold XArith.crossV emb3
  rw [XV3.mk.injEq]
  exact ⟨ex, ey, ez⟩

/-- **C115 (cross product with itself).** Exactly zero, as long as the squares do not overflow. -/
theorem C115_cross_self (hf : AtLeastFloat f) (a : V3) (h : a.norm ^ 2 ≤ 2 ^ (f.emax - 1)) : f.arith.crossV (emb3 a) (emb3 a) = emb3 0 := by
  have ok := alf_ok hf
  have na : a.norm ^ 2 = a.x ^ 2 + a.y ^ 2 + a.z ^ 2 := by rw [V3.norm_sq, V3.normSq, V3.dot]; ring
  have key : ∀ x y : ℝ, x ^ 2 + y ^ 2 ≤ 2 ^ (f.emax - 1) →
      f.arith.sub (f.arith.mul (.fin x) (.fin y)) (f.arith.mul (.fin y) (.fin x)) = .fin 0 := by
    intro x y hxy
    rw [mul_comm_fin y x]
    change f.arith.add (f.arith.rnd (x * y)) (f.arith.rnd (x * y)).neg = _
    rw [fin_of ok (x := x * y) (by rw [abs_le]; constructor <;> nlinarith [sq_nonneg (x - y), sq_nonneg (x + y), sq_nonneg x, sq_nonneg y])]
    change f.arith.rnd (f.round (x * y) + -f.round (x * y)) = _
    rw [add_neg_cancel]; exact f.arith.rnd_zero
  unfold XArith.crossV emb3
  rw [XV3.mk.injEq]
  exact ⟨key _ _ (by nlinarith [sq_nonneg a.x]), key _ _ (by nlinarith [sq_nonneg a.y]), key _ _ (by nlinarith [sq_nonneg a.z])⟩

/-- **C115 (wrenches).** A sum of wrenches is the sum of the forces and the sum of the torques, in every arithmetic. -/
theorem C115_wrench (A : XArith) (s : XWrench) (l : List XWrench) :
    (wrenchLoop A s l).force = sumLoop A s.force (l.map XWrench.force) ∧ (wrenchLoop A s l).torque = sumLoop A s.torque (l.map XWrench.torque) := by
  unfold wrenchLoop sumLoop
  induction l generalizing s with
  | nil => exact ⟨rfl, rfl⟩
  | cons w l ih => exact ih _

set_option exponentiation.threshold 3000 in
/-- **C115 (double).** At least the first `10 ^ 12` steps of `p += v * dt` are accurate. -/
theorem C115_double (p : Fin n → ℝ) (l : List ((Fin n → ℝ) × ℝ)) (hp : ∀ i, Storable double (p i)) (hn : l.length ≤ 10 ^ 12)
    (hb : ∀ i, |p i| + (l.map fun s => |s.1 i * s.2|).sum ≤ 10 ^ 307) :
    ∃ q : Fin n → ℝ, moveLoop double.arith (embV p) (l.map fun s => (embV s.1, .fin s.2)) = embV q ∧ ∀ i,
      |q i - (p i + (l.map fun s => s.1 i * s.2).sum)| ≤ (l.length + 1) * (12 / 10 ^ 17 * (|p i| + (l.map fun s => |s.1 i * s.2|).sum) + 1 / 10 ^ 322) := by
  have hn' : (l.length : ℝ) ≤ 10 ^ 12 := by exact_mod_cast hn
  have P : (10 : ℝ) ^ 307 ≤ 2 ^ (double.emax - 2) := by norm_num [double]
  obtain ⟨q, e, h⟩ := C115_move double_alf p l hp (by
    have : (l.length + 1 : ℝ) * 2⁻¹ ^ double.p ≤ (10 ^ 12 + 1) * 2⁻¹ ^ double.p := mul_le_mul_of_nonneg_right (by linarith) (by positivity)
    exact this.trans (by norm_num [double])) (fun i => (hb i).trans P)
  refine ⟨q, e, fun i => (h i).2.trans ?_⟩
  have D0 : 0 ≤ |p i| + (l.map fun s => |s.1 i * s.2|).sum := add_nonneg (abs_nonneg _) (sum_abs_nonneg (fun s : (Fin n → ℝ) × ℝ => s.1 i * s.2) l)
  obtain ⟨D, hD⟩ : ∃ D, D = |p i| + (l.map fun s => |s.1 i * s.2|).sum := ⟨_, rfl⟩
  rw [← hD] at D0 ⊢
  obtain ⟨m, hm⟩ : ∃ m : ℝ, m = l.length := ⟨_, rfl⟩
  have m0 : 0 ≤ m := by rw [hm]; positivity
  rw [← hm]
  have u1 : 102 / 100 * 2⁻¹ ^ double.p ≤ (12 / 10 ^ 17 : ℝ) := by norm_num [double]
  have e1 : 102 / 100 * 2 ^ (double.emin - 1) ≤ (1 / 10 ^ 322 : ℝ) := by norm_num [double]
  have k1 := mul_le_mul_of_nonneg_left (mul_le_mul_of_nonneg_right u1 D0) (show 0 ≤ m + 1 by linarith)
  have k2 := mul_le_mul_of_nonneg_left e1 m0
  have : (0 : ℝ) ≤ 1 / 10 ^ 322 := by positivity
  generalize (2⁻¹ : ℝ) ^ double.p = u at *
  generalize (2 : ℝ) ^ (double.emin - 1) = t at *
  generalize (1 : ℝ) / 10 ^ 322 = z at *
  linarith

/-- **C115 (float).** -/
theorem C115_float (p : Fin n → ℝ) (l : List ((Fin n → ℝ) × ℝ)) (hp : ∀ i, Storable float (p i)) (hn : l.length ≤ 10 ^ 5)
    (hb : ∀ i, |p i| + (l.map fun s => |s.1 i * s.2|).sum ≤ 10 ^ 37) :
    ∃ q : Fin n → ℝ, moveLoop float.arith (embV p) (l.map fun s => (embV s.1, .fin s.2)) = embV q ∧ ∀ i,
      |q i - (p i + (l.map fun s => s.1 i * s.2).sum)| ≤ (l.length + 1) * (61 / 10 ^ 9 * (|p i| + (l.map fun s => |s.1 i * s.2|).sum) + 1 / 10 ^ 45) := by
  have hn' : (l.length : ℝ) ≤ 10 ^ 5 := by exact_mod_cast hn
  have P : (10 : ℝ) ^ 37 ≤ 2 ^ (float.emax - 2) := by norm_num [float]
  obtain ⟨q, e, h⟩ := C115_move float_alf p l hp (by
    have : (l.length + 1 : ℝ) * 2⁻¹ ^ float.p ≤ (10 ^ 5 + 1) * 2⁻¹ ^ float.p := mul_le_mul_of_nonneg_right (by linarith) (by positivity)
    exact this.trans (by norm_num [float])) (fun i => (hb i).trans P)
  refine ⟨q, e, fun i => (h i).2.trans ?_⟩
  have D0 : 0 ≤ |p i| + (l.map fun s => |s.1 i * s.2|).sum := add_nonneg (abs_nonneg _) (sum_abs_nonneg (fun s : (Fin n → ℝ) × ℝ => s.1 i * s.2) l)
  obtain ⟨D, hD⟩ : ∃ D, D = |p i| + (l.map fun s => |s.1 i * s.2|).sum := ⟨_, rfl⟩
  rw [← hD] at D0 ⊢
  obtain ⟨m, hm⟩ : ∃ m : ℝ, m = l.length := ⟨_, rfl⟩
  have m0 : 0 ≤ m := by rw [hm]; positivity
  rw [← hm]
  have u1 : 102 / 100 * 2⁻¹ ^ float.p ≤ (61 / 10 ^ 9 : ℝ) := by norm_num [float]
  have e1 : 102 / 100 * 2 ^ (float.emin - 1) ≤ (1 / 10 ^ 45 : ℝ) := by norm_num [float]
  have k1 := mul_le_mul_of_nonneg_left (mul_le_mul_of_nonneg_right u1 D0) (show 0 ≤ m + 1 by linarith)
  have k2 := mul_le_mul_of_nonneg_left e1 m0
  have : (0 : ℝ) ≤ 1 / 10 ^ 45 := by positivity
  generalize (2⁻¹ : ℝ) ^ float.p = u at *
  generalize (2 : ℝ) ^ (float.emin - 1) = t at *
  generalize (1 : ℝ) / 10 ^ 45 = z at *
  linarith

/-- **C115 (finding in float).** A position integrated at at most `1 / 512` per step (for example 1 m/s and `dt = 0.001`) never gets
further than 32768, however long it is integrated. -/
theorem C115_stall_float (v : Fin n → ℝ) (dt : ℝ) (h : ∀ i, |v i * dt| ≤ 1 / 512) (N : ℕ) :
    ∃ q : Fin n → ℝ, moveLoop float.arith (embV 0) (List.replicate N (embV v, .fin dt)) = embV q ∧ ∀ i, |q i| ≤ 32768 := by
  obtain ⟨q, e, b⟩ := C115_stall (f := float) float_alf (k := 15) (by norm_num [float]) (by norm_num [float]) 0 (by simp)
    (List.replicate N (v, dt)) (by
      intro s hs i
      rw [List.eq_of_mem_replicate hs]
      exact (h i).trans_eq (by norm_num [float]))
  refine ⟨q, ?_, fun i => (b i).trans_eq (by norm_num)⟩
  rw [List.map_replicate] at e
  exact e

/-- The hypotheses hold for ordinary numbers: 1, 1000 and 0.5 can be stored, the speed 1 with `dt = 0.001` moves by less than `1 / 512`,
and 1000.5 and 1000 are within a factor of two. -/
theorem C115_example : Storable float 1 ∧ Storable float 1000 ∧ Storable float (1 / 2) ∧ Storable float (2001 / 2) ∧
    (∀ i : Fin 3, |(![1, 0, -1] : Fin 3 → ℝ) i * (1 / 1000)| ≤ 1 / 512) ∧
    (|(2001 / 2 : ℝ) - 1000| ≤ |(2001 / 2 : ℝ)| ∧ |(2001 / 2 : ℝ) - 1000| ≤ |(1000 : ℝ)|) ∧
    Complete (.node (.leaf 2) (.node (.leaf 0) (.leaf 1)) : SumOrder (Fin 3)) := by
  have key : ∀ z : ℤ, |(z : ℝ) * 2 ^ (-1 : ℤ)| < 2 ^ (-1 + 24 : ℤ) → Storable float (z * 2 ^ (-1 : ℤ)) := fun z hz =>
    stored_iff.mpr ⟨round_onGrid (k := -1) (by norm_num [float]) ⟨z, rfl⟩ (by simpa [float] using hz),
      hz.trans (by norm_num [float])⟩
  refine ⟨?_, ?_, ?_, ?_, ?_, by norm_num [abs_of_pos], ?_⟩
  · have := key 2 (by norm_num); norm_num at this; exact this
  · have := key 2000 (by norm_num [abs_of_pos]); norm_num at this; exact this
  · have := key 1 (by norm_num [abs_of_pos]); norm_num at this; convert this using 1
  · have := key 2001 (by norm_num [abs_of_pos]); norm_num at this; convert this using 1
  · intro i; fin_cases i <;> norm_num [abs_of_pos, abs_of_neg]
  · change [(2 : Fin 3), 0, 1].Perm [0, 1, 2]
    exact (List.Perm.swap 0 2 [1]).trans (List.Perm.cons 0 (List.Perm.swap 1 2 []))

end Format
end Kindr
