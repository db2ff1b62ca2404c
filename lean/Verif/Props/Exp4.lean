import Verif.Props.Exp3

/-!
# C109: stalled integration, `double` and `float`
-/

set_option autoImplicit false

open Classical

noncomputable section
namespace Kindr
open Spec
namespace Format
variable {f : Format}

/-- Numbers near a power of two are rounded to it. -/
lemma round_near_pow (hf : f.Ok) {j : ℤ} (hj : f.emin + f.p ≤ j) {x : ℝ} (h : |x - 2 ^ j| ≤ 2 ^ j * f.uu / 4) : f.round x = 2 ^ j := by
  have hp := hf.p
  have u0 := uu_pos (f := f)
  have u1 : f.uu ≤ 1 := by unfold uu; exact pow_le_one₀ (by norm_num) (by norm_num)
  have P0 : (0 : ℝ) < 2 ^ j := by positivity
  obtain ⟨h1, h2⟩ := abs_le.mp h
  have k : 2 ^ j * f.uu ≤ 2 ^ j * 1 := mul_le_mul_of_nonneg_left u1 P0.le
  have half : (2 : ℝ) ^ (j - 1) = 2 ^ j / 2 := by rw [zpow_sub₀ (by norm_num), zpow_one]
  have dbl : (2 : ℝ) ^ (j + 1) = 2 ^ j * 2 := by rw [zpow_add₀ (by norm_num), zpow_one]
  have x0 : 0 < x := by linarith
  have l1 : j - 1 ≤ Int.log 2 |x| := by
    rw [abs_of_pos x0, ← Int.zpow_le_iff_le_log (by norm_num) x0]; push_cast; rw [half]; linarith
  have l2 : Int.log 2 |x| < j + 1 := by
    rw [abs_of_pos x0, ← Int.lt_zpow_iff_log_lt (by norm_num) x0]; push_cast; rw [dbl]; linarith
  obtain ⟨q, hq⟩ : ∃ q, q = f.qexp x := ⟨_, rfl⟩
  have q1 : j - f.p ≤ q := by rw [hq, qexp]; omega
  have q2 : q ≤ j := by rw [hq, qexp]; omega
  rw [round_def, ← hq]
  obtain ⟨n, hn⟩ : ∃ n : ℕ, (n : ℤ) = j - q := ⟨(j - q).toNat, by omega⟩
  have e : (2 : ℝ) ^ j = ((2 ^ n : ℤ) : ℝ) * 2 ^ q := by
    push_cast; rw [← zpow_natCast, hn, ← zpow_add₀ (by norm_num)]; congr 1; ring
  have : roundTiesEven (x / 2 ^ q) = (2 ^ n : ℤ) := by
    apply roundTiesEven_of_near
    have Q0 : (0 : ℝ) < 2 ^ q := by positivity
    have : x / 2 ^ q - ((2 ^ n : ℤ) : ℝ) = (x - 2 ^ j) / 2 ^ q := by rw [e]; field_simp
    rw [this, abs_div, abs_of_pos Q0, div_lt_iff₀ Q0]
    have : (2 : ℝ) ^ j * f.uu ≤ 2 ^ q := by
      unfold uu
      rw [inv_pow, ← zpow_natCast, ← zpow_neg, ← zpow_add₀ (by norm_num)]
      exact zpow_le_zpow_right₀ (by norm_num) (by omega)
    linarith
  rw [this, ← e]

lemma rnd_half (hf : AtLeastFloat f) {x : ℝ} (h : |x - 1 / 2| ≤ f.uu / 8) : f.arith.rnd x = .fin (1 / 2) := by
  have hs := alf_small hf
  have hu := alf_uu hf
  obtain ⟨h1, h2⟩ := abs_le.mp h
  rw [small_fin hf (by rw [abs_le]; constructor <;> linarith), round_near_pow (alf_ok hf) (j := -1) (by have := hf.emin; omega)]
  · norm_num
  · norm_num at h ⊢; linarith

lemma rnd_one (hf : AtLeastFloat f) {x : ℝ} (h : |x - 1| ≤ f.uu / 4) : f.arith.rnd x = .fin 1 := by
  have hs := alf_small hf
  have hu := alf_uu hf
  obtain ⟨h1, h2⟩ := abs_le.mp h
  rw [small_fin hf (by rw [abs_le]; constructor <;> linarith), round_near_pow (alf_ok hf) (j := 0) (by have := hf.emin; omega)]
  · norm_num
  · norm_num at h ⊢; linarith

/-- The quaternion of the rotation by 120 degrees about the space diagonal. -/
def diag : Quat := ⟨1 / 2, 1 / 2, 1 / 2, 1 / 2⟩

lemma fix_diag (hf : AtLeastFloat f) : f.arith.fix .quat (embQ diag) = embQ diag := by
  have ok := alf_ok hf
  have hu := alf_uu hf
  have q : f.arith.rnd (1 / 4) = .fin (1 / 4) := by
    have := rnd_pow ok (j := -2) (by have := hf.emin; omega) (by have := hf.emax; omega)
    norm_num at this ⊢; exact this
  have t : f.arith.rnd (3 / 4) = .fin (3 / 4) := by
    rw [small_fin hf (by rw [abs_of_pos] <;> norm_num), round_float ok (x := 3 / 4) ⟨3, -2, by
      have := Nat.pow_le_pow_right (n := 2) (by norm_num) hf.p
      have : ((2 : ℤ) ^ 24) ≤ 2 ^ f.p := by exact_mod_cast this
      rw [show |(3 : ℤ)| = 3 from rfl]; norm_num at this; linarith, by norm_num⟩ ?_]
    rw [abs_of_pos (by norm_num)]
    calc (2 : ℝ) ^ (f.emin + (f.p - 1)) ≤ 2 ^ (-1 : ℤ) := zpow_le_zpow_right₀ (by norm_num) (by have := hf.emin; omega)
      _ ≤ _ := by norm_num
  have h := rnd_half hf (x := 1 / 2) (by simp; linarith)
  have o := rnd_one hf (x := 1) (by simp; linarith)
  have m : f.arith.mul (.fin (1 / 2)) (.fin (1 / 2)) = .fin (1 / 4) := by
    change f.arith.rnd _ = _; rw [← q]; norm_num
  have n2 : f.arith.add (f.arith.add (f.arith.add (.fin (1 / 4)) (.fin (1 / 4))) (.fin (1 / 4))) (.fin (1 / 4)) = .fin 1 := by
    have a1 : f.arith.add (.fin (1 / 4)) (.fin (1 / 4)) = .fin (1 / 2) := by change f.arith.rnd _ = _; rw [← h]; norm_num
    have a2 : f.arith.add (.fin (1 / 2)) (.fin (1 / 4)) = .fin (3 / 4) := by change f.arith.rnd _ = _; rw [← t]; norm_num
    have a3 : f.arith.add (.fin (3 / 4)) (.fin (1 / 4)) = .fin 1 := by change f.arith.rnd _ = _; rw [← o]; norm_num
    rw [a1, a2, a3]
  have s : f.arith.sqrt (.fin 1) = .fin 1 := by
    change (if (1 : ℝ) < 0 then _ else f.arith.rnd (Real.sqrt 1)) = _
    rw [if_neg (by norm_num), Real.sqrt_one, o]
  have d : f.arith.div (.fin (1 / 2)) (.fin 1) = .fin (1 / 2) := by
    change (if (1 : ℝ) = 0 then _ else f.arith.rnd _) = _
    rw [if_neg (by norm_num), div_one, h]
  rw [fix_quat]
  simp only [XArith.quatFix, XArith.quatNorm, embQ, diag, m, n2, s, d]
  rw [if_pos (show XR.lt (.fin 0) (.fin 1) from (by change (0 : ℝ) < 1; norm_num))]

/-- The scalar part of the exponential of a tiny vector is one. -/
lemma exp_w_one (h : Standard f) (P : Prec) {r : V3} (hr : r.norm ≤ f.uu / 8) : (f.arith.quatOfRv P (emb3 r)).w = .fin 1 := by
  have hf := h.toAtLeastFloat
  have hs := alf_small hf
  have hu := alf_uu hf
  have N0 := r.norm_nonneg
  have hη : f.eta ≤ f.uu ^ 2 / 100 := by
    have := (std_tiny h).2
    have k : f.uu ^ 4 ≤ f.uu ^ 2 * 1 := by
      rw [show f.uu ^ 4 = f.uu ^ 2 * f.uu ^ 2 by ring]
      exact mul_le_mul_of_nonneg_left (pow_le_one₀ hu.1.le (by linarith)) (sq_nonneg _)
    norm_num at this
    linarith [sq_nonneg f.uu]
  obtain ⟨n, en, n0, bn⟩ := norm_any h (v := r) (by have := hs.1; norm_num at this ⊢; linarith)
  have hh := half_err hf N0 bn hη
  have u2 : f.uu ^ 2 ≤ 1 / 10 ^ 6 * f.uu := by rw [sq]; exact mul_le_mul_of_nonneg_right hs.1 hu.1.le
  have uN : f.uu * r.norm ≤ 1 / 10 ^ 6 * r.norm := mul_le_mul_of_nonneg_right hs.1 N0
  have n1 : n ≤ f.uu := by have := (abs_le.mp bn).2; linarith
  obtain ⟨hd, hhd⟩ : ∃ x, x = f.round (n * (1 / 2)) := ⟨_, rfl⟩
  rw [← hhd] at hh
  have eh : f.arith.mul (.fin n) (.fin (1 / 2)) = .fin hd := by
    rw [hhd]; exact small_fin hf (by rw [abs_of_nonneg (by linarith)]; linarith)
  have hb : |hd| ≤ f.uu := by
    obtain ⟨a, b⟩ := abs_le.mp hh
    rw [abs_le]; constructor <;> linarith
  change f.arith.cos (f.arith.mul (f.arith.norm3 (emb3 r)) (.fin (1 / 2))) = _
  rw [en, eh]
  refine rnd_one hf ?_
  have c1 := Real.one_sub_sq_div_two_le_cos (x := hd)
  have c2 := Real.cos_le_one hd
  have c3 : hd ^ 2 ≤ f.uu ^ 2 := by rw [← sq_abs]; exact pow_le_pow_left₀ (abs_nonneg _) hb 2
  rw [abs_le]; constructor <;> linarith

/-- One step at the rotation `diag` with a tiny increment changes nothing. -/
lemma stall_step (h : Standard f) {P : Prec} (hP : P.eps = 2 * f.uu) {w : V3} (hw : w.norm ≤ f.uu / 8) :
    f.arith.fix .quat (f.arith.boxPlus P .quat (embQ diag) (emb3 w)) = embQ diag := by
  have hf := h.toAtLeastFloat
  have hs := alf_small hf
  have hu := alf_uu hf
  have he := alf_eta hf
  have hr := rn (alf_ok hf)
  have N0 := w.norm_nonneg
  obtain ⟨e, e1, -, ex, ey, ez⟩ := exp_close h hP (r := w) (by have := hs.1; norm_num at this ⊢; linarith)
  have e0 := exp_w_one h P hw
  rw [e1] at e0
  have ew : e.w = 1 := by simpa [embQ] using e0
  obtain ⟨wx, wy, wz⟩ := abs_comp_le w
  have sl : |Real.sin (w.norm / 2) / w.norm| ≤ 1 / 2 := by
    rcases eq_or_lt_of_le N0 with z | N1
    · rw [← z]; simp
    · rw [abs_div, abs_of_pos N1, div_le_iff₀ N1]
      have := Real.abs_sin_le_abs (x := w.norm / 2)
      rw [abs_of_pos (by linarith : 0 < w.norm / 2)] at this
      linarith
  have comp : ∀ {a x : ℝ}, |x| ≤ w.norm → |a - Real.sin (w.norm / 2) / w.norm * x| ≤ 7 * f.uu * |x| + f.eta → |a| ≤ f.uu / 15 := fun {a x} hx ha => by
    have k1 : |Real.sin (w.norm / 2) / w.norm * x| ≤ 1 / 2 * w.norm := by
      rw [abs_mul]; exact mul_le_mul sl hx (abs_nonneg _) (by norm_num)
    have k2 : 7 * f.uu * |x| ≤ 7 / 10 ^ 6 * |x| := mul_le_mul_of_nonneg_right (by linarith [hs.1]) (abs_nonneg _)
    have k3 := abs_add_le (a - Real.sin (w.norm / 2) / w.norm * x) (Real.sin (w.norm / 2) / w.norm * x)
    rw [sub_add_cancel] at k3
    have := hs.2
    linarith
  have bx := comp wx ex
  have bY := comp wy ey
  have bz := comp wz ez
  have half : ∀ {x : ℝ}, |x| ≤ f.uu / 15 → ∃ t, f.arith.mul (.fin x) (.fin (1 / 2)) = .fin t ∧ |t| ≤ f.uu / 8 := fun {x} hx => by
    refine ⟨f.round (x * (1 / 2)), small_fin hf ?_, ?_⟩
    · rw [abs_mul, abs_of_pos (by norm_num : (0 : ℝ) < 1 / 2)]; linarith
    · have r1 := hr.err (x * (1 / 2))
      have k : |x * (1 / 2)| ≤ f.uu / 30 := by rw [abs_mul, abs_of_pos (by norm_num : (0 : ℝ) < 1 / 2)]; linarith
      have k2 : f.uu * |x * (1 / 2)| ≤ 1 * |x * (1 / 2)| := mul_le_mul_of_nonneg_right (by linarith) (abs_nonneg _)
      have k3 := abs_add_le (f.round (x * (1 / 2)) - x * (1 / 2)) (x * (1 / 2))
      rw [sub_add_cancel] at k3
      have := hs.2
      linarith
  obtain ⟨tx, mx, qx⟩ := half bx
  obtain ⟨ty, my, qy⟩ := half bY
  obtain ⟨tz, mz, qz⟩ := half bz
  have one : f.arith.mul (.fin 1) (.fin (1 / 2)) = .fin (1 / 2) := by
    change f.arith.rnd _ = _; rw [one_mul]; exact rnd_half hf (by simp; linarith)
  have ad : ∀ {t : ℝ}, |t| ≤ f.uu / 8 → f.arith.add (.fin (1 / 2)) (.fin t) = .fin (1 / 2) := fun {t} ht => rnd_half hf (by rwa [add_sub_cancel_left])
  have sb : ∀ {t : ℝ}, |t| ≤ f.uu / 8 → f.arith.sub (.fin (1 / 2)) (.fin t) = .fin (1 / 2) := fun {t} ht => rnd_half hf (by rwa [add_sub_cancel_left, abs_neg])
  have key : f.arith.boxPlus P .quat (embQ diag) (emb3 w) = embQ diag := by
    change f.arith.quatMul (f.arith.quatOfRv P (emb3 w)) (embQ diag) = _
    rw [e1]
    simp only [XArith.quatMul, embQ, diag, ew, one, mx, my, mz, ad qx, ad qy, ad qz, sb qx, sb qy, sb qz]
  rw [key, fix_diag hf]

/-- **C109 (d).** The loop can stall: at the rotation by 120 degrees about the space diagonal, increments shorter than an eighth of a rounding
(`1.3e-17` rad in `double`, `7e-9` rad in `float`) change nothing, however many there are; their total angle may be arbitrarily large. -/
theorem C109_stall (h : Standard f) (P : Prec) (hP : P.eps = 2 * 2⁻¹ ^ f.p) :
    Valid .quat diag ∧
    (∀ l : List V3, (∀ w ∈ l, w.norm ≤ 2⁻¹ ^ f.p / 8) → boxPlusFixLoop f.arith P (embQ diag) (l.map emb3) = embQ diag) ∧
    ∀ A : ℝ, ∃ l : List V3, (∀ w ∈ l, w.norm ≤ 2⁻¹ ^ f.p / 8) ∧ A ≤ totalAngle l := by
  refine ⟨by norm_num [Valid, diag], fun l => ?_, fun A => ?_⟩
  · induction l with
    | nil => intro _; rfl
    | cons w l ih =>
      intro hl
      have s := stall_step h hP (hl w (by simp))
      have i := ih (fun w hw => hl w (by simp [hw]))
      rw [List.map_cons]
      change boxPlusFixLoop f.arith P (f.arith.fix .quat (f.arith.boxPlus P .quat (embQ diag) (emb3 w))) _ = _
      rw [s, i]
  · have u0 := uu_pos (f := f)
    obtain ⟨n, hn⟩ := exists_nat_ge (A / (f.uu / 8))
    have nw : (⟨f.uu / 8, 0, 0⟩ : V3).norm = f.uu / 8 := by
      rw [V3.norm, V3.normSq, V3.dot]; simp only [mul_zero, add_zero]; exact Real.sqrt_mul_self (by linarith)
    refine ⟨List.replicate n ⟨f.uu / 8, 0, 0⟩, fun w hw => ?_, ?_⟩
    · rw [List.eq_of_mem_replicate hw, nw]; rfl
    · rw [totalAngle, List.map_replicate, List.sum_replicate, nw, nsmul_eq_mul]
      rwa [div_le_iff₀ (by linarith)] at hn

/-! ## `double` and `float` -/

lemma double_P : Prec.double.eps = 2 * 2⁻¹ ^ Format.double.p := by norm_num [Prec.double, Format.double]
lemma float_P : Prec.float.eps = 2 * 2⁻¹ ^ Format.float.p := by norm_num [Prec.float, Format.float]

set_option exponentiation.threshold 3000 in
/-- `double`: the exponential map and a million small steps. -/
theorem C109_double :
    (∀ r : V3, r.norm ≤ 2 ^ 20 → ∃ q, Format.double.arith.exponentialMap .double .quat (emb3 r) = embQ q ∧
      ‖toH q - expH r‖ ≤ (1 + r.norm) / 10 ^ 15 ∧ |q.x - (expH r).imI| ≤ |r.x| / 10 ^ 15 + 1 / 10 ^ 323) ∧
    ∀ (q : Rep .quat) (l : List V3), Valid .quat q → l ≠ [] → (∀ w ∈ l, w.norm ≤ 1) → l.length ≤ 10 ^ 6 → ∀ v : V3, 1 / 10 ^ 307 ≤ v.norm → v.norm ≤ 10 ^ 307 →
      ∃ w, Format.double.arith.rotate .double .quat (boxPlusFixLoop Format.double.arith .double (embQ q) (l.map emb3)) (emb3 v) = emb3 w ∧
        (w - l.foldl (fun x r => act .rv (⟨r⟩ : RotVec) x) (act .quat q v)).norm ≤ 1 / 10 ^ 7 * v.norm ∧ |w.norm - v.norm| ≤ 1 / 10 ^ 14 * v.norm := by
  constructor
  · intro r hr
    obtain ⟨q, h1, h2, h3, -⟩ := C109_exp double_std .double double_P r hr
    have := r.norm_nonneg
    have := abs_nonneg r.x
    refine ⟨q, h1, h2.trans ?_, h3.trans ?_⟩
    · norm_num [Format.double]; linarith
    · have : (2 : ℝ) ^ (Format.double.emin - 1) ≤ 1 / 10 ^ 323 := by norm_num [Format.double]
      have : 7 * 2⁻¹ ^ Format.double.p * |r.x| ≤ |r.x| / 10 ^ 15 := by norm_num [Format.double]; linarith
      linarith
  · intro q l hq hne hl hn v h1 h2
    have hb : totalAngle l ≤ l.length := by
      have := List.sum_le_card_nsmul (l.map V3.norm) 1 (by simp only [List.mem_map, forall_exists_index, and_imp, forall_apply_eq_imp_iff₂]; exact hl)
      simpa [totalAngle] using this
    have hn' : (l.length : ℝ) ≤ 10 ^ 6 := by exact_mod_cast hn
    have v0 := v.norm_nonneg
    obtain ⟨w, w1, w2, w3⟩ := C109_rotate double_std .double double_P q l hq (fun w hw => (hl w hw).trans (by norm_num)) hne
      (by norm_num [Format.double]; linarith) v (le_trans (by norm_num [Format.double]) h1) (h2.trans (by norm_num [Format.double]))
    refine ⟨w, w1, w2.trans (mul_le_mul_of_nonneg_right ?_ v0), w3.trans (mul_le_mul_of_nonneg_right (by norm_num [Format.double]) v0)⟩
    norm_num [Format.double]; linarith

/-- `float`: the exponential map and fifty small steps. -/
theorem C109_float :
    (∀ r : V3, r.norm ≤ 2 ^ 20 → ∃ q, Format.float.arith.exponentialMap .float .quat (emb3 r) = embQ q ∧
      ‖toH q - expH r‖ ≤ (1 + r.norm) / 10 ^ 6 ∧ |q.x - (expH r).imI| ≤ |r.x| / 10 ^ 6 + 1 / 10 ^ 45) ∧
    ∀ (q : Rep .quat) (l : List V3), Valid .quat q → l ≠ [] → (∀ w ∈ l, w.norm ≤ 1) → l.length ≤ 50 → ∀ v : V3, 1 / 10 ^ 37 ≤ v.norm → v.norm ≤ 10 ^ 37 →
      ∃ w, Format.float.arith.rotate .float .quat (boxPlusFixLoop Format.float.arith .float (embQ q) (l.map emb3)) (emb3 v) = emb3 w ∧
        (w - l.foldl (fun x r => act .rv (⟨r⟩ : RotVec) x) (act .quat q v)).norm ≤ 1 / 500 * v.norm ∧ |w.norm - v.norm| ≤ 1 / 10 ^ 5 * v.norm := by
  constructor
  · intro r hr
    obtain ⟨q, h1, h2, h3, -⟩ := C109_exp float_std .float float_P r hr
    have := r.norm_nonneg
    have := abs_nonneg r.x
    refine ⟨q, h1, h2.trans ?_, h3.trans ?_⟩
    · norm_num [Format.float]; linarith
    · have : (2 : ℝ) ^ (Format.float.emin - 1) ≤ 1 / 10 ^ 45 := by norm_num [Format.float]
      have : 7 * 2⁻¹ ^ Format.float.p * |r.x| ≤ |r.x| / 10 ^ 6 := by norm_num [Format.float]; linarith
      linarith
  · intro q l hq hne hl hn v h1 h2
    have hb : totalAngle l ≤ l.length := by
      have := List.sum_le_card_nsmul (l.map V3.norm) 1 (by simp only [List.mem_map, forall_exists_index, and_imp, forall_apply_eq_imp_iff₂]; exact hl)
      simpa [totalAngle] using this
    have hn' : (l.length : ℝ) ≤ 50 := by exact_mod_cast hn
    have v0 := v.norm_nonneg
    obtain ⟨w, w1, w2, w3⟩ := C109_rotate float_std .float float_P q l hq (fun w hw => (hl w hw).trans (by norm_num)) hne
      (by norm_num [Format.float]; linarith) v (le_trans (by norm_num [Format.float]) h1) (h2.trans (by norm_num [Format.float]))
    refine ⟨w, w1, w2.trans (mul_le_mul_of_nonneg_right ?_ v0), w3.trans (mul_le_mul_of_nonneg_right (by norm_num [Format.float]) v0)⟩
    norm_num [Format.float]; linarith

lemma norm_x {a : ℝ} (h : 0 ≤ a) : (⟨a, 0, 0⟩ : V3).norm = a := by
  rw [V3.norm, V3.normSq, V3.dot]; simp only [mul_zero, add_zero]; exact Real.sqrt_mul_self h

set_option exponentiation.threshold 3000 in
/-- An increment whose squared length underflows to zero in `double` is nevertheless represented: the vector part of its exponential is half the
increment up to a relative error of `1e-14`. -/
theorem C109_tiny_increment : ∃ q, Format.double.arith.exponentialMap .double .quat (emb3 ⟨1 / 10 ^ 170, 0, 0⟩) = embQ q ∧
    Format.double.arith.normSq3 (emb3 ⟨1 / 10 ^ 170, 0, 0⟩) = .fin 0 ∧ 49 / 100 / 10 ^ 170 < q.x ∧ q.x < 51 / 100 / 10 ^ 170 := by
  have n : (⟨1 / 10 ^ 170, 0, 0⟩ : V3).norm = 1 / 10 ^ 170 := norm_x (by positivity)
  obtain ⟨q, h1, h2, h3⟩ := C109_double.1 ⟨1 / 10 ^ 170, 0, 0⟩ (by rw [n]; norm_num)
  refine ⟨q, h1, ?_, ?_⟩
  · have z : Format.double.arith.rnd ((1 / 10 ^ 170) * (1 / 10 ^ 170)) = .fin 0 := (rnd_eq_zero (alf_ok double_alf)).mpr (by
      rw [abs_of_pos (by positivity)]; norm_num [Format.double])
    have z0 := Format.double.arith.rnd_zero
    simp only [XArith.normSq3, emb3, XArith.mul, z, mul_zero, z0, XArith.add, add_zero]
  · have e : (expH ⟨1 / 10 ^ 170, 0, 0⟩).imI = Real.sin (1 / 10 ^ 170 / 2) := by
      simp only [expH, n]; field_simp
    rw [e] at h3
    have s1 := Real.sin_le (x := 1 / 10 ^ 170 / 2) (by positivity)
    have s2 := Real.sin_gt_sub_cube (x := 1 / 10 ^ 170 / 2) (by positivity)
    obtain ⟨a1, a2⟩ := abs_le.mp h3
    rw [abs_of_pos (by positivity)] at a1 a2
    constructor
    · refine lt_of_lt_of_le ?_ (by linarith : Real.sin (1 / 10 ^ 170 / 2) - (1 / 10 ^ 170 / 10 ^ 15 + 1 / 10 ^ 323) ≤ q.x)
      refine lt_of_lt_of_le ?_ (sub_le_sub_right s2.le _)
      norm_num
    · refine lt_of_le_of_lt (by linarith : q.x ≤ 1 / 10 ^ 170 / 2 + (1 / 10 ^ 170 / 10 ^ 15 + 1 / 10 ^ 323)) ?_
      norm_num

/-- The hypotheses are met: formats, start value, increments and the number of steps. -/
example : Standard Format.double ∧ Standard Format.float ∧ Moderate ⟨3, 0, 4, 0⟩ ∧ Valid .quat (⟨3 / 5, 0, 4 / 5, 0⟩ : Quat) ∧
    (⟨1 / 10 ^ 170, 0, 0⟩ : V3).norm ≤ 2⁻¹ ^ Format.double.p / 8 ∧
    (36 * ([⟨1, 0, 0⟩, ⟨1 / 2, 0, 0⟩] : List V3).length + 18 * totalAngle [⟨1, 0, 0⟩, ⟨1 / 2, 0, 0⟩] + 6) * 2⁻¹ ^ Format.float.p ≤ 1 / 300 := by
  refine ⟨double_std, float_std, ?_, ?_, ?_, ?_⟩
  · have : Quat.norm ⟨3, 0, 4, 0⟩ = 5 := by
      rw [Quat.norm, Quat.normSq]; norm_num
      rw [show (25 : ℝ) = 5 ^ 2 by norm_num]; exact Real.sqrt_sq (by norm_num)
    rw [Moderate, this]; norm_num
  · norm_num [Valid]
  · rw [norm_x (by positivity)]; norm_num [Format.double]
  · rw [totalAngle, List.map_cons, List.map_cons, List.map_nil, norm_x (by norm_num), norm_x (by norm_num)]; norm_num [Format.float]

end Format
end Kindr
