import Verif.Props.Under2
import Verif.Spec.Under

/-!
# C108: loops over quaternions in IEEE arithmetic
-/

set_option autoImplicit false

open Classical

noncomputable section
namespace Kindr
open Spec
namespace Format
variable {f : Format}

lemma double_alf : AtLeastFloat Format.double := ⟨by norm_num [Format.double], by norm_num [Format.double], by norm_num [Format.double]⟩
lemma float_alf : AtLeastFloat Format.float := ⟨by norm_num [Format.float], by norm_num [Format.float], by norm_num [Format.float]⟩

lemma alf_ok (h : AtLeastFloat f) : f.Ok := ⟨by have := h.p; omega, by have := h.emin; omega, by have := h.emax; omega⟩

lemma alf_uu (h : AtLeastFloat f) : 0 < f.uu ∧ f.uu ≤ 1 / 2 ^ 24 := by
  refine ⟨uu_pos, ?_⟩
  unfold uu
  calc (2⁻¹ : ℝ) ^ f.p ≤ 2⁻¹ ^ 24 := pow_le_pow_of_le_one (by norm_num) (by norm_num) h.p
    _ = _ := by norm_num

lemma alf_eta (h : AtLeastFloat f) : 0 < f.eta ∧ f.eta ≤ f.uu / 2 ^ 100 := by
  refine ⟨eta_pos, ?_⟩
  unfold eta uu
  rw [inv_pow, ← zpow_natCast, ← zpow_neg, ← zpow_natCast (2 : ℝ) 100, ← zpow_sub₀ (by norm_num)]
  refine zpow_le_zpow_right₀ (by norm_num) ?_
  have := h.emin; have := h.p; push_cast; omega

lemma alf_pow (h : AtLeastFloat f) : (2 : ℝ) ^ (f.emin + 2 * f.p + 2) ≤ 1 / 2 ^ 98 ∧ (2 : ℝ) ^ 120 ≤ 2 ^ (f.emax - 3) := by
  constructor
  · rw [one_div, ← zpow_natCast, ← zpow_neg]
    refine zpow_le_zpow_right₀ (by norm_num) ?_
    have := h.emin; push_cast; omega
  · rw [← zpow_natCast]
    refine zpow_le_zpow_right₀ (by norm_num) ?_
    have := h.emax; have := h.p; push_cast; omega

lemma mult_quat (A : XArith) (P : Prec) (a b : XQuat) : A.mult P .quat .quat a b = A.quatMul a b := rfl
lemma fix_quat (A : XArith) (a : XQuat) : A.fix .quat a = A.quatFix a := rfl

/-- **C108 (a).** The product of two quaternions in IEEE arithmetic, with underflow and overflow: unless the product of the lengths is near the
overflow threshold the four coefficients are finite numbers, and the error is relative up to a few units of the smallest number. -/
theorem C108_product (hf : AtLeastFloat f) (P : Prec) (a b : Quat) (h : a.norm * b.norm ≤ 2 ^ (f.emax - 3)) :
    ∃ c, f.arith.mult P .quat .quat (embQ a) (embQ b) = embQ c ∧
      ‖toH c - toH a * toH b‖ ≤ 10 * 2⁻¹ ^ f.p * (a.norm * b.norm) + 16 * 2 ^ (f.emin - 1) := by
  have h1 := (alf_eta hf).2
  have h2 := (alf_uu hf).2
  have h3 := (alf_pow hf).2
  have h4 : f.eta ≤ 1 := by linarith
  obtain ⟨e1, e2⟩ := quatMul_range (alf_ok hf) a b (by
    rw [pow_emax]
    have : (8 : ℝ) ≤ 2 ^ 120 := by norm_num
    linarith)
  exact ⟨_, e1, e2⟩

lemma dirH_norm {q : Quat} (h : toH q ≠ 0) : ‖dirH q‖ = 1 := by
  rw [dirH, norm_smul, norm_inv, norm_norm, inv_mul_cancel₀ (norm_ne_zero_iff.mpr h)]

/-- Normalizing two nearby vectors. -/
lemma dir_diff (x y : Quaternion ℝ) (hy : y ≠ 0) : ‖‖x‖⁻¹ • x - ‖y‖⁻¹ • y‖ ≤ 2 * (‖x - y‖ / ‖y‖) := by
  have hny : 0 < ‖y‖ := norm_pos_iff.mpr hy
  have e : ‖x‖⁻¹ • x - ‖y‖⁻¹ • y = ‖y‖⁻¹ • (x - y) + (‖x‖⁻¹ - ‖y‖⁻¹) • x := by
    rw [smul_sub, sub_smul]; abel
  rw [e]
  refine (norm_add_le _ _).trans ?_
  rw [norm_smul, norm_smul, norm_inv, norm_norm, Real.norm_eq_abs]
  have h2 : |‖x‖⁻¹ - ‖y‖⁻¹| * ‖x‖ ≤ ‖x - y‖ / ‖y‖ := by
    by_cases hx : x = 0
    · rw [hx]; simp; positivity
    have hnx : 0 < ‖x‖ := norm_pos_iff.mpr hx
    have e2 : ‖x‖⁻¹ - ‖y‖⁻¹ = (‖y‖ - ‖x‖) / (‖x‖ * ‖y‖) := by field_simp
    rw [e2, abs_div, abs_of_pos (mul_pos hnx hny), div_mul_eq_mul_div, div_le_div_iff₀ (mul_pos hnx hny) hny]
    have h3 : |‖y‖ - ‖x‖| ≤ ‖x - y‖ := by rw [norm_sub_rev]; exact abs_norm_sub_norm_le y x
    have := mul_le_mul_of_nonneg_right h3 (mul_pos hnx hny).le
    nlinarith
  have h1 : ‖y‖⁻¹ * ‖x - y‖ = ‖x - y‖ / ‖y‖ := by rw [div_eq_inv_mul]
  linarith

/-- **C108 (b).** `fix()` of a quaternion of moderate length in IEEE arithmetic. -/
theorem C108_fix (hf : AtLeastFloat f) (q : Quat) (h1 : 1 / 2 ^ 49 ≤ q.norm) (h2 : q.norm ≤ 2 ^ 60) :
    ∃ c, f.arith.fix .quat (embQ q) = embQ c ∧ ‖toH c - dirH q‖ ≤ 6 * 2⁻¹ ^ f.p ∧ |c.norm - 1| ≤ 6 * 2⁻¹ ^ f.p := by
  have hp := alf_pow hf
  have hu := alf_uu hf
  have he := alf_eta hf
  have n0 : 0 < q.norm := lt_of_lt_of_le (by positivity) h1
  have hq : toH q ≠ 0 := by rw [← norm_ne_zero_iff, norm_toH]; exact n0.ne'
  obtain ⟨c, e, ew, ex, ey, ez⟩ := quatFix_range (alf_ok hf) q (hp.1.trans (by
      calc (1 / 2 ^ 98 : ℝ) = (1 / 2 ^ 49) ^ 2 := by norm_num
        _ ≤ _ := pow_le_pow_left₀ (by positivity) h1 2)) (le_trans (by
      calc q.norm ^ 2 ≤ (2 ^ 60) ^ 2 := pow_le_pow_left₀ n0.le h2 2
        _ = 2 ^ 120 := by norm_num) hp.2)
  have d : ‖toH c - dirH q‖ ≤ 6 * f.uu := by
    have hd : ‖dirH q‖ ^ 2 = 1 := by rw [dirH_norm hq, one_pow]
    have hn : ∀ p : Quaternion ℝ, ‖p‖ ^ 2 = p.re ^ 2 + p.imI ^ 2 + p.imJ ^ 2 + p.imK ^ 2 := fun p => by
      rw [sq, ← Quaternion.normSq_eq_norm_mul_self, Quaternion.normSq_def']
    have e : (dirH q).re = q.w / q.norm ∧ (dirH q).imI = q.x / q.norm ∧ (dirH q).imJ = q.y / q.norm ∧ (dirH q).imK = q.z / q.norm := by
      refine ⟨?_, ?_, ?_, ?_⟩ <;> simp [dirH, norm_toH, div_eq_inv_mul]
    have eu : f.eta ≤ f.uu / 100 := he.2.trans (by have := hu.1; rw [div_le_div_iff₀ (by positivity) (by norm_num)]; nlinarith)
    have key : ‖toH c - dirH q‖ ^ 2 ≤ (6 * f.uu) ^ 2 := by
      rw [hn] at hd ⊢
      rw [e.1, e.2.1, e.2.2.1, e.2.2.2] at hd
      simp only [Quaternion.re_sub, Quaternion.imI_sub, Quaternion.imJ_sub, Quaternion.imK_sub, toH_re, toH_imI, toH_imJ, toH_imK]
      rw [e.1, e.2.1, e.2.2.1, e.2.2.2]
      have k : ∀ {a b : ℝ}, |a - b| ≤ 5 * f.uu * |b| + f.eta → (a - b) ^ 2 ≤ f.uu ^ 2 * (26 * b ^ 2 + 1) := fun {a b} h => by
        have h' : |a - b| ≤ f.uu * (5 * |b| + 1 / 100) := h.trans (by linarith)
        rw [← sq_abs (a - b)]
        refine (pow_le_pow_left₀ (abs_nonneg _) h' 2).trans ?_
        rw [mul_pow]
        refine mul_le_mul_of_nonneg_left ?_ (sq_nonneg _)
        rw [← sq_abs b]
        nlinarith [sq_nonneg (|b| - 1 / 20)]
      have := k ew; have := k ex; have := k ey; have := k ez
      have : (6 * f.uu) ^ 2 = f.uu ^ 2 * (26 * 1 + 10) := by ring
      rw [this, ← hd]
      have := sq_nonneg f.uu
      linarith
    exact abs_le_of_sq_le_sq' key (by linarith [hu.1]) |>.2
  refine ⟨c, e, d, ?_⟩
  have := abs_norm_sub_norm_le (toH c) (dirH q)
  rw [dirH_norm hq, norm_toH] at this
  exact this.trans d

lemma fixedLoop_cons (A : XArith) (P : Prec) (a b : XQuat) (l : List XQuat) :
    fixedLoop A P a (b :: l) = fixedLoop A P (A.fix .quat (A.mult P .quat .quat a b)) l := rfl

lemma prod_dir_norm : ∀ l : List Quat, (∀ q ∈ l, toH q ≠ 0) → ‖(l.map dirH).prod‖ = 1 := by
  intro l
  induction l with
  | nil => intro _; simp
  | cons q l ih =>
    intro h
    rw [List.map_cons, List.prod_cons, norm_mul, dirH_norm (h q (by simp)), ih (fun q hq => h q (by simp [hq])), one_mul]

lemma moderate_ne {q : Quat} (h : Moderate q) : toH q ≠ 0 := by
  rw [← norm_ne_zero_iff, norm_toH]
  exact (lt_of_lt_of_le (by positivity) h.1).ne'

/-- One step of the loop. -/
lemma fixed_step (hf : AtLeastFloat f) (P : Prec) {a b : Quat} (ha : Moderate a) (hb : Moderate b) :
    ∃ c, f.arith.fix .quat (f.arith.mult P .quat .quat (embQ a) (embQ b)) = embQ c ∧ |c.norm - 1| ≤ 6 * f.uu ∧ Moderate c ∧
      ‖toH c - dirH a * dirH b‖ ≤ 27 * f.uu := by
  have hu := alf_uu hf
  have he := alf_eta hf
  have hp := alf_pow hf
  have na := lt_of_lt_of_le (by positivity) ha.1
  have nb := lt_of_lt_of_le (by positivity) hb.1
  have lo : 1 / 2 ^ 40 ≤ a.norm * b.norm := by
    calc (1 / 2 ^ 40 : ℝ) = 1 / 2 ^ 20 * (1 / 2 ^ 20) := by norm_num
      _ ≤ _ := mul_le_mul ha.1 hb.1 (by positivity) na.le
  have hi : a.norm * b.norm ≤ 2 ^ 40 := by
    calc a.norm * b.norm ≤ 2 ^ 20 * 2 ^ 20 := mul_le_mul ha.2 hb.2 nb.le (by positivity)
      _ = _ := by norm_num
  obtain ⟨N, hN⟩ : ∃ N, N = a.norm * b.norm := ⟨_, rfl⟩
  obtain ⟨m, e1, e2⟩ := C108_product hf P a b (hi.trans (le_trans (by norm_num) hp.2))
  change _ ≤ 10 * f.uu * _ + 16 * f.eta at e2
  rw [← hN] at e2 lo hi
  have e3 : ‖toH m - toH a * toH b‖ ≤ 101 / 10 * f.uu * N := by
    refine e2.trans ?_
    have h1 : f.eta ≤ f.uu * (1 / 2 ^ 100) := by rw [mul_one_div]; exact he.2
    have h2 : f.uu * (1 / 2 ^ 100) ≤ f.uu * (N / 1000) := mul_le_mul_of_nonneg_left (by norm_num at lo ⊢; linarith) hu.1.le
    linarith
  have N0 : 0 < N := lt_of_lt_of_le (by positivity) lo
  have nab : ‖toH a * toH b‖ = N := by rw [norm_mul, norm_toH, norm_toH, hN]
  have e4 : |m.norm - N| ≤ 101 / 10 * f.uu * N := by
    have := abs_norm_sub_norm_le (toH m) (toH a * toH b)
    rw [norm_toH, nab] at this
    exact this.trans e3
  have e5 : 101 / 10 * f.uu * N ≤ 1 / 1000 * N := mul_le_mul_of_nonneg_right (by have := hu.2; norm_num at this; linarith) N0.le
  obtain ⟨g1, g2⟩ := abs_le.mp e4
  obtain ⟨c, k1, k2, k3⟩ := C108_fix hf m (by norm_num at lo ⊢; linarith) (by norm_num at hi ⊢; linarith)
  change _ ≤ 6 * f.uu at k2 k3
  refine ⟨c, by rw [e1, k1], k3, ?_, ?_⟩
  · obtain ⟨l1, l2⟩ := abs_le.mp k3
    have := hu.2
    constructor <;> norm_num at this ⊢ <;> linarith
  · have hne : toH a * toH b ≠ 0 := by rw [← norm_ne_zero_iff, nab]; exact N0.ne'
    have d1 := dir_diff (toH m) (toH a * toH b) hne
    have e6 : ‖toH a * toH b‖⁻¹ • (toH a * toH b) = dirH a * dirH b := by
      rw [norm_mul, mul_inv, dirH, dirH, smul_mul_smul_comm]
    rw [e6, nab] at d1
    change ‖dirH m - _‖ ≤ _ at d1
    have d2 : ‖toH m - toH a * toH b‖ / N ≤ 101 / 10 * f.uu := by rw [div_le_iff₀ N0]; exact e3
    have := norm_sub_le_norm_sub_add_norm_sub (toH c) (dirH m) (dirH a * dirH b)
    linarith [hu.1]

lemma dir_self {c : Quat} (h : Moderate c) : ‖toH c - dirH c‖ = |c.norm - 1| := by
  have hp : 0 < ‖toH c‖ := norm_pos_iff.mpr (moderate_ne h)
  have e2 : toH c - dirH c = (1 - ‖toH c‖⁻¹) • toH c := by rw [sub_smul, one_smul, dirH]
  rw [e2, norm_smul, Real.norm_eq_abs, ← abs_of_pos hp, ← abs_mul, abs_of_pos hp, sub_mul, one_mul, inv_mul_cancel₀ hp.ne', norm_toH]

lemma loop_main (hf : AtLeastFloat f) (P : Prec) : ∀ (l : List Quat) (a : Quat), Moderate a → (∀ r ∈ l, Moderate r) →
    ∃ c, fixedLoop f.arith P (embQ a) (l.map embQ) = embQ c ∧ Moderate c ∧ (|a.norm - 1| ≤ 6 * f.uu ∨ l ≠ [] → |c.norm - 1| ≤ 6 * f.uu) ∧
      ‖dirH c - exactDirection a l‖ ≤ l.length * (33 * f.uu) := by
  intro l
  induction l with
  | nil => intro a ha _; exact ⟨a, rfl, ha, by simp, by simp [exactDirection]⟩
  | cons q l ih =>
    intro a ha h
    have hq := h q (by simp)
    obtain ⟨b, s1, s2, s3, s4⟩ := fixed_step hf P ha hq
    obtain ⟨c, i1, i2, i3, i4⟩ := ih b s3 (fun q hq => h q (by simp [hq]))
    refine ⟨c, ?_, i2, fun _ => i3 (Or.inl s2), ?_⟩
    · rw [List.map_cons, fixedLoop_cons, s1, i1]
    · have e2 : exactDirection b l - exactDirection a (q :: l) = (dirH b - dirH a * dirH q) * (l.map dirH).prod := by
        rw [exactDirection, exactDirection, List.map_cons, List.prod_cons, sub_mul, mul_assoc (dirH a)]
      have e3 : ‖exactDirection b l - exactDirection a (q :: l)‖ ≤ 33 * f.uu := by
        rw [e2, norm_mul, prod_dir_norm l (fun q hq => moderate_ne (h q (by simp [hq]))), mul_one]
        have h1 := norm_sub_le_norm_sub_add_norm_sub (dirH b) (toH b) (dirH a * dirH q)
        rw [norm_sub_rev (dirH b) (toH b), dir_self s3] at h1
        linarith
      have := norm_sub_le_norm_sub_add_norm_sub (dirH c) (exactDirection b l) (exactDirection a (q :: l))
      push_cast [List.length_cons]
      linarith

/-- **C108 (c).** The loop `q = q * qᵢ; q.fix();` in IEEE arithmetic, with underflow and overflow, for start values and factors of any length between
`1e-6` and `1e6`: however long it runs, all coefficients stay finite numbers, the length stays within six roundings of one, the debug build
accepts the value, and the value is within `33 n + 6` roundings of the exact product of the directions. -/
theorem C108_loop (hf : AtLeastFloat f) (P : Prec) (q : Quat) (l : List Quat) (hq : Moderate q) (hl : ∀ r ∈ l, Moderate r) (hne : l ≠ []) :
    ∃ c, fixedLoop f.arith P (embQ q) (l.map embQ) = embQ c ∧ |c.norm - 1| ≤ 6 * 2⁻¹ ^ f.p ∧ f.arith.quatCtorDbg (embQ c) = .ok (embQ c) ∧
      ‖toH c - exactDirection q l‖ ≤ (33 * l.length + 6) * 2⁻¹ ^ f.p := by
  obtain ⟨c, h1, h2, h3, h4⟩ := loop_main hf P l q hq hl
  have h5 := h3 (Or.inr hne)
  refine ⟨c, h1, h5, ?_, ?_⟩
  · have hu := alf_uu hf
    have u1 : f.uu ≤ 1 / 10 ^ 7 := by have := hu.2; norm_num at this ⊢; linarith
    obtain ⟨a1, a2⟩ := abs_le.mp h5
    have nn : c.norm ^ 2 = c.w ^ 2 + c.x ^ 2 + c.y ^ 2 + c.z ^ 2 := by
      rw [Quat.norm, Real.sq_sqrt] <;> unfold Quat.normSq
      · ring
      · nlinarith [sq_nonneg c.w, sq_nonneg c.x, sq_nonneg c.y, sq_nonneg c.z]
    obtain ⟨N, k1, k2⟩ := quatNorm_err (alf_ok hf) hf.p (q := c) (n := c.norm) (Real.sqrt_nonneg _) nn (by linarith) (by linarith)
    obtain ⟨b1, b2⟩ := abs_le.mp k2
    exact (dbg_check (alf_ok hf) hf.p k1 (by linarith) (by linarith)).1 (by rw [abs_le]; constructor <;> linarith)
  · have h6 := norm_sub_le_norm_sub_add_norm_sub (toH c) (dirH c) (exactDirection q l)
    rw [dir_self h2] at h6
    change _ ≤ _ * f.uu
    linarith

/-! ## Without renormalization -/

lemma quat_norm_eq (c : Quat) : c.norm ^ 2 = c.w ^ 2 + c.x ^ 2 + c.y ^ 2 + c.z ^ 2 := by
  rw [Quat.norm, Real.sq_sqrt] <;> unfold Quat.normSq
  · ring
  · nlinarith [sq_nonneg c.w, sq_nonneg c.x, sq_nonneg c.y, sq_nonneg c.z]

lemma products_main (hf : AtLeastFloat f) (P : Prec) (g : ℝ) (q : Quat) (hg : 1 ≤ g) (hq : q.norm ≤ g) (l : List Quat) :
    (∀ r ∈ l, r.norm * (1 + 10 * f.uu) ≤ g) → g ^ (l.length + 1) ≤ 2 → l.length * (101 / 10 * f.uu) ≤ 1 →
    ∃ c, productLoop f.arith P (embQ q) (l.map embQ) = embQ c ∧ ‖toH q * (l.map toH).prod‖ ≤ g ^ (l.length + 1) ∧
      ‖toH c - toH q * (l.map toH).prod‖ ≤ l.length * (101 / 10 * f.uu) * g ^ (l.length + 1) := by
  have hu := alf_uu hf
  have he := alf_eta hf
  have hp := alf_pow hf
  induction l using List.reverseRecOn with
  | nil => intro _ _ _; exact ⟨q, rfl, by simpa [norm_toH] using hq, by simp⟩
  | append_singleton l r ih =>
    intro h1 h2 h3
    simp only [List.length_append, List.length_singleton] at h2 h3 ⊢
    push_cast at h3 ⊢
    have hr := h1 r (by simp)
    have g0 : (0 : ℝ) < g := by linarith
    have gp : (1 : ℝ) ≤ g ^ (l.length + 1) := one_le_pow₀ hg
    have gs : g ^ (l.length + 1 + 1) = g ^ (l.length + 1) * g := pow_succ _ _
    have g2 : g ^ (l.length + 1) ≤ 2 := by
      refine le_trans ?_ h2
      rw [gs]; exact le_mul_of_one_le_right (by positivity) hg
    obtain ⟨c, i1, i2, i3⟩ := ih (fun r hr => h1 r (by simp [hr])) g2 (by linarith [hu.1])
    obtain ⟨G, hG⟩ : ∃ G, G = g ^ (l.length + 1) := ⟨_, rfl⟩
    obtain ⟨X, hX⟩ : ∃ X, X = toH q * (l.map toH).prod := ⟨_, rfl⟩
    rw [← hX, ← hG] at i2 i3
    rw [← hG] at gp gs g2
    have n0 : (0 : ℝ) ≤ l.length := Nat.cast_nonneg _
    have k0 : 0 ≤ l.length * (101 / 10 * f.uu) := mul_nonneg n0 (by linarith [hu.1])
    have r0 : 0 ≤ r.norm := Real.sqrt_nonneg _
    have c0 : 0 ≤ c.norm := Real.sqrt_nonneg _
    have cn : c.norm ≤ G + l.length * (101 / 10 * f.uu) * G := by
      rw [← norm_toH]
      have := norm_add_le (toH c - X) X
      rw [sub_add_cancel] at this
      linarith
    have k1 : l.length * (101 / 10 * f.uu) ≤ 1 := by linarith [hu.1]
    have cn4 : c.norm ≤ 4 := by
      have : l.length * (101 / 10 * f.uu) * G ≤ 1 * G := mul_le_mul_of_nonneg_right k1 (by linarith)
      linarith
    have r1 : r.norm ≤ g := le_trans (le_mul_of_one_le_right r0 (by linarith [hu.1])) hr
    have gle : g ≤ 2 := by
      have : 1 * g ≤ G * g := mul_le_mul_of_nonneg_right gp g0.le
      rw [gs] at h2; linarith
    obtain ⟨d, e1, e2⟩ := C108_product hf P c r (by
      have : c.norm * r.norm ≤ 4 * 2 := mul_le_mul cn4 (r1.trans gle) r0 (by norm_num)
      have h8 : (8 : ℝ) ≤ 2 ^ 120 := by norm_num
      linarith [hp.2])
    change _ ≤ 10 * f.uu * _ + 16 * f.eta at e2
    have es : 16 * f.eta ≤ f.uu / 100 := by
      have : f.eta ≤ f.uu * (1 / 2 ^ 100) := by rw [mul_one_div]; exact he.2
      have h2 : f.uu * (1 / 2 ^ 100) ≤ f.uu * (1 / 1600) := mul_le_mul_of_nonneg_left (by norm_num) hu.1.le
      linarith
    refine ⟨d, ?_, ?_, ?_⟩
    · unfold productLoop at i1 ⊢
      rw [List.map_append, List.foldl_append, i1]; exact e1
    · rw [List.map_append, List.prod_append, ← mul_assoc, ← hX, gs, norm_mul]
      simp only [List.map_cons, List.map_nil, List.prod_cons, List.prod_nil, mul_one, norm_toH]
      exact mul_le_mul i2 r1 r0 (by linarith)
    · rw [List.map_append, List.prod_append, ← mul_assoc, ← hX, gs]
      simp only [List.map_cons, List.map_nil, List.prod_cons, List.prod_nil, mul_one]
      have t1 := norm_sub_le_norm_sub_add_norm_sub (toH d) (toH c * toH r) (X * toH r)
      have t2 : ‖toH c * toH r - X * toH r‖ ≤ l.length * (101 / 10 * f.uu) * G * r.norm := by
        rw [← sub_mul, norm_mul, norm_toH r]
        exact mul_le_mul_of_nonneg_right i3 r0
      have t3 : 10 * f.uu * (c.norm * r.norm) ≤ 10 * f.uu * ((G + l.length * (101 / 10 * f.uu) * G) * r.norm) :=
        mul_le_mul_of_nonneg_left (mul_le_mul_of_nonneg_right cn r0) (by linarith [hu.1])
      have t4 : l.length * (101 / 10 * f.uu) * G * (r.norm * (1 + 10 * f.uu)) ≤ l.length * (101 / 10 * f.uu) * G * g :=
        mul_le_mul_of_nonneg_left hr (mul_nonneg k0 (by linarith))
      have t5 : 10 * f.uu * (G * r.norm) ≤ 10 * f.uu * (G * g) :=
        mul_le_mul_of_nonneg_left (mul_le_mul_of_nonneg_left r1 (by linarith)) (by linarith [hu.1])
      have t6 : f.uu / 100 ≤ 1 / 10 * f.uu * (G * g) := by
        have : 1 * 1 ≤ G * g := mul_le_mul gp hg (by norm_num) (by linarith)
        have := mul_le_mul_of_nonneg_left this hu.1.le
        linarith [hu.1]
      linarith

/-- **C108 (d).** The loop `q = q * qᵢ;` without renormalization, for factors that are unit up to `δ`: as long as `(n+1) (13 · 2⁻ᵖ + δ) ≤ 1/4`
nothing overflows and the value is within `14 n` roundings of the exact product of the stored factors. -/
theorem C108_products (hf : AtLeastFloat f) (P : Prec) (δ : ℝ) (h0 : 0 ≤ δ) (q : Quat) (l : List Quat) (hq : q.norm ≤ 1 + δ)
    (hl : ∀ r ∈ l, r.norm ≤ 1 + δ) (hn : (l.length + 1) * (13 * 2⁻¹ ^ f.p + δ) ≤ 1 / 4) :
    ∃ c, productLoop f.arith P (embQ q) (l.map embQ) = embQ c ∧
      ‖toH c - toH q * (l.map toH).prod‖ ≤ 14 * l.length * 2⁻¹ ^ f.p := by
  have hu := alf_uu hf
  change (l.length + 1) * (13 * f.uu + δ) ≤ 1 / 4 at hn
  have n0 : (0 : ℝ) ≤ l.length := Nat.cast_nonneg _
  have hd : 13 * f.uu + δ ≤ 1 / 4 := by
    have : 0 ≤ (l.length : ℝ) * (13 * f.uu + δ) := mul_nonneg n0 (by linarith [hu.1])
    linarith
  have gpow : (1 + (13 * f.uu + δ)) ^ (l.length + 1) ≤ 13 / 10 := by
    have h1 := Real.add_one_le_exp (13 * f.uu + δ)
    rw [add_comm] at h1
    have h2 := pow_le_pow_left₀ (by linarith [hu.1]) h1 (l.length + 1)
    rw [← Real.exp_nat_mul] at h2
    refine h2.trans ((Real.exp_le_exp.mpr (by push_cast; exact hn)).trans ?_)
    have := Real.exp_bound' (x := 1 / 4) (by norm_num) (by norm_num) (n := 3) (by norm_num)
    refine this.trans ?_
    simp [Finset.sum_range_succ, Nat.factorial]; norm_num
  have ln : (l.length : ℝ) * (13 * f.uu) ≤ 1 / 4 := by
    have : (0 : ℝ) ≤ (l.length : ℝ) * δ := mul_nonneg n0 h0
    linarith [hu.1]
  obtain ⟨c, h1, -, h3⟩ := products_main hf P (1 + (13 * f.uu + δ)) q (by linarith [hu.1]) (by linarith [hu.1]) l
    (fun r hr => by
      have := hl r hr
      have h4 : r.norm * (1 + 10 * f.uu) ≤ (1 + δ) * (1 + 10 * f.uu) := mul_le_mul_of_nonneg_right this (by linarith [hu.1])
      have h5 : δ * f.uu ≤ 1 / 4 * f.uu := mul_le_mul_of_nonneg_right (by linarith [hu.1]) hu.1.le
      linarith)
    (gpow.trans (by norm_num)) (by have := mul_nonneg n0 hu.1.le; linarith)
  refine ⟨c, h1, h3.trans ?_⟩
  change _ ≤ 14 * l.length * f.uu
  have k0 : 0 ≤ l.length * (101 / 10 * f.uu) := mul_nonneg n0 (by linarith [hu.1])
  have := mul_le_mul_of_nonneg_left gpow k0
  have := mul_nonneg n0 hu.1.le
  linarith

end Format
end Kindr
